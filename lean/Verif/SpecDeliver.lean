/-
What a streaming parser hands to its callback (C62).
-/
import Verif.SpecTrace
import Verif.SpecObjects

namespace SJ

/-- The value a callback reads from the parser reference it is given: nothing if the parser is unset or stores nothing. -/
def Snap.value? : Snap → Option Val
  | .node set _ val _ _ => if set then val else none

/-- The value a finish callback is given or reads from the parser reference it is given. -/
def Arg.value? : Arg → Option Val
  | .val v => some v
  | .parser s => s.value?

/-- The calls of the finish callback at `q` among these calls (latest first): the values it was given, earliest first. -/
def delivered (q : Path) : List Call → List (Option Val)
  | [] => []
  | .finish q' a :: l => if q' = q then delivered q l ++ [a.value?] else delivered q l
  | .element _ _ _ :: l => delivered q l

/-- The calls of the element callback of the map at `q` among these calls (latest first): the keys and values it was given, earliest first. -/
def deliveredPairs (q : Path) : List Call → List (String × Option Val)
  | [] => []
  | .element q' k s :: l => if q' = q then deliveredPairs q l ++ [(k, s.value?)] else deliveredPairs q l
  | .finish _ _ :: l => deliveredPairs q l

/-- How many elements of an array are not null. -/
def present (l : List Json) : Nat := (l.filter fun j => !j.isNull).length

end SJ
