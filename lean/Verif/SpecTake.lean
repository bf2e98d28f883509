/-
Callbacks that take streamed values out of their parsers (C66): vocabulary.
-/
import Verif.SpecActive

namespace SJ

/-- The parser at `p` is the element parser of an `Array` (one that does not store its elements). -/
def StreamedElement (R : Shape) (p : Path) : Prop := ∃ q e, p = .elem :: q ∧ R.at q = some (.array false e)

/-- The parser at `q` is a `Map` (one that does not store its elements). -/
def StreamedEntries (R : Shape) (q : Path) : Prop := ∃ e, R.at q = some (.map false e)

/-- The same callbacks, but for what the finish callbacks of the elements of `Array`s and the element callbacks of `Map`s do with the parser they are given:
what they take out of it or assign to it. They answer the same. -/
structure SameButTaken (R : Shape) (F F' : Handlers) : Prop where
  fmt : F.fmtDbl = F'.fmtDbl
  finish : ∀ p, F.onFinish p = F'.onFinish p ∨
    StreamedElement R p ∧ ∃ f f', F.onFinish p = some f ∧ F'.onFinish p = some f' ∧ ∀ l d, (f l d).verdict = (f' l d).verdict
  element : ∀ q, F.onElement q = F'.onElement q ∨
    StreamedEntries R q ∧ ∃ f f', F.onElement q = some f ∧ F'.onElement q = some f' ∧ ∀ l k d, (f l k d).verdict = (f' l k d).verdict

/-- All callbacks accept, and only the finish callbacks of the elements of `Array`s and the element callbacks of `Map`s take anything out of the parsers they
are given (or assign to them). -/
structure OnlyStreamedTaken (R : Shape) (F : Handlers) : Prop where
  finish : ∀ p f, F.onFinish p = some f → ∀ l d, (f l d).verdict = .accept ∧ (¬ StreamedElement R p → (f l d).pops = [] ∧ (f l d).newVal = none)
  element : ∀ q f, F.onElement q = some f → ∀ l k d, (f l k d).verdict = .accept ∧ (¬ StreamedEntries R q → (f l k d).pops = [] ∧ (f l k d).newVal = none)

/-- The calls of the finish callback at `q` among these (latest first): the values its parser held when it was called, earliest first. -/
def taken (q : Path) : List Ev → List (Option Val)
  | [] => []
  | .finish q' d :: l => if q' = q then taken q l ++ [d.value?] else taken q l
  | .element _ _ _ :: l => taken q l

/-- The same for the element callback of the map at `q`: keys and values. -/
def takenPairs (q : Path) : List Ev → List (String × Option Val)
  | [] => []
  | .element q' k d :: l => if q' = q then takenPairs q l ++ [(k, d.value?)] else takenPairs q l
  | .finish _ _ :: l => takenPairs q l

end SJ
