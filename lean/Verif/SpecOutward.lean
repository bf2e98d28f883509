/-
C58: the order of the callbacks of one token.
-/
import Verif.SpecHistory

namespace SJ

/-- The parser whose callback it is. -/
def Call.owner : Call → Path
  | .finish p _ => p
  | .element p _ _ => p

/-- The element callback of a map (not a finish callback). -/
def Call.isElement : Call → Bool
  | .finish _ _ => false
  | .element _ _ _ => true

/-- `later` goes on outwards after `earlier`: it belongs to a parser around that of `earlier`, or `earlier` is the element callback of a map and `later` its finish callback. -/
def Outwards (later earlier : Call) : Prop :=
  InsideOf earlier.owner later.owner ∨ (later.owner = earlier.owner ∧ earlier.isElement = true ∧ later.isElement = false)

/-- What was called between two states, latest first. -/
def CallsOutwards (s s' : St) : Prop := ∃ new : List Call, s'.log = new ++ s.log ∧ new.Pairwise Outwards

end SJ
