/-
What a parser in a given state holds, callbacks that only observe, and equal outcomes.
-/
import Verif.SpecTrace
import Verif.Model.Api

namespace SJ

/-- The callbacks accept everything, pop nothing and assign nothing. (No callbacks at all is a special case.) -/
structure Passive (E : Env) : Prop where
  fin : ∀ p cb, E.onFinish p = some cb → ∀ l a, (cb l a).verdict = .accept ∧ (cb l a).pops = [] ∧ (cb l a).newVal = none
  elem : ∀ p cb, E.onElement p = some cb → ∀ l k a, (cb l k a).verdict = .accept ∧ (cb l k a).pops = []

mutual
/-- The parser at `p` holds `d`. -/
def Holds (h : Heap) (p : Path) : D → Prop
  | .unset => (h p).set = false
  | .val v => (h p).set = true ∧ (h p).val = v
  | .obj v ds => (h p).set = true ∧ (∀ w, v = some w → (h p).val = w) ∧ HoldsL h p 0 ds
  | .alt n d => (h p).set = true ∧ (h p).curId = n ∧ Holds h (.mem n :: p) d
  | .done => (h p).set = true
/-- The members from number `n` on hold the listed results. -/
def HoldsL (h : Heap) (p : Path) (n : Nat) : List D → Prop
  | [] => True
  | d :: ds => Holds h (.mem n :: p) d ∧ HoldsL h p (n + 1) ds
end

/-- The value returned, if there was no exception. -/
def Res.value? {α} : Res α → Option α
  | .ok a _ => some a
  | _ => none

/-- Parsing the document `j` from the states `s` and `s'` gives the same outcome: the same exception; or both succeed, all
parsers are finished, and the root holds the same: `isSet()` and `get()` agree, and so do (through `d`) those of the
members of an object or union. In both cases the callbacks called are those of `denoteT`. -/
def SameOutcome (E : Env) (R : Shape) (j : Json) (s s' : St) : Prop :=
    (∃ e t t', run E R (events j) s = .throw e t ∧ run E R (events j) s' = .throw e t' ∧
      Logged E (denoteT E.fmtDbl R [] j).calls s.log t.log ∧ Logged E (denoteT E.fmtDbl R [] j).calls s'.log t'.log) ∨
    (∃ t t' d, run E R (events j) s = .ok () t ∧ run E R (events j) s' = .ok () t' ∧ t.stack = [] ∧ t'.stack = [] ∧
      isSet [] t = isSet [] t' ∧ (R.isStorage = true → (get [] t).value? = (get [] t').value?) ∧
      denote E.fmtDbl R j = .ok d ∧ Holds t.heap [] d ∧ Holds t'.heap [] d ∧
      Logged E (denoteT E.fmtDbl R [] j).calls s.log t.log ∧ Logged E (denoteT E.fmtDbl R [] j).calls s'.log t'.log)

end SJ
