/-
What C69 counts against.
-/
import Verif.Model.Basic

namespace SJ

/-- How many arrays are directly in each other, from this parser on: 0 if it is not an array, 1 for an array of something else, 2 for an array of arrays of something
else... -/
def Shape.chain : Shape → Nat
  | .array _ e => e.chain + 1
  | _ => 0

/-- No more than `k` arrays of the tree are directly in each other. -/
def ChainsUpTo (R : Shape) (k : Nat) : Prop := ∀ p sh, R.at p = some sh → sh.chain ≤ k

end SJ
