/-
Which parsers of a tree a document can get to.
-/
import Verif.SpecState
import Verif.SpecConform
import Verif.SpecRound

namespace SJ

/-- Arrays and objects. -/
def Json.composite : Json → Bool
  | .arr _ => true
  | .obj _ => true
  | _ => false

/-- A document can get to the parser at `p`: `Accessible R false p` if a value of it can come next, `Accessible R true p` if fields for it can come next
(it is an alternative of a union, and the type value has been read). -/
inductive Accessible (R : Shape) : Bool → Path → Prop
  | root : Accessible R false []
  /-- A member of an object, by its name. -/
  | member {b p k u ms key n m} : Accessible R b p → R.at p = some (.object k u ms) → lookup (.str key) 0 ms = some (n, m) →
      Accessible R false (.mem n :: p)
  /-- The elements of a map. -/
  | entry {b p st e} : Accessible R b p → R.at p = some (.map st e) → Accessible R false (.elem :: p)
  /-- The elements of an array. -/
  | element {p st e} : Accessible R false p → R.at p = some (.array st e) → Accessible R false (.elem :: p)
  /-- An alternative of a union, by its type value. -/
  | alternative {b p ty tm st ms x n m} : Accessible R b p → R.at p = some (.union ty tm st ms) → tm ≠ "" → x.ty = ty → lookup x 0 ms = some (n, m) →
      Accessible R true (.mem n :: p)
  /-- An alternative of a union embedded into an object. -/
  | embedded {b p k u ms key n ty st ms' x n' m} : Accessible R b p → R.at p = some (.object k u ms) → lookup (.str key) 0 ms = some (n, .union ty "" st ms') →
      x.ty = ty → lookup x 0 ms' = some (n', m) → Accessible R true (.mem n' :: .mem n :: p)
  /-- An alternative of a union that is the element of a map. -/
  | embeddedEntry {b p st ty st' ms' x n' m} : Accessible R b p → R.at p = some (.map st (.union ty "" st' ms')) → x.ty = ty →
      lookup x 0 ms' = some (n', m) → Accessible R true (.mem n' :: .elem :: p)

/-- Every parser of the tree is where a document can get to: unions without a type member of their own are members of objects or elements of maps; the alternatives
of a union read fields (no arrays), and their names are equal to themselves (no NaN). -/
structure Placed (R : Shape) : Prop where
  root : R.isEmbedded = false
  array : ∀ p b e, R.at p = some (.array b e) → e.isEmbedded = false
  union : ∀ p ty tm b ms, R.at p = some (.union ty tm b ms) → ∀ x ∈ ms, x.2.isEmbedded = false ∧ (∀ b e, x.2 ≠ .array b e) ∧ x.1.name.cppEq x.1.name = true

end SJ
