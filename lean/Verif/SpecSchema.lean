/-
Parser trees that describe the same documents (C72).
-/
import Verif.SpecConform

namespace SJ

/-- The members `ms` and `ms'`, one to one: number `n` of the first is number `to n` of the second, and number `n` of the second is number `back n` of the first. -/
structure Matching (to back : Nat → Nat) (ms ms' : List (MInfo × Shape)) : Prop where
  into : ∀ n, n < ms.length → to n < ms'.length
  from' : ∀ n, n < ms'.length → back n < ms.length
  left : ∀ n, n < ms.length → back (to n) = n
  right : ∀ n, n < ms'.length → to (back n) = n

/-- `Value`s, arrays and maps hold a value after each value they accept, but null. -/
def Shape.always : Shape → Bool
  | .value _ | .array _ _ | .map _ _ => true
  | _ => false

/-- Two parser trees with the same schema: members of objects and alternatives of unions may be declared in another order, at all depths; a parser may store its value or not,
the default values may be others, as long as this does not make a member dispensable that was not, or the other way round; elements of an `SArray` must have values, so that
`Array` and `SArray` can stand for each other if all values but null give one. -/
inductive SameSchema : Shape → Shape → Prop
  | value (ty : ScalarTy) : SameSchema (.value ty) (.value ty)
  | ignore : SameSchema .ignore .ignore
  | array {st st' : Bool} {e e' : Shape} (elem : SameSchema e e') (values : st = st' ∨ e.always = true) : SameSchema (.array st e) (.array st' e')
  | map {st : Bool} {e e' : Shape} (elem : SameSchema e e') : SameSchema (.map st e) (.map st e')
  | object {k k' : ObjKind} {u : Bool} {ms ms' : List (MInfo × Shape)} (to back : Nat → Nat) (mat : Matching to back ms ms')
      (names : ∀ n i m i' m', ms[n]? = some (i, m) → ms'[to n]? = some (i', m') → i.name = i'.name)
      (missing : ∀ n i m i' m', ms[n]? = some (i, m) → ms'[to n]? = some (i', m') → (Dispensable (k == .auto) i ↔ Dispensable (k' == .auto) i'))
      (parsers : ∀ n i m i' m', ms[n]? = some (i, m) → ms'[to n]? = some (i', m') → SameSchema m m') :
      SameSchema (.object k u ms) (.object k' u ms')
  | union {ty : ScalarTy} {tm : String} {st st' : Bool} {ms ms' : List (MInfo × Shape)} (to back : Nat → Nat) (mat : Matching to back ms ms')
      (names : ∀ n i m i' m', ms[n]? = some (i, m) → ms'[to n]? = some (i', m') → i.name = i'.name)
      (missing : ∀ n i m i' m', ms[n]? = some (i, m) → ms'[to n]? = some (i', m') → (Dispensable st i ↔ Dispensable st' i'))
      (parsers : ∀ n i m i' m', ms[n]? = some (i, m) → ms'[to n]? = some (i', m') → SameSchema m m') :
      SameSchema (.union ty tm st ms) (.union ty tm st' ms')

end SJ
