/-
User's types (C60): a tree of `SCustomObject`s, the callbacks of which build the stored value from the values of the members, compared with the tree of
`SAutoObject`s that has the same members. The values of the latter are nested tuples; `convert` turns such a value into the user's value by
applying the user's functions from the inside outwards.
-/
import Verif.SpecActive
import Verif.SpecRound

namespace SJ

/-- The functions that build a user's value from the values of the members, one for every object (by its place in the tree) that has a user's type. -/
abbrev Builders := Path → Option (List Val → Val)

mutual
/-- The value of a tree of `SAutoObject`s, turned into the value with the user's types. -/
def convert (B : Builders) (p : Path) : Shape → Val → Val
  | .value _, v => v
  | .ignore, v => v
  | .object _ _ ms, v => match v with
    | .tup vs => match B p with
      | some b => b (convertMs B p 0 ms vs)
      | none => .tup (convertMs B p 0 ms vs)
    | v => v
  | .union _ _ _ ms, v => match v with
    | .alt n w => .alt n (convertAlt B p 0 ms n w)
    | v => v
  | .array _ e, v => match v with
    | .arr l => .arr (l.map (convert B (.elem :: p) e))
    | v => v
  | .map _ e, v => match v with
    | .map l => .map (l.map fun kv => (kv.1, convert B (.elem :: p) e kv.2))
    | v => v
/-- The values of the members from number `n` on. -/
def convertMs (B : Builders) (p : Path) (n : Nat) : List (MInfo × Shape) → List Val → List Val
  | (_, sh) :: ms, v :: vs => convert B (.mem n :: p) sh v :: convertMs B p (n + 1) ms vs
  | _, _ => []
/-- The value of one alternative. -/
def convertAlt (B : Builders) (p : Path) (n : Nat) : List (MInfo × Shape) → Nat → Val → Val
  | [], _, w => w
  | (_, sh) :: _, 0, w => convert B (.mem n :: p) sh w
  | _ :: ms, a + 1, w => convertAlt B p (n + 1) ms a w
end

mutual
/-- The tree of `SAutoObject`s in which the objects with a user's type are made `SCustomObject`s. Default values are converted as well. -/
def customize (B : Builders) (p : Path) : Shape → Shape
  | .object k u ms => .object (if (B p).isSome then .custom else k) u (customizeMs B p 0 ms)
  | .union ty tm st ms => .union ty tm st (customizeMs B p 0 ms)
  | .array st e => .array st (customize B (.elem :: p) e)
  | .map st e => .map st (customize B (.elem :: p) e)
  | .value ty => .value ty
  | .ignore => .ignore
def customizeMs (B : Builders) (p : Path) (n : Nat) : List (MInfo × Shape) → List (MInfo × Shape)
  | [] => []
  | (i, sh) :: ms =>
    ({ i with dflt := i.dflt.map (convert B (.mem n :: p) sh) }, customize B (.mem n :: p) sh) :: customizeMs B p (n + 1) ms
end

mutual
/-- Everything in the tree is stored: `Value`, `SArray`, `SMap`, `SUnion`, `SAutoObject`. -/
def allStored : Shape → Bool
  | .value _ => true
  | .ignore => false
  | .object k _ ms => k == .auto && allStoredMs ms
  | .union _ _ st ms => st && allStoredMs ms
  | .array st e => st && allStored e
  | .map st e => st && allStored e
def allStoredMs : List (MInfo × Shape) → Bool
  | [] => true
  | (_, sh) :: ms => allStored sh && allStoredMs ms
end

/-- What the callback of an `SCustomObject` with the members `ms` gets from `get<n>()` or `pop<n>()`, when the members hold `ds`: the value of the member
or, if it is unset, its default value. -/
def memberValues (ms : List (MInfo × Shape)) (ds : List D) : List Val := (ms.zip ds).map fun x => (x.2.value?.or x.1.1.dflt).getD .init

/-- The callbacks `F` of the tree `customize B [] R` build the user's values with the functions `B`: the finish callback of an object with a user's type accepts
and assigns what its function makes of the values of the members (it may pop members, at any depth); every optional member of such an
object has a default value. All other callbacks accept and pop nothing. -/
structure Builds (F : Handlers) (B : Builders) (R : Shape) : Prop where
  building : ∀ q b, B q = some b → ∃ u ms f, R.at q = some (.object .auto u ms) ∧ (∀ x ∈ ms, x.1.optional = true → x.1.dflt.isSome = true) ∧
    F.onFinish q = some f ∧ ∀ l ds, (f l (.obj (some .init) ds)).verdict = .accept ∧
      (f l (.obj (some .init) ds)).newVal = some (b (memberValues (customizeMs B q 0 ms) ds)) ∧ [] ∉ (f l (.obj (some .init) ds)).pops
  others : ∀ q f, B q = none → F.onFinish q = some f → ∀ l d, (f l d).verdict = .accept ∧ (f l d).pops = []
  elements : ∀ q f, F.onElement q = some f → ∀ l k d, (f l k d).verdict = .accept ∧ (f l k d).pops = []

end SJ
