/-
Vocabulary for the properties of objects and maps: fields by name, what each member holds.
-/
import Verif.Spec

namespace SJ

/-- The value of the last field with this name. -/
def lastField (k : String) : List (String × Json) → Option Json
  | [] => none
  | (k', v) :: fs => (lastField k fs).or (if k' = k then some v else none)

/-- The value of the first field with this name. -/
def firstField (k : String) : List (String × Json) → Option Json
  | [] => none
  | (k', v) :: fs => if k' = k then some v else firstField k fs

/-- No two members have the same name (see C32: the constructor of an object throws otherwise). -/
def DistinctNames (ms : List (MInfo × Shape)) : Prop :=
  ∀ (a b : Nat) x y, ms[a]? = some x → ms[b]? = some y → x.1.name.cppEq y.1.name = true → a = b

/-- No member is an embedded union. -/
def NoEmbedded (ms : List (MInfo × Shape)) : Prop := ∀ x ∈ ms, ∀ ty st ms', x.2 ≠ .union ty "" st ms'

/-- Every field is either unknown and ignored, or accepted by its member's parser. -/
def FieldsOk (fmt : Dbl → String) (unknownErr : Bool) (ms : List (MInfo × Shape)) (fs : List (String × Json)) : Prop :=
  ∀ kv ∈ fs, match lookup (.str kv.1) 0 ms with
    | some (_, m) => ∃ d, denote fmt m kv.2 = .ok d
    | none => unknownErr = false

/-- What a member holds after the fields `fs`: what its parser makes of the last field with its name. -/
def memberHolds (fmt : Dbl → String) (fs : List (String × Json)) (x : MInfo × Shape) : D :=
  match x.1.name with
  | .str k =>
    match lastField k fs with
    | none => .unset
    | some j =>
      match denote fmt x.2 j with
      | .ok d => d
      | .error _ => .unset
  | _ => .unset

/-- The entry with this key. -/
def entry (k : String) (l : List (String × Val)) : Option Val := (l.find? fun e => e.1 = k).map (·.2)

/-- Keys in strictly increasing order. -/
def SortedKeys (l : List (String × Val)) : Prop := l.Pairwise fun a b => a.1 < b.1

/-- Two lists of the same length, related element by element. -/
inductive Each {α β} (P : α → β → Prop) : List α → List β → Prop
  | nil : Each P [] []
  | cons {a b l l'} : P a b → Each P l l' → Each P (a :: l) (b :: l')

def Json.isNull : Json → Bool
  | .null => true
  | _ => false

end SJ
