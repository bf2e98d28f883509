/-
Documents with repeated fields that make no difference (C70).
-/
import Verif.Spec

namespace SJ

/-- The member number `n` has a field among these, which are given to an object with the members `ms` (those after the type field of an embedded union are not). -/
def again (ms : List (MInfo × Shape)) (n : Nat) : List (String × Json) → Bool
  | [] => false
  | (k, v) :: fs =>
    match lookup (.str k) 0 ms with
    | some (n', m) => n' == n || ((embedded m v).isNone && again ms n fs)
    | none => again ms n fs

mutual
/-- `FewerRepeats sh j j'`: given to the parser `sh`, the value `j'` is `j` without some of the fields, at all depths, that are repeated: fields of a member of an object
that has another field later, and fields of an `SMap` the key of which was there before. -/
inductive FewerRepeats : Shape → Json → Json → Prop
  | same (sh : Shape) (j : Json) : FewerRepeats sh j j
  | array (st : Bool) {e : Shape} {l l' : List Json} : ElemsFewer e l l' → FewerRepeats (.array st e) (.arr l) (.arr l')
  | object {sh : Shape} {fs fs' : List (String × Json)} : FieldsFewer sh [] fs fs' → FewerRepeats sh (.obj fs) (.obj fs')
/-- The elements of two arrays. -/
inductive ElemsFewer : Shape → List Json → List Json → Prop
  | nil (e : Shape) : ElemsFewer e [] []
  | cons {e : Shape} {j j' : Json} {l l' : List Json} : FewerRepeats e j j' → ElemsFewer e l l' → ElemsFewer e (j :: l) (j' :: l')
/-- The fields of two objects, or the rest of them, which `sh` is given; `keys` are the keys that were before (for a map). -/
inductive FieldsFewer : Shape → List String → List (String × Json) → List (String × Json) → Prop
  /-- The same fields from here on. -/
  | same (sh : Shape) (keys : List String) (fs : List (String × Json)) : FieldsFewer sh keys fs fs
  /-- A field of a known member; both have it. -/
  | member {kd : ObjKind} {u : Bool} {ms : List (MInfo × Shape)} {keys : List String} {k : String} {n : Nat} {m : Shape} {v v' : Json} {fs fs' : List (String × Json)} :
      lookup (.str k) 0 ms = some (n, m) → embedded m v = none → FewerRepeats m v v' → FieldsFewer (.object kd u ms) keys fs fs' →
      FieldsFewer (.object kd u ms) keys ((k, v) :: fs) ((k, v') :: fs')
  /-- A field of a member that has another one later is left out. -/
  | overridden {kd : ObjKind} {u : Bool} {ms : List (MInfo × Shape)} {keys : List String} {k : String} {n : Nat} {m : Shape} {v : Json} {fs fs' : List (String × Json)} :
      lookup (.str k) 0 ms = some (n, m) → embedded m v = none → again ms n fs = true → FieldsFewer (.object kd u ms) keys fs fs' →
      FieldsFewer (.object kd u ms) keys ((k, v) :: fs) fs'
  /-- The field of an embedded union, which selects an alternative; all that follows is given to this. -/
  | embedded {kd : ObjKind} {u : Bool} {ms ms' : List (MInfo × Shape)} {st : Bool} {keys : List String} {k : String} {n a : Nat} {m : Shape} {x : Scalar}
      {fs fs' : List (String × Json)} :
      lookup (.str k) 0 ms = some (n, .union x.ty "" st ms') → lookup x 0 ms' = some (a, m) → FieldsFewer m [] fs fs' →
      FieldsFewer (.object kd u ms) keys ((k, .sc x) :: fs) ((k, .sc x) :: fs')
  /-- A field that the object does not know and ignores; both have it. -/
  | other {kd : ObjKind} {ms : List (MInfo × Shape)} {keys : List String} {k : String} {v : Json} {fs fs' : List (String × Json)} :
      lookup (.str k) 0 ms = none → FieldsFewer (.object kd false ms) keys fs fs' →
      FieldsFewer (.object kd false ms) keys ((k, v) :: fs) ((k, v) :: fs')
  /-- An entry of a map; both have it. -/
  | entry {st : Bool} {e : Shape} {keys : List String} {k : String} {v v' : Json} {fs fs' : List (String × Json)} :
      SJ.embedded e v = none → FewerRepeats e v v' → FieldsFewer (.map st e) (k :: keys) fs fs' → FieldsFewer (.map st e) keys ((k, v) :: fs) ((k, v') :: fs')
  /-- An entry of an `SMap` the key of which was there before is left out. -/
  | repeated {e : Shape} {keys : List String} {k : String} {v : Json} {fs fs' : List (String × Json)} :
      SJ.embedded e v = none → k ∈ keys → FieldsFewer (.map true e) keys fs fs' → FieldsFewer (.map true e) keys ((k, v) :: fs) fs'
  /-- An entry that selects an alternative of an embedded union. -/
  | embeddedEntry {st st' : Bool} {ms' : List (MInfo × Shape)} {keys : List String} {k : String} {a : Nat} {m : Shape} {x : Scalar} {fs fs' : List (String × Json)} :
      lookup x 0 ms' = some (a, m) → FieldsFewer m [] fs fs' →
      FieldsFewer (.map st (.union x.ty "" st' ms')) keys ((k, .sc x) :: fs) ((k, .sc x) :: fs')
  /-- The type field of a union, which selects an alternative. -/
  | type {tm : String} {st : Bool} {ms : List (MInfo × Shape)} {keys : List String} {a : Nat} {m : Shape} {x : Scalar} {fs fs' : List (String × Json)} :
      lookup x 0 ms = some (a, m) → FieldsFewer m [] fs fs' → FieldsFewer (.union x.ty tm st ms) keys ((tm, .sc x) :: fs) ((tm, .sc x) :: fs')
end

end SJ
