/-
Documents that differ only in nulls that say nothing (C68).
-/
import Verif.Spec

namespace SJ

mutual
/-- `SameButNulls sh j j'`: given to the parser `sh`, the values `j` and `j'` differ only in that, at all depths, fields of known members are null in one of them and
missing in the other, or null elements of arrays are there in only one of them; but an empty object remains empty, and one that is not empty does not become empty. -/
inductive SameButNulls : Shape → Json → Json → Prop
  | same (sh : Shape) (j : Json) : SameButNulls sh j j
  | array (st : Bool) {e : Shape} {l l' : List Json} : ElemsNulled e l l' → SameButNulls (.array st e) (.arr l) (.arr l')
  | object {sh : Shape} {fs fs' : List (String × Json)} : FieldsNulled sh false false [] fs fs' → SameButNulls sh (.obj fs) (.obj fs')
/-- The elements of two arrays. -/
inductive ElemsNulled : Shape → List Json → List Json → Prop
  | nil (e : Shape) : ElemsNulled e [] []
  | cons {e : Shape} {j j' : Json} {l l' : List Json} : SameButNulls e j j' → ElemsNulled e l l' → ElemsNulled e (j :: l) (j' :: l')
  /-- A null that only the first array has. -/
  | extra {e : Shape} {l l' : List Json} : ElemsNulled e l l' → ElemsNulled e (.null :: l) l'
  /-- A null that only the second array has. -/
  | missing {e : Shape} {l l' : List Json} : ElemsNulled e l l' → ElemsNulled e l (.null :: l')
/-- The fields of two objects, or the rest of them, which `sh` is given; `b` and `b'` say whether there were fields before,
`seen` the numbers of the members that both had before. -/
inductive FieldsNulled : Shape → Bool → Bool → List Nat → List (String × Json) → List (String × Json) → Prop
  /-- The same fields from here on. -/
  | same (sh : Shape) (b : Bool) (seen : List Nat) (fs : List (String × Json)) : FieldsNulled sh b b seen fs fs
  /-- A field of a known member; both have it. -/
  | member {kd : ObjKind} {u : Bool} {ms : List (MInfo × Shape)} {b b' : Bool} {seen : List Nat} {k : String} {n : Nat} {m : Shape} {v v' : Json} {fs fs' : List (String × Json)} :
      lookup (.str k) 0 ms = some (n, m) → embedded m v = none → SameButNulls m v v' → FieldsNulled (.object kd u ms) true true (n :: seen) fs fs' →
      FieldsNulled (.object kd u ms) b b' seen ((k, v) :: fs) ((k, v') :: fs')
  /-- The field of an embedded union, which selects an alternative; all that follows is given to this. -/
  | embedded {kd : ObjKind} {u : Bool} {ms ms' : List (MInfo × Shape)} {b b' st : Bool} {seen : List Nat} {k : String} {n a : Nat} {m : Shape} {x : Scalar}
      {fs fs' : List (String × Json)} :
      lookup (.str k) 0 ms = some (n, .union x.ty "" st ms') → lookup x 0 ms' = some (a, m) → FieldsNulled m false false [] fs fs' →
      FieldsNulled (.object kd u ms) b b' seen ((k, .sc x) :: fs) ((k, .sc x) :: fs')
  /-- A field with null that only the first object has, of a member that had no field before. -/
  | extra {kd : ObjKind} {u : Bool} {ms : List (MInfo × Shape)} {b b' : Bool} {seen : List Nat} {k : String} {n : Nat} {m : Shape} {fs fs' : List (String × Json)} :
      lookup (.str k) 0 ms = some (n, m) → n ∉ seen → FieldsNulled (.object kd u ms) true b' seen fs fs' →
      FieldsNulled (.object kd u ms) b b' seen ((k, .null) :: fs) fs'
  /-- A field with null that only the second object has. -/
  | missing {kd : ObjKind} {u : Bool} {ms : List (MInfo × Shape)} {b b' : Bool} {seen : List Nat} {k : String} {n : Nat} {m : Shape} {fs fs' : List (String × Json)} :
      lookup (.str k) 0 ms = some (n, m) → n ∉ seen → FieldsNulled (.object kd u ms) b true seen fs fs' →
      FieldsNulled (.object kd u ms) b b' seen fs ((k, .null) :: fs')
  /-- A field that the object does not know and ignores; both have it. -/
  | other {kd : ObjKind} {ms : List (MInfo × Shape)} {b b' : Bool} {seen : List Nat} {k : String} {v : Json} {fs fs' : List (String × Json)} :
      lookup (.str k) 0 ms = none → FieldsNulled (.object kd false ms) true true seen fs fs' →
      FieldsNulled (.object kd false ms) b b' seen ((k, v) :: fs) ((k, v) :: fs')
  /-- An entry of a map; both have it. -/
  | entry {st : Bool} {e : Shape} {b b' : Bool} {seen : List Nat} {k : String} {v v' : Json} {fs fs' : List (String × Json)} :
      SJ.embedded e v = none → SameButNulls e v v' → FieldsNulled (.map st e) true true [] fs fs' → FieldsNulled (.map st e) b b' seen ((k, v) :: fs) ((k, v') :: fs')
  /-- An entry that selects an alternative of an embedded union. -/
  | embeddedEntry {st st' : Bool} {ms' : List (MInfo × Shape)} {b b' : Bool} {seen : List Nat} {k : String} {a : Nat} {m : Shape} {x : Scalar} {fs fs' : List (String × Json)} :
      lookup x 0 ms' = some (a, m) → FieldsNulled m false false [] fs fs' →
      FieldsNulled (.map st (.union x.ty "" st' ms')) b b' seen ((k, .sc x) :: fs) ((k, .sc x) :: fs')
  /-- The type field of a union, which selects an alternative. -/
  | type {tm : String} {st : Bool} {ms : List (MInfo × Shape)} {b b' : Bool} {seen : List Nat} {a : Nat} {m : Shape} {x : Scalar} {fs fs' : List (String × Json)} :
      lookup x 0 ms = some (a, m) → FieldsNulled m false false [] fs fs' → FieldsNulled (.union x.ty tm st ms) b b' seen ((tm, .sc x) :: fs) ((tm, .sc x) :: fs')
end

end SJ
