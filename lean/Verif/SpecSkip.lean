/-
Documents that differ only in members that are ignored (C67).
-/
import Verif.Spec

namespace SJ

mutual
/-- `SameButSkipped sh j j'`: given to the parser `sh`, the values `j` and `j'` differ only in fields that the objects they belong to do not know and ignore
(`Reaction::Ignore`): any such fields may be there in one and not in the other, or have other values, at all depths; but an empty object remains empty, and one
that is not empty does not become empty. -/
inductive SameButSkipped : Shape → Json → Json → Prop
  | same (sh : Shape) (j : Json) : SameButSkipped sh j j
  | array (st : Bool) {e : Shape} {l l' : List Json} : ElemsSkipped e l l' → SameButSkipped (.array st e) (.arr l) (.arr l')
  | object {sh : Shape} {fs fs' : List (String × Json)} : FieldsSkipped sh false false fs fs' → SameButSkipped sh (.obj fs) (.obj fs')
/-- The elements of two arrays. -/
inductive ElemsSkipped : Shape → List Json → List Json → Prop
  | nil (e : Shape) : ElemsSkipped e [] []
  | cons {e : Shape} {j j' : Json} {l l' : List Json} : SameButSkipped e j j' → ElemsSkipped e l l' → ElemsSkipped e (j :: l) (j' :: l')
/-- The fields of two objects, or the rest of them, which `sh` is given; `b` and `b'` say whether there were fields before. -/
inductive FieldsSkipped : Shape → Bool → Bool → List (String × Json) → List (String × Json) → Prop
  /-- The same fields from here on. -/
  | same (sh : Shape) (b : Bool) (fs : List (String × Json)) : FieldsSkipped sh b b fs fs
  /-- A field of a known member; both have it. -/
  | member {kd : ObjKind} {u : Bool} {ms : List (MInfo × Shape)} {b b' : Bool} {k : String} {n : Nat} {m : Shape} {v v' : Json} {fs fs' : List (String × Json)} :
      lookup (.str k) 0 ms = some (n, m) → embedded m v = none → SameButSkipped m v v' → FieldsSkipped (.object kd u ms) true true fs fs' →
      FieldsSkipped (.object kd u ms) b b' ((k, v) :: fs) ((k, v') :: fs')
  /-- The field of an embedded union, which selects an alternative; all that follows is given to this. -/
  | embedded {kd : ObjKind} {u : Bool} {ms ms' : List (MInfo × Shape)} {b b' st : Bool} {k : String} {n a : Nat} {m : Shape} {x : Scalar}
      {fs fs' : List (String × Json)} :
      lookup (.str k) 0 ms = some (n, .union x.ty "" st ms') → lookup x 0 ms' = some (a, m) → FieldsSkipped m false false fs fs' →
      FieldsSkipped (.object kd u ms) b b' ((k, .sc x) :: fs) ((k, .sc x) :: fs')
  /-- A field that only the first object has: it is not known, and the parser ignores unknown fields. -/
  | extra {kd : ObjKind} {ms : List (MInfo × Shape)} {b b' : Bool} {k : String} {v : Json} {fs fs' : List (String × Json)} :
      lookup (.str k) 0 ms = none → FieldsSkipped (.object kd false ms) true b' fs fs' → FieldsSkipped (.object kd false ms) b b' ((k, v) :: fs) fs'
  /-- A field that only the second object has. -/
  | missing {kd : ObjKind} {ms : List (MInfo × Shape)} {b b' : Bool} {k : String} {v : Json} {fs fs' : List (String × Json)} :
      lookup (.str k) 0 ms = none → FieldsSkipped (.object kd false ms) b true fs fs' → FieldsSkipped (.object kd false ms) b b' fs ((k, v) :: fs')
  /-- An entry of a map; both have it. -/
  | entry {st : Bool} {e : Shape} {b b' : Bool} {k : String} {v v' : Json} {fs fs' : List (String × Json)} :
      SJ.embedded e v = none → SameButSkipped e v v' → FieldsSkipped (.map st e) true true fs fs' → FieldsSkipped (.map st e) b b' ((k, v) :: fs) ((k, v') :: fs')
  /-- An entry that selects an alternative of an embedded union. -/
  | embeddedEntry {st st' : Bool} {ms' : List (MInfo × Shape)} {b b' : Bool} {k : String} {a : Nat} {m : Shape} {x : Scalar} {fs fs' : List (String × Json)} :
      lookup x 0 ms' = some (a, m) → FieldsSkipped m false false fs fs' →
      FieldsSkipped (.map st (.union x.ty "" st' ms')) b b' ((k, .sc x) :: fs) ((k, .sc x) :: fs')
  /-- The type field of a union, which selects an alternative. -/
  | type {tm : String} {st : Bool} {ms : List (MInfo × Shape)} {b b' : Bool} {a : Nat} {m : Shape} {x : Scalar} {fs fs' : List (String × Json)} :
      lookup x 0 ms = some (a, m) → FieldsSkipped m false false fs fs' → FieldsSkipped (.union x.ty tm st ms) b b' ((tm, .sc x) :: fs) ((tm, .sc x) :: fs')
end

end SJ
