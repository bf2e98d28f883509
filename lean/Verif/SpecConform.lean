/-
C47: which documents a parser accepts, as rules that say nothing about the order in which anything is done, about errors or about values.
-/
import Verif.SpecObjects

namespace SJ

/-- Member `n` with description `i` and parser `m` is the one with the name `x`. -/
structure Named (ms : List (MInfo × Shape)) (x : Scalar) (n : Nat) (i : MInfo) (m : Shape) : Prop where
  here : ms[n]? = some (i, m)
  name : i.name.cppEq x = true

/-- Whether a parser holds a value (`isSet()`) after the fields of a JSON object: maps always do, objects and unions unless there were no
fields. -/
def filledFields : Shape → List (String × Json) → Bool
  | .map _ _, _ => true
  | _, fs => !fs.isEmpty

/-- Whether a parser holds a value after a JSON value that conforms to it: unless it was null or (for objects and unions) `{}`. -/
def filled : Shape → Json → Bool
  | _, .null => false
  | sh, .obj fs => filledFields sh fs
  | _, _ => true

/-- Whether the member with description `i` and parser `m` holds a value after the fields `fs` of an object: the last field with its name
decides. -/
def filledBy (i : MInfo) (m : Shape) (fs : List (String × Json)) : Bool :=
  match i.name with
  | .str k => match lastField k fs with
    | some j => filled m j
    | none => false
  | _ => false

/-- A member need not hold a value if it is optional and, where values are stored, has a default. -/
def Dispensable (stored : Bool) (i : MInfo) : Prop := i.optional = true ∧ (stored = true → ∃ v, i.dflt = some v)

mutual
/-- The JSON value conforms to the parser. -/
inductive Conforms : Shape → Json → Prop
  /-- null conforms to everything -/
  | null {sh} : Conforms sh .null
  /-- a scalar of the type of a `Value` -/
  | scalar {ty x} (type : x.ty = ty) : Conforms (.value ty) (.sc x)
  /-- an array of conforming elements; `SArray` needs a value of every element but null -/
  | array {stored e l} (elems : ∀ j ∈ l, Conforms e j) (values : stored = true → ∀ j ∈ l, j ≠ .null → filled e j = true) :
      Conforms (.array stored e) (.arr l)
  /-- an object whose fields conform; but a union without type member has no object of its own -/
  | object {sh fs} (own : ∀ ty st ms, sh ≠ .union ty "" st ms) (fields : FieldsConform sh fs) : Conforms sh (.obj fs)
/-- The fields of a JSON object conform to the parser. -/
inductive FieldsConform : Shape → List (String × Json) → Prop
  /-- `Object`, `SAutoObject`, `SCustomObject`: every field is known (or unknown members are ignored), fields of known members conform to them, and
  unless there is no field at all every member holds a value or is dispensable. -/
  | object {kind unknownErr ms fs}
      (known : unknownErr = true → ∀ kv ∈ fs, ∃ n i m, Named ms (.str kv.1) n i m)
      (fields : ∀ kv ∈ fs, ∀ n i m, Named ms (.str kv.1) n i m → Conforms m kv.2)
      (complete : fs ≠ [] → ∀ x ∈ ms, filledBy x.1 x.2 fs = true ∨ Dispensable (kind == .auto) x.1) :
      FieldsConform (.object kind unknownErr ms) fs
  /-- The same with an embedded union: its field selects the alternative `alt`, to which all fields that follow must conform. -/
  | embedding {kind unknownErr ms before key x after n i ty stored alts a ai alt}
      (known : unknownErr = true → ∀ kv ∈ before, ∃ n i m, Named ms (.str kv.1) n i m)
      (fields : ∀ kv ∈ before, ∀ n i m, Named ms (.str kv.1) n i m → Conforms m kv.2)
      (member : Named ms (.str key) n i (.union ty "" stored alts)) (type : x.ty = ty) (choice : Named alts x a ai alt)
      (rest : FieldsConform alt after) (chosen : filledFields alt after = true ∨ Dispensable stored ai)
      (complete : ∀ n' y, n' ≠ n → ms[n']? = some y → filledBy y.1 y.2 before = true ∨ Dispensable (kind == .auto) y.1) :
      FieldsConform (.object kind unknownErr ms) (before ++ (key, .sc x) :: after)
  /-- `Map`, `SMap`: every value conforms; `SMap` needs a value of every element. -/
  | map {stored e fs} (elems : ∀ kv ∈ fs, Conforms e kv.2) (values : stored = true → ∀ kv ∈ fs, filled e kv.2 = true) :
      FieldsConform (.map stored e) fs
  /-- A map of embedded unions: the first element that selects an alternative takes all fields that follow. -/
  | mapEmbedding {stored before key x after ty st alts a ai alt}
      (elems : ∀ kv ∈ before, Conforms (.union ty "" st alts) kv.2)
      (values : stored = true → ∀ kv ∈ before, filled (.union ty "" st alts) kv.2 = true)
      (type : x.ty = ty) (choice : Named alts x a ai alt)
      (rest : FieldsConform alt after) (chosen : filledFields alt after = true ∨ Dispensable st ai) :
      FieldsConform (.map stored (.union ty "" st alts)) (before ++ (key, .sc x) :: after)
  /-- A union and no field at all. -/
  | noType {ty tm stored alts} : FieldsConform (.union ty tm stored alts) []
  /-- `Union`, `SUnion`: the type member comes first and selects the alternative `alt`, to which all fields that follow must conform. -/
  | union {ty tm stored alts x after a ai alt} (hasType : tm ≠ "") (type : x.ty = ty) (choice : Named alts x a ai alt)
      (rest : FieldsConform alt after) (chosen : filledFields alt after = true ∨ Dispensable stored ai) :
      FieldsConform (.union ty tm stored alts) ((tm, .sc x) :: after)
end

/-- No two members of any object or union of the tree have the same name: their constructors throw otherwise (C32). -/
def AllDistinct (R : Shape) : Prop :=
  ∀ p sh, R.at p = some sh → match sh with
    | .object _ _ ms => DistinctNames ms
    | .union _ _ _ ms => DistinctNames ms
    | _ => True

mutual
/-- No array inside has a null as an element. -/
def Json.noNullElem : Json → Bool
  | .arr l => noNullElemL l
  | .obj fs => noNullElemF fs
  | _ => true
def noNullElemL : List Json → Bool
  | [] => true
  | j :: l => (match j with | .null => false | _ => true) && j.noNullElem && noNullElemL l
def noNullElemF : List (String × Json) → Bool
  | [] => true
  | (_, j) :: fs => j.noNullElem && noNullElemF fs
end

/-- No object of the tree ignores unknown members. -/
def Strict (R : Shape) : Prop := ∀ p kind unknownErr ms, R.at p = some (.object kind unknownErr ms) → unknownErr = true

/-- Documents whose nulls this version of the library handles: without null; or, if no unknown members are ignored, without null as an array
element. -/
def NullsFine (R : Shape) (j : Json) : Prop := j.noNull = true ∨ (Strict R ∧ j.noNullElem = true)

end SJ
