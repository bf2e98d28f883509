/-
Writing a stored value as JSON (C42): the obvious document for a value of the type that a storage parser stores.
-/
import Verif.SpecObjects

namespace SJ

/-- The fields of a JSON object. -/
def Json.fields : Json → List (String × Json)
  | .obj fs => fs
  | _ => []

/-- The name of a member of an object. -/
def MInfo.key (i : MInfo) : String :=
  match i.name with
  | .str k => k
  | _ => ""

/-- An embedded union: one with an empty type member. -/
def Shape.isEmbedded : Shape → Bool
  | .union _ tm _ _ => tm = ""
  | _ => false

/-- The field of a member `k` with the value `j`. The value of an embedded union is spliced into the object: its type field gets the name of the
member, the other ones follow. -/
def fieldsFor (emb : Bool) (k : String) (j : Json) : List (String × Json) :=
  if emb then
    match j.fields with
    | [] => []
    | (_, t) :: rest => (k, t) :: rest
  else [(k, j)]

mutual
/-- The value `v` of a storage parser `sh` as JSON: a scalar as it is, a vector as an array, a map or tuple as an object, a variant as the object of
its alternative, preceded by the type field. (For an embedded union the type field has no name yet, see `fieldsFor`.) -/
def toJson : Shape → Val → Json
  | .value _, v => match v with
    | .sc x => .sc x
    | _ => .null
  | .ignore, _ => .null
  | .object _ _ ms, v => match v with
    | .tup l => .obj (toFields ms l)
    | _ => .null
  | .union _ tm _ ms, v => match v with
    | .alt n w => .obj (toAlt tm ms n w)
    | _ => .null
  | .array _ e, v => match v with
    | .arr l => .arr (l.map (toJson e))
    | _ => .null
  | .map _ e, v => match v with
    | .map l => .obj (l.map fun kv => (kv.1, toJson e kv.2))
    | _ => .null
/-- The fields of an object, in the order of its members. -/
def toFields : List (MInfo × Shape) → List Val → List (String × Json)
  | (i, sh) :: ms, v :: vs => fieldsFor sh.isEmbedded i.key (toJson sh v) ++ toFields ms vs
  | _, _ => []
/-- The type field and the fields of the alternative. -/
def toAlt (tm : String) : List (MInfo × Shape) → Nat → Val → List (String × Json)
  | [], _, _ => []
  | (i, sh) :: _, 0, w => (tm, .sc i.name) :: (toJson sh w).fields
  | _ :: ms, n + 1, w => toAlt tm ms n w
end

/-- Parsers of which the value is written as a JSON object without a type field. -/
def Shape.isRecord : Shape → Bool
  | .object .auto _ _ => true
  | .map _ _ => true
  | _ => false

/-- The names of the members are distinct, and each one is equal to itself (it is not NaN). -/
def namesOk : List (MInfo × Shape) → Bool
  | [] => true
  | x :: ms => x.1.name.cppEq x.1.name && (ms.all fun y => !(x.1.name.cppEq y.1.name) && !(y.1.name.cppEq x.1.name)) && namesOk ms

mutual
/-- Storage parsers with a value type that can be written: `Value`, `SArray` and `SMap` of such parsers, `SAutoObject`s with at least one
member, `SUnion`s of `SAutoObject`s and `SMap`s. An `SUnion` without a type member may only be the last member of an `SAutoObject` (it takes all
fields that come after its own). -/
def writable : Shape → Bool
  | .value _ => true
  | .ignore => false
  | .object k _ ms => k == .auto && !ms.isEmpty && namesOk ms && writableMs ms
  | .union _ _ st ms => st && namesOk ms && writableAlts ms
  | .array st e => st && !e.isEmbedded && writable e
  | .map st e => st && !e.isEmbedded && writable e
def writableMs : List (MInfo × Shape) → Bool
  | [] => true
  | (_, sh) :: ms => writable sh && (!sh.isEmbedded || ms.isEmpty) && writableMs ms
def writableAlts : List (MInfo × Shape) → Bool
  | [] => true
  | (_, sh) :: ms => writable sh && sh.isRecord && writableAlts ms
end

/-- Strictly increasing keys. -/
def increasing : List (String × Val) → Bool
  | [] => true
  | (k, _) :: l => (l.all fun e => decide (k < e.1)) && increasing l

mutual
/-- All maps in the value have strictly increasing keys, as every `std::map` has. -/
def Val.ordered : Val → Bool
  | .sc _ => true
  | .arr l => orderedL l
  | .tup l => orderedL l
  | .map l => increasing l && orderedE l
  | .alt _ v => v.ordered
  | .init => true
  | .user _ l => orderedL l
  | .moved => true
def orderedL : List Val → Bool
  | [] => true
  | v :: l => v.ordered && orderedL l
def orderedE : List (String × Val) → Bool
  | [] => true
  | (_, v) :: l => v.ordered && orderedE l
end

mutual
/-- All default values of members are ordered. -/
def orderedDefaults : Shape → Bool
  | .object _ _ ms => orderedDefaultsMs ms
  | .union _ _ _ ms => orderedDefaultsMs ms
  | .array _ e => orderedDefaults e
  | .map _ e => orderedDefaults e
  | _ => true
def orderedDefaultsMs : List (MInfo × Shape) → Bool
  | [] => true
  | (i, sh) :: ms => (match i.dflt with | none => true | some v => v.ordered) && orderedDefaults sh && orderedDefaultsMs ms
end

end SJ
