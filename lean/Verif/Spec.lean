/-
JSON documents, the token sequence each of them produces, and a pure description (`denote`) of what a
parser tree makes of a JSON value. Nothing here refers to the dispatcher, its stack, heap cells or any
other part of the model's machinery; `lookup` is "the member with this name".
-/
import Verif.Model.Basic

namespace SJ

/-- JSON values. Numbers are already classified as integer or double, as YAJL does. Fields of an object
are a list: order and repetitions are kept. -/
inductive Json where
  | null
  | sc (s : Scalar)
  | arr (l : List Json)
  | obj (fs : List (String × Json))
deriving Repr

mutual
/-- The tokens of a JSON value, in document order. -/
def events : Json → List Token
  | .null => [.null]
  | .sc s => [.scalar s]
  | .arr l => .arrStart :: (elemEvents l ++ [.arrEnd])
  | .obj fs => .mapStart :: (fieldEvents fs ++ [.mapEnd])
/-- The tokens of the elements of an array. -/
def elemEvents : List Json → List Token
  | [] => []
  | j :: l => events j ++ elemEvents l
/-- The tokens of the fields of an object. -/
def fieldEvents : List (String × Json) → List Token
  | [] => []
  | (k, j) :: fs => .mapKey k :: (events j ++ fieldEvents fs)
end

/-! ## What a parser tree makes of a value -/

/-- What a parser holds after a value was parsed by it.
* `unset` – `isSet()` is false
* `val v` – a storage parser (`Value`, `SArray`, `SMap`, `SAutoObject`, `SUnion`) with `get() = v`
* `obj v ds` – an `Object` (`v = none`) or `SCustomObject` (`v` is its value) whose members hold `ds`
* `alt n d` – a `Union` with `currentMemberId() = n` whose member `n` holds `d`
* `done` – an `Array` or `Map` (they keep nothing). -/
inductive D where
  | unset
  | val (v : Val)
  | obj (v : Option Val) (ds : List D)
  | alt (n : Nat) (d : D)
  | done

def D.isSet : D → Bool
  | .unset => false
  | _ => true

/-- The result of `get()`, if there is one. -/
def D.value? : D → Option Val
  | .val v => some v
  | .obj v _ => v
  | _ => none

/-- How a member name is printed in an error message (`operator<<`); doubles by `fmt`. -/
def showName (fmt : Dbl → String) : Scalar → String
  | .bool b => if b then "1" else "0"
  | .int i => toString i
  | .dbl d => fmt d
  | .str s => s

/-- How the documentation of the errors calls a token. Null is never unexpected. -/
def called : Token → String
  | .null => ""
  | .scalar (.bool _) => "boolean"
  | .scalar (.int _) => "integer"
  | .scalar (.dbl _) => "double"
  | .scalar (.str _) => "string"
  | .mapStart => "map start"
  | .mapKey _ => "map key"
  | .mapEnd => "map end"
  | .arrStart => "array start"
  | .arrEnd => "array end"

theorem called_eq (t : Token) : called t = t.kind := by
  cases t with
  | scalar v => cases v <;> rfl
  | _ => rfl

/-- The mandatory members that hold nothing, in declaration order. -/
def missing (ms : List (MInfo × Shape)) (slots : List D) : List MInfo :=
  ((ms.zip slots).filter fun x => !x.1.1.optional && !x.2.isSet).map (·.1.1)

/-- The members of an `SAutoObject` that hold nothing and cannot be replaced by a default. -/
def unfillable (ms : List (MInfo × Shape)) (slots : List D) : List MInfo :=
  ((ms.zip slots).filter fun x => !x.2.isSet && (!x.1.1.optional || x.1.1.dflt.isNone)).map (·.1.1)

/-- End of a JSON object for the three object parsers. `ne`: it had at least one field. -/
def finishObject (kind : ObjKind) (ms : List (MInfo × Shape)) (slots : List D) (ne : Bool) : Except String D :=
  if !ne then .ok .unset
  else match kind with
    | .auto =>
      match (unfillable ms slots).getLast? with
      | some i =>
        .error ("Can not set value: " ++
          cText (if i.optional then "Optional member " ++ showName (fun _ => "") i.name ++ " does not have a default value"
           else "Mandatory member " ++ showName (fun _ => "") i.name ++ " is not present"))
      | none => .ok (.val (.tup ((ms.zip slots).map fun x => (x.2.value?.or x.1.1.dflt).getD .init)))
    | k =>
      match (missing ms slots).getLast? with
      | some i => .error ("Mandatory member " ++ showName (fun _ => "") i.name ++ " is not present")
      | none => .ok (.obj (if k = .custom then some .init else none) slots)

/-- End of the JSON object of a union whose member `a` was selected and holds `d`. -/
def finishUnion (stored : Bool) (ms : List (MInfo × Shape)) (a : Nat) (d : D) : Except String D :=
  match ms[a]? with
  | none => .ok .unset
  | some (i, _) =>
    if !stored then
      if !d.isSet && !i.optional then .error ("Mandatory member #" ++ toString a ++ " is not present")
      else .ok (.alt a d)
    else match d.value? with
      | some v => .ok (.val (.alt a v))
      | none =>
        if i.optional then
          match i.dflt with
          | some v => .ok (.val (.alt a v))
          | none => .error ("Can not set value: " ++ ("Optional member #" ++ toString a ++ " does not have a default value"))
        else .error ("Can not set value: " ++ ("Mandatory member #" ++ toString a ++ " is not present"))

def notSet : String := "Can't get value, parser is unset"

/-- A map stores (or not) the value of an element. -/
def storeEntry (stored : Bool) (k : String) (d : D) (ents : List (String × Val)) :
    Except String (List (String × Val)) :=
  if stored then
    match d.value? with
    | some v => .ok (mapInsert k v ents)
    | none => .error notSet
  else .ok ents

def finishMap (stored : Bool) (ents : List (String × Val)) : D :=
  if stored then .val (.map ents) else .done

/-- `v`, the value of a member or map element with parser `m`, selects an alternative of the embedded
union `m`. -/
def embedded : Shape → Json → Option (ScalarTy × Bool × List (MInfo × Shape) × Scalar)
  | .union ty tm st ms, .sc x => if tm = "" ∧ x.ty = ty then some (ty, st, ms, x) else none
  | _, _ => none

/-- Nothing parsed yet by the members of an object. -/
def noSlots : Shape → List D
  | .object _ _ ms => ms.map fun _ => .unset
  | _ => []

/-- The alternative selected by the type value `x`. -/
def selectAlt (fmt : Dbl → String) (ms : List (MInfo × Shape)) (x : Scalar) : Except String (Nat × Shape) :=
  match lookup x 0 ms with
  | some a => .ok a
  | none => .error ("Unexpected member " ++ showName fmt x)

def noEmbedded : String := "Union with an empty type member can't parse this"

mutual
/-- `v` is a value of the type that the storage parser `sh` stores (`ValueType`): a scalar of the parser's type, a
vector of the elements' values, a string-keyed map of them, a tuple of the members' values, a variant
holding the value of one of the members. The user's own type of an `SCustomObject` is opaque. -/
def hasType : Shape → Val → Bool
  | .value ty, v => match v with
    | .sc x => x.ty == ty
    | _ => false
  | .ignore, _ => false
  | .object k _ ms, v =>
    match k with
    | .plain => false
    | .custom => true
    | .auto => match v with
      | .tup l => hasTypes ms l
      | _ => false
  | .union _ _ st ms, v => st && (match v with
    | .alt n w => hasAltType ms n w
    | _ => false)
  | .array st e, v => st && (match v with
    | .arr l => l.all (hasType e)
    | _ => false)
  | .map st e, v => st && (match v with
    | .map l => l.all fun kv => hasType e kv.2
    | _ => false)
def hasTypes : List (MInfo × Shape) → List Val → Bool
  | [], [] => true
  | (_, sh) :: ms, v :: vs => hasType sh v && hasTypes ms vs
  | _, _ => false
def hasAltType : List (MInfo × Shape) → Nat → Val → Bool
  | [], _, _ => false
  | (_, sh) :: _, 0, v => hasType sh v
  | _ :: ms, n + 1, v => hasAltType ms n v
end

mutual
/-- Trees the C++ types allow: the internal ignore parser is not used as a member or element, member names
have the type of the name (text for objects, the type member's type for unions), parsers that store
values have members or elements that store values, only optional members that store values have a default,
which is of the stored type (member.h 102-103). -/
def Shape.wf : Shape → Bool
  | .value _ => true
  | .ignore => false
  | .object k _ ms => wfMs .str (k == .auto) ms
  | .union ty _ st ms => wfMs ty st ms
  | .array st e => e.wf && (!st || e.isStorage)
  | .map st e => e.wf && (!st || e.isStorage)
def wfMs (ty : ScalarTy) (stored : Bool) : List (MInfo × Shape) → Bool
  | [] => true
  | (i, sh) :: ms =>
    (i.name.ty == ty) && sh.wf && (!stored || sh.isStorage) &&
      (match i.dflt with
       | none => true
       | some v => i.optional && sh.isStorage && hasType sh v) && wfMs ty stored ms
end

mutual
/-- What the parser `sh`, of which a value is expected, makes of the value `j`: an error text or what the
parser holds afterwards. `fmt` prints doubles. The cases marked (†) are never reached for documents
that satisfy `okVal` (below). -/
def denote (fmt : Dbl → String) (sh : Shape) : Json → Except String D
  | .null => .ok .unset
  | .sc x =>
    match sh with
    | .value ty =>
      if x.ty = ty then .ok (.val (.sc x)) else .error ("Unexpected token " ++ (Token.scalar x).kind)
    | .ignore => .ok .done
    | _ => .error ("Unexpected token " ++ (Token.scalar x).kind) -- (†) for a union and a scalar of its type
  | .arr l =>
    match sh with
    | .array st e => (denElems fmt st e l).map fun vs => if st then .val (.arr vs) else .done
    | .ignore => .ok .done
    | _ => .error ("Unexpected token " ++ Token.arrStart.kind)
  | .obj fs =>
    match sh with
    | .object _ _ _ => denFields fmt sh (noSlots sh) [] false fs
    | .map _ _ => denFields fmt sh (noSlots sh) [] false fs
    | .union _ tm _ _ => if tm = "" then .error noEmbedded else denFields fmt sh (noSlots sh) [] false fs
    | .ignore => .ok .done
    | _ => .error ("Unexpected token " ++ Token.mapStart.kind)
/-- The same for the rest of a JSON object: `slots` is what the members hold so far (objects),
`ents` the entries so far (maps), `ne` whether there was a field already. -/
def denFields (fmt : Dbl → String) (sh : Shape) (slots : List D) (ents : List (String × Val)) (ne : Bool) :
    List (String × Json) → Except String D
  | [] =>
    match sh with
    | .object k _ ms => finishObject k ms slots ne
    | .map st _ => .ok (finishMap st ents)
    | .union _ _ _ _ => .ok .unset
    | _ => .error ("Unexpected token " ++ Token.mapEnd.kind)
  | (k, v) :: fs =>
    match sh with
    | .object kd u ms =>
      match lookup (.str k) 0 ms with
      | some (n, m) =>
        match embedded m v with
        | some (_, st, ms', x) => do
          let a ← selectAlt fmt ms' x
          let d ← denFields fmt a.2 (noSlots a.2) [] false fs
          let d ← finishUnion st ms' a.1 d
          finishObject kd ms (slots.set n d) true
        | none => do
          let d ← denote fmt m v
          denFields fmt sh (slots.set n d) [] true fs
      | none =>
        if u then .error ("Unexpected member " ++ k)
        else denFields fmt sh slots [] true fs
    | .union ty tm st ms =>
      if tm = "" then .error noEmbedded
      else if k ≠ tm then .error ("Unexpected member " ++ k)
      else match v with
        | .sc x =>
          if x.ty = ty then do
            let a ← selectAlt fmt ms x
            let d ← denFields fmt a.2 (noSlots a.2) [] false fs
            finishUnion st ms a.1 d
          else .error ("Unexpected token " ++ (Token.scalar x).kind)
        | .arr _ => .error ("Unexpected token " ++ Token.arrStart.kind)
        | _ => .error "" -- (†)
    | .map st e =>
      match embedded e v with
      | some (_, st', ms', x) => do
        let a ← selectAlt fmt ms' x
        let d ← denFields fmt a.2 (noSlots a.2) [] false fs
        let d ← finishUnion st' ms' a.1 d
        let ents ← storeEntry st k d ents
        .ok (finishMap st ents)
      | none => do
        let d ← denote fmt e v
        let ents ← storeEntry st k d ents
        denFields fmt sh [] ents true fs
    | _ => .error ("Unexpected token " ++ (Token.mapKey k).kind)
/-- The values of the elements of an array; for an array that stores nothing, nothing. -/
def denElems (fmt : Dbl → String) (stored : Bool) (e : Shape) : List Json → Except String (List Val)
  | [] => .ok []
  | .null :: l => denElems fmt stored e l
  | j :: l => do
    let d ← denote fmt e j
    if stored then
      match d.value? with
      | some v => return v :: (← denElems fmt stored e l)
      | none => .error notSet
    else denElems fmt stored e l
end

/-! ## Documents outside the known defects -/

mutual
/-- No null inside. -/
def Json.noNull : Json → Bool
  | .null => false
  | .sc _ => true
  | .arr l => noNullL l
  | .obj fs => noNullF fs
def noNullL : List Json → Bool
  | [] => true
  | j :: l => j.noNull && noNullL l
def noNullF : List (String × Json) → Bool
  | [] => true
  | (_, j) :: fs => j.noNull && noNullF fs
end

/-- A value the Ignore parser skips correctly: null itself, or a value without null inside. -/
def Json.skippable : Json → Bool
  | .null => true
  | j => j.noNull

/-- A parser a user can name: not the internal ignore parser. -/
def Shape.isUser : Shape → Bool
  | .ignore => false
  | _ => true

mutual
/-- Documents outside the classes of input on which this version of the library misbehaves:
* an ignored value has no null strictly inside it;
* arrays of anything but `Value` have no null elements;
* a standalone union is never given a bare scalar of its type where an object is expected, nor null or
  an object as its type value; an embedded union is not an array element or the root.
(The internal ignore parser cannot be made a member or element by a user: `isUser`.) -/
def okVal (sh : Shape) : Json → Bool
  | .null => true
  | .sc x =>
    match sh with
    | .union ty _ _ _ => x.ty != ty
    | _ => true
  | .arr l =>
    match sh with
    | .array _ e => okElems e l
    | .ignore => noNullL l
    | _ => true
  | .obj fs =>
    match sh with
    | .ignore => noNullF fs
    | .value _ => true
    | .array _ _ => true
    | .object _ _ _ => okFields sh fs
    | .map _ _ => okFields sh fs
    | .union _ tm _ _ => if tm = "" then true else okFields sh fs
def okFields (sh : Shape) : List (String × Json) → Bool
  | [] => true
  | (k, v) :: fs =>
    match sh with
    | .object _ u ms =>
      match lookup (.str k) 0 ms with
      | some (_, m) =>
        match embedded m v with
        | some (_, _, ms', x) =>
          match lookup x 0 ms' with
          | some (_, ash) => okFields ash fs
          | none => true
        | none => m.isUser && okVal m v && okFields sh fs
      | none => if u then true else okVal .ignore v && okFields sh fs
    | .union ty tm _ ms =>
      if tm = "" then true
      else if k ≠ tm then true
      else match v with
        | .sc x =>
          if x.ty = ty then
            match lookup x 0 ms with
            | some (_, ash) => okFields ash fs
            | none => true
          else true
        | .arr _ => true
        | _ => false
    | .map _ e =>
      match embedded e v with
      | some (_, _, ms', x) =>
        match lookup x 0 ms' with
        | some (_, ash) => okFields ash fs
        | none => true
      | none => e.isUser && okVal e v && okFields sh fs
    | _ => true
def okElems (e : Shape) : List Json → Bool
  | [] => true
  | j :: l =>
    (match j with
     | .null => match e with
       | .value _ => true
       | _ => false
     | _ => true) && e.isUser && okVal e j && okElems e l
end

end SJ
