/-
The parser classes as C++ objects that hold pointers into themselves: their constructors, move constructors and move
assignment operators, with the pointers (and `std::string_view`s) they copy or set.

`Verif/Model/Parsers.lean` identifies a parser by its place in the tree (a `Path`) and takes for granted that the pointers
between parsers follow the tree. This file models the pointers; `Verif/Props/Moves.lean` proves that they follow the
tree however the tree was assembled.

All file references are relative to /repo/library/sjparser/.
-/
import Verif.Model.Api

namespace SJ.Obj

/-- The address of a parser object: the complete object (a variable or temporary) it is part of, and the place in it. -/
structure Addr where
  obj : Nat
  path : Path
deriving DecidableEq, Repr

/-- The subobject one step below: `_member_parsers.get<n>().parser`, `_ignore_parser` or `_parser`. -/
def Addr.step (a : Addr) (st : Step) : Addr := ⟨a.obj, st :: a.path⟩

/-- A key of `std::unordered_map<InternalNameType, TokenParser *> _parsers_map` (internals/key_value_parser.h 44, 162):
`TokenType<std::string>` is `std::string_view` (internals/token_parser.h 41-50), so a text key does not hold the text but
refers to the `name` field of member `n` of the parser at `a`; other keys are copies. -/
inductive Key where
  | lit (x : Scalar)
  | view (a : Addr) (n : Nat)
deriving DecidableEq, Repr

/-- What the `name` fields in memory hold: of member `n` of the object or union parser at an address, if there is one. -/
abbrev Names := Addr → Nat → Option Scalar

/-- Reading a key. `none`: the key dangles. -/
def Key.read (m : Names) : Key → Option Scalar
  | .lit x => some x
  | .view a n => m a n

/-- `_parsers_map` (internals/key_value_parser.h 162). -/
abbrev KeyMap := List (Key × Addr)

/-- Does the entry's key equal `x`? -/
def Key.is (m : Names) (x : Scalar) (k : Key) : Bool :=
  match k.read m with
  | some y => y.cppEq x
  | none => false

/-- `_parsers_map.find(x)`. Simplification: the entry is found by comparing keys only; the hash a node was stored with
is not modelled (it matters only for entries whose key changed after the insertion, which the moves below remove). -/
def KeyMap.find (m : Names) (t : KeyMap) (x : Scalar) : Option Addr := (t.find? fun e => e.1.is m x).map (·.2)

/-- `_parsers_map.insert({name, &parser})`: the new map and `inserted`. -/
def KeyMap.insert (m : Names) (t : KeyMap) (x : Scalar) (k : Key) (p : Addr) : KeyMap × Bool :=
  match t.find m x with
  | some _ => (t, false)
  | none => ((k, p) :: t, true)

/-- `_parsers_map[name] = &parser` -/
def KeyMap.assign (m : Names) (t : KeyMap) (x : Scalar) (k : Key) (p : Addr) : KeyMap :=
  match t.find m x with
  | some _ => t.map fun e => if e.1.is m x then (e.1, p) else e
  | none => (k, p) :: t

/-- `_parsers_map.clear()` -/
def KeyMap.clear (_ : KeyMap) : KeyMap := []

/-- `_parsers_array` and `_parsers_map` (internals/key_value_parser.h 161-162); an array slot that was not assigned is
`none`. -/
structure Tables where
  arr : List (Option Addr) := []
  map : KeyMap := []

/-- The callbacks stored in a parser, by identity: `_on_finish` and `_on_element` (value.h 117, object.h 197,
s_auto_object.h 190, s_custom_object.h 235, union.h 236, s_union.h 217, array.h 103, s_array.h 133, map.h 144-145,
s_map.h 172-173). Simplification: the storage classes have their own `_on_finish` (and `_on_element`) besides the one
of the class they derive from, which is then never set or called; only the one that is used is modelled. -/
structure Cbs where
  finish : Option Nat := none
  element : Option Nat := none
deriving DecidableEq, Repr

/- A parser object with its fields, and a place for an inner parser: `ParserT parser` (internals/key_value_parser.h 150,
array.h 102, map.h 142), which is the parser itself or, if `ParserT` is an lvalue reference, a reference to it. The fields of
`Cell` are those listed in `Verif/Model/Basic.lean`; each class uses its own. `ptr` is `ArrayParser::_parser_ptr`
(internals/array_parser.h 47), `ids` is `_members_ids_map` (union.h 237). -/
mutual
inductive Parser where
  | value (ty : ScalarTy) (c : Cell) (cb : Cbs)
  | array (stored : Bool) (c : Cell) (cb : Cbs) (ptr : Option Addr) (e : Slot)
  | map (stored : Bool) (c : Cell) (cb : Cbs) (e : Slot)
  | object (k : ObjKind) (err : Bool) (c : Cell) (cb : Cbs) (t : Tables) (ign : Cell) (ms : List (MInfo × Slot))
  | union (ty : ScalarTy) (tm : String) (stored : Bool) (c : Cell) (cb : Cbs) (t : Tables) (ids : List (Addr × Nat)) (ign : Cell)
      (ms : List (MInfo × Slot))
inductive Slot where
  | own (o : Parser)
  | ref (a : Addr)
end

/-- `&parser`: of a reference this is the address of the parser referred to. -/
def Slot.addr (here : Addr) : Slot → Addr
  | .own _ => here
  | .ref a => a

/-- The key inserted for `name` of member `n` of the parser at `a`. -/
def keyOf (a : Addr) (n : Nat) : Scalar → Key
  | .str _ => .view a n
  | x => .lit x

/-- The names in memory while the tables of the parser at `a` with the given members are set up: its own members' and
whatever else is there. Simplification: in the constructor the names of the members before `n` are not yet in place
when member `n` is registered; no key refers to them at that time. -/
def namesAt (mem : Names) (a : Addr) (ms : List (MInfo × Slot)) : Names :=
  fun b n => if b = a then ms[n]?.map (·.1.name) else mem b n

/-- The constructor of `MemberParser<n, ...>` (internals/key_value_parser.h 309-330) for the members `ms`, already at their
place in the parser at `a`: the base class, i.e. the members with higher indices, goes first. -/
def construct (fmt : Dbl → String) (nm : Names) (a : Addr) (n : Nat) : List (MInfo × Slot) → Tables → Except String Tables
  | [], t => .ok t
  | (i, sl) :: ms, t =>
    match construct fmt nm a (n + 1) ms t with
    | .error e => .error e
    | .ok t =>
      let p := sl.addr (a.step (.mem n))
      match t.map.insert nm i.name (keyOf a n i.name) p with
      | (m, true) => .ok { arr := t.arr.set n (some p), map := m }
      | (_, false) => .error ("Member " ++ nameText fmt i.name ++ " appears more, than once")

/-- `MemberParser::registerParsers` (internals/key_value_parser.h 357-369). -/
def registerParsers (nm : Names) (a : Addr) (n : Nat) : List (MInfo × Slot) → Tables → Tables
  | [], t => t
  | (i, sl) :: ms, t =>
    let t := registerParsers nm a (n + 1) ms t
    let p := sl.addr (a.step (.mem n))
    { arr := t.arr.set n (some p), map := t.map.assign nm i.name (keyOf a n i.name) p }

/-- `_members_ids_map[id] = index` -/
def idsAssign (ids : List (Addr × Nat)) (p : Addr) (n : Nat) : List (Addr × Nat) :=
  match ids.find? fun e => e.1 == p with
  | some _ => ids.map fun e => if e.1 == p then (e.1, n) else e
  | none => (p, n) :: ids

/-- The loop of `Union::setupIdsMap` (union.h 286-291). An array slot that was not assigned would be an indeterminate
pointer; it is skipped here (`C33_linked` shows that there is none). -/
def idsLoop (n : Nat) : List (Option Addr) → List (Addr × Nat) → List (Addr × Nat)
  | [], ids => ids
  | some p :: arr, ids => idsLoop (n + 1) arr (idsAssign ids p n)
  | none :: arr, ids => idsLoop (n + 1) arr ids

/-- `Union::setupIdsMap` (union.h 284-292): `_members_ids_map.clear()`, then the loop. -/
def setupIds (arr : List (Option Addr)) (old : List (Addr × Nat)) : List (Addr × Nat) :=
  let cleared := old.filter fun _ => false
  idsLoop 0 arr cleared

/-- `_members_ids_map[p]` for reading (union.h 317). -/
def idOf (ids : List (Addr × Nat)) (p : Addr) : Option Nat := (ids.find? fun e => e.1 == p).map (·.2)

/-! ## Which fields are copied

`from` is the source, `to` the destination: default-initialised in a move constructor, the old content in an assignment. -/

/-- The default move operations of `TokenParser` (internals/token_parser.h 81-82): `_dispatcher`, `_set`, `_empty`. -/
def moveBase (src dst : Cell) : Cell := { dst with disp := src.disp, set := src.set, empty := src.empty }

/-- `_value = std::move(other._value)` of the storage classes (value.cpp 43, 49; s_array.h 159, 165; s_map.h 207, 214;
s_auto_object.h 216, 223; s_custom_object.h 264, 271; s_union.h 240, 247). -/
def moveValue (src dst : Cell) : Cell := { dst with val := src.val }

/-- The default move operations of `ArrayParser` (internals/array_parser.h 30-49): also `_started` (and `_parser_ptr`). -/
def moveArray (src dst : Cell) : Cell := { moveBase src dst with started := src.started }

/-- The default move operations of `Ignore` (internals/ignore.h 32-51). -/
def moveIgnore (src dst : Cell) : Cell := { moveBase src dst with struct := src.struct }

mutual
/-- The move constructors, creating a parser at `a` from the one given: `Value` (value.cpp 40-44), `Array`
(array.h 125-131), `SArray` (s_array.h 156-160), `Map` (map.h 178-183; `_current_key` is not moved), `SMap`
(s_map.h 204-209), `KeyValueParser` (internals/key_value_parser.h 175-184) with `MemberParser` (332-341), `Object`
(object.h 237-239), `SAutoObject` (s_auto_object.h 213-217), `SCustomObject` (s_custom_object.h 261-265), `Union`
(union.h 263-270), `SUnion` (s_union.h 237-241). What is left of the source is not modelled. `mem` are the names in the
rest of the memory. -/
def move (mem : Names) (a : Addr) : Parser → Parser
  | .value ty c cb => .value ty (moveValue c (moveBase c {})) cb
  | .array st c cb _ e =>
    let c' := moveArray c {}
    let e' := moveSlot mem (a.step .elem) e
    .array st (if st then moveValue c c' else c') cb (some (e'.addr (a.step .elem))) e'
  | .map st c cb e =>
    let c' := moveBase c {}
    .map st (if st then moveValue c c' else c') cb (moveSlot mem (a.step .elem) e)
  | .object k err c cb _ ign ms =>
    let c' := moveBase c {}
    let ms' := moveMembers mem a 0 ms
    let t := registerParsers (namesAt mem a ms') a 0 ms' { arr := ms'.map fun _ => none }
    .object k err (if k = .plain then c' else moveValue c c') cb t (moveIgnore ign {}) ms'
  | .union ty tm st c cb _ _ ign ms =>
    let c' := { moveBase c {} with curId := c.curId }
    let ms' := moveMembers mem a 0 ms
    let t := registerParsers (namesAt mem a ms') a 0 ms' { arr := ms'.map fun _ => none }
    .union ty tm st (if st then moveValue c c' else c') cb t (setupIds t.arr []) (moveIgnore ign {}) ms'
/-- `parser{std::forward<ParserT>(other.parser)}`: a move, or the reference is copied. -/
def moveSlot (mem : Names) (here : Addr) : Slot → Slot
  | .own o => .own (move mem here o)
  | .ref b => .ref b
/-- `MemberParser(MemberParser &&)` (internals/key_value_parser.h 332-341). -/
def moveMembers (mem : Names) (a : Addr) (n : Nat) : List (MInfo × Slot) → List (MInfo × Slot)
  | [] => []
  | (i, sl) :: ms => (i, moveSlot mem (a.step (.mem n)) sl) :: moveMembers mem a (n + 1) ms
end

mutual
/-- The move assignment operators, assigning `src` to the parser `dst` at `a`: `Value` (value.cpp 46-53), `Array`
(array.h 133-141), `SArray` (s_array.h 162-169), `Map` (map.h 185-193), `SMap` (s_map.h 211-219), `KeyValueParser`
(internals/key_value_parser.h 186-197) with `MemberParser` (343-355), `Object` (object.h 241-247), `SAutoObject`
(s_auto_object.h 219-227), `SCustomObject` (s_custom_object.h 267-275), `Union` (union.h 272-282), `SUnion`
(s_union.h 243-251). Both have the same C++ type; on other arguments (and for lvalue references, where the
assignment does not compile because copying is deleted) nothing is assigned. -/
def assign (mem : Names) (a : Addr) : Parser → Parser → Parser
  | .value _ c cb, .value ty' c' _ => .value ty' (moveValue c (moveBase c c')) cb
  | .array _ c cb _ e, .array st' c' _ _ e' =>
    let c'' := moveArray c c'
    let e'' := assignSlot mem (a.step .elem) e e'
    .array st' (if st' then moveValue c c'' else c'') cb (some (e''.addr (a.step .elem))) e''
  | .map _ c cb e, .map st' c' _ e' =>
    let c'' := moveBase c c'
    .map st' (if st' then moveValue c c'' else c'') cb (assignSlot mem (a.step .elem) e e')
  | .object _ err c cb _ ign ms, .object k' _ c' _ t' ign' ms' =>
    let c'' := moveBase c c'
    let ms'' := assignMembers mem a 0 ms ms'
    let t := registerParsers (namesAt mem a ms'') a 0 ms'' { t' with map := t'.map.clear }
    .object k' err (if k' = .plain then c'' else moveValue c c'') cb t (moveIgnore ign ign') ms''
  | .union _ tm _ c cb _ _ ign ms, .union ty' _ st' c' _ t' ids' ign' ms' =>
    let c'' := { moveBase c c' with curId := c.curId }
    let ms'' := assignMembers mem a 0 ms ms'
    let t := registerParsers (namesAt mem a ms'') a 0 ms'' { t' with map := t'.map.clear }
    .union ty' tm st' (if st' then moveValue c c'' else c'') cb t (setupIds t.arr ids') (moveIgnore ign ign') ms''
  | _, dst => dst
/-- `parser = std::forward<ParserT>(other.parser)` -/
def assignSlot (mem : Names) (here : Addr) : Slot → Slot → Slot
  | .own o, .own o' => .own (assign mem here o o')
  | _, dst => dst
/-- `MemberParser::operator=` (internals/key_value_parser.h 343-355): also name, optional flag and default. -/
def assignMembers (mem : Names) (a : Addr) (n : Nat) : List (MInfo × Slot) → List (MInfo × Slot) → List (MInfo × Slot)
  | (i, sl) :: ms, (_, sl') :: ms' => (i, assignSlot mem (a.step (.mem n)) sl sl') :: assignMembers mem a (n + 1) ms ms'
  | _, _ => []
end

/-! ## Constructors, creating a parser at `a`; the inner parsers are moved in (or referred to). -/

/-- `Value(on_finish)` (value.cpp 28-38). -/
def newValue (ty : ScalarTy) (cb : Cbs) : Parser := .value ty {} cb

/-- `Array(parser, on_finish)` (array.h 114-124), `SArray(parser, on_finish)` (s_array.h 145-154). -/
def newArray (mem : Names) (a : Addr) (st : Bool) (e : Slot) (cb : Cbs) : Parser :=
  let e' := moveSlot mem (a.step .elem) e
  .array st {} cb (some (e'.addr (a.step .elem))) e'

/-- `Map(parser, on_element, on_finish)` (map.h 156-176), `SMap` (s_map.h 184-202). -/
def newMap (mem : Names) (a : Addr) (st : Bool) (e : Slot) (cb : Cbs) : Parser :=
  .map st {} cb (moveSlot mem (a.step .elem) e)

/-- `Object(members, options, on_finish)` (object.h 220-235), `SAutoObject` (s_auto_object.h 195-211), `SCustomObject`
(s_custom_object.h 240-259), by `KeyValueParser(members, options)` (internals/key_value_parser.h 169-173). -/
def newObject (fmt : Dbl → String) (mem : Names) (a : Addr) (k : ObjKind) (err : Bool) (ms : List (MInfo × Slot)) (cb : Cbs) :
    Except String Parser :=
  let ms' := moveMembers mem a 0 ms
  match construct fmt (namesAt mem a ms') a 0 ms' { arr := ms'.map fun _ => none } with
  | .error e => .error e
  | .ok t => .ok (.object k err {} cb t {} ms')

/-- `Union(type, type_member, members, on_finish)` (union.h 243-261), `SUnion` (s_union.h 222-235). -/
def newUnion (fmt : Dbl → String) (mem : Names) (a : Addr) (ty : ScalarTy) (tm : String) (st : Bool) (ms : List (MInfo × Slot))
    (cb : Cbs) : Except String Parser :=
  let ms' := moveMembers mem a 0 ms
  match construct fmt (namesAt mem a ms') a 0 ms' { arr := ms'.map fun _ => none } with
  | .error e => .error e
  | .ok t => .ok (.union ty tm st {} cb t (setupIds t.arr []) {} ms')

end SJ.Obj
