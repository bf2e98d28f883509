/-
The public methods of the parsers that a user calls between parses (and inside callbacks), and the
construction and moving of the member tables.

All file references are relative to /repo/library/sjparser/.
-/
import Verif.Model.Parsers

namespace SJ

/-! ## Queries -/

/-- `isSet()` (internals/token_parser.h 99-101) -/
def isSet (p : Path) (s : St) : Bool := (s.heap p).set

/-- `isEmpty()` (internals/token_parser.h 103-105) -/
def isEmpty (p : Path) (s : St) : Bool := (s.heap p).empty

/-- The text of `TokenParser::checkSet` (internals/token_parser.h 107-111). -/
def unsetMsg : String := "Can't get value, parser is unset"

/-- `get()` of every storage parser: `checkSet(); return _value;`
(value.cpp 72-75, s_array.h 176-180, s_map.h 231-235, s_auto_object.h 235-239, s_custom_object.h 283-287,
s_union.h 259-263) -/
def get (p : Path) : M Val := fun s =>
  if (s.heap p).set then .ok (s.heap p).val s else .throw (.std unsetMsg) s

/-- `pop()` of every storage parser. -/
def pop' (p : Path) : M Val := popVal p

/-- The user's call of `reset()` (internals/token_parser.h 57, a public virtual method of every parser) on the parser `sh` at `p`: see `resetH`. -/
def reset' (p : Path) (sh : Shape) (s : St) : St := { s with heap := resetH p sh s.heap }

/-- `KeyValueParser::get<n>()` for a member that is a storage parser
(internals/key_value_parser.h 250-266); `d` is the member's default value. -/
def getN (p : Path) (n : Nat) (d : Option Val) : M Val := fun s =>
  if !(s.heap (.mem n :: p)).set && d.isSome then
    match d with
    | some v => .ok v s
    | none => .ub
  else get (.mem n :: p) s

/-- `KeyValueParser::pop<n>()` (internals/key_value_parser.h 276-293) -/
def popN (p : Path) (n : Nat) (d : Option Val) : M Val := fun s =>
  if !(s.heap (.mem n :: p)).set && d.isSome then
    match d with
    | some v => .ok v s
    | none => .ub
  else popVal (.mem n :: p) s

/-! ## The member tables of objects and unions -/

/-- `std::unordered_map<InternalNameType, TokenParser *>` (internals/key_value_parser.h 162): association of
names with member parsers, here identified by their index. Iteration order is irrelevant. -/
abbrev NameMap := List (Scalar × Nat)

/-- `_parsers_map.find(name)` -/
def NameMap.find (m : NameMap) (x : Scalar) : Option Nat :=
  (m.find? fun e => e.1.cppEq x).map (·.2)

/-- `_parsers_map.insert({name, parser})`: the new map and `inserted`. -/
def NameMap.insert (m : NameMap) (x : Scalar) (n : Nat) : NameMap × Bool :=
  match m.find x with
  | some _ => (m, false)
  | none => ((x, n) :: m, true)

/-- `_parsers_map[name] = parser` -/
def NameMap.assign (m : NameMap) (x : Scalar) (n : Nat) : NameMap :=
  match m.find x with
  | some _ => m.map fun e => if e.1.cppEq x then (e.1, n) else e
  | none => (x, n) :: m

/-- The constructor of `MemberParser<n, ...>` (internals/key_value_parser.h 306-331): the base class, i.e.
the members with higher indices, is constructed first. -/
def construct (fmt : Dbl → String) (n : Nat) : List MInfo → Except String NameMap
  | [] => .ok []
  | i :: is =>
    match construct fmt (n + 1) is with
    | .error e => .error e
    | .ok m =>
      match m.insert i.name n with
      | (m', true) => .ok m'
      | (_, false) => .error ("Member " ++ nameText fmt i.name ++ " appears more, than once")

/-- `MemberParser::registerParsers` (internals/key_value_parser.h 357-369). -/
def registerParsers (n : Nat) : List MInfo → NameMap → NameMap
  | [], m => m
  | i :: is, m => (registerParsers (n + 1) is m).assign i.name n

/-- Move construction (internals/key_value_parser.h 176-184): the new object's map starts out empty, the
members (with their names) are moved, then registered. `names` are the names of the source. -/
def moveConstruct (names : List MInfo) : NameMap := registerParsers 0 names []

/-- Move assignment (internals/key_value_parser.h 186-197): the members (with their names) are moved into the
destination, its old map is cleared, then they are registered. `old` is the destination's map before. -/
def moveAssign (old : NameMap) (names : List MInfo) : NameMap :=
  let cleared : NameMap := old.filter fun _ => false
  registerParsers 0 names cleared

end SJ
