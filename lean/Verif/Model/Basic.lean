/-
Basic vocabulary of the model: scalars, tokens, stored values, parser shapes, heap cells,
callbacks and the result monad.

All file references are relative to /repo/library/sjparser/.
-/
namespace SJ

/-! ## Scalars and tokens -/

/-- A C++ `double` as it is delivered by YAJL (yajl_parser.cpp 110-112): its IEEE-754 bit pattern.
The library never does arithmetic on doubles; it only stores them and (as union type values) compares
them with `==` inside `std::unordered_map`. -/
structure Dbl where
  bits : UInt64
deriving DecidableEq, Repr

/-- NaN: exponent all ones, mantissa nonzero. -/
def Dbl.isNaN (d : Dbl) : Bool :=
  (d.bits &&& 0x7ff0000000000000 == 0x7ff0000000000000) && (d.bits &&& 0x000fffffffffffff != 0)

/-- `+0.0` or `-0.0`. -/
def Dbl.isZero (d : Dbl) : Bool := d.bits &&& 0x7fffffffffffffff == 0

/-- C++ `==` on `double`, used by `std::unordered_map<double, TokenParser *>` for a
`Union<double, ...>` (internals/key_value_parser.h 162, 235). -/
def Dbl.cppEq (a b : Dbl) : Bool :=
  !a.isNaN && !b.isNaN && (a.bits == b.bits || (a.isZero && b.isZero))

/-- The four value types of `Value<T>` and of union type members (value.cpp 83-86, member.h 200-206). -/
inductive ScalarTy where
  | bool | int | dbl | str
deriving DecidableEq, Repr

/-- A scalar: payload of the tokens `bool`, `int64_t`, `double`, `std::string_view`
(internals/token_parser.h 64-67). Simplification: `int64_t` is an unbounded `Int` (values are only
stored and compared, never computed with; the range is enforced by YAJL), `std::string` is a Lean
`String`. -/
inductive Scalar where
  | bool (b : Bool)
  | int (i : Int)
  | dbl (d : Dbl)
  | str (s : String)
deriving DecidableEq, Repr

def Scalar.ty : Scalar → ScalarTy
  | .bool _ => .bool
  | .int _ => .int
  | .dbl _ => .dbl
  | .str _ => .str

/-- Key equality of `std::unordered_map<InternalNameType, TokenParser *>`
(internals/key_value_parser.h 162). Scalars of different C++ types never meet in one map. -/
def Scalar.cppEq : Scalar → Scalar → Bool
  | .bool a, .bool b => a == b
  | .int a, .int b => a == b
  | .dbl a, .dbl b => a.cppEq b
  | .str a, .str b => a == b
  | _, _ => false

/-- The tokens of internals/token_parser.h 32-39 and 63-72. -/
inductive Token where
  | null
  | scalar (v : Scalar)
  | mapStart
  | mapKey (k : String)
  | mapEnd
  | arrStart
  | arrEnd
deriving DecidableEq, Repr

/-- Text used by `unexpectedToken` for each token (internals/token_parser.cpp 55-89). Null has
no such text: it is never unexpected; the text given for it here is unused. -/
def Token.kind : Token → String
  | .null => ""
  | .scalar (.bool _) => "boolean"
  | .scalar (.int _) => "integer"
  | .scalar (.dbl _) => "double"
  | .scalar (.str _) => "string"
  | .mapStart => "map start"
  | .mapKey _ => "map key"
  | .mapEnd => "map end"
  | .arrStart => "array start"
  | .arrEnd => "array end"

/-! ## Stored values -/

/-- Values held in `_value` / `_values`.
* `sc`   – `Value<T>::_value` (value.h 116)
* `arr`  – `std::vector` of `SArray` (s_array.h 132)
* `tup`  – `std::tuple` of `SAutoObject` (s_auto_object.h 189)
* `map`  – `std::map<std::string, ...>` of `SMap` (s_map.h 171), as the list of its entries in key order
* `alt`  – `std::variant` of `SUnion`, alternative `n` holding a value
* `init` – a value-initialised object (`_value = {}`), also the initial content of the user's type
           in `SCustomObject`
* `user` – a value assigned by a user callback to an `SCustomObject`'s stored value, built from a tag
           and other values
* `moved` – what is left after `std::move` (unspecified by C++). -/
inductive Val where
  | sc (s : Scalar)
  | arr (l : List Val)
  | tup (l : List Val)
  | map (l : List (String × Val))
  | alt (n : Nat) (v : Val)
  | init
  | user (tag : String) (l : List Val)
  | moved
deriving Repr

/-- Elements of a `std::vector` variable. A value-initialised vector is empty. A moved-from vector has
unspecified content; this is represented by one element `moved`, so that using it is visible. -/
def Val.vec : Val → List Val
  | .arr l => l
  | .init => []
  | _ => [.moved]

/-- Entries of a `std::map` variable; as for `vec`. -/
def Val.entries : Val → List (String × Val)
  | .map l => l
  | .init => []
  | _ => [("", .moved)]

/-- `std::map::insert` (s_map.h 249): keeps keys sorted, does nothing if the key is present.
Simplification: `std::string`'s order is byte-lexicographic, Lean's is code-point-lexicographic; they
agree on UTF-8 encoded text. -/
def mapInsert (k : String) (v : Val) : List (String × Val) → List (String × Val)
  | [] => [(k, v)]
  | (k', v') :: r =>
    if k < k' then (k, v) :: (k', v') :: r
    else if k = k' then (k', v') :: r
    else (k', v') :: mapInsert k v r

/-! ## Parser shapes -/

/-- `Object`, `SAutoObject`, `SCustomObject`. -/
inductive ObjKind where
  | plain | auto | custom
deriving DecidableEq, Repr

/-- Name, optional flag and default value of a member (member.h 47-57). -/
structure MInfo where
  name : Scalar
  optional : Bool := false
  dflt : Option Val := none
deriving Repr

/-- The static tree of parser objects a user composes; the template arguments of the C++ classes.
`ignore` is the internal parser contained in every object and union
(internals/key_value_parser.h 164). `unknownErr` is `ObjectOptions::unknown_member == Reaction::Error`.
A union with `typeMember = ""` is an embedded one (union.h 243-248). `stored` selects
`SUnion`/`SArray`/`SMap` over `Union`/`Array`/`Map`. Simplification: members given by
lvalue reference are treated as owned (no two places of the tree share a parser object). -/
inductive Shape where
  | value (ty : ScalarTy)
  | ignore
  | object (kind : ObjKind) (unknownErr : Bool) (ms : List (MInfo × Shape))
  | union (ty : ScalarTy) (typeMember : String) (stored : Bool) (ms : List (MInfo × Shape))
  | array (stored : Bool) (elem : Shape)
  | map (stored : Bool) (elem : Shape)
deriving Repr

/-- Parsers with a `ValueType` and `get()`/`pop()` (internals/traits.h 34-40, `IsStorageParser`). -/
def Shape.isStorage : Shape → Bool
  | .value _ => true
  | .ignore => false
  | .object k _ _ => k != .plain
  | .union _ _ s _ => s
  | .array s _ => s
  | .map s _ => s

/-- One step down in the tree: n-th member, the ignore parser, or the element parser of an array or
map. -/
inductive Step where
  | mem (n : Nat)
  | ign
  | elem
deriving DecidableEq, Repr

/-- The identity (address) of a parser object: the steps from the root to it, innermost first. -/
abbrev Path := List Step

def Shape.child : Shape → Step → Option Shape
  | .object _ _ ms, .mem n => ms[n]?.map (·.2)
  | .object _ _ _, .ign => some .ignore
  | .union _ _ _ ms, .mem n => ms[n]?.map (·.2)
  | .union _ _ _ _, .ign => some .ignore
  | .array _ e, .elem => some e
  | .map _ e, .elem => some e
  | _, _ => none

/-- The parser object at a path below `sh`. -/
def Shape.at (sh : Shape) : Path → Option Shape
  | [] => some sh
  | st :: p => (sh.at p).bind (·.child st)

/-- `_parsers_map.find(name)` (internals/key_value_parser.h 235): index and parser of the member
registered under a name. `Verif/Model/Api.lean` models the construction of the map; C32_lookup proves that a
constructed map answers like this function. -/
def lookup (name : Scalar) : Nat → List (MInfo × Shape) → Option (Nat × Shape)
  | _, [] => none
  | n, (i, sh) :: ms => if i.name.cppEq name then some (n, sh) else lookup name (n + 1) ms

/-! ## Heap -/

/-- The mutable fields of a parser object.
* `disp`      – `_dispatcher != nullptr` (internals/token_parser.h 92)
* `set`, `empty` – `_set`, `_empty` (internals/token_parser.h 93-94)
* `val`       – `_value` / `_values` of the storage parsers
* `started`   – `ArrayParser::_started` (internals/array_parser.h)
* `curKey`    – `Map::_current_key` (map.h 143)
* `curId`     – `Union::_current_member_id` (union.h 238)
* `struct`    – `Ignore::_structure` (internals/ignore.h), innermost first, `true` = Object
Only the fields of the class at hand are used for each parser. -/
structure Cell where
  disp : Bool := false
  set : Bool := false
  empty : Bool := true
  val : Val := .init
  started : Bool := false
  curKey : String := ""
  curId : Nat := 0
  struct : List Bool := []
deriving Repr

abbrev Heap := Path → Cell

/-- All parser objects just constructed. -/
def Heap.fresh : Heap := fun _ => {}

def Heap.upd (h : Heap) (p : Path) (f : Cell → Cell) : Heap :=
  fun q => if q = p then f (h q) else h q

/-! ## Callbacks -/

/-- Everything observable through the public methods of a parser and of the parsers below it:
`isSet()`, `isEmpty()`, `get()` (for a set storage parser), `currentMemberId()` (for a set union)
and the members / the element parser. -/
inductive Snap where
  | node (set empty : Bool) (val : Option Val) (cur : Option Nat) (kids : List Snap)
deriving Repr

/-- Argument of a finish callback: a value (`Value`, `SArray`, `SAutoObject`, `SUnion`) or a reference
to the parser. -/
inductive Arg where
  | val (v : Val)
  | parser (s : Snap)
deriving Repr

/-- One callback invocation. -/
inductive Call where
  | finish (p : Path) (a : Arg)
  | element (p : Path) (key : String) (s : Snap)
deriving Repr

/-- Callback invocations so far, latest first. -/
abbrev Log := List Call

/-- C++ exceptions: derived from `std::exception` with its `what()`, or anything else. -/
inductive Exn where
  | std (msg : String)
  | other
deriving DecidableEq, Repr

/-- What a reader of the C string `e.what()` gets to see of the text of an exception: everything before the first zero byte.
(A member name may contain one: `\u0000` is a legal escape in JSON.) -/
def cText (s : String) : String := String.ofList (s.toList.takeWhile (· ≠ '\x00'))

inductive Verdict where
  | accept
  | reject
  | throws (e : Exn)
deriving DecidableEq, Repr

/-- What a callback does: pops some parsers it can reach (paths relative to the parser it
received), possibly assigns the stored value (only the callback of `SCustomObject` gets a mutable
reference to it), then returns or throws. -/
structure CbOut where
  verdict : Verdict := .accept
  pops : List Path := []
  newVal : Option Val := none

/-- The user's callbacks, and the text `operator<<` produces for a double. A callback is a function
of the history of all callback invocations and of its arguments, so any deterministic stateful
callback is covered. -/
structure Env where
  onFinish : Path → Option (Log → Arg → CbOut)
  onElement : Path → Option (Log → String → Snap → CbOut)
  fmtDbl : Dbl → String

/-! ## State and results -/

structure St where
  heap : Heap
  /-- `Dispatcher::_parsers` (internals/dispatcher.h 45), top first. -/
  stack : List Path
  log : Log

inductive Res (α : Type) where
  | ok (a : α) (s : St)
  | throw (e : Exn) (s : St)
  /-- undefined behaviour -/
  | ub
  /-- the model's recursion bound was exhausted; never happens (`Verif/Proofs/Fuel.lean`) -/
  | fuel

abbrev M (α : Type) := St → Res α

def M.pure {α} (a : α) : M α := fun s => .ok a s

def M.bind {α β} (m : M α) (f : α → M β) : M β := fun s =>
  match m s with
  | .ok a s' => f a s'
  | .throw e s' => .throw e s'
  | .ub => .ub
  | .fuel => .fuel

instance : Monad M where
  pure := M.pure
  bind := M.bind

/-- `throw std::runtime_error(msg)` -/
def throwStd {α} (msg : String) : M α := fun s => .throw (.std msg) s

/-- `TokenParser::unexpectedToken` (internals/token_parser.h 117-119) -/
def unexpected {α} (t : Token) : M α := throwStd ("Unexpected token " ++ t.kind)

def getC (p : Path) : M Cell := fun s => .ok (s.heap p) s

def modC (p : Path) (f : Cell → Cell) : M Unit := fun s => .ok () { s with heap := s.heap.upd p f }

def modH (f : Heap → Heap) : M Unit := fun s => .ok () { s with heap := f s.heap }

end SJ
