/-
`YajlParser`, `ParsingError` and `Parser` (yajl_parser.h, yajl_parser.cpp, parsing_error.h, parsing_error.cpp,
parser.h). YAJL itself, which is not part of the repository, is a parameter.

All file references are relative to /repo/library/sjparser/.
-/
import Verif.Model.Api

namespace SJ

/-! ## YAJL -/

/-- What is assumed of YAJL's streaming parser: it is a deterministic machine that consumes its input byte by byte, so it behaves in
the same way wherever the input is cut into chunks.
* `alloc` – `yajl_alloc` (yajl_parser.cpp 38); that it may fail (lines 39-41) is modelled in `Verif/Model/Alloc.lean`
* `step` – one byte of `yajl_parse`: the tokens to be reported, in order, and whether there was no error after them
* `complete` – `yajl_complete_parse`: the tokens that are still to be reported (a number at the end of the input is only
  reported then), and whether the document is complete
* `cancel` – the state after a callback returned 0
* `message` – `yajl_get_error(handle, 1, data, len)` with the bytes it is given; `none` is a null pointer. -/
structure Yajl where
  H : Type
  alloc : H
  step : H → UInt8 → H × List Token × Bool
  complete : H → H × List Token × Bool
  cancel : H → H
  message : H → List UInt8 → Option String

/-! ## The caller's memory -/

/-- `const char *`; `none` is `nullptr`. -/
abbrev Ptr := Option Nat

/-- The caller's buffers at some moment; `none`: no such object (any more). -/
abbrev Mem := Nat → Option (List UInt8)

/-- The `len` bytes at `p`; `none`: reading them is undefined behaviour. -/
def Mem.read (m : Mem) (p : Ptr) (len : Nat) : Option (List UInt8) :=
  if len = 0 then some []
  else match p with
    | none => none
    | some a => match m a with
      | none => none
      | some bs => if len ≤ bs.length then some (bs.take len) else none

/-! ## State and results -/

/-- A `Parser<ParserT>` (parser.h 42-66) on YAJL (yajl_parser.h 130-136): the parser tree with its dispatcher, the YAJL handle
(`alive`: it has not reported an error yet) and the fields `_data`, `_len`, `_reset_needed`, `_sjparser_error`. -/
structure PSt (Y : Yajl) where
  st : St
  handle : Y.H
  alive : Bool
  data : Ptr
  len : Nat
  resetNeeded : Bool
  err : String

/-- `ParsingError` (parsing_error.h 63-64) with its `sjparserError()` and `parserError()`; or any other exception. -/
inductive Thrown where
  | parsing (sj yajl : String)
  | other (e : Exn)
deriving DecidableEq, Repr

/-- `ParsingError::what()` (parsing_error.cpp 32-37) -/
def parsingWhat (sj yajl : String) : String := if sj ≠ "" then sj else yajl

inductive PRes (Y : Yajl) (α : Type) where
  | ok (a : α) (s : PSt Y)
  | throw (x : Thrown) (s : PSt Y)
  | ub
  | fuel

abbrev P (Y : Yajl) (α : Type) := PSt Y → PRes Y α

def P.pure {Y α} (a : α) : P Y α := fun s => .ok a s

def P.bind {Y α β} (m : P Y α) (f : α → P Y β) : P Y β := fun s =>
  match m s with
  | .ok a s' => f a s'
  | .throw e s' => .throw e s'
  | .ub => .ub
  | .fuel => .fuel

variable (Y : Yajl) (E : Env) (R : Shape)

/-! ## Methods -/

/-- `YajlParser::on` (yajl_parser.h 146-157): an exception of `_dispatcher->on(token)` is turned into the answer 0 (`false`) and its text is kept. -/
def onToken (t : Token) : P Y Bool := fun s =>
  match dispatch E R t s.st with
  | .ok _ st => .ok true { s with st := st }
  | .throw (.std msg) st => .ok false { s with st := st, err := cText msg }
  | .throw .other st => .ok false { s with st := st, err := "Unknown exception" }
  | .ub => .ub
  | .fuel => .fuel

/-- YAJL reports tokens by its callbacks (yajl_parser.cpp 97-140), until one of them returns 0. -/
def report : List Token → P Y Bool
  | [] => P.pure true
  | t :: ts => P.bind (onToken Y E R t) fun go => if go then report ts else P.pure false

/-- What YAJL does with the outcome (`h'`, the tokens and whether there is no error) of a step. -/
def advance (out : Y.H × List Token × Bool) : P Y Bool :=
  P.bind (report Y E R out.2.1) fun go s =>
    if go then .ok out.2.2 { s with handle := out.1, alive := out.2.2 }
    else .ok false { s with handle := Y.cancel out.1, alive := false }

/-- `yajl_parse(handle, data, len) == yajl_status_ok`; a handle that reported an error goes on doing so. -/
def yajlParse : List UInt8 → P Y Bool
  | [], s => .ok s.alive s
  | b :: bs, s =>
    if s.alive then P.bind (advance Y E R (Y.step s.handle b)) (fun go => if go then yajlParse bs else P.pure false) s
    else .ok false s

/-- `yajl_complete_parse(handle) == yajl_status_ok` -/
def yajlComplete : P Y Bool := fun s =>
  if s.alive then advance Y E R (Y.complete s.handle) s else .ok false s

/-- `YajlParser::throwParsingError` (yajl_parser.cpp 84-95); `m` is the caller's memory at this moment. -/
def throwParsingError (m : Mem) : P Y Unit := fun s =>
  match m.read s.data s.len with
  | none => .ub
  | some bs => .throw (.parsing s.err ((Y.message s.handle bs).getD "Unknown YAJL error\n")) s

/-- The reset at the beginning of `parse` (yajl_parser.cpp 52-58), with `Dispatcher::reset`. -/
def PSt.renew (s : PSt Y) : PSt Y :=
  if s.resetNeeded then
    { s with st := s.st.restart, handle := Y.alloc, alive := true, err := "", resetNeeded := false }
  else s

/-- `YajlParser::parse(const char *data, size_t len)` (yajl_parser.cpp 48-64). `parse(const std::string &)` (lines 44-46) is
this with the buffer and the size of the string. -/
def parse (m : Mem) (p : Ptr) (len : Nat) : P Y Unit := fun s =>
  match m.read p len with
  | none => .ub
  | some bs =>
    P.bind (yajlParse Y E R bs) (fun good s =>
      if good then .ok () s else throwParsingError Y m { s with resetNeeded := true })
      (PSt.renew Y { s with data := p, len := len })

/-- `YajlParser::checkDispatcherStack` (yajl_parser.cpp 76-82); the second argument of `ParsingError` is empty by default
(parsing_error.h 41-42). -/
def checkDispatcherStack : P Y Unit := fun s =>
  match s.st.stack with
  | [] => .ok () s
  | _ => .throw (.parsing "Dispatcher parsers stack is not empty in the end" "") s

/-- `YajlParser::finish` (yajl_parser.cpp 66-74) -/
def finishDoc (m : Mem) : P Y Unit := fun s =>
  P.bind (yajlComplete Y E R) (fun good => if good then checkDispatcherStack Y else throwParsingError Y m)
    { s with resetNeeded := true }

/-- The constructors of `YajlParser` (yajl_parser.cpp 29-31, yajl_parser.h 130-136) and of `Parser` (parser.h 72-79). -/
def PSt.init : PSt Y :=
  { st := St.init R, handle := Y.alloc, alive := true, data := none, len := 0, resetNeeded := false, err := "" }

end SJ
