/-
Vocabulary about the use of `parse()` and `finish()`: what YAJL reports for some bytes, and everything a user can do.
-/
import Verif.Model.Yajl
import Verif.Spec

namespace SJ

/-- The text by which an exception is reported: its `what()`, a C string, i.e. the text up to the first zero byte. -/
def Exn.text : Exn → String
  | .std msg => cText msg
  | .other => "Unknown exception"

/-- What YAJL makes of some bytes from the state `h` on, if it is not cancelled: its new state, the tokens it reports and whether there
was no error. It stops at the first error. -/
def Yajl.scan (Y : Yajl) : Y.H → List UInt8 → Y.H × List Token × Bool
  | h, [] => (h, [], true)
  | h, b :: bs =>
    match Y.step h b with
    | (h', ts, true) => ((Y.scan h' bs).1, ts ++ (Y.scan h' bs).2.1, (Y.scan h' bs).2.2)
    | (h', ts, false) => (h', ts, false)

/-- The bytes are a complete document (for YAJL), whose tokens are `ts`. -/
def Yajl.Document (Y : Yajl) (bytes : List UInt8) (ts : List Token) : Prop :=
  ∃ h h' ts₁ ts₂, Y.scan Y.alloc bytes = (h, ts₁, true) ∧ Y.complete h = (h', ts₂, true) ∧ ts = ts₁ ++ ts₂

/-- Everything a user can do with a parser: construct it, call `parse()` and `finish()` at any time, with any arguments and whatever their
outcome, and take values out of the storage parsers, call `reset()` of any parser and replace the callbacks in between (every call may find other ones). -/
inductive Used (Y : Yajl) (R : Shape) : PSt Y → Prop
  | init : Used Y R (PSt.init Y R)
  | parsed {E : Env} {s s' : PSt Y} {m : Mem} {p : Ptr} {len : Nat} : Used Y R s → parse Y E R m p len s = .ok () s' → Used Y R s'
  | refused {E : Env} {s s' : PSt Y} {m : Mem} {p : Ptr} {len : Nat} {x : Thrown} : Used Y R s → parse Y E R m p len s = .throw x s' → Used Y R s'
  | finished {E : Env} {s s' : PSt Y} {m : Mem} : Used Y R s → finishDoc Y E R m s = .ok () s' → Used Y R s'
  | unfinished {E : Env} {s s' : PSt Y} {m : Mem} {x : Thrown} : Used Y R s → finishDoc Y E R m s = .throw x s' → Used Y R s'
  | pop {s : PSt Y} {st : St} {p : Path} {sh : Shape} {v : Val} : Used Y R s → R.at p = some sh → sh.isStorage = true →
      pop' p s.st = .ok v st → Used Y R { s with st := st }
  | reset {s : PSt Y} {p : Path} {sh : Shape} : Used Y R s → R.at p = some sh → Used Y R { s with st := reset' p sh s.st }

/-- Between two documents: nothing was parsed yet, or `parse()` threw, or `finish()` was called. -/
inductive Between (Y : Yajl) (R : Shape) : PSt Y → Prop
  | init : Between Y R (PSt.init Y R)
  | refused {E : Env} {s s' : PSt Y} {m : Mem} {p : Ptr} {len : Nat} {x : Thrown} : Used Y R s → parse Y E R m p len s = .throw x s' → Between Y R s'
  | finished {E : Env} {s s' : PSt Y} {m : Mem} : Used Y R s → finishDoc Y E R m s = .ok () s' → Between Y R s'
  | unfinished {E : Env} {s s' : PSt Y} {m : Mem} {x : Thrown} : Used Y R s → finishDoc Y E R m s = .throw x s' → Between Y R s'
  | pop {s : PSt Y} {st : St} {p : Path} {sh : Shape} {v : Val} : Between Y R s → R.at p = some sh → sh.isStorage = true →
      pop' p s.st = .ok v st → Between Y R { s with st := st }
  | reset {s : PSt Y} {p : Path} {sh : Shape} : Between Y R s → R.at p = some sh → Between Y R { s with st := reset' p sh s.st }

/-- The parser tree and the dispatcher as the next `parse()` call finds them: if the previous document is over, the root parser is the
current one again. -/
def PSt.tree {Y : Yajl} (s : PSt Y) : St := if s.resetNeeded then s.st.restart else s.st

/-- YAJL's state as the next `parse()` call finds it. -/
def PSt.reader {Y : Yajl} (s : PSt Y) : Y.H := if s.resetNeeded then Y.alloc else s.handle

/-- A parser that was just constructed, except that its parser tree (with the values and the callback history) is that of `st`;
the root parser is the current one. -/
def newDocument (Y : Yajl) (R : Shape) (st : St) : PSt Y := { PSt.init Y R with st := st.restart }

/-- A buffer given to `parse()`: the caller's memory at this moment, the pointer and the length. -/
structure Chunk where
  mem : Mem
  ptr : Ptr
  len : Nat

/-- The bytes of several chunks, if they can all be read. -/
def chunkBytes : List Chunk → Option (List UInt8)
  | [] => some []
  | c :: cs =>
    match c.mem.read c.ptr c.len, chunkBytes cs with
    | some bs, some bs' => some (bs ++ bs')
    | _, _ => none

/-- Several `parse()` calls in a row; an exception stops. -/
def parseAll (Y : Yajl) (E : Env) (R : Shape) : List Chunk → P Y Unit
  | [] => P.pure ()
  | c :: cs => P.bind (parse Y E R c.mem c.ptr c.len) fun _ => parseAll Y E R cs

/-- `parse()` for each chunk, then `finish()`; `m` is the caller's memory at that time. -/
def parseDocument (Y : Yajl) (E : Env) (R : Shape) (cs : List Chunk) (m : Mem) : P Y Unit :=
  P.bind (parseAll Y E R cs) fun _ => finishDoc Y E R m

/-- The same parser, but for the (unobservable) pointer to the caller's last buffer. -/
def PSt.unbuffered {Y : Yajl} (s : PSt Y) : PSt Y := { s with data := none, len := 0 }

/-- The same outcome: both return, or both throw `ParsingError` with the same `sjparserError()`, in the same state. Only the text
of `parserError()`, which quotes the last buffer, may differ. -/
inductive SameResult {Y : Yajl} : PRes Y Unit → PRes Y Unit → Prop
  | ok {s s' : PSt Y} : s.unbuffered = s'.unbuffered → SameResult (.ok () s) (.ok () s')
  | error {s s' : PSt Y} {sj y y' : String} : s.unbuffered = s'.unbuffered → SameResult (.throw (.parsing sj y) s) (.throw (.parsing sj y') s')
  | ub : SameResult .ub .ub
  | fuel : SameResult .fuel .fuel

end SJ
