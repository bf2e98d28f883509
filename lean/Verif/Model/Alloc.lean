/-
`yajl_alloc` may fail (yajl_parser.cpp 37-42). The model of `Verif/Model/Yajl.lean` with a handle that may be null.

All file references are relative to /repo/library/sjparser/.
-/
import Verif.Model.Yajl

namespace SJ

/-- A `Parser`; `null`: `_yajl_handle` is null (then the fields `handle` and `alive` of `p` mean nothing). -/
structure ASt (Y : Yajl) where
  p : PSt Y
  null : Bool

inductive ARes (Y : Yajl) where
  | ok (s : ASt Y)
  | throw (x : Thrown) (s : ASt Y)
  | ub
  | fuel

/-- The outcome of a method, while there is a handle. -/
def PRes.withHandle {Y : Yajl} : PRes Y Unit → ARes Y
  | .ok _ s => .ok ⟨s, false⟩
  | .throw x s => .throw x ⟨s, false⟩
  | .ub => .ub
  | .fuel => .fuel

variable (Y : Yajl) (E : Env) (R : Shape)

/-- `YajlParser::YajlParser` (yajl_parser.cpp 29-31) with `resetYajlHandle` (37-42) and `Parser::Parser` (parser.h 72-79): if there is no memory
an exception leaves the constructor and there is no parser. -/
def constructA (avail : Bool) : Except Exn (ASt Y) :=
  if avail then .ok ⟨PSt.init Y R, false⟩ else .error (.std "Can not allocate YAJL handle")

/-- `YajlParser::parse` (yajl_parser.cpp 48-64); `avail`: `yajl_alloc` would succeed at this moment. If it fails, `_data`, `_len` are already assigned (49-50), the
dispatcher was reset (53), the old handle was released and the new one is null (38); `_sjparser_error` and `_reset_needed` were not touched (55-57).
Giving a null handle to `yajl_parse` is undefined behaviour. -/
def parseA (avail : Bool) (m : Mem) (p : Ptr) (len : Nat) (s : ASt Y) : ARes Y :=
  if s.p.resetNeeded && !avail then
    .throw (.other (.std "Can not allocate YAJL handle")) ⟨{ s.p with data := p, len := len, st := s.p.st.restart }, true⟩
  else if s.null && !s.p.resetNeeded then .ub
  else (parse Y E R m p len s.p).withHandle

/-- `YajlParser::finish` (yajl_parser.cpp 66-74). Giving a null handle to `yajl_complete_parse` is undefined behaviour. -/
def finishA (m : Mem) (s : ASt Y) : ARes Y :=
  if s.null then .ub else (finishDoc Y E R m s.p).withHandle

end SJ
