/-
C54, C57: what it means for a user that memory runs out or that an operation of a type of theirs throws: the text of the error, and the states in which a parser can be if
this may happen at any time.
-/
import Verif.Model.Memory

namespace SJ

/-- `SAutoObject` and `SUnion`: their value is put together from those of their members. -/
def Shape.isSetter : Shape → Prop
  | .object .auto _ _ => True
  | .union _ _ true _ => True
  | _ => False

/-- There is one in the tree. -/
def HasSetter (R : Shape) : Prop := ∃ p sh, R.at p = some sh ∧ sh.isSetter

/-- The text of the `ParsingError` when memory has run out. -/
def ShortText (R : Shape) (t : String) : Prop := t = "std::bad_alloc" ∨ (HasSetter R ∧ t = "Can not set value: std::bad_alloc")

/-- The text of the `ParsingError` for the exception `x`. -/
def plainText : Exn → String
  | .std what => cText what
  | .other => "Unknown exception"

/-- The text when the value of an `SAutoObject` or `SUnion` was being put together. -/
def settingText : Exn → String
  | .std what => "Can not set value: " ++ cText what
  | .other => "Can not set value: unknown exception"

/-- The text of the `ParsingError` when an operation of a user's type has thrown `x`. -/
def UserText (R : Shape) (x : Exn) (t : String) : Prop := t = plainText x ∨ (HasSetter R ∧ t = settingText x)

/-- Both. -/
def FaultText (R : Shape) : Faults → String → Prop
  | .memory, t => ShortText R t
  | .user x _, t => UserText R x t

/-- The outcome of a method (without failures), with `n` allocations left. -/
def PRes.left {Y : Yajl} {α} : PRes Y α → Nat → PResA Y α
  | .ok a s, n => .ok a n s
  | .throw e s, n => .throw e n s
  | .ub, _ => .ub
  | .fuel, _ => .fuel

/-- The calls of callbacks `l` (newest first) are the first of all that have been made when the method returns or throws. -/
def FirstCalls {Y : Yajl} {α} (l : Log) : PRes Y α → Prop
  | .ok _ s' => l <:+ s'.st.log
  | .throw _ s' => l <:+ s'.st.log
  | .ub => True
  | .fuel => True

/-- The states in which a parser can be: it was constructed; `parse()` and `finish()` were called in any order, with any text, with or without an
exception, with any callbacks, each time with another number `n` of operations of one kind that succeed (allocations, or operations of a user's type: `F` is different each time, too); values
were popped and parsers reset in between. -/
inductive Scarce (Y : Yajl) (R : Shape) : PSt Y → Prop
  | init : Scarce Y R (PSt.init Y R)
  | parse {F : Faults} {E : Env} {s s' : PSt Y} {m : Mem} {p : Ptr} {len n n' : Nat} : Scarce Y R s →
      (PA.parse Y F E R m p len n s = .ok () n' s' ∨ ∃ x, PA.parse Y F E R m p len n s = .throw x n' s') → Scarce Y R s'
  | finish {F : Faults} {E : Env} {s s' : PSt Y} {m : Mem} {n n' : Nat} : Scarce Y R s →
      (PA.finishDoc Y F E R m n s = .ok () n' s' ∨ ∃ x, PA.finishDoc Y F E R m n s = .throw x n' s') → Scarce Y R s'
  | pop {s : PSt Y} {st' : St} {p : Path} {sh : Shape} {v : Val} : Scarce Y R s → R.at p = some sh → sh.isStorage = true → pop' p s.st = .ok v st' →
      Scarce Y R { s with st := st' }
  | reset {s : PSt Y} {p : Path} {sh : Shape} : Scarce Y R s → R.at p = some sh → Scarce Y R { s with st := reset' p sh s.st }

end SJ
