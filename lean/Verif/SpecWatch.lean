/-
Vocabulary for C50: two uses of the same parser that differ in callbacks which only watch.
-/
import Verif.SpecState
import Verif.SpecSession

namespace SJ

/-- The callback that was invoked is one of `E`. -/
def Call.isOf (E : Env) : Call → Bool
  | .finish p _ => (E.onFinish p).isSome
  | .element p _ _ => (E.onElement p).isSome

/-- `E'` has the callbacks of `E` and possibly others, in places where `E` has none; these only watch: they accept, pop nothing and assign nothing. -/
structure AddsWatchers (E E' : Env) : Prop where
  finish : ∀ p cb, E.onFinish p = some cb → E'.onFinish p = some cb
  element : ∀ p cb, E.onElement p = some cb → E'.onElement p = some cb
  newFinish : ∀ p cb, E.onFinish p = none → E'.onFinish p = some cb →
    ∀ l a, (cb l a).verdict = .accept ∧ (cb l a).pops = [] ∧ (cb l a).newVal = none
  newElement : ∀ p cb, E.onElement p = none → E'.onElement p = some cb → ∀ l k a, (cb l k a).verdict = .accept ∧ (cb l k a).pops = []
  text : E'.fmtDbl = E.fmtDbl

/-- What the callbacks of `E` do depends on their arguments and on earlier calls of callbacks of `E`, not on calls of others. -/
structure Independent (E : Env) : Prop where
  finish : ∀ p cb, E.onFinish p = some cb → ∀ l a, cb l a = cb (l.filter (Call.isOf E)) a
  element : ∀ p cb, E.onElement p = some cb → ∀ l k a, cb l k a = cb (l.filter (Call.isOf E)) k a

/-- Two parsers whose stored values, flags and current parsers are all the same; the calls made so far are related by `rel`. -/
structure SameBesides (rel : Log → Log → Prop) (s s' : St) : Prop where
  heap : s'.heap = s.heap
  stack : s'.stack = s.stack
  log : rel s.log s'.log

/-- The same outcome: both return, or both throw the same exception, and the parsers are the same afterwards. -/
def SameEnd {α : Type} (rel : Log → Log → Prop) : Res α → Res α → Prop
  | .ok a s, .ok a' s' => a' = a ∧ SameBesides rel s s'
  | .throw e s, .throw e' s' => e' = e ∧ SameBesides rel s s'
  | .ub, .ub => True
  | .fuel, .fuel => True
  | _, _ => False

/-- The same for the whole parser. -/
structure SameBesidesP {Y : Yajl} (rel : Log → Log → Prop) (s s' : PSt Y) : Prop where
  st : SameBesides rel s.st s'.st
  handle : s'.handle = s.handle
  alive : s'.alive = s.alive
  data : s'.data = s.data
  len : s'.len = s.len
  resetNeeded : s'.resetNeeded = s.resetNeeded
  err : s'.err = s.err

/-- The same outcome of a method of the whole parser. -/
def SameEndP {Y : Yajl} {α : Type} (rel : Log → Log → Prop) : PRes Y α → PRes Y α → Prop
  | .ok a s, .ok a' s' => a' = a ∧ SameBesidesP rel s s'
  | .throw e s, .throw e' s' => e' = e ∧ SameBesidesP rel s s'
  | .ub, .ub => True
  | .fuel, .fuel => True
  | _, _ => False

/-- The calls of the first parser are those of the second one that are calls of callbacks of `E`. -/
def CallsOf (E : Env) (l l' : Log) : Prop := l = l'.filter (Call.isOf E)

/-- There is a sequence of things to report, after which the one's calls are those it has callbacks for, after the calls `l₀` made before, and
likewise for the other. -/
def SameReports (E E' : Env) (l₀ l₀' l l' : Log) : Prop :=
  ∃ cs : List Call, l = cs.filter (Call.isOf E) ++ l₀ ∧ l' = cs.filter (Call.isOf E') ++ l₀'

/-- The tokens of a document, during which the callbacks are replaced: each part of them comes with the callbacks that are set then. -/
def runParts (R : Shape) : List (Env × List Token) → M Unit
  | [] => M.pure ()
  | (E, ts) :: rest => M.bind (run E R ts) fun _ => runParts R rest

/-- `parse()` for each chunk, the callbacks being replaced between the calls. -/
def parseParts (Y : Yajl) (R : Shape) : List (Env × Chunk) → P Y Unit
  | [] => P.pure ()
  | (E, c) :: rest => P.bind (parse Y E R c.mem c.ptr c.len) fun _ => parseParts Y R rest

/-- The callbacks of `E` only watch, `E'` has callbacks in all places where `E` has some, and doubles are printed in the same way. -/
structure WatchesLess (E E' : Env) : Prop where
  passive : Passive E
  fewer : ∀ c : Call, c.isOf E = true → c.isOf E' = true
  text : E'.fmtDbl = E.fmtDbl

end SJ
