/-
Two ways to name the parser objects of a tree.
-/
import Verif.SpecShared

namespace SJ

/-- The same places share an object; only the names of the objects differ. -/
def SameSharing (ob ob' : Path → Path) : Prop := ∀ p q, ob p = ob q ↔ ob' p = ob' q

/-- The callback of the object at the same place, with the same arguments. -/
inductive SameCall (ob ob' : Path → Path) : Call → Call → Prop
  | finish (p : Path) (a : Arg) : SameCall ob ob' (.finish (ob p) a) (.finish (ob' p) a)
  | element (p : Path) (key : String) (a : Snap) : SameCall ob ob' (.element (ob p) key a) (.element (ob' p) key a)

/-- The same calls in the same order. -/
inductive CallsAlike (ob ob' : Path → Path) : Log → Log → Prop
  | nil : CallsAlike ob ob' [] []
  | cons {c c' : Call} {l l' : Log} : SameCall ob ob' c c' → CallsAlike ob ob' l l' → CallsAlike ob ob' (c :: l) (c' :: l')

/-- The object at each place is in the same state. -/
def SameObjects (ob ob' : Path → Path) (h h' : Heap) : Prop := ∀ p, h (ob p) = h' (ob' p)

/-- The object at each place has the same callbacks: they answer the same to the same arguments after the same calls, with the objects in the same states. -/
structure SameCallbacks (ob ob' : Path → Path) (E E' : FarEnv) : Prop where
  finish : ∀ p, (E.onFinish (ob p) = none ∧ E'.onFinish (ob' p) = none) ∨
    ∃ cb cb', E.onFinish (ob p) = some cb ∧ E'.onFinish (ob' p) = some cb' ∧ ∀ l l' a h h', CallsAlike ob ob' l l' → SameObjects ob ob' h h' → cb l a h = cb' l' a h'
  element : ∀ p, (E.onElement (ob p) = none ∧ E'.onElement (ob' p) = none) ∨
    ∃ cb cb', E.onElement (ob p) = some cb ∧ E'.onElement (ob' p) = some cb' ∧
      ∀ l l' k a h h', CallsAlike ob ob' l l' → SameObjects ob ob' h h' → cb l k a h = cb' l' k a h'
  fmt : E.fmtDbl = E'.fmtDbl

/-- The same current places, the same states of the objects, the same calls so far. -/
structure SameState (ob ob' : Path → Path) (s s' : St) : Prop where
  stack : s.stack = s'.stack
  objects : SameObjects ob ob' s.heap s'.heap
  calls : CallsAlike ob ob' s.log s'.log

/-- The same outcome: result or exception, and states that are the same. -/
inductive SameFate (ob ob' : Path → Path) {α : Type} : Res α → Res α → Prop
  | ok {s s' : St} (a : α) : SameState ob ob' s s' → SameFate ob ob' (.ok a s) (.ok a s')
  | throw {s s' : St} (e : Exn) : SameState ob ob' s s' → SameFate ob ob' (.throw e s) (.throw e s')
  | ub : SameFate ob ob' .ub .ub
  | fuel : SameFate ob ob' .fuel .fuel

/-- The same, for the whole parser: YAJL's state and the fields of `YajlParser` are equal. -/
structure SameParser {Y : Yajl} (ob ob' : Path → Path) (s s' : PSt Y) : Prop where
  st : SameState ob ob' s.st s'.st
  handle : s.handle = s'.handle
  alive : s.alive = s'.alive
  data : s.data = s'.data
  len : s.len = s'.len
  resetNeeded : s.resetNeeded = s'.resetNeeded
  err : s.err = s'.err

/-- The same outcome of a call of `parse` or `finish`. -/
inductive SameCallEnd {Y : Yajl} (ob ob' : Path → Path) {α : Type} : PRes Y α → PRes Y α → Prop
  | ok {s s' : PSt Y} (a : α) : SameParser ob ob' s s' → SameCallEnd ob ob' (.ok a s) (.ok a s')
  | throw {s s' : PSt Y} (e : Thrown) : SameParser ob ob' s s' → SameCallEnd ob ob' (.throw e s) (.throw e s')
  | ub : SameCallEnd ob ob' .ub .ub
  | fuel : SameCallEnd ob ob' .fuel .fuel

end SJ
