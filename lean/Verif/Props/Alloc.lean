/-
C51: when the memory for the JSON reader cannot be allocated.
-/
import Verif.Model.Alloc
import Verif.SpecSession
import Verif.Demo
import Verif.DemoYajl

namespace SJ

variable {Y : Yajl} {R : Shape}

/-- The states in which a parser can be: it was constructed; `parse()` and `finish()` were called in any order, with or without an exception, with or without
memory for `yajl_alloc`, with any callbacks; values were popped in between. -/
inductive Lived (Y : Yajl) (R : Shape) : ASt Y → Prop
  | init {s : ASt Y} : constructA Y R true = .ok s → Lived Y R s
  | parse {E : Env} {s s' : ASt Y} {avail : Bool} {m : Mem} {p : Ptr} {len : Nat} : Lived Y R s →
      (parseA Y E R avail m p len s = .ok s' ∨ ∃ x, parseA Y E R avail m p len s = .throw x s') → Lived Y R s'
  | finish {E : Env} {s s' : ASt Y} {m : Mem} : Lived Y R s → (finishA Y E R m s = .ok s' ∨ ∃ x, finishA Y E R m s = .throw x s') → Lived Y R s'
  | pop {s : ASt Y} {st' : St} {p : Path} {sh : Shape} {v : Val} : Lived Y R s → R.at p = some sh → sh.isStorage = true → pop' p s.p.st = .ok v st' →
      Lived Y R { s with p := { s.p with st := st' } }
  | reset {s : ASt Y} {p : Path} {sh : Shape} : Lived Y R s → R.at p = some sh → Lived Y R { s with p := { s.p with st := reset' p sh s.p.st } }

theorem withHandle_null {r : PRes Y Unit} {s : ASt Y} (h : r.withHandle = .ok s ∨ ∃ x, r.withHandle = .throw x s) : s.null = false := by
  cases r <;> simp only [PRes.withHandle] at h <;> rcases h with h | ⟨x, h⟩ <;> first | (injection h with h; subst h; rfl) | (injection h with _ h; subst h; rfl) | simp at h

/-- Whenever the handle is null, the next `parse()` makes a new one. -/
theorem Lived.null {s : ASt Y} (h : Lived Y R s) : s.null = true → s.p.resetNeeded = true := by
  induction h with
  | init h => simp only [constructA, if_true] at h; injection h with h; subst h; intro h; simp at h
  | @parse E s s' avail m p len _ hr ih =>
    intro hn
    unfold parseA at hr
    split at hr
    · next hc =>
      rcases hr with hr | ⟨x, hr⟩
      · simp at hr
      · injection hr with _ hr; subst hr
        simp only [Bool.and_eq_true] at hc
        exact hc.1
    · split at hr
      · simp at hr
      · rw [withHandle_null hr] at hn; simp at hn
  | @finish E s s' m _ hr ih =>
    intro hn
    unfold finishA at hr
    split at hr
    · simp at hr
    · rw [withHandle_null hr] at hn; simp at hn
  | pop _ _ _ _ ih => exact ih
  | reset _ _ ih => exact ih

/-- C51. There is no memory for a new JSON reader and one is needed: `parse()` throws an `std::runtime_error` with this text; no parser and no stored value
has changed, no callback was called. -/
theorem C51_no_memory {E : Env} {s : ASt Y} (hn : s.p.resetNeeded = true) (m : Mem) (p : Ptr) (len : Nat) :
    ∃ s', parseA Y E R false m p len s = .throw (.other (.std "Can not allocate YAJL handle")) s' ∧ s'.p.st.heap = s.p.st.heap ∧ s'.p.st.log = s.p.st.log := by
  refine ⟨⟨{ s.p with data := p, len := len, st := s.p.st.restart }, true⟩, ?_, rfl, rfl⟩
  unfold parseA
  rw [if_pos (by simp [hn])]

/-- C51. The constructor throws the same. -/
theorem C51_constructor : constructA Y R false = .error (.std "Can not allocate YAJL handle") := rfl

/-- C51. After that, the next `parse()` does exactly what it would have done if the failed call had not been made: the failure leaves no traces. -/
theorem C51_no_traces {E E' : Env} {s s' : ASt Y} {m m' : Mem} {p p' : Ptr} {len len' : Nat} {x : Thrown}
    (hf : parseA Y E R false m p len s = .throw x s') (hn : s.p.resetNeeded = true) :
    parseA Y E' R true m' p' len' s' = parseA Y E' R true m' p' len' s := by
  unfold parseA at hf
  rw [if_pos (by simp [hn])] at hf
  injection hf with _ hf
  subst hf
  unfold parseA
  simp only [hn, Bool.not_true, Bool.and_false, Bool.false_eq_true, if_false, parse, PSt.renew, if_true, St.restart]

/-- C51. Memory is only needed for the first `parse()` after a `finish()` or an error: otherwise the outcome does not depend on it. -/
theorem C51_not_needed {E : Env} {s : ASt Y} (hn : s.p.resetNeeded = false) (avail : Bool) (m : Mem) (p : Ptr) (len : Nat) :
    parseA Y E R avail m p len s = parseA Y E R true m p len s := by
  unfold parseA
  simp [hn]

/-- C51. In every state that can be reached, with memory available `parse()` does what the model without allocation failures says: no null handle is used. -/
theorem C51_with_memory {E : Env} {s : ASt Y} (h : Lived Y R s) (m : Mem) (p : Ptr) (len : Nat) :
    parseA Y E R true m p len s = (parse Y E R m p len s.p).withHandle := by
  unfold parseA
  cases hn : s.null with
  | false => simp
  | true => simp [h.null hn]

/-- C51, what is not safe: `finish()` (instead of another `parse()`) after the failure uses the null handle. -/
theorem C51_finish {E E' : Env} {s s' : ASt Y} {m m' : Mem} {p : Ptr} {len : Nat} {x : Thrown} (hn : s.p.resetNeeded = true)
    (hf : parseA Y E R false m p len s = .throw x s') : finishA Y E' R m' s' = .ub := by
  unfold parseA at hf
  rw [if_pos (by simp [hn])] at hf
  injection hf with _ hf
  subst hf
  rfl

section Examples
open Demo

/-- After a document: there is a reachable state in which a new reader is needed; the failed `parse()` does not lose the values read before. -/
def halfA : PSt yajl := left (parse yajl noCb outer (chunk text).mem (chunk text).ptr (chunk text).len (PSt.init yajl outer)) (PSt.init yajl outer)
def fullA : ASt yajl := ⟨left (finishDoc yajl noCb outer (buffer text) halfA) halfA, false⟩

example : fullA.p.resetNeeded = true ∧ isSet [.mem 1] fullA.p.st = true := by decide +kernel

theorem fullA_lived : Lived yajl outer fullA := by
  have h1 : parseA yajl noCb outer true (chunk text).mem (chunk text).ptr (chunk text).len ⟨PSt.init yajl outer, false⟩ = .ok ⟨halfA, false⟩ := by
    rw [C51_with_memory (Lived.init rfl), left_ok (r := parse yajl noCb outer (chunk text).mem (chunk text).ptr (chunk text).len (PSt.init yajl outer))
      (d := PSt.init yajl outer) (by decide +kernel)]
    rfl
  have h2 : finishA yajl noCb outer (buffer text) ⟨halfA, false⟩ = .ok fullA := by
    unfold finishA
    rw [if_neg (by simp), left_ok (r := finishDoc yajl noCb outer (buffer text) halfA) (d := halfA) (by decide +kernel)]
    rfl
  exact .finish (.parse (Lived.init rfl) (.inl h1)) (.inl h2)

/-- C51_no_memory, C51_no_traces. -/
example : ∃ s', parseA yajl noCb outer false (chunk text).mem (chunk text).ptr (chunk text).len fullA = .throw (.other (.std "Can not allocate YAJL handle")) s' ∧
    isSet [.mem 1] s'.p.st = true ∧
    parseA yajl noCb outer true (chunk text).mem (chunk text).ptr (chunk text).len s' = parseA yajl noCb outer true (chunk text).mem (chunk text).ptr (chunk text).len fullA := by
  have hn : fullA.p.resetNeeded = true := by decide +kernel
  obtain ⟨s', h1, h2, _⟩ := C51_no_memory (R := outer) (E := noCb) hn (chunk text).mem (chunk text).ptr (chunk text).len
  have hset : isSet [.mem 1] fullA.p.st = true := by decide +kernel
  exact ⟨s', h1, by unfold isSet at hset ⊢; rw [h2]; exact hset, C51_no_traces h1 hn⟩

end Examples

end SJ
