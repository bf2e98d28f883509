/-
C20 and C21: which callbacks are called, and what happens when one refuses.
-/
import Verif.Proofs.Ends
import Verif.Demo
import Verif.Props.Reuse

set_option linter.unusedVariables false

namespace SJ

variable {E : Env} {R : Shape}

/-! ### C20 -/

/-- C20. When a document has been read successfully - as the first one, or after others as in C23 -, the callbacks that were called are exactly
those of the values completed in the document (`ends`), each once, in the order in which these values end - whatever the callbacks
do with the values they are given (as long as the parse succeeds). -/
theorem C20_order {s s' : St} (h0 : Survived R s) (hw : R.wf = true) {j : Json} (hok : okVal R j = true)
    (h : run E R (events j) s = .ok () s') : Called (withCallback E (ends R [] j)) s.log s'.log := by
  obtain ⟨s1, h1, rfl⟩ := run_ok (h0.ready hw) (wf_user hw) hok h
  have := evalVal_traces (E := E) (R := R) j R [] s rfl
  rw [h1] at this
  exact this

/-- C20. When reading a document fails, the callbacks called are the first ones of this list. -/
theorem C20_failed {s s' : St} {e : Exn} (h0 : Survived R s) (hw : R.wf = true) {j : Json} (hok : okVal R j = true)
    (h : run E R (events j) s = .throw e s') : ∃ calls, calls <+: withCallback E (ends R [] j) ∧ Called calls s.log s'.log := by
  rw [run_eval (h0.ready hw) (wf_user hw) hok] at h
  have := evalVal_traces (E := E) (R := R) j R [] s rfl
  unfold M.bind at h
  cases hm : evalVal E R [] j s with
  | ok a s1 =>
    rw [hm] at h
    dsimp only at h
    have hk := evalVal_keep j R [] rfl s () s1 hm
    rw [Ready.pop_done (hk.1.trans (h0.ready hw).stack)] at h
    simp at h
  | throw e' s1 =>
    rw [hm] at h this
    injection h with h1 h2
    subst h2
    exact this
  | ub => rw [hm] at h; simp at h
  | fuel => rw [hm] at h; simp at h

/-- C20. With callbacks that only observe, each call moreover shows the value just completed: the callbacks are called with what
`denoteT` says the parsers hold at that moment. -/
theorem C20_arguments (hE : Passive E) {s s' : St} (h0 : Survived R s) (hw : R.wf = true) {j : Json} (hok : okVal R j = true)
    (h : run E R (events j) s = .ok () s') : Logged E (denoteT E.fmtDbl R [] j).calls s.log s'.log := by
  have := parse_denoteT hE (h0.ready hw) hw hok
  cases hd : denote E.fmtDbl R j with
  | error e =>
    rw [hd] at this
    obtain ⟨s1, h1, _⟩ := this
    rw [h] at h1; simp at h1
  | ok d =>
    rw [hd] at this
    obtain ⟨s1, h1, _, _, _, h2⟩ := this
    rw [h] at h1; injection h1 with _ h1; subst h1; exact h2

/-! ### C21 -/

/-- C21. If a sequence of tokens is read without an exception, every callback called meanwhile accepted. -/
theorem C21_success {ts : List Token} {s s' : St} (h : run E R ts s = .ok () s') : AllAccepted E s.log s'.log := by
  have := Grows.run (E := E) (R := R) ts s
  rw [h] at this
  exact this

/-- C21. If it is interrupted by an exception, then every callback called meanwhile accepted, except possibly the last one; in that case
the exception is the callback's own, or says that the (element) callback returned false. -/
theorem C21_failure {ts : List Token} {s s' : St} {e : Exn} (h : run E R ts s = .throw e s') :
    AllAccepted E s.log s'.log ∨
    ∃ c l v, s'.log = c :: l ∧ AllAccepted E s.log l ∧ answer E l c = some v ∧ Refusal c v e := by
  have := Grows.run (E := E) (R := R) ts s
  rw [h] at this
  exact this

/-- The log is the one before, extended by accepted calls. -/
theorem AllAccepted.split {l l' : Log} (h : AllAccepted E l l') : ∃ new, l' = new ++ l ∧
    ∀ newer c older, new = newer ++ c :: older → answer E (older ++ l) c = some .accept := by
  induction h with
  | nil => exact ⟨[], rfl, fun a c b h => by simp at h⟩
  | cons h1 h2 ih =>
    rename_i c l'
    obtain ⟨new, rfl, h3⟩ := ih
    refine ⟨c :: new, rfl, ?_⟩
    intro newer c' older h
    cases newer with
    | nil => simp at h; obtain ⟨rfl, rfl⟩ := h; exact h2
    | cons a newer => simp at h; obtain ⟨rfl, rfl⟩ := h; exact h3 newer c' older rfl

theorem not_accept_refuses {c : Call} {v : Verdict} {e : Exn} (h : Refusal c v e) : v ≠ .accept := by
  rintro rfl
  cases c <;> exact h

/-- C21, seen from a refusing callback: if a callback that was called while the tokens were read did not accept, then reading failed, with the exception
that belongs to the refusal, and no callback was called after it. -/
theorem C21_stops {ts : List Token} {s s' : St} {newer older : List Call} {c : Call} {v : Verdict}
    (h : run E R ts s = .ok () s' ∨ ∃ e, run E R ts s = .throw e s') (hl : s'.log = newer ++ c :: (older ++ s.log))
    (hv : answer E (older ++ s.log) c = some v) (hn : v ≠ .accept) :
    newer = [] ∧ ∃ e, run E R ts s = .throw e s' ∧ Refusal c v e := by
  have bad : AllAccepted E s.log s'.log → False := by
    intro ha
    obtain ⟨new, h1, h2⟩ := ha.split
    rw [hl] at h1
    have : new = newer ++ c :: older := by
      refine List.append_cancel_right (bs := s.log) ?_
      rw [← h1]; simp
    have := h2 newer c older this
    rw [hv] at this; injection this with this; exact hn this
  rcases h with h | ⟨e, h⟩
  · exact (bad (C21_success h)).elim
  · rcases C21_failure h with ha | ⟨c', l, v', h1, h2, h3, h4⟩
    · exact (bad ha).elim
    · rw [hl] at h1
      cases newer with
      | nil =>
        simp at h1
        obtain ⟨rfl, rfl⟩ := h1
        rw [hv] at h3; injection h3 with h3; subst h3
        exact ⟨rfl, e, h, h4⟩
      | cons a newer =>
        exfalso
        simp at h1
        obtain ⟨rfl, h1⟩ := h1
        obtain ⟨new, h5, h6⟩ := h2.split
        rw [← h1] at h5
        have : new = newer ++ c :: older := by
          refine List.append_cancel_right (bs := s.log) ?_
          rw [← h5]; simp
        have := h6 newer c older this
        rw [hv] at this; injection this with this; exact hn this

/-! ### Examples -/

section Examples
open SJ.Demo

/-- With a callback everywhere, `Demo.doc` calls: `name`, the two tags, `tags`, `id`, `part`, the two limits with an element call each,
`limits`, and the whole object. -/
example : ∃ s', run accepting outer (events doc) (St.init outer) = .ok () s' ∧ Called
    [.finish [.mem 0], .finish [.elem, .mem 1, .mem 1], .finish [.elem, .mem 1, .mem 1], .finish [.mem 1, .mem 1], .finish [.mem 0, .mem 1],
     .finish [.mem 1], .finish [.elem, .mem 2], .element [.mem 2] "b", .finish [.elem, .mem 2], .element [.mem 2] "a", .finish [.mem 2], .finish []]
    [] s'.log := by
  have h : run accepting outer (events doc) (St.init outer) = .ok () (after accepting outer (events doc) (St.init outer)) :=
    after_ok (by decide +kernel)
  refine ⟨_, h, ?_⟩
  have h1 := C20_order .init (by decide +kernel) (by decide +kernel) h
  have h2 : withCallback accepting (ends outer [] doc) = [.finish [.mem 0], .finish [.elem, .mem 1, .mem 1], .finish [.elem, .mem 1, .mem 1],
    .finish [.mem 1, .mem 1], .finish [.mem 0, .mem 1], .finish [.mem 1], .finish [.elem, .mem 2], .element [.mem 2] "b", .finish [.elem, .mem 2],
    .element [.mem 2] "a", .finish [.mem 2], .finish []] := by decide +kernel
  rw [h2] at h1
  exact h1

/-- The callback of the member `limits` (an `SMap`) throws something that is not a `std::exception`; the others accept. -/
def throwing : Env := { accepting with onFinish := fun p => some fun _ _ => { verdict := if p = [.mem 2] then .throws .other else .accept } }

/-- The element callback of `limits` says no at the key `a`. -/
def refusing : Env := { accepting with onElement := fun _ => some fun _ k _ => { verdict := if k = "a" then .reject else .accept } }

/-- Reading `Demo.doc` with these callbacks fails accordingly. -/
example : failure throwing outer (events doc) (St.init outer) = some .other ∧
    failure refusing outer (events doc) (St.init outer) = some (.std "Element callback returned false") ∧
    (after refusing outer (events doc) (St.init outer)).log.length = 10 := by decide +kernel

/-- The hypotheses of `C21_stops` are met by it: the last call is that of the element callback, for the key `a`. -/
example : ∃ c older v s', run refusing outer (events doc) (St.init outer) = .throw (.std "Element callback returned false") s' ∧
    s'.log = [] ++ c :: (older ++ (St.init outer).log) ∧ answer refusing (older ++ (St.init outer).log) c = some v ∧ v ≠ .accept := by
  have h : run refusing outer (events doc) (St.init outer) = .throw (.std "Element callback returned false") (after refusing outer (events doc) (St.init outer)) :=
    after_throw (by decide +kernel)
  rcases C21_failure h with ha | ⟨c, l, v, h1, h2, h3, h4⟩
  · exfalso
    have h6 : (match (after refusing outer (events doc) (St.init outer)).log with
      | .element _ "a" _ :: _ => true | _ => false) = true := by decide +kernel
    generalize (after refusing outer (events doc) (St.init outer)).log = L at h6 ha
    cases ha with
    | nil => simp [St.init] at h6
    | cons h7 h8 =>
      rename_i c l
      cases c with
      | finish p a => simp at h6
      | element p k sn =>
        have : k = "a" := by
          split at h6
          · rename_i h9; simp at h9; exact h9.1.2.1
          · simp at h6
        subst this
        simp [answer, refusing] at h8
  · refine ⟨c, l, v, _, h, ?_, ?_, not_accept_refuses h4⟩
    · simpa [St.init] using h1
    · simpa [St.init] using h3

end Examples

end SJ
