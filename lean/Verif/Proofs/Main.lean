/-
The main theorem: feeding the tokens of a JSON document to a parser tree that is not in the middle of
a document does what `denote` says.
-/
import Verif.Proofs.Adequacy
import Verif.Model.Api

set_option linter.unusedVariables false

namespace SJ

variable {E : Env} {R : Shape}

/-- A parser tree that is ready for a new document: only the root is on the stack, dispatcher pointers
are in place and no array is in the middle of its elements. -/
structure Ready (R : Shape) (s : St) : Prop where
  stack : s.stack = [[]]
  disp : (s.heap []).disp = true
  sane : Sane R [] s.heap

theorem fresh_started (R q) : (attach R Heap.fresh q).started = false := by
  unfold attach; rw [(setDispH_only R [] Heap.fresh).started]; rfl

/-- A freshly constructed parser is ready. -/
theorem Ready.init (R : Shape) : Ready R (St.init R) := by
  refine ⟨rfl, setDispH_self _ _ _, ?_, fun q _ => fresh_started R q, ?_⟩
  · exact DClosed.setDispH DClosed.fresh rfl
  · intro q st ty _ hR
    cases hd : (attach R Heap.fresh (.elem :: q)).disp with
    | false => exact hd
    | true =>
      rcases setDispH_disp R [] Heap.fresh _ hd with h | h
      · simp [Heap.fresh] at h
      · rcases h.not_elem rfl with h | ⟨st', q', sh', h1, h2, h3⟩
        · simp at h
        · injection h1 with _ h1; subst h1
          rw [hR] at h2; injection h2 with h2
          exact absurd h2.symm (h3 _ _)

theorem Ready.pop_done {s : St} (h : s.stack = [[]]) : pop E R s = .ok () { s with stack := [] } := by
  have := pop_one (E := E) (R := R) (p := []) h
  exact this

/-- What the tokens of a document do, for any callbacks: the recursive-descent reading, then the root is
removed from the stack. -/
theorem run_eval {s : St} (hr : Ready R s) (hu : R.isUser = true) {j} (hok : okVal R j = true) :
    run E R (events j) s = M.bind (evalVal E R [] j) (fun _ => pop E R) s := by
  have := sim_val (E := E) (R := R) j R [] [] [] s rfl hr.stack hr.disp hr.sane
    (by rintro rfl; simp [Shape.isUser] at hu) hok
  rw [List.append_nil] at this
  rw [this]
  refine bind_congr rfl fun _ s' _ => ?_
  show M.bind (pop E R) (fun _ => M.pure ()) s' = pop E R s'
  unfold M.bind M.pure
  cases pop E R s' <;> rfl

theorem run_ok {s s' : St} (hr : Ready R s) (hu : R.isUser = true) {j} (hok : okVal R j = true)
    (h : run E R (events j) s = .ok () s') :
    ∃ s1, evalVal E R [] j s = .ok () s1 ∧ s' = { s1 with stack := [] } := by
  rw [run_eval hr hu hok] at h
  obtain ⟨_, s1, h1, h2⟩ := bind_ok_inv h
  have hk := evalVal_keep j R [] rfl s () s1 h1
  rw [Ready.pop_done (hk.1.trans hr.stack)] at h2
  injection h2 with _ h2
  exact ⟨s1, h1, h2.symm⟩

/-- After a successful document the tree is ready for the next one (whatever the callbacks did). -/
theorem Ready.after {s s' : St} (hr : Ready R s) (hu : R.isUser = true) {j} (hok : okVal R j = true)
    (h : run E R (events j) s = .ok () s') : s'.stack = [] ∧ Ready R s'.restart := by
  obtain ⟨s1, h1, rfl⟩ := run_ok hr hu hok h
  have hk := evalVal_keep j R [] rfl s () s1 h1
  exact ⟨rfl, rfl, hk.2.mono _ hr.disp, hr.sane.keep hk.2⟩

theorem wf_user {sh : Shape} (h : sh.wf = true) : sh.isUser = true := by
  cases sh <;> simp [Shape.wf, Shape.isUser] at *

/-- Main theorem: what the tokens of a document do to a tree that is ready, with callbacks that only observe. -/
theorem parse_denoteT (hE : Passive E) {s : St} (hr : Ready R s) (hw : R.wf = true) {j} (hok : okVal R j = true) :
    match denote E.fmtDbl R j with
    | .ok d => ∃ s', run E R (events j) s = .ok () s' ∧ s'.stack = [] ∧ Holds s'.heap [] d ∧ Ready R s'.restart ∧
        Logged E (denoteT E.fmtDbl R [] j).calls s.log s'.log
    | .error e => ∃ s', run E R (events j) s = .throw (.std e) s' ∧ Logged E (denoteT E.fmtDbl R [] j).calls s.log s'.log := by
  have hm := den_val (R := R) hE j R [] s rfl hw (okVal_uok _ _ hok)
  have hrun := run_eval (E := E) hr (wf_user hw) hok
  unfold Meets at hm
  rw [denoteT_result] at hm
  cases hd : denote E.fmtDbl R j with
  | error e =>
    rw [hd] at hm
    obtain ⟨s', h, hl⟩ := hm
    exact ⟨s', by rw [hrun]; unfold M.bind; rw [h], hl⟩
  | ok d =>
    rw [hd] at hm
    obtain ⟨s', h, hh, hl⟩ := hm
    have hk := evalVal_keep j R [] rfl s () s' h
    rw [bind_ok h, Ready.pop_done (hk.1.trans hr.stack)] at hrun
    exact ⟨_, hrun, rfl, hh, (Ready.after hr (wf_user hw) hok hrun).2, hl⟩

/-- The same without the calls. -/
theorem parse_denote (hE : Passive E) {s : St} (hr : Ready R s) (hw : R.wf = true) {j} (hok : okVal R j = true) :
    match denote E.fmtDbl R j with
    | .ok d => ∃ s', run E R (events j) s = .ok () s' ∧ s'.stack = [] ∧ Holds s'.heap [] d ∧ Ready R s'.restart
    | .error e => ∃ s', run E R (events j) s = .throw (.std e) s' := by
  have h := parse_denoteT hE hr hw hok
  cases hd : denote E.fmtDbl R j with
  | error e => rw [hd] at h; obtain ⟨s', h, _⟩ := h; exact ⟨s', h⟩
  | ok d => rw [hd] at h; obtain ⟨s', h1, h2, h3, h4, _⟩ := h; exact ⟨s', h1, h2, h3, h4⟩

end SJ
