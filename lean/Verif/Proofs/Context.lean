/-
The main theorem for a parser anywhere in the tree.
-/
import Verif.Proofs.Main
import Verif.Proofs.SpecFacts

set_option linter.unusedVariables false

namespace SJ

variable {E : Env} {R : Shape}

/-- The parser `sh` at `p` is the current one and a value is expected of it: it is on top of the stack with its
dispatcher pointer set, pointers have been passed on to members, no array at or below `p` is in the middle of its elements,
and no scalar element parser of an array has a dispatcher. -/
structure Expecting (R : Shape) (s : St) (p : Path) (sh : Shape) : Prop where
  top : ∃ rest, s.stack = p :: rest
  shape : R.at p = some sh
  disp : (s.heap p).disp = true
  sane : Sane R p s.heap

/-- A tree that is ready for a document expects a value of the root. -/
theorem Ready.expecting {s : St} (h : Ready R s) : Expecting R s [] R := ⟨⟨_, h.stack⟩, rfl, h.disp, h.sane⟩

/-- The parser at `p` reads the value `j` completely: it ends up in the state `s1`, where it is still on top of the
stack and no parser outside of it has changed; what remains is its removal from the stack (`Dispatcher::popParser`), of
which the parser below is told. -/
def Completes (E : Env) (R : Shape) (s : St) (p : Path) (j : Json) (s1 : St) : Prop :=
  run E R (events j) s = pop E R s1 ∧ s1.stack = s.stack ∧ ∀ q, ¬ Below p q → s1.heap q = s.heap q

/-- Reading the value `j` fails with this message. -/
def Fails (E : Env) (R : Shape) (s : St) (j : Json) (msg : String) : Prop :=
  ∃ s', run E R (events j) s = .throw (.std msg) s'

/-- For the root: the document is accepted and the stack is empty. -/
theorem Completes.root {s s1 : St} {j} (h : Completes E R s [] j s1) (hs : s.stack = [[]]) :
    run E R (events j) s = .ok () { s1 with stack := [] } := by
  rw [h.1, pop_one (h.2.1.trans hs)]

/-- For a member of an object: the value is accepted and the object is current again. -/
theorem Completes.member {s s1 : St} {j n p rest k u ms} (h : Completes E R s (.mem n :: p) j s1)
    (hs : s.stack = (.mem n :: p) :: p :: rest) (hR : R.at p = some (.object k u ms)) :
    run E R (events j) s = .ok () { s1 with stack := p :: rest } := by
  rw [h.1, pop_cons (h.2.1.trans hs), chP_object hR]; rfl

/-- What reading a value does, anywhere in the tree, for any callbacks. -/
theorem parse_eval_at {s : St} {p sh j} (hx : Expecting R s p sh) (hu : sh ≠ .ignore) (hok : okVal sh j = true) :
    run E R (events j) s = M.bind (evalVal E sh p j) (fun _ => pop E R) s := by
  obtain ⟨rest, hs⟩ := hx.top
  have := sim_val (E := E) (R := R) j sh p rest [] s hx.shape hs hx.disp hx.sane (fun h => absurd h hu) hok
  rw [List.append_nil] at this
  rw [this]
  refine bind_congr rfl fun _ s' _ => ?_
  show M.bind (pop E R) (fun _ => M.pure ()) s' = pop E R s'
  unfold M.bind M.pure
  cases pop E R s' <;> rfl

/-- What reading a value does, anywhere in the tree, for callbacks that only observe. -/
theorem parse_at (hE : Passive E) {s : St} {p sh j} (hx : Expecting R s p sh) (hw : sh.wf = true) (hok : okVal sh j = true) :
    match denote E.fmtDbl sh j with
    | .ok d => ∃ s1, Completes E R s p j s1 ∧ Holds s1.heap p d ∧ Logged E (denoteT E.fmtDbl sh p j).calls s.log s1.log
    | .error e => Fails E R s j e := by
  have hm := den_val (R := R) hE j sh p s hx.shape hw (okVal_uok _ _ hok)
  have hrun := parse_eval_at (E := E) hx (user_of_wf hw) hok
  unfold Meets at hm
  rw [denoteT_result] at hm
  cases hd : denote E.fmtDbl sh j with
  | error e =>
    rw [hd] at hm
    obtain ⟨s', h, hl⟩ := hm
    exact ⟨s', by rw [hrun]; unfold M.bind; rw [h]⟩
  | ok d =>
    rw [hd] at hm
    obtain ⟨s', h, hh, hl⟩ := hm
    have hk := evalVal_keep j sh p hx.shape s () s' h
    rw [bind_ok h] at hrun
    exact ⟨s', ⟨hrun, hk.1, hk.2.frame⟩, hh, hl⟩

theorem parse_at_ok (hE : Passive E) {s : St} {p sh j d} (hx : Expecting R s p sh) (hw : sh.wf = true) (hok : okVal sh j = true)
    (hd : denote E.fmtDbl sh j = .ok d) :
    ∃ s1, Completes E R s p j s1 ∧ Holds s1.heap p d ∧ Logged E (denoteT E.fmtDbl sh p j).calls s.log s1.log := by
  have := parse_at hE hx hw hok; rw [hd] at this; exact this

theorem parse_at_ok' (hE : Passive E) {s : St} {p sh j d} (hx : Expecting R s p sh) (hw : sh.wf = true) (hok : okVal sh j = true)
    (hd : denote E.fmtDbl sh j = .ok d) :
    ∃ s1, Completes E R s p j s1 ∧ Holds s1.heap p d ∧ Logged E (denoteT E.fmtDbl sh p j).calls s.log s1.log ∧
      evalVal E sh p j s = .ok () s1 := by
  have hm := den_val (R := R) hE j sh p s hx.shape hw (okVal_uok _ _ hok)
  have hrun := parse_eval_at (E := E) hx (user_of_wf hw) hok
  unfold Meets at hm
  rw [denoteT_result, hd] at hm
  obtain ⟨s', h, hh, hl⟩ := hm
  have hk := evalVal_keep j sh p hx.shape s () s' h
  rw [bind_ok h] at hrun
  exact ⟨s', ⟨hrun, hk.1, hk.2.frame⟩, hh, hl, h⟩

theorem parse_at_error (hE : Passive E) {s : St} {p sh j e} (hx : Expecting R s p sh) (hw : sh.wf = true) (hok : okVal sh j = true)
    (hd : denote E.fmtDbl sh j = .error e) : Fails E R s j e := by
  have := parse_at hE hx hw hok; rw [hd] at this; exact this

/-- If reading a value at the root (or of an object's member) does not fail, `denote` has a result. -/
theorem completes_denote (hE : Passive E) {s s' : St} {p sh j} (hx : Expecting R s p sh) (hw : sh.wf = true) (hok : okVal sh j = true)
    (h : run E R (events j) s = .ok () s') : ∃ d, denote E.fmtDbl sh j = .ok d := by
  cases hd : denote E.fmtDbl sh j with
  | ok d => exact ⟨d, rfl⟩
  | error e =>
    obtain ⟨s2, h2⟩ := parse_at_error hE hx hw hok hd
    rw [h] at h2; simp at h2

/-- Entering a member: after the opening brace and a declared name a value is expected of the member. -/
theorem Expecting.member {s : St} {p k u ms key n m} (hx : Expecting R s p (.object k u ms)) (hl : lookup (.str key) 0 ms = some (n, m)) :
    ∃ s', run E R [.mapStart, .mapKey key] s = .ok () s' ∧ Expecting R s' (.mem n :: p) m := by
  obtain ⟨rest, hs⟩ := hx.top
  obtain ⟨i, hi⟩ := lookup_mem hl
  have hRm := at_mem_object hx.shape hi
  have hd0 : (resetH p (.object k u ms) s.heap p).disp = true := by rw [(resetH_ctl _ _ _ _).1]; exact hx.disp
  let s' : St := { heap := (resetH p (.object k u ms) s.heap).upd p fun c => { c with empty := false },
                   stack := (.mem n :: p) :: s.stack, log := s.log }
  have hctl : SameCtl s.heap s'.heap := (resetH_ctl _ _ _).trans (SameCtl.upd fun _ => ⟨rfl, rfl⟩)
  have hrun : run E R [.mapStart, .mapKey key] s = .ok () s' := by
    rw [run_dispatch hx.shape hs]
    simp only [onF, bind_modH]
    refine (run_dispatch (p := p) (stk := rest) hx.shape ?_).trans ?_
    · exact hs
    simp only [onF, onMember, hl, setNotEmpty_def, bind_assoc]
    rw [bind_modC, bind_getC]
    simp only [upd_same, hd0, if_true, bind_assoc, bind_push]
    rfl
  refine ⟨s', hrun, ⟨⟨s.stack, rfl⟩, hRm, ?_, ?_⟩⟩
  · rw [(hctl _).1]
    exact hx.sane.closed p _ (.mem n) m hx.shape hx.disp (by simp) (by simp [Shape.child, hi])
  · have : Sane R p s'.heap := hx.sane.keep (p' := p) (Keep.of_ctl
      ((resetH_frame (.object k u ms) _ _).trans (Frame.upd p _ (fun c => { c with empty := false }))) hctl)
    exact this.down (Below.cons _ _)

end SJ
