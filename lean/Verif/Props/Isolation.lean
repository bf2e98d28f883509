/-
C43: reading changes nothing but the parsers that read.
-/
import Verif.Proofs.Touch
import Verif.Proofs.Context
import Verif.Props.Control
import Verif.Props.Objects

set_option linter.unusedVariables false

namespace SJ

variable {E : Env} {R : Shape}

/-- The tokens `ts` are handled, without an exception, while the parser at `p` is on the dispatcher's stack: before and after each of them. -/
inductive Reads (E : Env) (R : Shape) (p : Path) : List Token → St → St → Prop
  | nil {s} : p ∈ s.stack → Reads E R p [] s s
  | cons {t ts s s1 s'} : p ∈ s.stack → dispatch E R t s = .ok () s1 → Reads E R p ts s1 s' → Reads E R p (t :: ts) s s'

theorem History.nested {s : St} (h : History R s) : Nested s.stack := (C30_stack h).1.nested

theorem History.dispatch {s s' : St} {t} (h : History R s) (hd : SJ.dispatch E R t s = .ok () s') : History R s' := by
  refine .tokens (E := E) [t] h ?_
  unfold run run
  rw [bind_ok hd]; rfl

/-- C43. One token, after any history, with any callbacks, accepted or refused: no parser changes but the one that was current, the one that is current
afterwards, and those inside them. (If none is current afterwards, the document is complete.) -/
theorem C43_token {s s' : St} (h : History R s) {p rest t} (hs : s.stack = p :: rest)
    (hd : dispatch E R t s = .ok () s' ∨ ∃ e, dispatch E R t s = .throw e s') {q rest'} (hs' : s'.stack = q :: rest') {x : Path}
    (hp : ¬ p <:+ x) (hq : ¬ q <:+ x) : s'.heap x = s.heap x := by
  have ht := dispatch_touch (E := E) (R := R) (t := t) h.nested hs
  have key : Touched p s s' → s'.heap x = s.heap x := by
    intro h
    rcases h x with h | h | h | ⟨q', r', h1, h2⟩
    · exact h
    · exact absurd h hp
    · rw [hs'] at h; simp at h
    · rw [hs'] at h1; injection h1 with h1; subst h1; exact absurd h2 hq
  rcases hd with hd | ⟨e, hd⟩
  · rw [hd] at ht; exact key ht
  · rw [hd] at ht; exact key ht

theorem mem_below {l : List Path} {p q r} (h : Nested l) (hl : l = q :: r) (hp : p ∈ l) : Below p q := by
  subst hl
  rcases List.mem_cons.1 hp with rfl | hp
  · exact Below.refl _
  · exact (List.pairwise_cons.1 h).1 _ hp

/-- C43. As long as a parser is reading - whatever the tokens, the callbacks and the history - nothing outside of it changes: not the parsers it is
inside of, not the other members of its object or union, nor anything in them. -/
theorem C43_reading {s s' : St} (h : History R s) {p ts} (hr : Reads E R p ts s s') {x : Path} (hx : ¬ p <:+ x) : s'.heap x = s.heap x := by
  induction hr with
  | nil => rfl
  | @cons t ts s s1 s' hp hd hr ih =>
    have h1 := h.dispatch hd
    rw [ih h1]
    have hp1 : p ∈ s1.stack := by cases hr <;> assumption
    cases hs : s.stack with
    | nil => rw [hs] at hp; simp at hp
    | cons q r =>
      cases hs1 : s1.stack with
      | nil => rw [hs1] at hp1; simp at hp1
      | cons q1 r1 =>
        have b1 : Below p q := mem_below h.nested hs hp
        have b2 : Below p q1 := mem_below h1.nested hs1 hp1
        exact C43_token h hs (.inl hd) hs1 (fun hb => hx (b1.trans hb)) (fun hb => hx (b2.trans hb))

/-- C43. A token that is refused while a parser is reading, and leaves it on the stack, has not changed anything outside of it either. -/
theorem C43_refused {s s1 s' : St} (h : History R s) {p ts t e} (hr : Reads E R p ts s s1) (hd : dispatch E R t s1 = .throw e s') (hp : p ∈ s'.stack)
    {x : Path} (hx : ¬ p <:+ x) : s'.heap x = s.heap x := by
  rw [← C43_reading h hr hx]
  have h1 : History R s1 := by
    clear hd hx
    induction hr with
    | nil => exact h
    | cons hp hd hr ih => exact ih (h.dispatch hd)
  have hp1 : p ∈ s1.stack := by
    clear hd hx h1
    induction hr with
    | nil hp' => exact hp'
    | cons _ hd hr ih => exact ih (h.dispatch hd)
  cases hs : s1.stack with
  | nil => rw [hs] at hp1; simp at hp1
  | cons q r =>
    cases hs' : s'.stack with
    | nil => rw [hs'] at hp; simp at hp
    | cons q' r' =>
      have hn' : Nested s'.stack := (History.failed [t] e h1 (by unfold run; unfold M.bind; rw [hd])).nested
      have b1 : Below p q := mem_below h1.nested hs hp1
      have b2 : Below p q' := mem_below hn' hs' hp
      exact C43_token h1 hs (.inr ⟨e, hd⟩) hs' (fun hb => hx (b1.trans hb)) (fun hb => hx (b2.trans hb))

/-- An object is in the middle of its fields: it is current, with its dispatcher pointer set, nothing inside it is in the middle of something. -/
structure Gathering (R : Shape) (s : St) (p : Path) (k : ObjKind) (u : Bool) (ms : List (MInfo × Shape)) : Prop where
  top : ∃ rest, s.stack = p :: rest
  shape : R.at p = some (.object k u ms)
  disp : (s.heap p).disp = true
  sane : Sane R p s.heap
  ign : (s.heap (.ign :: p)).struct = []

/-- After the opening brace. -/
theorem Expecting.gathering {s : St} {p k u ms} (hx : Expecting R s p (.object k u ms)) :
    ∃ s', dispatch E R .mapStart s = .ok () s' ∧ s'.stack = s.stack ∧ Gathering R s' p k u ms := by
  obtain ⟨rest, hs⟩ := hx.top
  have h1 : dispatch E R .mapStart s = .ok () { s with heap := resetH p (.object k u ms) s.heap } := by
    rw [dispatch_cons hs hx.shape]; rfl
  refine ⟨_, h1, rfl, ⟨⟨rest, hs⟩, hx.shape, ?_, hx.sane.keep (Keep.reset _ _ _), ?_⟩⟩
  · show (resetH p (.object k u ms) s.heap p).disp = true
    rw [(resetH_ctl _ _ _ _).1]; exact hx.disp
  · have := resetH_ignOk (.object k u ms) p s.heap
    simp only [IgnOk] at this
    exact this

/-- The state after the name of a field. -/
def afterName (s : St) (p : Path) (st : Step) : St :=
  { s with heap := s.heap.upd p fun c => { c with empty := false }, stack := (st :: p) :: s.stack }

theorem Gathering.afterName {s : St} {p k u ms} (h : Gathering R s p k u ms) (st : Step) {m} (hst : R.at (st :: p) = some m) :
    R.at (st :: p) = some m ∧ ((SJ.afterName s p st).heap (st :: p)).disp = true ∧ Sane R (st :: p) (SJ.afterName s p st).heap := by
  have hctl : SameCtl s.heap (SJ.afterName s p st).heap := SameCtl.upd fun _ => ⟨rfl, rfl⟩
  refine ⟨hst, ?_, ?_⟩
  · rw [(hctl _).1]
    exact h.sane.closed p _ st m h.shape h.disp (by simp) (by simpa [Shape.at, h.shape] using hst)
  · have : Sane R p (SJ.afterName s p st).heap := h.sane.keep (p' := p) (Keep.of_ctl (Frame.upd p _ (fun c => { c with empty := false })) hctl)
    exact this.down (Below.cons _ _)

/-- One field, read by the member or ignored (`st`). -/
theorem Gathering.field {s s' : St} {p k u ms key j} {st : Step} {m : Shape} (h : Gathering R s p k u ms) (hst : R.at (st :: p) = some m)
    (hrun : run E R (.mapKey key :: events j) s = run E R (events j) (SJ.afterName s p st)) (hok : okVal m j = true) (hig : m = .ignore → st = .ign)
    (hni : st = .ign → m = .ignore)
    (hr : run E R (.mapKey key :: events j) s = .ok () s') :
    s'.stack = s.stack ∧ Gathering R s' p k u ms ∧ (∀ x, x ≠ p → ¬ Below (st :: p) x → s'.heap x = s.heap x) ∧
      s'.heap p = { s.heap p with empty := false } := by
  obtain ⟨rest, hs⟩ := h.top
  obtain ⟨h1, h2, h3⟩ := h.afterName st hst
  have hstruct : m = .ignore → ((SJ.afterName s p st).heap (st :: p)).struct = [] := by
    intro hm
    rw [hig hm]
    show (Heap.upd _ _ _ _).struct = []
    rw [upd_other (by simp)]
    exact h.ign
  have h4 := sim_val (E := E) (R := R) j m (st :: p) s.stack [] (SJ.afterName s p st) h1 rfl h2 h3 hstruct hok
  rw [List.append_nil, ← hrun, hr] at h4
  cases hc : evalVal E m (st :: p) j (SJ.afterName s p st) with
  | ok a s1 =>
    rw [bind_ok hc] at h4
    have hk := evalVal_keep j m (st :: p) h1 _ a s1 hc
    have e1 : s1.stack = (st :: p) :: p :: rest := by rw [hk.1]; show (st :: p) :: s.stack = _; rw [hs]
    have e2 : s1.heap p = { s.heap p with empty := false } := by
      rw [hk.2.frame p below_self_cons]
      unfold SJ.afterName
      simp only [upd_same]
    unfold M.bind at h4
    rw [pop_cons e1, chP_object h.shape] at h4
    simp only [M.pure, run] at h4
    injection h4 with _ h4
    subst h4
    refine ⟨hs.symm, ⟨⟨rest, rfl⟩, h.shape, ?_, ?_, ?_⟩, ?_, e2⟩
    · show (s1.heap p).disp = true
      rw [e2]; exact h.disp
    · have : Sane R p (SJ.afterName s p st).heap := h.sane.keep (p' := p) (Keep.of_ctl (Frame.upd p _ (fun c => { c with empty := false })) (SameCtl.upd fun _ => ⟨rfl, rfl⟩))
      exact this.keep hk.2
    · show (s1.heap (.ign :: p)).struct = []
      have hnamed : ((SJ.afterName s p st).heap (.ign :: p)).struct = [] := by
        show (Heap.upd _ _ _ _).struct = []
        rw [upd_other (by simp)]
        exact h.ign
      by_cases he : st = .ign
      · have hm := hni he
        subst he hm
        cases j with
        | null =>
          unfold evalVal at hc
          simp only [modH] at hc
          injection hc with _ hc
          subst hc
          show (resetH (.ign :: p) .ignore _ (.ign :: p)).struct = []
          simp [resetH, upd_same]
        | _ =>
          unfold evalVal at hc
          simp only at hc
          rw [((Loc.complete (E := E) .ignore (.ign :: p)).ok hc).2.struct]
          exact hnamed
      · rw [hk.2.frame _ (fun hb => ?_)]
        · exact hnamed
        · have := below_eq_of_len hb (Below.refl _) rfl
          injection this with this
          exact he this
    · intro x hx hb
      show s1.heap x = _
      rw [hk.2.frame x hb]
      unfold SJ.afterName
      simp only
      rw [upd_other hx]
  | throw e s1 => unfold M.bind at h4; rw [hc] at h4; simp at h4
  | ub => unfold M.bind at h4; rw [hc] at h4; simp at h4
  | fuel => unfold M.bind at h4; rw [hc] at h4; simp at h4

/-- The name of a field of a member. -/
theorem Gathering.run_member {s : St} {p k u ms key n m} (h : Gathering R s p k u ms) (hl : lookup (.str key) 0 ms = some (n, m)) (ts : List Token) :
    run E R (.mapKey key :: ts) s = run E R ts (SJ.afterName s p (.mem n)) := by
  obtain ⟨rest, hs⟩ := h.top
  rw [run_dispatch h.shape hs]
  simp only [onF, onMember, hl, setNotEmpty_def, bind_assoc]
  rw [bind_modC, bind_getC]
  simp only [upd_same, h.disp, if_true, bind_assoc, bind_push]
  rfl

/-- The name of an ignored field. -/
theorem Gathering.run_ignored {s : St} {p k ms key} (h : Gathering R s p k false ms) (hl : lookup (.str key) 0 ms = none) (ts : List Token) :
    run E R (.mapKey key :: ts) s = run E R ts (SJ.afterName s p .ign) := by
  obtain ⟨rest, hs⟩ := h.top
  rw [run_dispatch h.shape hs]
  simp only [onF, onMember, hl, setNotEmpty_def, bind_assoc]
  rw [bind_modC, bind_getC]
  simp only [upd_same, h.disp, Bool.false_eq_true, if_true, if_false, bind_assoc, bind_push]
  rfl

/-- C43, for whole fields. An object in the middle of its fields reads more of them, with any callbacks. Then no member changes - nor anything inside it -
but those that have a field among them. (No member is an embedded union, which would take all fields after its own.) -/
theorem C43_fields {s s' : St} {p k u ms} {fs : List (String × Json)} (h : Gathering R s p k u ms) (hne : NoEmbedded ms)
    (hok : okFields (.object k u ms) fs = true) (hr : run E R (fieldEvents fs) s = .ok () s') :
    s'.stack = s.stack ∧ Gathering R s' p k u ms ∧
      ∀ n, (∀ kv ∈ fs, ∀ m, lookup (.str kv.1) 0 ms ≠ some (n, m)) → ∀ x, (.mem n :: p) <:+ x → s'.heap x = s.heap x := by
  induction fs generalizing s with
  | nil =>
    simp only [fieldEvents, run, M.pure] at hr
    injection hr with _ hr; subst hr
    exact ⟨rfl, h, fun _ _ _ _ => rfl⟩
  | cons kv fs ih =>
    obtain ⟨key, j⟩ := kv
    have hsplit : fieldEvents ((key, j) :: fs) = (.mapKey key :: events j) ++ fieldEvents fs := by simp [fieldEvents]
    rw [hsplit, run_append] at hr
    cases hc : run E R (.mapKey key :: events j) s with
    | ok a s1 =>
      rw [bind_ok hc] at hr
      have step : ∃ (st : Step) (m : Shape), R.at (st :: p) = some m ∧ run E R (.mapKey key :: events j) s = run E R (events j) (SJ.afterName s p st) ∧ okVal m j = true ∧
          (m = .ignore → st = .ign) ∧ (st = .ign → m = .ignore) ∧ okFields (.object k u ms) fs = true ∧
          (∀ n, st = .mem n → lookup (.str key) 0 ms = some (n, m)) := by
        rw [okFields] at hok
        cases hl : lookup (.str key) 0 ms with
        | none =>
          rw [hl] at hok
          cases u with
          | true =>
            obtain ⟨rest, hs⟩ := h.top
            rw [run_dispatch h.shape hs] at hc
            simp only [onF, onMember, hl, setNotEmpty_def, bind_assoc] at hc
            rw [bind_modC, bind_getC] at hc
            simp [throwStd, M.bind] at hc
          | false =>
            simp only [Bool.false_eq_true, if_false, Bool.and_eq_true] at hok
            refine ⟨.ign, .ignore, by simp [Shape.at, h.shape, Shape.child], h.run_ignored hl _, hok.1, fun _ => rfl, fun _ => rfl, hok.2, fun n hn => by cases hn⟩
        | some a =>
          obtain ⟨n, m⟩ := a
          rw [hl] at hok
          obtain ⟨i, hi⟩ := lookup_mem hl
          simp only [embedded_none hne hi, Bool.and_eq_true] at hok
          refine ⟨.mem n, m, at_mem_object h.shape hi, h.run_member hl _, hok.1.2, fun hm => ?_, fun hm => (by cases hm), hok.2, fun n' hn' => ?_⟩
          · rw [hm] at hok; simp [Shape.isUser] at hok
          · injection hn' with hn'; subst hn'; rfl
      obtain ⟨st, m, a1, a2, a3, a4, a5, a6, a7⟩ := step
      obtain ⟨b1, b2, b3, b4⟩ := h.field a1 a2 a3 a4 a5 hc
      obtain ⟨c1, c2, c3⟩ := ih b2 a6 hr
      refine ⟨c1.trans b1, c2, fun n hn x hx => ?_⟩
      rw [c3 n (fun kv hkv => hn kv (by simp [hkv])) x hx]
      have hnp : x ≠ p := ne_of_below_step hx
      refine b3 x hnp fun hb => ?_
      have : st = .mem n := Classical.byContradiction fun e => below_disjoint e hb hx
      exact hn (key, j) (by simp) m (a7 n this)
    | throw e s1 => unfold M.bind at hr; rw [hc] at hr; simp at hr
    | ub => unfold M.bind at hr; rw [hc] at hr; simp at hr
    | fuel => unfold M.bind at hr; rw [hc] at hr; simp at hr

/-! ### The hypotheses are met -/

section Examples
open Demo

/-- `{"name": "x", "part":` has been read by `Demo.outer`. -/
def sInPart : St := after accepting outer [.mapStart, .mapKey "name", .scalar (.str "x"), .mapKey "part"] (St.init outer)

theorem sInPart_history : History outer sInPart := .tokens _ .init (after_ok (by decide +kernel))

/-- C43_token, C43_reading: `{"tags": ["a"` follows; the name is still "x". -/
example : Reads accepting outer [.mem 1] [.mapStart, .mapKey "tags", .arrStart, .scalar (.str "a")] sInPart
    (after accepting outer [.scalar (.str "a")] (after accepting outer [.arrStart] (after accepting outer [.mapKey "tags"] (after accepting outer [.mapStart] sInPart)))) :=
  .cons (by decide +kernel) (after_token (by decide +kernel)) <| .cons (by decide +kernel) (after_token (by decide +kernel)) <|
    .cons (by decide +kernel) (after_token (by decide +kernel)) <| .cons (by decide +kernel) (after_token (by decide +kernel)) <| .nil (by decide +kernel)

example : (sInPart.heap [.mem 0]).set = true ∧ ¬ ([.mem 1] : Path) <:+ [.mem 0] := by decide +kernel

/-- The tokens `}` and `[` after them: the first removes the array's member from the stack, the second is refused. -/
example : ∃ s s' : St, ∃ e, History outer s ∧ Reads accepting outer [.mem 1] [.mapStart, .mapKey "id", .scalar (.int 1)] sInPart s ∧
    dispatch accepting outer .arrStart s = .throw e s' ∧ [.mem 1] ∈ s'.stack :=
  ⟨after accepting outer [.scalar (.int 1)] (after accepting outer [.mapKey "id"] (after accepting outer [.mapStart] sInPart)),
   after accepting outer [.arrStart] (after accepting outer [.scalar (.int 1)] (after accepting outer [.mapKey "id"] (after accepting outer [.mapStart] sInPart))),
   .std "Unexpected token array start",
   .tokens [.scalar (.int 1)] (.tokens [.mapKey "id"] (.tokens [.mapStart] sInPart_history (after_ok (by decide +kernel))) (after_ok (by decide +kernel))) (after_ok (by decide +kernel)),
   .cons (by decide +kernel) (after_token (by decide +kernel)) <| .cons (by decide +kernel) (after_token (by decide +kernel)) <|
     .cons (by decide +kernel) (after_token (by decide +kernel)) <| .nil (by decide +kernel),
   after_token_throw (by decide +kernel), by decide +kernel⟩

/-- C43_fields: `{"name": "x"` has been read; `"part": {"id": 1}, "more": [1]` follows. -/
example : ∃ s s', Gathering outer s [] .plain false outerMs ∧ run accepting outer (fieldEvents [("name", .sc (.str "x"))]) s = .ok () s' ∧ Gathering outer s' [] .plain false outerMs ∧
    (s'.heap [.mem 0]).set = true ∧
    ∃ s2, run accepting outer (fieldEvents [("part", .obj [("id", .sc (.int 1))]), ("more", .arr [.sc (.int 1)])]) s' = .ok () s2 ∧
      s2.heap [.mem 0] = s'.heap [.mem 0] ∧ s2.heap [.elem, .mem 2] = s'.heap [.elem, .mem 2] := by
  obtain ⟨s, h1, h2, h3⟩ := (Ready.init outer).expecting.gathering (E := accepting) (k := .plain) (u := false) (ms := outerMs)
  have e1 : s = after accepting outer [.mapStart] (St.init outer) := by
    have := after_token (E := accepting) (R := outer) (t := .mapStart) (s := St.init outer) (by decide +kernel)
    rw [this] at h1; injection h1 with _ h1; exact h1.symm
  have r1 := after_ok (E := accepting) (R := outer) (ts := fieldEvents [("name", .sc (.str "x"))]) (s := after accepting outer [.mapStart] (St.init outer)) (by decide +kernel)
  rw [← e1] at r1
  have hne : NoEmbedded outerMs := noEmbeddedB_sound (by decide +kernel)
  obtain ⟨g1, g2, g3⟩ := C43_fields h3 hne (by decide +kernel) r1
  have r2 := after_ok (E := accepting) (R := outer) (ts := fieldEvents [("part", .obj [("id", .sc (.int 1))]), ("more", .arr [.sc (.int 1)])])
    (s := after accepting outer (fieldEvents [("name", .sc (.str "x"))]) s) (by rw [e1]; decide +kernel)
  obtain ⟨g4, g5, g6⟩ := C43_fields g2 hne (by decide +kernel) r2
  refine ⟨s, _, h3, r1, g2, by rw [e1]; decide +kernel, _, r2, g6 0 ?_ _ (by decide), g6 2 ?_ _ (by decide)⟩
  · intro kv hkv m
    simp at hkv
    rcases hkv with rfl | rfl <;> simp [outerMs, outer, lookup, Scalar.cppEq]
  · intro kv hkv m
    simp at hkv
    rcases hkv with rfl | rfl <;> simp [outerMs, outer, lookup, Scalar.cppEq]

end Examples

end SJ
