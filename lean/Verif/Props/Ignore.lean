/-
Unknown members that are ignored (C05, C06).
-/
import Verif.Proofs.Context
import Verif.Demo
import Verif.Proofs.Step

set_option linter.unusedVariables false

namespace SJ

variable {E : Env} {R : Shape}

/-! ### C06 -/

/-- `s1` differs from `s` at most in the bookkeeping of the skipping parser at `p`: same stack, same calls, every other parser as
before, and of this parser only the record of open brackets changed. -/
def SkipOnly (p : Path) (s s1 : St) : Prop :=
  ∃ st, s1 = { s with heap := s.heap.upd p fun c => { c with struct := st } }

theorem SkipOnly.refl (p s) : SkipOnly p s s := ⟨(s.heap p).struct, by rw [upd_id rfl]⟩

theorem SkipOnly.trans {p s s1 s2} (h1 : SkipOnly p s s1) (h2 : SkipOnly p s1 s2) : SkipOnly p s s2 := by
  obtain ⟨a, rfl⟩ := h1
  obtain ⟨b, rfl⟩ := h2
  exact ⟨b, by simp [upd_upd]⟩

theorem run_nil_ok (s : St) : run E R [] s = .ok () s := rfl

theorem upd_congr {h : Heap} {p f g} (e : f (h p) = g (h p)) : h.upd p f = h.upd p g := by
  funext q; simp only [Heap.upd]; split
  · rename_i hq; subst hq; exact e
  · rfl

mutual
theorem skip_val {p} (hR : R.at p = some .ignore) : ∀ (j : Json) (pre post : List Token) (s : St) (stk),
    j.noNull = true → s.stack = p :: stk → (s.heap p).struct ≠ [] → events j = pre ++ post →
    ∃ s1, run E R pre s = .ok () s1 ∧ SkipOnly p s s1
  | .null, pre, post, s, stk, hj, hs, hst, he => by simp [Json.noNull] at hj
  | .sc x, [], post, s, stk, hj, hs, hst, he => ⟨s, rfl, .refl _ _⟩
  | .sc x, t :: pre, post, s, stk, hj, hs, hst, he => by
    simp only [events, List.cons_append, List.cons.injEq] at he
    obtain ⟨rfl, he⟩ := he
    obtain ⟨rfl, rfl⟩ : pre = [] ∧ post = [] := by simpa using he
    have := ignore_val (E := E) hR (.sc x) [] s stk rfl hs hst
    exact ⟨s, by simpa [events, run_nil_ok] using this, .refl _ _⟩
  | .arr l, [], post, s, stk, hj, hs, hst, he => ⟨s, rfl, .refl _ _⟩
  | .arr l, t :: pre, post, s, stk, hj, hs, hst, he => by
    have he0 := he
    simp only [events, List.cons_append, List.cons.injEq] at he
    obtain ⟨rfl, he⟩ := he
    rcases List.append_eq_append_iff.1 he with ⟨a, rfl, ha⟩ | ⟨a, ha, hb⟩
    · cases a with
      | nil =>
        rw [List.append_nil] at he0
        rw [run_dispatch hR hs]
        simp only [onF]
        rw [bind_modC]
        let s0 : St := { s with heap := s.heap.upd p fun c => { c with struct := false :: c.struct } }
        have h0 : SkipOnly p s s0 := ⟨false :: (s.heap p).struct, by
          simp only [s0]; congr 1; exact upd_congr rfl⟩
        have := ignore_elems (E := E) hR l [] s0 stk (by simpa [Json.noNull] using hj) hs (by simp [s0])
        exact ⟨s0, by simpa [run_nil_ok] using this, h0⟩
      | cons b a =>
        simp only [List.cons_append, List.cons.injEq, List.nil_eq, List.append_eq_nil_iff] at ha
        obtain ⟨rfl, rfl, rfl⟩ := ha
        have := ignore_val (E := E) hR (.arr l) [] s stk hj hs hst
        exact ⟨s, by simpa [events, run_nil_ok] using this, .refl _ _⟩
    · rw [run_dispatch hR hs]
      simp only [onF]
      rw [bind_modC]
      let s0 : St := { s with heap := s.heap.upd p fun c => { c with struct := false :: c.struct } }
      have h0 : SkipOnly p s s0 := ⟨false :: (s.heap p).struct, by
        simp only [s0]; congr 1; exact upd_congr rfl⟩
      obtain ⟨s1, h1, h2⟩ := skip_elems hR l pre a s0 stk (by simpa [Json.noNull] using hj) hs (by simp [s0]) ha
      exact ⟨s1, h1, h0.trans h2⟩
  | .obj l, [], post, s, stk, hj, hs, hst, he => ⟨s, rfl, .refl _ _⟩
  | .obj l, t :: pre, post, s, stk, hj, hs, hst, he => by
    have he0 := he
    simp only [events, List.cons_append, List.cons.injEq] at he
    obtain ⟨rfl, he⟩ := he
    rcases List.append_eq_append_iff.1 he with ⟨a, rfl, ha⟩ | ⟨a, ha, hb⟩
    · cases a with
      | nil =>
        rw [List.append_nil] at he0
        rw [run_dispatch hR hs]
        simp only [onF]
        rw [bind_modC]
        let s0 : St := { s with heap := s.heap.upd p fun c => { c with struct := true :: c.struct } }
        have h0 : SkipOnly p s s0 := ⟨true :: (s.heap p).struct, by
          simp only [s0]; congr 1; exact upd_congr rfl⟩
        have := ignore_fields (E := E) hR l [] s0 stk (by simpa [Json.noNull] using hj) hs ⟨_, by simp [s0]; rfl⟩
        exact ⟨s0, by simpa [run_nil_ok] using this, h0⟩
      | cons b a =>
        simp only [List.cons_append, List.cons.injEq, List.nil_eq, List.append_eq_nil_iff] at ha
        obtain ⟨rfl, rfl, rfl⟩ := ha
        have := ignore_val (E := E) hR (.obj l) [] s stk hj hs hst
        exact ⟨s, by simpa [events, run_nil_ok] using this, .refl _ _⟩
    · rw [run_dispatch hR hs]
      simp only [onF]
      rw [bind_modC]
      let s0 : St := { s with heap := s.heap.upd p fun c => { c with struct := true :: c.struct } }
      have h0 : SkipOnly p s s0 := ⟨true :: (s.heap p).struct, by
        simp only [s0]; congr 1; exact upd_congr rfl⟩
      obtain ⟨s1, h1, h2⟩ := skip_fields hR l pre a s0 stk (by simpa [Json.noNull] using hj) hs ⟨_, by simp [s0]; rfl⟩ ha
      exact ⟨s1, h1, h0.trans h2⟩
theorem skip_elems {p} (hR : R.at p = some .ignore) : ∀ (l : List Json) (pre post : List Token) (s : St) (stk),
    noNullL l = true → s.stack = p :: stk → (s.heap p).struct ≠ [] → elemEvents l = pre ++ post →
    ∃ s1, run E R pre s = .ok () s1 ∧ SkipOnly p s s1
  | [], pre, post, s, stk, hj, hs, hst, he => by
    obtain ⟨rfl, rfl⟩ : pre = [] ∧ post = [] := by simpa [elemEvents] using he
    exact ⟨s, rfl, .refl _ _⟩
  | j :: l, pre, post, s, stk, hj, hs, hst, he => by
    simp only [noNullL, Bool.and_eq_true] at hj
    simp only [elemEvents] at he
    rcases List.append_eq_append_iff.1 he with ⟨a, rfl, ha⟩ | ⟨a, ha, hb⟩
    · rw [ignore_val hR j _ s stk hj.1 hs hst]
      exact skip_elems hR l a post s stk hj.2 hs hst ha
    · exact skip_val hR j pre a s stk hj.1 hs hst ha
theorem skip_fields {p} (hR : R.at p = some .ignore) : ∀ (l : List (String × Json)) (pre post : List Token) (s : St) (stk),
    noNullF l = true → s.stack = p :: stk → (∃ r, (s.heap p).struct = true :: r) → fieldEvents l = pre ++ post →
    ∃ s1, run E R pre s = .ok () s1 ∧ SkipOnly p s s1
  | [], pre, post, s, stk, hj, hs, hst, he => by
    obtain ⟨rfl, rfl⟩ : pre = [] ∧ post = [] := by simpa [fieldEvents] using he
    exact ⟨s, rfl, .refl _ _⟩
  | (k, j) :: l, [], post, s, stk, hj, hs, hst, he => ⟨s, rfl, .refl _ _⟩
  | (k, j) :: l, t :: pre, post, s, stk, hj, hs, hst, he => by
    simp only [noNullF, Bool.and_eq_true] at hj
    simp only [fieldEvents, List.cons_append, List.cons.injEq] at he
    obtain ⟨rfl, he⟩ := he
    obtain ⟨r, hr⟩ := hst
    rw [run_dispatch hR hs]
    simp only [onF]
    rw [bind_assoc, bind_getC, hr]
    simp only [bind_pure_left]
    rcases List.append_eq_append_iff.1 he with ⟨a, rfl, ha⟩ | ⟨a, ha, hb⟩
    · rw [ignore_val hR j _ s stk hj.1 hs (by simp [hr])]
      exact skip_fields hR l a post s stk hj.2 hs ⟨r, hr⟩ ha
    · exact skip_val hR j pre a s stk hj.1 hs (by simp [hr]) ha
end

/-- C06: the skipping parser, when it starts on a JSON value without null inside, stays the current parser for every token of this
value except the last: after every proper prefix of the value's tokens nothing but its own bookkeeping has changed, in
particular the stack is as before and no callback was called. -/
theorem C06_stays_current {s : St} {p rest j pre t post} (hs : s.stack = p :: rest) (hR : R.at p = some .ignore)
    (hst : (s.heap p).struct = []) (hj : j.skippable = true) (he : events j = pre ++ t :: post) :
    ∃ s1, run E R pre s = .ok () s1 ∧ s1.stack = s.stack ∧ s1.log = s.log ∧ ∀ q, q ≠ p → s1.heap q = s.heap q := by
  suffices h : ∃ s1, run E R pre s = .ok () s1 ∧ SkipOnly p s s1 by
    obtain ⟨s1, h, st, rfl⟩ := h
    exact ⟨_, h, rfl, rfl, fun q hq => by simp [upd_other hq]⟩
  cases pre with
  | nil => exact ⟨s, rfl, .refl _ _⟩
  | cons t' pre =>
    cases j with
    | null => simp [events] at he
    | sc x => simp [events] at he
    | arr l =>
      simp only [events, List.cons_append, List.cons.injEq] at he
      obtain ⟨rfl, he⟩ := he
      rw [run_dispatch hR hs]
      simp only [onF]
      rw [bind_modC]
      let s0 : St := { s with heap := s.heap.upd p fun c => { c with struct := false :: c.struct } }
      have h0 : SkipOnly p s s0 := ⟨false :: (s.heap p).struct, by simp only [s0]; congr 1; exact upd_congr rfl⟩
      obtain ⟨a, ha⟩ : ∃ a, elemEvents l = pre ++ a := by
        rcases List.append_eq_append_iff.1 he with ⟨a, rfl, ha⟩ | ⟨a, ha, hb⟩
        · cases a with
          | nil => exact ⟨[], by simp⟩
          | cons b a => simp at ha
        · exact ⟨a, ha⟩
      obtain ⟨s1, h1, h2⟩ := skip_elems hR l pre a s0 rest (by simpa [Json.skippable, Json.noNull] using hj) hs (by simp [s0]) ha
      exact ⟨s1, h1, h0.trans h2⟩
    | obj l =>
      simp only [events, List.cons_append, List.cons.injEq] at he
      obtain ⟨rfl, he⟩ := he
      rw [run_dispatch hR hs]
      simp only [onF]
      rw [bind_modC]
      let s0 : St := { s with heap := s.heap.upd p fun c => { c with struct := true :: c.struct } }
      have h0 : SkipOnly p s s0 := ⟨true :: (s.heap p).struct, by simp only [s0]; congr 1; exact upd_congr rfl⟩
      obtain ⟨a, ha⟩ : ∃ a, fieldEvents l = pre ++ a := by
        rcases List.append_eq_append_iff.1 he with ⟨a, rfl, ha⟩ | ⟨a, ha, hb⟩
        · cases a with
          | nil => exact ⟨[], by simp⟩
          | cons b a => simp at ha
        · exact ⟨a, ha⟩
      obtain ⟨s1, h1, h2⟩ := skip_fields hR l pre a s0 rest (by simpa [Json.skippable, Json.noNull] using hj) hs
        ⟨_, by simp [s0]; rfl⟩ ha
      exact ⟨s1, h1, h0.trans h2⟩

/-- C06: with the last token of the value the skipping parser is removed from the stack (`pop`); no callback was called and no
other parser has changed, and it is ready to skip another value. -/
theorem C06_ends {s : St} {p rest j} (hs : s.stack = p :: rest) (hR : R.at p = some .ignore)
    (hst : (s.heap p).struct = []) (hd : (s.heap p).disp = true) (hj : j.skippable = true) :
    ∃ s1, (∀ ts, run E R (events j ++ ts) s = M.bind (pop E R) (fun _ => run E R ts) s1) ∧ s1.stack = s.stack ∧ s1.log = s.log ∧
      (∀ q, q ≠ p → s1.heap q = s.heap q) ∧ (s1.heap p).struct = [] ∧ (s1.heap p).disp = true := by
  have key : ∃ s1, evalVal E .ignore p j s = .ok () s1 ∧ s1.stack = s.stack ∧ s1.log = s.log ∧
      (∀ q, q ≠ p → s1.heap q = s.heap q) ∧ (s1.heap p).struct = [] ∧ (s1.heap p).disp = true := by
    have hc : ∃ s1, complete E .ignore p s = .ok () s1 ∧ s1.stack = s.stack ∧ s1.log = s.log ∧
        (∀ q, q ≠ p → s1.heap q = s.heap q) ∧ (s1.heap p).struct = [] ∧ (s1.heap p).disp = true := by
      rw [complete_unfold]
      exact ⟨_, rfl, rfl, rfl, fun q hq => by simp [upd_other hq], by simp [hst], by simp [hd]⟩
    cases j with
    | null =>
      simp only [evalVal]
      exact ⟨_, rfl, rfl, rfl, fun q hq => by simp [resetH, upd_other hq], by simp [resetH], by simp [resetH, hd, Cell.baseReset]⟩
    | _ => simpa only [evalVal] using hc
  obtain ⟨s1, h1, h2⟩ := key
  refine ⟨s1, fun ts => ?_, h2⟩
  rw [ignore_sim hR j ts s rest hj hs hst hd, bind_ok h1]

/-! ### C05 -/

/-- C05, for any state, any callbacks and any tokens that follow: an object with `Reaction::Ignore` that meets an unknown member skips
its whole value. The tokens that follow find the object in the state it was in before, except that it now counts as non-empty.

Partial: values with a null strictly inside are excluded (`skippable`), for these the claim is false of the code, see `C05_nested_null`. -/
theorem C05_skips_partial {s : St} {p rest k ms key v} (hs : s.stack = p :: rest) (hR : R.at p = some (.object k false ms))
    (hd : (s.heap p).disp = true) (hdi : (s.heap (.ign :: p)).disp = true) (hst : (s.heap (.ign :: p)).struct = [])
    (hun : ∀ x ∈ ms, x.1.name ≠ .str key) (hv : v.skippable = true) :
    ∃ s', (∀ ts, run E R (.mapKey key :: (events v ++ ts)) s = run E R ts s') ∧ s'.stack = s.stack ∧ s'.log = s.log ∧
      s'.heap p = { s.heap p with empty := false } ∧ (∀ q, q ≠ p → q ≠ .ign :: p → s'.heap q = s.heap q) ∧
      (s'.heap (.ign :: p)).disp = true ∧ (s'.heap (.ign :: p)).struct = [] := by
  have hl : lookup (.str key) 0 ms = none := lookup_none.2 fun y hy => by
    have := hun y hy
    cases hc : y.1.name.cppEq (.str key) with
    | false => rfl
    | true => exact absurd (cppEq_str.1 hc) this
  let s0 : St := { heap := s.heap.upd p fun c => { c with empty := false }, stack := (.ign :: p) :: s.stack, log := s.log }
  have h0 : ∀ q, q ≠ p → s0.heap q = s.heap q := fun q hq => by simp [s0, upd_other hq]
  have hne : (Step.ign :: p) ≠ p := by simp
  have hstep : ∀ ts, run E R (.mapKey key :: ts) s = run E R ts s0 := by
    intro ts
    rw [run_dispatch hR hs]
    simp only [onF, onMember, hl, setNotEmpty_def, bind_assoc, Bool.false_eq_true, if_false]
    rw [bind_modC, bind_getC]
    simp only [upd_same, hd, if_true, bind_assoc, bind_push]
    rfl
  obtain ⟨s1, h1, h2, h3, h4, h5, h6⟩ := C06_ends (E := E) (s := s0) (p := .ign :: p) (rest := s.stack) (j := v) rfl (at_ign_object hR)
    (by rw [h0 _ hne]; exact hst) (by rw [h0 _ hne]; exact hdi) hv
  have hpop : pop E R s1 = .ok () { s1 with stack := s.stack } := by
    have hs1 : s1.stack = (.ign :: p) :: p :: rest := by rw [h2, ← hs]
    rw [pop_cons hs1, chP_object hR, hs]; rfl
  refine ⟨{ s1 with stack := s.stack }, ?_, rfl, h3, ?_, ?_, h6, h5⟩
  · intro ts
    rw [hstep, h1, bind_ok hpop]
  · simp only; rw [h4 p (fun e => hne e.symm)]; simp [s0]
  · intro q hq hq'; simp only; rw [h4 q hq', h0 q hq]

theorem open_bracket {p} (hR : R.at p = some .ignore) {s : St} {stk} (hs : s.stack = p :: stk) (b : Bool) :
    ∃ s0, (∀ ts, run E R ((if b then .mapStart else .arrStart) :: ts) s = run E R ts s0) ∧ SkipOnly p s s0 ∧ s0.stack = p :: stk ∧
      (s0.heap p).struct = b :: (s.heap p).struct := by
  let s0 : St := { s with heap := s.heap.upd p fun c => { c with struct := b :: c.struct } }
  refine ⟨s0, fun ts => ?_, ⟨b :: (s.heap p).struct, by simp only [s0]; congr 1; exact upd_congr rfl⟩, hs, by simp [s0]⟩
  cases b <;> (simp only [Bool.false_eq_true, if_false, if_true]; rw [run_dispatch hR hs]; simp only [onF]; rw [bind_modC])

mutual
theorem to_null_val {p} (hR : R.at p = some .ignore) : ∀ (j : Json) (s : St) (stk), j.noNull = false → s.stack = p :: stk → (s.heap p).struct ≠ [] →
    ∃ pre post s1, events j = pre ++ .null :: post ∧ run E R pre s = .ok () s1 ∧ SkipOnly p s s1
  | .null, s, stk, hj, hs, hst => ⟨[], [], s, rfl, rfl, .refl _ _⟩
  | .sc x, s, stk, hj, hs, hst => by simp [Json.noNull] at hj
  | .arr l, s, stk, hj, hs, hst => by
    obtain ⟨s0, h0, h1, h2, h3⟩ := open_bracket (E := E) hR hs false
    obtain ⟨pre, post, s1, g1, g2, g3⟩ := to_null_elems hR l s0 stk (by simpa [Json.noNull] using hj) h2 (by simp [h3])
    exact ⟨.arrStart :: pre, post ++ [.arrEnd], s1, by simp [events, g1], (h0 pre).trans g2, h1.trans g3⟩
  | .obj l, s, stk, hj, hs, hst => by
    obtain ⟨s0, h0, h1, h2, h3⟩ := open_bracket (E := E) hR hs true
    obtain ⟨pre, post, s1, g1, g2, g3⟩ := to_null_fields hR l s0 stk (by simpa [Json.noNull] using hj) h2 ⟨_, h3⟩
    exact ⟨.mapStart :: pre, post ++ [.mapEnd], s1, by simp [events, g1], (h0 pre).trans g2, h1.trans g3⟩
theorem to_null_elems {p} (hR : R.at p = some .ignore) : ∀ (l : List Json) (s : St) (stk), noNullL l = false → s.stack = p :: stk → (s.heap p).struct ≠ [] →
    ∃ pre post s1, elemEvents l = pre ++ .null :: post ∧ run E R pre s = .ok () s1 ∧ SkipOnly p s s1
  | [], s, stk, hj, hs, hst => by simp [noNullL] at hj
  | j :: l, s, stk, hj, hs, hst => by
    simp only [noNullL, Bool.and_eq_false_iff] at hj
    cases hn : j.noNull with
    | false =>
      obtain ⟨pre, post, s1, g1, g2, g3⟩ := to_null_val hR j s stk hn hs hst
      exact ⟨pre, post ++ elemEvents l, s1, by simp [elemEvents, g1], g2, g3⟩
    | true =>
      have hl : noNullL l = false := by rcases hj with h | h; · rw [hn] at h; simp at h
                                        · exact h
      obtain ⟨pre, post, s1, g1, g2, g3⟩ := to_null_elems hR l s stk hl hs hst
      exact ⟨events j ++ pre, post, s1, by simp [elemEvents, g1], (ignore_val hR j pre s stk hn hs hst).trans g2, g3⟩
theorem to_null_fields {p} (hR : R.at p = some .ignore) : ∀ (l : List (String × Json)) (s : St) (stk), noNullF l = false → s.stack = p :: stk →
    (∃ r, (s.heap p).struct = true :: r) → ∃ pre post s1, fieldEvents l = pre ++ .null :: post ∧ run E R pre s = .ok () s1 ∧ SkipOnly p s s1
  | [], s, stk, hj, hs, hst => by simp [noNullF] at hj
  | (k, j) :: l, s, stk, hj, hs, hst => by
    simp only [noNullF, Bool.and_eq_false_iff] at hj
    obtain ⟨r, hr⟩ := hst
    have hk : ∀ ts, run E R (.mapKey k :: ts) s = run E R ts s := fun ts => by
      rw [run_dispatch hR hs]
      simp only [onF]
      rw [bind_assoc, bind_getC, hr]
      simp only [bind_pure_left]
    cases hn : j.noNull with
    | false =>
      obtain ⟨pre, post, s1, g1, g2, g3⟩ := to_null_val hR j s stk hn hs (by simp [hr])
      exact ⟨.mapKey k :: pre, post ++ fieldEvents l, s1, by simp [fieldEvents, g1], (hk pre).trans g2, g3⟩
    | true =>
      have hl : noNullF l = false := by rcases hj with h | h; · rw [hn] at h; simp at h
                                        · exact h
      obtain ⟨pre, post, s1, g1, g2, g3⟩ := to_null_fields hR l s stk hl hs ⟨r, hr⟩
      refine ⟨.mapKey k :: (events j ++ pre), post, s1, by simp [fieldEvents, g1], ?_, g3⟩
      rw [hk, ignore_val hR j pre s stk hn hs (by simp [hr])]; exact g2
end

/-- C05, exactly the other values: if there is a null strictly inside the value of the unknown field, the skipping ends with it, in the middle of this value. All tokens of the
value that follow (`post`, at least its closing bracket) are then read by the object as its own fields. -/
theorem C05_ends_early_partial {s : St} {p rest k ms key v} (hs : s.stack = p :: rest) (hR : R.at p = some (.object k false ms))
    (hd : (s.heap p).disp = true) (hdi : (s.heap (.ign :: p)).disp = true) (hst : (s.heap (.ign :: p)).struct = [])
    (hun : ∀ x ∈ ms, x.1.name ≠ .str key) (hv : v.skippable = false) :
    ∃ pre post s', events v = pre ++ .null :: post ∧ post ≠ [] ∧
      (∀ ts, run E R (.mapKey key :: (events v ++ ts)) s = run E R (post ++ ts) s') ∧ s'.stack = s.stack ∧ s'.log = s.log ∧
      s'.heap p = { s.heap p with empty := false } ∧ (∀ q, q ≠ p → q ≠ .ign :: p → s'.heap q = s.heap q) := by
  have hl : lookup (.str key) 0 ms = none := lookup_none.2 fun y hy => by
    have := hun y hy
    cases hc : y.1.name.cppEq (.str key) with
    | false => rfl
    | true => exact absurd (cppEq_str.1 hc) this
  let s0 : St := { heap := s.heap.upd p fun c => { c with empty := false }, stack := (.ign :: p) :: s.stack, log := s.log }
  have h0 : ∀ q, q ≠ p → s0.heap q = s.heap q := fun q hq => by simp [s0, upd_other hq]
  have hne : (Step.ign :: p) ≠ p := by simp
  have hstep : ∀ ts, run E R (.mapKey key :: ts) s = run E R ts s0 := by
    intro ts
    rw [run_dispatch hR hs]
    simp only [onF, onMember, hl, setNotEmpty_def, bind_assoc, Bool.false_eq_true, if_false]
    rw [bind_modC, bind_getC]
    simp only [upd_same, hd, if_true, bind_assoc, bind_push]
    rfl
  have hRi : R.at (.ign :: p) = some .ignore := at_ign_object hR
  have key : ∃ pre post s1, events v = pre ++ .null :: post ∧ post ≠ [] ∧ run E R pre s0 = .ok () s1 ∧ SkipOnly (.ign :: p) s0 s1 := by
    cases v with
    | null => simp [Json.skippable] at hv
    | sc x => simp [Json.skippable, Json.noNull] at hv
    | arr l =>
      obtain ⟨s2, g0, g1, g2, g3⟩ := open_bracket (E := E) hRi (s := s0) (stk := s.stack) rfl false
      obtain ⟨pre, post, s1, k1, k2, k3⟩ := to_null_elems (E := E) hRi l s2 s.stack (by simpa [Json.skippable, Json.noNull] using hv) g2 (by simp [g3])
      exact ⟨.arrStart :: pre, post ++ [.arrEnd], s1, by simp [events, k1], by simp, (g0 pre).trans k2, g1.trans k3⟩
    | obj l =>
      obtain ⟨s2, g0, g1, g2, g3⟩ := open_bracket (E := E) hRi (s := s0) (stk := s.stack) rfl true
      obtain ⟨pre, post, s1, k1, k2, k3⟩ := to_null_fields (E := E) hRi l s2 s.stack (by simpa [Json.skippable, Json.noNull] using hv) g2 ⟨_, g3⟩
      exact ⟨.mapStart :: pre, post ++ [.mapEnd], s1, by simp [events, k1], by simp, (g0 pre).trans k2, g1.trans k3⟩
  obtain ⟨pre, post, s1, e1, e2, e3, b, rfl⟩ := key
  let s2 : St := { s0 with heap := resetH (.ign :: p) .ignore (s0.heap.upd (.ign :: p) fun c => { c with struct := b }) }
  have hdi' : ((s0.heap.upd (.ign :: p) fun c => { c with struct := b }) (.ign :: p)).disp = true := by
    simp only [upd_same]; rw [h0 _ hne]; exact hdi
  refine ⟨pre, post, { s2 with stack := s.stack }, e1, e2, fun ts => ?_, rfl, rfl, ?_, ?_⟩
  · rw [hstep, e1, List.append_assoc, run_append]
    rw [bind_ok e3]
    simp only [List.cons_append]
    rw [run_dispatch hRi (s := { s0 with heap := s0.heap.upd (.ign :: p) fun c => { c with struct := b } }) (stk := s.stack) rfl]
    have hn : onF E R .ignore (.ign :: p) .null { s0 with heap := s0.heap.upd (.ign :: p) fun c => { c with struct := b } } = .ok () { s2 with stack := s.stack } := by
      simp only [onF, nullBase]
      rw [bind_modH, bind_getC, if_pos (by rw [(resetH_ctl _ _ _ _).1]; exact hdi')]
      have hs2 : s2.stack = (.ign :: p) :: p :: rest := by simp only [s2, s0, hs]
      show pop E R s2 = _
      rw [pop_cons hs2, chP_object hR, hs]; rfl
    rw [bind_ok hn]
  · simp only [s2, resetH]
    rw [upd_other (fun e => hne e.symm), upd_other (fun e => hne e.symm)]
    simp [s0]
  · intro q hq hq'
    simp only [s2, resetH]
    rw [upd_other hq', upd_other hq', h0 q hq]

theorem denFields_ne {fmt sh slots ents ne ne'} {fs : List (String × Json)} (h : fs ≠ []) :
    denFields fmt sh slots ents ne fs = denFields fmt sh slots ents ne' fs := by
  cases fs with
  | nil => exact absurd rfl h
  | cons a fs => obtain ⟨k, v⟩ := a; rfl

theorem denFields_skip {fmt kd ms key v post} (hne : NoEmbedded ms) (hun : lookup (.str key) 0 ms = none) :
    ∀ (pre : List (String × Json)) (slots : List D) (ne : Bool), (ne = true ∨ pre ++ post ≠ []) →
    denFields fmt (.object kd false ms) slots [] ne (pre ++ (key, v) :: post) =
      denFields fmt (.object kd false ms) slots [] ne (pre ++ post)
  | [], slots, ne, h => by
    simp only [List.nil_append]
    rw [denFields]
    simp only [hun, Bool.false_eq_true, if_false]
    rcases h with rfl | h
    · rfl
    · exact denFields_ne (by simpa using h)
  | (k, w) :: pre, slots, ne, h => by
    simp only [List.cons_append]
    rw [denFields, denFields]
    cases hl : lookup (.str k) 0 ms with
    | none =>
      simp only [Bool.false_eq_true, if_false]
      exact denFields_skip hne hun pre slots true (Or.inl rfl)
    | some a =>
      obtain ⟨n, m⟩ := a
      obtain ⟨i, hi⟩ := lookup_mem hl
      simp only [embedded_none hne hi w]
      cases denote fmt m w with
      | error e => rfl
      | ok d => exact denFields_skip hne hun pre (slots.set n d) true (Or.inl rfl)

/-- C05 for whole documents: with `Reaction::Ignore` an object with an unknown field, anywhere among its fields, is read exactly
as the object without this field: the same error, or success with the parser (and its members) holding the same.

Partial: the ignored values have no null strictly inside (`okVal`), and there is another field (an object that has only ignored fields
counts as non-empty, so its mandatory members are checked, unlike those of `{}`). -/
theorem C05_document_partial (hE : Passive E) {s : St} {p k ms pre key v post} (hx : Expecting R s p (.object k false ms))
    (hw : (Shape.object k false ms).wf = true) (hne : NoEmbedded ms)
    (hok : okVal (.object k false ms) (.obj (pre ++ (key, v) :: post)) = true)
    (hok' : okVal (.object k false ms) (.obj (pre ++ post)) = true)
    (hun : ∀ x ∈ ms, x.1.name ≠ .str key) (hother : pre ++ post ≠ []) :
    (∃ e, Fails E R s (.obj (pre ++ (key, v) :: post)) e ∧ Fails E R s (.obj (pre ++ post)) e) ∨
    ∃ s1 s2 d, Completes E R s p (.obj (pre ++ (key, v) :: post)) s1 ∧ Completes E R s p (.obj (pre ++ post)) s2 ∧
      Holds s1.heap p d ∧ Holds s2.heap p d := by
  have hl : lookup (.str key) 0 ms = none := lookup_none.2 fun y hy => by
    have := hun y hy
    cases hc : y.1.name.cppEq (.str key) with
    | false => rfl
    | true => exact absurd (cppEq_str.1 hc) this
  have h : denote E.fmtDbl (.object k false ms) (.obj (pre ++ (key, v) :: post)) = denote E.fmtDbl (.object k false ms) (.obj (pre ++ post)) := by
    unfold denote
    exact denFields_skip hne hl pre _ false (Or.inr hother)
  cases h2 : denote E.fmtDbl (.object k false ms) (.obj (pre ++ post)) with
  | error e => exact Or.inl ⟨e, parse_at_error hE hx hw hok (h.trans h2), parse_at_error hE hx hw hok' h2⟩
  | ok d =>
    obtain ⟨s1, a1, a2, _⟩ := parse_at_ok hE hx hw hok (h.trans h2)
    obtain ⟨s2, b1, b2, _⟩ := parse_at_ok hE hx hw hok' h2
    exact Or.inr ⟨s1, s2, d, a1, b1, a2, b2⟩

/-! ### The hypotheses are met; and the negation for values with a null inside -/

section Examples
open Demo

/-- `{"name": "x", "more":` has been read by `Demo.outer`: `Ignore` is current. -/
def sMore : St := after accepting outer [.mapStart, .mapKey "name", .scalar (.str "x"), .mapKey "more"] (St.init outer)

/-- A value without a null strictly inside. -/
def ignorable : Json := .obj [("a", .arr [.sc (.int 1), .arr [], .obj [("name", .sc (.bool true))]]), ("b", .obj [])]

/-- C06_stays_current -/
example : ∃ s1, run accepting outer ((events ignorable).take 9) sMore = .ok () s1 ∧ s1.stack = [[.ign], []] ∧ s1.log = sMore.log := by
  obtain ⟨s1, h1, h2, h3, _⟩ := C06_stays_current (E := accepting) (R := outer) (s := sMore) (p := [.ign]) (rest := [[]]) (j := ignorable)
    (pre := (events ignorable).take 9) (t := .mapEnd) (post := (events ignorable).drop 10)
    (by decide +kernel) rfl (by decide +kernel) (by decide +kernel) (by decide +kernel)
  exact ⟨s1, h1, by rw [h2]; decide +kernel, h3⟩

/-- C06_ends -/
example : ∃ s1, (∀ ts, run accepting outer (events ignorable ++ ts) sMore = M.bind (pop accepting outer) (fun _ => run accepting outer ts) s1) ∧
    s1.stack = [[.ign], []] ∧ s1.log = sMore.log := by
  obtain ⟨s1, h1, h2, h3, _⟩ := C06_ends (E := accepting) (R := outer) (s := sMore) (p := [.ign]) (rest := [[]]) (j := ignorable)
    (by decide +kernel) rfl (by decide +kernel) (by decide +kernel) (by decide +kernel)
  exact ⟨s1, h1, by rw [h2]; decide +kernel, h3⟩

/-- C05_skips_partial -/
def sBeforeMore : St := after accepting outer [.mapStart, .mapKey "name", .scalar (.str "x")] (St.init outer)
example : ∃ s', (∀ ts, run accepting outer (.mapKey "more" :: (events ignorable ++ ts)) sBeforeMore = run accepting outer ts s') ∧
    s'.stack = [[]] ∧ s'.log = sBeforeMore.log ∧ s'.heap [.mem 0] = sBeforeMore.heap [.mem 0] := by
  obtain ⟨s', h1, h2, h3, _, h4, _⟩ := C05_skips_partial (E := accepting) (R := outer) (s := sBeforeMore) (p := []) (rest := []) (key := "more") (v := ignorable)
    (by decide +kernel) rfl (by decide +kernel) (by decide +kernel) (by decide +kernel)
    (by intro x hx; simp at hx; rcases hx with rfl | rfl | rfl <;> decide) (by decide +kernel)
  exact ⟨s', h1, by rw [h2]; decide +kernel, h3, h4 _ (by decide) (by decide)⟩

/-- C05_ends_early_partial: `{"name": "x", "more": {"a": null, "name": "evil"}` -/
example : ∃ pre post s', events (.obj [("a", .null), ("name", .sc (.str "evil"))]) = pre ++ .null :: post ∧ post ≠ [] ∧
    (∀ ts, run accepting outer (.mapKey "more" :: (events (.obj [("a", .null), ("name", .sc (.str "evil"))]) ++ ts)) sBeforeMore = run accepting outer (post ++ ts) s') ∧
    s'.stack = [[]] := by
  obtain ⟨pre, post, s', h1, h2, h3, h4, _⟩ := C05_ends_early_partial (E := accepting) (R := outer) (s := sBeforeMore) (p := []) (rest := []) (key := "more")
    (v := .obj [("a", .null), ("name", .sc (.str "evil"))]) (by decide +kernel) rfl (by decide +kernel) (by decide +kernel) (by decide +kernel)
    (by intro x hx; simp at hx; rcases hx with rfl | rfl | rfl <;> decide) (by decide +kernel)
  exact ⟨pre, post, s', h1, h2, h3, by rw [h4]; decide +kernel⟩

/-- C05_document_partial -/
example : (∃ e, Fails accepting outer (St.init outer) (.obj ([("name", .sc (.str "x"))] ++ ("more", ignorable) :: [("limits", .null)])) e ∧
      Fails accepting outer (St.init outer) (.obj ([("name", .sc (.str "x"))] ++ [("limits", .null)])) e) ∨
    ∃ s1 s2 d, Completes accepting outer (St.init outer) [] (.obj ([("name", .sc (.str "x"))] ++ ("more", ignorable) :: [("limits", .null)])) s1 ∧
      Completes accepting outer (St.init outer) [] (.obj ([("name", .sc (.str "x"))] ++ [("limits", .null)])) s2 ∧ Holds s1.heap [] d ∧ Holds s2.heap [] d :=
  C05_document_partial (E := accepting) (R := outer) (k := .plain) accepting_passive (Ready.init outer).expecting (by decide +kernel)
    (noEmbeddedB_sound (by decide +kernel)) (by decide +kernel) (by decide +kernel)
    (by intro x hx; simp at hx; rcases hx with rfl | rfl | rfl <;> decide) (by simp)

/-- The full C05 is false of this code: a document that is read without its unknown field is refused with it, if the value of this field is
`[null]`; and if it is `{"a": null, "name": "evil"}`, the fields after the null are read as fields of the enclosing object (its `name` becomes
`evil`) and the document is refused at its end. -/
theorem C05_nested_null :
    fine noCb outer (events (.obj [("name", .sc (.str "x"))])) (St.init outer) = true ∧
    failure noCb outer (events (.obj [("name", .sc (.str "x")), ("more", .arr [.null])])) (St.init outer) = some (.std "Unexpected token array end") ∧
    failure noCb outer (events (.obj [("name", .sc (.str "x")), ("more", .obj [("a", .null), ("name", .sc (.str "evil"))])])) (St.init outer) =
      some (.std "Parsers stack is empty") ∧
    ∃ s', run noCb outer ((events (.obj [("name", .sc (.str "x")), ("more", .obj [("a", .null), ("name", .sc (.str "evil"))])])).take 9) (St.init outer) =
      .ok () s' ∧ get [.mem 0] s' = .ok (.sc (.str "evil")) s' := by
  refine ⟨by decide +kernel, by decide +kernel, by decide +kernel, _, after_ok (by decide +kernel), ?_⟩
  have h1 : isSet [.mem 0] (after noCb outer ((events (.obj [("name", .sc (.str "x")), ("more", .obj [("a", .null), ("name", .sc (.str "evil"))])])).take 9)
    (St.init outer)) = true := by decide +kernel
  have h2 : ((after noCb outer ((events (.obj [("name", .sc (.str "x")), ("more", .obj [("a", .null), ("name", .sc (.str "evil"))])])).take 9)
    (St.init outer)).heap [.mem 0]).val = .sc (.str "evil") := sameV_eq (by decide +kernel)
  unfold get
  unfold isSet at h1
  rw [if_pos h1, h2]

end Examples

end SJ
