/-
Which callbacks have been called after the first tokens of a document.
-/
import Verif.SpecTimed
import Verif.Proofs.Ends

set_option linter.unusedVariables false

namespace SJ

variable {E : Env} {R : Shape}

/-! ### Positions -/

/-- All entries are due at or after `a`, and before `b`. -/
def Span (a b : Nat) (l : List (Nat × End)) : Prop := ∀ x ∈ l, a ≤ x.1 ∧ x.1 < b

theorem Span.nil {a b} : Span a b [] := fun x h => by simp at h
theorem Span.one {a b n e} (h : a ≤ n) (h' : n < b) : Span a b [(n, e)] := fun x hx => by simp at hx; subst hx; exact ⟨h, h'⟩
theorem Span.append {a b l l'} (h : Span a b l) (h' : Span a b l') : Span a b (l ++ l') := fun x hx => by
  rcases List.mem_append.1 hx with h1 | h1
  · exact h x h1
  · exact h' x h1
theorem Span.cons {a b n e l} (h : a ≤ n) (h' : n < b) (hl : Span a b l) : Span a b ((n, e) :: l) := by
  intro x hx
  rcases List.mem_cons.1 hx with rfl | h1
  · exact ⟨h, h'⟩
  · exact hl x h1
theorem Span.mono {a b a' b' l} (h : Span a b l) (ha : a' ≤ a) (hb : b ≤ b') : Span a' b' l := fun x hx =>
  ⟨Nat.le_trans ha (h x hx).1, Nat.lt_of_lt_of_le (h x hx).2 hb⟩

theorem events_pos (j : Json) : 0 < (events j).length := by cases j <;> simp [events]

mutual
theorem timed_span : ∀ (j : Json) (sh : Shape) (p : Path) (i : Nat), Span i (i + (events j).length) (timed sh p i j)
  | .null, sh, p, i => by unfold timed; exact Span.nil
  | .sc x, sh, p, i => by
    unfold timed
    cases sh <;> first | exact Span.nil | exact Span.one (Nat.le_refl _) (by simp [events])
  | .arr l, sh, p, i => by
    unfold timed
    cases sh <;> try exact Span.nil
    simp only [events, List.length_cons, List.length_append, List.length_nil]
    exact ((timedElems_span l _ p (i + 1)).mono (by omega) (by omega)).append (Span.one (by omega) (by omega))
  | .obj fs, sh, p, i => by
    unfold timed
    simp only [events, List.length_cons, List.length_append, List.length_nil]
    exact (timedFields_span fs sh p (i + 1) false).mono (by omega) (by omega)
theorem timedFields_span : ∀ (fs : List (String × Json)) (sh : Shape) (p : Path) (i : Nat) (ne : Bool),
    Span i (i + (fieldEvents fs).length + 1) (timedFields sh p i ne fs)
  | [], sh, p, i, ne => by
    unfold timedFields
    cases sh <;> first | exact Span.nil | exact Span.one (by omega) (by omega) | skip
    cases ne
    · exact Span.nil
    · exact Span.one (by omega) (by omega)
  | (k, v) :: fs, sh, p, i, ne => by
    have hp := events_pos v
    unfold timedFields
    simp only [fieldEvents, List.length_cons, List.length_append]
    cases sh with
    | object kd u ms =>
      dsimp only
      cases lookup (.str k) 0 ms with
      | none => exact (timedFields_span fs _ p _ true).mono (by omega) (by omega)
      | some nm =>
        obtain ⟨n, m⟩ := nm
        dsimp only
        cases hem : embedded m v with
        | none => exact ((timed_span v m _ _).mono (by omega) (by omega)).append ((timedFields_span fs _ p _ true).mono (by omega) (by omega))
        | some q =>
          obtain ⟨ty, st, ms', x⟩ := q
          obtain ⟨rfl, rfl, _⟩ := embedded_some hem
          dsimp only
          cases lookup x 0 ms' with
          | none => exact Span.nil
          | some a =>
            obtain ⟨a, alt⟩ := a
            simp only [events, List.length_singleton]
            exact ((timedFields_span fs alt _ _ false).mono (by omega) (by omega)).append (Span.cons (by omega) (by omega) (Span.one (by omega) (by omega)))
    | union ty tm st ms =>
      dsimp only
      cases v with
      | sc x =>
        dsimp only
        cases lookup x 0 ms with
        | none => exact Span.nil
        | some a =>
          obtain ⟨a, alt⟩ := a
          simp only [events, List.length_singleton]
          exact ((timedFields_span fs alt _ _ false).mono (by omega) (by omega)).append (Span.one (by omega) (by omega))
      | _ => exact Span.nil
    | map st e =>
      dsimp only
      cases hem : embedded e v with
      | none =>
        exact ((timed_span v e _ _).mono (by omega) (by omega)).append (Span.cons (by omega) (by omega) ((timedFields_span fs _ p _ true).mono (by omega) (by omega)))
      | some q =>
        obtain ⟨ty, st, ms', x⟩ := q
        obtain ⟨rfl, rfl, _⟩ := embedded_some hem
        dsimp only
        cases lookup x 0 ms' with
        | none => exact Span.nil
        | some a =>
          obtain ⟨a, alt⟩ := a
          simp only [events, List.length_singleton]
          exact ((timedFields_span fs alt _ _ false).mono (by omega) (by omega)).append
            (Span.cons (by omega) (by omega) (Span.cons (by omega) (by omega) (Span.one (by omega) (by omega))))
    | _ => exact Span.nil
theorem timedElems_span : ∀ (l : List Json) (e : Shape) (p : Path) (i : Nat), Span i (i + (elemEvents l).length) (timedElems e p i l)
  | [], e, p, i => by unfold timedElems; exact Span.nil
  | j :: l, e, p, i => by
    unfold timedElems
    simp only [elemEvents, List.length_append]
    exact ((timed_span j e _ i).mono (by omega) (by omega)).append ((timedElems_span l e p _).mono (by omega) (by omega))
end

/-! ### Without the positions it is `ends` -/

mutual
theorem timed_ends : ∀ (j : Json) (sh : Shape) (p : Path) (i : Nat), (timed sh p i j).map (·.2) = ends sh p j
  | .null, sh, p, i => by simp [timed, ends]
  | .sc x, sh, p, i => by cases sh <;> simp [timed, ends]
  | .arr l, sh, p, i => by cases sh <;> simp [timed, ends, timedElems_ends l]
  | .obj fs, sh, p, i => by simp [timed, ends, timedFields_ends fs]
theorem timedFields_ends : ∀ (fs : List (String × Json)) (sh : Shape) (p : Path) (i : Nat) (ne : Bool),
    (timedFields sh p i ne fs).map (·.2) = endsFields sh p ne fs
  | [], sh, p, i, ne => by cases sh <;> cases ne <;> simp [timedFields, endsFields]
  | (k, v) :: fs, sh, p, i, ne => by
    cases sh with
    | object kd u ms =>
      simp only [timedFields, endsFields]
      cases lookup (.str k) 0 ms with
      | none => exact timedFields_ends fs _ _ _ _
      | some nm =>
        obtain ⟨n, m⟩ := nm
        dsimp only
        cases embedded m v with
        | none => simp only [List.map_append, timed_ends v, timedFields_ends fs]
        | some q =>
          obtain ⟨ty, st, ms', x⟩ := q
          dsimp only
          cases lookup x 0 ms' with
          | none => rfl
          | some a => simp [List.map_append, timedFields_ends fs]
    | union ty tm st ms =>
      cases v <;> simp only [timedFields, endsFields] <;> try rfl
      rename_i x
      cases lookup x 0 ms with
      | none => rfl
      | some a => simp [List.map_append, timedFields_ends fs]
    | map st e =>
      simp only [timedFields, endsFields]
      cases embedded e v with
      | none => simp only [List.map_append, List.map_cons, timed_ends v, timedFields_ends fs]
      | some q =>
        obtain ⟨ty, st, ms', x⟩ := q
        dsimp only
        cases lookup x 0 ms' with
        | none => rfl
        | some a => simp [List.map_append, timedFields_ends fs]
    | _ => simp [timedFields, endsFields]
theorem timedElems_ends : ∀ (l : List Json) (e : Shape) (p : Path) (i : Nat), (timedElems e p i l).map (·.2) = endsElems e p l
  | [], e, p, i => by simp [timedElems, endsElems]
  | j :: l, e, p, i => by simp [timedElems, endsElems, timed_ends j, timedElems_ends l]
end

/-! ### Cutting -/

theorem dueBefore_append (n l l') : dueBefore n (l ++ l') = dueBefore n l ++ dueBefore n l' := by simp [dueBefore]
theorem dueBefore_cons_lt {n i e l} (h : i < n) : dueBefore n ((i, e) :: l) = e :: dueBefore n l := by simp [dueBefore, List.filter, h]
theorem dueBefore_none {n a b l} (h : Span a b l) (hn : n ≤ a) : dueBefore n l = [] := by
  simp only [dueBefore, List.map_eq_nil_iff, List.filter_eq_nil_iff]
  intro x hx
  have := (h x hx).1
  simp; omega
theorem dueBefore_all {n a b l} (h : Span a b l) (hn : b ≤ n) : dueBefore n l = l.map (·.2) := by
  simp only [dueBefore]
  rw [List.filter_eq_self.2]
  intro x hx
  have := (h x hx).2
  simp; omega

/-- The beginning of two token lists after each other: either it lies in the first one, or it contains it. -/
theorem cut {a b x y : List Token} (h : x ++ y = a ++ b) : (∃ b', b' ≠ [] ∧ x = a ++ b') ∨ ∃ a', a = x ++ a' ∧ y = a' ++ b := by
  rcases List.append_eq_append_iff.1 h with ⟨a', h1, h2⟩ | ⟨b', h1, h2⟩
  · exact .inr ⟨a', h1, h2⟩
  · by_cases hb : b' = []
    · subst hb; exact .inr ⟨[], by simpa using h1.symm, by simpa using h2.symm⟩
    · exact .inl ⟨b', hb, h1⟩

/-- The first tokens of an ignored value call nothing. -/
theorem run_nil_traces (s : St) : TracesR E [] s.log (run E R [] s) := Called.refl _

mutual
theorem cut_ignored_val {p} (hR : R.at p = some .ignore) : ∀ (j : Json) (a b : List Token) (s : St) (stk),
    j.noNull = true → s.stack = p :: stk → (s.heap p).struct ≠ [] → events j = a ++ b → TracesR E [] s.log (run E R a s)
  | .null, a, b, s, stk, hj, hs, hst, he => by simp [Json.noNull] at hj
  | .sc x, a, b, s, stk, hj, hs, hst, he => by
    cases a with
    | nil => exact run_nil_traces s
    | cons t a =>
      have := ignore_val (E := E) hR (.sc x) [] s stk hj hs hst
      simp only [events, List.cons_append, List.cons.injEq] at he this
      obtain ⟨rfl, he⟩ := he
      obtain ⟨rfl, rfl⟩ := List.append_eq_nil_iff.1 he.symm
      rw [List.nil_append] at this; rw [this]; exact run_nil_traces s
  | .arr l, a, b, s, stk, hj, hs, hst, he => by
    cases a with
    | nil => exact run_nil_traces s
    | cons t a =>
      have hw := ignore_val (E := E) hR (.arr l) [] s stk hj hs hst
      simp only [events, List.cons_append, List.cons.injEq] at he
      obtain ⟨rfl, he⟩ := he
      rcases cut he with ⟨b', hb, h1⟩ | ⟨a', h1, h2⟩
      · rw [run_dispatch hR hs]
        simp only [onF]
        rw [bind_modC]
        exact cut_ignored_elems hR l a b' _ stk (by simpa [Json.noNull] using hj) hs (by simp) h1
      · cases a' with
        | nil =>
          rw [run_dispatch hR hs]
          simp only [onF]
          rw [bind_modC]
          exact cut_ignored_elems hR l a [] _ stk (by simpa [Json.noNull] using hj) hs (by simp) (by simpa using h1.symm)
        | cons t a' =>
          simp only [List.cons_append, List.cons.injEq] at h2
          obtain ⟨rfl, h2⟩ := h2
          obtain ⟨rfl, rfl⟩ := List.append_eq_nil_iff.1 h2.symm
          simp only [events, List.append_nil] at hw
          rw [h1, hw]; exact run_nil_traces s
  | .obj l, a, b, s, stk, hj, hs, hst, he => by
    cases a with
    | nil => exact run_nil_traces s
    | cons t a =>
      have hw := ignore_val (E := E) hR (.obj l) [] s stk hj hs hst
      simp only [events, List.cons_append, List.cons.injEq] at he
      obtain ⟨rfl, he⟩ := he
      rcases cut he with ⟨b', hb, h1⟩ | ⟨a', h1, h2⟩
      · rw [run_dispatch hR hs]
        simp only [onF]
        rw [bind_modC]
        exact cut_ignored_fields hR l a b' _ stk (by simpa [Json.noNull] using hj) hs ⟨_, by simp; rfl⟩ h1
      · cases a' with
        | nil =>
          rw [run_dispatch hR hs]
          simp only [onF]
          rw [bind_modC]
          exact cut_ignored_fields hR l a [] _ stk (by simpa [Json.noNull] using hj) hs ⟨_, by simp; rfl⟩ (by simpa using h1.symm)
        | cons t a' =>
          simp only [List.cons_append, List.cons.injEq] at h2
          obtain ⟨rfl, h2⟩ := h2
          obtain ⟨rfl, rfl⟩ := List.append_eq_nil_iff.1 h2.symm
          simp only [events, List.append_nil] at hw
          rw [h1, hw]; exact run_nil_traces s
theorem cut_ignored_elems {p} (hR : R.at p = some .ignore) : ∀ (l : List Json) (a b : List Token) (s : St) (stk),
    noNullL l = true → s.stack = p :: stk → (s.heap p).struct ≠ [] → elemEvents l = a ++ b → TracesR E [] s.log (run E R a s)
  | [], a, b, s, stk, hj, hs, hst, he => by
    obtain ⟨rfl, rfl⟩ := List.append_eq_nil_iff.1 he.symm
    exact run_nil_traces s
  | j :: l, a, b, s, stk, hj, hs, hst, he => by
    simp only [noNullL, Bool.and_eq_true] at hj
    simp only [elemEvents] at he
    rcases cut he with ⟨b', hb, h1⟩ | ⟨a', rfl, h2⟩
    · exact cut_ignored_val hR j a b' s stk hj.1 hs hst h1
    · rw [ignore_val hR j _ s stk hj.1 hs hst]
      exact cut_ignored_elems hR l a' b s stk hj.2 hs hst h2
theorem cut_ignored_fields {p} (hR : R.at p = some .ignore) : ∀ (l : List (String × Json)) (a b : List Token) (s : St)
    (stk), noNullF l = true → s.stack = p :: stk → (∃ r, (s.heap p).struct = true :: r) → fieldEvents l = a ++ b → TracesR E [] s.log (run E R a s)
  | [], a, b, s, stk, hj, hs, hst, he => by
    obtain ⟨rfl, rfl⟩ := List.append_eq_nil_iff.1 he.symm
    exact run_nil_traces s
  | (k, j) :: l, a, b, s, stk, hj, hs, hst, he => by
    simp only [noNullF, Bool.and_eq_true] at hj
    cases a with
    | nil => exact run_nil_traces s
    | cons t a =>
      simp only [fieldEvents, List.cons_append, List.cons.injEq] at he
      obtain ⟨rfl, he⟩ := he
      obtain ⟨r, hr⟩ := hst
      rw [run_dispatch hR hs]
      simp only [onF]
      rw [bind_assoc, bind_getC, hr]
      simp only [bind_pure_left]
      rcases cut he with ⟨b', hb, h1⟩ | ⟨a', rfl, h2⟩
      · exact cut_ignored_val hR j a b' s stk hj.1 hs (by simp [hr]) h1
      · rw [ignore_val hR j _ s stk hj.1 hs (by simp [hr])]
        exact cut_ignored_fields hR l a' b s stk hj.2 hs ⟨r, hr⟩ h2
end

/-- The first tokens of an ignored value, but not all of it. -/
theorem cut_ignored {p} (hR : R.at p = some .ignore) (j : Json) (a b : List Token) (s : St) (stk)
    (hj : j.skippable = true) (hs : s.stack = p :: stk) (he : events j = a ++ b) (hb : b ≠ []) : TracesR E [] s.log (run E R a s) := by
  cases a with
  | nil => exact run_nil_traces s
  | cons t a =>
    cases j with
    | null =>
      simp only [events, List.cons_append, List.cons.injEq] at he
      exact absurd (List.append_eq_nil_iff.1 he.2.symm).2 hb
    | sc x =>
      simp only [events, List.cons_append, List.cons.injEq] at he
      exact absurd (List.append_eq_nil_iff.1 he.2.symm).2 hb
    | arr l =>
      simp only [events, List.cons_append, List.cons.injEq] at he
      obtain ⟨rfl, he⟩ := he
      rw [run_dispatch hR hs]
      simp only [onF]
      rw [bind_modC]
      have : ∃ b', elemEvents l = a ++ b' := by
        rcases cut he with ⟨b', _, h1⟩ | ⟨a', h1, h2⟩
        · exact ⟨b', h1⟩
        · cases a' with
          | nil => exact ⟨[], by simpa using h1.symm⟩
          | cons t a' =>
            simp only [List.cons_append, List.cons.injEq] at h2
            exact absurd (List.append_eq_nil_iff.1 h2.2.symm).2 hb
      obtain ⟨b', h1⟩ := this
      exact cut_ignored_elems hR l a b' _ stk (by simpa [Json.skippable, Json.noNull] using hj) hs (by simp) h1
    | obj l =>
      simp only [events, List.cons_append, List.cons.injEq] at he
      obtain ⟨rfl, he⟩ := he
      rw [run_dispatch hR hs]
      simp only [onF]
      rw [bind_modC]
      have : ∃ b', fieldEvents l = a ++ b' := by
        rcases cut he with ⟨b', _, h1⟩ | ⟨a', h1, h2⟩
        · exact ⟨b', h1⟩
        · cases a' with
          | nil => exact ⟨[], by simpa using h1.symm⟩
          | cons t a' =>
            simp only [List.cons_append, List.cons.injEq] at h2
            exact absurd (List.append_eq_nil_iff.1 h2.2.symm).2 hb
      obtain ⟨b', h1⟩ := this
      exact cut_ignored_fields hR l a b' _ stk (by simpa [Json.skippable, Json.noNull] using hj) hs ⟨_, by simp; rfl⟩ h1


/-- Without the last token. -/
theorem cut_last {a b x : List Token} {t : Token} (h : x ++ [t] = a ++ b) (hb : b ≠ []) : ∃ b', x = a ++ b' := by
  rcases cut h with ⟨b', _, h1⟩ | ⟨a', h1, h2⟩
  · exact ⟨b', h1⟩
  · cases a' with
    | nil => exact ⟨[], by simpa using h1.symm⟩
    | cons t a' =>
      simp only [List.cons_append, List.cons.injEq] at h2
      exact absurd (List.append_eq_nil_iff.1 h2.2.symm).2 hb

theorem due_val {n i : Nat} {j sh p} {l : List (Nat × End)} (h : i + (events j).length ≤ n) :
    dueBefore n (timed sh p i j ++ l) = ends sh p j ++ dueBefore n l := by
  rw [dueBefore_append, dueBefore_all (timed_span j sh p i) h, timed_ends]

theorem due_val_only {n i k : Nat} {j sh p} {l : List (Nat × End)} {b} (hl : Span k b l) (h : n ≤ k) :
    dueBefore n (timed sh p i j ++ l) = dueBefore n (timed sh p i j) := by
  rw [dueBefore_append, dueBefore_none hl h, List.append_nil]

theorem cut_nil {i b' : Nat} {l : List (Nat × End)} {s : St} (h : Span i b' l) : TracesR E (dueBefore (i + ([] : List Token).length) l) s.log (run E R [] s) := by
  rw [dueBefore_none h (by simp)]; exact run_nil_traces s

theorem evalElems_started {j st e p} (hR : R.at p = some (.array st e)) {s s' : St} {u} (h : evalElems E st e p [j] s = .ok u s')
    (hst : (s.heap p).started = true) : (s'.heap p).started = true := by
  have hRe := at_elem_array hR
  have comp : ∀ s : St, (s.heap p).started = true → (M.bind (setNotEmpty p) fun _ => M.bind (modH (setDispH (.elem :: p) e)) fun _ =>
      M.bind (pushParser (.elem :: p)) fun _ => M.bind (evalVal E e (.elem :: p) j) fun _ =>
      M.bind dropTop fun _ => M.bind (arrChild st p) fun _ => evalElems E st e p []) s = .ok u s' → (s'.heap p).started = true := by
    intro s hst h
    rw [setNotEmpty_def, bind_modC, bind_modH, bind_push] at h
    obtain ⟨_, s1, h1, h⟩ := bind_ok_inv h
    rw [bind_drop] at h
    obtain ⟨_, s2, h2, h⟩ := bind_ok_inv h
    simp only [evalElems] at h
    injection h with _ h; subst h
    rw [(((Loc.arrChild _ _).ok h2).2.ctl p).2]
    show (s1.heap p).started = true
    rw [(evalVal_ok hRe h1).2.frame p below_self_cons]
    show (setDispH (.elem :: p) e _ p).started = true
    rw [(setDispH_only _ _ _).started]; dsimp only; rw [upd_same]; exact hst
  cases j with
  | null =>
    simp only [evalElems] at h
    rw [bind_modH] at h
    injection h with _ h; subst h
    show (resetH _ _ _ p).started = true
    rw [(resetH_ctl _ _ _ _).2]; exact hst
  | sc x =>
    simp only [evalElems] at h
    obtain ⟨_, s1, h1, h⟩ := bind_ok_inv h
    rw [setNotEmpty_def, bind_modC] at h
    obtain ⟨_, s2, h2, h⟩ := bind_ok_inv h
    injection h with _ h; subst h
    rw [(((Loc.arrChild _ _).ok h2).2.ctl p).2]
    show (s1.heap.upd p _ p).started = true
    rw [upd_same]
    show (s1.heap p).started = true
    rw [(evalVal_ok hRe h1).2.frame p below_self_cons]; exact hst
  | arr l => simp only [evalElems] at h comp; exact comp s hst h
  | obj l => simp only [evalElems] at h comp; exact comp s hst h

mutual
theorem cut_val : ∀ (j : Json) (sh : Shape) (p : Path) (stk : List Path) (a b : List Token) (i : Nat) (s : St),
    R.at p = some sh → s.stack = p :: stk → (s.heap p).disp = true → Sane R p s.heap →
    (sh = .ignore → (s.heap p).struct = []) → okVal sh j = true → events j = a ++ b → b ≠ [] →
    TracesR E (dueBefore (i + a.length) (timed sh p i j)) s.log (run E R a s)
  | j, sh, p, stk, [], b, i, s, hR, hs, hd, hsane, hig, hok, he, hb => cut_nil (timed_span j sh p i)
  | .null, sh, p, stk, t :: a, b, i, s, hR, hs, hd, hsane, hig, hok, he, hb => by
    simp only [events, List.cons_append, List.cons.injEq] at he
    exact absurd (List.append_eq_nil_iff.1 he.2.symm).2 hb
  | .sc x, sh, p, stk, t :: a, b, i, s, hR, hs, hd, hsane, hig, hok, he, hb => by
    simp only [events, List.cons_append, List.cons.injEq] at he
    exact absurd (List.append_eq_nil_iff.1 he.2.symm).2 hb
  | .arr l, sh, p, stk, t :: a, b, i, s, hR, hs, hd, hsane, hig, hok, he, hb => by
    cases sh with
    | ignore =>
      have := cut_ignored (E := E) hR (.arr l) (t :: a) b s stk (by simpa [okVal, Json.skippable, Json.noNull] using hok) hs he hb
      simpa [timed, dueBefore] using this
    | array st e =>
      simp only [events, List.cons_append, List.cons.injEq] at he
      obtain ⟨rfl, he⟩ := he
      obtain ⟨b', h1⟩ := cut_last he hb
      rw [run_dispatch hR hs]
      simp only [onF, bind_assoc, bind_getC, hsane.started p (Below.refl _)]
      simp only [Bool.not_false, if_true, bind_assoc, bind_modH, bind_modC]
      have hk : Keep R p s.heap (resetH p (.array st e) s.heap) := Keep.reset _ _ _
      have hsane1 := hsane.keep hk
      have hlen : a.length ≤ (elemEvents l).length := by rw [h1]; simp
      have hdue : dueBefore (i + (Token.arrStart :: a).length) (timed (.array st e) p i (.arr l)) =
          dueBefore (i + 1 + a.length) (timedElems e p (i + 1) l) := by
        simp only [timed, List.length_cons]
        rw [dueBefore_append, dueBefore_none (l := [(i + 1 + (elemEvents l).length, End.finish p)]) (Span.one (Nat.le_refl _) (Nat.lt_succ_self _)) (by omega), List.append_nil]
        congr 1; omega
      rw [hdue]
      refine cut_elems l st e p stk a b' (i + 1) _ hR ?_ ?_ ?_ ?_ ?_ ?_ h1
      · exact hs
      · simp
      · simpa using hk.mono p hd
      · refine ⟨hsane1.closed.congr upd_started_disp, fun q hq => ?_, fun q st ty hq hRq => ?_⟩
        · simp only
          rw [upd_other (ne_of_below_step hq)]; exact hsane1.started q hq.step
        · simp only
          rw [upd_started_disp]; exact hsane1.velem q st ty hq.step hRq
      · rintro ty rfl
        simp only
        rw [upd_started_disp]; exact hsane1.velem p st ty (Below.refl _) hR
      · simpa [okVal] using hok
    | _ =>
      simp only [events, List.cons_append, List.cons.injEq] at he
      obtain ⟨rfl, he⟩ := he
      rw [run_dispatch hR hs]
      simp only [onF, bind_unexpected]
      exact TracesR.unexp
  | .obj fs, sh, p, stk, t :: a, b, i, s, hR, hs, hd, hsane, hig, hok, he, hb => by
    have hev := he
    simp only [events, List.cons_append, List.cons.injEq] at he
    obtain ⟨rfl, he⟩ := he
    obtain ⟨b', h1⟩ := cut_last he hb
    have fields : okFields sh fs = true →
        TracesR E (dueBefore (i + (Token.mapStart :: a).length) (timed sh p i (.obj fs))) s.log
          ((M.bind (modH (resetH p sh)) fun _ => run E R a) s) := by
      intro hokf
      rw [bind_modH]
      have hk : Keep R p s.heap (resetH p sh s.heap) := Keep.reset _ _ _
      have hi : i + (Token.mapStart :: a).length = i + 1 + a.length := by simp; omega
      rw [hi]
      simp only [timed]
      exact cut_fields fs sh p stk a b' (i + 1) false { s with heap := resetH p sh s.heap } hR hs (hk.mono p hd) (hsane.keep hk) (resetH_ignOk _ _ _) hokf h1
    cases sh with
    | ignore =>
      have := cut_ignored (E := E) hR (.obj fs) (.mapStart :: a) b s stk (by simpa [okVal, Json.skippable, Json.noNull] using hok) hs hev hb
      have hn : timed .ignore p i (.obj fs) = [] := by cases fs <;> simp [timed, timedFields]
      rw [hn]; simpa [dueBefore] using this
    | array st e =>
      rw [run_dispatch hR hs]
      simp only [onF, bind_assoc, bind_getC, hsane.started p (Below.refl _)]
      exact TracesR.unexp
    | value ty =>
      rw [run_dispatch hR hs]
      simp only [onF, bind_unexpected]
      exact TracesR.unexp
    | union ty tm st ms =>
      rw [run_dispatch hR hs]
      simp only [onF]
      by_cases ht : tm = ""
      · simp only [if_pos ht, bind_throw]; exact TracesR.throwStd
      · simp only [if_neg ht]
        exact fields (by simpa [okVal, ht] using hok)
    | object k u ms =>
      rw [run_dispatch hR hs]
      simp only [onF]
      exact fields (by simpa [okVal] using hok)
    | map st e =>
      rw [run_dispatch hR hs]
      simp only [onF]
      exact fields (by simpa [okVal] using hok)
theorem cut_fields : ∀ (fs : List (String × Json)) (sh : Shape) (p : Path) (stk : List Path) (a b : List Token) (i : Nat) (ne : Bool)
    (s : St), R.at p = some sh → s.stack = p :: stk → (s.heap p).disp = true → Sane R p s.heap →
    IgnOk sh p s.heap → okFields sh fs = true → fieldEvents fs = a ++ b →
    TracesR E (dueBefore (i + a.length) (timedFields sh p i ne fs)) s.log (run E R a s)
  | fs, sh, p, stk, [], b, i, ne, s, hR, hs, hd, hsane, hig, hok, he => cut_nil (timedFields_span fs sh p i ne)
  | [], sh, p, stk, t :: a, b, i, ne, s, hR, hs, hd, hsane, hig, hok, he => by simp [fieldEvents] at he
  | (k, v) :: fs, sh, p, stk, t :: a, b, i, ne, s, hR, hs, hd, hsane, hig, hok, he => by
    simp only [fieldEvents, List.cons_append, List.cons.injEq] at he
    obtain ⟨rfl, he⟩ := he
    have hi : i + (Token.mapKey k :: a).length = i + 1 + a.length := by simp; omega
    rw [hi]
    rw [run_dispatch hR hs]
    cases sh with
    | ignore =>
      have hst : (s.heap p).struct = [] := hig
      simp only [onF, bind_assoc, bind_getC, hst, bind_unexpected]
      exact TracesR.unexp
    | value => simp only [onF, bind_unexpected]; exact TracesR.unexp
    | array => simp only [onF, bind_unexpected]; exact TracesR.unexp
    | object kd u ms =>
      simp only [onF, onMember, bind_assoc, setNotEmpty_def, bind_modC, bind_getC]
      have hq : Quiet p s.heap (s.heap.upd p fun c => { c with empty := false }) := by
        apply Quiet.upd; exact fun _ => ⟨rfl, rfl, rfl⟩
      have hd1 : ((s.heap.upd p fun c => { c with empty := false }) p).disp = true := by
        rw [(hq.ctl p).1]; exact hd
      have hsane1 := hsane.keep (p' := p) hq.keep
      have hig1 := hig.quiet hq
      generalize s.heap.upd p (fun c => { c with empty := false }) = h1 at *
      simp only [hd1, if_true]
      cases hl : lookup (.str k) 0 ms with
      | none =>
        simp only
        cases u with
        | true => simp only [if_true, bind_throw]; exact TracesR.throwStd (s := { heap := h1, stack := s.stack, log := s.log })
        | false =>
          simp only [Bool.false_eq_true, if_false, bind_assoc, bind_push, bind_pure_left]
          simp only [okFields, hl, Bool.false_eq_true, if_false, Bool.and_eq_true] at hok
          have hRi := at_ign_object hR
          have hs1 : (.ign :: p) :: s.stack = (.ign :: p) :: p :: stk := by rw [hs]
          have hdi := hsane1.closed p _ .ign .ignore hR hd1 (by simp) rfl
          have hnil : ends .ignore (.ign :: p) v = [] := by
            cases v with
            | obj fs => cases fs <;> simp [ends, endsFields]
            | _ => simp [ends]
          rcases cut he with ⟨b', hb', h2⟩ | ⟨a', rfl, h2⟩
          · have := cut_val v .ignore (.ign :: p) (p :: stk) a b' (i + 1) { heap := h1, stack := (.ign :: p) :: s.stack, log := s.log } hRi hs1 hdi
              (hsane1.down (Below.cons _ _)) (fun _ => hig1) hok.1 h2 hb'
            have hn : timed .ignore (.ign :: p) (i + 1) v = [] := by
              have := timed_ends v .ignore (.ign :: p) (i + 1)
              rw [hnil] at this; simpa using this
            rw [hn] at this
            have hlen : a.length < (events v).length := by rw [h2]; simp; exact List.length_pos_iff.2 hb'
            simp only [timedFields, hl]
            rw [dueBefore_none (timedFields_span fs _ p _ true) (by omega)]
            simpa [dueBefore] using this
          · simp only [timedFields, hl]
            refine (congrArg (TracesR E _ s.log) (sim_val v .ignore (.ign :: p) (p :: stk) _ { heap := h1, stack := (.ign :: p) :: s.stack, log := s.log } hRi hs1 hdi (hsane1.down (Below.cons _ _)) (fun _ => hig1) hok.1)).mpr ?_
            have hv := evalVal_traces (E := E) (R := R) v .ignore (.ign :: p) { heap := h1, stack := (.ign :: p) :: s.stack, log := s.log } hRi
            rw [hnil] at hv
            refine TracesR.bind (es := []) hv fun _ s2 h3 => ?_
            have h2' := evalVal_ok hRi h3
            have hs2 : s2.stack = (.ign :: p) :: p :: stk := by rw [h2'.1]; simp [hs]
            rw [bind_congr (pop_to hs2) fun _ _ _ => rfl, bind_assoc, bind_drop, chP_object hR]
            simp only [bind_pure_left]
            have hlen : i + 1 + (events v ++ a').length = i + 1 + (events v).length + a'.length := by simp; omega
            rw [hlen]
            refine cut_fields fs _ p stk a' b _ true { s2 with stack := s2.stack.tail } hR ?_ ?_ ?_ ?_ hok.2 h2
            · simp [hs2]
            · exact h2'.2.mono p hd1
            · exact hsane1.keep h2'.2
            · have : (s2.heap (.ign :: p)).struct = [] := by
                cases v with
                | null =>
                  simp only [evalVal] at h3; injection h3 with _ h3; subst h3; simp [resetH]
                | _ =>
                  simp only [evalVal] at h3
                  rw [((Loc.complete _ _).ok h3).2.struct]; exact hig1
              exact this
      | some b0 =>
        obtain ⟨n, m⟩ := b0
        obtain ⟨i0, hi0⟩ := lookup_mem hl
        have hRm := at_mem_object hR hi0
        have hdm : (h1 (.mem n :: p)).disp = true :=
          hsane1.closed p _ (.mem n) m hR hd1 (by simp) (by simp [Shape.child, hi0])
        simp only [bind_assoc, bind_push, bind_pure_left]
        have hs1 : (.mem n :: p) :: s.stack = (.mem n :: p) :: p :: stk := by rw [hs]
        cases hem : embedded m v with
        | some y =>
          obtain ⟨ty, st, ms', x⟩ := y
          obtain ⟨rfl, rfl, hty⟩ := embedded_some hem
          simp only [okFields, hl, hem] at hok
          simp only [timedFields, hl, hem]
          cases a with
          | nil =>
            rw [dueBefore_none (a := i + 2) (b := i + 2 + (fieldEvents fs).length + 1)]
            · exact run_nil_traces (R := R) { heap := h1, stack := (.mem n :: p) :: s.stack, log := s.log }
            · cases lookup x 0 ms' with
              | none => exact Span.nil
              | some a => exact (timedFields_span fs _ _ _ false).append (Span.cons (by omega) (by omega) (Span.one (by omega) (by omega)))
            · simp
          | cons t a =>
            simp only [events, List.cons_append, List.nil_append, List.cons.injEq] at he
            obtain ⟨rfl, he⟩ := he
            refine (congrArg (TracesR E _ s.log) (run_dispatch hRm rfl)).mpr ?_
            rw [bind_congr (onF_select hty hdm) fun _ _ _ => rfl, bind_assoc]
            simp only [bind_assoc, bind_pure_left]
            refine TracesR.silent (s := { heap := h1, stack := (.mem n :: p) :: s.stack, log := s.log }) (Silent.select _ _ _ _ _ _) fun a0 s2 h2 => ?_
            obtain ⟨hla, hs2, hk2, hig2⟩ := select_ok (R := R) h2
            obtain ⟨a0, ash⟩ := a0
            simp only [hla] at hok
            rw [hla]
            dsimp only
            obtain ⟨i', hi'⟩ := lookup_mem hla
            have hRa := at_mem_union hRm hi'
            have hsane2 := (hsane1.keep hk2)
            have hdm2 := hk2.mono _ hdm
            have hlen : a.length ≤ (fieldEvents fs).length := by rw [he]; simp
            rw [dueBefore_append, dueBefore_none (a := i + 2 + (fieldEvents fs).length) (b := i + 2 + (fieldEvents fs).length + 1) (Span.cons (by omega) (by omega) (Span.one (by omega) (by omega)))
              (by simp; omega), List.append_nil]
            have hlen : i + 1 + (Token.scalar x :: a).length = i + 2 + a.length := by simp; omega
            rw [hlen]
            refine cut_fields fs ash _ ((.mem n :: p) :: s.stack) a b (i + 2) false s2 hRa ?_ ?_ ?_ hig2 hok he
            · rw [hs2]
            · exact hsane2.closed _ _ (.mem a0) ash hRm hdm2 (by simp) (by simp [Shape.child, hi'])
            · exact hsane2.down ((Below.cons _ _).trans (Below.cons _ _))
        | none =>
          simp only [okFields, hl, hem, Bool.and_eq_true] at hok
          have higm : m = .ignore → ((h1 (.mem n :: p)).struct = []) := by rintro rfl; simp [Shape.isUser] at hok
          simp only [timedFields, hl, hem]
          rcases cut he with ⟨b', hb', h2⟩ | ⟨a', rfl, h2⟩
          · have hlen : a.length < (events v).length := by rw [h2]; simp; exact List.length_pos_iff.2 hb'
            rw [due_val_only (timedFields_span fs _ p _ true) (by omega)]
            exact cut_val v m (.mem n :: p) (p :: stk) a b' (i + 1) { heap := h1, stack := (.mem n :: p) :: s.stack, log := s.log } hRm hs1 hdm (hsane1.down (Below.cons _ _)) higm hok.1.2 h2 hb'
          · rw [due_val (by simp)]
            refine (congrArg (TracesR E _ s.log) (sim_val v m (.mem n :: p) (p :: stk) _ _ hRm hs1 hdm (hsane1.down (Below.cons _ _)) higm hok.1.2)).mpr ?_
            refine TracesR.bind (s := { heap := h1, stack := (.mem n :: p) :: s.stack, log := s.log }) (evalVal_traces (E := E) (R := R) v m (.mem n :: p) _ hRm) fun _ s2 h3 => ?_
            have h2' := evalVal_ok hRm h3
            have hs2 : s2.stack = (.mem n :: p) :: p :: stk := by rw [h2'.1]; simp [hs]
            rw [bind_congr (pop_to hs2) fun _ _ _ => rfl, bind_assoc, bind_drop, chP_object hR]
            simp only [bind_pure_left]
            have hlen : i + 1 + (events v ++ a').length = i + 1 + (events v).length + a'.length := by simp; omega
            rw [hlen]
            refine cut_fields fs _ p stk a' b _ true { s2 with stack := s2.stack.tail } hR ?_ ?_ ?_ ?_ hok.2 h2
            · simp [hs2]
            · exact h2'.2.mono p hd1
            · exact hsane1.keep h2'.2
            · exact hig1.frame h2'.2.frame
    | map st e =>
      simp only [onF, bind_assoc, setNotEmpty_def, bind_modC, bind_getC]
      have hq : Quiet p s.heap (s.heap.upd p fun c => { c with empty := false }) := by
        apply Quiet.upd; exact fun _ => ⟨rfl, rfl, rfl⟩
      have hd1 : ((s.heap.upd p fun c => { c with empty := false }) p).disp = true := by
        rw [(hq.ctl p).1]; exact hd
      have hsane1 := hsane.keep (p' := p) hq.keep
      generalize s.heap.upd p (fun c => { c with empty := false }) = h1 at *
      simp only [hd1, if_true, bind_assoc, bind_push, bind_modC]
      have hq2 : Quiet p h1 (h1.upd p fun c => { c with curKey := k }) := by
        apply Quiet.upd; exact fun _ => ⟨rfl, rfl, rfl⟩
      have hd2 : ((h1.upd p fun c => { c with curKey := k }) p).disp = true := by
        rw [(hq2.ctl p).1]; exact hd1
      have hck : ((h1.upd p fun c => { c with curKey := k }) p).curKey = k := by simp
      have hsane2 := hsane1.keep (p' := p) hq2.keep
      generalize h1.upd p (fun c => { c with curKey := k }) = h2 at *
      have hRe := at_elem_map hR
      have hde : (h2 (.elem :: p)).disp = true :=
        hsane2.closed p _ .elem e hR hd2 (by simp) (by simp [Shape.child])
      have hch : chP E R p = mapChild E st e p := by
        cases st
        · rw [chP_map hR]; rfl
        · rw [chP_smap hR]; rfl
      have hs1 : (.elem :: p) :: s.stack = (.elem :: p) :: p :: stk := by rw [hs]
      cases hem : embedded e v with
      | some y =>
        obtain ⟨ty, st', ms', x⟩ := y
        obtain ⟨rfl, rfl, hty⟩ := embedded_some hem
        simp only [okFields, hem] at hok
        simp only [timedFields, hem]
        cases a with
        | nil =>
          rw [dueBefore_none (a := i + 2) (b := i + 2 + (fieldEvents fs).length + 1)]
          · exact run_nil_traces (R := R) { heap := h2, stack := (.elem :: p) :: s.stack, log := s.log }
          · cases lookup x 0 ms' with
            | none => exact Span.nil
            | some a => exact (timedFields_span fs _ _ _ false).append (Span.cons (by omega) (by omega) (Span.cons (by omega) (by omega) (Span.one (by omega) (by omega))))
          · simp
        | cons t a =>
          simp only [events, List.cons_append, List.nil_append, List.cons.injEq] at he
          obtain ⟨rfl, he⟩ := he
          refine (congrArg (TracesR E _ s.log) (run_dispatch hRe rfl)).mpr ?_
          rw [bind_congr (onF_select hty hde) fun _ _ _ => rfl, bind_assoc]
          simp only [bind_assoc, bind_pure_left]
          refine TracesR.silent (s := { heap := h2, stack := (.elem :: p) :: s.stack, log := s.log }) (Silent.select _ _ _ _ _ _) fun a0 s2 h3 => ?_
          obtain ⟨hla, hs2, hk2, hig2⟩ := select_ok (R := R) h3
          obtain ⟨a0, ash⟩ := a0
          simp only [hla] at hok
          rw [hla]
          dsimp only
          obtain ⟨i', hi'⟩ := lookup_mem hla
          have hRa := at_mem_union hRe hi'
          have hsane3 := (hsane2.keep hk2)
          have hde2 := hk2.mono _ hde
          have hlen : a.length ≤ (fieldEvents fs).length := by rw [he]; simp
          rw [dueBefore_append, dueBefore_none (a := i + 2 + (fieldEvents fs).length) (b := i + 2 + (fieldEvents fs).length + 1)
            (Span.cons (by omega) (by omega) (Span.cons (by omega) (by omega) (Span.one (by omega) (by omega))))
            (by simp; omega), List.append_nil]
          have hlen : i + 1 + (Token.scalar x :: a).length = i + 2 + a.length := by simp; omega
          rw [hlen]
          refine cut_fields fs ash _ ((.elem :: p) :: s.stack) a b (i + 2) false s2 hRa ?_ ?_ ?_ hig2 hok he
          · rw [hs2]
          · exact hsane3.closed _ _ (.mem a0) ash hRe hde2 (by simp) (by simp [Shape.child, hi'])
          · exact hsane3.down ((Below.cons _ _).trans (Below.cons _ _))
      | none =>
        simp only [okFields, hem, Bool.and_eq_true] at hok
        have hige : e = .ignore → ((h2 (.elem :: p)).struct = []) := by rintro rfl; simp [Shape.isUser] at hok
        simp only [timedFields, hem]
        rcases cut he with ⟨b', hb', h3⟩ | ⟨a', rfl, h3⟩
        · have hlen : a.length < (events v).length := by rw [h3]; simp; exact List.length_pos_iff.2 hb'
          rw [due_val_only (k := i + (events v).length) (b := i + 1 + (events v).length + (fieldEvents fs).length + 1)
            (Span.cons (by omega) (by omega) ((timedFields_span fs _ p _ true).mono (by omega) (by omega))) (by omega)]
          exact cut_val v e (.elem :: p) (p :: stk) a b' (i + 1) { heap := h2, stack := (.elem :: p) :: s.stack, log := s.log } hRe hs1 hde (hsane2.down (Below.cons _ _)) hige hok.1.2 h3 hb'
        · rw [due_val (by simp), dueBefore_cons_lt (by simp; omega)]
          refine (congrArg (TracesR E _ s.log) (sim_val v e (.elem :: p) (p :: stk) _ _ hRe hs1 hde (hsane2.down (Below.cons _ _)) hige hok.1.2)).mpr ?_
          refine TracesR.bind (s := { heap := h2, stack := (.elem :: p) :: s.stack, log := s.log }) (evalVal_traces (E := E) (R := R) v e (.elem :: p) _ hRe) fun _ s2 h4 => ?_
          have h2' := evalVal_ok hRe h4
          have hs2 : s2.stack = (.elem :: p) :: p :: stk := by rw [h2'.1]; simp [hs]
          rw [bind_congr (pop_to hs2) fun _ _ _ => rfl, bind_assoc, bind_drop, hch]
          have hmc := mapChild_traces (E := E) st e p { s2 with stack := s2.stack.tail }
          have hck' : (s2.heap p).curKey = k := by rw [keep_self h2'.2]; exact hck
          dsimp only at hmc
          rw [hck'] at hmc
          refine TracesR.bind (es := [.element p k]) (s := { s2 with stack := s2.stack.tail }) hmc fun _ s3 h5 => ?_
          have h3' := (Loc.mapChild _ _ _).ok h5
          have hlen : i + 1 + (events v ++ a').length = i + 1 + (events v).length + a'.length := by simp; omega
          rw [hlen]
          refine cut_fields fs _ p stk a' b _ true s3 hR ?_ ?_ ?_ trivial hok.2 h3
          · rw [h3'.1]; simp [hs2]
          · exact (h3'.2.keep (R := R)).mono p (h2'.2.mono p hd2)
          · exact (hsane2.keep h2'.2).keep (h3'.2.keep (R := R))
    | union ty tm st ms =>
      simp only [onF]
      by_cases ht : tm = ""
      · simp only [if_pos ht, bind_throw]; exact TracesR.throwStd
      · by_cases hk : k = tm
        · subst hk
          simp only [if_neg ht, ne_eq, not_true_eq_false, if_false, bind_pure_left]
          simp only [okFields, if_neg ht, ne_eq, not_true_eq_false, if_false] at hok
          cases a with
          | nil =>
            have : dueBefore (i + 1 + ([] : List Token).length) (timedFields (.union ty k st ms) p i ne ((k, v) :: fs)) = [] := by
              refine dueBefore_none (a := i + 1) (b := i + 2 + (fieldEvents fs).length + 1) ?_ (by simp)
              simp only [timedFields]
              cases v with
              | sc x =>
                dsimp only
                cases lookup x 0 ms with
                | none => exact Span.nil
                | some a => exact ((timedFields_span fs _ _ _ false).mono (by omega) (by omega)).append (Span.one (by omega) (by omega))
              | _ => exact Span.nil
            rw [this]; exact run_nil_traces s
          | cons t a =>
          cases v with
          | null => simp at hok
          | obj => simp at hok
          | arr l =>
            simp only [events, List.cons_append, List.cons.injEq] at he
            obtain ⟨rfl, he⟩ := he
            rw [run_dispatch hR hs]
            simp only [onF, bind_unexpected]
            exact TracesR.unexp
          | sc x =>
            simp only [events, List.cons_append, List.nil_append, List.cons.injEq] at he
            obtain ⟨rfl, he⟩ := he
            rw [run_dispatch hR hs]
            by_cases hty : x.ty = ty
            · simp only [if_pos hty] at hok
              rw [bind_congr (onF_select hty hd) fun _ _ _ => rfl, bind_assoc]
              simp only [bind_assoc, bind_pure_left]
              simp only [timedFields]
              refine TracesR.silent (Silent.select _ _ _ _ _ _) fun a0 s2 h2 => ?_
              obtain ⟨hla, hs2, hk2, hig2⟩ := select_ok (R := R) h2
              obtain ⟨a0, ash⟩ := a0
              simp only [hla] at hok
              rw [hla]
              dsimp only
              obtain ⟨i', hi'⟩ := lookup_mem hla
              have hRa := at_mem_union hR hi'
              have hsane3 := (hsane.keep hk2)
              have hd2 := hk2.mono _ hd
              have hlen : a.length ≤ (fieldEvents fs).length := by rw [he]; simp
              rw [dueBefore_append, dueBefore_none (a := i + 2 + (fieldEvents fs).length) (b := i + 2 + (fieldEvents fs).length + 1) (Span.one (by omega) (by omega))
                (by simp; omega), List.append_nil]
              have hlen : i + 1 + (Token.scalar x :: a).length = i + 2 + a.length := by simp; omega
              rw [hlen]
              refine cut_fields fs ash _ s.stack a b (i + 2) false s2 hRa ?_ ?_ ?_ hig2 hok he
              · rw [hs2]
              · exact hsane3.closed _ _ (.mem a0) ash hR hd2 (by simp) (by simp [Shape.child, hi'])
              · exact hsane3.down (Below.cons _ _)
            · simp only [onF, if_neg hty, bind_unexpected]; exact TracesR.unexp
        · simp only [if_neg ht, ne_eq, hk, not_false_eq_true, if_true, bind_throw]; exact TracesR.throwStd
theorem cut_elems : ∀ (l : List Json) (st : Bool) (e : Shape) (p : Path) (stk : List Path) (a b : List Token) (i : Nat)
    (s : St), R.at p = some (.array st e) → s.stack = p :: stk → (s.heap p).started = true →
    (s.heap p).disp = true → Sane R (.elem :: p) s.heap → (∀ ty, e = .value ty → (s.heap (.elem :: p)).disp = false) →
    okElems e l = true → elemEvents l = a ++ b →
    TracesR E (dueBefore (i + a.length) (timedElems e p i l)) s.log (run E R a s)
  | l, st, e, p, stk, [], b, i, s, hR, hs, hst, hd, hsane, hv, hok, he => cut_nil (timedElems_span l e p i)
  | [], st, e, p, stk, t :: a, b, i, s, hR, hs, hst, hd, hsane, hv, hok, he => by simp [elemEvents] at he
  | j :: l, st, e, p, stk, t :: a, b, i, s, hR, hs, hst, hd, hsane, hv, hok, he => by
    have hRe := at_elem_array hR
    have hok0 := hok
    simp only [okElems, Bool.and_eq_true] at hok
    obtain ⟨⟨⟨hn, huser⟩, hokj⟩, hokl⟩ := hok
    simp only [elemEvents] at he
    rcases cut he with ⟨b', hb', h2⟩ | ⟨a', h1, h2⟩
    · -- inside the element
      have hlen : (t :: a).length < (events j).length := by rw [h2]; simp; exact List.length_pos_iff.2 hb'
      simp only [timedElems]
      rw [due_val_only (timedElems_span l e p _) (by omega)]
      have composite : (t = .arrStart ∨ t = .mapStart) → TracesR E (dueBefore (i + (t :: a).length) (timed e (.elem :: p) i j)) s.log (run E R (t :: a) s) := by
        intro ht
        have hq : Quiet p s.heap (s.heap.upd p fun c => { c with empty := false }) := by
          apply Quiet.upd; exact fun _ => ⟨rfl, rfl, rfl⟩
        have start : run E R (t :: a) s = run E R (t :: a)
            { s with heap := setDispH (.elem :: p) e (s.heap.upd p fun c => { c with empty := false }),
                     stack := (.elem :: p) :: s.stack } := by
          rcases ht with rfl | rfl
          · rw [run_dispatch hR hs]
            refine Eq.trans ?_ (run_dispatch hRe rfl).symm
            simp only [onF, bind_assoc, bind_getC, hst, hd, Bool.not_true, Bool.false_eq_true, if_false,
              setNotEmpty_def, bind_modC, bind_modH, bind_push, if_true]
          · rw [run_dispatch hR hs]
            refine Eq.trans ?_ (run_dispatch hRe rfl).symm
            simp only [onF, bind_assoc, bind_getC, hst, hd, Bool.not_true, Bool.false_eq_true, if_false,
              setNotEmpty_def, bind_modC, bind_modH, bind_push, if_true]
        rw [start]
        by_cases hev : ∃ ty, e = .value ty
        · obtain ⟨ty, rfl⟩ := hev
          refine (congrArg (TracesR E _ s.log) (run_dispatch hRe rfl)).mpr ?_
          rcases ht with rfl | rfl
          · simp only [onF, bind_unexpected]; exact TracesR.unexp (s := { heap := setDispH (.elem :: p) (.value ty) (s.heap.upd p fun c => { c with empty := false }), stack := (.elem :: p) :: s.stack, log := s.log })
          · simp only [onF, bind_unexpected]; exact TracesR.unexp (s := { heap := setDispH (.elem :: p) (.value ty) (s.heap.upd p fun c => { c with empty := false }), stack := (.elem :: p) :: s.stack, log := s.log })
        · have hk : Keep R p s.heap (setDispH (.elem :: p) e (s.heap.upd p fun c => { c with empty := false })) :=
            hq.keep.trans (Keep.setDisp hR fun ty h => hev ⟨ty, h⟩)
          have hsane1 := hsane.keep hk
          have hde : (setDispH (.elem :: p) e (s.heap.upd p fun c => { c with empty := false }) (.elem :: p)).disp = true :=
            setDispH_self _ _ _
          refine cut_val j e (.elem :: p) (p :: stk) (t :: a) b' i
            { s with heap := setDispH (.elem :: p) e (s.heap.upd p fun c => { c with empty := false }),
                     stack := (.elem :: p) :: s.stack } hRe (by simp [hs]) hde hsane1 ?_ hokj h2 hb'
          rintro rfl; simp [Shape.isUser] at huser
      cases j with
      | null =>
        simp only [events, List.cons_append, List.cons.injEq] at h2
        exact absurd (List.append_eq_nil_iff.1 h2.2.symm).2 hb'
      | sc x =>
        simp only [events, List.cons_append, List.cons.injEq] at h2
        exact absurd (List.append_eq_nil_iff.1 h2.2.symm).2 hb'
      | arr l' =>
        simp only [events, List.cons_append, List.cons.injEq] at h2
        exact composite (.inl h2.1.symm)
      | obj l' =>
        simp only [events, List.cons_append, List.cons.injEq] at h2
        exact composite (.inr h2.1.symm)
    · -- the element is complete
      rw [h1]
      have hw := sim_elems (E := E) [j] st e p stk a' s hR hs hst hd hsane hv (by
        simp only [okElems, Bool.and_eq_true]; exact ⟨⟨⟨hn, huser⟩, hokj⟩, trivial⟩)
      simp only [elemEvents, List.append_nil] at hw
      rw [hw]
      simp only [timedElems]
      rw [due_val (by simp)]
      have htr := evalElems_traces (E := E) (R := R) [j] st e p s hR
      simp only [endsElems, List.append_nil] at htr
      refine TracesR.bind htr fun _ s2 h3 => ?_
      have hlen : i + (events j ++ a').length = i + (events j).length + a'.length := by simp; omega
      rw [hlen]
      have hk := evalElems_keep (E := E) (R := R) [j] st e p hR s _ s2 h3
      refine cut_elems l st e p stk a' b _ s2 hR ?_ ?_ ?_ ?_ ?_ hokl h2
      · rw [hk.1, hs]
      · exact evalElems_started hR h3 hst
      · exact hk.2.mono p hd
      · exact hsane.keep hk.2
      · rintro ty rfl; rw [hk.2.velem p st ty hR]; exact hv ty rfl
end


/-! ### The positions do not decrease -/

abbrev InOrder (l : List (Nat × End)) : Prop := l.Pairwise fun x y => x.1 ≤ y.1

theorem InOrder.append {a b c d : Nat} {l l'} (h : InOrder l) (h' : InOrder l') (hs : Span a b l) (hs' : Span c d l') (hb : b ≤ c + 1) : InOrder (l ++ l') :=
  List.pairwise_append.2 ⟨h, h', fun x hx y hy => by have := (hs x hx).2; have := (hs' y hy).1; omega⟩

theorem InOrder.one (x : Nat × End) : InOrder [x] := List.pairwise_singleton _ _
theorem InOrder.cons_of {n b e l} (h : InOrder l) (hs : Span n b l) : InOrder ((n, e) :: l) :=
  List.pairwise_cons.2 ⟨fun y hy => (hs y hy).1, h⟩

mutual
theorem timed_sorted : ∀ (j : Json) (sh : Shape) (p : Path) (i : Nat), InOrder (timed sh p i j)
  | .null, sh, p, i => by unfold timed; exact List.Pairwise.nil
  | .sc x, sh, p, i => by
    unfold timed
    cases sh <;> first | exact List.Pairwise.nil | exact InOrder.one _
  | .arr l, sh, p, i => by
    unfold timed
    cases sh <;> try exact List.Pairwise.nil
    exact (timedElems_sorted l _ p (i + 1)).append (InOrder.one _) (timedElems_span l _ p (i + 1)) (Span.one (Nat.le_refl _) (Nat.lt_succ_self _)) (by omega)
  | .obj fs, sh, p, i => by unfold timed; exact timedFields_sorted fs sh p (i + 1) false
theorem timedFields_sorted : ∀ (fs : List (String × Json)) (sh : Shape) (p : Path) (i : Nat) (ne : Bool), InOrder (timedFields sh p i ne fs)
  | [], sh, p, i, ne => by
    unfold timedFields
    cases sh <;> first | exact List.Pairwise.nil | exact InOrder.one _ | skip
    cases ne
    · exact List.Pairwise.nil
    · exact InOrder.one _
  | (k, v) :: fs, sh, p, i, ne => by
    unfold timedFields
    cases sh with
    | object kd u ms =>
      dsimp only
      cases lookup (.str k) 0 ms with
      | none => exact timedFields_sorted fs _ p _ true
      | some nm =>
        obtain ⟨n, m⟩ := nm
        dsimp only
        cases hem : embedded m v with
        | none => exact (timed_sorted v m _ _).append (timedFields_sorted fs _ p _ true) (timed_span _ _ _ _) (timedFields_span _ _ _ _ _) (by omega)
        | some q =>
          obtain ⟨ty, st, ms', x⟩ := q
          dsimp only
          cases lookup x 0 ms' with
          | none => exact List.Pairwise.nil
          | some a =>
            obtain ⟨a, alt⟩ := a
            dsimp only
            have h1 : Span (i + 2 + (fieldEvents fs).length) (i + 2 + (fieldEvents fs).length + 1) [(i + 2 + (fieldEvents fs).length, End.finish p)] := Span.one (Nat.le_refl _) (Nat.lt_succ_self _)
            exact (timedFields_sorted fs alt _ _ false).append (InOrder.cons_of (InOrder.one _) h1) (timedFields_span fs alt _ _ false) (Span.cons (Nat.le_refl _) (Nat.lt_succ_self _) h1) (by omega)
    | union ty tm st ms =>
      dsimp only
      cases v with
      | sc x =>
        dsimp only
        cases lookup x 0 ms with
        | none => exact List.Pairwise.nil
        | some a =>
          obtain ⟨a, alt⟩ := a
          exact (timedFields_sorted fs alt _ _ false).append (InOrder.one _) (timedFields_span fs alt _ _ false) (Span.one (Nat.le_refl _) (Nat.lt_succ_self _)) (by omega)
      | _ => exact List.Pairwise.nil
    | map st e =>
      dsimp only
      cases hem : embedded e v with
      | none =>
        have h1 : Span (i + (events v).length) (i + 1 + (events v).length + (fieldEvents fs).length + 1) (timedFields (.map st e) p (i + 1 + (events v).length) true fs) :=
          (timedFields_span fs _ p _ true).mono (by omega) (by omega)
        exact (timed_sorted v e _ _).append (InOrder.cons_of (timedFields_sorted fs _ p _ true) h1) (timed_span _ _ _ _) (Span.cons (Nat.le_refl _) (by omega) h1) (by omega)
      | some q =>
        obtain ⟨ty, st', ms', x⟩ := q
        dsimp only
        cases lookup x 0 ms' with
        | none => exact List.Pairwise.nil
        | some a =>
          obtain ⟨a, alt⟩ := a
          dsimp only
          have h1 : Span (i + 2 + (fieldEvents fs).length) (i + 2 + (fieldEvents fs).length + 1) [(i + 2 + (fieldEvents fs).length, End.finish p)] := Span.one (Nat.le_refl _) (Nat.lt_succ_self _)
          have h2 : Span (i + 2 + (fieldEvents fs).length) (i + 2 + (fieldEvents fs).length + 1) [(i + 2 + (fieldEvents fs).length, End.element p k), (i + 2 + (fieldEvents fs).length, End.finish p)] :=
            Span.cons (Nat.le_refl _) (Nat.lt_succ_self _) h1
          exact (timedFields_sorted fs alt _ _ false).append (InOrder.cons_of (InOrder.cons_of (InOrder.one _) h1) h2) (timedFields_span fs alt _ _ false)
            (Span.cons (Nat.le_refl _) (Nat.lt_succ_self _) h2) (by omega)
    | _ => exact List.Pairwise.nil
theorem timedElems_sorted : ∀ (l : List Json) (e : Shape) (p : Path) (i : Nat), InOrder (timedElems e p i l)
  | [], e, p, i => by unfold timedElems; exact List.Pairwise.nil
  | j :: l, e, p, i => by
    unfold timedElems
    exact (timed_sorted j e _ i).append (timedElems_sorted l e p _) (timed_span _ _ _ _) (timedElems_span _ _ _ _) (by omega)
end

theorem dueBefore_succ (n : Nat) : ∀ {l : List (Nat × End)}, InOrder l → dueBefore (n + 1) l = dueBefore n l ++ dueAt n l
  | [], _ => rfl
  | (i, e) :: l, h => by
    obtain ⟨h1, h2⟩ := List.pairwise_cons.1 h
    have ih := dueBefore_succ n h2
    rcases Nat.lt_trichotomy i n with hi | hi | hi
    · rw [dueBefore_cons_lt (by omega), dueBefore_cons_lt hi, ih]
      simp [dueAt, List.filter, Nat.ne_of_lt hi]
    · subst hi
      have h0 : dueBefore i l = [] := by
        simp only [dueBefore, List.map_eq_nil_iff, List.filter_eq_nil_iff]
        intro x hx
        have := h1 x hx
        simpa using this
      rw [dueBefore_cons_lt (by omega), ih, h0]
      have : dueBefore i ((i, e) :: l) = dueBefore i l := by simp [dueBefore]
      rw [this, h0]; simp [dueAt, List.filter]
    · have ha : ∀ x ∈ (i, e) :: l, n < x.1 := by
        intro x hx
        rcases List.mem_cons.1 hx with rfl | hx
        · exact hi
        · exact Nat.lt_of_lt_of_le hi (h1 x hx)
      have e1 : dueBefore (n + 1) ((i, e) :: l) = [] := by
        simp only [dueBefore, List.map_eq_nil_iff, List.filter_eq_nil_iff]
        intro x hx; have := ha x hx; simp; omega
      have e2 : dueBefore n ((i, e) :: l) = [] := by
        simp only [dueBefore, List.map_eq_nil_iff, List.filter_eq_nil_iff]
        intro x hx; have := ha x hx; simp; omega
      have e3 : dueAt n ((i, e) :: l) = [] := by
        simp only [dueAt, List.map_eq_nil_iff, List.filter_eq_nil_iff]
        intro x hx; have := ha x hx; simp; omega
      rw [e1, e2, e3]; rfl

end SJ
