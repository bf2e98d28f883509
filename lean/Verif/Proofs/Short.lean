/-
The data invariant of `Tidy` when memory runs out in the middle of a token, and its consequences for any use of a parser.
-/
import Verif.Proofs.TidyStep
import Verif.Proofs.Fit

set_option linter.unusedVariables false

namespace SJ

variable {F : Faults} {E : Env} {R : Shape}

namespace MA

/-- If an allocation fails, the state is then in `Q`. -/
def Oom {α} (Q : St → Prop) (mA : MA α) (s : St) : Prop := ∀ n e s', mA n s = .fault e s' → Q s'

variable {Q : St → Prop}

theorem Oom.mono {α} {Q' : St → Prop} {mA : MA α} {s : St} (h : Oom Q mA s) (hq : ∀ s', Q s' → Q' s') : Oom Q' mA s := fun n e s' h' => hq _ (h n e s' h')
theorem Oom.pure {α} (a : α) (s) : Oom Q (pure a) s := fun n e s' h => by simp [MA.pure] at h
theorem Oom.ub {α} (s) : Oom (α := α) Q (fun _ _ => .ub) s := fun n e s' h => by simp at h
theorem Oom.fuel {α} (s) : Oom (α := α) Q (fun _ _ => .fuel) s := fun n e s' h => by simp at h

theorem Oom.lift {α} {m : M α} {s : St} (h : ∀ e s', m s = .throw e s' → Q s') : Oom Q (lift F m) s := fun n e s' h' => by
  simp only [MA.lift] at h'
  cases hm : m s with
  | throw e1 s1 =>
    rw [hm] at h'
    cases F with
    | user x U => simp at h'
    | memory =>
      cases n with
      | zero => simp only at h'; injection h' with _ h'; rw [← h']; exact h _ _ hm
      | succ n => simp at h'
  | _ => rw [hm] at h'; simp at h'

theorem Oom.fine {α} {P : St → Prop} {X : Exn → St → Prop} {U : Prop} {m : M α} {s : St} (h : Fine P X U (m s)) (hx : ∀ e s', X e s' → Q s') : Oom Q (MA.lift F m) s :=
  Oom.lift fun e s' h' => hx e s' (by rw [h'] at h; exact h)

theorem Oom.thr {α} {msg} {s : St} (h : Q s) : Oom (α := α) Q (MA.lift F (throwStd msg)) s := Oom.lift fun e s' h' => by
  simp only [throwStd] at h'; injection h' with _ h'; rw [← h']; exact h
theorem Oom.unexpected {α} {t} {s : St} (h : Q s) : Oom (α := α) Q (MA.lift F (SJ.unexpected t)) s := Oom.thr h

theorem Oom.bind {α β} {mA : MA α} {m : M α} {fA : α → MA β} {s : St} (hc : Costs mA m) (h : Oom Q mA s) (hf : ∀ a s', m s = .ok a s' → Oom Q (fA a) s') :
    Oom Q (bind mA fA) s := by
  intro n e s' h'
  simp only [MA.bind] at h'
  obtain ⟨_, N, hN⟩ := hc s
  cases hr : mA n s with
  | fault e1 s1 => rw [hr] at h'; simp only at h'; injection h' with _ h'; rw [← h']; exact h _ _ _ hr
  | ok a k s1 =>
    rw [hr] at h'
    rcases Nat.lt_or_ge n N with hlt | hge
    · obtain ⟨e2, s2, h2, _⟩ := (hN n).1 hlt
      rw [h2] at hr; simp at hr
    · have h2 := (hN n).2 hge
      rw [h2] at hr
      cases hm : m s with
      | ok b s2 =>
        rw [hm] at hr
        simp only [Res.left] at hr
        injection hr with h3 h4 h5
        subst h3; subst h5
        exact hf _ _ hm _ _ _ h'
      | throw e2 s2 => rw [hm] at hr; simp [Res.left] at hr
      | ub => rw [hm] at hr; simp [Res.left] at hr
      | fuel => rw [hm] at hr; simp [Res.left] at hr
  | throw e1 k s1 => rw [hr] at h'; simp at h'
  | ub => rw [hr] at h'; simp at h'
  | fuel => rw [hr] at h'; simp at h'

theorem Oom.bindL {α β} {m : M α} {fA : α → MA β} {s : St} (hm : Adds m) (h : ∀ e s', m s = .throw e s' → Q s') (hf : ∀ a s', m s = .ok a s' → Oom Q (fA a) s') :
    Oom Q (MA.bind (MA.lift F m) fA) s := Oom.bind (Costs.lift m hm) (Oom.lift h) hf

theorem Oom.getC {β} {p : Path} {f : Cell → MA β} {s : St} (h : Oom Q (f (s.heap p)) s) : Oom Q (MA.bind (MA.lift F (SJ.getC p)) f) s := h
theorem Oom.modC {β} {p : Path} {g : Cell → Cell} {f : Unit → MA β} {s : St} (h : Oom Q (f ()) { s with heap := s.heap.upd p g }) :
    Oom Q (MA.bind (MA.lift F (SJ.modC p g)) f) s := h
theorem Oom.modH {β} {g : Heap → Heap} {f : Unit → MA β} {s : St} (h : Oom Q (f ()) { s with heap := g s.heap }) :
    Oom Q (MA.bind (MA.lift F (SJ.modH g)) f) s := h
theorem Oom.notEmpty {β} {p : Path} {f : Unit → MA β} {s : St} (h : Oom Q (f ()) { s with heap := s.heap.upd p fun c => { c with empty := false } }) :
    Oom Q (MA.bind (MA.lift F (setNotEmpty p)) f) s := h
theorem Oom.lastC {p : Path} {g : Cell → Cell} (s : St) : Oom Q (MA.lift F (SJ.modC p g)) s := Oom.lift fun e s' h => by simp [SJ.modC] at h
theorem Oom.lastH {g : Heap → Heap} (s : St) : Oom Q (MA.lift F (SJ.modH g)) s := Oom.lift fun e s' h => by simp [SJ.modH] at h
theorem Oom.may {β} {x : Exn} {f : Unit → MA β} {s : St} (h : Q s) (hf : Oom Q (f ()) s) : Oom Q (MA.bind (may x) f) s := by
  intro n e s' h'
  cases n with
  | zero => simp only [MA.bind, MA.may] at h'; injection h' with _ h'; rw [← h']; exact h
  | succ n => exact hf n e s' h'
theorem Oom.alloc {β} {f : Unit → MA β} {s : St} (h : Q s) (hf : Oom Q (f ()) s) : Oom Q (MA.bind (alloc F) f) s := by
  cases F with
  | memory => exact Oom.may h hf
  | user x U => exact hf
theorem Oom.move {β} {f : Unit → MA β} {s : St} (h : Q s) (hf : Oom Q (f ()) s) : Oom Q (MA.bind (move F) f) s := by
  cases F with
  | memory => exact hf
  | user x U => exact Oom.may h hf
theorem Oom.store {β} {f : Unit → MA β} {s : St} (h : Q s) (hf : Oom Q (f ()) s) : Oom Q (MA.bind (store F) f) s := by
  cases F <;> exact Oom.may h hf
theorem Oom.push {β} {p : Path} {f : Unit → MA β} {s : St} (h : Q s) (hf : Oom Q (f ()) { s with stack := p :: s.stack }) : Oom Q (MA.bind (pushParser F p) f) s := by
  intro n e s' h'
  cases F with
  | memory =>
    cases n with
    | zero => simp only [MA.bind, MA.pushParser, MA.alloc, MA.may] at h'; injection h' with _ h'; rw [← h']; exact h
    | succ n => exact hf n e s' h'
  | user x U => exact hf n e s' h'
theorem Oom.reset {β} {p : Path} {sh : Shape} {f : Unit → MA β} {s : St} (h : ∀ U, Q { s with heap := resetPart U s.heap (resetH p sh s.heap) })
    (hf : Oom Q (f ()) { s with heap := resetH p sh s.heap }) : Oom Q (MA.bind (MA.reset F p sh) f) s := by
  intro n e s' h'
  cases F with
  | memory => exact hf n e s' h'
  | user x U =>
    cases n with
    | zero => simp only [MA.bind, MA.reset] at h'; injection h' with _ h'; rw [← h']; exact h U
    | succ n => exact hf n e s' h'
theorem Oom.lastReset {p : Path} {sh : Shape} {s : St} (h : ∀ U, Q { s with heap := resetPart U s.heap (resetH p sh s.heap) }) : Oom Q (MA.reset F p sh) s := by
  intro n e s' h'
  cases F with
  | memory => exact Oom.lastH (F := .memory) s n e s' h'
  | user x U =>
    cases n with
    | zero => simp only [MA.reset] at h'; injection h' with _ h'; rw [← h']; exact h U
    | succ n => simp [MA.reset] at h'

/-- A parser after an interrupted `reset()`: as before, or reset, or reset but for its value. -/
theorem resetPart_cell {U : Path → Option Bool} {h h' : Heap} (a : Rst R h h') (q : Path) : resetPart U h h' q = h q ∨ ∃ sh, R.at q = some sh ∧
    (resetPart U h h' q = resetCell sh (h q) ∨ resetPart U h h' q = { resetCell sh (h q) with val := (h q).val }) := by
  unfold resetPart
  rcases U q with _ | _ | _
  · exact Or.inl rfl
  · rcases a q with hq | ⟨sh, hR, hq⟩
    · left; simp only [hq]
    · right; exact ⟨sh, hR, Or.inr (by simp only [hq])⟩
  · rcases a q with hq | ⟨sh, hR, hq⟩
    · exact Or.inl hq
    · exact Or.inr ⟨sh, hR, Or.inl hq⟩

theorem resetCell_set (sh : Shape) (c : Cell) : (resetCell sh c).set = false ∧ (resetCell sh c).started = c.started := by
  cases sh with
  | object k u ms => cases k <;> exact ⟨rfl, rfl⟩
  | union ty tm st ms => cases st <;> exact ⟨rfl, rfl⟩
  | array st e => cases st <;> exact ⟨rfl, rfl⟩
  | map st e => cases st <;> exact ⟨rfl, rfl⟩
  | _ => exact ⟨rfl, rfl⟩

theorem resetPart_inv {U : Path → Option Bool} {s : St} (hi : Inv R s) {h' : Heap} (a : Rst R s.heap h') : Inv R { s with heap := resetPart U s.heap h' } := by
  refine ⟨fun q sh hR => ?_, hi.log⟩
  rcases resetPart_cell (U := U) a q with hq | ⟨sh', hR', hq | hq⟩
  · simp only; rw [hq]; exact hi.cells q sh hR
  · rw [hR] at hR'; injection hR' with hR'; subst hR'
    simp only; rw [hq]; exact resetCell_good (hi.cells q _ hR)
  · rw [hR] at hR'; injection hR' with hR'; subst hR'
    simp only; rw [hq]
    have hs := resetCell_set sh (s.heap q)
    refine ⟨fun _ h => ?_, fun _ _ _ _ _ h => ?_, fun st e he hst => ⟨hs.1, fun h => ?_⟩⟩
    · simp only at h; rw [hs.1] at h; cases h
    · simp only at h; rw [hs.1] at h; cases h
    · exact ((hi.cells q _ hR).run st e he (by simp only at hst; rw [hs.2] at hst; exact hst)).2 h

theorem _root_.SJ.Place.interrupted {ex L0 p q rest sh} {s : St} (h : Place R ex L0 p q rest s) (hR : R.at p = some sh) (U : Path → Option Bool) :
    Left R ex L0 { s with heap := resetPart U s.heap (resetH p sh s.heap) } := by
  have hr := resetH_rst (R := R) sh p s.heap hR
  refine ⟨resetPart_inv h.inv hr, fun r hr' shr hRr hc hex => ?_⟩
  rcases h.left.2 r hr' shr hRr hc hex with h1 | h1
  · left
    rcases resetPart_cell (U := U) hr r with hq | ⟨sh', _, hq | hq⟩
    · simp only; rw [hq]; exact h1
    · simp only; rw [hq]; exact (resetCell_set _ _).1
    · simp only; rw [hq]; exact (resetCell_set _ _).1
  · exact Or.inr h1

/-! ### The end of a parser -/

theorem setValues_oom {p : Path} : ∀ (ms : List (MInfo × Shape)) (n : Nat) (s : St), (∀ (m : Nat) i sh, ms[m]? = some (i, sh) → Sound sh (s.heap (.mem (n + m) :: p)) ∧
    sh.isStorage = true ∧ ∀ v, i.dflt = some v → Proper sh v) → Oom (PopM p s) (setValues F p n ms) s
  | [], n, s, hm => Oom.pure _ _
  | (i, sh) :: ms, n, s, hm => by
    rw [setValues]
    have hm' : ∀ (m : Nat) i' sh', ms[m]? = some (i', sh') → Sound sh' (s.heap (.mem (n + 1 + m) :: p)) ∧ sh'.isStorage = true ∧ ∀ v, i'.dflt = some v → Proper sh' v := by
      intro m i' sh' h'
      have := hm (m + 1) i' sh' (by simpa using h')
      rwa [show n + (m + 1) = n + 1 + m by omega] at this
    refine Oom.bind (setValues_costs p ms (n + 1)) (setValues_oom ms (n + 1) s hm') fun vs s1 h1 => Oom.getC ?_
    have hp := setValues_proper (p := p) ms (n + 1) s hm'
    rw [h1] at hp
    split
    · refine Oom.bindL (Adds.popVal _) (fun e s2 h2 => ?_) fun v s2 h2 => Oom.move ?_ (Oom.pure _ _)
      · rw [popVal_throw h2]; exact hp.1
      · exact hp.1.trans (PopM.pop h2)
    · split
      · cases i.dflt with
        | none => exact Oom.thr hp.1
        | some d => exact Oom.store hp.1 (Oom.pure _ _)
      · exact Oom.thr hp.1

theorem currentMemberId_same {p n} {s s' : St} (h : currentMemberId p s = .ok n s') : s' = s := by
  unfold currentMemberId at h
  split at h
  · injection h with _ h; exact h.symm
  · simp at h

theorem currentMemberId_throw {p e} {s s' : St} (h : currentMemberId p s = .throw e s') : s' = s := by
  unfold currentMemberId at h
  split at h
  · simp at h
  · injection h with _ h; exact h.symm

theorem setAlt_oom {p : Path} (all : List (MInfo × Shape)) : ∀ (ms : List (MInfo × Shape)) (n : Nat) (s : St),
    (∀ (m : Nat) i sh, ms[m]? = some (i, sh) → all[n + m]? = some (i, sh)) →
    (∀ (m : Nat) i sh, all[m]? = some (i, sh) → Sound sh (s.heap (.mem m :: p)) ∧ sh.isStorage = true ∧ ∀ v, i.dflt = some v → Proper sh v) →
    Oom (PopM p s) (setAlt F p n ms) s
  | [], n, s, hsub, hm => Oom.pure _ _
  | (i, sh) :: ms, n, s, hsub, hm => by
    rw [setAlt]
    have hsub' : ∀ (m : Nat) i' sh', ms[m]? = some (i', sh') → all[n + 1 + m]? = some (i', sh') := by
      intro m i' sh' h'
      have := hsub (m + 1) i' sh' (by simpa using h')
      rwa [show n + (m + 1) = n + 1 + m by omega] at this
    refine Oom.bind (setAlt_costs p ms (n + 1)) (setAlt_oom all ms (n + 1) s hsub' hm) fun vs s1 h1 => ?_
    have hp := setAlt_proper (p := p) all ms (n + 1) s hsub' hm
    rw [h1] at hp
    refine Oom.bindL (Adds.currentMemberId p) (fun e s2 h2 => ?_) fun id s2 h2 => ?_
    · rw [currentMemberId_throw h2]; exact hp.1
    · obtain rfl := currentMemberId_same h2
      split
      · exact Oom.pure _ _
      · refine Oom.getC ?_
        split
        · refine Oom.bindL (Adds.popVal _) (fun e s3 h3 => ?_) fun v s3 h3 => Oom.move ?_ (Oom.pure _ _)
          · rw [popVal_throw h3]; exact hp.1
          · exact hp.1.trans (PopM.pop h3)
        · split
          · cases i.dflt with
            | none => exact Oom.thr hp.1
            | some d => exact Oom.store hp.1 (Oom.pure _ _)
          · exact Oom.thr hp.1

/-- The exception of a lifted method in an `unsetOnThrow`. -/
theorem Oom.unsets {α} {p : Path} {m : M α} {s : St} (h : ∀ e s', SJ.unsetOnThrow p m s = .throw e s' → Q s') : Oom Q (unsetOnThrow p (MA.lift F m)) s := by
  intro n e s' h'
  simp only [unsetOnThrow, MA.lift] at h'
  cases hm : m s with
  | throw e1 s1 =>
    rw [hm] at h'
    cases F with
    | user x U => simp at h'
    | memory =>
      cases n with
      | zero => simp only at h'; injection h' with _ h'; rw [← h']; exact h e1 _ (by simp only [SJ.unsetOnThrow, hm])
      | succ n => simp at h'
  | _ => rw [hm] at h'; simp at h'

theorem Oom.wrap {α} {p : Path} {mA : MA α} {m : M α} {s : St} {Q' : St → Prop} (hc : Costs mA m) (h : Oom Q' mA s) (ht : ∀ e s', m s = .throw e s' → Q' s')
    (hq : ∀ s', Q' s' → Q { s' with heap := s'.heap.upd p fun c => { c with set := false } }) : Oom Q (wrapOnThrow F p mA) s := by
  intro n e s' h'
  simp only [wrapOnThrow] at h'
  obtain ⟨_, N, hN⟩ := hc s
  cases hr : mA n s with
  | fault e1 s1 => rw [hr] at h'; simp only at h'; injection h' with _ h'; rw [← h']; exact hq _ (h _ _ _ hr)
  | throw e1 k s1 =>
    rw [hr] at h'
    cases F with
    | user x U => simp at h'
    | memory =>
    cases k with
    | succ k => simp at h'
    | zero =>
      simp only at h'; injection h' with _ h'; rw [← h']
      rcases Nat.lt_or_ge n N with hlt | hge
      · obtain ⟨e2, s2, h2, _⟩ := (hN n).1 hlt
        rw [h2] at hr; simp at hr
      · have h2 := (hN n).2 hge
        rw [h2] at hr
        cases hm : m s with
        | throw e2 s2 =>
          rw [hm] at hr
          simp only [Res.left] at hr
          injection hr with h3 h4 h5
          subst h3; subst h5
          exact hq _ (ht _ _ hm)
        | ok b s2 => rw [hm] at hr; simp [Res.left] at hr
        | ub => rw [hm] at hr; simp [Res.left] at hr
        | fuel => rw [hm] at hr; simp [Res.left] at hr
  | ok a k s1 => rw [hr] at h'; simp at h'
  | ub => rw [hr] at h'; simp at h'
  | fuel => rw [hr] at h'; simp at h'

theorem bind_thrown {α β} {m : M α} {f : α → M β} {s s' : St} {e} (h : m s = .throw e s') : M.bind m f s = .throw e s' := by simp only [M.bind, h]
theorem bind_went {α β} {m : M α} {f : α → M β} {s s' : St} {a r} (h : m s = .ok a s') (h' : f a s' = r) : M.bind m f s = r := by simp only [M.bind, h, h']

/-- As an exception of `complete`. -/
def FinLeft (R : Shape) (p : Path) (s s' : St) : Prop := Inv R s' ∧ Pops p s s' ∧ ((s'.heap p).set = false ∨ ∃ a, s'.log = .finish p a :: s.log)

theorem finish_oom (hN : Neat E R) {p sh} {s : St} (hi : Inv R s) (hR : R.at p = some sh) (hf : FinOK sh (s.heap p)) :
    Oom (FinLeft R p s) (finish F E sh p) { s with heap := s.heap.upd p fun c => { c with set := true } } := by
  have hdone := complete_done (E := E) hN hi hR hf
  have q0 := PopQ.upd p s fun c => { c with set := true }
  have hthrow : ∀ e s', SJ.finish E sh p { s with heap := s.heap.upd p fun c => { c with set := true } } = .throw e s' → FinLeft R p s s' := by
    intro e s' h'
    have : complete E sh p s = .throw e s' := by unfold complete; rw [bind_modC]; exact h'
    rw [this] at hdone
    exact hdone
  clear hdone
  generalize hs0 : ({ s with heap := s.heap.upd p fun c => { c with set := true } } : St) = s0 at q0 hthrow ⊢
  have others : ∀ q shq, q ≠ p → R.at q = some shq → Sound shq (s0.heap q) := fun q shq hq hRq => (q0.cells q hq).good (hi.cells q shq hRq)
  have unsetLeft : (∀ st e, sh ≠ .array st e) → ∀ s1, PopQ p s s1 → FinLeft R p s { s1 with heap := s1.heap.upd p fun c => { c with set := false } } := by
    intro ha s1 h1
    refine ⟨(h1.trans (PopQ.upd p s1 _)).inv hi fun sh' hR' => ?_, (h1.trans (PopQ.upd p s1 _)).pops, Or.inl (by simp)⟩
    rw [hR] at hR'; injection hR' with hR'; subst hR'
    simp only [upd_same]
    exact Sound.unset rfl ha
  cases sh with
  | value ty => exact Oom.lift hthrow
  | ignore => exact Oom.pure _ _
  | array st e => cases st <;> exact Oom.lift hthrow
  | map st e => exact Oom.lift hthrow
  | object k u ms =>
    by_cases hk : k = .auto
    · subst hk
      rw [finish]
      refine Oom.getC ?_
      have hth : (s0.heap p).empty = false → ∀ e s', (M.bind (SJ.wrapOnThrow p (SJ.setValues p 0 ms)) fun vs => M.bind (SJ.modC p fun c => { c with val := .tup vs }) fun _ => SJ.finishCbVal E p) s0 = .throw e s' →
          FinLeft R p s s' := by
        intro he e s' h'
        refine hthrow e s' ?_
        rw [SJ.finish, SJ.unlessEmpty, bind_getC, if_neg (by rw [he]; simp)]
        exact h'
      by_cases he : (s0.heap p).empty = true
      · rw [if_pos he]; exact Oom.lastC _
      · rw [if_neg he]
        have he : (s0.heap p).empty = false := by simpa using he
        have hmem : ∀ (m : Nat) i sh, ms[m]? = some (i, sh) → Sound sh (s0.heap (.mem (0 + m) :: p)) ∧ sh.isStorage = true ∧ ∀ v, i.dflt = some v → Proper sh v :=
          fun m i sh hm => ⟨others _ _ (cons_ne _ _).symm (by rw [Nat.zero_add]; exact at_mem_object hR hm), (hN.object hR hm).1 rfl, (hN.object hR hm).2⟩
        refine Oom.bind (setValues_costs p ms 0).wrap ?_ fun vs s1 h1 => Oom.modC (Oom.lift fun e s2 h2 => ?_)
        · refine Oom.wrap (setValues_costs p ms 0) (setValues_oom ms 0 s0 hmem) (fun e s1 h1 => ?_) fun s1 h1 => unsetLeft (by simp) s1 (q0.trans h1.q)
          have := setValues_proper (p := p) ms 0 s0 hmem
          rw [h1] at this; exact this
        · refine hth he e s2 ?_
          simp only [M.bind, h1, SJ.modC]
          exact h2
    · have hfin : finish F E (.object k u ms) p = unlessEmpty F p (MA.bind (unsetOnThrow p (MA.lift F fun s => match checkMembers s.heap p 0 ms with | some e => .throw (.std e) s | none => .ok () s)) fun _ =>
          MA.lift F (finishCbParser E (.object k u ms) (k == .custom) p)) := by cases k <;> first | rfl | exact absurd rfl hk
      have hfin' : SJ.finish E (.object k u ms) p = SJ.unlessEmpty p (M.bind (SJ.unsetOnThrow p (fun s => match checkMembers s.heap p 0 ms with | some e => .throw (.std e) s | none => .ok () s)) fun _ =>
          finishCbParser E (.object k u ms) (k == .custom) p) := by cases k <;> first | rfl | exact absurd rfl hk
      rw [hfin]
      rw [hfin', SJ.unlessEmpty] at hthrow
      refine Oom.getC ?_
      rw [bind_getC] at hthrow
      split
      · exact Oom.lastC _
      · next he =>
        rw [if_neg he] at hthrow
        refine Oom.bind (Costs.lift _ (Adds.checkMembers p ms)).unsets (Oom.unsets fun e s' h' => ?_) fun _ s1 h1 => Oom.lift fun e s' h' => ?_
        · exact hthrow e s' (bind_thrown h')
        · exact hthrow e s' (bind_went h1 h')
  | union ty tm st ms =>
    cases st with
    | false =>
      rw [SJ.finish, SJ.unlessEmpty] at hthrow
      rw [finish]
      refine Oom.getC ?_
      rw [bind_getC] at hthrow
      split
      · exact Oom.lastC _
      · next he =>
        rw [if_neg he] at hthrow
        refine Oom.bind (Costs.lift _ (Adds.checkAlt p ms 0)).unsets (Oom.unsets fun e s' h' => ?_) fun _ s1 h1 => Oom.lift fun e s' h' => ?_
        · exact hthrow e s' (bind_thrown h')
        · exact hthrow e s' (bind_went h1 h')
    | true =>
      rw [SJ.finish, SJ.unlessEmpty] at hthrow
      rw [finish]
      refine Oom.getC ?_
      rw [bind_getC] at hthrow
      split
      · exact Oom.lastC _
      · next he =>
        rw [if_neg he] at hthrow
        have hsub : ∀ (m : Nat) i sh, ms[m]? = some (i, sh) → ms[0 + m]? = some (i, sh) := fun m i sh h => by rw [Nat.zero_add]; exact h
        have hmem : ∀ (m : Nat) i sh, ms[m]? = some (i, sh) → Sound sh (s0.heap (.mem m :: p)) ∧ sh.isStorage = true ∧ ∀ v, i.dflt = some v → Proper sh v :=
          fun m i sh hm => ⟨others _ _ (cons_ne _ _).symm (at_mem_union hR hm), (hN.union hR hm).1 rfl, (hN.union hR hm).2⟩
        refine Oom.bind (setAlt_costs p ms 0).wrap ?_ fun r s1 h1 => ?_
        · refine Oom.wrap (setAlt_costs p ms 0) (setAlt_oom ms ms 0 s0 hsub hmem) (fun e s1 h1 => ?_) fun s1 h1 => unsetLeft (by simp) s1 (q0.trans h1.q)
          have := setAlt_proper (p := p) ms ms 0 s0 hsub hmem
          rw [h1] at this; exact this
        · cases r with
          | none =>
            refine Oom.lift fun e s2 h2 => hthrow e s2 ?_
            simp only [M.bind, h1, M.pure]; exact h2
          | some v =>
            refine Oom.modC (Oom.lift fun e s2 h2 => hthrow e s2 ?_)
            simp only [M.bind, h1, SJ.modC]; exact h2

/-! ### The chain of parsers that end together -/

theorem finish_left (hN : Neat E R) {ex L0 p sh} {s : St} (hi : Inv R s) (hR : R.at p = some sh) (hf : FinOK sh (s.heap p)) (hl : L0 ≤ s.log.length)
    (hent : ∀ q ∈ s.stack, q ≠ p → ¬ ex q → ∀ sh, R.at q = some sh → Entered sh (s.heap q)) :
    Oom (Left R ex L0) (finish F E sh p) { s with heap := s.heap.upd p fun c => { c with set := true } } :=
  (finish_oom hN hi hR hf).mono fun s' h => Left.of_fin hR hl hent h

theorem elementCb_throw {p st e x} {s s' : St} (hi : Inv R s) (hR : R.at p = some (.map st e)) (h : elementCb E e p s = .throw x s') : Keeps R s s' := by
  have := elementCb_keeps (E := E) hi hR
  rw [h] at this; exact this

theorem chain_oom (hN : Neat E R) (ex : Path → Prop) (L0 : Nat) : ∀ f : Nat,
    (∀ s, 4 * s.stack.length + 1 ≤ f → s.stack ≠ [] → Tidy R L0 s.drop → Oom (Left R ex L0) (popParser F E R f) s) ∧
    (∀ s p rest, 4 * s.stack.length + 4 ≤ f → Tidy R L0 s → s.stack = p :: rest → Oom (Left R ex L0) (childParsed F E R f p) s) ∧
    (∀ s p rest sh, 4 * s.stack.length + 2 ≤ f → Tidy R L0 s → s.stack = p :: rest → R.at p = some sh → (∀ st e, sh ≠ .array st e) → (∀ ty, sh ≠ .value ty) →
      Oom (Left R ex L0) (endParsing F E R f sh p) s) ∧
    (∀ s, 4 * s.stack.length + 3 ≤ f → Tidy R L0 s → Oom (Left R ex L0) (dispatchMapEnd F E R f) s)
  | 0 => ⟨fun s h => by omega, fun s p rest h => by omega, fun s p rest sh h => by omega, fun s h => by omega⟩
  | f + 1 => by
    obtain ⟨hpop, hch, hend, hme⟩ := chain_oom hN ex L0 f
    have hEnd : ∀ s p rest sh, 4 * s.stack.length + 2 ≤ f + 1 → Tidy R L0 s → s.stack = p :: rest → R.at p = some sh → (∀ st e, sh ≠ .array st e) → (∀ ty, sh ≠ .value ty) →
      Oom (Left R ex L0) (endParsing F E R (f + 1) sh p) s := by
      intro s p rest sh hf h hs hR ha hv
      rw [endParsing]
      refine Oom.modC (Oom.bind (finish_costs sh p) (finish_left hN h.inv hR ((h.ent p (by simp [hs]) sh hR).finOK ha hv) h.log fun q hq _ _ sh hR => h.ent q hq sh hR)
        fun _ s1 h1 => Oom.getC ?_)
      have hcomp : complete E sh p s = .ok () s1 := by unfold complete; rw [bind_modC]; exact h1
      have hst := complete_stack hcomp
      split
      · refine hpop s1 (by rw [hst]; omega) (by rw [hst, hs]; simp) ?_
        have := (TidyK.chain (E := E) hN (fun _ => False) ex L0).fin s p rest sh h.k hs hR ha hv
        rw [hcomp] at this
        exact this.tidy
      · exact Oom.pure _ _
    refine ⟨?_, ?_, hEnd, ?_⟩
    · intro s hf hne h n e s' h'
      rw [popParser] at h'
      match hs : s.stack with
      | [] => exact absurd hs hne
      | [p] => simp [hs] at h'
      | p :: q :: r =>
        simp only [hs] at h'
        have hd : s.drop = { s with stack := q :: r } := by simp [St.drop, hs]
        rw [hd] at h
        exact hch _ q r (by rw [hs] at hf; simp at hf ⊢; omega) h rfl n e s' h'
    · intro s p rest hf h hs
      rw [childParsed]
      obtain ⟨⟨sh, hR⟩, hdisp⟩ := h.ctl.valid p (by simp [hs])
      have hE := h.ent p (by simp [hs]) sh hR
      rw [hR]
      cases sh with
      | value ty => exact Oom.pure _ _
      | ignore => exact Oom.pure _ _
      | object k u ms => exact Oom.pure _ _
      | array st e =>
        cases st with
        | false => exact Oom.pure _ _
        | true =>
          have hse : e.isStorage = true := (wf_array (hN.user hR (by simp))).2 rfl
          have hk := (popVal_keeps h.inv (at_elem_array hR) hse).1
          refine Oom.bindL (Adds.popVal _) (fun x s1 h1 => ?_) fun v s1 h1 => Oom.store ?_ (Oom.lastC _)
          · rw [h1] at hk; exact Keeps.left h hk
          · rw [h1] at hk; exact Keeps.left h hk.1
      | map st e =>
        cases st with
        | false => exact Oom.lift fun x s1 h1 => Keeps.left h (elementCb_throw h.inv hR h1)
        | true =>
          have hse : e.isStorage = true := (wf_map (hN.user hR (by simp))).2 rfl
          refine Oom.bindL (Adds.elementCb _ _) (fun x s1 h1 => Keeps.left h (elementCb_throw h.inv hR h1)) fun _ s0 h0 => ?_
          have hk0 := elementCb_keeps (E := E) h.inv hR
          rw [h0] at hk0
          have hk := (popVal_keeps hk0.inv (at_elem_map hR) hse).1
          refine Oom.bindL (Adds.popVal _) (fun x s1 h1 => ?_) fun v s1 h1 => Oom.store ?_ (Oom.lastC _)
          · rw [h1] at hk; exact Keeps.left h (hk0.trans hk)
          · rw [h1] at hk; exact Keeps.left h (hk0.trans hk.1)
      | union ty tm st ms =>
        refine Oom.bind (endParsing_costs f _ _) (hend s p rest _ (by omega) h hs hR (by simp) (by simp)) fun _ s1 h1 => ?_
        rw [endParsing_eq (by omega)] at h1
        have ht := ((TidyK.chain (E := E) hN (fun _ => False) ex L0).all _).2.1 s p rest _ (Nat.le_refl _) h.k hs hR (by simp) (by simp)
        rw [h1] at ht
        have hsh := endP_shrinks (E := E) (R := R) (.union ty tm st ms) p s
        rw [h1] at hsh
        split
        · refine Oom.getC ?_
          split
          · refine hme s1 ?_ ht.tidy
            have := endP_ok_len h1
            omega
          · exact Oom.ub _
        · exact Oom.pure _ _
    · intro s hf h n e s' h'
      rw [dispatchMapEnd] at h'
      match hs : s.stack with
      | [] => simp only [hs] at h'; exact Oom.thr h.left n e s' h'
      | p :: r =>
        obtain ⟨⟨sh, hR⟩, hdisp⟩ := h.ctl.valid p (by simp [hs])
        simp only [hs, hR] at h'
        cases sh with
        | value ty => exact Oom.unexpected h.left n e s' h'
        | array st e => exact Oom.unexpected h.left n _ s' h'
        | object k u ms => exact hend s p r _ (by omega) h hs hR (by simp) (by simp) n e s' h'
        | union ty tm st ms => exact hend s p r _ (by omega) h hs hR (by simp) (by simp) n e s' h'
        | map st e => exact hend s p r _ (by omega) h hs hR (by simp) (by simp) n _ s' h'
        | ignore =>
          rcases hst : (s.heap p).struct with _ | ⟨_ | _, r'⟩
          · simp only [hst] at h'; exact Oom.unexpected h.left n e s' h'
          · simp only [hst] at h'; exact Oom.unexpected h.left n e s' h'
          · simp only [hst] at h'
            have h1 := ((TidyK.chain (E := E) hN (fun _ => False) ex L0).struct s p r r' h.k hs hR).tidy
            rw [hs] at h1
            split at h'
            · exact hend _ p r _ (by rw [hs] at hf; simp only; omega) h1 rfl hR (by simp) (by simp) n e s' h'
            · simp at h'

/-! ### Tokens -/

theorem Place.end_oom (hN : Neat E R) {ex L0 p q rest sh f} {s : St} (h : Place R ex L0 p q rest s) (hR : R.at p = some sh) (hf : FinOK sh (s.heap p))
    (hfu : 4 * s.stack.length + 2 ≤ f) : Oom (Left R ex L0) (endParsing F E R f sh p) s := by
  obtain ⟨f, rfl⟩ : ∃ k, f = k + 1 := ⟨f - 1, by omega⟩
  rw [endParsing]
  refine Oom.modC (Oom.bind (finish_costs sh p) (finish_left hN h.inv hR hf h.log fun r hr hne _ sh hR => h.others r hr hne sh hR) fun _ s1 h1 => Oom.getC ?_)
  have hcomp : complete E sh p s = .ok () s1 := by unfold complete; rw [bind_modC]; exact h1
  have hst := complete_stack hcomp
  split
  · refine (chain_oom hN ex L0 f).1 s1 (by rw [hst]; omega) (by rw [hst, h.stk]; simp) ?_
    have hc := (Loc.complete (E := E) sh p).ctl (U := HasUnionArray R) h.ctl
    have hd := (complete_done (E := E) hN h.inv hR hf).fine
    rw [hcomp] at hc hd
    exact (h.dropK hc hd.1 hst (Nat.le_trans h.log hd.2.len) fun k sh hk _ he => (hd.2.cells k hk).entered he).tidy
  · exact Oom.pure _ _

theorem Place.null_oom (hN : Neat E R) {ex L0 p q rest sh f} {s : St} (h : Place R ex L0 p q rest s) (hR : R.at p = some sh)
    (hfu : 4 * s.stack.length + 1 ≤ f) : Oom (Left R ex L0) (onNullBase F E R f sh p) s := by
  refine Oom.reset (h.interrupted hR) (Oom.getC ?_)
  have h1 := h.rst hR
  split
  · have := h1.dropK h1.ctl h1.inv rfl h1.log (fun k sh _ _ he => he)
    exact (chain_oom hN ex L0 f).1 _ (by simp only; omega) (by rw [h1.stk]; simp) this.tidy
  · exact Oom.pure _ _

theorem Place.notEmpty {ex L0 p q rest sh} {s : St} (h : Place R ex L0 p q rest s) (hR : R.at p = some sh) (hu : ∀ ty tm st ms, sh ≠ .union ty tm st ms) :
    Place R ex L0 p q rest { s with heap := s.heap.upd p fun c => { c with empty := false } } := by
  refine h.upd hR ?_ ?_ ?_
  · exact fun _ => ⟨rfl, rfl⟩
  · exact (h.inv.cells p _ hR).flags rfl rfl rfl rfl
  · cases sh with
    | union ty tm st ms => exact absurd rfl (hu ty tm st ms)
    | _ => exact fun h => h

theorem union_oom {ex L0 p q rest ty tm b ms v f} {s : St} (h : Place R ex L0 p q rest s) (hR : R.at p = some (.union ty tm b ms)) :
    Oom (Left R ex L0) (on F E R f (.union ty tm b ms) p (.scalar v)) s := by
  simp only [on]
  split
  · refine Oom.reset (h.interrupted hR) ?_
    have h1 := h.rst hR
    have hset : (resetH p (.union ty tm b ms) s.heap p).set = false := by rw [resetH_selfCell]; rfl
    have hleft : Left R ex L0 { s with heap := (resetH p (.union ty tm b ms) s.heap).upd p fun c => { c with empty := false } } := by
      refine ⟨?_, ?_⟩
      · exact ((PopQ.upd p { s with heap := resetH p (.union ty tm b ms) s.heap } fun c => { c with empty := false }).inv h1.inv fun sh hRs => by
          rw [hR] at hRs; injection hRs with hRs; subst hRs
          simp only [upd_same]
          exact Sound.unset hset (by simp))
      · intro r hr sh hRr hc hex
        left
        by_cases hrp : r = p
        · subst hrp; simp only [upd_same]; exact hset
        · simp only [upd_other hrp]
          exact (h1.others r hr hrp sh hRr).unset hc
    have hmem : Oom (Left R ex L0) (onMember F E true ms p v) { s with heap := resetH p (.union ty tm b ms) s.heap } := by
      refine Oom.notEmpty (Oom.getC ?_)
      cases lookup v 0 ms with
      | none => exact Oom.thr hleft
      | some a =>
        obtain ⟨n, sh⟩ := a
        simp only
        split
        · exact Oom.push hleft (Oom.pure _ _)
        · exact Oom.ub _
    refine Oom.bind (onMember_costs _ _ _ _) hmem fun r s1 h1 => ?_
    cases r with
    | none => exact Oom.pure _ _
    | some n => exact Oom.lastC _
  · exact Oom.unexpected h.left

theorem on_oom (hN : Neat E R) (t : Token) (L0 f : Nat) (sh : Shape) : ∀ (ex : Path → Prop) (p q : Path) (rest : List Path) (s : St),
    Place R ex L0 p q rest s → R.at p = some sh → Delegated R t p q sh →
    ((∀ sh, R.at q = some sh → Entered sh (s.heap q)) ∨ Starts t) → (∀ k : Path, q.length < k.length → ex k) →
    (4 * s.stack.length + 4 ≤ f ∨ t = .mapStart ∨ t = .arrStart) → Oom (Left R ex L0) (on F E R f sh p t) s := by
  induction sh using Shape.arrInd with
  | value ty =>
    intro ex p q rest s h hR hd hv hex hfu
    cases t with
    | null => exact Place.null_oom hN h hR (by have := hfu.resolve_right (by simp); omega)
    | scalar v =>
      simp only [on]
      split
      · rename_i hty
        have hpr : Proper (.value ty) (.sc v) := ⟨by simp [hasType, hty], rfl⟩
        have h1 := Place.notEmpty h hR (by simp)
        have h2 : Place R ex L0 p q rest { s with heap := (s.heap.upd p fun c => { c with empty := false }).upd p fun c => { c with val := .sc v } } := by
          refine h1.upd hR ?_ ?_ ?_
          · exact fun _ => ⟨rfl, rfl⟩
          · exact ⟨fun _ _ => hpr, fun _ _ _ _ h => by simp at h, fun _ _ h => by simp at h⟩
          · exact fun _ => trivial
        have hend : Oom (Left R ex L0) (MA.bind (MA.lift F (SJ.modC p fun c => { c with val := .sc v })) fun _ => endParsing F E R f (.value ty) p)
            { s with heap := s.heap.upd p fun c => { c with empty := false } } :=
          Oom.modC (Place.end_oom hN h2 hR (by simp only [upd_same]; exact hpr) (by have := hfu.resolve_right (by simp); simp only; omega))
        refine Oom.notEmpty ?_
        split
        · exact Oom.alloc h1.left hend
        · exact hend
      · exact Oom.unexpected h.left
    | _ => exact Oom.unexpected h.left
  | ignore =>
    intro ex p q rest s h hR hd hv hex hfu
    have key : ∀ r, Place R ex L0 p q rest { s with heap := s.heap.upd p fun c => { c with struct := r } } := by
      intro r
      refine h.upd hR ?_ ?_ ?_
      · exact fun _ => ⟨rfl, rfl⟩
      · exact (h.inv.cells p _ hR).flags rfl rfl rfl rfl
      · exact fun _ => trivial
    cases t with
    | null => exact Place.null_oom hN h hR (by have := hfu.resolve_right (by simp); omega)
    | scalar v =>
      simp only [on]
      refine Oom.getC ?_
      split
      · exact Place.end_oom hN h hR trivial (by have := hfu.resolve_right (by simp); omega)
      · exact Oom.pure _ _
    | mapStart => exact Oom.alloc h.left (Oom.lastC _)
    | arrStart => exact Oom.alloc h.left (Oom.lastC _)
    | mapKey k =>
      simp only [on]
      refine Oom.getC ?_
      rcases (s.heap p).struct with _ | ⟨_ | _, r⟩
      · exact Oom.unexpected h.left
      · exact Oom.unexpected h.left
      · exact Oom.pure _ _
    | mapEnd =>
      simp only [on]
      refine Oom.getC ?_
      rcases (s.heap p).struct with _ | ⟨_ | _, r⟩
      · exact Oom.unexpected h.left
      · exact Oom.unexpected h.left
      · refine Oom.modC ?_
        split
        · exact Place.end_oom hN (key _) hR trivial (by have := hfu.resolve_right (by simp); simp only; omega)
        · exact Oom.pure _ _
    | arrEnd =>
      simp only [on]
      refine Oom.getC ?_
      rcases (s.heap p).struct with _ | ⟨_ | _, r⟩
      · exact Oom.unexpected h.left
      · refine Oom.modC ?_
        split
        · exact Place.end_oom hN (key _) hR trivial (by have := hfu.resolve_right (by simp); simp only; omega)
        · exact Oom.pure _ _
      · exact Oom.unexpected h.left
  | object k u ms =>
    intro ex p q rest s h hR hd hv hex hfu
    cases t with
    | null => exact Place.null_oom hN h hR (by have := hfu.resolve_right (by simp); omega)
    | mapStart => exact Oom.lastReset (h.interrupted hR)
    | mapKey key =>
      obtain rfl := hd.same (by simp) (by simp)
      simp only [on]
      have h1 := Place.notEmpty h hR (by simp)
      have hmem : Oom (Left R ex L0) (onMember F E u ms p (.str key)) s := by
        refine Oom.notEmpty (Oom.getC ?_)
        cases lookup (.str key) 0 ms with
        | none =>
          simp only
          split
          · exact Oom.thr h1.left
          · split
            · exact Oom.push h1.left (Oom.pure _ _)
            · exact Oom.ub _
        | some a =>
          obtain ⟨n, sh⟩ := a
          simp only
          split
          · exact Oom.push h1.left (Oom.pure _ _)
          · exact Oom.ub _
      exact Oom.bind (onMember_costs _ _ _ _) hmem fun r s1 h1 => Oom.pure _ _
    | mapEnd =>
      have ht := hv.resolve_right (by simp [Starts])
      obtain rfl := hd.same (by simp) (by simp)
      exact Place.end_oom hN h hR ((ht _ hR).finOK (by simp) (by simp)) (by have := hfu.resolve_right (by simp); omega)
    | _ => exact Oom.unexpected h.left
  | union ty tm b ms =>
    intro ex p q rest s h hR hd hv hex hfu
    cases t with
    | null => exact Place.null_oom hN h hR (by have := hfu.resolve_right (by simp); omega)
    | scalar v => exact union_oom h hR
    | mapStart =>
      simp only [on]
      split
      · exact Oom.thr h.left
      · exact Oom.lastReset (h.interrupted hR)
    | mapKey key =>
      simp only [on]
      split
      · exact Oom.thr h.left
      · split
        · exact Oom.thr h.left
        · exact Oom.pure _ _
    | mapEnd =>
      have ht := hv.resolve_right (by simp [Starts])
      obtain rfl := hd.same (by simp) (by simp)
      exact Place.end_oom hN h hR ((ht _ hR).finOK (by simp) (by simp)) (by have := hfu.resolve_right (by simp); omega)
    | _ => exact Oom.unexpected h.left
  | map st e =>
    intro ex p q rest s h hR hd hv hex hfu
    cases t with
    | null => exact Place.null_oom hN h hR (by have := hfu.resolve_right (by simp); omega)
    | mapStart => exact Oom.lastReset (h.interrupted hR)
    | mapKey key =>
      obtain rfl := hd.same (by simp) (by simp)
      have ht := hv.resolve_right (by simp [Starts])
      simp only [on]
      have h1 := Place.notEmpty h hR (by simp)
      refine Oom.notEmpty (Oom.getC ?_)
      split
      · refine Oom.push h1.left (Oom.alloc ⟨⟨h1.inv.cells, h1.inv.log⟩, fun r hr shr hRr hc hexr => ?_⟩ (Oom.lastC _))
        rcases List.mem_cons.1 hr with rfl | hr
        · exact absurd (hex _ (by simp)) hexr
        · exact h1.left.2 r hr shr hRr hc hexr
      · exact Oom.ub _
    | mapEnd =>
      have ht := hv.resolve_right (by simp [Starts])
      obtain rfl := hd.same (by simp) (by simp)
      exact Place.end_oom hN h hR ((ht _ hR).finOK (by simp) (by simp)) (by have := hfu.resolve_right (by simp); omega)
    | _ => exact Oom.unexpected h.left
  | array st e ih =>
    intro ex p q rest s h hR hd hv hex hfu
    have hRe := at_elem_array hR
    have hb : Below q p := by
      rcases hd with rfl | ⟨p', a, rfl, hp', hb, _⟩
      · exact Below.refl _
      · exact hb.trans (Below.cons _ _)
    have run : (s.heap p).started = true → Entered (.array st e) (s.heap p) := fun hs => (h.inv.cells p _ hR).run st e rfl hs
    have topq : (s.heap p).started = true → ∀ sh, R.at q = some sh → Entered sh (s.heap q) := by
      intro hs
      rcases h.top with ht | ⟨rfl, _⟩
      · exact ht
      · intro sh hRs
        rw [hR] at hRs; injection hRs with hRs; subst hRs
        exact run hs
    have deeper : (s.heap p).started = true → Place R ex L0 (.elem :: p) q rest s := fun hs =>
      ⟨h.ctl, h.inv, h.log, h.stk, h.ent, Or.inl (topq hs), Or.inr (by have := hb.length_le; simp; omega)⟩
    have nested : ∀ t' : Token, t = t' → (t' = .mapStart ∨ t' = .arrStart) → (s.heap p).started = true →
        Oom (Left R ex L0) (MA.bind (MA.lift F (setNotEmpty p)) fun _ => MA.bind (MA.lift F (SJ.modH (setDispH (.elem :: p) e))) fun _ => MA.bind (pushParser F (.elem :: p)) fun _ =>
          on F E R f e (.elem :: p) t') s := by
      intro t' htt ht' hs
      subst htt
      obtain rfl := hd.same (by rintro v rfl; simp at ht') (by rintro rfl; simp at ht')
      have h1 := Place.notEmpty h hR (by simp)
      have ht1 : Tidy R L0 { s with heap := s.heap.upd p fun c => { c with empty := false } } := h1.tidy fun sh hRs => by
        rw [hR] at hRs; injection hRs with hRs; subst hRs
        simp only [upd_same]; exact run hs
      have hsd := setDispH_only e (.elem :: p) (s.heap.upd p fun c => { c with empty := false })
      have hc2 := (h1.ctl.setDisp hRe).push (q := p) (rest := rest) h.stk hRe (setDispH_self _ _ _) (Or.inl ⟨_, rfl⟩)
      have hi2 : ∀ r shr, R.at r = some shr → Sound shr (setDispH (.elem :: p) e (s.heap.upd p fun c => { c with empty := false }) r) :=
        fun r shr hRr => hsd.sound (h1.inv.cells r shr hRr)
      have he2 : EntL R s.stack (setDispH (.elem :: p) e (s.heap.upd p fun c => { c with empty := false })) := fun r hr shr hRr => hsd.entered (ht1.ent r hr shr hRr)
      have h2 : Place R ex L0 (.elem :: p) (.elem :: p) s.stack { s with
          heap := setDispH (.elem :: p) e (s.heap.upd p fun c => { c with empty := false }), stack := (.elem :: p) :: s.stack } :=
        ⟨hc2, ⟨hi2, h.inv.log⟩, h.log, rfl, he2, Or.inr ⟨rfl, hex _ (by simp)⟩, Or.inl rfl⟩
      refine Oom.notEmpty (Oom.modH (Oom.push ⟨⟨hi2, h.inv.log⟩, fun r hr shr hRr hc _ => Or.inl ((he2 r hr shr hRr).unset hc)⟩ ?_))
      refine ih ex _ _ _ _ h2 hRe (Or.inl rfl) (Or.inr ?_) (fun k hk => hex k (by simp at hk; omega)) (Or.inr ht')
      rcases ht' with rfl | rfl <;> trivial
    cases t with
    | null =>
      simp only [on]
      refine Oom.getC ?_
      split
      · exact Place.null_oom hN h hR (by have := hfu.resolve_right (by simp); omega)
      · rename_i hs
        exact ih ex _ q rest s (deeper (by simpa using hs)) hRe (Or.inr ⟨p, st, rfl, hR, hb, Or.inl rfl⟩) (Or.inr trivial) hex hfu
    | scalar v =>
      simp only [on]
      refine Oom.getC ?_
      split
      · exact Oom.unexpected h.left
      · rename_i hs
        have hs : (s.heap p).started = true := by simpa using hs
        have hfu' := hfu.resolve_right (by simp)
        have hdel : Delegated R (.scalar v) (.elem :: p) q e := Or.inr ⟨p, st, rfl, hR, hb, Or.inr ⟨v, rfl⟩⟩
        refine Oom.bind (on_costs f e _ _) (ih ex _ q rest s (deeper hs) hRe hdel (Or.inr trivial) hex hfu) fun _ s1 h1 => Oom.notEmpty ?_
        rw [on_eq e _ _ hRe f s hfu'] at h1
        have hk := onF_tidy (E := E) hN (.scalar v) L0 e ex (.elem :: p) q rest s (deeper hs) hRe hdel (Or.inr trivial) hex
        rw [h1] at hk
        obtain ⟨hn, hk⟩ := hk
        have hk := hk ⟨v, rfl⟩
        have ht1 : Tidy R L0 s1 := ⟨hn.ctl, hn.inv, hn.ent.resolve_right (by simp), hn.log⟩
        have hents : Ents R s1.heap (s1.heap.upd p fun c => { c with empty := false }) := by
          intro r shr hRr he
          by_cases hrp : r = p
          · subst hrp
            rw [hR] at hRr; injection hRr with hRr; subst hRr
            rw [upd_same]; exact he
          · rw [upd_other hrp]; exact he
        have ht2 : Tidy R L0 { s1 with heap := s1.heap.upd p fun c => { c with empty := false } } := by
          refine ⟨ht1.ctl.data fun _ => ⟨rfl, rfl⟩, ⟨fun r shr hRr => ?_, ht1.inv.log⟩, fun r hr shr hRr => hents r shr hRr (ht1.ent r hr shr hRr), ht1.log⟩
          by_cases hrp : r = p
          · subst hrp
            rw [hR] at hRr; injection hRr with hRr; subst hRr
            simp only [upd_same]; exact (ht1.inv.cells r _ hR).flags rfl rfl rfl rfl
          · simp only [upd_other hrp]; exact ht1.inv.cells r shr hRr
        obtain ⟨f, rfl⟩ : ∃ k, f = k + 1 := ⟨f - 1, by omega⟩
        rw [childParsed, hR]
        cases st with
        | false => exact Oom.pure _ _
        | true =>
          have hse : e.isStorage = true := (wf_array (hN.user hR (by simp))).2 rfl
          have hk := (popVal_keeps ht2.inv hRe hse).1
          refine Oom.bindL (Adds.popVal _) (fun x s2 h2 => ?_) fun v s2 h2 => Oom.store ?_ (Oom.lastC _)
          · rw [h2] at hk; exact Keeps.left ht2 hk
          · rw [h2] at hk; exact Keeps.left ht2 hk.1
    | mapStart =>
      simp only [on]
      refine Oom.getC ?_
      split
      · exact Oom.unexpected h.left
      · rename_i hs
        split
        · exact Oom.ub _
        · exact nested .mapStart rfl (Or.inl rfl) (by simpa using hs)
    | arrStart =>
      simp only [on]
      refine Oom.getC ?_
      split
      · exact Oom.reset (h.interrupted hR) (Oom.lastC _)
      · rename_i hs
        split
        · exact Oom.ub _
        · exact nested .arrStart rfl (Or.inr rfl) (by simpa using hs)
    | arrEnd =>
      have ht := hv.resolve_right (by simp [Starts])
      obtain rfl := hd.same (by simp) (by simp)
      simp only [on]
      refine Oom.modC ?_
      have he := ht _ hR
      have h1 : Place R ex L0 p p rest { s with heap := s.heap.upd p fun c => { c with started := false } } := by
        refine ⟨h.ctl.start hR, ⟨fun r shr hRr => ?_, h.inv.log⟩, h.log, h.stk, fun r hr shr hRr => ?_, Or.inl fun shr hRr => ?_, Or.inl rfl⟩
        · by_cases hrp : r = p
          · subst hrp
            rw [hR] at hRr; injection hRr with hRr; subst hRr
            simp only [upd_same]
            exact ⟨fun h1 h2 => (h.inv.cells r _ hR).val h1 h2, fun _ _ _ _ h => by simp at h, fun _ _ _ h => by simp at h⟩
          · simp only [upd_other hrp]; exact h.inv.cells r shr hRr
        · simp only [upd_other (h.notin r hr)]; exact h.ent r hr shr hRr
        · rw [hR] at hRr; injection hRr with hRr; subst hRr
          simp only [upd_same]; exact he
      exact Place.end_oom hN h1 hR (by simp only [upd_same]; exact ⟨rfl, he.2⟩) (by have := hfu.resolve_right (by simp); simp only; omega)
    | mapKey k => exact Oom.unexpected h.left
    | mapEnd => exact Oom.unexpected h.left

/-- One token of a JSON document. -/
theorem dispatch_oom (hN : Neat E R) (t : Token) {s : St} {q rest} (hc : Ctl R s) (hi : Inv R s) (hs : s.stack = q :: rest)
    (he : EntL R rest s.heap) (ht : (∀ sh, R.at q = some sh → Entered sh (s.heap q)) ∨ Starts t) :
    Oom (Left R (fun k => q.length < k.length ∨ (k = q ∧ ¬ ∀ sh, R.at q = some sh → Entered sh (s.heap q))) s.log.length) (dispatch F E R t) s := by
  obtain ⟨⟨sh, hR⟩, _⟩ := hc.valid q (by simp [hs])
  intro n e s' h'
  simp only [dispatch, hs, hR] at h'
  refine on_oom hN t s.log.length _ sh _ q q rest s ⟨hc, hi, Nat.le_refl _, hs, he, ?_, Or.inl rfl⟩ hR (Or.inl rfl) ht (fun k hk => Or.inl hk) (Or.inl ?_) n e s' h'
  · by_cases h : ∀ sh, R.at q = some sh → Entered sh (s.heap q)
    · exact Or.inl h
    · exact Or.inr ⟨rfl, Or.inr ⟨rfl, h⟩⟩
  · rw [hs]; unfold fuelFor; omega

end MA

/-! ### Use of a parser -/

/-- The invariant while documents are delivered. (If memory runs out in the middle of a token, the rest of the document is not read.) -/
structure Fed (R : Shape) (rest : List Token) (s : St) : Prop where
  fit : Fitting R s
  inv : Inv R s
  adj : Adj rest
  ctl : rest ≠ [] → Ctl R s
  ent : rest = [] ∨ EntL R s.stack s.heap ∨ (Begins rest ∧ EntL R s.stack.tail s.heap)

theorem Fed.next {t rest} {s : St} (h : Fed R (t :: rest) s) {q below} (hs : s.stack = q :: below) :
    EntL R below s.heap ∧ ((∀ sh, R.at q = some sh → Entered sh (s.heap q)) ∨ Starts t) := by
  rcases h.ent with h1 | h1 | ⟨h1, h2⟩
  · simp at h1
  · exact ⟨fun r hr => h1 r (by simp [hs, hr]), Or.inl (h1 q (by simp [hs]))⟩
  · exact ⟨by simpa [hs] using h2, Or.inr h1⟩

theorem Fed.step (hN : Neat E R) {t rest} {s : St} (h : Fed R (t :: rest) s) :
    Fine (Fed R rest) (fun _ => Fed R []) (HasUnionArray R) (dispatch E R t s) := by
  match hs : s.stack with
  | [] => rw [dispatch_nil hs]; exact ⟨h.fit, h.inv, trivial, fun h => absurd rfl h, Or.inl rfl⟩
  | q :: below =>
    obtain ⟨h1, h2⟩ := h.next hs
    have hctl := h.ctl (by simp)
    have hc := dispatch_ctl (E := E) t hctl
    refine (hc.and (dispatch_tidy (E := E) hN t hctl h.inv hs h1 h2)).mono (fun s' h' => ?_) (fun _ s' h' => ?_) (fun h => h.1)
    · refine ⟨h'.2.ctl.fit, h'.2.inv, h.adj.tail, fun _ => h'.2.ctl, ?_⟩
      rcases h'.2.ent with h3 | ⟨h3, c, h4, h5⟩
      · exact Or.inr (Or.inl h3)
      · exact Or.inr (Or.inr ⟨h.adj.next h3, by rw [h4]; exact h5⟩)
    · exact ⟨h'.1.fit, h'.2.1, trivial, fun h => absurd rfl h, Or.inl rfl⟩

theorem Fed.short (hN : Neat E R) {t rest n e} {s s' : St} (h : Fed R (t :: rest) s) (hd : MA.dispatch F E R t n s = .fault e s') : Fed R [] s' := by
  have hfit := MA.dispatch_always (F := F) (E := E) t n s h.fit
  rw [hd] at hfit
  refine ⟨hfit, ?_, trivial, fun h => absurd rfl h, Or.inl rfl⟩
  match hs : s.stack with
  | [] =>
    simp only [MA.dispatch, hs] at hd
    exact MA.Oom.thr (Q := Inv R) h.inv n e s' hd
  | q :: below =>
    obtain ⟨h1, h2⟩ := h.next hs
    exact (MA.dispatch_oom hN t (h.ctl (by simp)) h.inv hs h1 h2 n e s' hd).1

theorem Fed.start {j} {s : St} (hc : Ctl R s) (hi : Inv R s) (hs : s.stack = [[]]) : Fed R (events j) s :=
  ⟨hc.fit, hi, (events_adj j).1, fun _ => hc, Or.inr (Or.inr ⟨events_begins j, by rw [hs]; exact fun q hq => by simp at hq⟩)⟩

theorem Inv.init (R : Shape) : Inv R (St.init R) := by
  refine ⟨fun q sh hR => ?_, fun c hc => by simp [St.init] at hc⟩
  refine (setDispH_only R [] Heap.fresh).sound ?_
  refine ⟨fun _ h => by simp [Heap.fresh] at h, fun _ _ _ _ _ h => by simp [Heap.fresh] at h, fun _ _ _ h => by simp [Heap.fresh] at h⟩

theorem Fed.pop {rest p v} {s s' : St} (h : Fed R rest s) (hp : pop' p s = .ok v s') : Fed R rest s' := by
  have hc : rest ≠ [] → Ctl R s' := fun hr => by
    have := (Loc.popVal p).ctl (U := HasUnionArray R) (h.ctl hr)
    unfold pop' at hp
    rw [hp] at this
    exact this
  unfold pop' at hp
  obtain ⟨h1, rfl, rfl⟩ := popVal_ok hp
  have ents : Ents R s.heap (s.heap.upd p fun c => { c with set := false, val := .moved }) := Ents.popC fun q => upd_popC h1 q
  refine ⟨h.fit.ctl (SameCtl.upd fun c => ⟨rfl, rfl⟩), ⟨fun q shq hRq => (upd_popC h1 q).good (h.inv.cells q shq hRq), h.inv.log⟩, h.adj, hc, ?_⟩
  rcases h.ent with h2 | h2 | ⟨h2, h3⟩
  · exact Or.inl h2
  · exact Or.inr (Or.inl fun q hq shq hRq => ents q shq hRq (h2 q hq shq hRq))
  · exact Or.inr (Or.inr ⟨h2, fun q hq shq hRq => ents q shq hRq (h3 q hq shq hRq)⟩)

theorem Fed.reset {rest p sh} {s : St} (h : Fed R rest s) (hR : R.at p = some sh) : Fed R rest (reset' p sh s) := by
  have rst := resetH_rst (R := R) sh p s.heap hR
  have ents : Ents R s.heap (resetH p sh s.heap) := Ents.rst rst
  refine ⟨h.fit.ctl (resetH_ctl sh p s.heap), ⟨fun q shq hRq => (by rcases rst q with e | ⟨sh', h1, e⟩ <;> simp only [reset', e]; exact h.inv.cells q shq hRq; rw [hRq] at h1; injection h1 with h1; subst h1; exact resetCell_good (h.inv.cells q shq hRq)), h.inv.log⟩, h.adj,
    fun hr => (h.ctl hr).shrink (List.suffix_refl _) (resetH_ctl sh p s.heap), ?_⟩
  rcases h.ent with h2 | h2 | ⟨h2, h3⟩
  · exact Or.inl h2
  · exact Or.inr (Or.inl fun q hq shq hRq => ents q shq hRq (h2 q hq shq hRq))
  · exact Or.inr (Or.inr ⟨h2, fun q hq shq hRq => ents q shq hRq (h3 q hq shq hRq)⟩)

theorem Feeding.fed (hwf : R.wf = true) (hdf : CleanDefaults R) {rest} {s : St} (h : Feeding R rest s) : Fed R rest s := by
  induction h with
  | init j => exact Fed.start (Ctl.init R) (Inv.init R) rfl
  | next j _ ih => exact Fed.start ih.fit.restart ⟨ih.inv.cells, ih.inv.log⟩ rfl
  | @token E _ _ _ _ _ hcb hd ih => have := ih.step (E := E) ⟨hwf, hdf, hcb⟩; rw [hd] at this; exact this
  | @failed E _ _ _ _ _ _ hcb hd ih => have := ih.step (E := E) ⟨hwf, hdf, hcb⟩; rw [hd] at this; exact this
  | @short F E _ _ _ _ _ _ _ hcb hd ih => exact ih.short (F := F) (E := E) ⟨hwf, hdf, hcb⟩ hd
  | pop _ _ _ hp ih => exact ih.pop hp
  | reset _ hR ih => exact ih.reset hR

theorem Reading.feeding {p rest} {s : St} (h : Reading R p rest s) : Feeding R rest s := by
  induction h with
  | start h1 _ _ hcb hd _ => exact .token h1 hcb hd
  | token _ hcb hd _ ih => exact .token ih hcb hd
  | pop _ h1 h2 h3 ih => exact .pop ih h1 h2 h3
  | reset _ h1 ih => exact .reset ih h1

/-- The parser in the middle of an object or array has begun to read. -/
theorem Reading.entered (hwf : R.wf = true) (hdf : CleanDefaults R) {p rest} {s : St} (h : Reading R p rest s) :
    p ∈ s.stack ∧ ∀ sh, R.at p = some sh → Entered sh (s.heap p) := by
  induction h with
  | @start E t rest s s' below hF hs ht hcb hd hp =>
    have hN : Neat E R := ⟨hwf, hdf, hcb⟩
    refine ⟨hp, ?_⟩
    have hf := hF.fed hwf hdf
    obtain ⟨h1, h2⟩ := hf.next hs
    have := dispatch_tidy (E := E) hN t (hf.ctl (by simp)) hf.inv hs h1 h2
    rw [hd] at this
    exact (this.ent.resolve_right (by rcases ht with rfl | rfl <;> simp)) p hp
  | @token E t rest s s' hr hcb hd hp ih =>
    have hN : Neat E R := ⟨hwf, hdf, hcb⟩
    refine ⟨hp, ?_⟩
    have hf := (hr.feeding).fed hwf hdf
    match hs : s.stack with
    | [] => rw [hs] at ih; simp at ih
    | q :: below =>
      obtain ⟨h1, h2⟩ := hf.next hs
      have := dispatch_tidy (E := E) hN t (hf.ctl (by simp)) hf.inv hs h1 h2
      rw [hd] at this
      rcases this.ent with h3 | ⟨_, c, _, h3⟩
      · exact h3 p hp
      · exact h3 p ih.1
  | @pop rest s s' q sh v hr hq hsq hp ih =>
    unfold pop' at hp
    obtain ⟨h1, rfl, rfl⟩ := popVal_ok hp
    exact ⟨ih.1, fun shp hRp => (upd_popC h1 p).entered (ih.2 shp hRp)⟩
  | @reset rest s q sh hr hq ih => exact ⟨ih.1, fun shp hRp => Ents.rst (resetH_rst sh q s.heap hq) p shp hRp (ih.2 shp hRp)⟩

end SJ
