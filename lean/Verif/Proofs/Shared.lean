/-
Shared parser objects and callbacks that reach everywhere: the control state.
-/
import Verif.Proofs.Control
import Verif.SpecShared

set_option linter.unusedVariables false

namespace SJ

namespace Shd

variable {ob : Path → Path} {E : FarEnv} {R : Shape} {U : Prop}

/-- What stands at the places. -/
def seen (ob : Path → Path) (s : St) : St := { s with heap := fun q => s.heap (ob q) }

theorem sameCtl_seen {h h' : Heap} (hc : SameCtl h h') : SameCtl (fun q => h (ob q)) (fun q => h' (ob q)) := fun q => hc (ob q)

/-! ### Reset and setDispatcher -/

mutual
theorem resetH_ctl : ∀ (sh : Shape) (p : Path) (h : Heap), SameCtl h (resetH ob p sh h)
  | .value _, p, h => SameCtl.upd fun _ => ⟨rfl, rfl⟩
  | .ignore, p, h => SameCtl.upd fun _ => ⟨rfl, rfl⟩
  | .object k u ms, p, h => by
    have h1 := (SameCtl.upd (h := h) (p := ob p) (f := Cell.baseReset) fun _ => ⟨rfl, rfl⟩).trans
      (resetMs_ctl ms p 0 (h.upd (ob p) Cell.baseReset))
    have h2 := h1.trans (SameCtl.upd (p := ob (.ign :: p)) (f := fun c => { c.baseReset with struct := [] })
      fun _ => ⟨rfl, rfl⟩)
    cases k <;> simp only [resetH]
    · exact h2
    · exact h2.trans (SameCtl.upd fun _ => ⟨rfl, rfl⟩)
    · exact h2.trans (SameCtl.upd fun _ => ⟨rfl, rfl⟩)
  | .union ty tm st ms, p, h => by
    have h1 := (SameCtl.upd (h := h) (p := ob p) (f := fun c => { c with curId := 0 }) fun _ => ⟨rfl, rfl⟩).trans
      ((SameCtl.upd (p := ob p) (f := Cell.baseReset) fun _ => ⟨rfl, rfl⟩).trans (resetMs_ctl ms p 0 _))
    have h2 := h1.trans (SameCtl.upd (p := ob (.ign :: p)) (f := fun c => { c.baseReset with struct := [] })
      fun _ => ⟨rfl, rfl⟩)
    cases st <;> simp only [resetH, Bool.false_eq_true, if_false, if_true]
    · exact h2
    · exact h2.trans (SameCtl.upd fun _ => ⟨rfl, rfl⟩)
  | .array st e, p, h => by
    have h1 := (SameCtl.upd (h := h) (p := ob p) (f := Cell.baseReset) fun _ => ⟨rfl, rfl⟩).trans
      (resetH_ctl e (.elem :: p) _)
    cases st <;> simp only [resetH, Bool.false_eq_true, if_false, if_true]
    · exact h1
    · exact h1.trans (SameCtl.upd fun _ => ⟨rfl, rfl⟩)
  | .map st e, p, h => by
    cases st <;> simp only [resetH, Bool.false_eq_true, if_false, if_true]
    · exact SameCtl.upd fun _ => ⟨rfl, rfl⟩
    · exact (SameCtl.upd (h := h) (p := ob p) (f := Cell.baseReset) fun _ => ⟨rfl, rfl⟩).trans
        (SameCtl.upd fun _ => ⟨rfl, rfl⟩)
theorem resetMs_ctl : ∀ (ms : List (MInfo × Shape)) (p : Path) (n : Nat) (h : Heap),
    SameCtl h (resetMs ob p n ms h)
  | [], p, n, h => SameCtl.refl _
  | (i, sh) :: ms, p, n, h => (resetH_ctl sh (.mem n :: p) h).trans (resetMs_ctl ms p (n + 1) _)
end

mutual
theorem setDispH_only : ∀ (sh : Shape) (p : Path) (h : Heap), DispOnly h (setDispH ob p sh h)
  | .value _, p, h => DispOnly.upd _ _
  | .ignore, p, h => DispOnly.upd _ _
  | .array _ _, p, h => DispOnly.upd _ _
  | .object _ _ ms, p, h => ((DispOnly.upd _ _).trans (setDispMs_only ms p 0 _)).trans (DispOnly.upd _ _)
  | .union _ _ _ ms, p, h => ((DispOnly.upd _ _).trans (setDispMs_only ms p 0 _)).trans (DispOnly.upd _ _)
  | .map _ e, p, h => (DispOnly.upd _ _).trans (setDispH_only e _ _)
theorem setDispMs_only : ∀ (ms : List (MInfo × Shape)) (p : Path) (n : Nat) (h : Heap),
    DispOnly h (setDispMs ob p n ms h)
  | [], p, n, h => DispOnly.refl _
  | (_, sh) :: ms, p, n, h => (setDispH_only sh _ h).trans (setDispMs_only ms p (n + 1) _)
end

theorem setDispH_self (sh p h) : (setDispH ob p sh h (ob p)).disp = true := by
  have key : ∀ (h' : Heap), (h' (ob p)).disp = true → ∀ h'', DispOnly h' h'' → (h'' (ob p)).disp = true :=
    fun h' h1 h'' h2 => h2.mono h1
  cases sh with
  | value | ignore | array => simp [setDispH]
  | object k u ms =>
    simp only [setDispH]
    refine key (h.upd (ob p) fun c => { c with disp := true }) (by simp) _ ?_
    exact (setDispMs_only ms p 0 _).trans (DispOnly.upd _ _)
  | union ty tm st ms =>
    simp only [setDispH]
    refine key (h.upd (ob p) fun c => { c with disp := true }) (by simp) _ ?_
    exact (setDispMs_only ms p 0 _).trans (DispOnly.upd _ _)
  | map st e =>
    simp only [setDispH]
    exact key (h.upd (ob p) fun c => { c with disp := true }) (by simp) _ (setDispH_only e _ _)

theorem setDispMs_mem : ∀ (ms : List (MInfo × Shape)) (p : Path) (n : Nat) (h : Heap) (m : Nat) (i : MInfo) (sh : Shape),
    ms[m]? = some (i, sh) → ∃ h0, DispOnly (setDispH ob (.mem (n + m) :: p) sh h0) (setDispMs ob p n ms h)
  | [], p, n, h, m, i, sh, hm => by simp at hm
  | (i', sh') :: ms, p, n, h, m, i, sh, hm => by
    cases m with
    | zero =>
      simp at hm; obtain ⟨_, rfl⟩ := hm
      exact ⟨h, setDispMs_only ms p (n + 1) _⟩
    | succ m =>
      simp at hm
      obtain ⟨h0, hh⟩ := setDispMs_mem ms p (n + 1) (setDispH ob (.mem n :: p) sh' h) m i sh hm
      exact ⟨h0, by rw [show n + (m + 1) = n + 1 + m by omega]; exact hh⟩

theorem setDispH_child {sh p st c} (h : Heap) (ha : ∀ b e, sh ≠ .array b e) (hc : sh.child st = some c) :
    ∃ h0, DispOnly (setDispH ob (st :: p) c h0) (setDispH ob p sh h) := by
  cases sh with
  | value => simp [Shape.child] at hc
  | ignore => simp [Shape.child] at hc
  | array b e => exact absurd rfl (ha b e)
  | map b e =>
    cases st with
    | elem => simp [Shape.child] at hc; subst hc; exact ⟨_, DispOnly.refl _⟩
    | _ => simp [Shape.child] at hc
  | object k u ms =>
    cases st with
    | mem n =>
      simp [Shape.child] at hc; obtain ⟨i, hc⟩ := hc
      obtain ⟨h0, hh⟩ := setDispMs_mem (ob := ob) ms p 0 (h.upd (ob p) fun c => { c with disp := true }) n i c hc
      rw [Nat.zero_add] at hh
      exact ⟨h0, hh.trans (DispOnly.upd _ _)⟩
    | ign => simp [Shape.child] at hc; subst hc; exact ⟨_, DispOnly.refl _⟩
    | elem => simp [Shape.child] at hc
  | union ty tm b ms =>
    cases st with
    | mem n =>
      simp [Shape.child] at hc; obtain ⟨i, hc⟩ := hc
      obtain ⟨h0, hh⟩ := setDispMs_mem (ob := ob) ms p 0 (h.upd (ob p) fun c => { c with disp := true }) n i c hc
      rw [Nat.zero_add] at hh
      exact ⟨h0, hh.trans (DispOnly.upd _ _)⟩
    | ign => simp [Shape.child] at hc; subst hc; exact ⟨_, DispOnly.refl _⟩
    | elem => simp [Shape.child] at hc

theorem reach_disp {sh p q} (hr : Reach sh p q) : ∀ h, (setDispH ob p sh h (ob q)).disp = true := by
  induction hr with
  | self => exact fun h => setDispH_self _ _ _
  | step ha hc _ ih =>
    intro h
    obtain ⟨h0, hh⟩ := setDispH_child (ob := ob) h ha hc
    exact hh.mono (ih h0)

mutual
theorem setDispH_disp : ∀ (sh : Shape) (p : Path) (h : Heap) (o : Path), (setDispH ob p sh h o).disp = true →
    (h o).disp = true ∨ ∃ q, Reach sh p q ∧ o = ob q
  | .value _, p, h, q, hq => (disp_upd hq).imp_right fun e => ⟨p, .self, e⟩
  | .ignore, p, h, q, hq => (disp_upd hq).imp_right fun e => ⟨p, .self, e⟩
  | .array _ _, p, h, q, hq => (disp_upd hq).imp_right fun e => ⟨p, .self, e⟩
  | .object k u ms, p, h, q, hq => by
    simp only [setDispH] at hq
    rcases disp_upd hq with hq | rfl
    · rcases setDispMs_disp ms p 0 _ q hq with hq | ⟨m, i, sh, h1, r, h2, rfl⟩
      · rcases disp_upd hq with hq | rfl
        · exact Or.inl hq
        · exact Or.inr ⟨p, .self, rfl⟩
      · rw [Nat.zero_add] at h2
        exact Or.inr ⟨r, .step (st := .mem m) (by simp) (by simp [Shape.child, h1]) h2, rfl⟩
    · exact Or.inr ⟨_, .step (st := .ign) (c := .ignore) (by simp) (by simp [Shape.child]) .self, rfl⟩
  | .union ty tm st ms, p, h, q, hq => by
    simp only [setDispH] at hq
    rcases disp_upd hq with hq | rfl
    · rcases setDispMs_disp ms p 0 _ q hq with hq | ⟨m, i, sh, h1, r, h2, rfl⟩
      · rcases disp_upd hq with hq | rfl
        · exact Or.inl hq
        · exact Or.inr ⟨p, .self, rfl⟩
      · rw [Nat.zero_add] at h2
        exact Or.inr ⟨r, .step (st := .mem m) (by simp) (by simp [Shape.child, h1]) h2, rfl⟩
    · exact Or.inr ⟨_, .step (st := .ign) (c := .ignore) (by simp) (by simp [Shape.child]) .self, rfl⟩
  | .map st e, p, h, q, hq => by
    simp only [setDispH] at hq
    rcases setDispH_disp e _ _ q hq with hq | ⟨r, hr, rfl⟩
    · rcases disp_upd hq with hq | rfl
      · exact Or.inl hq
      · exact Or.inr ⟨p, .self, rfl⟩
    · exact Or.inr ⟨r, .step (st := .elem) (by simp) (by simp [Shape.child]) hr, rfl⟩
theorem setDispMs_disp : ∀ (ms : List (MInfo × Shape)) (p : Path) (n : Nat) (h : Heap) (o : Path),
    (setDispMs ob p n ms h o).disp = true →
    (h o).disp = true ∨ ∃ m i sh, ms[m]? = some (i, sh) ∧ ∃ q, Reach sh (.mem (n + m) :: p) q ∧ o = ob q
  | [], p, n, h, q, hq => Or.inl hq
  | (i, sh) :: ms, p, n, h, q, hq => by
    rcases setDispMs_disp ms p (n + 1) _ q hq with hq | ⟨m, i', sh', h1, r, h2, rfl⟩
    · rcases setDispH_disp sh _ _ q hq with hq | ⟨r, hr, rfl⟩
      · exact Or.inl hq
      · exact Or.inr ⟨0, i, sh, by simp, r, hr, rfl⟩
    · exact Or.inr ⟨m + 1, i', sh', by simpa using h1, r, by
        rw [show n + (m + 1) = n + 1 + m by omega]; exact h2, rfl⟩
end

theorem closed_setDispH (pl : Places R ob) {h : Heap} {p sh} (hd : DClosed R fun q => h (ob q)) (hR : R.at p = some sh) :
    DClosed R fun q => setDispH ob p sh h (ob q) := by
  intro q sh' st c h1 h2 h3 h4
  rcases setDispH_disp sh p h (ob q) h2 with h2 | ⟨r, h2, e⟩
  · exact (setDispH_only sh p h).mono (hd q sh' st c h1 h2 h3 h4)
  · show (setDispH ob p sh h (ob (st :: q))).disp = true
    rw [pl.step q r st e]
    exact reach_disp (h2.snoc hR sh' st c (by rw [← pl.same q r e]; exact h1) h3 h4) h

/-! ### Methods that only touch data -/

/-- The stack and the control fields are kept; the computation ends. -/
def TameR {α} (s : St) : Res α → Prop
  | .ok _ s' => s'.stack = s.stack ∧ SameCtl s.heap s'.heap
  | .throw _ s' => s'.stack = s.stack ∧ SameCtl s.heap s'.heap
  | .ub => False
  | .fuel => False

/-- The stack and the control fields are kept; the computation ends. -/
def Tame {α} (m : M α) : Prop := ∀ s, TameR s (m s)

theorem Tame.pure {α} (a : α) : Tame (M.pure a) := fun _ => ⟨rfl, SameCtl.refl _⟩
theorem Tame.throwStd {α} (m : String) : Tame (throwStd m : M α) := fun _ => ⟨rfl, SameCtl.refl _⟩
theorem Tame.getC (p) : Tame (getC p) := fun _ => ⟨rfl, SameCtl.refl _⟩
theorem Tame.modC {p f} (hf : ∀ c : Cell, (f c).disp = c.disp ∧ (f c).started = c.started) : Tame (modC p f) :=
  fun _ => ⟨rfl, SameCtl.upd hf⟩

theorem Tame.bind {α β} {m : M α} {f : α → M β} (hm : Tame m) (hf : ∀ a, Tame (f a)) : Tame (M.bind m f) := by
  intro s
  have h1 := hm s
  unfold M.bind
  cases h : m s with
  | ok a s' =>
    rw [h] at h1; simp only at h1 ⊢
    have h2 := hf a s'
    cases h' : f a s' with
    | ok b s'' => rw [h'] at h2; exact ⟨h2.1.trans h1.1, h1.2.trans h2.2⟩
    | throw b s'' => rw [h'] at h2; exact ⟨h2.1.trans h1.1, h1.2.trans h2.2⟩
    | ub => rw [h'] at h2; exact h2
    | fuel => rw [h'] at h2; exact h2
  | throw e s' => rw [h] at h1; exact h1
  | ub => rw [h] at h1; exact h1
  | fuel => rw [h] at h1; exact h1

theorem Tame.ite {α} {c : Prop} [Decidable c] {a b : M α} (ha : Tame a) (hb : Tame b) :
    Tame (if c then a else b) := by split <;> assumption

theorem Tame.popVal (p) : Tame (popVal p) := by
  intro s; unfold SJ.popVal
  by_cases h : (s.heap p).set
  · rw [if_pos h]; exact ⟨rfl, SameCtl.upd fun _ => ⟨rfl, rfl⟩⟩
  · rw [if_neg h]; exact ⟨rfl, SameCtl.refl _⟩

theorem cbActs_ctl : ∀ (qs : List FarAct) (h : Heap), SameCtl h (cbActs ob R qs h)
  | [], h => SameCtl.refl _
  | .reset q :: qs, h => by
    unfold cbActs
    split
    · exact (resetH_ctl _ _ _).trans (cbActs_ctl qs _)
    · exact cbActs_ctl qs _
  | .pop q :: qs, h => by
    unfold cbActs
    split
    · split
      · exact (SameCtl.upd (f := fun c => { c with set := false, val := .moved }) fun _ => ⟨rfl, rfl⟩).trans (cbActs_ctl qs _)
      · exact cbActs_ctl qs _
    · exact cbActs_ctl qs _

theorem verdict_tame {v w} {s s0 : St} (h1 : s.stack = s0.stack) (h2 : SameCtl s0.heap s.heap) : TameR s0 (verdict v w s) := by
  cases v <;> exact ⟨h1, h2⟩

theorem Tame.finishCbVal (p) : Tame (finishCbVal ob E R p) := by
  intro s; unfold Shd.finishCbVal
  cases h : E.onFinish (ob p) with
  | none => exact ⟨rfl, SameCtl.refl _⟩
  | some cb =>
    simp only
    refine verdict_tame (s0 := s) ?_ ?_
    · rfl
    · exact cbActs_ctl _ _

theorem Tame.finishCbParser (sh c p) : Tame (finishCbParser ob E R sh c p) := by
  intro s; unfold Shd.finishCbParser
  cases h : E.onFinish (ob p) with
  | none => exact ⟨rfl, SameCtl.refl _⟩
  | some cb =>
    simp only
    refine verdict_tame (s0 := s) ?_ ?_
    · rfl
    dsimp only
    split
    · exact (cbActs_ctl _ _).trans (SameCtl.upd fun _ => ⟨rfl, rfl⟩)
    · exact cbActs_ctl _ _

theorem Tame.elementCb (e p) : Tame (elementCb ob E R e p) := by
  intro s; unfold Shd.elementCb
  cases h : E.onElement (ob p) with
  | none => exact ⟨rfl, SameCtl.refl _⟩
  | some cb =>
    simp only
    refine verdict_tame (s0 := s) ?_ ?_
    · rfl
    · exact cbActs_ctl _ _

theorem Tame.setValues (p ms) : ∀ n, Tame (setValues ob p n ms) := by
  induction ms with
  | nil => intro n; exact Tame.pure _
  | cons m ms ih =>
    intro n; obtain ⟨i, sh⟩ := m
    unfold Shd.setValues
    refine Tame.bind (ih _) fun vs => Tame.bind (Tame.getC _) fun c => Tame.ite ?_ (Tame.ite ?_ ?_)
    · exact Tame.bind (Tame.popVal _) fun v => Tame.pure _
    · cases i.dflt <;> first | exact Tame.pure _ | exact Tame.throwStd _
    · exact Tame.throwStd _

theorem Tame.currentMemberId (p) : Tame (currentMemberId p) := by
  intro s; unfold SJ.currentMemberId
  by_cases h : (s.heap p).set
  · rw [if_pos h]; exact ⟨rfl, SameCtl.refl _⟩
  · rw [if_neg h]; exact ⟨rfl, SameCtl.refl _⟩

theorem Tame.checkAlt (p ms) : ∀ n, Tame (checkAlt ob p n ms) := by
  induction ms with
  | nil => intro n; exact Tame.pure _
  | cons m ms ih =>
    intro n; obtain ⟨i, sh⟩ := m
    unfold Shd.checkAlt
    exact Tame.bind (ih _) fun vs => Tame.bind (Tame.currentMemberId _) fun c =>
      Tame.ite (Tame.pure _) (Tame.bind (Tame.getC _) fun c => Tame.ite (Tame.throwStd _) (Tame.pure _))

theorem Tame.setAlt (p ms) : ∀ n, Tame (setAlt ob p n ms) := by
  induction ms with
  | nil => intro n; exact Tame.pure _
  | cons m ms ih =>
    intro n; obtain ⟨i, sh⟩ := m
    unfold Shd.setAlt
    refine Tame.bind (ih _) fun vs => Tame.bind (Tame.currentMemberId _) fun c =>
      Tame.ite (Tame.pure _) (Tame.bind (Tame.getC _) fun c => Tame.ite ?_ (Tame.ite ?_ ?_))
    · exact Tame.bind (Tame.popVal _) fun v => Tame.pure _
    · cases i.dflt <;> first | exact Tame.pure _ | exact Tame.throwStd _
    · exact Tame.throwStd _

theorem Tame.unsetOnThrow {α} (p) {m : M α} (h : Tame m) : Tame (unsetOnThrow p m) := by
  intro s; have := h s; unfold SJ.unsetOnThrow
  cases h' : m s with
  | throw e s' =>
    rw [h'] at this
    exact ⟨this.1, this.2.trans (SameCtl.upd fun _ => ⟨rfl, rfl⟩)⟩
  | _ => rw [h'] at this; exact this

theorem Tame.wrapOnThrow {α} (p) {m : M α} (h : Tame m) : Tame (wrapOnThrow p m) := by
  intro s; have := h s; unfold SJ.wrapOnThrow
  cases h' : m s with
  | throw e s' =>
    rw [h'] at this
    exact ⟨this.1, this.2.trans (SameCtl.upd fun _ => ⟨rfl, rfl⟩)⟩
  | _ => rw [h'] at this; exact this

theorem Tame.unlessEmpty (p) {m : M Unit} (h : Tame m) : Tame (unlessEmpty p m) :=
  Tame.bind (Tame.getC _) fun _ => Tame.ite (Tame.modC fun _ => ⟨rfl, rfl⟩) h

theorem Tame.finish (sh p) : Tame (finish ob E R sh p) := by
  unfold Shd.finish
  split
  · exact Tame.finishCbVal _
  · exact Tame.pure _
  · exact Tame.unlessEmpty _ (Tame.bind (Tame.wrapOnThrow _ (Tame.setValues _ _ _)) fun _ =>
      Tame.bind (Tame.modC fun _ => ⟨rfl, rfl⟩) fun _ => Tame.finishCbVal _)
  · refine Tame.unlessEmpty _ (Tame.bind (Tame.unsetOnThrow _ ?_) fun _ => Tame.finishCbParser _ _ _)
    intro s; simp only
    split <;> exact ⟨rfl, SameCtl.refl _⟩
  · exact Tame.unlessEmpty _ (Tame.bind (Tame.unsetOnThrow _ (Tame.checkAlt _ _ _)) fun _ =>
      Tame.finishCbParser _ _ _)
  · refine Tame.unlessEmpty _ (Tame.bind (Tame.wrapOnThrow _ (Tame.setAlt _ _ _)) fun r =>
      Tame.bind ?_ fun _ => Tame.finishCbVal _)
    cases r
    · exact Tame.pure _
    · exact Tame.modC fun _ => ⟨rfl, rfl⟩
  · exact Tame.finishCbVal _
  · exact Tame.finishCbParser _ _ _
  · exact Tame.finishCbParser _ _ _

/-! ### The control state -/

/-- The control state of the places. -/
def SCtl (ob : Path → Path) (R : Shape) (s : St) : Prop := Ctl R (seen ob s)

theorem SCtl.shrink {s s' : St} (h : SCtl ob R s) (hs : s'.stack <:+ s.stack) (hc : SameCtl s.heap s'.heap) : SCtl ob R s' :=
  Ctl.shrink (s := seen ob s) (s' := seen ob s') h hs (fun q => hc (ob q))

theorem SCtl.disp {s : St} (h : SCtl ob R s) {p} (hp : p ∈ s.stack) : (s.heap (ob p)).disp = true := (h.valid p hp).2
theorem SCtl.at {s : St} (h : SCtl ob R s) {p} (hp : p ∈ s.stack) : ∃ sh, R.at p = some sh := (h.valid p hp).1

/-- The stack lost at least the elements above `l`; no control field changed. -/
def Shr (s : St) (l : List Path) (s' : St) : Prop := s'.stack <:+ l ∧ SameCtl s.heap s'.heap

theorem Shr.ctl {s s' : St} {l} (h : Shr s l s') (hc : SCtl ob R s) (hl : l <:+ s.stack) : SCtl ob R s' := hc.shrink (h.1.trans hl) h.2

abbrev ShrFine {α} (s : St) (l : List Path) (U : Prop) (r : Res α) : Prop := Fine (Shr s l) (fun _ => Shr s s.stack) U r

theorem Tame.shr {α} {m : M α} (h : Tame m) (s : St) : ShrFine s s.stack U (m s) := by
  have := h s
  cases hm : m s with
  | ok a s' => rw [hm] at this; exact ⟨by rw [this.1]; exact List.suffix_refl _, this.2⟩
  | throw a s' => rw [hm] at this; exact ⟨by rw [this.1]; exact List.suffix_refl _, this.2⟩
  | ub => rw [hm] at this; exact this.elim
  | fuel => rw [hm] at this; exact this

theorem ShrFine.bind {α β} {m : M α} {f : α → M β} {s : St} {l l' : List Path} (hl : l <:+ s.stack) (h : ShrFine s l U (m s))
    (hf : ∀ a s', m s = .ok a s' → Shr s l s' → ShrFine s' l' U (f a s')) : ShrFine s l' U (M.bind m f s) := by
  refine Fine.bind h fun a s' e h1 => (hf a s' e h1).mono (fun s2 h2 => ⟨h2.1, h1.2.trans h2.2⟩) (fun _ s2 h2 => ?_) id
  exact ⟨h2.1.trans (h1.1.trans hl), h1.2.trans h2.2⟩

theorem ShrFine.weaken {α} {r : Res α} {s : St} {l l' : List Path} (h : ShrFine s l U r) (hl : l <:+ l') : ShrFine s l' U r :=
  h.mono (fun _ h => ⟨h.1.trans hl, h.2⟩) (fun _ _ => id) id

theorem Shr.self (s : St) : Shr s s.stack s := ⟨List.suffix_refl _, SameCtl.refl _⟩

/-- The four mutually recursive methods: with enough fuel they end, without undefined behaviour, and only remove parsers from the stack. -/
theorem chain : ∀ n : Nat,
    (∀ s, SCtl ob R s → 3 * s.stack.length + 1 ≤ n → ShrFine s s.stack.tail U (popParser ob E R n s)) ∧
    (∀ s p rest, SCtl ob R s → s.stack = p :: rest → 3 * s.stack.length + 3 ≤ n → ShrFine s s.stack U (childParsed ob E R n p s)) ∧
    (∀ s sh p, SCtl ob R s → 3 * s.stack.length + 2 ≤ n →
      ShrFine s (if (s.heap (ob p)).disp then s.stack.tail else s.stack) U (endParsing ob E R n sh p s)) ∧
    (∀ s, SCtl ob R s → 3 * s.stack.length + 3 ≤ n → ShrFine s s.stack U (dispatchMapEnd ob E R n s)) := by
  intro n
  induction n with
  | zero => exact ⟨fun s _ h => by omega, fun s _ _ _ _ h => by omega, fun s _ _ _ h => by omega, fun s _ h => by omega⟩
  | succ n ih =>
    obtain ⟨ih1, ih2, ih3, ih4⟩ := ih
    refine ⟨?_, ?_, ?_, ?_⟩
    · intro s hc hn
      unfold popParser
      match hs : s.stack with
      | [] => exact ⟨by rw [hs]; exact List.suffix_refl _, SameCtl.refl _⟩
      | [p] => exact ⟨List.nil_suffix, SameCtl.refl _⟩
      | p :: q :: r =>
        rw [hs] at hn
        have h1 : SCtl ob R { s with stack := q :: r } := hc.shrink (by rw [hs]; exact List.suffix_cons _ _) (SameCtl.refl _)
        have := ih2 { s with stack := q :: r } q r h1 rfl (by simp at hn ⊢; omega)
        exact this.mono (fun s2 h2 => h2) (fun _ s2 h2 => ⟨h2.1.trans (by rw [hs]; exact List.suffix_cons _ _), h2.2⟩) id
    · intro s p rest hc hs hn
      obtain ⟨sh, hR⟩ := hc.at (p := p) (by simp [hs])
      have hd := hc.disp (p := p) (by simp [hs])
      cases sh with
      | value ty => simp only [childParsed, hR]; exact (Tame.pure ()).shr s
      | ignore => simp only [childParsed, hR]; exact (Tame.pure ()).shr s
      | object k u ms => simp only [childParsed, hR]; exact (Tame.pure ()).shr s
      | array st e =>
        cases st with
        | false => simp only [childParsed, hR]; exact (Tame.pure ()).shr s
        | true =>
          simp only [childParsed, hR]
          refine Tame.shr (Tame.bind (Tame.popVal _) fun v => ?_) s
          exact Tame.modC fun _ => ⟨rfl, rfl⟩
      | map st e =>
        cases st with
        | false => simp only [childParsed, hR]; exact (Tame.elementCb _ _).shr s
        | true =>
          simp only [childParsed, hR]
          refine Tame.shr (Tame.bind (Tame.elementCb _ _) fun _ => Tame.bind (Tame.popVal _) fun v => ?_) s
          exact Tame.modC fun _ => ⟨rfl, rfl⟩
      | union ty tm st ms =>
        simp only [childParsed, hR]
        have h3 := ih3 s (.union ty tm st ms) p hc (by omega)
        rw [if_pos hd] at h3
        refine ShrFine.bind (List.tail_suffix _) h3 fun _ s' e h => ?_
        have hc' : SCtl ob R s' := h.ctl hc (List.tail_suffix _)
        have hw : s'.stack <:+ s.stack := h.1.trans (List.tail_suffix _)
        split
        · rw [bind_getC, (h.2 (ob p)).1, hd]
          simp only [if_true]
          have hl : s'.stack.length ≤ rest.length := by have := h.1.length_le; rw [hs] at this; simpa using this
          exact (ih4 s' hc' (by rw [hs] at hn; simp at hn; omega)).weaken hw
        · exact ((Tame.pure ()).shr s').weaken hw
    · intro s sh p hc hn
      unfold endParsing
      refine ShrFine.bind (List.suffix_refl _) ((Tame.modC (p := ob p) (f := fun c => { c with set := true }) fun _ => ⟨rfl, rfl⟩).shr s) fun _ s1 e1 h1 => ?_
      have hw1 : s1.stack = s.stack := by injection e1 with _ e1; rw [← e1]
      refine ShrFine.bind (by exact List.suffix_refl _) ((Tame.finish sh p).shr s1) fun _ s2 e2 h2 => ?_
      have hw2 : s2.stack = s1.stack := by have := Tame.finish (ob := ob) (E := E) (R := R) sh p s1; rw [e2] at this; exact this.1
      rw [bind_getC, (h2.2 _).1, (h1.2 _).1]
      have hc2 : SCtl ob R s2 := h2.ctl (h1.ctl hc (List.suffix_refl _)) (List.suffix_refl _)
      split
      · have := ih1 s2 hc2 (by rw [hw2, hw1]; omega)
        rw [hw2, hw1] at this; exact this
      · have := (Tame.pure ()).shr (U := U) s2
        rw [hw2, hw1] at this; exact this
    · intro s hc hn
      rw [dispatchMapEnd]; dsimp only
      split
      · rename_i hs; exact ⟨by rw [hs]; exact List.suffix_refl _, SameCtl.refl _⟩
      · rename_i p r hs
        have hd := hc.disp (p := p) (by simp [hs])
        have hend : ∀ sh, ShrFine s s.stack U (endParsing ob E R n sh p s) := fun sh => by
          have := ih3 s sh p hc (by omega)
          rw [if_pos hd] at this; exact this.weaken (List.tail_suffix _)
        split
        · rename_i hR; obtain ⟨sh, hR'⟩ := hc.at (p := p) (by simp [hs]); rw [hR] at hR'; cases hR'
        · split
          · rename_i r' _
            have h0 : SameCtl s.heap (s.heap.upd (ob p) fun c => { c with struct := r' }) := SameCtl.upd fun c => ⟨rfl, rfl⟩
            have h1 : SCtl ob R { s with heap := s.heap.upd (ob p) fun c => { c with struct := r' } } := hc.shrink (List.suffix_refl _) h0
            split
            · have := ih3 { s with heap := s.heap.upd (ob p) fun c => { c with struct := r' } } .ignore p h1 (by simpa using by omega)
              have := this.mono (P' := Shr s s.stack) (X' := fun _ => Shr s s.stack) (U' := U) (fun s2 h2 => ⟨h2.1.trans (by split; exact List.tail_suffix _; exact List.suffix_refl _), h0.trans h2.2⟩) (fun _ s2 h2 => ⟨h2.1, h0.trans h2.2⟩) id
              exact this
            · exact ⟨List.suffix_refl _, h0⟩
          · exact (Tame.throwStd _).shr s
        · exact hend _
        · exact hend _
        · exact hend _
        · exact (Tame.throwStd _).shr s

abbrev SFine {α} (ob : Path → Path) (R : Shape) (r : Res α) : Prop := Fine (SCtl ob R) (fun _ => SCtl ob R) (HasUnionArray R) r

theorem ShrFine.ctl {α} {r : Res α} {s : St} {l} (h : ShrFine s l (HasUnionArray R) r) (hc : SCtl ob R s) (hl : l <:+ s.stack) : SFine ob R r :=
  h.mono (fun _ h => h.ctl hc hl) (fun _ _ h => h.ctl hc (List.suffix_refl _)) id

theorem Tame.ctl {α} {m : M α} (h : Tame m) {s : St} (hc : SCtl ob R s) : SFine ob R (m s) := (h.shr s).ctl hc (List.suffix_refl _)

theorem SFine.bind {α β} {m : M α} {f : α → M β} {s : St} (h : SFine ob R (m s))
    (hf : ∀ a s', m s = .ok a s' → SCtl ob R s' → SFine ob R (f a s')) : SFine ob R (M.bind m f s) := Fine.bind h hf

variable {f : Nat}

theorem SCtl.endP {s : St} (h : SCtl ob R s) (hf : 3 * s.stack.length + 2 ≤ f) (sh p) : SFine ob R (endParsing ob E R f sh p s) :=
  ((chain f).2.2.1 s sh p h hf).ctl h (by split; exact List.tail_suffix _; exact List.suffix_refl _)

theorem SCtl.data {s : St} (h : SCtl ob R s) {o g} (hg : ∀ c : Cell, (g c).disp = c.disp ∧ (g c).started = c.started) :
    SCtl ob R { s with heap := s.heap.upd o g } := h.shrink (List.suffix_refl _) (SameCtl.upd hg)

theorem SCtl.reset {s : St} (h : SCtl ob R s) (p sh) : SCtl ob R { s with heap := resetH ob p sh s.heap } :=
  h.shrink (List.suffix_refl _) (resetH_ctl _ _ _)

theorem SCtl.nullBase {s : St} (h : SCtl ob R s) (hf : 3 * s.stack.length + 2 ≤ f) (sh p) : SFine ob R (onNullBase ob E R f sh p s) := by
  unfold Shd.onNullBase
  rw [bind_modH, bind_getC]
  have h1 := h.reset p sh
  split
  · exact ((chain f).1 _ h1 (by simpa using by omega)).ctl h1 (List.tail_suffix _)
  · exact h1

theorem SCtl.push {s : St} (h : SCtl ob R s) {q rest p sh} (hs : s.stack = q :: rest) (hR : R.at p = some sh) (hd : (s.heap (ob p)).disp = true)
    (hl : Link R p q) : SCtl ob R { s with stack := p :: s.stack } :=
  Ctl.push (s := seen ob s) h hs hR hd hl

theorem SCtl.setDisp (pl : Places R ob) {s : St} (h : SCtl ob R s) {p sh} (hR : R.at p = some sh) : SCtl ob R { s with heap := setDispH ob p sh s.heap } where
  linked := h.linked
  valid := fun a ha => ⟨(h.valid a ha).1, (setDispH_only sh p s.heap).mono (h.valid a ha).2⟩
  closed := closed_setDispH pl h.closed hR
  root := (setDispH_only sh p s.heap).mono h.root
  arr := fun q hq => by
    change (setDispH ob p sh s.heap (ob q)).started = true at hq
    rw [(setDispH_only sh p s.heap).started] at hq; exact h.arr q hq

theorem SCtl.start (pl : Places R ob) {s : St} (h : SCtl ob R s) {p st e b} (hR : R.at p = some (.array st e)) :
    SCtl ob R { s with heap := s.heap.upd (ob p) fun c => { c with started := b } } where
  linked := h.linked
  valid := fun a ha => ⟨(h.valid a ha).1, by show (s.heap.upd _ _ (ob a)).disp = true; rw [upd_started_disp]; exact (h.valid a ha).2⟩
  closed := h.closed.congr fun q => upd_started_disp _
  root := by show (s.heap.upd _ _ (ob [])).disp = true; rw [upd_started_disp]; exact h.root
  arr := fun q hq => by
    change (s.heap.upd (ob p) (fun c => { c with started := b }) (ob q)).started = true at hq
    by_cases hqp : ob q = ob p
    · exact ⟨st, e, by rw [pl.same q p hqp]; exact hR⟩
    · refine h.arr q ?_
      rw [upd_other hqp] at hq
      exact hq

theorem SCtl.onMember {s : St} (h : SCtl ob R s) {p q rest u ms x} (hs : s.stack = q :: rest)
    (hmem : ∀ n sh, lookup x 0 ms = some (n, sh) → R.at (.mem n :: p) = some sh)
    (hign : R.at (.ign :: p) = some .ignore)
    (hcl : (s.heap (ob p)).disp = true → ∀ st, InTree R (st :: p) → (s.heap (ob (st :: p))).disp = true)
    (hl : (s.heap (ob p)).disp = true → ∀ st, Link R (st :: p) q) (hd : (s.heap (ob p)).disp = false → HasUnionArray R) :
    SFine ob R (onMember ob E u ms p x s) := by
  unfold Shd.onMember
  rw [setNotEmpty_def, bind_modC, bind_getC]
  have h1 : SCtl ob R { s with heap := s.heap.upd (ob p) fun c => { c with empty := false } } := h.data fun _ => ⟨rfl, rfl⟩
  have hdd : ∀ a, ((s.heap.upd (ob p) fun c => { c with empty := false }) a).disp = (s.heap a).disp := fun a =>
    ((SameCtl.upd (h := s.heap) (p := ob p) (f := fun c => { c with empty := false }) fun _ => ⟨rfl, rfl⟩) a).1
  simp only
  cases hlk : lookup x 0 ms with
  | some a =>
    obtain ⟨n, sh⟩ := a
    simp only
    rw [hdd]
    split
    · rename_i hdp
      rw [bind_push]
      refine h1.push (q := q) (rest := rest) hs (hmem n sh hlk) ?_ (hl hdp _)
      rw [hdd]; exact hcl hdp _ ⟨_, hmem n sh hlk⟩
    · rename_i hdp; exact hd (by simpa using hdp)
  | none =>
    simp only
    split
    · exact h1
    · rw [hdd]
      split
      · rename_i hdp
        rw [bind_push]
        refine h1.push (q := q) (rest := rest) hs hign ?_ (hl hdp _)
        rw [hdd]; exact hcl hdp _ ⟨_, hign⟩
      · rename_i hu hdp; exact hd (by simpa using hdp)

theorem enough {t : Token} {P : Prop} (h : t = .mapStart ∨ t = .arrStart ∨ P) (h1 : t ≠ .mapStart) (h2 : t ≠ .arrStart) : P := by
  rcases h with h | h | h
  · exact absurd h h1
  · exact absurd h h2
  · exact h

theorem on_ctl (pl : Places R ob) (t : Token) (sh : Shape) : ∀ (p q : Path) (rest : List Path) (s : St),
    (t = .mapStart ∨ t = .arrStart ∨ 3 * s.stack.length + 2 ≤ f) →
    SCtl ob R s → s.stack = q :: rest → R.at p = some sh → Delegated R t p q sh → SFine ob R (on ob E R f sh p t s) := by
  induction sh using Shape.arrInd with
  | value ty =>
    intro p q rest s hf h hs hR hd
    cases t with
    | null => exact h.nullBase (enough hf (by simp) (by simp)) _ _
    | scalar v =>
      simp only [Shd.on]
      split
      · rw [setNotEmpty_def, bind_modC, bind_modC]
        have h1 := h.data (o := ob p) (g := fun c => { c with empty := false }) fun _ => ⟨rfl, rfl⟩
        have h2 := h1.data (o := ob p) (g := fun c => { c with val := .sc v }) fun _ => ⟨rfl, rfl⟩
        exact h2.endP (enough hf (by simp) (by simp)) _ _
      · exact h
    | _ => exact h
  | ignore =>
    intro p q rest s hf h hs hR hd
    cases t with
    | null => exact h.nullBase (enough hf (by simp) (by simp)) _ _
    | scalar v =>
      simp only [Shd.on, bind_getC]
      split
      · exact h.endP (enough hf (by simp) (by simp)) _ _
      · exact h
    | mapStart => exact h.data fun _ => ⟨rfl, rfl⟩
    | arrStart => exact h.data fun _ => ⟨rfl, rfl⟩
    | mapKey k =>
      simp only [Shd.on, bind_getC]
      match (s.heap (ob p)).struct with
      | true :: _ => exact h
      | false :: _ => exact h
      | [] => exact h
    | mapEnd =>
      simp only [Shd.on, bind_getC]
      match (s.heap (ob p)).struct with
      | true :: r =>
        simp only [bind_modC]
        have h1 : SCtl ob R { s with heap := s.heap.upd (ob p) fun c => { c with struct := r } } := h.data fun _ => ⟨rfl, rfl⟩
        split
        · exact h1.endP (by simpa using enough hf (by simp) (by simp)) _ _
        · exact h1
      | false :: _ => exact h
      | [] => exact h
    | arrEnd =>
      simp only [Shd.on, bind_getC]
      match (s.heap (ob p)).struct with
      | false :: r =>
        simp only [bind_modC]
        have h1 : SCtl ob R { s with heap := s.heap.upd (ob p) fun c => { c with struct := r } } := h.data fun _ => ⟨rfl, rfl⟩
        split
        · exact h1.endP (by simpa using enough hf (by simp) (by simp)) _ _
        · exact h1
      | true :: _ => exact h
      | [] => exact h
  | object k u ms =>
    intro p q rest s hf h hs hR hd
    cases t with
    | null => exact h.nullBase (enough hf (by simp) (by simp)) _ _
    | mapStart => exact h.reset _ _
    | mapKey key =>
      simp only [Shd.on]
      have hpq : p = q := by
        rcases hd with hd | ⟨_, _, _, _, _, hd | ⟨_, hd⟩⟩
        · exact hd
        · simp at hd
        · simp at hd
      subst hpq
      have hdp := h.disp (p := p) (by simp [hs])
      refine SFine.bind (h.onMember hs (fun n sh hl => ?_) (at_ign_object hR) ?_ (fun _ st => Or.inl ⟨st, rfl⟩) (fun h => by rw [hdp] at h; cases h)) fun _ _ _ h' => h'
      · obtain ⟨i, hi⟩ := lookup_mem hl
        exact at_mem_object hR hi
      · intro _ st ⟨c, hc⟩
        exact h.closed p _ st c hR hdp (by simp) (by simpa [Shape.at, hR] using hc)
    | mapEnd => exact h.endP (enough hf (by simp) (by simp)) _ _
    | _ => exact h
  | union ty tm b ms =>
    intro p q rest s hf h hs hR hd
    cases t with
    | null => exact h.nullBase (enough hf (by simp) (by simp)) _ _
    | scalar v =>
      simp only [Shd.on]
      split
      · rw [bind_modH]
        have h1 := h.reset p (.union ty tm b ms)
        refine SFine.bind (h1.onMember (q := q) (rest := rest) hs (fun n sh hl => ?_) ?_ ?_ ?_ ?_) fun r s' _ h' => ?_
        · obtain ⟨i, hi⟩ := lookup_mem hl
          exact at_mem_union hR hi
        · simp [Shape.at, hR, Shape.child]
        · intro hdp st ⟨c, hc⟩
          exact h1.closed p _ st c hR hdp (by simp) (by simpa [Shape.at, hR] using hc)
        · intro hdp st
          rcases hd with rfl | ⟨p', a, rfl, hp', hb, _⟩
          · exact Or.inl ⟨st, rfl⟩
          · refine Or.inr ⟨⟨_, _, _, _, _, _, hp'⟩, ?_, ?_⟩
            · exact (hb.trans (Below.cons _ _)).trans (Below.cons _ _)
            · rintro rfl
              have := hb.length_le
              simp at this; omega
        · intro hdp
          have hdp' : (s.heap (ob p)).disp = false := by rw [← (resetH_ctl (.union ty tm b ms) p s.heap (ob p)).1]; exact hdp
          rcases hd with rfl | ⟨p', a, rfl, hp', hb, _⟩
          · have := h.disp (p := p) (by simp [hs]); rw [hdp'] at this; cases this
          · exact ⟨p', _, _, _, _, _, hp'⟩
        · cases r with
          | some n => exact h'.data fun _ => ⟨rfl, rfl⟩
          | none => exact h'
      · exact h
    | mapStart =>
      simp only [Shd.on]
      split
      · exact h
      · exact h.reset _ _
    | mapKey key =>
      simp only [Shd.on]
      split
      · exact h
      · split
        · exact h
        · exact h
    | mapEnd => exact h.endP (enough hf (by simp) (by simp)) _ _
    | _ => exact h
  | map st e =>
    intro p q rest s hf h hs hR hd
    cases t with
    | null => exact h.nullBase (enough hf (by simp) (by simp)) _ _
    | mapStart => exact h.reset _ _
    | mapKey key =>
      have hpq : p = q := by
        rcases hd with hd | ⟨_, _, _, _, _, hd | ⟨_, hd⟩⟩
        · exact hd
        · simp at hd
        · simp at hd
      subst hpq
      have hdp := h.disp (p := p) (by simp [hs])
      simp only [Shd.on, setNotEmpty_def, bind_modC, bind_getC, upd_same]
      rw [if_pos hdp, bind_push]
      have h1 : SCtl ob R { s with heap := s.heap.upd (ob p) fun c => { c with empty := false } } := h.data fun _ => ⟨rfl, rfl⟩
      have hde : ((s.heap.upd (ob p) fun c => { c with empty := false }) (ob (.elem :: p))).disp = true :=
        h1.closed p _ .elem e hR (h1.disp (p := p) (by simp [hs])) (by simp) rfl
      exact (h1.push (q := p) (rest := rest) hs (at_elem_map hR) hde (Or.inl ⟨.elem, rfl⟩)).data fun _ => ⟨rfl, rfl⟩
    | mapEnd => exact h.endP (enough hf (by simp) (by simp)) _ _
    | _ => exact h
  | array st e ih =>
    intro p q rest s hf h hs hR hd
    have hRe := at_elem_array hR
    have hb : Below q p := by
      rcases hd with rfl | ⟨p', a, rfl, hp', hb, _⟩
      · exact Below.refl _
      · exact hb.trans (Below.cons _ _)
    have top : (∀ v, t ≠ .scalar v) → t ≠ .null → p = q := by
      intro h1 h2
      rcases hd with rfl | ⟨p', a, rfl, hp', hb, h3 | ⟨v, h3⟩⟩
      · rfl
      · exact absurd h3 h2
      · exact absurd h3 (h1 v)
    cases t with
    | null =>
      simp only [Shd.on, bind_getC]
      split
      · exact h.nullBase (enough hf (by simp) (by simp)) _ _
      · exact ih _ q rest s (Or.inr (Or.inr (enough hf (by simp) (by simp)))) h hs hRe (Or.inr ⟨p, st, rfl, hR, hb, Or.inl rfl⟩)
    | scalar v =>
      simp only [Shd.on, bind_getC]
      split
      · exact h
      · refine SFine.bind (ih _ q rest s (Or.inr (Or.inr (enough hf (by simp) (by simp)))) h hs hRe (Or.inr ⟨p, st, rfl, hR, hb, Or.inr ⟨v, rfl⟩⟩)) fun _ s1 _ h1 => ?_
        rw [setNotEmpty_def, bind_modC]
        have h2 : SCtl ob R { s1 with heap := s1.heap.upd (ob p) fun c => { c with empty := false } } := h1.data fun _ => ⟨rfl, rfl⟩
        obtain ⟨g, rfl⟩ : ∃ g, f = g + 1 := ⟨f - 1, by have := enough hf (by simp) (by simp); omega⟩
        cases st with
        | false => simp only [childParsed, hR]; exact h2
        | true =>
          simp only [childParsed, hR]
          refine Tame.ctl (Tame.bind (Tame.popVal _) fun v => ?_) h2
          exact Tame.modC fun _ => ⟨rfl, rfl⟩
    | mapStart =>
      obtain rfl := top (by simp) (by simp)
      have hdp := h.disp (p := p) (by simp [hs])
      simp only [Shd.on, bind_getC, hdp, setNotEmpty_def]
      split
      · exact h
      · rw [if_neg (by simp)]
        have h2 := (h.data (o := ob p) (g := fun c => { c with empty := false }) fun _ => ⟨rfl, rfl⟩).setDisp pl hRe
        have h3 := h2.push (q := p) (rest := rest) hs hRe (setDispH_self _ _ _) (Or.inl ⟨_, rfl⟩)
        exact ih _ _ _ _ (Or.inl rfl) h3 rfl hRe (Or.inl rfl)
    | arrStart =>
      obtain rfl := top (by simp) (by simp)
      have hdp := h.disp (p := p) (by simp [hs])
      simp only [Shd.on, bind_getC, hdp, setNotEmpty_def]
      split
      · have h1 := h.reset p (.array st e)
        exact h1.start pl hR
      · rw [if_neg (by simp)]
        have h2 := (h.data (o := ob p) (g := fun c => { c with empty := false }) fun _ => ⟨rfl, rfl⟩).setDisp pl hRe
        have h3 := h2.push (q := p) (rest := rest) hs hRe (setDispH_self _ _ _) (Or.inl ⟨_, rfl⟩)
        exact ih _ _ _ _ (Or.inr (Or.inl rfl)) h3 rfl hRe (Or.inl rfl)
    | arrEnd =>
      simp only [Shd.on, bind_modC]
      exact (h.start pl hR).endP (by simpa using enough hf (by simp) (by simp)) _ _
    | mapKey k => exact h
    | mapEnd => exact h

theorem dispatch_ctl (pl : Places R ob) (t : Token) {s : St} (h : SCtl ob R s) : SFine ob R (dispatch ob E R t s) := by
  unfold Shd.dispatch
  match hs : s.stack with
  | [] => exact h
  | p :: rest =>
    obtain ⟨sh, hR⟩ := h.at (p := p) (by simp [hs])
    simp only [hR]
    exact on_ctl pl t sh p p rest s (Or.inr (Or.inr (by rw [hs]; simp only [fuelFor]; omega))) h hs hR (Or.inl rfl)

theorem run_ctl (pl : Places R ob) (ts : List Token) : ∀ {s : St}, SCtl ob R s → SFine ob R (run ob E R ts s) := by
  induction ts with
  | nil => intro s h; exact h
  | cons t ts ih =>
    intro s h
    exact SFine.bind (dispatch_ctl pl t h) fun _ _ _ h' => ih h'

theorem SCtl.init (pl : Places R ob) : SCtl ob R (init ob R) where
  linked := rfl
  valid := by
    intro p hp
    have : p = [] := by simpa [Shd.init, seen] using hp
    subst this
    exact ⟨⟨R, rfl⟩, setDispH_self _ _ _⟩
  closed := closed_setDispH pl (h := Heap.fresh) (fun q sh st c h1 h2 h3 h4 => by simp [Heap.fresh] at h2) rfl
  root := setDispH_self _ _ _
  arr := fun q hq => by
    change (setDispH ob [] R Heap.fresh (ob q)).started = true at hq
    rw [(setDispH_only R [] Heap.fresh).started] at hq; simp [Heap.fresh] at hq

theorem SCtl.restart {s : St} (h : SCtl ob R s) : SCtl ob R s.restart where
  linked := rfl
  valid := by
    intro p hp
    have : p = [] := by simpa [St.restart, seen] using hp
    subst this
    exact ⟨⟨R, rfl⟩, h.root⟩
  closed := h.closed
  root := h.root
  arr := h.arr

theorem History.ctl (pl : Places R ob) {s : St} (h : History ob R s) : SCtl ob R s := by
  induction h with
  | init => exact SCtl.init pl
  | @tokens E _ _ ts _ hr ih => have := run_ctl (E := E) pl ts ih; rw [hr] at this; exact this
  | @failed E _ _ ts e _ hr ih => have := run_ctl (E := E) pl ts ih; rw [hr] at this; exact this
  | restart _ ih => exact ih.restart
  | @pop _ _ p _ _ _ _ _ hp ih => have := (Tame.popVal (ob p)).ctl ih; unfold pop' at hp; rw [hp] at this; exact this
  | @reset _ p sh _ _ ih => exact ih.reset p sh

/-! ### `YajlParser` -/

variable {Y : Yajl}

/-- The tree is in order, and what is thrown is a `ParsingError`; undefined behaviour only if `U`. -/
def PGood {α} (ob : Path → Path) (R : Shape) (U : Prop) (s0 : PSt Y) : PRes Y α → Prop
  | .ok _ s => SCtl ob R s.st ∧ s.data = s0.data ∧ s.len = s0.len
  | .throw x s => SCtl ob R s.st ∧ ∃ sj y, x = .parsing sj y
  | .ub => U
  | .fuel => False

theorem PGood.bind {α β} {m : P Y α} {f : α → P Y β} {s : PSt Y} (h : PGood ob R U s (m s))
    (hf : ∀ a s', SCtl ob R s'.st → s'.data = s.data → s'.len = s.len → PGood ob R U s (f a s')) : PGood ob R U s (P.bind m f s) := by
  unfold P.bind
  cases hm : m s with
  | ok a s' => rw [hm] at h; exact hf a s' h.1 h.2.1 h.2.2
  | throw x s' => rw [hm] at h; exact h
  | ub => rw [hm] at h; exact h
  | fuel => rw [hm] at h; exact h

theorem onToken_good (pl : Places R ob) (t : Token) {s : PSt Y} (h : SCtl ob R s.st) : PGood ob R (HasUnionArray R) s (onToken ob E R Y t s) := by
  have := dispatch_ctl (E := E) pl t h
  unfold onToken
  cases hd : dispatch ob E R t s.st with
  | ok a st => rw [hd] at this; exact ⟨this, rfl, rfl⟩
  | throw e st =>
    rw [hd] at this
    cases e with
    | std msg => exact ⟨this, rfl, rfl⟩
    | other => exact ⟨this, rfl, rfl⟩
  | ub => rw [hd] at this; exact this
  | fuel => rw [hd] at this; exact this

theorem PGood.from {α} {s s0 : PSt Y} {r : PRes Y α} (h : PGood ob R U s r) (h1 : s.data = s0.data) (h2 : s.len = s0.len) : PGood ob R U s0 r := by
  cases r with
  | ok a s' => exact ⟨h.1, h.2.1.trans h1, h.2.2.trans h2⟩
  | throw x s' => exact h
  | ub => exact h
  | fuel => exact h

theorem report_good (pl : Places R ob) : ∀ (ts : List Token) {s : PSt Y}, SCtl ob R s.st → PGood ob R (HasUnionArray R) s (report ob E R Y ts s)
  | [], s, h => ⟨h, rfl, rfl⟩
  | t :: ts, s, h => by
    refine PGood.bind (onToken_good pl t h) fun go s' h' h1 h2 => ?_
    cases go with
    | true => exact (report_good pl ts h').from h1 h2
    | false => exact ⟨h', h1, h2⟩

theorem advance_good (pl : Places R ob) (out : Y.H × List Token × Bool) {s : PSt Y} (h : SCtl ob R s.st) :
    PGood ob R (HasUnionArray R) s (advance ob E R Y out s) := by
  refine PGood.bind (report_good pl out.2.1 h) fun go s' h' h1 h2 => ?_
  cases go with
  | true => exact ⟨h', h1, h2⟩
  | false => exact ⟨h', h1, h2⟩

theorem yajlParse_good (pl : Places R ob) : ∀ (bs : List UInt8) {s : PSt Y}, SCtl ob R s.st →
    PGood ob R (HasUnionArray R) s (yajlParse ob E R Y bs s)
  | [], s, h => ⟨h, rfl, rfl⟩
  | b :: bs, s, h => by
    unfold yajlParse
    split
    · refine PGood.bind (advance_good pl _ h) fun go s' h' h1 h2 => ?_
      cases go with
      | true => exact (yajlParse_good pl bs h').from h1 h2
      | false => exact ⟨h', h1, h2⟩
    · exact ⟨h, rfl, rfl⟩

theorem throwParsingError_good {m : Mem} {s s0 : PSt Y} (h : SCtl ob R s.st) (hm : (m.read s.data s.len).isSome = true ∨ U) :
    PGood ob R U s0 (throwParsingError Y m s) := by
  unfold throwParsingError
  cases hr : m.read s.data s.len with
  | none => rw [hr] at hm; exact hm.resolve_left (by simp)
  | some bs => exact ⟨h, _, _, rfl⟩

theorem renew_ctl {s : PSt Y} (h : SCtl ob R s.st) : SCtl ob R (PSt.renew Y s).st := by
  unfold PSt.renew
  split
  · exact SCtl.restart h
  · exact h

theorem renew_data (s : PSt Y) : (PSt.renew Y s).data = s.data ∧ (PSt.renew Y s).len = s.len := by
  unfold PSt.renew
  split <;> exact ⟨rfl, rfl⟩

/-- The outcome of `parse()`. -/
theorem parse_good (pl : Places R ob) {m : Mem} {p : Ptr} {len : Nat} {s : PSt Y} (h : SCtl ob R s.st) :
    PGood ob R (HasUnionArray R ∨ m.read p len = none) { s with data := p, len := len } (parse ob E R Y m p len s) := by
  unfold parse
  cases hm : m.read p len with
  | none => exact Or.inr rfl
  | some bs =>
    have hd := renew_data { s with data := p, len := len }
    have h0 : SCtl ob R (PSt.renew Y { s with data := p, len := len }).st := renew_ctl (s := { s with data := p, len := len }) h
    have h1 := (yajlParse_good (E := E) pl bs h0).from hd.1 hd.2
    have h1 : PGood ob R (HasUnionArray R ∨ some bs = none) { s with data := p, len := len } _ :=
      (show ∀ r, PGood ob R (HasUnionArray R) { s with data := p, len := len } r → PGood ob R (HasUnionArray R ∨ some bs = none) { s with data := p, len := len } r from
        fun r => by cases r <;> first | exact id | exact Or.inl) _ h1
    simp only
    unfold P.bind
    cases hy : yajlParse ob E R Y bs (PSt.renew Y { s with data := p, len := len }) with
    | ok good s' =>
      rw [hy] at h1
      simp only
      split
      · exact h1
      · refine throwParsingError_good h1.1 (Or.inl ?_)
        have h2 : s'.data = p := h1.2.1
        have h3 : s'.len = len := h1.2.2
        simp [h2, h3, hm]
    | throw x s' => rw [hy] at h1; exact h1
    | ub => rw [hy] at h1; exact h1
    | fuel => rw [hy] at h1; exact h1

/-- The outcome of `finish()`. -/
theorem finishDoc_good (pl : Places R ob) {m : Mem} {s : PSt Y} (h : SCtl ob R s.st) :
    PGood ob R (HasUnionArray R ∨ m.read s.data s.len = none) s (finishDoc ob E R Y m s) := by
  unfold finishDoc
  have h1 : PGood ob R (HasUnionArray R) { s with resetNeeded := true } (yajlComplete ob E R Y { s with resetNeeded := true }) := by
    unfold yajlComplete
    split
    · exact advance_good pl _ h
    · exact ⟨h, rfl, rfl⟩
  unfold P.bind
  cases hy : yajlComplete ob E R Y { s with resetNeeded := true } with
  | ok good s' =>
    rw [hy] at h1
    have h2 : s'.data = s.data := h1.2.1
    have h3 : s'.len = s.len := h1.2.2
    simp only
    split
    · unfold checkDispatcherStack
      split
      · exact ⟨h1.1, h2, h3⟩
      · exact ⟨h1.1, _, _, rfl⟩
    · refine throwParsingError_good h1.1 ?_
      rw [h2, h3]
      cases m.read s.data s.len with
      | none => exact Or.inr (Or.inr rfl)
      | some _ => exact Or.inl rfl
  | throw x s' => rw [hy] at h1; exact h1
  | ub => rw [hy] at h1; exact Or.inl h1
  | fuel => rw [hy] at h1; exact h1

theorem Used.ctl (pl : Places R ob) {s : PSt Y} (h : Used Y ob R s) : SCtl ob R s.st := by
  induction h with
  | init => exact SCtl.init pl
  | @parsed E _ _ m p len _ hp ih => have := parse_good (E := E) (m := m) (p := p) (len := len) pl ih; rw [hp] at this; exact this.1
  | @refused E _ _ m p len x _ hp ih => have := parse_good (E := E) (m := m) (p := p) (len := len) pl ih; rw [hp] at this; exact this.1
  | @finished E _ _ m _ hp ih => have := finishDoc_good (E := E) (m := m) pl ih; rw [hp] at this; exact this.1
  | @unfinished E _ _ m x _ hp ih => have := finishDoc_good (E := E) (m := m) pl ih; rw [hp] at this; exact this.1
  | @pop _ _ p _ _ _ _ _ hp ih => have := (Tame.popVal (ob p)).ctl ih; unfold pop' at hp; rw [hp] at this; exact this
  | @reset _ p sh _ _ ih => exact ih.reset p sh

end Shd

end SJ
