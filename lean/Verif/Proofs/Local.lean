/-
Operations that only touch the cells below one parser and leave the control fields alone.
-/
import Verif.Proofs.Heap
import Verif.Proofs.Eval

set_option linter.unusedVariables false

namespace SJ

variable {E : Env} {R : Shape}

/-- Heap change below `p` that keeps dispatcher pointers, started flags and ignore structures. -/
structure Quiet (p : Path) (h h' : Heap) : Prop where
  frame : Frame p h h'
  ctl : SameCtl h h'
  struct : ∀ q, (h' q).struct = (h q).struct

theorem Quiet.refl (p h) : Quiet p h h := ⟨Frame.refl _ _, SameCtl.refl _, fun _ => rfl⟩
theorem Quiet.trans {p h h' h''} (a : Quiet p h h') (b : Quiet p h' h'') : Quiet p h h'' :=
  ⟨a.frame.trans b.frame, a.ctl.trans b.ctl, fun q => (b.struct q).trans (a.struct q)⟩
theorem Quiet.up {p p' h h'} (a : Quiet p' h h') (hb : Below p p') : Quiet p h h' :=
  ⟨a.frame.up hb, a.ctl, a.struct⟩
theorem Quiet.upd {h : Heap} {p f}
    (hf : ∀ c, (f c).disp = c.disp ∧ (f c).started = c.started ∧ (f c).struct = c.struct) :
    Quiet p h (h.upd p f) :=
  ⟨Frame.upd _ _ _, SameCtl.upd fun c => ⟨(hf c).1, (hf c).2.1⟩, fun q => by
    rw [upd_apply]; split
    · exact (hf _).2.2
    · rfl⟩

/-- Result of a computation local to `p`. -/
def LocRes {α} (p : Path) (s : St) : Res α → Prop
  | .ok _ s' => s'.stack = s.stack ∧ Quiet p s.heap s'.heap
  | .throw _ s' => s'.stack = s.stack ∧ Quiet p s.heap s'.heap
  | .ub => False
  | .fuel => False

/-- A computation local to `p`. -/
def Loc {α} (p : Path) (m : M α) : Prop := ∀ s, LocRes p s (m s)

theorem Loc.ok {α} {p} {m : M α} (h : Loc p m) {s a s'} (e : m s = .ok a s') :
    s'.stack = s.stack ∧ Quiet p s.heap s'.heap := by
  have := h s; rw [e] at this; exact this

theorem Loc.throw {α} {p} {m : M α} (h : Loc p m) {s e s'} (he : m s = .throw e s') :
    s'.stack = s.stack ∧ Quiet p s.heap s'.heap := by
  have := h s; rw [he] at this; exact this

theorem Loc.not_ub {α} {p} {m : M α} (h : Loc p m) {s} : m s ≠ .ub := by
  intro e; have := h s; rw [e] at this; exact this

theorem Loc.up {α} {p p'} {m : M α} (h : Loc p' m) (hb : Below p p') : Loc p m := by
  intro s; have := h s
  cases hc : m s <;> rw [hc] at this
  · exact ⟨this.1, this.2.up hb⟩
  · exact ⟨this.1, this.2.up hb⟩
  · exact this
  · exact this

theorem Loc.pure {α} (p) (a : α) : Loc p (M.pure a) := fun s => ⟨rfl, Quiet.refl _ _⟩
theorem Loc.throwStd {α} (p) (m : String) : Loc p (throwStd m : M α) := fun s => ⟨rfl, Quiet.refl _ _⟩
theorem Loc.getC (p q) : Loc p (getC q) := fun s => ⟨rfl, Quiet.refl _ _⟩
theorem Loc.modC {p f}
    (hf : ∀ c, (f c).disp = c.disp ∧ (f c).started = c.started ∧ (f c).struct = c.struct) :
    Loc p (modC p f) := fun s => ⟨rfl, Quiet.upd hf⟩

theorem Loc.bind {α β} {p} {m : M α} {f : α → M β} (hm : Loc p m) (hf : ∀ a, Loc p (f a)) :
    Loc p (M.bind m f) := by
  intro s
  have h1 := hm s
  unfold M.bind
  cases h : m s with
  | ok a s' =>
    rw [h] at h1; dsimp only
    have h2 := hf a s'
    cases h' : f a s' <;> rw [h'] at h2
    · exact ⟨h2.1.trans h1.1, h1.2.trans h2.2⟩
    · exact ⟨h2.1.trans h1.1, h1.2.trans h2.2⟩
    · exact h2
    · exact h2
  | throw e s' => rw [h] at h1; exact h1
  | ub => rw [h] at h1; exact h1
  | fuel => rw [h] at h1; exact h1

theorem Loc.ite {α} {p} {c : Prop} [Decidable c] {a b : M α} (ha : Loc p a) (hb : Loc p b) :
    Loc p (if c then a else b) := by split <;> assumption

theorem Loc.popVal (p) : Loc p (popVal p) := by
  intro s; unfold SJ.popVal
  by_cases h : (s.heap p).set = true
  · rw [if_pos h]
    refine ⟨rfl, ?_⟩
    dsimp only
    apply Quiet.upd
    exact fun _ => ⟨rfl, rfl, rfl⟩
  · rw [if_neg h]; exact ⟨rfl, Quiet.refl _ _⟩

theorem Loc.verdict (p v w) : Loc p (verdict v w) := by
  intro s; cases v <;> exact ⟨rfl, Quiet.refl _ _⟩

theorem Loc.finishCbVal (p) : Loc p (finishCbVal E p) := by
  intro s; unfold SJ.finishCbVal
  cases h : E.onFinish p with
  | none => exact ⟨rfl, Quiet.refl _ _⟩
  | some cb => exact Loc.verdict p _ _ { s with log := _ }

theorem cbPops_quiet (sh p) : ∀ (ps : List Path) (h : Heap), Quiet p h (cbPops sh p ps h)
  | [], h => Quiet.refl _ _
  | rel :: ps, h => by
    unfold cbPops
    split
    · split
      · refine Quiet.trans (h' := h.upd (rel ++ p) fun c => { c with set := false, val := .moved })
          (Quiet.up (p' := rel ++ p) (Quiet.upd fun _ => ⟨rfl, rfl, rfl⟩) (Below.append _ _)) ?_
        exact cbPops_quiet sh p ps _
      · exact cbPops_quiet sh p ps h
    · exact cbPops_quiet sh p ps h

theorem verdict_quiet {p v w} {s s0 : St} (h1 : s.stack = s0.stack) (h2 : Quiet p s0.heap s.heap) :
    LocRes p s0 (verdict v w s) := by
  cases v <;> exact ⟨h1, h2⟩

theorem Loc.finishCbParser (sh c p) : Loc p (finishCbParser E sh c p) := by
  intro s; unfold SJ.finishCbParser
  cases h : E.onFinish p with
  | none => exact ⟨rfl, Quiet.refl _ _⟩
  | some cb =>
    refine verdict_quiet (s0 := s) rfl ?_
    refine (cbPops_quiet sh p (cb s.log (Arg.parser (snap s.heap p sh))).pops s.heap).trans ?_
    simp only
    split
    · exact Quiet.upd fun _ => ⟨rfl, rfl, rfl⟩
    · exact Quiet.refl _ _

theorem Loc.elementCb (e p) : Loc p (elementCb E e p) := by
  intro s; unfold SJ.elementCb
  cases h : E.onElement p with
  | none => exact ⟨rfl, Quiet.refl _ _⟩
  | some cb =>
    refine verdict_quiet (s0 := s) rfl ?_
    exact (cbPops_quiet e _ _ _).up (Below.cons _ _)

theorem Loc.setValues (p ms) : ∀ n, Loc p (setValues p n ms) := by
  induction ms with
  | nil => intro n; exact Loc.pure _ _
  | cons m ms ih =>
    intro n; obtain ⟨i, sh⟩ := m
    unfold SJ.setValues
    refine Loc.bind (ih _) fun vs => Loc.bind (Loc.getC _ _) fun c => Loc.ite ?_ (Loc.ite ?_ ?_)
    · exact Loc.bind ((Loc.popVal _).up (Below.cons _ _)) fun v => Loc.pure _ _
    · cases i.dflt <;> first | exact Loc.pure _ _ | exact Loc.throwStd _ _
    · exact Loc.throwStd _ _

theorem Loc.currentMemberId (p) : Loc p (currentMemberId p) := by
  intro s; unfold SJ.currentMemberId
  by_cases h : (s.heap p).set = true
  · rw [if_pos h]; exact ⟨rfl, Quiet.refl _ _⟩
  · rw [if_neg h]; exact ⟨rfl, Quiet.refl _ _⟩

theorem Loc.checkAlt (p ms) : ∀ n, Loc p (checkAlt p n ms) := by
  induction ms with
  | nil => intro n; exact Loc.pure _ _
  | cons m ms ih =>
    intro n; obtain ⟨i, sh⟩ := m
    unfold SJ.checkAlt
    exact Loc.bind (ih _) fun vs => Loc.bind (Loc.currentMemberId _) fun c =>
      Loc.ite (Loc.pure _ _) (Loc.bind (Loc.getC _ _) fun c => Loc.ite (Loc.throwStd _ _) (Loc.pure _ _))

theorem Loc.setAlt (p ms) : ∀ n, Loc p (setAlt p n ms) := by
  induction ms with
  | nil => intro n; exact Loc.pure _ _
  | cons m ms ih =>
    intro n; obtain ⟨i, sh⟩ := m
    unfold SJ.setAlt
    refine Loc.bind (ih _) fun vs => Loc.bind (Loc.currentMemberId _) fun c =>
      Loc.ite (Loc.pure _ _) (Loc.bind (Loc.getC _ _) fun c => Loc.ite ?_ (Loc.ite ?_ ?_))
    · exact Loc.bind ((Loc.popVal _).up (Below.cons _ _)) fun v => Loc.pure _ _
    · cases i.dflt <;> first | exact Loc.pure _ _ | exact Loc.throwStd _ _
    · exact Loc.throwStd _ _

theorem Loc.unsetOnThrow {α} (p) {m : M α} (h : Loc p m) : Loc p (unsetOnThrow p m) := by
  intro s; have := h s; unfold SJ.unsetOnThrow
  cases h' : m s <;> rw [h'] at this
  · exact this
  · refine ⟨this.1, this.2.trans ?_⟩
    dsimp only; apply Quiet.upd
    exact fun _ => ⟨rfl, rfl, rfl⟩
  · exact this
  · exact this

theorem Loc.wrapOnThrow {α} (p) {m : M α} (h : Loc p m) : Loc p (wrapOnThrow p m) := by
  intro s; have := h s; unfold SJ.wrapOnThrow
  cases h' : m s <;> rw [h'] at this
  · exact this
  · refine ⟨this.1, this.2.trans ?_⟩
    dsimp only; apply Quiet.upd
    exact fun _ => ⟨rfl, rfl, rfl⟩
  · exact this
  · exact this

theorem Loc.unset (p) : Loc p (unset p) := Loc.modC fun _ => ⟨rfl, rfl, rfl⟩
theorem Loc.setNotEmpty (p) : Loc p (setNotEmpty p) := Loc.modC fun _ => ⟨rfl, rfl, rfl⟩

theorem Loc.unlessEmpty (p) {m : M Unit} (h : Loc p m) : Loc p (unlessEmpty p m) :=
  Loc.bind (Loc.getC _ _) fun _ => Loc.ite (Loc.unset _) h

theorem Loc.finish (sh p) : Loc p (finish E sh p) := by
  unfold SJ.finish
  split
  · exact Loc.finishCbVal _
  · exact Loc.pure _ _
  · exact Loc.unlessEmpty _ (Loc.bind (Loc.wrapOnThrow _ (Loc.setValues _ _ _)) fun _ =>
      Loc.bind (Loc.modC fun _ => ⟨rfl, rfl, rfl⟩) fun _ => Loc.finishCbVal _)
  · refine Loc.unlessEmpty _ (Loc.bind (Loc.unsetOnThrow _ ?_) fun _ => Loc.finishCbParser _ _ _)
    intro s; simp only
    split
    · exact ⟨rfl, Quiet.refl _ _⟩
    · exact ⟨rfl, Quiet.refl _ _⟩
  · exact Loc.unlessEmpty _ (Loc.bind (Loc.unsetOnThrow _ (Loc.checkAlt _ _ _)) fun _ =>
      Loc.finishCbParser _ _ _)
  · refine Loc.unlessEmpty _ (Loc.bind (Loc.wrapOnThrow _ (Loc.setAlt _ _ _)) fun r => 
      Loc.bind ?_ fun _ => Loc.finishCbVal _)
    cases r
    · exact Loc.pure _ _
    · exact Loc.modC fun _ => ⟨rfl, rfl, rfl⟩
  · exact Loc.finishCbVal _
  · exact Loc.finishCbParser _ _ _
  · exact Loc.finishCbParser _ _ _

theorem Loc.complete (sh p) : Loc p (complete E sh p) :=
  Loc.bind (Loc.modC fun _ => ⟨rfl, rfl, rfl⟩) fun _ => Loc.finish _ _

theorem Loc.arrChild (st p) : Loc p (arrChild st p) := by
  unfold SJ.arrChild
  split
  · exact Loc.bind ((Loc.popVal _).up (Below.cons _ _)) fun v => Loc.modC fun _ => ⟨rfl, rfl, rfl⟩
  · exact Loc.pure _ _

theorem Loc.mapChild (st e p) : Loc p (mapChild E st e p) := by
  unfold SJ.mapChild
  split
  · exact Loc.bind (Loc.elementCb _ _) fun _ => Loc.bind ((Loc.popVal _).up (Below.cons _ _)) fun v =>
      Loc.modC fun _ => ⟨rfl, rfl, rfl⟩
  · exact Loc.elementCb _ _

/-! ### setDispatcher -/

mutual
theorem setDispH_frame : ∀ (sh : Shape) (p : Path) (h : Heap), Frame p h (setDispH p sh h)
  | .value _, p, h => Frame.upd _ _ _
  | .ignore, p, h => Frame.upd _ _ _
  | .array _ _, p, h => Frame.upd _ _ _
  | .object k u ms, p, h => by
    simp only [setDispH]
    exact ((Frame.upd p h _).trans (setDispMs_frame ms p 0 _)).trans
      ((Frame.upd (.ign :: p) _ _).up (Below.cons _ _))
  | .union ty tm st ms, p, h => by
    simp only [setDispH]
    exact ((Frame.upd p h _).trans (setDispMs_frame ms p 0 _)).trans
      ((Frame.upd (.ign :: p) _ _).up (Below.cons _ _))
  | .map st e, p, h => (Frame.upd p h _).trans ((setDispH_frame e (.elem :: p) _).up (Below.cons _ _))
theorem setDispMs_frame : ∀ (ms : List (MInfo × Shape)) (p : Path) (n : Nat) (h : Heap),
    Frame p h (setDispMs p n ms h)
  | [], p, n, h => Frame.refl _ _
  | (i, sh) :: ms, p, n, h =>
    ((setDispH_frame sh (.mem n :: p) h).up (Below.cons _ _)).trans (setDispMs_frame ms p (n + 1) _)
end

/-- Only dispatcher pointers are set. -/
def DispOnly (h h' : Heap) : Prop :=
  ∀ q, h' q = h q ∨ h' q = { h q with disp := true }

theorem DispOnly.refl (h) : DispOnly h h := fun _ => Or.inl rfl
theorem DispOnly.trans {h h' h''} (a : DispOnly h h') (b : DispOnly h' h'') : DispOnly h h'' := by
  intro q
  rcases a q with ha | ha <;> rcases b q with hb | hb <;> rw [hb, ha] <;> simp
theorem DispOnly.upd (h : Heap) (p) : DispOnly h (h.upd p fun c => { c with disp := true }) := by
  intro q; rw [upd_apply]; split
  · exact Or.inr rfl
  · exact Or.inl rfl

mutual
theorem setDispH_only : ∀ (sh : Shape) (p : Path) (h : Heap), DispOnly h (setDispH p sh h)
  | .value _, p, h => DispOnly.upd _ _
  | .ignore, p, h => DispOnly.upd _ _
  | .array _ _, p, h => DispOnly.upd _ _
  | .object k u ms, p, h => by
    simp only [setDispH]
    exact ((DispOnly.upd h p).trans (setDispMs_only ms p 0 _)).trans (DispOnly.upd _ _)
  | .union ty tm st ms, p, h => by
    simp only [setDispH]
    exact ((DispOnly.upd h p).trans (setDispMs_only ms p 0 _)).trans (DispOnly.upd _ _)
  | .map st e, p, h => (DispOnly.upd h p).trans (setDispH_only e (.elem :: p) _)
theorem setDispMs_only : ∀ (ms : List (MInfo × Shape)) (p : Path) (n : Nat) (h : Heap),
    DispOnly h (setDispMs p n ms h)
  | [], p, n, h => DispOnly.refl _
  | (i, sh) :: ms, p, n, h => (setDispH_only sh (.mem n :: p) h).trans (setDispMs_only ms p (n + 1) _)
end

theorem DispOnly.mono {h h'} (a : DispOnly h h') {q} (hq : (h q).disp = true) : (h' q).disp = true := by
  rcases a q with e | e <;> rw [e]
  exact hq
theorem DispOnly.started {h h'} (a : DispOnly h h') (q) : (h' q).started = (h q).started := by
  rcases a q with e | e <;> rw [e]
theorem DispOnly.struct {h h'} (a : DispOnly h h') (q) : (h' q).struct = (h q).struct := by
  rcases a q with e | e <;> rw [e]

/-- A parser with a dispatcher has passed it on to its children, unless it is an array. -/
def DClosed (R : Shape) (h : Heap) : Prop :=
  ∀ q sh st c, R.at q = some sh → (h q).disp = true → (∀ b e, sh ≠ .array b e) → sh.child st = some c →
    (h (st :: q)).disp = true

theorem setDispH_self (sh p h) : (setDispH p sh h p).disp = true := by
  have key : ∀ (h' : Heap), (h' p).disp = true → ∀ h'', DispOnly h' h'' → (h'' p).disp = true :=
    fun h' h1 h'' h2 => h2.mono h1
  cases sh with
  | value | ignore | array => simp [setDispH]
  | object k u ms =>
    simp only [setDispH]
    refine key (h.upd p fun c => { c with disp := true }) (by simp) _ ?_
    exact (setDispMs_only ms p 0 _).trans (DispOnly.upd _ _)
  | union ty tm st ms =>
    simp only [setDispH]
    refine key (h.upd p fun c => { c with disp := true }) (by simp) _ ?_
    exact (setDispMs_only ms p 0 _).trans (DispOnly.upd _ _)
  | map st e =>
    simp only [setDispH]
    exact key (h.upd p fun c => { c with disp := true }) (by simp) _ (setDispH_only e _ _)

/-- Reached by `setDispatcher` called at `p` (a parser `sh`). -/
inductive Reach : Shape → Path → Path → Prop
  | self {sh p} : Reach sh p p
  | step {sh p q st c} : (∀ b e, sh ≠ .array b e) → sh.child st = some c → Reach c (st :: p) q → Reach sh p q

theorem Reach.snoc {sh p q} (h : Reach sh p q) : R.at p = some sh → ∀ sh' st c, R.at q = some sh' →
    (∀ b e, sh' ≠ .array b e) → sh'.child st = some c → Reach sh p (st :: q) := by
  induction h with
  | self =>
    intro hR sh' st c h1 h2 h3
    rw [hR] at h1; injection h1 with h1; subst h1
    exact .step h2 h3 .self
  | step ha hc _ ih =>
    intro hR sh' st c h1 h2 h3
    exact .step ha hc (ih (by simp [Shape.at, hR, hc]) sh' st c h1 h2 h3)

/-- Below its starting point, `Reach` never enters the element of an array. -/
theorem Reach.not_elem {sh p q} (h : Reach sh p q) : R.at p = some sh → q = p ∨
    ∃ st q' sh', q = st :: q' ∧ R.at q' = some sh' ∧ ∀ b e, sh' ≠ .array b e := by
  induction h with
  | self => intro _; left; rfl
  | @step sh p q st c ha hc _ ih =>
    intro hR
    rcases ih (by simp [Shape.at, hR, hc]) with h | h
    · right; exact ⟨st, p, sh, h, hR, ha⟩
    · right; exact h

theorem setDispMs_mem : ∀ (ms : List (MInfo × Shape)) (p : Path) (n : Nat) (h : Heap) (m : Nat) (i : MInfo)
    (sh : Shape), ms[m]? = some (i, sh) →
    ∃ h0, DispOnly (setDispH (.mem (n + m) :: p) sh h0) (setDispMs p n ms h)
  | [], p, n, h, m, i, sh, hm => by simp at hm
  | (i', sh') :: ms, p, n, h, 0, i, sh, hm => by
    simp at hm; obtain ⟨rfl, rfl⟩ := hm
    exact ⟨h, setDispMs_only ms p (n + 1) _⟩
  | (i', sh') :: ms, p, n, h, m + 1, i, sh, hm => by
    obtain ⟨h0, hh⟩ := setDispMs_mem ms p (n + 1) (setDispH (.mem n :: p) sh' h) m i sh (by simpa using hm)
    exact ⟨h0, by rw [show n + (m + 1) = n + 1 + m by omega]; exact hh⟩

theorem setDispH_child {sh p st c} (h : Heap) (ha : ∀ b e, sh ≠ .array b e) (hc : sh.child st = some c) :
    ∃ h0, DispOnly (setDispH (st :: p) c h0) (setDispH p sh h) := by
  cases sh with
  | value => simp [Shape.child] at hc
  | ignore => simp [Shape.child] at hc
  | array b e => exact absurd rfl (ha b e)
  | object k u ms =>
    cases st with
    | mem n =>
      simp [Shape.child] at hc
      obtain ⟨i, hi⟩ := hc
      obtain ⟨h0, hh⟩ := setDispMs_mem ms p 0 (h.upd p fun c => { c with disp := true }) n i c hi
      rw [Nat.zero_add] at hh
      exact ⟨h0, hh.trans (DispOnly.upd _ _)⟩
    | ign =>
      simp [Shape.child] at hc; subst hc
      exact ⟨_, DispOnly.refl _⟩
    | elem => simp [Shape.child] at hc
  | union ty tm b ms =>
    cases st with
    | mem n =>
      simp [Shape.child] at hc
      obtain ⟨i, hi⟩ := hc
      obtain ⟨h0, hh⟩ := setDispMs_mem ms p 0 (h.upd p fun c => { c with disp := true }) n i c hi
      rw [Nat.zero_add] at hh
      exact ⟨h0, hh.trans (DispOnly.upd _ _)⟩
    | ign =>
      simp [Shape.child] at hc; subst hc
      exact ⟨_, DispOnly.refl _⟩
    | elem => simp [Shape.child] at hc
  | map b e =>
    cases st with
    | elem =>
      simp [Shape.child] at hc; subst hc
      exact ⟨_, DispOnly.refl _⟩
    | _ => simp [Shape.child] at hc

theorem Reach.disp {sh p q} (hr : Reach sh p q) : ∀ h, (setDispH p sh h q).disp = true := by
  induction hr with
  | self => exact fun h => setDispH_self _ _ _
  | step ha hc _ ih =>
    intro h
    obtain ⟨h0, hh⟩ := setDispH_child h ha hc
    exact hh.mono (ih h0)

theorem disp_upd {h : Heap} {p q} (hq : (h.upd p (fun c => { c with disp := true }) q).disp = true) :
    (h q).disp = true ∨ q = p := by
  rw [upd_apply] at hq
  by_cases e : q = p
  · exact Or.inr e
  · rw [if_neg e] at hq; exact Or.inl hq

mutual
theorem setDispH_disp : ∀ (sh : Shape) (p : Path) (h : Heap) (q : Path), (setDispH p sh h q).disp = true →
    (h q).disp = true ∨ Reach sh p q
  | .value _, p, h, q, hq => (disp_upd hq).imp_right fun e => by rw [e]; exact .self
  | .ignore, p, h, q, hq => (disp_upd hq).imp_right fun e => by rw [e]; exact .self
  | .array _ _, p, h, q, hq => (disp_upd hq).imp_right fun e => by rw [e]; exact .self
  | .object k u ms, p, h, q, hq => by
    simp only [setDispH] at hq
    rcases disp_upd hq with hq | rfl
    · rcases setDispMs_disp ms p 0 _ q hq with hq | ⟨m, i, sh, h1, h2⟩
      · rcases disp_upd hq with hq | rfl
        · exact Or.inl hq
        · exact Or.inr .self
      · rw [Nat.zero_add] at h2
        exact Or.inr (.step (st := .mem m) (by simp) (by simp [Shape.child, h1]) h2)
    · exact Or.inr (.step (st := .ign) (c := .ignore) (by simp) (by simp [Shape.child]) .self)
  | .union ty tm st ms, p, h, q, hq => by
    simp only [setDispH] at hq
    rcases disp_upd hq with hq | rfl
    · rcases setDispMs_disp ms p 0 _ q hq with hq | ⟨m, i, sh, h1, h2⟩
      · rcases disp_upd hq with hq | rfl
        · exact Or.inl hq
        · exact Or.inr .self
      · rw [Nat.zero_add] at h2
        exact Or.inr (.step (st := .mem m) (by simp) (by simp [Shape.child, h1]) h2)
    · exact Or.inr (.step (st := .ign) (c := .ignore) (by simp) (by simp [Shape.child]) .self)
  | .map st e, p, h, q, hq => by
    simp only [setDispH] at hq
    rcases setDispH_disp e _ _ q hq with hq | hq
    · rcases disp_upd hq with hq | rfl
      · exact Or.inl hq
      · exact Or.inr .self
    · exact Or.inr (.step (st := .elem) (by simp) (by simp [Shape.child]) hq)
theorem setDispMs_disp : ∀ (ms : List (MInfo × Shape)) (p : Path) (n : Nat) (h : Heap) (q : Path),
    (setDispMs p n ms h q).disp = true →
    (h q).disp = true ∨ ∃ m i sh, ms[m]? = some (i, sh) ∧ Reach sh (.mem (n + m) :: p) q
  | [], p, n, h, q, hq => Or.inl hq
  | (i, sh) :: ms, p, n, h, q, hq => by
    rcases setDispMs_disp ms p (n + 1) _ q hq with hq | ⟨m, i', sh', h1, h2⟩
    · rcases setDispH_disp sh _ _ q hq with hq | hq
      · exact Or.inl hq
      · exact Or.inr ⟨0, i, sh, by simp, hq⟩
    · exact Or.inr ⟨m + 1, i', sh', by simpa using h1, by
        rw [show n + (m + 1) = n + 1 + m by omega]; exact h2⟩
end

theorem DClosed.setDispH {h : Heap} {p sh} (hd : DClosed R h) (hR : R.at p = some sh) :
    DClosed R (setDispH p sh h) := by
  intro q sh' st c h1 h2 h3 h4
  rcases setDispH_disp sh p h q h2 with h2 | h2
  · exact (setDispH_only sh p h).mono (hd q sh' st c h1 h2 h3 h4)
  · exact (h2.snoc hR sh' st c h1 h3 h4).disp h

theorem DClosed.ctl {h h' : Heap} (hd : DClosed R h) (hc : SameCtl h h') : DClosed R h' := by
  intro q sh st c h1 h2 h3 h4
  rw [(hc _).1] at h2 ⊢
  exact hd q sh st c h1 h2 h3 h4

theorem DClosed.fresh : DClosed R Heap.fresh := by
  intro q sh st c _ h2; simp [Heap.fresh] at h2

end SJ
