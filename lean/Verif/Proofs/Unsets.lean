/-
The local parts of the machine set no parser but the one that completes.
-/
import Verif.Proofs.Sim

set_option linter.unusedVariables false

namespace SJ

variable {E : Env} {R : Shape}

/-- No parser that was unset is set in `h'`. -/
def NoSet (h h' : Heap) : Prop := ∀ q, (h' q).set = true → (h q).set = true

theorem NoSet.refl (h) : NoSet h h := fun _ a => a
theorem NoSet.trans {h h' h''} (a : NoSet h h') (b : NoSet h' h'') : NoSet h h'' := fun q x => a q (b q x)
theorem NoSet.upd {h : Heap} {p f} (hf : ∀ c, (f c).set = true → c.set = true) : NoSet h (h.upd p f) := by
  intro q hq
  rw [upd_apply] at hq; split at hq
  · exact hf _ hq
  · exact hq

/-- A computation that sets no parser. -/
def NS {α} (m : M α) : Prop := ∀ s a s', m s = .ok a s' → NoSet s.heap s'.heap

theorem NS.pure {α} (a : α) : NS (M.pure a) := by
  intro s b s' h; injection h with _ h; subst h; exact NoSet.refl _
theorem NS.throwStd {α} (m : String) : NS (throwStd m : M α) := by
  intro s b s' h; simp [SJ.throwStd] at h
theorem NS.getC (p) : NS (getC p) := by
  intro s b s' h; injection h with _ h; subst h; exact NoSet.refl _
theorem NS.modC {p f} (hf : ∀ c : Cell, (f c).set = true → c.set = true) : NS (modC p f) := by
  intro s b s' h; injection h with _ h; subst h
  exact NoSet.upd hf
theorem NS.bind {α β} {m : M α} {f : α → M β} (hm : NS m) (hf : ∀ a, NS (f a)) : NS (M.bind m f) := by
  intro s b s' h
  obtain ⟨a, s1, h1, h2⟩ := bind_ok_inv h
  exact (hm _ _ _ h1).trans (hf a _ _ _ h2)
theorem NS.ite {α} {c : Prop} [Decidable c] {a b : M α} (ha : NS a) (hb : NS b) : NS (if c then a else b) := by
  split <;> assumption
theorem NS.popVal (p) : NS (popVal p) := by
  intro s b s' h; unfold SJ.popVal at h; split at h
  · injection h with _ h; subst h
    apply NoSet.upd; intro c hc; simp at hc
  · simp at h
theorem NS.verdict (v w) : NS (verdict v w) := by
  intro s b s' h; cases v
  · exact NS.pure _ _ _ _ h
  · exact NS.throwStd _ _ _ _ h
  · simp [SJ.verdict] at h
theorem NS.finishCbVal (p) : NS (finishCbVal E p) := by
  intro s b s' h; unfold SJ.finishCbVal at h
  cases hc : E.onFinish p with
  | none => rw [hc] at h; injection h with _ h; subst h; exact NoSet.refl _
  | some cb =>
    rw [hc] at h
    have := NS.verdict _ _ _ _ _ h
    exact this
theorem cbPops_noset (sh p) : ∀ (ps : List Path) (h : Heap), NoSet h (cbPops sh p ps h)
  | [], h => NoSet.refl _
  | rel :: ps, h => by
    unfold cbPops
    split
    · split
      · refine NoSet.trans (h' := h.upd (rel ++ p) fun c => { c with set := false, val := .moved }) ?_ (cbPops_noset sh p ps _)
        apply NoSet.upd; intro c hc; simp at hc
      · exact cbPops_noset sh p ps h
    · exact cbPops_noset sh p ps h
theorem NS.finishCbParser (sh c p) : NS (finishCbParser E sh c p) := by
  intro s b s' h; unfold SJ.finishCbParser at h
  cases hc : E.onFinish p with
  | none => rw [hc] at h; injection h with _ h; subst h; exact NoSet.refl _
  | some cb =>
    rw [hc] at h
    refine NoSet.trans (h' := cbPops sh p (cb s.log (Arg.parser (snap s.heap p sh))).pops s.heap) (cbPops_noset _ _ _ _) ?_
    refine NoSet.trans ?_ (NS.verdict _ _ _ _ _ h)
    simp only
    split
    · exact NoSet.upd fun _ h => h
    · exact NoSet.refl _
theorem NS.elementCb (e p) : NS (elementCb E e p) := by
  intro s b s' h; unfold SJ.elementCb at h
  cases hc : E.onElement p with
  | none => rw [hc] at h; injection h with _ h; subst h; exact NoSet.refl _
  | some cb =>
    rw [hc] at h
    refine NoSet.trans ?_ (NS.verdict _ _ _ _ _ h)
    exact cbPops_noset _ _ _ _
theorem NS.setValues (p ms) : ∀ n, NS (setValues p n ms) := by
  induction ms with
  | nil => intro n; exact NS.pure _
  | cons m ms ih =>
    intro n; obtain ⟨i, sh⟩ := m
    unfold SJ.setValues
    refine NS.bind (ih _) fun vs => NS.bind (NS.getC _) fun c => NS.ite ?_ (NS.ite ?_ ?_)
    · exact NS.bind (NS.popVal _) fun v => NS.pure _
    · cases i.dflt <;> first | exact NS.pure _ | exact NS.throwStd _
    · exact NS.throwStd _
theorem NS.currentMemberId (p) : NS (currentMemberId p) := by
  intro s b s' h; unfold SJ.currentMemberId at h; split at h
  · injection h with _ h; subst h; exact NoSet.refl _
  · simp at h
theorem NS.checkAlt (p ms) : ∀ n, NS (checkAlt p n ms) := by
  induction ms with
  | nil => intro n; exact NS.pure _
  | cons m ms ih =>
    intro n; obtain ⟨i, sh⟩ := m
    unfold SJ.checkAlt
    exact NS.bind (ih _) fun vs => NS.bind (NS.currentMemberId _) fun c =>
      NS.ite (NS.pure _) (NS.bind (NS.getC _) fun c => NS.ite (NS.throwStd _) (NS.pure _))
theorem NS.setAlt (p ms) : ∀ n, NS (setAlt p n ms) := by
  induction ms with
  | nil => intro n; exact NS.pure _
  | cons m ms ih =>
    intro n; obtain ⟨i, sh⟩ := m
    unfold SJ.setAlt
    refine NS.bind (ih _) fun vs => NS.bind (NS.currentMemberId _) fun c =>
      NS.ite (NS.pure _) (NS.bind (NS.getC _) fun c => NS.ite ?_ (NS.ite ?_ ?_))
    · exact NS.bind (NS.popVal _) fun v => NS.pure _
    · cases i.dflt <;> first | exact NS.pure _ | exact NS.throwStd _
    · exact NS.throwStd _
theorem NS.unsetOnThrow {α} (p) {m : M α} (h : NS m) : NS (unsetOnThrow p m) := by
  intro s b s' h'; unfold SJ.unsetOnThrow at h'
  cases hm : m s <;> rw [hm] at h'
  · exact h _ _ _ (hm.trans h')
  all_goals simp at h'
theorem NS.wrapOnThrow {α} (p) {m : M α} (h : NS m) : NS (wrapOnThrow p m) := by
  intro s b s' h'; unfold SJ.wrapOnThrow at h'
  cases hm : m s <;> rw [hm] at h'
  · exact h _ _ _ (hm.trans h')
  all_goals simp at h'
theorem NS.unset (p) : NS (unset p) := NS.modC fun _ h => by simp at h
theorem NS.setNotEmpty (p) : NS (setNotEmpty p) := NS.modC fun _ h => h
theorem NS.unlessEmpty (p) {m : M Unit} (h : NS m) : NS (unlessEmpty p m) :=
  NS.bind (NS.getC _) fun _ => NS.ite (NS.unset _) h
theorem NS.finish (sh p) : NS (finish E sh p) := by
  unfold SJ.finish
  split
  · exact NS.finishCbVal _
  · exact NS.pure _
  · exact NS.unlessEmpty _ (NS.bind (NS.wrapOnThrow _ (NS.setValues _ _ _)) fun _ =>
      NS.bind (NS.modC fun _ h => h) fun _ => NS.finishCbVal _)
  · refine NS.unlessEmpty _ (NS.bind (NS.unsetOnThrow _ ?_) fun _ => NS.finishCbParser _ _ _)
    intro s a s' h; simp only at h
    split at h
    · simp at h
    · injection h with _ h; subst h; exact NoSet.refl _
  · exact NS.unlessEmpty _ (NS.bind (NS.unsetOnThrow _ (NS.checkAlt _ _ _)) fun _ => NS.finishCbParser _ _ _)
  · refine NS.unlessEmpty _ (NS.bind (NS.wrapOnThrow _ (NS.setAlt _ _ _)) fun r => NS.bind ?_ fun _ => NS.finishCbVal _)
    cases r
    · exact NS.pure _
    · exact NS.modC fun _ h => h
  · exact NS.finishCbVal _
  · exact NS.finishCbParser _ _ _
  · exact NS.finishCbParser _ _ _
theorem NS.arrChild (st p) : NS (arrChild st p) := by
  unfold SJ.arrChild
  split
  · exact NS.bind (NS.popVal _) fun v => NS.modC fun _ h => h
  · exact NS.pure _
theorem NS.mapChild (st e p) : NS (mapChild E st e p) := by
  unfold SJ.mapChild
  split
  · exact NS.bind (NS.elementCb _ _) fun _ => NS.bind (NS.popVal _) fun v => NS.modC fun _ h => h
  · exact NS.elementCb _ _

/-- Completing `p` sets at most `p`. -/
theorem complete_noset {sh p} {s s' : St} {a} (h : complete E sh p s = .ok a s') {q} (hq : q ≠ p)
    (hs : (s'.heap q).set = true) : (s.heap q).set = true := by
  unfold complete at h
  rw [bind_modC] at h
  have := NS.finish _ _ _ _ _ h q hs
  simpa [upd_other hq] using this

mutual
theorem resetH_noset : ∀ (sh : Shape) (p : Path) (h : Heap), NoSet h (resetH p sh h)
  | .value _, p, h => NoSet.upd fun _ hc => by simp [Cell.baseReset] at hc
  | .ignore, p, h => NoSet.upd fun _ hc => by simp [Cell.baseReset] at hc
  | .object k u ms, p, h => by
    have h1 := (NoSet.upd (h := h) (p := p) (f := Cell.baseReset) fun _ hc => by simp [Cell.baseReset] at hc).trans
      (resetMs_noset ms p 0 (h.upd p Cell.baseReset))
    have h2 := h1.trans (NoSet.upd (p := .ign :: p) (f := fun c => { c.baseReset with struct := [] }) fun _ hc => by simp [Cell.baseReset] at hc)
    cases k <;> simp only [resetH]
    · exact h2
    · exact h2.trans (NoSet.upd fun _ h => h)
    · exact h2.trans (NoSet.upd fun _ h => h)
  | .union ty tm st ms, p, h => by
    have h1 := (NoSet.upd (h := h) (p := p) (f := fun c => { c with curId := 0 }) fun _ h => h).trans
      ((NoSet.upd (p := p) (f := Cell.baseReset) fun _ hc => by simp [Cell.baseReset] at hc).trans (resetMs_noset ms p 0 _))
    have h2 := h1.trans (NoSet.upd (p := .ign :: p) (f := fun c => { c.baseReset with struct := [] }) fun _ hc => by simp [Cell.baseReset] at hc)
    cases st <;> simp only [resetH, Bool.false_eq_true, if_false, if_true]
    · exact h2
    · exact h2.trans (NoSet.upd fun _ h => h)
  | .array st e, p, h => by
    have h1 := (NoSet.upd (h := h) (p := p) (f := Cell.baseReset) fun _ hc => by simp [Cell.baseReset] at hc).trans (resetH_noset e (.elem :: p) _)
    cases st <;> simp only [resetH, Bool.false_eq_true, if_false, if_true]
    · exact h1
    · exact h1.trans (NoSet.upd fun _ h => h)
  | .map st e, p, h => by
    have h1 := NoSet.upd (h := h) (p := p) (f := Cell.baseReset) fun _ hc => by simp [Cell.baseReset] at hc
    cases st <;> simp only [resetH, Bool.false_eq_true, if_false, if_true]
    · exact h1
    · exact h1.trans (NoSet.upd fun _ h => h)
theorem resetMs_noset : ∀ (ms : List (MInfo × Shape)) (p : Path) (n : Nat) (h : Heap), NoSet h (resetMs p n ms h)
  | [], p, n, h => NoSet.refl _
  | (i, sh) :: ms, p, n, h => (resetH_noset sh (.mem n :: p) h).trans (resetMs_noset ms p (n + 1) _)
end


theorem DispOnly.noset {h h'} (a : DispOnly h h') : NoSet h h' := by
  intro q hq
  rcases a q with h1 | h1
  · rw [h1] at hq; exact hq
  · rw [h1] at hq; exact hq

end SJ
