/-
Which cells the heap operations touch, and how.
-/
import Verif.Proofs.Equations

set_option linter.unusedVariables false

namespace SJ

variable {E : Env} {R : Shape}

/-! ### Paths -/

/-- `q` is `p` or below it. -/
abbrev Below (p q : Path) : Prop := p <:+ q

theorem Below.refl (p : Path) : Below p p := List.suffix_refl p
theorem Below.cons (st : Step) (p : Path) : Below p (st :: p) := List.suffix_cons st p
theorem Below.append (r p : Path) : Below p (r ++ p) := List.suffix_append r p
theorem Below.trans {p q r : Path} (h : Below p q) (h' : Below q r) : Below p r := List.IsSuffix.trans h h'
theorem Below.step {st : Step} {p q : Path} (h : Below (st :: p) q) : Below p q := (Below.cons st p).trans h

theorem below_self_cons {st : Step} {p : Path} : ¬ Below (st :: p) p := by
  intro h
  have := h.length_le
  simp at this
  omega

theorem below_eq_of_len {p q r : Path} (h : Below p r) (h' : Below q r) (hl : p.length = q.length) : p = q := by
  obtain ⟨a, ha⟩ := h
  obtain ⟨b, hb⟩ := h'
  have : a ++ p = b ++ q := ha.trans hb.symm
  have hlen : a.length = b.length := by
    have := congrArg List.length this
    simp at this; omega
  exact (List.append_inj this hlen).2

theorem below_disjoint {st st' : Step} {p q : Path} (hne : st ≠ st') (h : Below (st :: p) q) :
    ¬ Below (st' :: p) q := by
  intro h'
  have := below_eq_of_len h h' rfl
  simp at this
  exact hne this

theorem ne_of_below_step {st : Step} {p q : Path} (h : Below (st :: p) q) : q ≠ p := by
  rintro rfl; exact below_self_cons h

/-! ### `upd` -/

@[simp] theorem upd_same (h : Heap) (p f) : h.upd p f p = f (h p) := by simp [Heap.upd]

theorem upd_other {h : Heap} {p q f} (hne : q ≠ p) : h.upd p f q = h q := by simp [Heap.upd, hne]

theorem upd_apply (h : Heap) (p f q) : h.upd p f q = if q = p then f (h q) else h q := rfl

theorem upd_upd (h : Heap) (p f g) : (h.upd p f).upd p g = h.upd p (fun c => g (f c)) := by
  funext q; simp only [Heap.upd]; split <;> rfl

theorem upd_id {h : Heap} {p f} (hf : f (h p) = h p) : h.upd p f = h := by
  funext q; simp only [Heap.upd]; split
  · rename_i hq; subst hq; exact hf
  · rfl

/-! ### Heap relations -/

/-- `h'` differs from `h` only below `p`. -/
def Frame (p : Path) (h h' : Heap) : Prop := ∀ q, ¬ Below p q → h' q = h q

/-- `h'` has the same dispatcher pointers and started flags as `h`. -/
def SameCtl (h h' : Heap) : Prop := ∀ q, (h' q).disp = (h q).disp ∧ (h' q).started = (h q).started

theorem Frame.refl (p h) : Frame p h h := fun _ _ => rfl
theorem Frame.trans {p h h' h''} (a : Frame p h h') (b : Frame p h' h'') : Frame p h h'' :=
  fun q hq => (b q hq).trans (a q hq)
theorem Frame.up {p p' h h'} (a : Frame p' h h') (hb : Below p p') : Frame p h h' :=
  fun q hq => a q fun hq' => hq (hb.trans hq')
theorem Frame.upd (p h f) : Frame p h (h.upd p f) := fun q hq => upd_other (by rintro rfl; exact hq (Below.refl _))

theorem SameCtl.refl (h) : SameCtl h h := fun _ => ⟨rfl, rfl⟩
theorem SameCtl.trans {h h' h''} (a : SameCtl h h') (b : SameCtl h' h'') : SameCtl h h'' :=
  fun q => ⟨(b q).1.trans (a q).1, (b q).2.trans (a q).2⟩
theorem SameCtl.upd {h : Heap} {p f} (hf : ∀ c, (f c).disp = c.disp ∧ (f c).started = c.started) :
    SameCtl h (h.upd p f) := by
  intro q; rw [upd_apply]; split
  · exact hf _
  · exact ⟨rfl, rfl⟩

/-! ### reset -/

mutual
theorem resetH_frame : ∀ (sh : Shape) (p : Path) (h : Heap), Frame p h (resetH p sh h)
  | .value _, p, h => Frame.upd _ _ _
  | .ignore, p, h => Frame.upd _ _ _
  | .object k u ms, p, h => by
    have h1 := (Frame.upd p h Cell.baseReset).trans (resetMs_frame ms p 0 (h.upd p Cell.baseReset))
    have h2 := h1.trans ((Frame.upd (.ign :: p) _ fun c => { c.baseReset with struct := [] }).up (Below.cons _ _))
    cases k <;> simp only [resetH]
    · exact h2
    · exact h2.trans (Frame.upd _ _ _)
    · exact h2.trans (Frame.upd _ _ _)
  | .union ty tm st ms, p, h => by
    have h1 := (Frame.upd p h fun c => { c with curId := 0 }).trans ((Frame.upd p _ Cell.baseReset).trans
      (resetMs_frame ms p 0 _))
    have h2 := h1.trans ((Frame.upd (.ign :: p) _ fun c => { c.baseReset with struct := [] }).up (Below.cons _ _))
    cases st <;> simp only [resetH, Bool.false_eq_true, if_false, if_true]
    · exact h2
    · exact h2.trans (Frame.upd _ _ _)
  | .array st e, p, h => by
    have h1 := (Frame.upd p h Cell.baseReset).trans ((resetH_frame e (.elem :: p) _).up (Below.cons _ _))
    cases st <;> simp only [resetH, Bool.false_eq_true, if_false, if_true]
    · exact h1
    · exact h1.trans (Frame.upd _ _ _)
  | .map st e, p, h => by
    cases st <;> simp only [resetH, Bool.false_eq_true, if_false, if_true]
    · exact Frame.upd _ _ _
    · exact (Frame.upd _ _ _).trans (Frame.upd _ _ _)
theorem resetMs_frame : ∀ (ms : List (MInfo × Shape)) (p : Path) (n : Nat) (h : Heap),
    Frame p h (resetMs p n ms h)
  | [], p, n, h => Frame.refl _ _
  | (i, sh) :: ms, p, n, h =>
    ((resetH_frame sh (.mem n :: p) h).up (Below.cons _ _)).trans (resetMs_frame ms p (n + 1) _)
end

mutual
theorem resetH_ctl : ∀ (sh : Shape) (p : Path) (h : Heap), SameCtl h (resetH p sh h)
  | .value _, p, h => SameCtl.upd fun _ => ⟨rfl, rfl⟩
  | .ignore, p, h => SameCtl.upd fun _ => ⟨rfl, rfl⟩
  | .object k u ms, p, h => by
    have h1 := (SameCtl.upd (h := h) (p := p) (f := Cell.baseReset) fun _ => ⟨rfl, rfl⟩).trans
      (resetMs_ctl ms p 0 (h.upd p Cell.baseReset))
    have h2 := h1.trans (SameCtl.upd (p := .ign :: p) (f := fun c => { c.baseReset with struct := [] })
      fun _ => ⟨rfl, rfl⟩)
    cases k <;> simp only [resetH]
    · exact h2
    · exact h2.trans (SameCtl.upd fun _ => ⟨rfl, rfl⟩)
    · exact h2.trans (SameCtl.upd fun _ => ⟨rfl, rfl⟩)
  | .union ty tm st ms, p, h => by
    have h1 := (SameCtl.upd (h := h) (p := p) (f := fun c => { c with curId := 0 }) fun _ => ⟨rfl, rfl⟩).trans
      ((SameCtl.upd (p := p) (f := Cell.baseReset) fun _ => ⟨rfl, rfl⟩).trans (resetMs_ctl ms p 0 _))
    have h2 := h1.trans (SameCtl.upd (p := .ign :: p) (f := fun c => { c.baseReset with struct := [] })
      fun _ => ⟨rfl, rfl⟩)
    cases st <;> simp only [resetH, Bool.false_eq_true, if_false, if_true]
    · exact h2
    · exact h2.trans (SameCtl.upd fun _ => ⟨rfl, rfl⟩)
  | .array st e, p, h => by
    have h1 := (SameCtl.upd (h := h) (p := p) (f := Cell.baseReset) fun _ => ⟨rfl, rfl⟩).trans
      (resetH_ctl e (.elem :: p) _)
    cases st <;> simp only [resetH, Bool.false_eq_true, if_false, if_true]
    · exact h1
    · exact h1.trans (SameCtl.upd fun _ => ⟨rfl, rfl⟩)
  | .map st e, p, h => by
    cases st <;> simp only [resetH, Bool.false_eq_true, if_false, if_true]
    · exact SameCtl.upd fun _ => ⟨rfl, rfl⟩
    · exact (SameCtl.upd (h := h) (p := p) (f := Cell.baseReset) fun _ => ⟨rfl, rfl⟩).trans
        (SameCtl.upd fun _ => ⟨rfl, rfl⟩)
theorem resetMs_ctl : ∀ (ms : List (MInfo × Shape)) (p : Path) (n : Nat) (h : Heap),
    SameCtl h (resetMs p n ms h)
  | [], p, n, h => SameCtl.refl _
  | (i, sh) :: ms, p, n, h => (resetH_ctl sh (.mem n :: p) h).trans (resetMs_ctl ms p (n + 1) _)
end

/-- What an operation does to a cell depends only on this cell. -/
def Ptw (F : Heap → Heap) : Prop := ∀ h h' q, h q = h' q → F h q = F h' q

theorem Ptw.upd (p f) : Ptw fun h => h.upd p f := by
  intro h h' q hq; simp only [Heap.upd]; split <;> simp [hq]

theorem Ptw.comp {F G} (hF : Ptw F) (hG : Ptw G) : Ptw fun h => F (G h) :=
  fun h h' q hq => hF _ _ q (hG h h' q hq)

mutual
theorem resetH_ptw : ∀ (sh : Shape) (p : Path), Ptw (resetH p sh)
  | .value _, p => Ptw.upd _ _
  | .ignore, p => Ptw.upd _ _
  | .object k u ms, p => by
    have h2 := (Ptw.upd (.ign :: p) fun c => { c.baseReset with struct := [] }).comp
      ((resetMs_ptw ms p 0).comp (Ptw.upd p Cell.baseReset))
    intro h h' q hq
    cases k <;> simp only [resetH]
    · exact h2 h h' q hq
    · exact (Ptw.upd p fun c => { c with val := .init }) _ _ q (h2 h h' q hq)
    · exact (Ptw.upd p fun c => { c with val := .init }) _ _ q (h2 h h' q hq)
  | .union ty tm st ms, p => by
    have h2 := (Ptw.upd (.ign :: p) fun c => { c.baseReset with struct := [] }).comp
      ((resetMs_ptw ms p 0).comp ((Ptw.upd p Cell.baseReset).comp (Ptw.upd p fun c => { c with curId := 0 })))
    intro h h' q hq
    cases st <;> simp only [resetH, Bool.false_eq_true, if_false, if_true]
    · exact h2 h h' q hq
    · exact (Ptw.upd p fun c => { c with val := .init }) _ _ q (h2 h h' q hq)
  | .array st e, p => by
    have h2 := (resetH_ptw e (.elem :: p)).comp (Ptw.upd p Cell.baseReset)
    intro h h' q hq
    cases st <;> simp only [resetH, Bool.false_eq_true, if_false, if_true]
    · exact h2 h h' q hq
    · exact (Ptw.upd p fun c => { c with val := .arr [] }) _ _ q (h2 h h' q hq)
  | .map st e, p => by
    have h2 := Ptw.upd p Cell.baseReset
    intro h h' q hq
    cases st <;> simp only [resetH, Bool.false_eq_true, if_false, if_true]
    · exact h2 h h' q hq
    · exact (Ptw.upd p fun c => { c with val := .map [] }) _ _ q (h2 h h' q hq)
theorem resetMs_ptw : ∀ (ms : List (MInfo × Shape)) (p : Path) (n : Nat), Ptw (resetMs p n ms)
  | [], p, n => fun _ _ _ h => h
  | (i, sh) :: ms, p, n => (resetMs_ptw ms p (n + 1)).comp (resetH_ptw sh (.mem n :: p))
end

/-- Members numbered below `n` and the ignore parser are not touched by the reset of members from `n` on. -/
theorem resetMs_other : ∀ (ms : List (MInfo × Shape)) (p : Path) (n : Nat) (h : Heap) (q : Path),
    (∀ m, n ≤ m → m < n + ms.length → ¬ Below (.mem m :: p) q) → resetMs p n ms h q = h q
  | [], _, _, _, _, _ => rfl
  | (i, sh) :: ms, p, n, h, q, hq => by
    rw [resetMs, resetMs_other ms p (n + 1) _ q fun m h1 h2 => hq m (by omega) (by simp; omega)]
    exact resetH_frame sh _ h q (hq n (Nat.le_refl _) (by simp))

/-- The reset of one member among others. -/
theorem resetMs_at : ∀ (ms : List (MInfo × Shape)) (p : Path) (n : Nat) (h : Heap) (m : Nat) (i : MInfo)
    (sh : Shape), ms[m]? = some (i, sh) → ∀ q, Below (.mem (n + m) :: p) q →
    resetMs p n ms h q = resetH (.mem (n + m) :: p) sh h q
  | [], p, n, h, m, i, sh, hm, q, hq => by simp at hm
  | (i', sh') :: ms, p, n, h, 0, i, sh, hm, q, hq => by
    simp at hm; obtain ⟨rfl, rfl⟩ := hm
    rw [resetMs, resetMs_other ms p (n + 1) _ q fun m h1 h2 => ?_]
    · rfl
    · exact below_disjoint (by simp; omega) hq
  | (i', sh') :: ms, p, n, h, m + 1, i, sh, hm, q, hq => by
    have hq' : Below (.mem (n + 1 + m) :: p) q := by rw [show n + 1 + m = n + (m + 1) by omega]; exact hq
    rw [resetMs, resetMs_at ms p (n + 1) _ m i sh (by simpa using hm) q hq',
      show n + 1 + m = n + (m + 1) by omega]
    exact resetH_ptw sh _ _ _ q (resetH_frame _ _ _ _ (below_disjoint (by simp) hq))

end SJ
