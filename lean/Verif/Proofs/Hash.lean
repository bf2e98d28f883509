/-
The order of the members in `reset()` and `setDispatcher()` makes no difference.
-/
import Verif.SpecHash
import Verif.Proofs.SharedId

set_option linter.unusedVariables false

namespace SJ

/-- What is done to one object. -/
inductive Prim where
  | base
  | ign
  | cur
  | val (v : Val)
  | disp

def Prim.act : Prim → Cell → Cell
  | .base, c => c.baseReset
  | .ign, c => { c.baseReset with struct := [] }
  | .cur, c => { c with curId := 0 }
  | .val v, c => { c with val := v }
  | .disp, c => { c with disp := true }

def applyAll : List (Path × Prim) → Heap → Heap
  | [], h => h
  | (o, a) :: l, h => applyAll l (h.upd o a.act)

theorem applyAll_append : ∀ (l l' : List (Path × Prim)) (h : Heap), applyAll (l ++ l') h = applyAll l' (applyAll l h)
  | [], l', h => rfl
  | (o, a) :: l, l', h => applyAll_append l l' _

/-- Two of them may change places. -/
def Agrees (a b : Path × Prim) : Prop := a.1 = b.1 → ∀ v w, a.2 = .val v → b.2 = .val w → v = w

theorem Prim.comm {a b : Prim} (h : ∀ v w, a = .val v → b = .val w → v = w) (c : Cell) : a.act (b.act c) = b.act (a.act c) := by
  cases a <;> cases b <;> first | rfl | (rw [h _ _ rfl rfl])

theorem upd_comm {a b : Path × Prim} (h : Agrees a b) (hp : Heap) : (hp.upd a.1 a.2.act).upd b.1 b.2.act = (hp.upd b.1 b.2.act).upd a.1 a.2.act := by
  funext q
  by_cases hab : a.1 = b.1
  · simp only [upd_apply, hab]
    split
    · rw [Prim.comm (h hab)]
    · rfl
  · simp only [upd_apply]
    split <;> split
    · rename_i h1 h2; exact absurd (h2.symm.trans h1) hab
    all_goals rfl

theorem applyAll_perm {l l' : List (Path × Prim)} (hp : l.Perm l') : (∀ a ∈ l, ∀ b ∈ l, Agrees a b) → ∀ h, applyAll l h = applyAll l' h := by
  induction hp with
  | nil => intro _ h; rfl
  | cons x _ ih =>
    intro ha h
    exact ih (fun a h1 b h2 => ha a (List.mem_cons_of_mem _ h1) b (List.mem_cons_of_mem _ h2)) _
  | swap x y l =>
    intro ha h
    show applyAll l ((h.upd y.1 y.2.act).upd x.1 x.2.act) = applyAll l ((h.upd x.1 x.2.act).upd y.1 y.2.act)
    rw [upd_comm (ha y (by simp) x (by simp))]
  | trans h1 h2 ih1 ih2 =>
    intro ha h
    rw [ih1 ha, ih2 fun a ha' b hb' => ha a (h1.mem_iff.2 ha') b (h1.mem_iff.2 hb')]

variable (ob : Path → Path)

/-! ### reset() -/

/-- `_value = {}`, in the classes that have one. -/
def objTail (p : Path) : ObjKind → List (Path × Prim)
  | .plain => []
  | _ => [(ob p, .val .init)]

mutual
/-- All that `reset()` does. -/
def resetOps (p : Path) : Shape → List (Path × Prim)
  | .value _ => [(ob p, .base)]
  | .ignore => [(ob p, .ign)]
  | .object k _ ms => (ob p, .base) :: (resetOpsMs p 0 ms ++ ((ob (.ign :: p), .ign) :: objTail ob p k))
  | .union _ _ stored ms => (ob p, .cur) :: (ob p, .base) :: (resetOpsMs p 0 ms ++ ((ob (.ign :: p), .ign) :: (if stored then [(ob p, .val .init)] else [])))
  | .array stored e => (ob p, .base) :: (resetOps (.elem :: p) e ++ (if stored then [(ob p, .val (.arr []))] else []))
  | .map stored _ => (ob p, .base) :: (if stored then [(ob p, .val (.map []))] else [])
def resetOpsMs (p : Path) (n : Nat) : List (MInfo × Shape) → List (Path × Prim)
  | [] => []
  | (_, sh) :: ms => resetOps (.mem n :: p) sh ++ resetOpsMs p (n + 1) ms
end

mutual
theorem resetH_ops : ∀ (sh : Shape) (p : Path) (h : Heap), Shd.resetH ob p sh h = applyAll (resetOps ob p sh) h
  | .value _, p, h => rfl
  | .ignore, p, h => rfl
  | .object k u ms, p, h => by
    cases k <;> simp only [Shd.resetH] <;> rw [resetOps, applyAll, applyAll_append, ← resetMs_ops] <;> rfl
  | .union ty tm stored ms, p, h => by
    rw [Shd.resetH, resetOps, applyAll, applyAll, applyAll_append, ← resetMs_ops]
    cases stored <;> rfl
  | .array stored e, p, h => by
    rw [Shd.resetH, resetOps, applyAll, applyAll_append, ← resetH_ops]
    cases stored <;> rfl
  | .map stored e, p, h => by
    rw [Shd.resetH, resetOps, applyAll]
    cases stored <;> rfl
theorem resetMs_ops : ∀ (ms : List (MInfo × Shape)) (p : Path) (n : Nat) (h : Heap), Shd.resetMs ob p n ms h = applyAll (resetOpsMs ob p n ms) h
  | [], p, n, h => rfl
  | (i, sh) :: ms, p, n, h => by rw [Shd.resetMs, resetOpsMs, applyAll_append, ← resetH_ops, ← resetMs_ops]
end

theorem resetOpsMs_entries (p : Path) : ∀ (ms : List (MInfo × Shape)) (n : Nat), resetOpsMs ob p n ms = (hashEntries n ms).flatMap fun x => resetOps ob (.mem x.1 :: p) x.2
  | [], n => rfl
  | (i, sh) :: ms, n => by rw [resetOpsMs, hashEntries, List.flatMap_cons, resetOpsMs_entries p ms]

theorem Resets.ops {p sh h h'} (hr : Resets ob p sh h h') : ∃ l, l.Perm (resetOps ob p sh) ∧ h' = applyAll l h := by
  induction hr using Resets.rec
    (motive_2 := fun p order h h' _ => ∃ l, l.Perm (order.flatMap fun x => resetOps ob (.mem x.1 :: p) x.2) ∧ h' = applyAll l h) with
  | value => exact ⟨_, .refl _, rfl⟩
  | ignore => exact ⟨_, .refl _, rfl⟩
  | @object p k u ms h h1 h2 order hp ha hi ih _ =>
    obtain ⟨l, hl, rfl⟩ := ih
    cases hi
    refine ⟨(ob p, .base) :: (l ++ ((ob (.ign :: p), .ign) :: objTail ob p k)), ?_, ?_⟩
    · rw [resetOps, resetOpsMs_entries]
      exact .cons _ (List.Perm.append_right _ (hl.trans (hp.flatMap_right _)))
    · rw [applyAll, applyAll_append]; cases k <;> rfl
  | @union p ty tm stored ms h h1 h2 order hp ha hi ih _ =>
    obtain ⟨l, hl, rfl⟩ := ih
    cases hi
    refine ⟨(ob p, .cur) :: (ob p, .base) :: (l ++ ((ob (.ign :: p), .ign) :: (if stored then [(ob p, .val .init)] else []))), ?_, ?_⟩
    · rw [resetOps, resetOpsMs_entries]
      exact .cons _ (.cons _ (List.Perm.append_right _ (hl.trans (hp.flatMap_right _))))
    · rw [applyAll, applyAll, applyAll_append]; cases stored <;> rfl
  | @array p stored e h h1 ha ih =>
    obtain ⟨l, hl, rfl⟩ := ih
    refine ⟨(ob p, .base) :: (l ++ (if stored then [(ob p, .val (.arr []))] else [])), ?_, ?_⟩
    · rw [resetOps]; exact .cons _ (List.Perm.append_right _ hl)
    · rw [applyAll, applyAll_append]; cases stored <;> rfl
  | @map p stored e h => exact ⟨_, .refl _, by rw [resetOps, applyAll]; cases stored <;> rfl⟩
  | nil => exact ⟨[], .refl _, rfl⟩
  | cons hd tl ih1 ih2 =>
    obtain ⟨l, hl, rfl⟩ := ih1
    obtain ⟨l', hl', rfl⟩ := ih2
    exact ⟨l ++ l', by rw [List.flatMap_cons]; exact hl.append hl', by rw [applyAll_append]⟩

variable {ob} {R : Shape}

/-- The values that `reset()` gives belong to the places. -/
def ValOp (ob : Path → Path) (R : Shape) (x : Path × Prim) : Prop := ∀ v, x.2 = .val v → ∃ q, x.1 = ob q ∧ match R.at q with
  | some (.array _ _) => v = .arr []
  | some (.map _ _) => v = .map []
  | some _ => v = .init
  | none => False

mutual
theorem resetOps_val : ∀ (sh : Shape) (p : Path), R.at p = some sh → ∀ x ∈ resetOps ob p sh, ValOp ob R x
  | .value _, p, hR, x, hx => by rw [resetOps, List.mem_singleton] at hx; subst hx; exact fun v h => nomatch h
  | .ignore, p, hR, x, hx => by rw [resetOps, List.mem_singleton] at hx; subst hx; exact fun v h => nomatch h
  | .object k u ms, p, hR, x, hx => by
    rw [resetOps] at hx
    rcases List.mem_cons.1 hx with rfl | hx
    · exact fun v h => nomatch h
    rcases List.mem_append.1 hx with hx | hx
    · exact resetOpsMs_val ms p 0 (fun k i sh hk => by rw [Nat.zero_add]; simp [Shape.at, hR, Shape.child, hk]) x hx
    rcases List.mem_cons.1 hx with rfl | hx
    · exact fun v h => nomatch h
    have : x = (ob p, .val .init) := by cases k <;> simpa [objTail] using hx
    subst this
    intro v h
    exact ⟨p, rfl, by rw [hR]; injection h with h; exact h.symm⟩
  | .union ty tm stored ms, p, hR, x, hx => by
    rw [resetOps] at hx
    rcases List.mem_cons.1 hx with rfl | hx
    · exact fun v h => nomatch h
    rcases List.mem_cons.1 hx with rfl | hx
    · exact fun v h => nomatch h
    rcases List.mem_append.1 hx with hx | hx
    · exact resetOpsMs_val ms p 0 (fun k i sh hk => by rw [Nat.zero_add]; simp [Shape.at, hR, Shape.child, hk]) x hx
    rcases List.mem_cons.1 hx with rfl | hx
    · exact fun v h => nomatch h
    have : x = (ob p, .val .init) := by cases stored <;> simpa using hx
    subst this
    intro v h
    exact ⟨p, rfl, by rw [hR]; injection h with h; exact h.symm⟩
  | .array stored e, p, hR, x, hx => by
    rw [resetOps] at hx
    rcases List.mem_cons.1 hx with rfl | hx
    · exact fun v h => nomatch h
    rcases List.mem_append.1 hx with hx | hx
    · exact resetOps_val e (.elem :: p) (by simp [Shape.at, hR, Shape.child]) x hx
    have : x = (ob p, .val (.arr [])) := by cases stored <;> simpa using hx
    subst this
    intro v h
    exact ⟨p, rfl, by rw [hR]; injection h with h; exact h.symm⟩
  | .map stored e, p, hR, x, hx => by
    rw [resetOps] at hx
    rcases List.mem_cons.1 hx with rfl | hx
    · exact fun v h => nomatch h
    have : x = (ob p, .val (.map [])) := by cases stored <;> simpa using hx
    subst this
    intro v h
    exact ⟨p, rfl, by rw [hR]; injection h with h; exact h.symm⟩
theorem resetOpsMs_val : ∀ (ms : List (MInfo × Shape)) (p : Path) (n : Nat), (∀ k i sh, ms[k]? = some (i, sh) → R.at (.mem (n + k) :: p) = some sh) →
    ∀ x ∈ resetOpsMs ob p n ms, ValOp ob R x
  | [], p, n, hR, x, hx => by rw [resetOpsMs] at hx; cases hx
  | (i, sh) :: ms, p, n, hR, x, hx => by
    rw [resetOpsMs] at hx
    rcases List.mem_append.1 hx with hx | hx
    · exact resetOps_val sh (.mem n :: p) (hR 0 i sh rfl) x hx
    · exact resetOpsMs_val ms p (n + 1) (fun k i' sh' hk => by have := hR (k + 1) i' sh' hk; rw [show n + 1 + k = n + (k + 1) by omega]; exact this) x hx
end

theorem Resets.eq (pl : Places R ob) {p sh h h'} (hR : R.at p = some sh) (hr : Resets ob p sh h h') : h' = Shd.resetH ob p sh h := by
  obtain ⟨l, hl, rfl⟩ := hr.ops
  rw [resetH_ops]
  refine applyAll_perm hl (fun a ha b hb hab v w hv hw => ?_) h
  obtain ⟨q, h1, h2⟩ := resetOps_val sh p hR a (hl.mem_iff.1 ha) v hv
  obtain ⟨q', h3, h4⟩ := resetOps_val sh p hR b (hl.mem_iff.1 hb) w hw
  have hq : R.at q = R.at q' := pl.same q q' (by rw [← h1, ← h3, hab])
  rw [hq] at h2
  cases hx : R.at q' with
  | none => rw [hx] at h2; exact h2.elim
  | some s1 => rw [hx] at h2 h4; cases s1 <;> exact h2.trans h4.symm

mutual
theorem Resets.exists (ob : Path → Path) : ∀ (sh : Shape) (p : Path) (h : Heap), Resets ob p sh h (Shd.resetH ob p sh h)
  | .value _, p, h => .value
  | .ignore, p, h => .ignore
  | .object k u ms, p, h => .object (hashEntries 0 ms) (.refl _) (ResetsAll.exists ob ms p 0 _) .ignore
  | .union ty tm stored ms, p, h => .union (hashEntries 0 ms) (.refl _) (ResetsAll.exists ob ms p 0 _) .ignore
  | .array stored e, p, h => .array (Resets.exists ob e _ _)
  | .map stored e, p, h => .map
theorem ResetsAll.exists (ob : Path → Path) : ∀ (ms : List (MInfo × Shape)) (p : Path) (n : Nat) (h : Heap), ResetsAll ob p (hashEntries n ms) h (Shd.resetMs ob p n ms h)
  | [], p, n, h => .nil
  | (i, sh) :: ms, p, n, h => .cons (Resets.exists ob sh _ _) (ResetsAll.exists ob ms p (n + 1) _)
end

/-! ### setDispatcher() -/

section
variable (ob)
mutual
def dispOps (p : Path) : Shape → List (Path × Prim)
  | .object _ _ ms => (ob p, .disp) :: (dispOpsMs p 0 ms ++ [(ob (.ign :: p), .disp)])
  | .union _ _ _ ms => (ob p, .disp) :: (dispOpsMs p 0 ms ++ [(ob (.ign :: p), .disp)])
  | .map _ e => (ob p, .disp) :: dispOps (.elem :: p) e
  | .value _ => [(ob p, .disp)]
  | .ignore => [(ob p, .disp)]
  | .array _ _ => [(ob p, .disp)]
def dispOpsMs (p : Path) (n : Nat) : List (MInfo × Shape) → List (Path × Prim)
  | [] => []
  | (_, sh) :: ms => dispOps (.mem n :: p) sh ++ dispOpsMs p (n + 1) ms
end

mutual
theorem setDispH_ops : ∀ (sh : Shape) (p : Path) (h : Heap), Shd.setDispH ob p sh h = applyAll (dispOps ob p sh) h
  | .value _, p, h => rfl
  | .ignore, p, h => rfl
  | .array _ _, p, h => rfl
  | .object k u ms, p, h => by rw [Shd.setDispH, dispOps, applyAll, applyAll_append, ← setDispMs_ops]; rfl
  | .union ty tm stored ms, p, h => by rw [Shd.setDispH, dispOps, applyAll, applyAll_append, ← setDispMs_ops]; rfl
  | .map stored e, p, h => by rw [Shd.setDispH, dispOps, applyAll, ← setDispH_ops]; rfl
theorem setDispMs_ops : ∀ (ms : List (MInfo × Shape)) (p : Path) (n : Nat) (h : Heap), Shd.setDispMs ob p n ms h = applyAll (dispOpsMs ob p n ms) h
  | [], p, n, h => rfl
  | (i, sh) :: ms, p, n, h => by rw [Shd.setDispMs, dispOpsMs, applyAll_append, ← setDispH_ops, ← setDispMs_ops]
end

theorem dispOpsMs_entries (p : Path) : ∀ (ms : List (MInfo × Shape)) (n : Nat), dispOpsMs ob p n ms = (hashEntries n ms).flatMap fun x => dispOps ob (.mem x.1 :: p) x.2
  | [], n => rfl
  | (i, sh) :: ms, n => by rw [dispOpsMs, hashEntries, List.flatMap_cons, dispOpsMs_entries p ms]

theorem Attaches.ops {p sh h h'} (hr : Attaches ob p sh h h') : ∃ l, l.Perm (dispOps ob p sh) ∧ h' = applyAll l h := by
  induction hr using Attaches.rec
    (motive_2 := fun p order h h' _ => ∃ l, l.Perm (order.flatMap fun x => dispOps ob (.mem x.1 :: p) x.2) ∧ h' = applyAll l h) with
  | value => exact ⟨_, .refl _, rfl⟩
  | ignore => exact ⟨_, .refl _, rfl⟩
  | array => exact ⟨_, .refl _, rfl⟩
  | @map p st e h h1 ha ih =>
    obtain ⟨l, hl, rfl⟩ := ih
    exact ⟨(ob p, .disp) :: l, .cons _ hl, rfl⟩
  | @object p k u ms h h1 h2 order hp ha hi ih _ =>
    obtain ⟨l, hl, rfl⟩ := ih
    cases hi
    refine ⟨(ob p, .disp) :: (l ++ [(ob (.ign :: p), .disp)]), ?_, by rw [applyAll, applyAll_append]; rfl⟩
    rw [dispOps, dispOpsMs_entries]
    exact .cons _ (List.Perm.append_right _ (hl.trans (hp.flatMap_right _)))
  | @union p ty tm stored ms h h1 h2 order hp ha hi ih _ =>
    obtain ⟨l, hl, rfl⟩ := ih
    cases hi
    refine ⟨(ob p, .disp) :: (l ++ [(ob (.ign :: p), .disp)]), ?_, by rw [applyAll, applyAll_append]; rfl⟩
    rw [dispOps, dispOpsMs_entries]
    exact .cons _ (List.Perm.append_right _ (hl.trans (hp.flatMap_right _)))
  | nil => exact ⟨[], .refl _, rfl⟩
  | cons hd tl ih1 ih2 =>
    obtain ⟨l, hl, rfl⟩ := ih1
    obtain ⟨l', hl', rfl⟩ := ih2
    exact ⟨l ++ l', by rw [List.flatMap_cons]; exact hl.append hl', by rw [applyAll_append]⟩

mutual
theorem dispOps_disp : ∀ (sh : Shape) (p : Path), ∀ x ∈ dispOps ob p sh, x.2 = .disp
  | .value _, p, x, hx => by rw [dispOps, List.mem_singleton] at hx; rw [hx]
  | .ignore, p, x, hx => by rw [dispOps, List.mem_singleton] at hx; rw [hx]
  | .array _ _, p, x, hx => by rw [dispOps, List.mem_singleton] at hx; rw [hx]
  | .map _ e, p, x, hx => by
    rw [dispOps] at hx
    rcases List.mem_cons.1 hx with rfl | hx
    · rfl
    · exact dispOps_disp e _ x hx
  | .object _ _ ms, p, x, hx => by
    rw [dispOps] at hx
    rcases List.mem_cons.1 hx with rfl | hx
    · rfl
    rcases List.mem_append.1 hx with hx | hx
    · exact dispOpsMs_disp ms p 0 x hx
    · rw [List.mem_singleton] at hx; rw [hx]
  | .union _ _ _ ms, p, x, hx => by
    rw [dispOps] at hx
    rcases List.mem_cons.1 hx with rfl | hx
    · rfl
    rcases List.mem_append.1 hx with hx | hx
    · exact dispOpsMs_disp ms p 0 x hx
    · rw [List.mem_singleton] at hx; rw [hx]
theorem dispOpsMs_disp : ∀ (ms : List (MInfo × Shape)) (p : Path) (n : Nat), ∀ x ∈ dispOpsMs ob p n ms, x.2 = .disp
  | [], p, n, x, hx => by rw [dispOpsMs] at hx; cases hx
  | (i, sh) :: ms, p, n, x, hx => by
    rw [dispOpsMs] at hx
    rcases List.mem_append.1 hx with hx | hx
    · exact dispOps_disp sh _ x hx
    · exact dispOpsMs_disp ms p _ x hx
end
end

theorem Attaches.eq {p sh h h'} (ha : Attaches ob p sh h h') : h' = Shd.setDispH ob p sh h := by
  obtain ⟨l, hl, rfl⟩ := ha.ops
  rw [setDispH_ops]
  refine applyAll_perm hl (fun a ha b hb hab v w hv hw => ?_) h
  rw [dispOps_disp ob sh p a (hl.mem_iff.1 ha)] at hv; cases hv

mutual
theorem Attaches.exists (ob : Path → Path) : ∀ (sh : Shape) (p : Path) (h : Heap), Attaches ob p sh h (Shd.setDispH ob p sh h)
  | .value _, p, h => .value
  | .ignore, p, h => .ignore
  | .object k u ms, p, h => .object (hashEntries 0 ms) (.refl _) (AttachesAll.exists ob ms p 0 _) .ignore
  | .union ty tm stored ms, p, h => .union (hashEntries 0 ms) (.refl _) (AttachesAll.exists ob ms p 0 _) .ignore
  | .array stored e, p, h => .array
  | .map stored e, p, h => .map (Attaches.exists ob e _ _)
theorem AttachesAll.exists (ob : Path → Path) : ∀ (ms : List (MInfo × Shape)) (p : Path) (n : Nat) (h : Heap), AttachesAll ob p (hashEntries n ms) h (Shd.setDispMs ob p n ms h)
  | [], p, n, h => .nil
  | (i, sh) :: ms, p, n, h => .cons (Attaches.exists ob sh _ _) (AttachesAll.exists ob ms p (n + 1) _)
end

end SJ
