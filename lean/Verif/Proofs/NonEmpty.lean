/-
A value, object or union parser that is set is not empty: an invariant of every use.
-/
import Verif.Proofs.Empty
import Verif.SpecHistory

set_option linter.unusedVariables false

namespace SJ

variable {E : Env} {R : Shape}

/-- `c'` is set only if `c` is, and then it is not emptier. -/
def Tamer (c c' : Cell) : Prop := c'.set = true → c.set = true ∧ (c.empty = false → c'.empty = false)

theorem Tamer.refl (c) : Tamer c c := fun h => ⟨h, id⟩
theorem Tamer.trans {a b c} (h : Tamer a b) (h' : Tamer b c) : Tamer a c := fun hc => ⟨(h (h' hc).1).1, fun he => (h' hc).2 ((h (h' hc).1).2 he)⟩

def TameH (h h' : Heap) : Prop := ∀ q, Tamer (h q) (h' q)
theorem TameH.refl (h) : TameH h h := fun _ => .refl _
theorem TameH.trans {h h' h''} (a : TameH h h') (b : TameH h' h'') : TameH h h'' := fun q => (a q).trans (b q)
theorem TameH.upd {h : Heap} {p f} (hf : ∀ c, Tamer c (f c)) : TameH h (h.upd p f) := by
  intro q; rw [upd_apply]; split
  · exact hf _
  · exact .refl _

/-- `P` of the state in which a run ended, normally or with an exception. -/
def EndsIn (P : St → Prop) {α} : Res α → Prop
  | .ok _ s => P s
  | .throw _ s => P s
  | _ => True

/-- However it ends, every parser is tamer than before. -/
def Tame {α} (m : M α) : Prop := ∀ s, EndsIn (fun s' => TameH s.heap s'.heap) (m s)

theorem Tame.pure {α} (a : α) : Tame (M.pure a) := fun s => TameH.refl _
theorem Tame.throwStd {α} (m) : Tame (throwStd m : M α) := fun s => TameH.refl _
theorem Tame.unexpected {α} (t) : Tame (unexpected t : M α) := fun s => TameH.refl _
theorem Tame.getC (p) : Tame (getC p) := fun s => TameH.refl _
theorem Tame.ub {α} : Tame (fun _ => .ub : M α) := fun s => trivial
theorem Tame.push (p) : Tame (pushParser p) := fun s => TameH.refl _
theorem Tame.modC {p f} (hf : ∀ c : Cell, Tamer c (f c)) : Tame (modC p f) := fun s => TameH.upd hf
theorem Tame.modH {f : Heap → Heap} (hf : ∀ h, TameH h (f h)) : Tame (modH f) := fun s => hf _
theorem Tame.bind {α β} {m : M α} {f : α → M β} (hm : Tame m) (hf : ∀ a, Tame (f a)) : Tame (M.bind m f) := by
  intro s
  have h1 := hm s
  unfold M.bind
  cases hc : m s with
  | ok a s1 =>
    rw [hc] at h1
    have h2 := hf a s1
    simp only
    cases hd : f a s1 with
    | ok b s2 => rw [hd] at h2; exact TameH.trans h1 h2
    | throw b s2 => rw [hd] at h2; exact TameH.trans h1 h2
    | ub => trivial
    | fuel => trivial
  | throw e s1 => rw [hc] at h1; exact h1
  | ub => trivial
  | fuel => trivial
theorem Tame.ite {α} {c : Prop} [Decidable c] {a b : M α} (ha : Tame a) (hb : Tame b) : Tame (if c then a else b) := by
  split <;> assumption

theorem Tame.popVal (p) : Tame (popVal p) := by
  intro s
  unfold SJ.popVal
  split
  · exact TameH.upd fun c h => by simp at h
  · exact TameH.refl _

theorem cbPops_tame (sh p) : ∀ (ps : List Path) (h : Heap), TameH h (cbPops sh p ps h)
  | [], h => .refl _
  | rel :: ps, h => by
    unfold cbPops
    split
    · split
      · exact TameH.trans (TameH.upd (p := rel ++ p) (f := fun c => { c with set := false, val := .moved }) fun c h => by simp at h)
          (cbPops_tame sh p ps _)
      · exact cbPops_tame sh p ps _
    · exact cbPops_tame sh p ps _

theorem post_verdict {P : St → Prop} {v w} {s : St} (h : P s) : EndsIn P (verdict v w s) := by
  cases v <;> exact h

theorem Tame.finishCbVal (p) : Tame (finishCbVal E p) := by
  intro s
  unfold SJ.finishCbVal
  split
  · exact TameH.refl _
  · exact post_verdict (TameH.refl _)

theorem Tame.finishCbParser (sh c p) : Tame (finishCbParser E sh c p) := by
  intro s
  unfold SJ.finishCbParser
  split
  · exact TameH.refl _
  · refine post_verdict ?_
    have h1 := fun ps => cbPops_tame sh p ps s.heap
    simp only
    split
    · exact (h1 _).trans (.upd fun c h => ⟨h, id⟩)
    · exact h1 _

theorem Tame.elementCb (e p) : Tame (elementCb E e p) := by
  intro s
  unfold SJ.elementCb
  split
  · exact TameH.refl _
  · exact post_verdict (cbPops_tame _ _ _ _)

theorem Tame.setValues (p ms) : ∀ n, Tame (setValues p n ms) := by
  induction ms with
  | nil => exact fun n => Tame.pure _
  | cons x ms ih =>
    intro n
    unfold SJ.setValues
    refine Tame.bind (ih _) fun vs => Tame.bind (Tame.getC _) fun c => Tame.ite (Tame.bind (Tame.popVal _) fun _ => Tame.pure _) (Tame.ite ?_ (Tame.throwStd _))
    split
    · exact Tame.throwStd _
    · exact Tame.pure _

theorem Tame.currentMemberId (p) : Tame (currentMemberId p) := by
  intro s
  unfold SJ.currentMemberId
  split <;> exact TameH.refl _

theorem Tame.checkAlt (p ms) : ∀ n, Tame (checkAlt p n ms) := by
  induction ms with
  | nil => exact fun n => Tame.pure _
  | cons x ms ih =>
    intro n
    unfold SJ.checkAlt
    exact Tame.bind (ih _) fun _ => Tame.bind (Tame.currentMemberId _) fun id => Tame.ite (Tame.pure _)
      (Tame.bind (Tame.getC _) fun c => Tame.ite (Tame.throwStd _) (Tame.pure _))

theorem Tame.setAlt (p ms) : ∀ n, Tame (setAlt p n ms) := by
  induction ms with
  | nil => exact fun n => Tame.pure _
  | cons x ms ih =>
    intro n
    unfold SJ.setAlt
    refine Tame.bind (ih _) fun _ => Tame.bind (Tame.currentMemberId _) fun id => Tame.ite (Tame.pure _)
      (Tame.bind (Tame.getC _) fun c => Tame.ite (Tame.bind (Tame.popVal _) fun _ => Tame.pure _) (Tame.ite ?_ (Tame.throwStd _)))
    split
    · exact Tame.throwStd _
    · exact Tame.pure _

theorem Tame.unsetOnThrow {α} (p) {m : M α} (h : Tame m) : Tame (unsetOnThrow p m) := by
  intro s
  have := h s
  unfold SJ.unsetOnThrow
  cases hc : m s with
  | throw e s1 => rw [hc] at this; exact TameH.trans this (.upd fun c h => by simp at h)
  | ok a s1 => rw [hc] at this; exact this
  | ub => trivial
  | fuel => trivial

theorem Tame.wrapOnThrow {α} (p) {m : M α} (h : Tame m) : Tame (wrapOnThrow p m) := by
  intro s
  have := h s
  unfold SJ.wrapOnThrow
  cases hc : m s with
  | throw e s1 => rw [hc] at this; exact TameH.trans this (.upd fun c h => by simp at h)
  | ok a s1 => rw [hc] at this; exact this
  | ub => trivial
  | fuel => trivial

theorem Tame.unset (p) : Tame (unset p) := Tame.modC fun c h => by simp at h
theorem Tame.setNotEmpty (p) : Tame (setNotEmpty p) := Tame.modC fun c h => ⟨h, fun _ => rfl⟩

theorem Tame.unlessEmpty (p) {m : M Unit} (h : Tame m) : Tame (unlessEmpty p m) :=
  Tame.bind (Tame.getC _) fun _ => Tame.ite (Tame.unset _) h

theorem keeps_tamer {f : Cell → Cell} (h1 : ∀ c, (f c).set = c.set) (h2 : ∀ c, (f c).empty = c.empty) : ∀ c, Tamer c (f c) :=
  fun c h => ⟨(h1 c) ▸ h, fun he => (h2 c).trans he⟩

/-- The finish of an object or union, after the check for emptiness. -/
theorem finish_split (sh p) (hs : (∃ k u ms, sh = .object k u ms) ∨ ∃ ty tm st ms, sh = .union ty tm st ms) :
    ∃ m : M Unit, Tame m ∧ finish E sh p = unlessEmpty p m := by
  have hchk : ∀ ms, Tame (SJ.unsetOnThrow p fun s => match checkMembers s.heap p 0 ms with | some e => .throw (.std e) s | none => .ok () s) := by
    intro ms
    refine Tame.unsetOnThrow p ?_
    intro s
    dsimp only
    split <;> exact TameH.refl _
  rcases hs with ⟨k, u, ms, rfl⟩ | ⟨ty, tm, st, ms, rfl⟩
  · cases k with
    | auto =>
      refine ⟨M.bind (SJ.wrapOnThrow p (SJ.setValues p 0 ms)) fun vs => M.bind (SJ.modC p fun c => { c with val := .tup vs }) fun _ => SJ.finishCbVal E p, ?_, rfl⟩
      exact Tame.bind (Tame.wrapOnThrow _ (Tame.setValues _ _ _)) fun vs => Tame.bind (Tame.modC (keeps_tamer (fun _ => rfl) fun _ => rfl)) fun _ => Tame.finishCbVal _
    | plain => exact ⟨_, Tame.bind (hchk ms) fun _ => Tame.finishCbParser _ _ _, rfl⟩
    | custom => exact ⟨_, Tame.bind (hchk ms) fun _ => Tame.finishCbParser _ _ _, rfl⟩
  · cases st with
    | false => exact ⟨_, Tame.bind (Tame.unsetOnThrow _ (Tame.checkAlt _ _ _)) fun _ => Tame.finishCbParser _ _ _, rfl⟩
    | true =>
      refine ⟨M.bind (SJ.wrapOnThrow p (SJ.setAlt p 0 ms)) fun r => M.bind (match r with | some v => SJ.modC p fun c => { c with val := v } | none => M.pure ()) fun _ => SJ.finishCbVal E p, ?_, rfl⟩
      refine Tame.bind (Tame.wrapOnThrow _ (Tame.setAlt _ _ _)) fun r => Tame.bind ?_ fun _ => Tame.finishCbVal _
      cases r with
      | none => exact Tame.pure _
      | some v => exact Tame.modC (keeps_tamer (fun _ => rfl) fun _ => rfl)

theorem finish_tame (sh p) (hs : ¬ ((∃ k u ms, sh = .object k u ms) ∨ ∃ ty tm st ms, sh = .union ty tm st ms)) : Tame (finish E sh p) := by
  cases sh with
  | value ty => exact Tame.finishCbVal _
  | ignore => exact Tame.pure _
  | object k u ms => exact absurd (Or.inl ⟨_, _, _, rfl⟩) hs
  | union ty tm st ms => exact absurd (Or.inr ⟨_, _, _, _, rfl⟩) hs
  | array st e =>
    cases st with
    | true => exact Tame.finishCbVal _
    | false => exact Tame.finishCbParser (.array false e) false p
  | map st e => exact Tame.finishCbParser (.map st e) false p

/-! ### The invariant -/

/-- No value, object or union is set and empty. -/
def Filled (R : Shape) (h : Heap) : Prop := ∀ q sh, R.at q = some sh → sh.fillable = true → (h q).set = true → (h q).empty = false

theorem Filled.tame {h h'} (a : Filled R h) (t : TameH h h') : Filled R h' :=
  fun q sh hR hf hs => (t q hs).2 (a q sh hR hf (t q hs).1)

/-- However it ends, the invariant holds if it held before. -/
def Fills {α} (R : Shape) (m : M α) (s : St) : Prop := Filled R s.heap → EndsIn (fun s' => Filled R s'.heap) (m s)

theorem Tame.fills {α} {m : M α} (h : Tame m) (s) : Fills R m s := by
  intro hf
  have := h s
  cases hc : m s with
  | ok a s1 => rw [hc] at this; exact hf.tame this
  | throw a s1 => rw [hc] at this; exact hf.tame this
  | ub => trivial
  | fuel => trivial

theorem Fills.keep {p} {f : Cell → Cell} {s} (h : ∀ c, (f c).set = c.set ∧ (f c).empty = c.empty := by exact fun _ => ⟨rfl, rfl⟩) : Fills R (modC p f) s :=
  Tame.fills (Tame.modC (keeps_tamer (fun c => (h c).1) fun c => (h c).2)) _

theorem Fills.bind {α β} {m : M α} {f : α → M β} {s : St} (hm : Fills R m s) (hf : ∀ a s', m s = .ok a s' → Fills R (f a) s') : Fills R (M.bind m f) s := by
  intro h
  have h1 := hm h
  unfold M.bind
  cases hc : m s with
  | ok a s1 => rw [hc] at h1; exact hf a s1 hc h1
  | throw e s1 => rw [hc] at h1; exact h1
  | ub => trivial
  | fuel => trivial

theorem Fills.ite {α} {c : Prop} [Decidable c] {a b : M α} {s} (ha : Fills R a s) (hb : Fills R b s) : Fills R (if c then a else b) s := by
  split <;> assumption

/-- `set := true; finish()` -/
theorem complete_fills {sh p} (hR : R.at p = some sh) {s : St} (hv : ∀ ty, sh = .value ty → (s.heap p).empty = false) : Fills R (complete E sh p) s := by
  intro hf
  unfold complete
  rw [bind_modC]
  have h1 : ∀ (b : (s.heap p).empty = false ∨ sh.fillable = false), Filled R (s.heap.upd p fun c => { c with set := true }) := by
    intro b q shq hq hfl hs
    rw [upd_apply] at hs ⊢
    split at hs
    · rename_i e; subst e
      rw [hR] at hq; simp only [Option.some.injEq] at hq; subst hq
      rw [if_pos rfl]
      rcases b with b | b
      · exact b
      · rw [b] at hfl; simp at hfl
    · rename_i e
      rw [if_neg e]
      exact hf q shq hq hfl hs
  by_cases hs : (∃ k u ms, sh = .object k u ms) ∨ ∃ ty tm st ms, sh = .union ty tm st ms
  · obtain ⟨m, hm, e⟩ := finish_split (E := E) sh p hs
    rw [e]
    unfold unlessEmpty
    rw [bind_getC]
    simp only [upd_same]
    split
    · show EndsIn _ (modC p _ _)
      intro q shq hq hfl hset
      simp only [upd_apply] at hset ⊢
      split at hset
      · simp at hset
      · rename_i e'
        simp only [if_neg e'] at hset ⊢
        exact hf q shq hq hfl hset
    · rename_i he
      exact Tame.fills hm _ (h1 (Or.inl (by simpa using he)))
  · refine Tame.fills (finish_tame sh p hs) _ (h1 ?_)
    cases sh with
    | value ty => exact Or.inl (hv ty rfl)
    | object k u ms => exact absurd (Or.inl ⟨_, _, _, rfl⟩) hs
    | union ty tm st ms => exact absurd (Or.inr ⟨_, _, _, _, rfl⟩) hs
    | _ => exact Or.inr rfl

theorem chain_fills : ∀ n : Nat, (∀ s, Fills R (popParser E R n) s) ∧ (∀ p s, Fills R (childParsed E R n p) s) ∧
    (∀ sh p s, R.at p = some sh → (∀ ty, sh = .value ty → (s.heap p).empty = false) → Fills R (endParsing E R n sh p) s) ∧
    (∀ s, Fills R (dispatchMapEnd E R n) s) := by
  intro n
  induction n with
  | zero => exact ⟨fun _ _ => trivial, fun _ _ _ => trivial, fun _ _ _ _ _ _ => trivial, fun _ _ => trivial⟩
  | succ n ih =>
    obtain ⟨ih1, ih2, ih3, ih4⟩ := ih
    refine ⟨fun s => ?_, fun p s => ?_, fun sh p s hR hv => ?_, fun s => ?_⟩
    · intro h
      unfold popParser
      split
      · exact h
      · exact h
      · exact ih2 _ _ h
    · unfold childParsed
      split
      · exact fun _ => trivial
      · exact Fills.bind (Tame.fills (Tame.popVal _) _) fun _ _ _ => Fills.keep
      · exact Tame.fills (Tame.elementCb _ _) _
      · exact Fills.bind (Tame.fills (Tame.elementCb _ _) _) fun _ _ _ => Fills.bind (Tame.fills (Tame.popVal _) _) fun _ _ _ => Fills.keep
      · rename_i ty tm st ms hR
        refine Fills.bind (ih3 _ _ _ hR (by simp)) fun _ s1 _ => Fills.ite ?_ (Tame.fills (Tame.pure _) _)
        exact Fills.bind (Tame.fills (Tame.getC _) _) fun _ s2 _ => Fills.ite (ih4 _) (fun _ => trivial)
      · exact Tame.fills (Tame.pure _) _
    · unfold endParsing
      have : Fills R (M.bind (complete E sh p) fun _ => M.bind (SJ.getC p) fun c => if c.disp then popParser E R n else M.pure ()) s :=
        Fills.bind (complete_fills hR hv) fun _ s1 _ => Fills.bind (Tame.fills (Tame.getC _) _) fun _ s2 _ => Fills.ite (ih1 _) (Tame.fills (Tame.pure _) _)
      unfold complete at this
      rwa [bind_assoc] at this
    · intro h
      unfold dispatchMapEnd
      split
      · exact h
      · split
        · trivial
        · rename_i hR
          split
          · dsimp only
            split
            · exact ih3 _ _ _ hR (by simp) (h.tame (TameH.upd (keeps_tamer (fun _ => rfl) fun _ => rfl)))
            · exact h.tame (TameH.upd (keeps_tamer (fun _ => rfl) fun _ => rfl))
          · exact h
        · rename_i hR; exact ih3 _ _ _ hR (by simp) h
        · rename_i hR; exact ih3 _ _ _ hR (by simp) h
        · rename_i hR; exact ih3 _ _ _ hR (by simp) h
        · exact h

theorem resetH_tame {sh p} (hR : R.at p = some sh) (h : Heap) : TameH h (resetH p sh h) := by
  intro q
  rcases resetH_rst sh p h hR q with e | ⟨sh', _, e⟩
  · rw [e]; exact .refl _
  · rw [e]
    intro hs
    exfalso
    cases sh' with
    | object k u ms => cases k <;> simp [resetCell, Cell.baseReset] at hs
    | _ => simp [resetCell, Cell.baseReset] at hs

theorem onMember_tame {u ms p x} : Tame (onMember E u ms p x) := by
  unfold onMember
  refine Tame.bind (Tame.setNotEmpty _) fun _ => Tame.bind (Tame.getC _) fun c => ?_
  split
  · exact Tame.ite (Tame.bind (Tame.push _) fun _ => Tame.pure _) Tame.ub
  · exact Tame.ite (Tame.throwStd _) (Tame.ite (Tame.bind (Tame.push _) fun _ => Tame.pure _) Tame.ub)

theorem onNullBase_fills {f sh p} (hR : R.at p = some sh) (s) : Fills R (onNullBase E R f sh p) s :=
  Fills.bind (Tame.fills (Tame.modH fun h => resetH_tame hR h) _) fun _ s1 _ => Fills.bind (Tame.fills (Tame.getC _) _) fun _ s2 _ =>
    Fills.ite ((chain_fills f).1 _) (Tame.fills (Tame.pure _) _)

theorem setDispH_tame (sh p h) : TameH h (setDispH p sh h) := by
  intro q
  rcases setDispH_only sh p h q with e | e <;> rw [e]
  · exact .refl _
  · exact fun h => ⟨h, id⟩

theorem on_fills (f : Nat) : ∀ (sh : Shape) (p : Path) (t : Token) (s : St), R.at p = some sh → Fills R (on E R f sh p t) s
  | .value ty, p, t, s, hR => by
    have hend := fun s h => (chain_fills (E := E) (R := R) f).2.2.1 (.value ty) p s hR h
    cases t <;> simp only [SJ.on] <;> try exact Tame.fills (Tame.unexpected _) _
    · exact onNullBase_fills hR _
    · refine Fills.ite ?_ (Tame.fills (Tame.unexpected _) _)
      refine Fills.bind (Tame.fills (Tame.setNotEmpty _) _) fun _ s1 h1 => ?_
      refine Fills.bind Fills.keep fun _ s2 h2 => hend _ fun ty' _ => ?_
      injection h1 with _ h1; subst h1
      injection h2 with _ h2; subst h2
      simp
  | .ignore, p, t, s, hR => by
    have hend := fun s => (chain_fills (E := E) (R := R) f).2.2.1 .ignore p s hR (by simp)
    have hmod : ∀ (g : Cell → List Bool) s, Fills R (modC p fun c => { c with struct := g c }) s := fun g s =>
      Fills.keep
    cases t <;> simp only [SJ.on]
    · exact onNullBase_fills hR _
    · exact Fills.bind (Tame.fills (Tame.getC _) _) fun _ s1 _ => Fills.ite (hend _) (Tame.fills (Tame.pure _) _)
    · exact hmod _ _
    · refine Fills.bind (Tame.fills (Tame.getC _) _) fun c s1 _ => ?_
      split
      · exact Tame.fills (Tame.pure _) _
      · exact Tame.fills (Tame.unexpected _) _
    · refine Fills.bind (Tame.fills (Tame.getC _) _) fun c s1 _ => ?_
      split
      · exact Fills.bind (hmod _ _) fun _ s2 _ => Fills.ite (hend _) (Tame.fills (Tame.pure _) _)
      · exact Tame.fills (Tame.unexpected _) _
    · exact hmod _ _
    · refine Fills.bind (Tame.fills (Tame.getC _) _) fun c s1 _ => ?_
      split
      · exact Fills.bind (hmod _ _) fun _ s2 _ => Fills.ite (hend _) (Tame.fills (Tame.pure _) _)
      · exact Tame.fills (Tame.unexpected _) _
  | .object k u ms, p, t, s, hR => by
    have hend := fun s => (chain_fills (E := E) (R := R) f).2.2.1 (.object k u ms) p s hR (by simp)
    cases t <;> simp only [SJ.on] <;> try exact Tame.fills (Tame.unexpected _) _
    · exact onNullBase_fills hR _
    · exact Tame.fills (Tame.modH fun h => resetH_tame hR h) _
    · exact Fills.bind (Tame.fills onMember_tame _) fun _ _ _ => Tame.fills (Tame.pure _) _
    · exact hend _
  | .union ty tm st ms, p, t, s, hR => by
    have hend := fun s => (chain_fills (E := E) (R := R) f).2.2.1 (.union ty tm st ms) p s hR (by simp)
    cases t <;> simp only [SJ.on] <;> try exact Tame.fills (Tame.unexpected _) _
    · exact onNullBase_fills hR _
    · refine Fills.ite ?_ (Tame.fills (Tame.unexpected _) _)
      refine Fills.bind (Tame.fills (Tame.modH fun h => resetH_tame hR h) _) fun _ _ _ => Fills.bind (Tame.fills onMember_tame _) fun r _ _ => ?_
      cases r with
      | none => exact Tame.fills (Tame.pure _) _
      | some n => exact Fills.keep
    · exact Fills.ite (Tame.fills (Tame.throwStd _) _) (Tame.fills (Tame.modH fun h => resetH_tame hR h) _)
    · exact Fills.ite (Tame.fills (Tame.throwStd _) _) (Fills.ite (Tame.fills (Tame.throwStd _) _) (Tame.fills (Tame.pure _) _))
    · exact hend _
  | .array st e, p, t, s, hR => by
    have hend := fun s => (chain_fills (E := E) (R := R) f).2.2.1 (.array st e) p s hR (by simp)
    have ih := fun t s => on_fills f e (.elem :: p) t s (at_elem_array hR)
    have hdisp : ∀ s, Fills R (modH (setDispH (.elem :: p) e)) s := fun s => Tame.fills (Tame.modH fun h => setDispH_tame _ _ h) _
    cases t <;> simp only [SJ.on] <;> try exact Tame.fills (Tame.unexpected _) _
    · exact Fills.bind (Tame.fills (Tame.getC _) _) fun _ _ _ => Fills.ite (onNullBase_fills hR _) (ih _ _)
    · refine Fills.bind (Tame.fills (Tame.getC _) _) fun _ _ _ => Fills.ite (Tame.fills (Tame.unexpected _) _) ?_
      exact Fills.bind (ih _ _) fun _ _ _ => Fills.bind (Tame.fills (Tame.setNotEmpty _) _) fun _ _ _ => (chain_fills f).2.1 _ _
    · refine Fills.bind (Tame.fills (Tame.getC _) _) fun _ _ _ => Fills.ite (Tame.fills (Tame.unexpected _) _) (Fills.ite (fun _ => trivial) ?_)
      exact Fills.bind (Tame.fills (Tame.setNotEmpty _) _) fun _ _ _ => Fills.bind (hdisp _) fun _ _ _ => Fills.bind (Tame.fills (Tame.push _) _) fun _ _ _ => ih _ _
    · refine Fills.bind (Tame.fills (Tame.getC _) _) fun _ _ _ => Fills.ite ?_ (Fills.ite (fun _ => trivial) ?_)
      · exact Fills.bind (Tame.fills (Tame.modH fun h => resetH_tame hR h) _) fun _ _ _ => Fills.keep
      · exact Fills.bind (Tame.fills (Tame.setNotEmpty _) _) fun _ _ _ => Fills.bind (hdisp _) fun _ _ _ => Fills.bind (Tame.fills (Tame.push _) _) fun _ _ _ => ih _ _
    · exact Fills.bind Fills.keep fun _ _ _ => hend _
  | .map st e, p, t, s, hR => by
    have hend := fun s => (chain_fills (E := E) (R := R) f).2.2.1 (.map st e) p s hR (by simp)
    cases t <;> simp only [SJ.on] <;> try exact Tame.fills (Tame.unexpected _) _
    · exact onNullBase_fills hR _
    · exact Tame.fills (Tame.modH fun h => resetH_tame hR h) _
    · refine Fills.bind (Tame.fills (Tame.setNotEmpty _) _) fun _ _ _ => Fills.bind (Tame.fills (Tame.getC _) _) fun _ _ _ => Fills.ite ?_ (fun _ => trivial)
      exact Fills.bind (Tame.fills (Tame.push _) _) fun _ _ _ => Fills.keep
    · exact hend _

theorem dispatch_fills (t : Token) (s : St) : Fills R (dispatch E R t) s := by
  intro h
  unfold dispatch
  split
  · exact h
  · split
    · trivial
    · rename_i hR; exact on_fills _ _ _ _ _ hR h

theorem run_fills : ∀ (ts : List Token) (s : St), Fills R (run E R ts) s
  | [], s => Tame.fills (Tame.pure _) _
  | t :: ts, s => Fills.bind (dispatch_fills t s) fun _ s1 _ => run_fills ts s1

theorem History.filled {s : St} (h : History R s) : Filled R s.heap := by
  induction h with
  | init =>
    intro q sh hq hf hs
    have := (setDispH_tame R [] Heap.fresh q hs).1
    simp [Heap.fresh] at this
  | @tokens E s s' ts _ hr ih => have := run_fills (E := E) ts s ih; rw [hr] at this; exact this
  | @failed E s s' ts e _ hr ih => have := run_fills (E := E) ts s ih; rw [hr] at this; exact this
  | restart _ ih => exact ih
  | @pop s s' p sh v _ _ _ hp ih =>
    have := Tame.fills (R := R) (Tame.popVal p) s ih
    rw [show SJ.popVal p s = _ from hp] at this
    exact this
  | @reset s p sh _ hR ih => exact Filled.tame ih (resetH_tame hR s.heap)

end SJ
