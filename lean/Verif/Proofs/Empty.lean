/-
What `isEmpty()` shows after a document was read.
-/
import Verif.Proofs.Alike
import Verif.Proofs.Context
import Verif.SpecEmpty

set_option linter.unusedVariables false

namespace SJ

variable {E : Env} {R : Shape}

/-! ### Operations that do not change emptiness -/

/-- `h'` shows the same parsers empty as `h`. -/
def SameEmpty (h h' : Heap) : Prop := ∀ q, (h' q).empty = (h q).empty

theorem SameEmpty.refl (h) : SameEmpty h h := fun _ => rfl
theorem SameEmpty.trans {h h' h''} (a : SameEmpty h h') (b : SameEmpty h' h'') : SameEmpty h h'' := fun q => (b q).trans (a q)
theorem SameEmpty.upd {h : Heap} {p f} (hf : ∀ c, (f c).empty = c.empty) : SameEmpty h (h.upd p f) := by
  intro q; rw [upd_apply]; split
  · exact hf _
  · rfl

/-- A successful run changes the emptiness of no parser. -/
def Mute {α} (m : M α) : Prop := ∀ s a s', m s = .ok a s' → SameEmpty s.heap s'.heap

theorem Mute.pure {α} (a : α) : Mute (M.pure a) := by intro s b s' h; injection h with _ h; subst h; exact .refl _
theorem Mute.never {α} {m : M α} (h : ∀ s a s', m s ≠ .ok a s') : Mute m := fun s a s' e => absurd e (h s a s')
theorem Mute.throwStd {α} (m) : Mute (throwStd m : M α) := Mute.never fun _ _ _ => by simp [SJ.throwStd]
theorem Mute.unexpected {α} (t) : Mute (unexpected t : M α) := Mute.throwStd _
theorem Mute.ub {α} : Mute (fun _ => .ub : M α) := Mute.never fun _ _ _ => by simp
theorem Mute.fuel {α} : Mute (fun _ => .fuel : M α) := Mute.never fun _ _ _ => by simp
theorem Mute.getC (p) : Mute (getC p) := by intro s b s' h; injection h with _ h; subst h; exact .refl _
theorem Mute.modC {p f} (hf : ∀ c : Cell, (f c).empty = c.empty) : Mute (modC p f) := by
  intro s b s' h; injection h with _ h; subst h; exact .upd hf
theorem Mute.drop : Mute dropTop := by intro s b s' h; injection h with _ h; subst h; exact .refl _
theorem Mute.bind {α β} {m : M α} {f : α → M β} (hm : Mute m) (hf : ∀ a, Mute (f a)) : Mute (M.bind m f) := by
  intro s b s' h
  obtain ⟨a, s1, h1, h2⟩ := bind_ok_inv h
  exact (hm _ _ _ h1).trans (hf _ _ _ _ h2)
theorem Mute.ite {α} {c : Prop} [Decidable c] {a b : M α} (ha : Mute a) (hb : Mute b) : Mute (if c then a else b) := by
  split <;> assumption

theorem Mute.popVal (p) : Mute (popVal p) := by
  intro s a s' h
  unfold SJ.popVal at h
  split at h
  · injection h with _ h; subst h; exact .upd fun _ => rfl
  · simp at h

theorem verdict_state {v w} {s s' : St} {a} (h : verdict v w s = .ok a s') : s' = s := by
  cases v with
  | accept => injection h with _ h; exact h.symm
  | reject => simp [verdict, throwStd] at h
  | throws e => simp [verdict] at h

theorem cbPops_empty (sh p) : ∀ (ps : List Path) (h : Heap), SameEmpty h (cbPops sh p ps h)
  | [], h => .refl _
  | rel :: ps, h => by
    unfold cbPops
    split
    · split
      · refine SameEmpty.trans (SameEmpty.upd (p := rel ++ p) (f := fun c => { c with set := false, val := .moved }) fun _ => rfl)
          (cbPops_empty sh p ps _)
      · exact cbPops_empty sh p ps _
    · exact cbPops_empty sh p ps _

theorem Mute.finishCbVal (p) : Mute (finishCbVal E p) := by
  intro s a s' h
  unfold SJ.finishCbVal at h
  cases hc : E.onFinish p with
  | none => rw [hc] at h; injection h with _ h; subst h; exact .refl _
  | some cb => rw [hc] at h; rw [verdict_state h]; exact .refl _

theorem Mute.finishCbParser (sh c p) : Mute (finishCbParser E sh c p) := by
  intro s a s' h
  unfold SJ.finishCbParser at h
  cases hc : E.onFinish p with
  | none => rw [hc] at h; injection h with _ h; subst h; exact .refl _
  | some cb =>
    rw [hc] at h
    rw [verdict_state h]
    have h1 := cbPops_empty sh p (cb s.log (.parser (snap s.heap p sh))).pops s.heap
    simp only
    split
    · exact h1.trans (.upd fun _ => rfl)
    · exact h1

theorem Mute.elementCb (e p) : Mute (elementCb E e p) := by
  intro s a s' h
  unfold SJ.elementCb at h
  cases hc : E.onElement p with
  | none => rw [hc] at h; injection h with _ h; subst h; exact .refl _
  | some cb => rw [hc] at h; rw [verdict_state h]; exact cbPops_empty _ _ _ _

theorem Mute.setValues (p ms) : ∀ n, Mute (setValues p n ms) := by
  induction ms with
  | nil => exact fun n => Mute.pure _
  | cons x ms ih =>
    intro n
    unfold SJ.setValues
    refine Mute.bind (ih _) fun vs => Mute.bind (Mute.getC _) fun c => Mute.ite (Mute.bind (Mute.popVal _) fun _ => Mute.pure _) (Mute.ite ?_ (Mute.throwStd _))
    split
    · exact Mute.throwStd _
    · exact Mute.pure _

theorem Mute.currentMemberId (p) : Mute (currentMemberId p) := by
  intro s a s' h
  unfold SJ.currentMemberId at h
  split at h
  · injection h with _ h; subst h; exact .refl _
  · simp at h

theorem Mute.checkAlt (p ms) : ∀ n, Mute (checkAlt p n ms) := by
  induction ms with
  | nil => exact fun n => Mute.pure _
  | cons x ms ih =>
    intro n
    unfold SJ.checkAlt
    exact Mute.bind (ih _) fun _ => Mute.bind (Mute.currentMemberId _) fun id => Mute.ite (Mute.pure _)
      (Mute.bind (Mute.getC _) fun c => Mute.ite (Mute.throwStd _) (Mute.pure _))

theorem Mute.setAlt (p ms) : ∀ n, Mute (setAlt p n ms) := by
  induction ms with
  | nil => exact fun n => Mute.pure _
  | cons x ms ih =>
    intro n
    unfold SJ.setAlt
    refine Mute.bind (ih _) fun _ => Mute.bind (Mute.currentMemberId _) fun id => Mute.ite (Mute.pure _)
      (Mute.bind (Mute.getC _) fun c => Mute.ite (Mute.bind (Mute.popVal _) fun _ => Mute.pure _) (Mute.ite ?_ (Mute.throwStd _)))
    split
    · exact Mute.throwStd _
    · exact Mute.pure _

theorem Mute.unsetOnThrow {α} (p) {m : M α} (h : Mute m) : Mute (unsetOnThrow p m) := by
  intro s a s' e
  unfold SJ.unsetOnThrow at e
  cases hc : m s with
  | ok b s1 => rw [hc] at e; injection e with _ e; subst e; exact h _ _ _ hc
  | _ => rw [hc] at e; simp at e

theorem Mute.wrapOnThrow {α} (p) {m : M α} (h : Mute m) : Mute (wrapOnThrow p m) := by
  intro s a s' e
  unfold SJ.wrapOnThrow at e
  cases hc : m s with
  | ok b s1 => rw [hc] at e; injection e with _ e; subst e; exact h _ _ _ hc
  | _ => rw [hc] at e; simp at e

theorem Mute.unset (p) : Mute (unset p) := Mute.modC fun _ => rfl

theorem Mute.unlessEmpty (p) {m : M Unit} (h : Mute m) : Mute (unlessEmpty p m) :=
  Mute.bind (Mute.getC _) fun _ => Mute.ite (Mute.unset _) h

theorem Mute.finish (sh p) : Mute (finish E sh p) := by
  have hchk : ∀ ms, Mute (SJ.unsetOnThrow p fun s => match checkMembers s.heap p 0 ms with | some e => .throw (.std e) s | none => .ok () s) := by
    intro ms
    refine Mute.unsetOnThrow p ?_
    intro s a s' h
    dsimp only at h
    split at h
    · simp at h
    · injection h with _ h; subst h; exact .refl _
  cases sh with
  | value ty => exact Mute.finishCbVal _
  | ignore => exact Mute.pure _
  | object k u ms =>
    cases k with
    | auto =>
      exact Mute.unlessEmpty _ (Mute.bind (Mute.wrapOnThrow _ (Mute.setValues _ _ _)) fun vs => Mute.bind (Mute.modC fun _ => rfl) fun _ => Mute.finishCbVal _)
    | plain => exact Mute.unlessEmpty _ (Mute.bind (hchk ms) fun _ => Mute.finishCbParser _ _ _)
    | custom => exact Mute.unlessEmpty _ (Mute.bind (hchk ms) fun _ => Mute.finishCbParser _ _ _)
  | union ty tm st ms =>
    cases st with
    | false => exact Mute.unlessEmpty _ (Mute.bind (Mute.unsetOnThrow _ (Mute.checkAlt _ _ _)) fun _ => Mute.finishCbParser _ _ _)
    | true =>
      refine Mute.unlessEmpty _ (Mute.bind (Mute.wrapOnThrow _ (Mute.setAlt _ _ _)) fun r => Mute.bind ?_ fun _ => Mute.finishCbVal _)
      cases r with
      | none => exact Mute.pure _
      | some v => exact Mute.modC fun _ => rfl
  | array st e =>
    cases st with
    | true => exact Mute.finishCbVal _
    | false => exact Mute.finishCbParser (.array false e) false p
  | map st e => exact Mute.finishCbParser (.map st e) false p

theorem Mute.complete (sh p) : Mute (complete E sh p) := Mute.bind (Mute.modC fun _ => rfl) fun _ => Mute.finish _ _

theorem Mute.arrChild (st p) : Mute (arrChild st p) :=
  Mute.ite (Mute.bind (Mute.popVal _) fun _ => Mute.modC fun _ => rfl) (Mute.pure _)

theorem Mute.mapChild (st e p) : Mute (mapChild E st e p) :=
  Mute.ite (Mute.bind (Mute.elementCb _ _) fun _ => Mute.bind (Mute.popVal _) fun _ => Mute.modC fun _ => rfl) (Mute.elementCb _ _)

theorem chain_mute : ∀ n : Nat, Mute (popParser E R n) ∧ (∀ p, Mute (childParsed E R n p)) ∧
    (∀ sh p, Mute (endParsing E R n sh p)) ∧ Mute (dispatchMapEnd E R n) := by
  intro n
  induction n with
  | zero => exact ⟨Mute.fuel, fun _ => Mute.fuel, fun _ _ => Mute.fuel, Mute.fuel⟩
  | succ n ih =>
    obtain ⟨ih1, ih2, ih3, ih4⟩ := ih
    refine ⟨?_, fun p => ?_, fun sh p => ?_, ?_⟩
    · intro s a s' h
      unfold popParser at h
      split at h
      · simp at h
      · injection h with _ h; subst h; exact .refl _
      · have := ih2 _ _ _ _ h; exact this
    · unfold childParsed
      split
      · exact Mute.ub
      · exact Mute.bind (Mute.popVal _) fun _ => Mute.modC fun _ => rfl
      · exact Mute.elementCb _ _
      · exact Mute.bind (Mute.elementCb _ _) fun _ => Mute.bind (Mute.popVal _) fun _ => Mute.modC fun _ => rfl
      · refine Mute.bind (ih3 _ _) fun _ => Mute.ite (Mute.bind (Mute.getC _) fun _ => Mute.ite ih4 Mute.ub) (Mute.pure _)
      · exact Mute.pure _
    · unfold endParsing
      exact Mute.bind (Mute.modC fun _ => rfl) fun _ => Mute.bind (Mute.finish _ _) fun _ => Mute.bind (Mute.getC _) fun _ => Mute.ite ih1 (Mute.pure _)
    · intro s a s' h
      unfold dispatchMapEnd at h
      split at h
      · simp at h
      · split at h
        · simp at h
        · split at h
          · dsimp only at h
            split at h
            · refine SameEmpty.trans ?_ (ih3 _ _ _ _ _ h); exact SameEmpty.upd fun _ => rfl
            · injection h with _ h; subst h; exact .upd fun _ => rfl
          · simp [SJ.unexpected, SJ.throwStd] at h
        · exact ih3 _ _ _ _ _ h
        · exact ih3 _ _ _ _ _ h
        · exact ih3 _ _ _ _ _ h
        · simp [SJ.unexpected, SJ.throwStd] at h

theorem Mute.pop : Mute (SJ.pop E R) := fun s a s' h => (chain_mute _).1 s a s' h

/-! ### The invariants -/

/-- What is inside `sh` at `p` is as after reading `j`. -/
def Leaves (h : Heap) (p : Path) (sh : Shape) (j : Json) : Prop :=
  ∀ r b, emptyAfter sh j r = some b → (h (r.reverse ++ p)).empty = b

/-- What is inside `sh` at `p` is as after a reset. -/
def Renewed (h : Heap) (p : Path) (sh : Shape) : Prop := ∀ r, emptied sh r = true → (h (r.reverse ++ p)).empty = true

/-- The parsers inside `sh` at `p` are as after reading these values last. -/
def PartsRead (h : Heap) (p : Path) (sh : Shape) (g : Step → Option Json) : Prop :=
  ∀ st c, st ≠ .ign → sh.child st = some c →
    (∀ v, g st = some v → Leaves h (st :: p) c v) ∧ (g st = none → (∀ a b, sh ≠ .map a b) → Renewed h (st :: p) c)

theorem part_ign (sh : Shape) (j : Json) : part sh j .ign = none := by
  cases sh <;> cases j <;> simp [part]

theorem below_rev (r : List Step) (p : Path) : Below p (r.reverse ++ p) := List.suffix_append _ _

theorem step_path (st : Step) (r : List Step) (p : Path) : (st :: r).reverse ++ p = r.reverse ++ (st :: p) := by simp

theorem Leaves.same {h h' p sh j} (a : Leaves h p sh j) (hs : ∀ q, Below p q → (h' q).empty = (h q).empty) : Leaves h' p sh j :=
  fun r b e => (hs _ (below_rev r p)).trans (a r b e)
theorem Renewed.same {h h' p sh} (a : Renewed h p sh) (hs : ∀ q, Below p q → (h' q).empty = (h q).empty) : Renewed h' p sh :=
  fun r e => (hs _ (below_rev r p)).trans (a r e)
theorem PartsRead.same {h h' p sh g} (a : PartsRead h p sh g) (hs : ∀ q, Below p q → q ≠ p → (h' q).empty = (h q).empty) : PartsRead h' p sh g :=
  fun st c hi hc => ⟨fun v hv => ((a st c hi hc).1 v hv).same fun q hq => hs q hq.step (ne_of_below_step hq),
    fun hn hm => ((a st c hi hc).2 hn hm).same fun q hq => hs q hq.step (ne_of_below_step hq)⟩

theorem emptied_step {sh st r} (h : emptied sh (st :: r) = true) :
    (∀ a b, sh ≠ .map a b) ∧ st ≠ .ign ∧ ∃ c, sh.child st = some c ∧ emptied c r = true := by
  cases sh <;> cases st <;> simp [emptied] at h <;> refine ⟨by simp, by simp, ?_⟩ <;> (split at h <;> first | exact ⟨_, by assumption, h⟩ | simp at h)

theorem resetH_fresh : ∀ (r : List Step) (sh : Shape) (p : Path) (h : Heap), emptied sh r = true → (resetH p sh h (r.reverse ++ p)).empty = true
  | [], sh, p, h, _ => (resetH_self sh p h).2
  | st :: r, sh, p, h, he => by
    obtain ⟨hm, hi, c, hc, he'⟩ := emptied_step he
    rw [step_path, resetH_child h hm hc (below_rev _ _)]
    exact resetH_fresh r c (st :: p) h he'

/-- From the parts to the whole. -/
theorem Leaves.intro {h p sh j} (h0 : (h p).empty = j.blank) (hin : PartsRead h p sh (part sh j)) : Leaves h p sh j := by
  intro r b e
  cases r with
  | nil => simp only [emptyAfter, Option.some.injEq] at e; rw [← e]; exact h0
  | cons st r =>
    rw [step_path]
    simp only [emptyAfter] at e
    split at e
    · rename_i v c hv hc
      exact (hin st c (by rintro rfl; simp [part_ign] at hv) hc).1 v hv r b e
    · rename_i hno
      split at e
      · rename_i he
        simp only [Option.some.injEq] at e
        subst e
        obtain ⟨hm, hi, c, hc, he'⟩ := emptied_step he
        have hn : part sh j st = none := by
          cases hp : part sh j st with
          | none => rfl
          | some v => exact (hno v c hp hc).elim
        exact (hin st c hi hc).2 hn hm r he'
      · simp at e

theorem Renewed.inside {h p sh} (hf : Renewed h p sh) : PartsRead h p sh fun _ => none := by
  intro st c hi hc
  refine ⟨fun v hv => by simp at hv, fun _ hm r he => ?_⟩
  have := hf (st :: r) (by
    cases sh with
    | map a b => exact absurd rfl (hm a b)
    | _ => cases st with
      | ign => exact absurd rfl hi
      | _ => simp [emptied, hc, he])
  rwa [step_path] at this

theorem PartsRead.put {h h' p sh} {g g' : Step → Option Json} {st : Step} (a : PartsRead h p sh g) (hs : ∀ q, ¬ Below (st :: p) q → q ≠ p → (h' q).empty = (h q).empty)
    (hg : ∀ st', st' ≠ st → g' st' = g st')
    (hst : st ≠ .ign → ∀ c, sh.child st = some c → (∀ v, g' st = some v → Leaves h' (st :: p) c v) ∧ (g' st = none → (∀ a b, sh ≠ .map a b) → Renewed h' (st :: p) c)) :
    PartsRead h' p sh g' := by
  intro st' c hi hc
  by_cases e : st' = st
  · subst e; exact hst hi c hc
  · rw [hg st' e]
    have hsame : ∀ q, Below (st' :: p) q → (h' q).empty = (h q).empty := fun q hq => hs q (below_disjoint e hq) (ne_of_below_step hq)
    exact ⟨fun v hv => ((a st' c hi hc).1 v hv).same hsame, fun h1 h2 => ((a st' c hi hc).2 h1 h2).same hsame⟩

theorem setDispH_empty (sh p h) : SameEmpty h (setDispH p sh h) := by
  intro q
  rcases setDispH_only sh p h q with e | e <;> rw [e]

/-- Selection of an alternative and its fields. -/
theorem select_left {p ty tm st ms x k fs} {s a s0} {s1 : St} (h : select E ty tm st ms p x s = .ok a s0)
    (hfr : ∀ q, ¬ Below (.mem a.1 :: p) q → s1.heap q = s0.heap q)
    (hF : Renewed s0.heap (.mem a.1 :: p) a.2 → Leaves s1.heap (.mem a.1 :: p) a.2 (.obj fs)) :
    Leaves s1.heap p (.union ty tm st ms) (.obj ((k, .sc x) :: fs)) := by
  unfold select at h
  rw [bind_modH, setNotEmpty_def, bind_modC] at h
  cases hl : lookup x 0 ms with
  | none => rw [hl] at h; simp [throwStd] at h
  | some b =>
    obtain ⟨n, ash⟩ := b
    rw [hl] at h
    simp only [bind_push, bind_modC] at h
    injection h with h1 h2
    subst h1; subst h2
    obtain ⟨i, hi⟩ := lookup_mem hl
    have hfresh : Renewed (resetH p (.union ty tm st ms) s.heap) p (.union ty tm st ms) := fun r he => resetH_fresh r _ _ _ he
    have hin : PartsRead (((resetH p (.union ty tm st ms) s.heap).upd p fun c => { c with empty := false }).upd p fun c => { c with curId := n })
        p (.union ty tm st ms) fun _ => none := by
      refine hfresh.inside.same fun q _ hq => ?_
      rw [upd_other hq, upd_other hq]
    refine Leaves.intro ?_ ?_
    · rw [hfr p below_self_cons]; simp [Json.blank]
    · refine PartsRead.put (st := .mem n) hin (fun q hq hqp => by rw [hfr q hq]) ?_ ?_
      · intro st' hne
        cases st' with
        | mem m =>
          have : ¬ n = m := fun e => hne (by rw [e])
          simp [part, hl, this]
        | elem => rfl
        | ign => rfl
      · intro _ c hc
        have hc' : c = ash := by simp [Shape.child, hi] at hc; exact hc.symm
        subst hc'
        have hg : part (.union ty tm st ms) (.obj ((k, .sc x) :: fs)) (.mem n) = some (.obj fs) := by simp [part, hl]
        rw [hg]
        refine ⟨fun v hv => ?_, fun hn => by simp at hn⟩
        simp only [Option.some.injEq] at hv; subst hv
        exact hF ((hin (.mem n) c (by simp) hc).2 rfl (by simp))

theorem Leaves.parts {h p sh j} (a : Leaves h p sh j) : (h p).empty = j.blank ∧ PartsRead h p sh (part sh j) := by
  refine ⟨a [] _ rfl, fun st c hi hc => ⟨fun v hv r b e => ?_, fun hn hm r he => ?_⟩⟩
  · rw [← step_path]
    exact a (st :: r) b (by simp only [emptyAfter, hv, hc]; exact e)
  · rw [← step_path]
    refine a (st :: r) true ?_
    have : emptied sh (st :: r) = true := by
      cases sh with
      | map x b => exact absurd rfl (hm x b)
      | _ => cases st with
        | ign => exact absurd rfl hi
        | _ => simp [emptied, hc, he]
    simp [emptyAfter, hn, this]

theorem PartsRead.congr {h p sh} {g g' : Step → Option Json} (a : PartsRead h p sh g) (hg : ∀ st, g' st = g st) : PartsRead h p sh g' := by
  have : g' = g := funext hg
  rw [this]; exact a

/-- A new value of the child at `st`, the rest stays. -/
theorem PartsRead.read {h h' p sh} {g g' : Step → Option Json} {st : Step} {c v} (a : PartsRead h p sh g) (hc : sh.child st = some c)
    (hs : ∀ q, ¬ Below (st :: p) q → q ≠ p → (h' q).empty = (h q).empty) (hv : Leaves h' (st :: p) c v)
    (hg : ∀ st', g' st' = if st' = st then some v else g st') : PartsRead h' p sh g' := by
  refine a.put (st := st) hs (fun st' hne => by rw [hg, if_neg hne]) fun _ c' hc' => ?_
  rw [hc] at hc'
  simp only [Option.some.injEq] at hc'
  subst hc'
  rw [hg, if_pos rfl]
  exact ⟨fun w hw => by simp only [Option.some.injEq] at hw; subst hw; exact hv, fun hn => by simp at hn⟩

/-- An object or array as element of an array. -/
theorem composite_elem {p st e g j} {h h1 h2 : Heap} (hg : PartsRead h p (.array st e) (fun x => if x = .elem then g else none))
    (hL : Leaves h1 (.elem :: p) e j) (hk : Frame (.elem :: p) (setDispH (.elem :: p) e (h.upd p fun c => { c with empty := false })) h1) (hm : SameEmpty h1 h2) :
    (h2 p).empty = false ∧ PartsRead h2 p (.array st e) (fun x => if x = .elem then some j else none) := by
  have hce : (Shape.array st e).child .elem = some e := by simp [Shape.child]
  have hout : ∀ q, ¬ Below (.elem :: p) q → (h2 q).empty = (h.upd p (fun c => { c with empty := false }) q).empty := by
    intro q hq
    rw [hm q, hk q hq]
    exact setDispH_empty _ _ _ q
  refine ⟨by rw [hout p below_self_cons]; simp, hg.read hce (fun q hq hqp => by rw [hout q hq, upd_other hqp]) (hL.same fun q _ => hm q) fun st' => ?_⟩
  split <;> simp_all

mutual
theorem evalVal_leaves : ∀ (j : Json) (sh : Shape) (p : Path) (s s' : St), R.at p = some sh → sh.wf = true → evalVal E sh p j s = .ok () s' →
    Leaves s'.heap p sh j
  | .null, sh, p, s, s', hR, hw, h => by
    unfold evalVal at h
    injection h with _ h; subst h
    have hf : Renewed (resetH p sh s.heap) p sh := fun r he => resetH_fresh r _ _ _ he
    refine Leaves.intro (hf [] (by cases sh <;> rfl)) (hf.inside.congr fun st => ?_)
    cases sh <;> cases st <;> rfl
  | .sc x, sh, p, s, s', hR, hw, h => by
    unfold evalVal at h
    cases sh with
    | value ty =>
      simp only at h
      split at h
      · rw [setNotEmpty_def, bind_modC, bind_modC] at h
        have := Mute.complete _ _ _ _ _ h
        refine Leaves.intro ?_ fun st c _ hc => by simp [Shape.child] at hc
        rw [this p]; simp [Json.blank]
      · simp [unexpected, throwStd] at h
    | ignore => simp [Shape.wf] at hw
    | union ty tm st ms =>
      simp only at h
      split at h
      · simp at h
      · simp [unexpected, throwStd] at h
    | _ => simp [unexpected, throwStd] at h
  | .arr l, sh, p, s, s', hR, hw, h => by
    unfold evalVal at h
    cases sh with
    | array st e =>
      simp only at h
      rw [bind_modH, bind_modC] at h
      obtain ⟨u, s1, hc, h⟩ := bind_ok_inv h
      rw [bind_modC] at h
      have hm := Mute.complete _ _ _ _ _ h
      have hf : Renewed (resetH p (.array st e) s.heap) p (.array st e) := fun r he => resetH_fresh r _ _ _ he
      have h1 := evalElems_leaves l st e p _ s1 none hR hw ((hf.inside.congr fun st => by cases st <;> rfl).same fun q _ hq => by simp only; rw [upd_other hq]) hc
      have hq : ∀ q, (s'.heap q).empty = (s1.heap q).empty := by
        intro q
        rw [hm q]
        simp only [upd_apply]; split <;> rfl
      refine Leaves.intro ?_ ((h1.2.same fun q _ _ => hq q).congr fun st => ?_)
      · rw [hq p, h1.1]
        have := hf [] rfl
        simp only [upd_same]
        simp only [List.reverse_nil, List.nil_append] at this
        rw [this]
        simp [Json.blank]
      · cases st <;> simp [part]
    | ignore => simp [Shape.wf] at hw
    | _ => simp [unexpected, throwStd] at h
  | .obj fs, sh, p, s, s', hR, hw, h => by
    have key : ∀ (hh : M.bind (modH (resetH p sh)) (fun _ => evalFields E sh p fs) s = .ok () s'), Leaves s'.heap p sh (.obj fs) := by
      intro hh
      rw [bind_modH] at hh
      have hf : Renewed (resetH p sh s.heap) p sh := fun r he => resetH_fresh r _ _ _ he
      have h1 := evalFields_leaves fs sh p _ s' (fun _ => none) hR hw hf.inside (fun _ _ _ _ _ _ => rfl) hh
      refine Leaves.intro ?_ (h1.2.congr fun st => ?_)
      · have h0 := hf [] (by cases sh <;> rfl)
        simp only [List.reverse_nil, List.nil_append] at h0
        rw [h1.1, h0]; simp [Json.blank]
      · simp
    unfold evalVal at h
    cases sh with
    | object k u ms => exact key h
    | map st e => exact key h
    | union ty tm st ms =>
      simp only at h
      split at h
      · simp [throwStd] at h
      · exact key h
    | ignore => simp [Shape.wf] at hw
    | _ => simp [unexpected, throwStd] at h
theorem evalFields_leaves : ∀ (fs : List (String × Json)) (sh : Shape) (p : Path) (s s' : St) (g : Step → Option Json), R.at p = some sh → sh.wf = true →
    PartsRead s.heap p sh g → (∀ ty tm st ms, sh = .union ty tm st ms → ∀ st, g st = none) → evalFields E sh p fs s = .ok () s' →
    (s'.heap p).empty = (fs.isEmpty && (s.heap p).empty) ∧ PartsRead s'.heap p sh fun st => (part sh (.obj fs) st).or (g st)
  | [], sh, p, s, s', g, hR, hw, hg, hu, h => by
    unfold evalFields at h
    have key : ∀ (hh : complete E sh p s = .ok () s'), (∀ st, part sh (.obj []) st = none) → (s'.heap p).empty = ((List.nil : List (String × Json)).isEmpty && (s.heap p).empty) ∧
        PartsRead s'.heap p sh fun st => (part sh (.obj []) st).or (g st) := by
      intro hh hp
      have hm := Mute.complete _ _ _ _ _ hh
      refine ⟨by simp [hm p], (hg.same fun q _ _ => hm q).congr fun st => by simp [hp]⟩
    cases sh with
    | object k u ms => exact key h fun st => by cases st <;> simp [part, memberGets]
    | map st e => exact key h fun st => by cases st <;> simp [part, elementGets]
    | union ty tm st ms => exact key h fun st => by cases st <;> simp [part]
    | _ => simp [unexpected, throwStd] at h
  | (k, v) :: fs, sh, p, s, s', g, hR, hw, hg, hu, h => by
    unfold evalFields at h
    cases sh with
    | object kd u ms =>
      simp only at h
      rw [setNotEmpty_def, bind_modC] at h
      cases hl : lookup (.str k) 0 ms with
      | none =>
        rw [hl] at h
        simp only at h
        split at h
        · simp [throwStd] at h
        · rw [bind_push] at h
          obtain ⟨u1, s1, hc, h⟩ := bind_ok_inv h
          rw [bind_drop] at h
          have hk := (evalVal_keep (E := E) v .ignore _ (at_ign_object hR) _ _ _ hc).2.frame
          have hg1 : PartsRead s1.heap p (.object kd u ms) g := by
            refine hg.put (st := .ign) (fun q hq hqp => ?_) (fun _ _ => rfl) (fun hi => absurd rfl hi)
            rw [hk q hq]; simp only; rw [upd_other hqp]
          have h1 := evalFields_leaves fs _ p { s1 with stack := s1.stack.tail } s' g hR hw hg1 (fun _ _ _ _ hh => by simp at hh) h
          refine ⟨?_, h1.2.congr fun st => ?_⟩
          · rw [h1.1]; simp only; rw [hk p below_self_cons]; simp
          · cases st <;> simp [part, memberGets, hl]
      | some nm =>
        obtain ⟨n, m⟩ := nm
        rw [hl] at h
        simp only at h
        obtain ⟨i, hi⟩ := lookup_mem hl
        have hRm := at_mem_object hR hi
        have hwm := wf_at_mem (wf_object hw) hi
        have hcm : (Shape.object kd u ms).child (.mem n) = some m := by simp [Shape.child, hi]
        rw [bind_push] at h
        cases he : embedded m v with
        | some y =>
          obtain ⟨ty, st, ms', x⟩ := y
          obtain ⟨rfl, rfl, hty⟩ := embedded_some he
          rw [he] at h
          simp only at h
          obtain ⟨a, s0, hsel, h⟩ := bind_ok_inv h
          obtain ⟨u1, s1, hc, h⟩ := bind_ok_inv h
          rw [bind_drop] at h
          obtain ⟨u2, s2, hc2, h⟩ := bind_ok_inv h
          rw [bind_drop] at h
          have hsk := select_ok (R := R) hsel
          obtain ⟨i', hi'⟩ := lookup_mem (a := a.1) (sh := a.2) hsk.1
          have hRa := at_mem_union hRm hi'
          have hwa := wf_at_mem (wf_union hwm) hi'
          have hk := (evalFields_keep (E := E) fs a.2 _ hRa _ _ _ hc).2.frame
          have hL : Leaves s1.heap (.mem n :: p) (.union ty "" st ms') (.obj ((k, .sc x) :: fs)) := by
            refine select_left hsel hk fun hf => ?_
            have h1 := evalFields_leaves fs a.2 _ s0 s1 (fun _ => none) hRa hwa hf.inside (fun _ _ _ _ _ _ => rfl) hc
            refine Leaves.intro ?_ (h1.2.congr fun st => by simp)
            have h0 := hf [] (by cases a.2 <;> rfl)
            simp only [List.reverse_nil, List.nil_append] at h0
            rw [h1.1, h0]; simp [Json.blank]
          have hm2 := Mute.complete _ _ _ _ _ hc2
          have hm3 := Mute.complete _ _ _ _ _ h
          have hall : ∀ q, (s'.heap q).empty = (s1.heap q).empty := fun q => (hm3 q).trans (hm2 q)
          have hout : ∀ q, ¬ Below (.mem n :: p) q → s1.heap q = s.heap.upd p (fun c => { c with empty := false }) q := by
            intro q hq
            rw [hk q (fun hb => hq hb.step)]
            exact hsk.2.2.1.frame q hq
          refine ⟨?_, hg.read (st := .mem n) (v := .obj ((k, .sc x) :: fs)) hcm (fun q hq hqp => ?_) (hL.same fun q _ => hall q) fun st' => ?_⟩
          · rw [hall p, hout p below_self_cons]; simp
          · rw [hall q, hout q hq, upd_other hqp]
          · cases st' with
            | mem n' =>
              simp only [part, memberGets, hl, he, Option.isSome_some, if_true, Step.mem.injEq, eq_comm (a := n') (b := n)]
              split <;> rfl
            | _ => simp [part]
        | none =>
          rw [he] at h
          simp only at h
          obtain ⟨u1, s1, hc, h⟩ := bind_ok_inv h
          rw [bind_drop] at h
          have hk := (evalVal_keep (E := E) v m _ hRm _ _ _ hc).2.frame
          have hL := evalVal_leaves v m _ _ _ hRm hwm hc
          have hg1 := hg.read (h' := s1.heap) (st := .mem n) (v := v) (g' := fun st' => if st' = .mem n then some v else g st') hcm (fun q hq hqp => by
            rw [hk q hq]; simp only; rw [upd_other hqp]) hL fun _ => rfl
          have h1 := evalFields_leaves fs _ p { s1 with stack := s1.stack.tail } s' _ hR hw hg1 (fun _ _ _ _ hh => by simp at hh) h
          refine ⟨?_, h1.2.congr fun st => ?_⟩
          · rw [h1.1]; simp only; rw [hk p below_self_cons]; simp
          · cases st with
            | mem n' =>
              simp only [part, memberGets, hl, he, Step.mem.injEq]
              by_cases e : n' = n
              · subst e; simp
              · simp [e, eq_comm (a := n) (b := n')]
            | _ => simp [part]
    | map st e =>
      simp only at h
      rw [setNotEmpty_def, bind_modC, bind_push, bind_modC] at h
      have hRe := at_elem_map hR
      have hwe := (wf_map hw).1
      have hce : (Shape.map st e).child .elem = some e := by simp [Shape.child]
      cases he : embedded e v with
      | some y =>
        obtain ⟨ty, st', ms', x⟩ := y
        obtain ⟨rfl, rfl, hty⟩ := embedded_some he
        rw [he] at h
        simp only at h
        obtain ⟨a, s0, hsel, h⟩ := bind_ok_inv h
        obtain ⟨u1, s1, hc, h⟩ := bind_ok_inv h
        rw [bind_drop] at h
        obtain ⟨u2, s2, hc2, h⟩ := bind_ok_inv h
        rw [bind_drop] at h
        obtain ⟨u3, s3, hc3, h⟩ := bind_ok_inv h
        have hsk := select_ok (R := R) hsel
        obtain ⟨i', hi'⟩ := lookup_mem (a := a.1) (sh := a.2) hsk.1
        have hRa := at_mem_union hRe hi'
        have hwa := wf_at_mem (wf_union hwe) hi'
        have hk := (evalFields_keep (E := E) fs a.2 _ hRa _ _ _ hc).2.frame
        have hL : Leaves s1.heap (.elem :: p) (.union ty "" st' ms') (.obj ((k, .sc x) :: fs)) := by
          refine select_left hsel hk fun hf => ?_
          have h1 := evalFields_leaves fs a.2 _ s0 s1 (fun _ => none) hRa hwa hf.inside (fun _ _ _ _ _ _ => rfl) hc
          refine Leaves.intro ?_ (h1.2.congr fun st => by simp)
          have h0 := hf [] (by cases a.2 <;> rfl)
          simp only [List.reverse_nil, List.nil_append] at h0
          rw [h1.1, h0]; simp [Json.blank]
        have hm2 := Mute.complete _ _ _ _ _ hc2
        have hm3 := Mute.mapChild _ _ _ _ _ _ hc3
        have hm4 := Mute.complete _ _ _ _ _ h
        have hall : ∀ q, (s'.heap q).empty = (s1.heap q).empty := fun q => ((hm4 q).trans (hm3 q)).trans (hm2 q)
        have hout : ∀ q, ¬ Below (.elem :: p) q → (s1.heap q).empty = (s.heap.upd p (fun c => { c with empty := false }) q).empty := by
          intro q hq
          rw [hk q (fun hb => hq hb.step), hsk.2.2.1.frame q hq]
          simp only [upd_apply]; split <;> rfl
        refine ⟨?_, hg.read (st := .elem) (v := .obj ((k, .sc x) :: fs)) hce (fun q hq hqp => ?_) (hL.same fun q _ => hall q) fun st' => ?_⟩
        · rw [hall p, hout p below_self_cons]; simp
        · rw [hall q, hout q hq, upd_other hqp]
        · cases st' <;> simp [part, elementGets, he]
      | none =>
        rw [he] at h
        simp only at h
        obtain ⟨u1, s1, hc, h⟩ := bind_ok_inv h
        rw [bind_drop] at h
        obtain ⟨u2, s2, hc2, h⟩ := bind_ok_inv h
        have hk := (evalVal_keep (E := E) v e _ hRe _ _ _ hc).2.frame
        have hL := evalVal_leaves v e _ _ _ hRe hwe hc
        have hm2 := Mute.mapChild _ _ _ _ _ _ hc2
        have hout : ∀ q, ¬ Below (.elem :: p) q → (s2.heap q).empty = (s.heap.upd p (fun c => { c with empty := false }) q).empty := by
          intro q hq
          rw [hm2 q]; simp only
          rw [hk q hq]
          simp only [upd_apply]; split <;> rfl
        have hg1 := hg.read (h' := s2.heap) (st := .elem) (v := v) (g' := fun st' => if st' = .elem then some v else g st') hce (fun q hq hqp => by
          rw [hout q hq, upd_other hqp]) (hL.same fun q _ => hm2 q) fun _ => rfl
        have h1 := evalFields_leaves fs _ p _ s' _ hR hw hg1 (fun _ _ _ _ hh => by simp at hh) h
        refine ⟨?_, h1.2.congr fun st => ?_⟩
        · rw [h1.1, hout p below_self_cons]; simp
        · cases st <;> simp [part, elementGets, he]
    | union ty tm st ms =>
      simp only at h
      split at h
      · simp [throwStd] at h
      · split at h
        · simp [throwStd] at h
        · cases v with
          | sc x =>
            simp only at h
            split at h
            · obtain ⟨a, s0, hsel, h⟩ := bind_ok_inv h
              obtain ⟨u1, s1, hc, h⟩ := bind_ok_inv h
              rw [bind_drop] at h
              have hsk := select_ok (R := R) hsel
              obtain ⟨i', hi'⟩ := lookup_mem (a := a.1) (sh := a.2) hsk.1
              have hRa := at_mem_union hR hi'
              have hwa := wf_at_mem (wf_union hw) hi'
              have hk := (evalFields_keep (E := E) fs a.2 _ hRa _ _ _ hc).2.frame
              have hL : Leaves s1.heap p (.union ty tm st ms) (.obj ((k, .sc x) :: fs)) := by
                refine select_left hsel hk fun hf => ?_
                have h1 := evalFields_leaves fs a.2 _ s0 s1 (fun _ => none) hRa hwa hf.inside (fun _ _ _ _ _ _ => rfl) hc
                refine Leaves.intro ?_ (h1.2.congr fun st => by simp)
                have h0 := hf [] (by cases a.2 <;> rfl)
                simp only [List.reverse_nil, List.nil_append] at h0
                rw [h1.1, h0]; simp [Json.blank]
              have hm2 := Mute.complete _ _ _ _ _ h
              have := (hL.same fun q _ => hm2 q).parts
              refine ⟨?_, this.2.congr fun st' => ?_⟩
              · rw [this.1]; simp [Json.blank]
              · rw [hu _ _ _ _ rfl st']; simp
            · simp [unexpected, throwStd] at h
          | arr => simp [unexpected, throwStd] at h
          | null => simp at h
          | obj => simp at h
    | _ => simp [unexpected, throwStd] at h
theorem evalElems_leaves : ∀ (l : List Json) (st : Bool) (e : Shape) (p : Path) (s s' : St) (g : Option Json), R.at p = some (.array st e) →
    (Shape.array st e).wf = true → PartsRead s.heap p (.array st e) (fun x => if x = .elem then g else none) → evalElems E st e p l s = .ok () s' →
    (s'.heap p).empty = (l.all Json.isNull && (s.heap p).empty) ∧
      PartsRead s'.heap p (.array st e) fun x => if x = .elem then l.getLast?.or g else none
  | [], st, e, p, s, s', g, hR, hw, hg, h => by
    unfold evalElems at h
    injection h with _ h; subst h
    exact ⟨by simp, hg.congr fun x => by simp⟩
  | .null :: l, st, e, p, s, s', g, hR, hw, hg, h => by
    unfold evalElems at h
    rw [bind_modH] at h
    have hce : (Shape.array st e).child .elem = some e := by simp [Shape.child]
    have hfr := resetH_frame e (.elem :: p) s.heap
    have hL : Leaves (resetH (.elem :: p) e s.heap) (.elem :: p) e .null := by
      have hf : Renewed (resetH (.elem :: p) e s.heap) (.elem :: p) e := fun r he => resetH_fresh r _ _ _ he
      refine Leaves.intro (hf [] (by cases e <;> rfl)) (hf.inside.congr fun st => ?_)
      cases e <;> cases st <;> rfl
    have hg1 := hg.read (g' := fun x => if x = .elem then some .null else none) hce (fun q hq hqp => by rw [hfr q hq]) hL (fun st' => by split <;> simp_all)
    have h1 := evalElems_leaves l st e p _ s' (some .null) hR hw hg1 h
    refine ⟨?_, h1.2.congr fun x => ?_⟩
    · rw [h1.1]; simp only; rw [hfr p below_self_cons]; simp [Json.isNull]
    · rw [List.getLast?_cons]; cases l.getLast? <;> simp
  | .sc x :: l, st, e, p, s, s', g, hR, hw, hg, h => by
    unfold evalElems at h
    obtain ⟨u1, s1, hc, h⟩ := bind_ok_inv h
    rw [setNotEmpty_def, bind_modC] at h
    obtain ⟨u2, s2, hc2, h⟩ := bind_ok_inv h
    have hce : (Shape.array st e).child .elem = some e := by simp [Shape.child]
    have hk := (evalVal_keep (E := E) (.sc x) e _ (at_elem_array hR) _ _ _ hc).2.frame
    have hL := evalVal_leaves (.sc x) e _ _ _ (at_elem_array hR) (wf_array hw).1 hc
    have hm2 := Mute.arrChild _ _ _ _ _ hc2
    have hq2 : ∀ q, q ≠ p → (s2.heap q).empty = (s1.heap q).empty := fun q hq => by rw [hm2 q]; simp only; rw [upd_other hq]
    have hg1 := hg.read (h' := s2.heap) (g' := fun y => if y = .elem then some (.sc x) else none) hce (fun q hq hqp => by rw [hq2 q hqp, hk q hq])
      (hL.same fun q hq => hq2 q (ne_of_below_step hq)) (fun st' => by split <;> simp_all)
    have h1 := evalElems_leaves l st e p _ s' (some (.sc x)) hR hw hg1 h
    refine ⟨?_, h1.2.congr fun x => ?_⟩
    · rw [h1.1, hm2 p]; simp [Json.isNull]
    · rw [List.getLast?_cons]; cases l.getLast? <;> simp
  | .arr l' :: l, st, e, p, s, s', g, hR, hw, hg, h => by
    unfold evalElems at h
    rw [setNotEmpty_def, bind_modC, bind_modH, bind_push] at h
    obtain ⟨u1, s1, hc, h⟩ := bind_ok_inv h
    rw [bind_drop] at h
    obtain ⟨u2, s2, hc2, h⟩ := bind_ok_inv h
    have hL := evalVal_leaves (.arr l') e _ _ _ (at_elem_array hR) (wf_array hw).1 hc
    have hk := (evalVal_keep (E := E) (.arr l') e _ (at_elem_array hR) _ _ _ hc).2.frame
    have hm2 := Mute.arrChild _ _ _ _ _ hc2
    have h1 := composite_elem (h2 := s2.heap) hg hL hk hm2
    have h2 := evalElems_leaves l st e p _ s' (some (.arr l')) hR hw h1.2 h
    refine ⟨?_, h2.2.congr fun x => ?_⟩
    · rw [h2.1, h1.1]; simp [Json.isNull]
    · rw [List.getLast?_cons]; cases l.getLast? <;> simp
  | .obj l' :: l, st, e, p, s, s', g, hR, hw, hg, h => by
    unfold evalElems at h
    rw [setNotEmpty_def, bind_modC, bind_modH, bind_push] at h
    obtain ⟨u1, s1, hc, h⟩ := bind_ok_inv h
    rw [bind_drop] at h
    obtain ⟨u2, s2, hc2, h⟩ := bind_ok_inv h
    have hL := evalVal_leaves (.obj l') e _ _ _ (at_elem_array hR) (wf_array hw).1 hc
    have hk := (evalVal_keep (E := E) (.obj l') e _ (at_elem_array hR) _ _ _ hc).2.frame
    have hm2 := Mute.arrChild _ _ _ _ _ hc2
    have h1 := composite_elem (h2 := s2.heap) hg hL hk hm2
    have h2 := evalElems_leaves l st e p _ s' (some (.obj l')) hR hw h1.2 h
    refine ⟨?_, h2.2.congr fun x => ?_⟩
    · rw [h2.1, h1.1]; simp [Json.isNull]
    · rw [List.getLast?_cons]; cases l.getLast? <;> simp
end

end SJ
