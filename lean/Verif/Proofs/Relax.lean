/-
Lockstep of a parser and a relaxed version of it (C46).
-/
import Verif.SpecRelax

set_option linter.unusedVariables false

namespace SJ

/-! ## What does not depend on the things relaxed -/

mutual
theorem Relaxes.resetH {a b : Shape} (h : Relaxes a b) (p : Path) (H : Heap) : SJ.resetH p b H = SJ.resetH p a H := by
  cases h with
  | value => rfl
  | ignore => rfl
  | object hu hm => simp only [SJ.resetH, hm.resetMs]
  | union hm => simp only [SJ.resetH, hm.resetMs]
  | array he => simp only [SJ.resetH, he.resetH]
  | map he => simp only [SJ.resetH]
theorem RelaxesMs.resetMs {a b : List (MInfo × Shape)} (h : RelaxesMs a b) (p : Path) (n : Nat) (H : Heap) : SJ.resetMs p n b H = SJ.resetMs p n a H := by
  cases h with
  | nil => rfl
  | cons hn ho hd hs hm => simp only [SJ.resetMs, hs.resetH, hm.resetMs]
end

mutual
theorem Relaxes.setDispH {a b : Shape} (h : Relaxes a b) (p : Path) (H : Heap) : SJ.setDispH p b H = SJ.setDispH p a H := by
  cases h with
  | value => rfl
  | ignore => rfl
  | object hu hm => simp only [SJ.setDispH, hm.setDispMs]
  | union hm => simp only [SJ.setDispH, hm.setDispMs]
  | array he => simp only [SJ.setDispH]
  | map he => simp only [SJ.setDispH, he.setDispH]
theorem RelaxesMs.setDispMs {a b : List (MInfo × Shape)} (h : RelaxesMs a b) (p : Path) (n : Nat) (H : Heap) : SJ.setDispMs p n b H = SJ.setDispMs p n a H := by
  cases h with
  | nil => rfl
  | cons hn ho hd hs hm => simp only [SJ.setDispMs, hs.setDispH, hm.setDispMs]
end

mutual
theorem Relaxes.snap {a b : Shape} (h : Relaxes a b) (p : Path) (H : Heap) : SJ.snap H p b = SJ.snap H p a := by
  cases h with
  | value => rfl
  | ignore => rfl
  | object hu hm => simp only [SJ.snap, hm.snapMs]
  | union hm => simp only [SJ.snap, hm.snapMs]
  | array he => simp only [SJ.snap, he.snap]
  | map he => simp only [SJ.snap, he.snap]
theorem RelaxesMs.snapMs {a b : List (MInfo × Shape)} (h : RelaxesMs a b) (p : Path) (n : Nat) (H : Heap) : SJ.snapMs H p n b = SJ.snapMs H p n a := by
  cases h with
  | nil => rfl
  | cons hn ho hd hs hm => simp only [SJ.snapMs, hs.snap, hm.snapMs]
end

theorem Relaxes.isStorage {a b : Shape} (h : Relaxes a b) : b.isStorage = a.isStorage := by
  cases h <;> rfl

/-- Both absent, or both present and related. -/
inductive RelOpt : Option Shape → Option Shape → Prop
  | none : RelOpt none none
  | some {a b} : Relaxes a b → RelOpt (some a) (some b)

theorem RelaxesMs.get {ms ms' : List (MInfo × Shape)} (h : RelaxesMs ms ms') (n : Nat) :
    RelOpt (ms[n]?.map (·.2)) (ms'[n]?.map (·.2)) := by
  induction ms generalizing ms' n with
  | nil => cases h; simpa using .none
  | cons x ms ih =>
    cases h with
    | cons hn ho hd hs hm =>
      cases n with
      | zero => simpa using .some hs
      | succ n => simpa using ih hm n

theorem Relaxes.child {a b : Shape} (h : Relaxes a b) (st : Step) : RelOpt (a.child st) (b.child st) := by
  cases h with
  | value => cases st <;> exact .none
  | ignore => cases st <;> exact .none
  | object hu hm => cases st with
    | mem n => exact hm.get n
    | ign => exact .some .ignore
    | elem => exact .none
  | union hm => cases st with
    | mem n => exact hm.get n
    | ign => exact .some .ignore
    | elem => exact .none
  | array he => cases st with
    | elem => exact .some he
    | _ => exact .none
  | map he => cases st with
    | elem => exact .some he
    | _ => exact .none

theorem Relaxes.at {a b : Shape} (h : Relaxes a b) : ∀ p, RelOpt (a.at p) (b.at p)
  | [] => .some h
  | st :: p => by
    have := h.at p
    simp only [Shape.at]
    generalize a.at p = x at this ⊢
    generalize b.at p = y at this ⊢
    cases this with
    | none => exact .none
    | some hs => exact hs.child st

theorem Relaxes.cbPops {a b : Shape} (h : Relaxes a b) (p : Path) : ∀ (ps : List Path) (H : Heap), SJ.cbPops b p ps H = SJ.cbPops a p ps H
  | [], H => rfl
  | rel :: ps, H => by
    have := h.at rel
    simp only [SJ.cbPops]
    generalize a.at rel = x at this ⊢
    generalize b.at rel = y at this ⊢
    cases this with
    | none => exact h.cbPops p ps H
    | some hs => simp only [hs.isStorage, h.cbPops p ps]

theorem RelaxesMs.lookup {ms ms' : List (MInfo × Shape)} (h : RelaxesMs ms ms') (x : Scalar) (n : Nat) :
    (SJ.lookup x n ms').map (·.1) = (SJ.lookup x n ms).map (·.1) := by
  induction ms generalizing ms' n with
  | nil => cases h; rfl
  | cons y ms ih =>
    cases h with
    | cons hn ho hd hs hm =>
      simp only [SJ.lookup, hn]
      split
      · rfl
      · exact ih hm (n + 1)

/-! ## Lockstep -/

/-- The strict parser's result `r` and the relaxed parser's result `r'`: equal, unless the strict parser complains. -/
inductive Slack {α : Type} : Res α → Res α → Prop
  | same (r) : Slack r r
  | complains {msg s r'} (h : Complaint msg) : Slack (.throw (.std msg) s) r'

def SlackM {α : Type} (m m' : M α) : Prop := ∀ s, Slack (m s) (m' s)

theorem SlackM.refl {α} (m : M α) : SlackM m m := fun s => .same _

theorem SlackM.complain {α} {msg : String} (h : Complaint msg) (m' : M α) : SlackM (throwStd msg) m' := fun s => .complains h

theorem SlackM.bind {α β} {m m' : M α} {f f' : α → M β} (h : SlackM m m') (hf : ∀ a, SlackM (f a) (f' a)) : SlackM (M.bind m f) (M.bind m' f') := by
  intro s
  simp only [M.bind]
  have := h s
  generalize m s = r at this ⊢
  generalize m' s = r' at this ⊢
  cases this with
  | same =>
    cases r with
    | ok a s1 => exact hf a s1
    | throw e s1 => exact .same _
    | ub => exact .same _
    | fuel => exact .same _
  | complains h => exact .complains h

theorem SlackM.unsetOnThrow {α} {m m' : M α} (h : SlackM m m') (p : Path) : SlackM (SJ.unsetOnThrow p m) (SJ.unsetOnThrow p m') := by
  intro s
  simp only [SJ.unsetOnThrow]
  have := h s
  generalize m s = r at this ⊢
  generalize m' s = r' at this ⊢
  cases this with
  | same => exact .same _
  | complains h => exact .complains h

theorem SlackM.wrapOnThrow {α} {m m' : M α} (h : SlackM m m') (p : Path) : SlackM (SJ.wrapOnThrow p m) (SJ.wrapOnThrow p m') := by
  intro s
  simp only [SJ.wrapOnThrow]
  have := h s
  generalize m s = r at this ⊢
  generalize m' s = r' at this ⊢
  cases this with
  | same => exact .same _
  | complains h => exact .complains h.wrapped

theorem SlackM.unlessEmpty {m m' : M Unit} (h : SlackM m m') (p : Path) : SlackM (SJ.unlessEmpty p m) (SJ.unlessEmpty p m') := by
  refine SlackM.bind (.refl _) fun c => ?_
  split
  · exact .refl _
  · exact h

theorem RelaxesMs.checkMembers {ms ms' : List (MInfo × Shape)} (h : RelaxesMs ms ms') (H : Heap) (p : Path) (n : Nat) :
    SJ.checkMembers H p n ms = SJ.checkMembers H p n ms' ∨ ∃ e, SJ.checkMembers H p n ms = some e ∧ Complaint e := by
  induction ms generalizing ms' n with
  | nil => cases h; exact .inl rfl
  | cons y ms ih =>
    cases h with
    | @cons i i' sh sh' _ ms' hn ho hd hs hm =>
      rcases ih hm (n + 1) with h1 | ⟨e, h1, h2⟩
      · simp only [SJ.checkMembers, h1]
        cases SJ.checkMembers H p (n + 1) ms' with
        | some e => exact .inl rfl
        | none =>
          simp only [hn]
          by_cases hset : (H (.mem n :: p)).set = true
          · left; simp [hset]
          · cases hi : i.optional with
            | true => left; simp [ho hi]
            | false => right; exact ⟨_, by simp [hset], Complaint.mandatory (nameText (fun _ => "") i.name)⟩
      · right
        exact ⟨e, by simp only [SJ.checkMembers, h1], h2⟩

theorem RelaxesMs.setValues {ms ms' : List (MInfo × Shape)} (h : RelaxesMs ms ms') (p : Path) (n : Nat) :
    SlackM (SJ.setValues p n ms) (SJ.setValues p n ms') := by
  induction ms generalizing ms' n with
  | nil => cases h; exact .refl _
  | cons y ms ih =>
    cases h with
    | @cons i i' sh sh' _ ms' hn ho hd hs hm =>
      simp only [SJ.setValues]
      refine SlackM.bind (ih hm (n + 1)) fun vs => SlackM.bind (.refl _) fun c => ?_
      split
      · exact .refl _
      · cases hi : i.optional with
        | false =>
          simp only [Bool.false_eq_true, if_false]
          exact .complain (.mandatory _) _
        | true =>
          simp only [ho hi, if_true]
          cases hv : i.dflt with
          | none => exact .complain (.noDefault _) _
          | some v => rw [hd v hv]; exact .refl _

theorem RelaxesMs.checkAlt {ms ms' : List (MInfo × Shape)} (h : RelaxesMs ms ms') (p : Path) (n : Nat) :
    SlackM (SJ.checkAlt p n ms) (SJ.checkAlt p n ms') := by
  induction ms generalizing ms' n with
  | nil => cases h; exact .refl _
  | cons y ms ih =>
    cases h with
    | @cons i i' sh sh' _ ms' hn ho hd hs hm =>
      simp only [SJ.checkAlt]
      refine SlackM.bind (ih hm (n + 1)) fun _ => SlackM.bind (.refl _) fun id => ?_
      split
      · exact .refl _
      · refine SlackM.bind (.refl _) fun c => ?_
        cases hi : i.optional with
        | true => simp only [ho hi]; exact .refl _
        | false =>
          cases c.set with
          | true => simp; exact .refl _
          | false => simp; exact .complain (.mandatoryAlt _) _

theorem RelaxesMs.setAlt {ms ms' : List (MInfo × Shape)} (h : RelaxesMs ms ms') (p : Path) (n : Nat) :
    SlackM (SJ.setAlt p n ms) (SJ.setAlt p n ms') := by
  induction ms generalizing ms' n with
  | nil => cases h; exact .refl _
  | cons y ms ih =>
    cases h with
    | @cons i i' sh sh' _ ms' hn ho hd hs hm =>
      simp only [SJ.setAlt]
      refine SlackM.bind (ih hm (n + 1)) fun _ => SlackM.bind (.refl _) fun id => ?_
      split
      · exact .refl _
      · refine SlackM.bind (.refl _) fun c => ?_
        split
        · exact .refl _
        · cases hi : i.optional with
          | false =>
            simp only [Bool.false_eq_true, if_false]
            exact .complain (.mandatoryAlt _) _
          | true =>
            simp only [ho hi, if_true]
            cases hv : i.dflt with
            | none => exact .complain (.noDefaultAlt _) _
            | some v => rw [hd v hv]; exact .refl _

variable (E : Env) {R R' : Shape}

theorem Relaxes.finishCbParser {a b : Shape} (h : Relaxes a b) (custom : Bool) (p : Path) : SJ.finishCbParser E b custom p = SJ.finishCbParser E a custom p := by
  funext s
  simp only [SJ.finishCbParser, h.snap, h.cbPops]

theorem Relaxes.elementCb {a b : Shape} (h : Relaxes a b) (p : Path) : SJ.elementCb E b p = SJ.elementCb E a p := by
  funext s
  simp only [SJ.elementCb, h.snap, h.cbPops]

theorem Relaxes.finish {a b : Shape} (h : Relaxes a b) (p : Path) : SlackM (SJ.finish E a p) (SJ.finish E b p) := by
  cases h with
  | value => exact .refl _
  | ignore => exact .refl _
  | @object kind u u' ms ms' hu hm =>
    have check : SlackM (SJ.unsetOnThrow p fun s => match SJ.checkMembers s.heap p 0 ms with | some e => .throw (.std e) s | none => .ok () s)
        (SJ.unsetOnThrow p fun s => match SJ.checkMembers s.heap p 0 ms' with | some e => .throw (.std e) s | none => .ok () s) := by
      refine SlackM.unsetOnThrow (fun s => ?_) p
      rcases hm.checkMembers s.heap p 0 with h1 | ⟨e, h1, h2⟩
      · rw [h1]; exact .same _
      · simp only [h1]; exact .complains h2
    cases kind with
    | auto =>
      simp only [SJ.finish]
      exact (SlackM.bind ((hm.setValues p 0).wrapOnThrow p) fun vs => .refl _).unlessEmpty p
    | plain =>
      simp only [SJ.finish, (Relaxes.object (kind := .plain) hu hm).finishCbParser E]
      exact (SlackM.bind check fun _ => .refl _).unlessEmpty p
    | custom =>
      simp only [SJ.finish, (Relaxes.object (kind := .custom) hu hm).finishCbParser E]
      exact (SlackM.bind check fun _ => .refl _).unlessEmpty p
  | @union ty tm stored ms ms' hm =>
    cases stored with
    | true =>
      simp only [SJ.finish]
      exact (SlackM.bind ((hm.setAlt p 0).wrapOnThrow p) fun vs => .refl _).unlessEmpty p
    | false =>
      simp only [SJ.finish, (Relaxes.union (ty := ty) (tm := tm) (stored := false) hm).finishCbParser E]
      exact (SlackM.bind ((hm.checkAlt p 0).unsetOnThrow p) fun vs => .refl _).unlessEmpty p
  | @array stored e e' he =>
    cases stored with
    | true => exact .refl _
    | false => simp only [SJ.finish, (Relaxes.array (stored := false) he).finishCbParser E]; exact .refl _
  | @map stored e e' he =>
    simp only [SJ.finish, (Relaxes.map (stored := stored) he).finishCbParser E]; exact .refl _

/-- The methods that work on the dispatcher's stack. -/
theorem Relaxes.machine (h : Relaxes R R') : ∀ n,
    SlackM (popParser E R n) (popParser E R' n) ∧ (∀ p, SlackM (childParsed E R n p) (childParsed E R' n p)) ∧
    (∀ a b p, Relaxes a b → SlackM (endParsing E R n a p) (endParsing E R' n b p)) ∧ SlackM (dispatchMapEnd E R n) (dispatchMapEnd E R' n)
  | 0 => ⟨fun s => .same _, fun p s => by simp only [childParsed]; exact .same _, fun a b p _ s => by simp only [endParsing]; exact .same _, fun s => .same _⟩
  | n + 1 => by
    obtain ⟨i1, i2, i3, i4⟩ := h.machine n
    refine ⟨?_, ?_, ?_, ?_⟩
    · intro s
      simp only [popParser]
      split
      · exact .same _
      · exact .same _
      · exact i2 _ _
    · intro p
      simp only [childParsed]
      have := h.at p
      generalize R.at p = x at this ⊢
      generalize R'.at p = y at this ⊢
      cases this with
      | none => exact .refl _
      | some hs =>
        cases hs with
        | value => exact .refl _
        | ignore => exact .refl _
        | object hu hm => exact .refl _
        | union hm =>
          refine SlackM.bind (i3 _ _ _ (.union hm)) fun _ => ?_
          split
          · refine SlackM.bind (.refl _) fun c => ?_
            split
            · exact i4
            · exact .refl _
          · exact .refl _
        | @array st e e' he => cases st <;> exact .refl _
        | @map st e e' he => cases st <;> (simp only [he.elementCb E]; exact .refl _)
    · intro a b p hab
      simp only [endParsing]
      refine SlackM.bind (.refl _) fun _ => SlackM.bind (hab.finish E p) fun _ => SlackM.bind (.refl _) fun c => ?_
      split
      · exact i1
      · exact .refl _
    · intro s
      simp only [dispatchMapEnd]
      split
      · exact .same _
      · rename_i p r hst
        have := h.at p
        generalize R.at p = x at this ⊢
        generalize R'.at p = y at this ⊢
        cases this with
        | none => exact .same _
        | some hs =>
          cases hs with
          | value => exact .same _
          | ignore =>
            dsimp only
            split
            · split
              · exact i3 _ _ _ .ignore _
              · exact .same _
            · exact .same _
          | object hu hm => exact i3 _ _ _ (.object hu hm) _
          | union hm => exact i3 _ _ _ (.union hm) _
          | array he => exact .same _
          | map he => exact i3 _ _ _ (.map he) _

theorem Relaxes.onNullBase (h : Relaxes R R') {a b : Shape} (hab : Relaxes a b) (f : Nat) (p : Path) : SlackM (SJ.onNullBase E R f a p) (SJ.onNullBase E R' f b p) := by
  simp only [SJ.onNullBase]
  have : SJ.resetH p b = SJ.resetH p a := funext fun H => hab.resetH p H
  rw [this]
  refine SlackM.bind (.refl _) fun _ => SlackM.bind (.refl _) fun c => ?_
  split
  · exact (h.machine E f).1
  · exact .refl _

theorem RelaxesMs.onMember {ms ms' : List (MInfo × Shape)} (h : RelaxesMs ms ms') {u u' : Bool} (hu : u' = true → u = true) (p : Path) (x : Scalar) :
    SlackM (SJ.onMember E u ms p x) (SJ.onMember E u' ms' p x) := by
  simp only [SJ.onMember]
  refine SlackM.bind (.refl _) fun _ => SlackM.bind (.refl _) fun c => ?_
  have hl := h.lookup x 0
  cases h1 : SJ.lookup x 0 ms with
  | none =>
    rw [h1] at hl
    cases h2 : SJ.lookup x 0 ms' with
    | some y => rw [h2] at hl; simp at hl
    | none =>
      dsimp only
      cases u with
      | true => simp only [if_true]; exact .complain (.unknown _) _
      | false =>
        cases u' with
        | true => simp at hu
        | false => exact .refl _
  | some y =>
    rw [h1] at hl
    cases h2 : SJ.lookup x 0 ms' with
    | none => rw [h2] at hl; simp at hl
    | some z =>
      rw [h2] at hl
      simp at hl
      dsimp only
      rw [hl]
      exact .refl _

/-- The virtual `on(token)`. -/
theorem Relaxes.on (h : Relaxes R R') (f : Nat) : ∀ {a b : Shape}, Relaxes a b → ∀ (p : Path) (t : Token), SlackM (SJ.on E R f a p t) (SJ.on E R' f b p t)
  | .value _, _, hab, p, t => by
    cases hab
    cases t with
    | null => simp only [SJ.on]; exact h.onNullBase E .value f p
    | scalar v =>
      simp only [SJ.on]
      split
      · exact SlackM.bind (.refl _) fun _ => SlackM.bind (.refl _) fun _ => (h.machine E f).2.2.1 _ _ _ .value
      · exact .refl _
    | _ => exact .refl _
  | .ignore, _, hab, p, t => by
    cases hab
    have hend := (h.machine E f).2.2.1 _ _ p .ignore
    cases t with
    | null => simp only [SJ.on]; exact h.onNullBase E .ignore f p
    | scalar v =>
      simp only [SJ.on]
      refine SlackM.bind (.refl _) fun c => ?_
      split
      · exact hend
      · exact .refl _
    | mapEnd =>
      simp only [SJ.on]
      refine SlackM.bind (.refl _) fun c => ?_
      split
      · refine SlackM.bind (.refl _) fun c => ?_
        split
        · exact hend
        · exact .refl _
      · exact .refl _
    | arrEnd =>
      simp only [SJ.on]
      refine SlackM.bind (.refl _) fun c => ?_
      split
      · refine SlackM.bind (.refl _) fun c => ?_
        split
        · exact hend
        · exact .refl _
      · exact .refl _
    | mapStart => exact .refl _
    | arrStart => exact .refl _
    | mapKey k => exact .refl _
  | .object k u ms, _, hab, p, t => by
    have hr : ∀ b, Relaxes (.object k u ms) b → SJ.resetH p b = SJ.resetH p (.object k u ms) := fun b hb => funext fun H => hb.resetH p H
    cases hab with
    | object hu hm =>
      have hab := Relaxes.object (kind := k) hu hm
      cases t with
      | null => simp only [SJ.on]; exact h.onNullBase E hab f p
      | mapStart => simp only [SJ.on]; rw [hr _ hab]; exact .refl _
      | mapKey key => simp only [SJ.on]; exact SlackM.bind (hm.onMember E hu p _) fun _ => .refl _
      | mapEnd => simp only [SJ.on]; exact (h.machine E f).2.2.1 _ _ _ hab
      | _ => exact .refl _
  | .union ty tm st ms, _, hab, p, t => by
    have hr : ∀ b, Relaxes (.union ty tm st ms) b → SJ.resetH p b = SJ.resetH p (.union ty tm st ms) := fun b hb => funext fun H => hb.resetH p H
    cases hab with
    | union hm =>
      have hab := Relaxes.union (ty := ty) (tm := tm) (stored := st) hm
      cases t with
      | null => simp only [SJ.on]; exact h.onNullBase E hab f p
      | scalar v =>
        simp only [SJ.on]
        split
        · rw [hr _ hab]
          exact SlackM.bind (.refl _) fun _ => SlackM.bind (hm.onMember E (fun h => h) p _) fun _ => .refl _
        · exact .refl _
      | mapStart =>
        simp only [SJ.on]
        rw [hr _ hab]
        exact .refl _
      | mapEnd => simp only [SJ.on]; exact (h.machine E f).2.2.1 _ _ _ hab
      | _ => exact .refl _
  | .array st e, _, hab, p, t => by
    have hr : ∀ b, Relaxes (.array st e) b → SJ.resetH p b = SJ.resetH p (.array st e) := fun b hb => funext fun H => hb.resetH p H
    cases hab with
    | array he =>
      have hab := Relaxes.array (stored := st) he
      have hd : SJ.setDispH (.elem :: p) _ = SJ.setDispH (.elem :: p) e := funext fun H => he.setDispH (.elem :: p) H
      cases t with
      | null =>
        simp only [SJ.on]
        refine SlackM.bind (.refl _) fun c => ?_
        split
        · exact h.onNullBase E hab f p
        · exact h.on f he _ _
      | scalar v =>
        simp only [SJ.on]
        refine SlackM.bind (.refl _) fun c => ?_
        split
        · exact .refl _
        · exact SlackM.bind (h.on f he _ _) fun _ => SlackM.bind (.refl _) fun _ => (h.machine E f).2.1 _
      | mapStart =>
        simp only [SJ.on]
        refine SlackM.bind (.refl _) fun c => ?_
        split
        · exact .refl _
        · split
          · exact .refl _
          · rw [hd]
            exact SlackM.bind (.refl _) fun _ => SlackM.bind (.refl _) fun _ => SlackM.bind (.refl _) fun _ => h.on f he _ _
      | arrStart =>
        simp only [SJ.on]
        refine SlackM.bind (.refl _) fun c => ?_
        split
        · rw [hr _ hab]; exact .refl _
        · split
          · exact .refl _
          · rw [hd]
            exact SlackM.bind (.refl _) fun _ => SlackM.bind (.refl _) fun _ => SlackM.bind (.refl _) fun _ => h.on f he _ _
      | arrEnd =>
        simp only [SJ.on]
        exact SlackM.bind (.refl _) fun _ => (h.machine E f).2.2.1 _ _ _ hab
      | _ => exact .refl _
  | .map st e, _, hab, p, t => by
    have hr : ∀ b, Relaxes (.map st e) b → SJ.resetH p b = SJ.resetH p (.map st e) := fun b hb => funext fun H => hb.resetH p H
    cases hab with
    | map he =>
      have hab := Relaxes.map (stored := st) he
      cases t with
      | null => simp only [SJ.on]; exact h.onNullBase E hab f p
      | mapStart => simp only [SJ.on]; rw [hr _ hab]; exact .refl _
      | mapEnd => simp only [SJ.on]; exact (h.machine E f).2.2.1 _ _ _ hab
      | _ => exact .refl _

theorem Relaxes.dispatch (h : Relaxes R R') (t : Token) : SlackM (SJ.dispatch E R t) (SJ.dispatch E R' t) := by
  intro s
  simp only [SJ.dispatch]
  split
  · exact .same _
  · rename_i p r hst
    have := h.at p
    generalize R.at p = x at this ⊢
    generalize R'.at p = y at this ⊢
    cases this with
    | none => exact .same _
    | some hs => exact h.on E _ hs p t s

theorem Relaxes.run (h : Relaxes R R') : ∀ ts, SlackM (SJ.run E R ts) (SJ.run E R' ts)
  | [] => .refl _
  | t :: ts => SlackM.bind (h.dispatch E t) fun _ => h.run ts

theorem Relaxes.init (h : Relaxes R R') : St.init R' = St.init R := by
  simp only [St.init, attach, h.setDispH]

end SJ
