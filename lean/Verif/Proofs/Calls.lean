/-
How the log of callback invocations grows.
-/
import Verif.SpecCalls
import Verif.Proofs.Equations
import Verif.Proofs.Sim

set_option linter.unusedVariables false

namespace SJ

variable {E : Env} {R : Shape}

theorem AllAccepted.trans {l l' l'' : Log} (h : AllAccepted E l l') (h' : AllAccepted E l' l'') : AllAccepted E l l'' := by
  induction h' with
  | nil => exact h
  | cons _ h2 ih => exact .cons ih h2

/-- The last call was refused, with the exception `e`. -/
def Refused (E : Env) (l l' : Log) (e : Exn) : Prop :=
  ∃ c l0 v, l' = c :: l0 ∧ AllAccepted E l l0 ∧ answer E l0 c = some v ∧ Refusal c v e

def GrowsR {α} (E : Env) (l : Log) : Res α → Prop
  | .ok _ s' => AllAccepted E l s'.log
  | .throw e s' => AllAccepted E l s'.log ∨ Refused E l s'.log e
  | .ub => True
  | .fuel => True

def Grows {α} (E : Env) (m : M α) : Prop := ∀ s, GrowsR E s.log (m s)

/-- No callbacks. -/
def Silent {α} (m : M α) : Prop := ∀ s, match m s with
  | .ok _ s' => s'.log = s.log
  | .throw _ s' => s'.log = s.log
  | .ub => True
  | .fuel => True

theorem Silent.grows {α} {m : M α} (h : Silent m) : Grows E m := by
  intro s
  have := h s
  cases hm : m s with
  | ok a s' => rw [hm] at this; show AllAccepted E s.log s'.log; rw [this]; exact .nil
  | throw e s' => rw [hm] at this; refine Or.inl ?_; rw [this]; exact .nil
  | ub => trivial
  | fuel => trivial

theorem Grows.bind {α β} {m : M α} {f : α → M β} (h : Grows E m) (hf : ∀ a, Grows E (f a)) : Grows E (M.bind m f) := by
  intro s
  have := h s
  unfold M.bind
  cases hm : m s with
  | ok a s' =>
    rw [hm] at this
    have h2 := hf a s'
    show GrowsR E s.log (f a s')
    cases hc : f a s' with
    | ok b s'' => rw [hc] at h2; exact this.trans h2
    | throw e s'' =>
      rw [hc] at h2
      rcases h2 with h2 | ⟨c, l0, v, h3, h4, h5⟩
      · exact Or.inl (this.trans h2)
      · exact Or.inr ⟨c, l0, v, h3, this.trans h4, h5⟩
    | ub => trivial
    | fuel => trivial
  | throw e s' => rw [hm] at this; exact this
  | ub => trivial
  | fuel => trivial

theorem Silent.bind {α β} {m : M α} {f : α → M β} (h : Silent m) (hf : ∀ a, Silent (f a)) : Silent (M.bind m f) := by
  intro s
  have := h s
  unfold M.bind
  cases hm : m s with
  | ok a s' =>
    rw [hm] at this
    have h2 := hf a s'
    dsimp only
    cases hc : f a s' with
    | ok b s'' => rw [hc] at h2; exact Eq.trans h2 this
    | throw e s'' => rw [hc] at h2; exact Eq.trans h2 this
    | ub => trivial
    | fuel => trivial
  | throw e s' => rw [hm] at this; exact this
  | ub => trivial
  | fuel => trivial

theorem Silent.pure {α} (a : α) : Silent (M.pure a) := fun s => rfl
theorem Silent.throwStd {α} (m) : Silent (throwStd m : M α) := fun s => rfl
theorem Silent.unexpected {α} (t) : Silent (unexpected t : M α) := fun s => rfl
theorem Silent.getC (p) : Silent (getC p) := fun s => rfl
theorem Silent.modC (p f) : Silent (modC p f) := fun s => rfl
theorem Silent.modH (f) : Silent (modH f) := fun s => rfl
theorem Silent.push (p) : Silent (pushParser p) := fun s => rfl
theorem Silent.ub {α} : Silent (fun _ => .ub : M α) := fun s => trivial
theorem Silent.popVal (p) : Silent (popVal p) := by
  intro s; unfold SJ.popVal
  by_cases h : (s.heap p).set = true <;> simp [h]
theorem Silent.ite {α} {c : Prop} [Decidable c] {m m' : M α} (h : Silent m) (h' : Silent m') : Silent (if c then m else m') := by
  split <;> assumption

theorem Silent.unsetOnThrow {α} {p} {m : M α} (h : Silent m) : Silent (unsetOnThrow p m) := by
  intro s
  have := h s
  unfold SJ.unsetOnThrow
  cases hm : m s with
  | _ => rw [hm] at this; exact this
theorem Silent.wrapOnThrow {α} {p} {m : M α} (h : Silent m) : Silent (wrapOnThrow p m) := by
  intro s
  have := h s
  unfold SJ.wrapOnThrow
  cases hm : m s with
  | _ => rw [hm] at this; exact this

theorem Silent.setValues (p) : ∀ (ms : List (MInfo × Shape)) (n), Silent (setValues p n ms)
  | [], n => Silent.pure _
  | (i, sh) :: ms, n => by
    unfold SJ.setValues
    refine (Silent.setValues p ms (n + 1)).bind fun vs => (Silent.getC _).bind fun c => ?_
    split
    · exact (Silent.popVal _).bind fun v => Silent.pure _
    · split
      · split
        · exact Silent.throwStd _
        · exact Silent.pure _
      · exact Silent.throwStd _

theorem Silent.currentMemberId (p) : Silent (currentMemberId p) := by
  intro s; unfold SJ.currentMemberId
  by_cases h : (s.heap p).set = true <;> simp [h]

theorem Silent.checkAlt (p) : ∀ (ms : List (MInfo × Shape)) (n), Silent (checkAlt p n ms)
  | [], n => Silent.pure _
  | (i, sh) :: ms, n => by
    unfold SJ.checkAlt
    refine (Silent.checkAlt p ms (n + 1)).bind fun vs => (Silent.currentMemberId _).bind fun c => ?_
    split
    · exact Silent.pure _
    · refine (Silent.getC _).bind fun c => ?_
      split
      · exact Silent.throwStd _
      · exact Silent.pure _

theorem Silent.setAlt (p) : ∀ (ms : List (MInfo × Shape)) (n), Silent (setAlt p n ms)
  | [], n => Silent.pure _
  | (i, sh) :: ms, n => by
    unfold SJ.setAlt
    refine (Silent.setAlt p ms (n + 1)).bind fun vs => (Silent.currentMemberId _).bind fun c => ?_
    split
    · exact Silent.pure _
    · refine (Silent.getC _).bind fun c => ?_
      split
      · exact (Silent.popVal _).bind fun v => Silent.pure _
      · split
        · split
          · exact Silent.throwStd _
          · exact Silent.pure _
        · exact Silent.throwStd _

/-- A finish callback is called. -/
theorem verdict_finish {p a} {l l0 : Log} {s : St} (hl : s.log = .finish p a :: l) {v} (hv : answer E l (.finish p a) = some v) :
    GrowsR E l (verdict v "Callback returned false" s) := by
  cases v with
  | accept => show AllAccepted E l s.log; rw [hl]; exact .cons .nil hv
  | reject => exact Or.inr ⟨_, l, _, hl, .nil, hv, rfl⟩
  | throws e => exact Or.inr ⟨_, l, _, hl, .nil, hv, rfl⟩

theorem verdict_element {p k a} {l : Log} {s : St} (hl : s.log = .element p k a :: l) {v} (hv : answer E l (.element p k a) = some v) :
    GrowsR E l (verdict v "Element callback returned false" s) := by
  cases v with
  | accept => show AllAccepted E l s.log; rw [hl]; exact .cons .nil hv
  | reject => exact Or.inr ⟨_, l, _, hl, .nil, hv, rfl⟩
  | throws e => exact Or.inr ⟨_, l, _, hl, .nil, hv, rfl⟩

theorem Grows.finishCbVal (p) : Grows E (finishCbVal E p) := by
  intro s
  unfold SJ.finishCbVal
  cases hcb : E.onFinish p with
  | none => exact AllAccepted.nil
  | some cb => exact verdict_finish (l0 := []) rfl (by simp [answer, hcb])

theorem Grows.finishCbParser (sh c p) : Grows E (finishCbParser E sh c p) := by
  intro s
  unfold SJ.finishCbParser
  cases hcb : E.onFinish p with
  | none => exact AllAccepted.nil
  | some cb => exact verdict_finish (l0 := []) rfl (by simp [answer, hcb])

theorem Grows.elementCb (e p) : Grows E (elementCb E e p) := by
  intro s
  unfold SJ.elementCb
  cases hcb : E.onElement p with
  | none => exact AllAccepted.nil
  | some cb => exact verdict_element rfl (by simp [answer, hcb])

theorem Grows.unlessEmpty {p} {m : M Unit} (h : Grows E m) : Grows E (unlessEmpty p m) := by
  unfold SJ.unlessEmpty
  refine (Silent.getC p).grows.bind fun c => ?_
  split
  · exact (Silent.modC _ _).grows
  · exact h

theorem Grows.finish (sh p) : Grows E (finish E sh p) := by
  cases sh with
  | value ty => exact Grows.finishCbVal p
  | ignore => exact (Silent.pure _).grows
  | object k u ms =>
    have check : Grows E (SJ.unlessEmpty p <|
      M.bind (SJ.unsetOnThrow p fun s =>
        match checkMembers s.heap p 0 ms with
        | some e => .throw (.std e) s
        | none => .ok () s) fun _ =>
      SJ.finishCbParser E (.object k u ms) (k == .custom) p) := by
      refine Grows.unlessEmpty (Grows.bind (Silent.grows (Silent.unsetOnThrow ?_)) fun _ => Grows.finishCbParser _ _ _)
      intro s
      dsimp only
      cases checkMembers s.heap p 0 ms <;> simp
    cases k with
    | auto =>
      exact Grows.unlessEmpty (Grows.bind (Silent.wrapOnThrow (Silent.setValues p ms 0)).grows fun vs =>
        (Silent.modC _ _).grows.bind fun _ => Grows.finishCbVal p)
    | plain => exact check
    | custom => exact check
  | union ty tm st ms =>
    cases st with
    | false => exact Grows.unlessEmpty (Grows.bind (Silent.unsetOnThrow (Silent.checkAlt p ms 0)).grows fun _ => Grows.finishCbParser _ _ _)
    | true =>
      refine Grows.unlessEmpty (Grows.bind (Silent.wrapOnThrow (Silent.setAlt p ms 0)).grows fun r => ?_)
      refine Grows.bind ?_ fun _ => Grows.finishCbVal p
      cases r with
      | none => exact (Silent.pure _).grows
      | some v => exact (Silent.modC _ _).grows
  | array st e =>
    cases st with
    | true => exact Grows.finishCbVal p
    | false => exact Grows.finishCbParser (.array false e) false p
  | map st e => exact Grows.finishCbParser (.map st e) false p

theorem chain_grows : ∀ n : Nat, Grows E (popParser E R n) ∧ (∀ p, Grows E (childParsed E R n p)) ∧ (∀ sh p, Grows E (endParsing E R n sh p)) ∧
    Grows E (dispatchMapEnd E R n) := by
  intro n
  induction n with
  | zero => exact ⟨fun _ => trivial, fun _ _ => trivial, fun _ _ _ => trivial, fun _ => trivial⟩
  | succ n ih =>
    obtain ⟨ih1, ih2, ih3, ih4⟩ := ih
    refine ⟨?_, ?_, ?_, ?_⟩
    · intro s
      unfold popParser
      match hs : s.stack with
      | [] => exact Or.inl .nil
      | [_] => exact AllAccepted.nil
      | _ :: q :: r => exact ih2 q { s with stack := q :: r }
    · intro p
      unfold childParsed
      cases hR : R.at p with
      | none => exact fun _ => trivial
      | some sh =>
        cases sh with
        | value ty => exact (Silent.pure _).grows
        | ignore => exact (Silent.pure _).grows
        | object k u ms => exact (Silent.pure _).grows
        | union ty tm st ms =>
          refine (ih3 _ _).bind fun _ => ?_
          split
          · refine (Silent.getC _).grows.bind fun c => ?_
            split
            · exact ih4
            · exact fun _ => trivial
          · exact (Silent.pure _).grows
        | array st e =>
          cases st with
          | true => exact ((Silent.popVal _).bind fun v => Silent.modC _ _).grows
          | false => exact (Silent.pure _).grows
        | map st e =>
          cases st with
          | true => exact (Grows.elementCb _ _).bind fun _ => ((Silent.popVal _).bind fun v => Silent.modC _ _).grows
          | false => exact Grows.elementCb _ _
    · intro sh p
      unfold endParsing
      refine (Silent.modC _ _).grows.bind fun _ => (Grows.finish sh p).bind fun _ => (Silent.getC _).grows.bind fun c => ?_
      split
      · exact ih1
      · exact (Silent.pure _).grows
    · intro s
      unfold dispatchMapEnd
      match hs : s.stack with
      | [] => exact Or.inl .nil
      | p :: _ =>
        dsimp only
        cases hR : R.at p with
        | none => trivial
        | some sh =>
          cases sh with
          | value ty => exact (Silent.unexpected _).grows s
          | ignore =>
            dsimp only
            match (s.heap p).struct with
            | true :: r =>
              dsimp only
              split
              · exact ih3 .ignore p _
              · exact AllAccepted.nil
            | false :: _ => exact (Silent.unexpected _).grows s
            | [] => exact (Silent.unexpected _).grows s
          | object k u ms => exact ih3 _ _ s
          | union ty tm st ms => exact ih3 _ _ s
          | array st e => exact (Silent.unexpected _).grows s
          | map st e => exact ih3 _ _ s

theorem Grows.nullBase (f sh p) : Grows E (onNullBase E R f sh p) := by
  unfold onNullBase
  refine (Silent.modH _).grows.bind fun _ => (Silent.getC _).grows.bind fun c => ?_
  split
  · exact (chain_grows f).1
  · exact (Silent.pure _).grows

theorem Silent.onMember (u ms p x) : Silent (onMember E u ms p x) := by
  unfold SJ.onMember
  refine Silent.bind (Silent.modC _ _) fun _ => (Silent.getC _).bind fun c => ?_
  cases lookup x 0 ms with
  | some a =>
    dsimp only
    split
    · exact (Silent.push _).bind fun _ => Silent.pure _
    · exact Silent.ub
  | none =>
    dsimp only
    split
    · exact Silent.throwStd _
    · split
      · exact (Silent.push _).bind fun _ => Silent.pure _
      · exact Silent.ub

theorem Grows.on (f : Nat) (t : Token) (sh : Shape) : ∀ p, Grows E (on E R f sh p t) := by
  have hend : ∀ sh p, Grows E (endParsing E R f sh p) := (chain_grows f).2.2.1
  have hun : Grows E (unexpected t : M Unit) := (Silent.unexpected t).grows
  induction sh using Shape.arrInd with
  | value ty =>
    intro p
    cases t <;> simp only [SJ.on] <;> try exact hun
    · exact Grows.nullBase _ _ _
    · split
      · exact (Silent.modC _ _).grows.bind fun _ => (Silent.modC _ _).grows.bind fun _ => hend _ _
      · exact hun
  | ignore =>
    intro p
    cases t <;> simp only [SJ.on] <;> try exact (Silent.modC _ _).grows
    · exact Grows.nullBase _ _ _
    · refine (Silent.getC _).grows.bind fun c => ?_
      split
      · exact hend _ _
      · exact (Silent.pure _).grows
    · refine (Silent.getC _).grows.bind fun c => ?_
      split
      · exact (Silent.pure _).grows
      · exact hun
    · refine (Silent.getC _).grows.bind fun c => ?_
      split
      · refine (Silent.modC _ _).grows.bind fun _ => ?_
        split
        · exact hend _ _
        · exact (Silent.pure _).grows
      · exact hun
    · refine (Silent.getC _).grows.bind fun c => ?_
      split
      · refine (Silent.modC _ _).grows.bind fun _ => ?_
        split
        · exact hend _ _
        · exact (Silent.pure _).grows
      · exact hun
  | object k u ms =>
    intro p
    cases t <;> simp only [SJ.on] <;> try exact hun
    · exact Grows.nullBase _ _ _
    · exact (Silent.modH _).grows
    · exact (Silent.bind (Silent.onMember (E := E) _ _ _ _) fun _ => Silent.pure _).grows
    · exact hend _ _
  | union ty tm st ms =>
    intro p
    cases t <;> simp only [SJ.on] <;> try exact hun
    · exact Grows.nullBase _ _ _
    · split
      · refine (Silent.modH _).grows.bind fun _ => (Silent.onMember (E := E) _ _ _ _).grows.bind fun r => ?_
        cases r with
        | none => exact (Silent.pure _).grows
        | some n => exact (Silent.modC _ _).grows
      · exact hun
    · split
      · exact (Silent.throwStd _).grows
      · exact (Silent.modH _).grows
    · split
      · exact (Silent.throwStd _).grows
      · split
        · exact (Silent.throwStd _).grows
        · exact (Silent.pure _).grows
    · exact hend _ _
  | map st e =>
    intro p
    cases t <;> simp only [SJ.on] <;> try exact hun
    · exact Grows.nullBase _ _ _
    · exact (Silent.modH _).grows
    · refine (Silent.modC _ _).grows.bind fun _ => (Silent.getC _).grows.bind fun c => ?_
      split
      · exact ((Silent.push _).bind fun _ => Silent.modC _ _).grows
      · exact Silent.ub.grows
    · exact hend _ _
  | array st e ih =>
    intro p
    have nested : ∀ t', t = t' → Grows E (M.bind (setNotEmpty p) fun _ => M.bind (modH (setDispH (.elem :: p) e)) fun _ =>
        M.bind (pushParser (.elem :: p)) fun _ => SJ.on E R f e (.elem :: p) t') := by
      rintro t' rfl
      exact (Silent.modC _ _).grows.bind fun _ => (Silent.modH _).grows.bind fun _ => (Silent.push _).grows.bind fun _ => ih _
    cases t <;> simp only [SJ.on] <;> try exact hun
    · refine (Silent.getC _).grows.bind fun c => ?_
      split
      · exact Grows.nullBase _ _ _
      · exact ih _
    · refine (Silent.getC _).grows.bind fun c => ?_
      split
      · exact hun
      · exact (ih _).bind fun _ => (Silent.modC _ _).grows.bind fun _ => (chain_grows f).2.1 _
    · refine (Silent.getC _).grows.bind fun c => ?_
      split
      · exact hun
      · split
        · exact Silent.ub.grows
        · exact nested _ rfl
    · refine (Silent.getC _).grows.bind fun c => ?_
      split
      · exact ((Silent.modH _).bind fun _ => Silent.modC _ _).grows
      · split
        · exact Silent.ub.grows
        · exact nested _ rfl
    · exact (Silent.modC _ _).grows.bind fun _ => hend _ _

theorem Grows.dispatch (t : Token) : Grows E (dispatch E R t) := by
  intro s
  unfold SJ.dispatch
  match s.stack with
  | [] => exact Or.inl .nil
  | p :: r =>
    dsimp only
    cases R.at p with
    | none => trivial
    | some sh => exact Grows.on _ t sh p s

theorem Grows.run : ∀ ts : List Token, Grows E (run E R ts)
  | [] => (Silent.pure _).grows
  | t :: ts => (Grows.dispatch t).bind fun _ => Grows.run ts

end SJ
