/-
Counting the steps: the results are the same, and their number is paid by the tokens and the parsers that leave the stack (C69).
-/
import Verif.Model.Steps
import Verif.SpecSteps
import Verif.Proofs.Fuel

set_option linter.unusedVariables false

namespace SJ
namespace Stp

variable {E : Env} {R : Shape}

/-! ### The same results -/

def Erases {α} (m : MS α) (m' : M α) : Prop := ∀ s, (m s).1 = m' s

theorem Erases.op {α} (m : M α) : Erases (op m) m := fun _ => rfl
theorem Erases.pure {α} (a : α) : Erases (pure a) (M.pure a) := fun _ => rfl
theorem Erases.ub {α} : Erases (α := α) (fun _ => (.ub, 0)) (fun _ => .ub) := fun _ => rfl
theorem Erases.call {α} {m : MS α} {m' : M α} (h : Erases m m') : Erases (call m) m' := fun s => h s
theorem Erases.bind {α β} {m : MS α} {m' : M α} {f : α → MS β} {f' : α → M β} (h : Erases m m') (hf : ∀ a, Erases (f a) (f' a)) :
    Erases (bind m f) (M.bind m' f') := by
  intro s
  have h1 := h s
  simp only [Stp.bind, M.bind]
  cases hm : m s with
  | mk r n =>
    rw [hm] at h1
    simp only at h1
    rw [← h1]
    cases r with
    | ok a t => exact hf a t
    | _ => rfl
theorem Erases.ite {α} {c : Prop} [Decidable c] {a b : MS α} {a' b' : M α} (ha : Erases a a') (hb : Erases b b') :
    Erases (if c then a else b) (if c then a' else b') := by split <;> assumption

theorem layer2_same : ∀ n : Nat, Erases (popParser E R n) (SJ.popParser E R n) ∧ (∀ p, Erases (childParsed E R n p) (SJ.childParsed E R n p)) ∧
    (∀ sh p, Erases (endParsing E R n sh p) (SJ.endParsing E R n sh p)) ∧ Erases (dispatchMapEnd E R n) (SJ.dispatchMapEnd E R n) := by
  intro n
  induction n with
  | zero => exact ⟨fun _ => by simp [popParser, SJ.popParser], fun p _ => by simp [childParsed, SJ.childParsed],
      fun sh p _ => by simp [endParsing, SJ.endParsing], fun _ => by simp [dispatchMapEnd, SJ.dispatchMapEnd]⟩
  | succ n ih =>
    obtain ⟨hp, hc, he, hm⟩ := ih
    refine ⟨?_, fun p => ?_, fun sh p => ?_, ?_⟩
    · rw [popParser, SJ.popParser]
      refine Erases.call fun s => ?_
      match hs : s.stack with
      | [] => rfl
      | [_] => rfl
      | _ :: q :: r => exact hc q _
    · rw [childParsed, SJ.childParsed]
      refine Erases.call ?_
      match R.at p with
      | none => exact .ub
      | some (.array true _) => exact .bind (.op _) fun _ => .op _
      | some (.array false _) => exact .pure _
      | some (.map false e) => exact .op _
      | some (.map true e) => exact .bind (.op _) fun _ => .bind (.op _) fun _ => .op _
      | some (.union ty tm stored ms) => exact .bind (he _ _) fun _ => .ite (.bind (.op _) fun _ => .ite hm .ub) (.pure _)
      | some (.value _) => exact .pure _
      | some .ignore => exact .pure _
      | some (.object _ _ _) => exact .pure _
    · rw [endParsing, SJ.endParsing]
      exact .call (.bind (.op _) fun _ => .bind (.op _) fun _ => .bind (.op _) fun _ => .ite hp (.pure _))
    · rw [dispatchMapEnd, SJ.dispatchMapEnd]
      refine Erases.call fun s => ?_
      match hs : s.stack with
      | [] => rfl
      | p :: _ =>
        simp only
        match R.at p with
        | none => rfl
        | some .ignore =>
          simp only
          match (s.heap p).struct with
          | true :: r =>
            simp only
            split
            · exact he _ _ _
            · rfl
          | false :: _ => rfl
          | [] => rfl
        | some (.object _ _ _) => exact he _ _ _
        | some (.union _ _ _ _) => exact he _ _ _
        | some (.map _ _) => exact he _ _ _
        | some (.value _) => rfl
        | some (.array _ _) => rfl

theorem onNullBase_same (f sh p) : Erases (onNullBase E R f sh p) (SJ.onNullBase E R f sh p) :=
  .bind (.op _) fun _ => .bind (.op _) fun _ => .ite (layer2_same f).1 (.pure _)

theorem on_same (f : Nat) : ∀ (sh : Shape) (p : Path) (t : Token), Erases (on E R f sh p t) (SJ.on E R f sh p t)
  | .value ty, p, t => by
    have he := (layer2_same (E := E) (R := R) f).2.2.1
    cases t <;> simp only [on, SJ.on]
    case null => exact .call (onNullBase_same _ _ _)
    case scalar v => exact .call (.ite (.bind (.op _) fun _ => .bind (.op _) fun _ => he _ _) (.op _))
    all_goals exact .call (.op _)
  | .ignore, p, t => by
    have he := (layer2_same (E := E) (R := R) f).2.2.1
    cases t <;> simp only [on, SJ.on]
    case null => exact .call (onNullBase_same _ _ _)
    case scalar v => exact .call (.bind (.op _) fun _ => .ite (he _ _) (.pure _))
    case mapStart => exact .call (.op _)
    case arrStart => exact .call (.op _)
    case mapKey => exact .call (.bind (.op _) fun c => by
      match c.struct with
      | true :: _ => exact .pure _
      | false :: _ => exact .op _
      | [] => exact .op _)
    case mapEnd => exact .call (.bind (.op _) fun c => by
      match c.struct with
      | true :: _ => exact .bind (.op _) fun _ => .ite (he _ _) (.pure _)
      | false :: _ => exact .op _
      | [] => exact .op _)
    case arrEnd => exact .call (.bind (.op _) fun c => by
      match c.struct with
      | false :: _ => exact .bind (.op _) fun _ => .ite (he _ _) (.pure _)
      | true :: _ => exact .op _
      | [] => exact .op _)
  | .object k u ms, p, t => by
    have he := (layer2_same (E := E) (R := R) f).2.2.1
    cases t <;> simp only [on, SJ.on]
    case null => exact .call (onNullBase_same _ _ _)
    case mapKey => exact .call (.bind (.op _) fun _ => .pure _)
    case mapEnd => exact .call (he _ _)
    all_goals exact .call (.op _)
  | .union ty tm st ms, p, t => by
    have he := (layer2_same (E := E) (R := R) f).2.2.1
    cases t <;> simp only [on, SJ.on]
    case null => exact .call (onNullBase_same _ _ _)
    case scalar v => exact .call (.ite (.bind (.op _) fun _ => .bind (.op _) fun r => by cases r <;> first | exact .pure _ | exact .op _) (.op _))
    case mapStart => exact .call (.ite (.op _) (.op _))
    case mapKey => exact .call (.ite (.op _) (.ite (.op _) (.pure _)))
    case mapEnd => exact .call (he _ _)
    all_goals exact .call (.op _)
  | .array st e, p, t => by
    have he := (layer2_same (E := E) (R := R) f).2.2.1
    have hc := (layer2_same (E := E) (R := R) f).2.1
    have ih := on_same f e (.elem :: p)
    cases t <;> simp only [on, SJ.on]
    case null => exact .call (.bind (.op _) fun _ => .ite (onNullBase_same _ _ _) (ih _))
    case scalar v => exact .call (.bind (.op _) fun _ => .ite (.op _) (.bind (ih _) fun _ => .bind (.op _) fun _ => hc _))
    case mapStart => exact .call (.bind (.op _) fun _ => .ite (.op _) (.ite .ub (.bind (.op _) fun _ => .bind (.op _) fun _ => .bind (.op _) fun _ => ih _)))
    case arrStart => exact .call (.bind (.op _) fun _ => .ite (.bind (.op _) fun _ => .op _)
        (.ite .ub (.bind (.op _) fun _ => .bind (.op _) fun _ => .bind (.op _) fun _ => ih _)))
    case arrEnd => exact .call (.bind (.op _) fun _ => he _ _)
    all_goals exact .call (.op _)
  | .map st e, p, t => by
    have he := (layer2_same (E := E) (R := R) f).2.2.1
    cases t <;> simp only [on, SJ.on]
    case null => exact .call (onNullBase_same _ _ _)
    case mapKey => exact .call (.bind (.op _) fun _ => .bind (.op _) fun _ => .ite (.bind (.op _) fun _ => .op _) .ub)
    case mapEnd => exact .call (he _ _)
    all_goals exact .call (.op _)

theorem dispatch_same (t : Token) : Erases (dispatch E R t) (SJ.dispatch E R t) := by
  refine Erases.call fun s => ?_
  simp only [SJ.dispatch]
  match hs : s.stack with
  | [] => rfl
  | p :: _ =>
    simp only
    match R.at p with
    | none => rfl
    | some sh => exact on_same _ _ _ _ _

theorem run_same : ∀ ts : List Token, Erases (run E R ts) (SJ.run E R ts)
  | [] => .pure _
  | t :: ts => .bind (dispatch_same t) fun _ => run_same ts

/-! ### The number of steps -/

/-- What is left to be paid at the end: a parser on the stack is worth 14 steps. -/
def rest {α} : Res α → Nat
  | .ok _ t => 14 * t.stack.length
  | .throw _ t => 14 * t.stack.length
  | _ => 0

/-- The steps, and what is left, are paid by what was there and `c`. -/
def Paid {α} (c : Nat) (m : MS α) : Prop := ∀ s, (m s).2 + rest (m s).1 ≤ 14 * s.stack.length + c

theorem Paid.mono {α} {c c' : Nat} {m : MS α} (h : Paid c m) (hc : c ≤ c') : Paid c' m := fun s => Nat.le_trans (h s) (by omega)
theorem Paid.op {α} {m : M α} (h : Calm m) : Paid 1 (op m) := by
  intro s
  have := h s
  simp only [Stp.op]
  cases hm : m s <;> rw [hm] at this <;> simp only [rest] <;> first | (rw [this]; omega) | omega
theorem Paid.grow {α} {m : M α} (h : ∀ s, rest (m s) ≤ 14 * (s.stack.length + 1)) : Paid 15 (Stp.op m) := by
  intro s
  have := h s
  simp only [Stp.op]
  omega
theorem Paid.pure {α} (a : α) : Paid 0 (pure a) := fun s => by simp [Stp.pure, rest]
theorem Paid.ub {α} : Paid (α := α) 0 (fun _ => (.ub, 0)) := fun s => by simp [rest]
theorem Paid.call {α} {c : Nat} {m : MS α} (h : Paid c m) : Paid (c + 1) (call m) := fun s => by
  have := h s
  simp only [Stp.call]; omega
theorem Paid.bind {α β} {c d : Nat} {m : MS α} {f : α → MS β} (h : Paid c m) (hf : ∀ a, Paid d (f a)) : Paid (c + d) (bind m f) := by
  intro s
  have h1 := h s
  simp only [Stp.bind]
  cases hm : m s with
  | mk r n =>
    rw [hm] at h1
    cases r with
    | ok a t =>
      have h2 := hf a t
      simp only [rest] at h1
      simp only
      omega
    | throw e t => simp only [rest] at h1 ⊢; omega
    | ub => simp only [rest] at h1 ⊢; omega
    | fuel => simp only [rest] at h1 ⊢; omega
theorem Paid.ite {α} {c : Nat} {P : Prop} [Decidable P] {a b : MS α} (ha : Paid c a) (hb : Paid c b) : Paid c (if P then a else b) := by split <;> assumption

theorem layer2_paid : ∀ n : Nat, Paid 1 (popParser E R n) ∧ (∀ p, Paid 14 (childParsed E R n p)) ∧
    (∀ sh p, Paid 5 (endParsing E R n sh p)) ∧ Paid 7 (dispatchMapEnd E R n) := by
  intro n
  induction n with
  | zero => exact ⟨fun _ => by simp [popParser, rest], fun p _ => by simp [childParsed, rest],
      fun sh p _ => by simp [endParsing, rest], fun _ => by simp [dispatchMapEnd, rest]⟩
  | succ n ih =>
    obtain ⟨hp, hc, he, hm⟩ := ih
    refine ⟨?_, fun p => ?_, fun sh p => ?_, ?_⟩
    · rw [popParser]
      refine Paid.call (c := 0) fun s => ?_
      match hs : s.stack with
      | [] => simp [rest, hs]
      | [_] => simp [rest]
      | _ :: q :: r =>
        have := hc q { s with stack := q :: r }
        simp only [List.length_cons] at this ⊢
        omega
    · rw [childParsed]
      refine Paid.call (c := 13) ?_
      split
      · exact Paid.ub.mono (by omega)
      · exact (Paid.bind (.op (Calm.popVal _)) fun _ => .op (Calm.modC _ _)).mono (by omega)
      · exact (Paid.op (Calm.elementCb _ _)).mono (by omega)
      · exact (Paid.bind (.op (Calm.elementCb _ _)) fun _ => .bind (.op (Calm.popVal _)) fun _ => .op (Calm.modC _ _)).mono (by omega)
      · exact Paid.bind (he _ _) fun _ => .ite (.bind (c := 1) (.op (Calm.getC _)) fun _ => .ite hm (Paid.ub.mono (by omega))) ((Paid.pure _).mono (by omega))
      · exact (Paid.pure _).mono (by omega)
    · rw [endParsing]
      exact .call (.bind (c := 1) (.op (Calm.modC _ _)) fun _ => .bind (c := 1) (.op (Calm.finish _ _)) fun _ =>
        .bind (c := 1) (.op (Calm.getC _)) fun _ => .ite hp ((Paid.pure _).mono (by omega)))
    · rw [dispatchMapEnd]
      refine Paid.call (c := 6) fun s => ?_
      match hs : s.stack with
      | [] => simp [rest, hs]
      | p :: r =>
        simp only
        have hu := Paid.op (Calm.throwStd (α := Unit) ("Unexpected token " ++ Token.mapEnd.kind)) s
        rw [hs] at hu
        have he' := fun sh => he sh p s
        simp only [hs] at he'
        split
        · simp [rest]
        · split
          · split
            · rename_i rr _ _
              have := he .ignore p { s with heap := s.heap.upd p fun c => { c with struct := rr } }
              simp only [hs] at this
              exact Nat.le_trans this (by omega)
            · simp only [rest]; omega
          · exact Nat.le_trans hu (by omega)
        · exact Nat.le_trans (he' _) (by omega)
        · exact Nat.le_trans (he' _) (by omega)
        · exact Nat.le_trans (he' _) (by omega)
        · exact Nat.le_trans hu (by omega)

theorem onNullBase_paid (f sh p) : Paid 3 (onNullBase E R f sh p) :=
  .bind (c := 1) (.op (Calm.modH _)) fun _ => .bind (c := 1) (.op (Calm.getC _)) fun _ => .ite (layer2_paid f).1 ((Paid.pure _).mono (by omega))

theorem pushParser_paid (p) : Paid 15 (op (pushParser p)) := .grow fun s => by simp [pushParser, rest]

theorem onMember_paid (u ms p x) : Paid 15 (op (onMember E u ms p x)) := .grow fun s => by
  simp only [onMember, setNotEmpty, M.bind, modC, getC]
  cases lookup x 0 ms with
  | some a =>
    obtain ⟨n, m⟩ := a
    simp only
    split <;> simp [pushParser, M.bind, M.pure, rest]
  | none =>
    simp only
    split
    · simp only [throwStd, rest]; omega
    · split <;> simp [pushParser, M.bind, M.pure, rest]

theorem unexpected_paid {α} (t : Token) : Paid (α := α) 1 (op (unexpected t)) := .op (Calm.throwStd _)

theorem on_paid (f : Nat) : ∀ (sh : Shape) (p : Path) (t : Token), Paid (19 * (sh.chain + 1)) (on E R f sh p t)
  | .value ty, p, t => by
    have he := (layer2_paid (E := E) (R := R) f).2.2.1
    cases t <;> simp only [on, Shape.chain]
    case null => exact (Paid.call (onNullBase_paid _ _ _)).mono (by omega)
    case scalar v =>
      exact (Paid.call (.ite (.bind (c := 1) (.op (Calm.modC _ _)) fun _ => .bind (c := 1) (.op (Calm.modC _ _)) fun _ => he _ _)
        ((unexpected_paid _).mono (by omega)))).mono (by omega)
    all_goals exact (Paid.call (unexpected_paid _)).mono (by omega)
  | .ignore, p, t => by
    have he := (layer2_paid (E := E) (R := R) f).2.2.1
    cases t <;> simp only [on, Shape.chain]
    case null => exact (Paid.call (onNullBase_paid _ _ _)).mono (by omega)
    case scalar v => exact (Paid.call (.bind (.op (Calm.getC _)) fun _ => .ite (he _ _) ((Paid.pure _).mono (by omega)))).mono (by omega)
    case mapStart => exact (Paid.call (.op (Calm.modC _ _))).mono (by omega)
    case arrStart => exact (Paid.call (.op (Calm.modC _ _))).mono (by omega)
    case mapKey => exact (Paid.call (.bind (d := 1) (.op (Calm.getC _)) fun c => by
      split
      · exact (Paid.pure _).mono (by omega)
      · exact unexpected_paid _)).mono (by omega)
    case mapEnd => exact (Paid.call (.bind (d := 6) (.op (Calm.getC _)) fun c => by
      split
      · exact .bind (c := 1) (.op (Calm.modC _ _)) fun _ => .ite (he _ _) ((Paid.pure _).mono (by omega))
      · exact (unexpected_paid _).mono (by omega))).mono (by omega)
    case arrEnd => exact (Paid.call (.bind (d := 6) (.op (Calm.getC _)) fun c => by
      split
      · exact .bind (c := 1) (.op (Calm.modC _ _)) fun _ => .ite (he _ _) ((Paid.pure _).mono (by omega))
      · exact (unexpected_paid _).mono (by omega))).mono (by omega)
  | .object k u ms, p, t => by
    have he := (layer2_paid (E := E) (R := R) f).2.2.1
    cases t <;> simp only [on, Shape.chain]
    case null => exact (Paid.call (onNullBase_paid _ _ _)).mono (by omega)
    case mapStart => exact (Paid.call (.op (Calm.modH _))).mono (by omega)
    case mapKey => exact (Paid.call (.bind (onMember_paid _ _ _ _) fun _ => .pure _)).mono (by omega)
    case mapEnd => exact (Paid.call (he _ _)).mono (by omega)
    all_goals exact (Paid.call (unexpected_paid _)).mono (by omega)
  | .union ty tm st ms, p, t => by
    have he := (layer2_paid (E := E) (R := R) f).2.2.1
    cases t <;> simp only [on, Shape.chain]
    case null => exact (Paid.call (onNullBase_paid _ _ _)).mono (by omega)
    case scalar v =>
      exact (Paid.call (.ite (.bind (c := 1) (.op (Calm.modH _)) fun _ => .bind (d := 1) (onMember_paid _ _ _ _) fun r => by
          cases r
          · exact (Paid.pure _).mono (by omega)
          · exact .op (Calm.modC _ _)) ((unexpected_paid _).mono (by omega)))).mono (by omega)
    case mapStart => exact (Paid.call (.ite (.op (Calm.throwStd _)) (.op (Calm.modH _)))).mono (by omega)
    case mapKey => exact (Paid.call (.ite (.op (Calm.throwStd _)) (.ite (.op (Calm.throwStd _)) ((Paid.pure _).mono (by omega))))).mono (by omega)
    case mapEnd => exact (Paid.call (he _ _)).mono (by omega)
    all_goals exact (Paid.call (unexpected_paid _)).mono (by omega)
  | .array st e, p, t => by
    have he := (layer2_paid (E := E) (R := R) f).2.2.1
    have hc := (layer2_paid (E := E) (R := R) f).2.1
    have ih := on_paid f e (.elem :: p)
    cases t <;> simp only [on, Shape.chain]
    case null =>
      exact (Paid.call (.bind (.op (Calm.getC _)) fun _ => .ite ((onNullBase_paid _ _ _).mono (by omega)) (ih _))).mono (by omega)
    case scalar v =>
      exact (Paid.call (.bind (.op (Calm.getC _)) fun _ => .ite ((unexpected_paid _).mono (by omega))
        (.bind (ih _) fun _ => .bind (.op (Calm.modC _ _)) fun _ => hc _))).mono (by omega)
    case mapStart =>
      exact (Paid.call (.bind (.op (Calm.getC _)) fun _ => .ite ((unexpected_paid _).mono (by omega)) (.ite (Paid.ub.mono (by omega))
        (.bind (.op (Calm.modC _ _)) fun _ => .bind (.op (Calm.modH _)) fun _ => .bind (pushParser_paid _) fun _ => ih _)))).mono (by omega)
    case arrStart =>
      exact (Paid.call (.bind (.op (Calm.getC _)) fun _ => .ite ((Paid.bind (.op (Calm.modH _)) fun _ => .op (Calm.modC _ _)).mono (by omega))
        (.ite (Paid.ub.mono (by omega))
        (.bind (.op (Calm.modC _ _)) fun _ => .bind (.op (Calm.modH _)) fun _ => .bind (pushParser_paid _) fun _ => ih _)))).mono (by omega)
    case arrEnd => exact (Paid.call (.bind (.op (Calm.modC _ _)) fun _ => he _ _)).mono (by omega)
    all_goals exact (Paid.call (unexpected_paid _)).mono (by omega)
  | .map st e, p, t => by
    have he := (layer2_paid (E := E) (R := R) f).2.2.1
    cases t <;> simp only [on, Shape.chain]
    case null => exact (Paid.call (onNullBase_paid _ _ _)).mono (by omega)
    case mapStart => exact (Paid.call (.op (Calm.modH _))).mono (by omega)
    case mapKey =>
      exact (Paid.call (.bind (.op (Calm.modC _ _)) fun _ => .bind (.op (Calm.getC _)) fun _ =>
        .ite (.bind (pushParser_paid _) fun _ => .op (Calm.modC _ _)) (Paid.ub.mono (by omega)))).mono (by omega)
    case mapEnd => exact (Paid.call (he _ _)).mono (by omega)
    all_goals exact (Paid.call (unexpected_paid _)).mono (by omega)

theorem dispatch_paid {k : Nat} (hk : ChainsUpTo R k) (t : Token) : Paid (20 * (k + 1)) (dispatch E R t) := by
  refine Paid.mono (c := 19 * (k + 1) + 1) (Paid.call fun s => ?_) (by omega)
  match hs : s.stack with
  | [] => simp only [rest, hs]; omega
  | p :: r =>
    simp only
    split
    · simp [rest]
    · rename_i sh hR
      have := on_paid (E := E) (R := R) (fuelFor (p :: r).length) sh p t s
      rw [hs] at this
      have := hk p sh hR
      omega

theorem run_paid {k : Nat} (hk : ChainsUpTo R k) : ∀ ts : List Token, Paid (20 * (k + 1) * ts.length) (run E R ts)
  | [] => .pure _
  | t :: ts => (Paid.bind (dispatch_paid hk t) fun _ => run_paid hk ts).mono (by simp only [List.length_cons]; rw [Nat.mul_add (20 * (k + 1))]; omega)

end Stp
end SJ
