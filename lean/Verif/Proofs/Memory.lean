/-
Running out of memory: how the methods that may fail to allocate memory are related to those that do not, and what holds of the parsers after a failure.
-/
import Verif.Model.Memory
import Verif.Proofs.Control

set_option linter.unusedVariables false

namespace SJ

variable {F : Faults} {E : Env} {R : Shape}

/-- The same result, with `n` allocations left. -/
def Res.left {α} : Res α → Nat → ResA α
  | .ok a s, n => .ok a n s
  | .throw e s, n => .throw e n s
  | .ub, _ => .ub
  | .fuel, _ => .fuel

namespace MA

/-- The calls of callbacks until `s` are the first of all that are made. -/
def Later {α} (l : Log) : Res α → Prop
  | .ok _ s' => l <:+ s'.log
  | .throw _ s' => l <:+ s'.log
  | .ub => True
  | .fuel => True

theorem Later.mono {α} {l l' : Log} {r : Res α} (hl : l <:+ l') (h : Later l' r) : Later l r := by
  cases r with
  | ok a s => exact hl.trans h
  | throw e s => exact hl.trans h
  | ub => trivial
  | fuel => trivial

/-- The log only grows. -/
def Adds {α} (m : M α) : Prop := ∀ s, Later s.log (m s)

theorem Adds.getC (p) : Adds (getC p) := fun s => List.suffix_refl _
theorem Adds.modC (p f) : Adds (modC p f) := fun s => List.suffix_refl _
theorem Adds.modH (f) : Adds (modH f) := fun s => List.suffix_refl _
theorem Adds.thr {α} (m) : Adds (α := α) (throwStd m) := fun s => List.suffix_refl _
theorem Adds.unexpected {α} (t) : Adds (α := α) (SJ.unexpected t) := fun s => List.suffix_refl _
theorem Adds.push (p) : Adds (SJ.pushParser p) := fun s => List.suffix_refl _
theorem Adds.popVal (p) : Adds (popVal p) := fun s => by
  unfold SJ.popVal
  split <;> exact List.suffix_refl _
theorem Adds.currentMemberId (p) : Adds (currentMemberId p) := fun s => by
  unfold SJ.currentMemberId
  split <;> exact List.suffix_refl _
theorem Adds.bind {α β} {m : M α} {f : α → M β} (hm : Adds m) (hf : ∀ a, Adds (f a)) : Adds (M.bind m f) := by
  intro s
  have := hm s
  simp only [M.bind]
  cases hr : m s <;> rw [hr] at this
  · exact (hf _ _).mono this
  · exact this
  · trivial
  · trivial
theorem Adds.checkAlt (p) : ∀ (ms : List (MInfo × Shape)) (n : Nat), Adds (checkAlt p n ms)
  | [], n => fun s => List.suffix_refl _
  | (i, sh) :: ms, n => by
    rw [SJ.checkAlt]
    refine Adds.bind (Adds.checkAlt p ms (n + 1)) fun _ => Adds.bind (Adds.currentMemberId p) fun id => ?_
    split
    · exact fun s => List.suffix_refl _
    · refine Adds.bind (Adds.getC _) fun c => ?_
      split
      · exact fun s => List.suffix_refl _
      · exact fun s => List.suffix_refl _
theorem verdict_later {v w} {s : St} {l} (h : l <:+ s.log) : Later l (verdict v w s) := by
  cases v <;> exact h
theorem Adds.finishCbVal (p) : Adds (finishCbVal E p) := fun s => by
  unfold SJ.finishCbVal
  cases E.onFinish p with
  | none => exact List.suffix_refl _
  | some cb => exact verdict_later (List.suffix_cons _ _)
theorem Adds.finishCbParser (sh c p) : Adds (finishCbParser E sh c p) := fun s => by
  unfold SJ.finishCbParser
  cases E.onFinish p with
  | none => exact List.suffix_refl _
  | some cb => exact verdict_later (List.suffix_cons _ _)
theorem Adds.elementCb (e p) : Adds (elementCb E e p) := fun s => by
  unfold SJ.elementCb
  cases E.onElement p with
  | none => exact List.suffix_refl _
  | some cb => exact verdict_later (List.suffix_cons _ _)
theorem Adds.checkMembers (p ms) : Adds (fun s => match checkMembers s.heap p 0 ms with | some e => .throw (.std e) s | none => .ok () s) := fun s => by
  show Later s.log (match SJ.checkMembers s.heap p 0 ms with | some e => .throw (.std e) s | none => .ok () s)
  cases SJ.checkMembers s.heap p 0 ms <;> exact List.suffix_refl _

macro "adds" : tactic => `(tactic| first
  | exact Adds.getC _ | exact Adds.modC _ _ | exact Adds.modH _ | exact Adds.thr _ | exact Adds.unexpected _ | exact Adds.push _ | exact Adds.popVal _
  | exact Adds.currentMemberId _ | exact Adds.checkAlt _ _ _ | exact Adds.finishCbVal _ | exact Adds.finishCbParser _ _ _ | exact Adds.elementCb _ _
  | exact Adds.checkMembers _ _)

/-- `mA` makes a certain number of allocations. If there is memory for them it does what `m` does. Otherwise the callbacks that are called until an allocation fails are the
first of those that `m` calls. At a state. -/
def CostsAt {α} (s : St) (mA : MA α) (r : Res α) : Prop :=
  Later s.log r ∧
  ∃ N, ∀ n, (n < N → ∃ e s', mA n s = .fault e s' ∧ s.log <:+ s'.log ∧ Later s'.log r) ∧ (N ≤ n → mA n s = r.left (n - N))

def Costs {α} (mA : MA α) (m : M α) : Prop := ∀ s, CostsAt s mA (m s)

theorem CostsAt.free {α} {s : St} {mA : MA α} {r : Res α} (hl : Later s.log r) (h : ∀ n, mA n s = r.left n) : CostsAt s mA r :=
  ⟨hl, 0, fun n => ⟨fun h => absurd h (Nat.not_lt_zero _), fun _ => h n⟩⟩

theorem CostsAt.congr {α} {s s' : St} {mA mB : MA α} {r : Res α} (h : CostsAt s' mB r) (hl : s.log = s'.log) (hm : ∀ n, mA n s = mB n s') : CostsAt s mA r := by
  obtain ⟨h1, N, h2⟩ := h
  refine ⟨by rw [hl]; exact h1, N, fun n => ⟨fun hn => ?_, fun hn => ?_⟩⟩
  · rw [hm, hl]; exact (h2 n).1 hn
  · rw [hm]; exact (h2 n).2 hn

theorem Costs.pure {α} (a : α) : Costs (pure a) (M.pure a) := fun s => .free (List.suffix_refl _) fun _ => rfl
theorem Costs.ub {α} : Costs (α := α) (fun _ _ => .ub) (fun _ => .ub) := fun s => .free trivial fun _ => rfl
theorem Costs.fuel {α} : Costs (α := α) (fun _ _ => .fuel) (fun _ => .fuel) := fun s => .free trivial fun _ => rfl

theorem CostsAt.bind {α β} {s : St} {mA : MA α} {m : M α} {fA : α → MA β} {f : α → M β} (hm : CostsAt s mA (m s))
    (hf : ∀ a s', m s = .ok a s' → CostsAt s' (fA a) (f a s')) : CostsAt s (bind mA fA) (M.bind m f s) := by
  obtain ⟨hl, N1, h1⟩ := hm
  cases hr : m s with
  | ok a s' =>
    obtain ⟨hl2, N2, h2⟩ := hf a s' hr
    rw [hr] at hl
    have hb : M.bind m f s = f a s' := by simp only [M.bind, hr]
    rw [hb]
    refine ⟨hl2.mono hl, N1 + N2, fun n => ⟨fun hn => ?_, fun hn => ?_⟩⟩
    · simp only [MA.bind]
      by_cases hlt : n < N1
      · obtain ⟨e, s1, h, ha, hb⟩ := (h1 n).1 hlt
        rw [hr] at hb
        exact ⟨e, s1, by rw [h], ha, hl2.mono hb⟩
      · rw [(h1 n).2 (by omega), hr]
        obtain ⟨e, s1, h, ha, hb⟩ := (h2 (n - N1)).1 (by omega)
        exact ⟨e, s1, h, hl.trans ha, hb⟩
    · simp only [MA.bind]
      rw [(h1 n).2 (by omega), hr]
      show fA a (n - N1) s' = _
      rw [(h2 (n - N1)).2 (by omega), Nat.sub_sub]
  | throw e s' =>
    have hb : M.bind m f s = .throw e s' := by simp only [M.bind, hr]
    rw [hr] at hl
    refine ⟨by rw [hb]; exact hl, N1, fun n => ⟨fun hn => ?_, fun hn => ?_⟩⟩
    · simp only [MA.bind]
      obtain ⟨e, s1, h, ha, hc⟩ := (h1 n).1 hn
      exact ⟨e, s1, by rw [h], ha, by rw [hb]; rw [hr] at hc; exact hc⟩
    · simp only [MA.bind, hb]
      rw [(h1 n).2 hn, hr]; rfl
  | ub =>
    have hb : M.bind m f s = .ub := by simp only [M.bind, hr]
    refine ⟨by rw [hb]; trivial, N1, fun n => ⟨fun hn => ?_, fun hn => ?_⟩⟩
    · simp only [MA.bind]
      obtain ⟨e, s1, h, ha, hc⟩ := (h1 n).1 hn
      exact ⟨e, s1, by rw [h], ha, by rw [hb]; trivial⟩
    · simp only [MA.bind, hb]
      rw [(h1 n).2 hn, hr]; rfl
  | fuel =>
    have hb : M.bind m f s = .fuel := by simp only [M.bind, hr]
    refine ⟨by rw [hb]; trivial, N1, fun n => ⟨fun hn => ?_, fun hn => ?_⟩⟩
    · simp only [MA.bind]
      obtain ⟨e, s1, h, ha, hc⟩ := (h1 n).1 hn
      exact ⟨e, s1, by rw [h], ha, by rw [hb]; trivial⟩
    · simp only [MA.bind, hb]
      rw [(h1 n).2 hn, hr]; rfl

theorem Costs.bind {α β} {mA : MA α} {m : M α} {fA : α → MA β} {f : α → M β} (hm : Costs mA m) (hf : ∀ a, Costs (fA a) (f a)) :
    Costs (bind mA fA) (M.bind m f) := fun s => CostsAt.bind (hm s) fun a s' _ => hf a s'

theorem Costs.lift {α} (m : M α) (hm : Adds m := by adds) : Costs (lift F m) m := by
  intro s
  have hl := hm s
  cases hr : m s with
  | ok a s' => rw [hr] at hl; exact .free hl fun n => by simp only [MA.lift]; rw [hr]; rfl
  | throw e s' =>
    rw [hr] at hl
    cases F with
    | memory =>
      refine ⟨hl, 1, fun n => ⟨fun h => ?_, fun h => ?_⟩⟩
      · obtain rfl : n = 0 := by omega
        exact ⟨_, s', by simp only [MA.lift]; rw [hr], hl, List.suffix_refl _⟩
      · obtain ⟨k, rfl⟩ : ∃ k, n = k + 1 := ⟨n - 1, by omega⟩
        simp only [MA.lift]; rw [hr]; rfl
    | user x U => exact .free hl fun n => by simp only [MA.lift]; rw [hr]; rfl
  | ub => exact .free trivial fun n => by simp only [MA.lift]; rw [hr]; rfl
  | fuel => exact .free trivial fun n => by simp only [MA.lift]; rw [hr]; rfl

/-- An operation is nothing, if it succeeds. -/
theorem Costs.may_then {α} {mA : MA α} {m : M α} (x : Exn) (h : Costs mA m) : Costs (MA.bind (may x) fun _ => mA) m := by
  intro s
  obtain ⟨hl, N, h⟩ := h s
  refine ⟨hl, N + 1, fun n => ⟨fun hn => ?_, fun hn => ?_⟩⟩
  · cases n with
    | zero => exact ⟨x, s, rfl, List.suffix_refl _, hl⟩
    | succ k => exact (h k).1 (by omega)
  · obtain ⟨k, rfl⟩ : ∃ k, n = k + 1 := ⟨n - 1, by omega⟩
    have := (h k).2 (by omega)
    simp only [MA.bind, may, this, Nat.add_sub_add_right]

theorem Costs.alloc_then {α} {mA : MA α} {m : M α} (h : Costs mA m) : Costs (MA.bind (alloc F) fun _ => mA) m := by
  cases F with
  | memory => exact h.may_then _
  | user x U => exact h

theorem Costs.move_then {α} {mA : MA α} {m : M α} (h : Costs mA m) : Costs (MA.bind (move F) fun _ => mA) m := by
  cases F with
  | memory => exact h
  | user x U => exact h.may_then _

theorem Costs.store_then {α} {mA : MA α} {m : M α} (h : Costs mA m) : Costs (MA.bind (store F) fun _ => mA) m := by
  cases F with
  | memory => exact h.may_then _
  | user x U => exact h.may_then _

theorem Costs.reset (p : Path) (sh : Shape) : Costs (reset F p sh) (SJ.modH (resetH p sh)) := by
  cases F with
  | memory => exact Costs.lift (F := .memory) _
  | user x U =>
    intro s
    refine ⟨List.suffix_refl _, 1, fun n => ⟨fun h => ?_, fun h => ?_⟩⟩
    · obtain rfl : n = 0 := by omega
      exact ⟨_, _, rfl, List.suffix_refl _, List.suffix_refl _⟩
    · obtain ⟨k, rfl⟩ : ∃ k, n = k + 1 := ⟨n - 1, by omega⟩
      rfl

theorem Costs.pure_then {α} {mA : MA α} {m : M α} (h : Costs mA m) : Costs (MA.bind (MA.pure ()) fun _ => mA) m := h

theorem Costs.ite {α} {c : Prop} [Decidable c] {a b : MA α} {a' b' : M α} (ha : Costs a a') (hb : Costs b b') : Costs (if c then a else b) (if c then a' else b') := by
  split <;> assumption

theorem setValues_costs (p : Path) : ∀ (ms : List (MInfo × Shape)) (n : Nat), Costs (setValues F p n ms) (SJ.setValues p n ms)
  | [], n => Costs.pure _
  | (i, sh) :: ms, n => by
    rw [setValues, SJ.setValues]
    refine (setValues_costs p ms (n + 1)).bind fun vs => (Costs.lift _).bind fun c => Costs.ite ((Costs.lift _).bind fun v => (Costs.pure _).move_then) (Costs.ite ?_ (Costs.lift _))
    cases i.dflt with
    | none => exact Costs.lift _
    | some d => exact (Costs.pure _).store_then

theorem setAlt_costs (p : Path) : ∀ (ms : List (MInfo × Shape)) (n : Nat), Costs (setAlt F p n ms) (SJ.setAlt p n ms)
  | [], n => Costs.pure _
  | (i, sh) :: ms, n => by
    rw [setAlt, SJ.setAlt]
    refine (setAlt_costs p ms (n + 1)).bind fun vs => (Costs.lift _).bind fun id => Costs.ite (Costs.pure _) ((Costs.lift _).bind fun c => Costs.ite ((Costs.lift _).bind fun v => (Costs.pure _).move_then) (Costs.ite ?_ (Costs.lift _)))
    cases i.dflt with
    | none => exact Costs.lift _
    | some d => exact (Costs.pure _).store_then

theorem Costs.wrap {α} {p : Path} {mA : MA α} {m : M α} (h : Costs mA m) : Costs (wrapOnThrow F p mA) (SJ.wrapOnThrow p m) := by
  intro s
  obtain ⟨hl, N, h⟩ := h s
  cases hr : m s with
  | throw e s' =>
    rw [hr] at hl
    have hw : ∃ e1 s1, SJ.wrapOnThrow p m s = .throw e1 s1 ∧ s1.log = s'.log := by
      simp only [SJ.wrapOnThrow, hr]
      exact ⟨_, _, rfl, rfl⟩
    obtain ⟨e1, s1, hw, hlog⟩ := hw
    cases F with
    | memory =>
      refine ⟨?_, N + 1, fun n => ⟨fun hn => ?_, fun hn => ?_⟩⟩
      · rw [hw]; show s.log <:+ s1.log; rw [hlog]; exact hl
      · simp only [wrapOnThrow]
        rw [hw]
        by_cases hlt : n < N
        · obtain ⟨e, s2, h, ha, hb⟩ := (h n).1 hlt
          rw [h]
          rw [hr] at hb
          exact ⟨_, _, rfl, ha, by show s2.log <:+ s1.log; rw [hlog]; exact hb⟩
        · obtain rfl : n = N := by omega
          rw [(h n).2 (Nat.le_refl _), hr]
          simp only [Res.left, Nat.sub_self]
          exact ⟨_, _, rfl, hl, by show s'.log <:+ s1.log; rw [hlog]; exact List.suffix_refl _⟩
      · simp only [wrapOnThrow, SJ.wrapOnThrow]
        obtain ⟨k, rfl⟩ : ∃ k, n = N + 1 + k := ⟨n - (N + 1), by omega⟩
        rw [(h _).2 (by omega), hr, show N + 1 + k - N = k + 1 by omega, show N + 1 + k - (N + 1) = k by omega]
        rfl
    | user x U =>
      refine ⟨?_, N, fun n => ⟨fun hn => ?_, fun hn => ?_⟩⟩
      · rw [hw]; show s.log <:+ s1.log; rw [hlog]; exact hl
      · simp only [wrapOnThrow]
        rw [hw]
        obtain ⟨e, s2, h, ha, hb⟩ := (h n).1 hn
        rw [h]
        rw [hr] at hb
        exact ⟨_, _, rfl, ha, by show s2.log <:+ s1.log; rw [hlog]; exact hb⟩
      · simp only [wrapOnThrow, SJ.wrapOnThrow]
        rw [(h _).2 hn, hr]
        rfl
  | ok a s' =>
    have hw : SJ.wrapOnThrow p m s = .ok a s' := by simp only [SJ.wrapOnThrow, hr]
    rw [hr] at hl
    rw [hw]
    refine ⟨hl, N, fun n => ⟨fun hn => ?_, fun hn => ?_⟩⟩
    · simp only [wrapOnThrow]
      obtain ⟨e, s1, h, ha, hb⟩ := (h n).1 hn
      rw [hr] at hb
      rw [h]; exact ⟨_, _, rfl, ha, hb⟩
    · simp only [wrapOnThrow]; rw [(h n).2 hn, hr]; rfl
  | ub =>
    have hw : SJ.wrapOnThrow p m s = .ub := by simp only [SJ.wrapOnThrow, hr]
    rw [hw]
    refine ⟨trivial, N, fun n => ⟨fun hn => ?_, fun hn => ?_⟩⟩
    · simp only [wrapOnThrow]
      obtain ⟨e, s1, h, ha, _⟩ := (h n).1 hn
      rw [h]; exact ⟨_, _, rfl, ha, trivial⟩
    · simp only [wrapOnThrow]; rw [(h n).2 hn, hr]; rfl
  | fuel =>
    have hw : SJ.wrapOnThrow p m s = .fuel := by simp only [SJ.wrapOnThrow, hr]
    rw [hw]
    refine ⟨trivial, N, fun n => ⟨fun hn => ?_, fun hn => ?_⟩⟩
    · simp only [wrapOnThrow]
      obtain ⟨e, s1, h, ha, _⟩ := (h n).1 hn
      rw [h]; exact ⟨_, _, rfl, ha, trivial⟩
    · simp only [wrapOnThrow]; rw [(h n).2 hn, hr]; rfl

theorem Costs.unsets {α} {p : Path} {mA : MA α} {m : M α} (h : Costs mA m) : Costs (unsetOnThrow p mA) (SJ.unsetOnThrow p m) := by
  intro s
  obtain ⟨hl, N, h⟩ := h s
  have hL : ∀ l, Later l (m s) → Later l (SJ.unsetOnThrow p m s) := by
    intro l hl
    simp only [SJ.unsetOnThrow]
    cases hr : m s <;> rw [hr] at hl <;> exact hl
  refine ⟨hL _ hl, N, fun n => ⟨fun hn => ?_, fun hn => ?_⟩⟩
  · simp only [unsetOnThrow]
    obtain ⟨e, s1, h, ha, hb⟩ := (h n).1 hn
    rw [h]; exact ⟨_, _, rfl, ha, hL _ hb⟩
  · simp only [unsetOnThrow, SJ.unsetOnThrow]; rw [(h n).2 hn]
    cases m s <;> rfl

theorem Costs.unless {p : Path} {mA : MA Unit} {m : M Unit} (h : Costs mA m) : Costs (unlessEmpty F p mA) (SJ.unlessEmpty p m) :=
  (Costs.lift _).bind fun c => Costs.ite (Costs.lift _) h

theorem finish_costs (sh : Shape) (p : Path) : Costs (finish F E sh p) (SJ.finish E sh p) := by
  cases sh with
  | value ty => exact Costs.lift _
  | ignore => exact Costs.pure _
  | object k u ms =>
    cases k with
    | auto => exact ((setValues_costs p ms 0).wrap.bind fun vs => (Costs.lift _).bind fun _ => Costs.lift _).unless
    | plain => exact (((Costs.lift _).unsets).bind fun _ => Costs.lift _).unless
    | custom => exact (((Costs.lift _).unsets).bind fun _ => Costs.lift _).unless
  | union ty tm st ms =>
    cases st with
    | false => exact (((Costs.lift _).unsets).bind fun _ => Costs.lift _).unless
    | true =>
      refine ((setAlt_costs p ms 0).wrap.bind fun r => Costs.bind ?_ fun _ => Costs.lift _).unless
      cases r with
      | none => exact Costs.pure _
      | some v => exact Costs.lift _
  | array st e => cases st <;> exact Costs.lift _
  | map st e => exact Costs.lift _

theorem pushParser_costs (p : Path) : Costs (pushParser F p) (SJ.pushParser p) := (Costs.lift _).alloc_then

theorem chain_costs : ∀ f : Nat, Costs (popParser F E R f) (SJ.popParser E R f) ∧ (∀ p, Costs (childParsed F E R f p) (SJ.childParsed E R f p)) ∧
    (∀ sh p, Costs (endParsing F E R f sh p) (SJ.endParsing E R f sh p)) ∧ Costs (dispatchMapEnd F E R f) (SJ.dispatchMapEnd E R f)
  | 0 => by
    refine ⟨?_, fun p => ?_, fun sh p => ?_, ?_⟩
    · rw [popParser, SJ.popParser]; exact Costs.fuel
    · rw [childParsed, SJ.childParsed]; exact Costs.fuel
    · rw [endParsing, SJ.endParsing]; exact Costs.fuel
    · rw [dispatchMapEnd, SJ.dispatchMapEnd]; exact Costs.fuel
  | f + 1 => by
    obtain ⟨hpop, hch, hend, hme⟩ := chain_costs f
    refine ⟨?_, fun p => ?_, fun sh p => ?_, ?_⟩
    · intro s
      cases hs : s.stack with
      | nil =>
        have := (Costs.lift (F := F) (throwStd (α := Unit) "Can not pop parser, parsers stack is empty")) s
        rw [SJ.popParser]; simp only [hs]
        exact this.congr rfl fun n => by rw [popParser]; simp only [hs]
      | cons q r =>
        cases r with
        | nil =>
          rw [SJ.popParser]; simp only [hs]
          exact .free (List.suffix_refl _) fun n => by rw [popParser]; simp only [hs]; rfl
        | cons q' r =>
          rw [SJ.popParser]; simp only [hs]
          exact (hch q' _).congr rfl fun n => by rw [popParser]; simp only [hs]
    · rw [childParsed, SJ.childParsed]
      cases R.at p with
      | none => exact Costs.ub
      | some sh =>
        cases sh with
        | value ty => exact Costs.pure _
        | ignore => exact Costs.pure _
        | object k u ms => exact Costs.pure _
        | union ty tm st ms =>
          exact (hend _ _).bind fun _ => Costs.ite ((Costs.lift _).bind fun c => Costs.ite hme Costs.ub) (Costs.pure _)
        | array st e =>
          cases st with
          | false => exact Costs.pure _
          | true => exact (Costs.lift _).bind fun v => (Costs.lift _).store_then
        | map st e =>
          cases st with
          | false => exact Costs.lift _
          | true => exact (Costs.lift _).bind fun _ => (Costs.lift _).bind fun v => (Costs.lift _).store_then
    · rw [endParsing, SJ.endParsing]
      exact (Costs.lift _).bind fun _ => (finish_costs sh p).bind fun _ => (Costs.lift _).bind fun c => Costs.ite hpop (Costs.pure _)
    · intro s
      have hun := (Costs.lift (F := F) (SJ.unexpected (α := Unit) .mapEnd)) s
      cases hs : s.stack with
      | nil =>
        have := (Costs.lift (F := F) (throwStd (α := Unit) "Parsers stack is empty")) s
        rw [SJ.dispatchMapEnd]; simp only [hs]
        exact this.congr rfl fun n => by rw [dispatchMapEnd]; simp only [hs]
      | cons p r =>
        cases hR : R.at p with
        | none =>
          rw [SJ.dispatchMapEnd]; simp only [hs, hR]
          exact .free trivial fun n => by rw [dispatchMapEnd]; simp only [hs, hR]; rfl
        | some sh =>
          cases sh with
          | value ty => rw [SJ.dispatchMapEnd]; simp only [hs, hR]; exact hun.congr rfl fun n => by rw [dispatchMapEnd]; simp only [hs, hR]
          | ignore =>
            rcases hst : (s.heap p).struct with _ | ⟨_ | _, r⟩
            · rw [SJ.dispatchMapEnd]; simp only [hs, hR, hst]; exact hun.congr rfl fun n => by rw [dispatchMapEnd]; simp only [hs, hR, hst]
            · rw [SJ.dispatchMapEnd]; simp only [hs, hR, hst]; exact hun.congr rfl fun n => by rw [dispatchMapEnd]; simp only [hs, hR, hst]
            · rw [SJ.dispatchMapEnd]; simp only [hs, hR, hst]
              split
              · next hr => exact (hend _ _ _).congr rfl fun n => by rw [dispatchMapEnd]; simp only [hs, hR, hst]; rw [if_pos hr]
              · next hr => exact .free (List.suffix_refl _) fun n => by rw [dispatchMapEnd]; simp only [hs, hR, hst]; rw [if_neg hr]; rfl
          | object k u ms => rw [SJ.dispatchMapEnd]; simp only [hs, hR]; exact (hend _ _ _).congr rfl fun n => by rw [dispatchMapEnd]; simp only [hs, hR]
          | union ty tm st ms => rw [SJ.dispatchMapEnd]; simp only [hs, hR]; exact (hend _ _ _).congr rfl fun n => by rw [dispatchMapEnd]; simp only [hs, hR]
          | array st e => rw [SJ.dispatchMapEnd]; simp only [hs, hR]; exact hun.congr rfl fun n => by rw [dispatchMapEnd]; simp only [hs, hR]
          | map st e => rw [SJ.dispatchMapEnd]; simp only [hs, hR]; exact (hend _ _ _).congr rfl fun n => by rw [dispatchMapEnd]; simp only [hs, hR]

theorem popParser_costs (f : Nat) : Costs (popParser F E R f) (SJ.popParser E R f) := (chain_costs f).1
theorem childParsed_costs (f : Nat) (p) : Costs (childParsed F E R f p) (SJ.childParsed E R f p) := (chain_costs f).2.1 p
theorem endParsing_costs (f : Nat) (sh p) : Costs (endParsing F E R f sh p) (SJ.endParsing E R f sh p) := (chain_costs f).2.2.1 sh p

theorem onNullBase_costs (f : Nat) (sh p) : Costs (onNullBase F E R f sh p) (SJ.onNullBase E R f sh p) :=
  (Costs.reset _ _).bind fun _ => (Costs.lift _).bind fun c => Costs.ite (popParser_costs f) (Costs.pure _)

theorem onMember_costs (u ms p x) : Costs (onMember F E u ms p x) (SJ.onMember E u ms p x) := by
  refine (Costs.lift _).bind fun _ => (Costs.lift _).bind fun c => ?_
  cases lookup x 0 ms with
  | none => exact Costs.ite (Costs.lift _) (Costs.ite ((pushParser_costs _).bind fun _ => Costs.pure _) Costs.ub)
  | some y => exact Costs.ite ((pushParser_costs _).bind fun _ => Costs.pure _) Costs.ub

theorem on_costs (f : Nat) : ∀ (sh : Shape) (p : Path) (t : Token), Costs (on F E R f sh p t) (SJ.on E R f sh p t)
  | .value ty, p, t => by
    cases t <;> simp only [on, SJ.on] <;> try first | exact Costs.lift _ | exact Costs.reset _ _
    · exact onNullBase_costs f _ p
    · refine Costs.ite ((Costs.lift _).bind fun _ => ?_) (Costs.lift _)
      split
      · exact Costs.alloc_then ((Costs.lift _).bind fun _ => endParsing_costs f _ _)
      · exact Costs.pure_then ((Costs.lift _).bind fun _ => endParsing_costs f _ _)
  | .ignore, p, t => by
    cases t <;> simp only [on, SJ.on]
    · exact onNullBase_costs f _ p
    · exact (Costs.lift _).bind fun c => Costs.ite (endParsing_costs f _ _) (Costs.pure _)
    · exact (Costs.lift _).alloc_then
    · refine (Costs.lift _).bind fun c => ?_
      rcases c.struct with _ | ⟨_ | _, r⟩
      · exact Costs.lift _
      · exact Costs.lift _
      · exact Costs.pure _
    · refine (Costs.lift _).bind fun c => ?_
      rcases c.struct with _ | ⟨_ | _, r⟩
      · exact Costs.lift _
      · exact Costs.lift _
      · exact (Costs.lift _).bind fun _ => Costs.ite (endParsing_costs f _ _) (Costs.pure _)
    · exact (Costs.lift _).alloc_then
    · refine (Costs.lift _).bind fun c => ?_
      rcases c.struct with _ | ⟨_ | _, r⟩
      · exact Costs.lift _
      · exact (Costs.lift _).bind fun _ => Costs.ite (endParsing_costs f _ _) (Costs.pure _)
      · exact Costs.lift _
  | .object k u ms, p, t => by
    cases t <;> simp only [on, SJ.on] <;> try first | exact Costs.lift _ | exact Costs.reset _ _
    · exact onNullBase_costs f _ p
    · exact (onMember_costs _ _ _ _).bind fun _ => Costs.pure _
    · exact endParsing_costs f _ _
  | .union ty tm st ms, p, t => by
    cases t <;> simp only [on, SJ.on] <;> try first | exact Costs.lift _ | exact Costs.reset _ _
    · exact onNullBase_costs f _ p
    · refine Costs.ite ((Costs.reset _ _).bind fun _ => (onMember_costs _ _ _ _).bind fun r => ?_) (Costs.lift _)
      cases r with
      | none => exact Costs.pure _
      | some n => exact Costs.lift _
    · exact Costs.ite (Costs.lift _) (Costs.reset _ _)
    · exact Costs.ite (Costs.lift _) (Costs.ite (Costs.lift _) (Costs.pure _))
    · exact endParsing_costs f _ _
  | .array st e, p, t => by
    cases t <;> simp only [on, SJ.on] <;> try first | exact Costs.lift _ | exact Costs.reset _ _
    · exact (Costs.lift _).bind fun c => Costs.ite (onNullBase_costs f _ p) (on_costs f e _ _)
    · exact (Costs.lift _).bind fun c => Costs.ite (Costs.lift _) ((on_costs f e _ _).bind fun _ => (Costs.lift _).bind fun _ => childParsed_costs f p)
    · exact (Costs.lift _).bind fun c => Costs.ite (Costs.lift _) (Costs.ite Costs.ub ((Costs.lift _).bind fun _ => (Costs.lift _).bind fun _ =>
        (pushParser_costs _).bind fun _ => on_costs f e _ _))
    · exact (Costs.lift _).bind fun c => Costs.ite ((Costs.reset _ _).bind fun _ => Costs.lift _) (Costs.ite Costs.ub ((Costs.lift _).bind fun _ => (Costs.lift _).bind fun _ =>
        (pushParser_costs _).bind fun _ => on_costs f e _ _))
    · exact (Costs.lift _).bind fun _ => endParsing_costs f _ _
  | .map st e, p, t => by
    cases t <;> simp only [on, SJ.on] <;> try first | exact Costs.lift _ | exact Costs.reset _ _
    · exact onNullBase_costs f _ p
    · exact (Costs.lift _).bind fun _ => (Costs.lift _).bind fun c => Costs.ite ((pushParser_costs _).bind fun _ => (Costs.lift _).alloc_then) Costs.ub
    · exact endParsing_costs f _ _

theorem dispatch_costs (t : Token) : Costs (dispatch F E R t) (SJ.dispatch E R t) := by
  intro s
  cases hs : s.stack with
  | nil =>
    have := (Costs.lift (F := F) (throwStd (α := Unit) "Parsers stack is empty")) s
    simp only [SJ.dispatch, hs]
    exact this.congr rfl fun n => by simp only [dispatch, hs]
  | cons p r =>
    cases hR : R.at p with
    | none =>
      simp only [SJ.dispatch, hs, hR]
      exact .free trivial fun n => by simp only [dispatch, hs, hR]; rfl
    | some sh =>
      simp only [SJ.dispatch, hs, hR]
      exact (on_costs (F := F) _ sh p t s).congr rfl fun n => by simp only [dispatch, hs, hR]

theorem run_costs : ∀ ts : List Token, Costs (run F E R ts) (SJ.run E R ts)
  | [] => Costs.pure _
  | t :: ts => (dispatch_costs t).bind fun _ => run_costs ts

end MA

end SJ
