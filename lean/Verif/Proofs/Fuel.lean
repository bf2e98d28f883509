/-
The recursion bound of the stack-manipulating methods is never reached, so they terminate, and
fuel-free equations for them.
-/
import Verif.Model.Parsers

namespace SJ

variable {E : Env} {R : Shape}

/-- A computation that keeps the stack and never runs out of fuel. -/
def Calm {α} (m : M α) : Prop := ∀ s, match m s with
  | .ok _ s' => s'.stack = s.stack
  | .throw _ s' => s'.stack = s.stack
  | .ub => True
  | .fuel => False

theorem Calm.pure {α} (a : α) : Calm (M.pure a) := fun _ => rfl
theorem Calm.throwStd {α} (m : String) : Calm (throwStd m : M α) := fun _ => rfl
theorem Calm.getC (p) : Calm (getC p) := fun _ => rfl
theorem Calm.modC (p f) : Calm (modC p f) := fun _ => rfl
theorem Calm.modH (f) : Calm (modH f) := fun _ => rfl

theorem Calm.bind {α β} {m : M α} {f : α → M β} (hm : Calm m) (hf : ∀ a, Calm (f a)) :
    Calm (M.bind m f) := by
  intro s
  have h1 := hm s
  unfold M.bind
  cases h : m s with
  | ok a s' =>
    rw [h] at h1; simp only at h1 ⊢
    have h2 := hf a s'
    cases h' : f a s' <;> rw [h'] at h2 <;> simp_all
  | throw e s' => rw [h] at h1; exact h1
  | ub => trivial
  | fuel => rw [h] at h1; exact h1

theorem Calm.ite {α} {c : Prop} [Decidable c] {a b : M α} (ha : Calm a) (hb : Calm b) :
    Calm (if c then a else b) := by split <;> assumption

theorem Calm.popVal (p) : Calm (popVal p) := by
  intro s; unfold SJ.popVal; by_cases h : (s.heap p).set <;> simp [h]

theorem Calm.verdict (v w) : Calm (verdict v w) := by
  intro s; cases v <;> simp [SJ.verdict, M.pure, SJ.throwStd]

theorem Calm.finishCbVal (p) : Calm (finishCbVal E p) := by
  intro s; unfold SJ.finishCbVal
  cases h : E.onFinish p with
  | none => rfl
  | some cb => exact Calm.verdict _ _ { s with log := _ }

theorem Calm.finishCbParser (sh c p) : Calm (finishCbParser E sh c p) := by
  intro s; unfold SJ.finishCbParser
  cases h : E.onFinish p with
  | none => rfl
  | some cb => exact Calm.verdict _ _ { s with heap := _, log := _ }

theorem Calm.elementCb (e p) : Calm (elementCb E e p) := by
  intro s; unfold SJ.elementCb
  cases h : E.onElement p with
  | none => rfl
  | some cb => exact Calm.verdict _ _ { s with heap := _, log := _ }

theorem Calm.setValues (p ms) : ∀ n, Calm (setValues p n ms) := by
  induction ms with
  | nil => intro n; exact Calm.pure _
  | cons m ms ih =>
    intro n; obtain ⟨i, sh⟩ := m
    unfold SJ.setValues
    refine Calm.bind (ih _) fun vs => Calm.bind (Calm.getC _) fun c => Calm.ite ?_ (Calm.ite ?_ ?_)
    · exact Calm.bind (Calm.popVal _) fun v => Calm.pure _
    · cases i.dflt <;> first | exact Calm.pure _ | exact Calm.throwStd _
    · exact Calm.throwStd _

theorem Calm.currentMemberId (p) : Calm (currentMemberId p) := by
  intro s; unfold SJ.currentMemberId; by_cases h : (s.heap p).set <;> simp [h]

theorem Calm.checkAlt (p ms) : ∀ n, Calm (checkAlt p n ms) := by
  induction ms with
  | nil => intro n; exact Calm.pure _
  | cons m ms ih =>
    intro n; obtain ⟨i, sh⟩ := m
    unfold SJ.checkAlt
    refine Calm.bind (ih _) fun vs => Calm.bind (Calm.currentMemberId _) fun c =>
      Calm.ite (Calm.pure _) (Calm.bind (Calm.getC _) fun c => Calm.ite (Calm.throwStd _) (Calm.pure _))

theorem Calm.setAlt (p ms) : ∀ n, Calm (setAlt p n ms) := by
  induction ms with
  | nil => intro n; exact Calm.pure _
  | cons m ms ih =>
    intro n; obtain ⟨i, sh⟩ := m
    unfold SJ.setAlt
    refine Calm.bind (ih _) fun vs => Calm.bind (Calm.currentMemberId _) fun c =>
      Calm.ite (Calm.pure _) (Calm.bind (Calm.getC _) fun c => Calm.ite ?_ (Calm.ite ?_ ?_))
    · exact Calm.bind (Calm.popVal _) fun v => Calm.pure _
    · cases i.dflt <;> first | exact Calm.pure _ | exact Calm.throwStd _
    · exact Calm.throwStd _

theorem Calm.unsetOnThrow {α} (p) {m : M α} (h : Calm m) : Calm (unsetOnThrow p m) := by
  intro s; have := h s; unfold SJ.unsetOnThrow
  cases h' : m s <;> rw [h'] at this <;> simp_all

theorem Calm.wrapOnThrow {α} (p) {m : M α} (h : Calm m) : Calm (wrapOnThrow p m) := by
  intro s; have := h s; unfold SJ.wrapOnThrow
  cases h' : m s <;> rw [h'] at this <;> simp_all

theorem Calm.unlessEmpty (p) {m : M Unit} (h : Calm m) : Calm (unlessEmpty p m) :=
  Calm.bind (Calm.getC _) fun _ => Calm.ite (Calm.modC _ _) h

theorem Calm.finish (sh p) : Calm (finish E sh p) := by
  unfold SJ.finish
  split
  · exact Calm.finishCbVal _
  · exact Calm.pure _
  · exact Calm.unlessEmpty _ (Calm.bind (Calm.wrapOnThrow _ (Calm.setValues _ _ _)) fun _ =>
      Calm.bind (Calm.modC _ _) fun _ => Calm.finishCbVal _)
  · refine Calm.unlessEmpty _ (Calm.bind (Calm.unsetOnThrow _ ?_) fun _ => Calm.finishCbParser _ _ _)
    intro s; simp only; split <;> rename_i h <;> split at h <;> simp_all
  · exact Calm.unlessEmpty _ (Calm.bind (Calm.unsetOnThrow _ (Calm.checkAlt _ _ _)) fun _ =>
      Calm.finishCbParser _ _ _)
  · refine Calm.unlessEmpty _ (Calm.bind (Calm.wrapOnThrow _ (Calm.setAlt _ _ _)) fun r => 
      Calm.bind ?_ fun _ => Calm.finishCbVal _)
    cases r
    · exact Calm.pure _
    · exact Calm.modC _ _
  · exact Calm.finishCbVal _
  · exact Calm.finishCbParser _ _ _
  · exact Calm.finishCbParser _ _ _

/-- From fuel `b` on the result does not depend on the fuel, is not "out of fuel", and a normal result has
at most `k` parsers on the stack. -/
def Good (f : Nat → M Unit) (b k : Nat) (s : St) : Prop :=
  (∀ n, b ≤ n → f n s = f b s) ∧ f b s ≠ .fuel ∧ ∀ s', f b s = .ok () s' → s'.stack.length ≤ k

theorem Good.mono {f : Nat → M Unit} {b b' k k' s} (h : Good f b k s) (hb : b ≤ b') (hk : k ≤ k') :
    Good f b' k' s := by
  obtain ⟨h1, h2, h3⟩ := h
  refine ⟨fun n hn => ?_, ?_, fun s' hs => ?_⟩
  · rw [h1 n (by omega), h1 b' hb]
  · rwa [h1 b' hb]
  · rw [h1 b' hb] at hs; exact Nat.le_trans (h3 _ hs) hk

/-- Sequencing a stack-keeping computation before a bounded one. -/
theorem Good.calm_bind {α} {m : M α} (hm : Calm m) {f : Nat → α → M Unit} {b k : Nat} {s : St}
    (h : ∀ a s', m s = .ok a s' → s'.stack = s.stack → Good (fun n => f n a) b k s') :
    Good (fun n => M.bind m (f n)) b k s := by
  have h1 := hm s
  refine ⟨fun n hn => ?_, ?_, fun s' hs => ?_⟩ <;> simp only [M.bind] at *
  · cases hc : m s with
    | ok a s' => rw [hc] at h1; exact (h a s' hc h1).1 n hn
    | _ => rfl
  · cases hc : m s with
    | ok a s' => rw [hc] at h1; exact (h a s' hc h1).2.1
    | fuel => rw [hc] at h1; exact h1.elim
    | _ => simp
  · cases hc : m s with
    | ok a s'' => rw [hc] at h1 hs; exact (h a s'' hc h1).2.2 s' hs
    | _ => rw [hc] at hs; simp at hs

/-- Sequencing two bounded computations. -/
theorem Good.bind {f : Nat → M Unit} {g : Nat → M Unit} {b k k' : Nat} {s : St}
    (hf : Good f b k s)
    (hg : ∀ s', s'.stack.length ≤ k → Good g b k' s') :
    Good (fun n => M.bind (f n) fun _ => g n) b k' s := by
  obtain ⟨h1, h2, h3⟩ := hf
  refine ⟨fun n hn => ?_, ?_, fun s' hs => ?_⟩ <;> simp only [M.bind] at *
  · rw [h1 n hn]
    cases hc : f b s with
    | ok a s' => exact (hg s' (h3 _ hc)).1 n hn
    | _ => rfl
  · cases hc : f b s with
    | ok a s' => exact (hg s' (h3 _ hc)).2.1
    | fuel => exact (h2 hc).elim
    | _ => simp
  · cases hc : f b s with
    | ok a s'' => rw [hc] at hs; exact (hg s'' (h3 _ hc)).2.2 s' hs
    | _ => rw [hc] at hs; simp at hs

theorem Good.of_calm {m : M Unit} (hm : Calm m) {b k : Nat} {s : St} (hk : s.stack.length ≤ k) :
    Good (fun _ => m) b k s := by
  have h1 := hm s
  refine ⟨fun n hn => rfl, fun h => ?_, fun s' hs => ?_⟩
  · simp only at h; rw [h] at h1; exact h1
  · simp only at hs; rw [hs] at h1; simp only at h1; rw [h1]; exact hk

theorem Good.of_ub {b k : Nat} {s : St} : Good (fun _ _ => .ub) b k s :=
  ⟨fun _ _ => rfl, by simp, by simp⟩

theorem Good.succ {f g : Nat → M Unit} {b k : Nat} {s : St} (hg : ∀ n, f (n + 1) s = g n s)
    (h : Good g b k s) : Good f (b + 1) k s := by
  obtain ⟨h1, h2, h3⟩ := h
  refine ⟨fun n hn => ?_, ?_, ?_⟩
  · obtain ⟨n, rfl⟩ : ∃ m, n = m + 1 := ⟨n - 1, by omega⟩
    rw [hg, hg, h1 n (by omega)]
  · rw [hg]; exact h2
  · rw [hg]; exact h3

/-- All four mutually recursive methods are bounded, for every stack depth. -/
theorem layer2_good (L : Nat) : ∀ s : St, s.stack.length ≤ L →
    Good (popParser E R) (4 * L + 1) (L - 1) s ∧
    (∀ sh p, Good (fun n => endParsing E R n sh p) (4 * L + 2) L s) ∧
    Good (dispatchMapEnd E R) (4 * L + 3) L s ∧
    (∀ p, Good (fun n => childParsed E R n p) (4 * L + 4) L s) := by
  induction L with
  | zero =>
    have hpop : ∀ s : St, s.stack.length ≤ 0 → Good (popParser E R) (4 * 0 + 1) (0 - 1) s := by
      intro s hs
      have hs0 : s.stack = [] := by cases h : s.stack <;> simp_all
      refine Good.succ (g := fun _ => throwStd "Can not pop parser, parsers stack is empty") (b := 0)
        (fun n => ?_) (Good.of_calm (Calm.throwStd _) hs)
      simp [popParser, hs0, throwStd]
    have hend : ∀ s : St, s.stack.length ≤ 0 → ∀ sh p, Good (fun n => endParsing E R n sh p) (4 * 0 + 2) 0 s := by
      intro s hs sh p
      refine Good.succ (fun n => by rw [endParsing]) ?_
      refine Good.calm_bind (Calm.modC _ _) fun _ s1 _ h1 => ?_
      refine Good.calm_bind (Calm.finish _ _) fun _ s2 _ h2 => ?_
      refine Good.calm_bind (Calm.getC _) fun c s3 _ h3 => ?_
      have hl : s3.stack.length ≤ 0 := by rw [h3, h2, h1]; exact hs
      by_cases hc : c.disp = true
      · simp only [hc, if_true]; exact hpop s3 hl
      · simp only [hc]; exact Good.of_calm (Calm.pure _) hl
    have hme : ∀ s : St, s.stack.length ≤ 0 → Good (dispatchMapEnd E R) (4 * 0 + 3) 0 s := by
      intro s hs
      have hs0 : s.stack = [] := by cases h : s.stack <;> simp_all
      refine Good.succ (g := fun _ => throwStd "Parsers stack is empty")
        (fun n => ?_) (Good.of_calm (Calm.throwStd _) hs)
      simp [dispatchMapEnd, hs0, throwStd]
    intro s hs
    refine ⟨hpop s hs, hend s hs, hme s hs, fun p => ?_⟩
    refine Good.succ (fun n => by rw [childParsed]) ?_
    split
    · exact Good.of_ub
    · exact Good.of_calm (Calm.bind (Calm.popVal _) fun v => Calm.modC _ _) hs
    · exact Good.of_calm (Calm.elementCb _ _) hs
    · exact Good.of_calm (Calm.bind (Calm.elementCb _ _) fun _ => Calm.bind (Calm.popVal _) fun v => Calm.modC _ _) hs
    · rename_i ty tm stored ms _
      refine Good.bind (k := 0) ((hend s hs _ _).mono (by omega) (by omega)) fun s' hs' => ?_
      split
      · refine Good.calm_bind (Calm.getC _) fun c s3 _ h3 => ?_
        by_cases hc : c.disp = true
        · simp only [hc, if_true]; exact hme s3 (by rw [h3]; exact hs')
        · simp only [hc]; exact Good.of_ub
      · exact Good.of_calm (Calm.pure _) hs'
    · exact Good.of_calm (Calm.pure _) hs
  | succ L ih =>
    have hpop : ∀ s : St, s.stack.length ≤ L + 1 →
        Good (popParser E R) (4 * (L + 1) + 1) (L + 1 - 1) s := by
      intro s hs
      match hst : s.stack with
      | [] =>
        refine Good.succ (g := fun _ => throwStd "Can not pop parser, parsers stack is empty")
          (fun n => ?_) (Good.of_calm (Calm.throwStd _) (by simp [hst]))
        simp [popParser, hst, throwStd]
      | [p] =>
        refine Good.succ (g := fun _ s => .ok () {s with stack := []})
          (fun n => ?_) ⟨fun _ _ => rfl, by simp, by intro s' h; simp at h; subst h; simp⟩
        simp [popParser, hst]
      | p :: q :: r =>
        have := (ih {s with stack := q :: r} (by rw [hst] at hs; simpa using hs)).2.2.2 q
        refine Good.succ (g := fun n s => childParsed E R n q {s with stack := q :: r})
          (fun n => ?_) ⟨fun n hn => this.1 n hn, this.2.1, fun s' h => ?_⟩
        · simp [popParser, hst]
        · exact this.2.2 s' h
    have hend : ∀ s : St, s.stack.length ≤ L + 1 → ∀ sh p,
        Good (fun n => endParsing E R n sh p) (4 * (L + 1) + 2) (L + 1) s := by
      intro s hs sh p
      refine Good.succ (fun n => by rw [endParsing]) ?_
      refine Good.calm_bind (Calm.modC _ _) fun _ s1 _ h1 => ?_
      refine Good.calm_bind (Calm.finish _ _) fun _ s2 _ h2 => ?_
      refine Good.calm_bind (Calm.getC _) fun c s3 _ h3 => ?_
      have hl : s3.stack.length ≤ L + 1 := by rw [h3, h2, h1]; exact hs
      by_cases hc : c.disp = true
      · simp only [hc, if_true]; exact (hpop s3 hl).mono (Nat.le_refl _) (by omega)
      · simp only [hc]; exact Good.of_calm (Calm.pure _) hl
    have hme : ∀ s : St, s.stack.length ≤ L + 1 →
        Good (dispatchMapEnd E R) (4 * (L + 1) + 3) (L + 1) s := by
      intro s hs
      match hst : s.stack with
      | [] =>
        refine Good.succ (g := fun _ => throwStd "Parsers stack is empty")
          (fun n => ?_) (Good.of_calm (Calm.throwStd _) hs)
        simp [dispatchMapEnd, hst, throwStd]
      | p :: r =>
        match hR : R.at p with
        | none =>
          exact Good.succ (g := fun _ _ => .ub) (fun n => by simp [dispatchMapEnd, hst, hR]) Good.of_ub
        | some .ignore =>
          match hst' : (s.heap p).struct with
          | true :: rr =>
            by_cases hr : rr = []
            · let s' : St := { s with heap := s.heap.upd p fun c => { c with struct := rr } }
              have := hend s' hs .ignore p
              refine Good.succ (g := fun n _ => endParsing E R n .ignore p s')
                (fun n => ?_) ⟨fun n hn => this.1 n hn, this.2.1, fun s' h => this.2.2 s' h⟩
              simp [dispatchMapEnd, hst, hR, hst', hr, s']
            · let s' : St := { s with heap := s.heap.upd p fun c => { c with struct := rr } }
              refine Good.succ (g := fun n _ => .ok () s')
                (fun n => ?_) ⟨fun n hn => rfl, by simp, fun s'' h => ?_⟩
              · simp [dispatchMapEnd, hst, hR, hst', hr, s']
              · injection h with _ h; subst h; simpa [s'] using hs
          | [] =>
            exact Good.succ (g := fun _ => unexpected .mapEnd) (fun n => by simp [dispatchMapEnd, hst, hR, hst'])
              (Good.of_calm (Calm.throwStd _) hs)
          | false :: _ =>
            exact Good.succ (g := fun _ => unexpected .mapEnd) (fun n => by simp [dispatchMapEnd, hst, hR, hst'])
              (Good.of_calm (Calm.throwStd _) hs)
        | some (.object k u ms) =>
          exact Good.succ (fun n => by simp only [dispatchMapEnd, hst, hR]) (hend s hs (.object k u ms) p)
        | some (.union ty tm st ms) =>
          exact Good.succ (fun n => by simp only [dispatchMapEnd, hst, hR]) (hend s hs (.union ty tm st ms) p)
        | some (.map st e) =>
          exact Good.succ (fun n => by simp only [dispatchMapEnd, hst, hR]) (hend s hs (.map st e) p)
        | some (.value ty) =>
          exact Good.succ (g := fun _ => unexpected .mapEnd) (fun n => by simp [dispatchMapEnd, hst, hR])
            (Good.of_calm (Calm.throwStd _) hs)
        | some (.array st e) =>
          exact Good.succ (g := fun _ => unexpected .mapEnd) (fun n => by simp [dispatchMapEnd, hst, hR])
            (Good.of_calm (Calm.throwStd _) hs)
    intro s hs
    refine ⟨hpop s hs, hend s hs, hme s hs, fun p => ?_⟩
    refine Good.succ (fun n => by rw [childParsed]) ?_
    split
    · exact Good.of_ub
    · exact Good.of_calm (Calm.bind (Calm.popVal _) fun v => Calm.modC _ _) hs
    · exact Good.of_calm (Calm.elementCb _ _) hs
    · exact Good.of_calm (Calm.bind (Calm.elementCb _ _) fun _ => Calm.bind (Calm.popVal _) fun v => Calm.modC _ _) hs
    · rename_i ty tm stored ms _
      refine Good.bind (k := L + 1) ((hend s hs _ _).mono (by omega) (by omega)) fun s' hs' => ?_
      split
      · refine Good.calm_bind (Calm.getC _) fun c s3 _ h3 => ?_
        by_cases hc : c.disp = true
        · simp only [hc, if_true]; exact hme s3 (by rw [h3]; exact hs')
        · simp only [hc]; exact Good.of_ub
      · exact Good.of_calm (Calm.pure _) hs'
    · exact Good.of_calm (Calm.pure _) hs

end SJ
