/-
C58: the callbacks of one token are called from the inside outwards, each at most once.
-/
import Verif.Proofs.Outward
import Verif.Demo

set_option linter.unusedVariables false

namespace SJ

variable {E : Env} {R : Shape}

theorem stacked_inside : ∀ {l : List Path}, Stacked (Link R) l → Stacked InsideOf l
  | [], _ => trivial
  | [p], h => h
  | p :: q :: r, h => ⟨by
      rcases h.1 with ⟨st, rfl⟩ | h'
      · exact ⟨⟨[st], rfl⟩, by simp⟩
      · exact h'.2, stacked_inside h.2⟩

theorem History.upright {s : St} (h : History R s) : Upright s :=
  ⟨Stacked.upright (stacked_inside h.ctl.linked), fun p hp => (h.ctl.valid p hp).2⟩

/-- C58. Whatever was done with the parser before, and whatever token arrives: the callbacks called for it are called from the inside outwards. After a
callback of some parser only callbacks of parsers around it are called, and the finish callback of a map after its element callback. This holds for a token
that is handled and for one that ends with an exception. -/
theorem C58_order {s s' : St} (h : History R s) (t : Token) (hd : dispatch E R t s = .ok () s' ∨ ∃ e, dispatch E R t s = .throw e s') : CallsOutwards s s' := by
  have := dispatch_out (E := E) (R := R) t h.upright
  rcases hd with hd | ⟨e, hd⟩ <;> rw [hd] at this <;> (obtain ⟨new, h1, h2, _⟩ := this; exact ⟨new, h1, h2⟩)

theorem outwards_irrefl {a b : Call} (h : Outwards a b) : ¬(a.owner = b.owner ∧ a.isElement = b.isElement) := by
  rintro ⟨h1, h2⟩
  rcases h with h | ⟨_, h3, h4⟩
  · exact h.2 h1.symm
  · rw [h2, h3] at h4; exact Bool.noConfusion h4

theorem one_each {p : Path} {b : Bool} : ∀ {l : List Call}, l.Pairwise Outwards → l.countP (fun c => c.owner == p && c.isElement == b) ≤ 1
  | [], _ => Nat.zero_le _
  | a :: l, h => by
    rw [List.pairwise_cons] at h
    rw [List.countP_cons]
    split
    · rename_i ha
      simp only [Bool.and_eq_true, beq_iff_eq] at ha
      have : l.countP (fun c => c.owner == p && c.isElement == b) = 0 := by
        rw [List.countP_eq_zero]
        intro c hc hk
        simp only [Bool.and_eq_true, beq_iff_eq] at hk
        exact outwards_irrefl (h.1 c hc) ⟨ha.1.trans hk.1.symm, ha.2.trans hk.2.symm⟩
      omega
    · exact one_each h.2

/-- C58. No callback is called twice for one token: of each parser there is at most one call of the finish callback, and at most one of the element callback. -/
theorem C58_once {s s' : St} (h : History R s) (t : Token) (hd : dispatch E R t s = .ok () s' ∨ ∃ e, dispatch E R t s = .throw e s') :
    ∃ new : List Call, s'.log = new ++ s.log ∧ ∀ p b, new.countP (fun c => c.owner == p && c.isElement == b) ≤ 1 := by
  obtain ⟨new, h1, h2⟩ := C58_order h t hd
  exact ⟨new, h1, fun p b => one_each h2⟩

theorem outwards_length : ∀ {l : List Call} {n : Nat}, l.Pairwise Outwards → (∀ c ∈ l, c.owner.length ≤ n) → l.length ≤ 2 * (n + 1) := by
  -- by the depth of the owner of the outermost call
  suffices H : ∀ (l : List Call) (a : Call) (n : Nat), (a :: l).Pairwise Outwards → (∀ c ∈ a :: l, c.owner.length ≤ n) →
      l.length + 1 + (if a.isElement then 1 else 0) + 2 * a.owner.length ≤ 2 * (n + 1) by
    intro l n h1 h2
    cases l with
    | nil => exact Nat.zero_le _
    | cons a l => have := H l a n h1 h2; simp only [List.length_cons]; split at this <;> omega
  intro l
  induction l with
  | nil =>
    intro a n h1 h2
    have := h2 a (by simp)
    simp only [List.length_nil]; split <;> omega
  | cons b l ih =>
    intro a n h1 h2
    rw [List.pairwise_cons] at h1
    have hi := ih b n h1.2 fun c hc => h2 c (List.mem_cons_of_mem _ hc)
    simp only [List.length_cons]
    rcases h1.1 b (by simp) with ⟨⟨pre, hp⟩, hne⟩ | ⟨ho, he, hf⟩
    · have hl : b.owner.length = pre.length + a.owner.length := by rw [← hp, List.length_append]
      have : pre ≠ [] := by rintro rfl; exact hne hp.symm
      have : 0 < pre.length := List.length_pos_iff.2 this
      split at hi <;> split <;> omega
    · rw [he] at hi; simp only [if_true] at hi
      rw [ho]; simp only [hf]; simp only [Bool.false_eq_true, if_false]; omega

/-- C58. How many callbacks one token calls is bounded by the depth of the innermost parser concerned. -/
theorem C58_bound {s s' : St} (h : History R s) (t : Token) (hd : dispatch E R t s = .ok () s' ∨ ∃ e, dispatch E R t s = .throw e s') :
    ∃ new : List Call, s'.log = new ++ s.log ∧ ∀ n, (∀ c ∈ new, c.owner.length ≤ n) → new.length ≤ 2 * (n + 1) := by
  obtain ⟨new, h1, h2⟩ := C58_order h t hd
  exact ⟨new, h1, fun n hn => outwards_length h2 hn⟩

theorem NoCall.key (sh : Shape) (f : Nat) (p : Path) (k : String) : NoCall (on E R f sh p (.mapKey k)) := by
  cases sh with
  | ignore =>
    intro s
    simp only [on]
    rw [bind_getC]
    cases (s.heap p).struct with
    | nil => exact rfl
    | cons b r => cases b <;> exact rfl
  | object kd u ms => exact (NoCall.onMember _ _ _ _).bind fun _ => NoCall.pure _
  | union ty tm st ms =>
    simp only [on]
    exact NoCall.ite (NoCall.thr _) (NoCall.ite (NoCall.thr _) (NoCall.pure _))
  | map st e =>
    simp only [on]
    exact (NoCall.modC _ _).bind fun _ => (NoCall.getC _).bind fun c => NoCall.ite ((NoCall.push _).bind fun _ => NoCall.modC _ _) NoCall.ub
  | _ => exact NoCall.thr _

/-- C58. An opening brace or bracket and a key call no callback, in any state. -/
theorem C58_opening {s s' : St} {t : Token} (ht : t = .mapStart ∨ t = .arrStart ∨ ∃ k, t = .mapKey k)
    (hd : dispatch E R t s = .ok () s' ∨ ∃ e, dispatch E R t s = .throw e s') : s'.log = s.log := by
  have hm : ∀ f sh p, NoCall (on E R f sh p t) := by
    intro f sh p
    rcases ht with rfl | rfl | ⟨k, rfl⟩
    · exact NoCall.opening _ _ _ _ (Or.inl rfl)
    · exact NoCall.opening _ _ _ _ (Or.inr rfl)
    · exact NoCall.key _ _ _ _
  unfold dispatch at hd
  cases hs : s.stack with
  | nil =>
    rw [hs] at hd
    rcases hd with hd | ⟨e, hd⟩
    · simp at hd
    · simp only at hd; injection hd with _ hd; rw [← hd]
  | cons p r =>
    rw [hs] at hd
    simp only at hd
    cases hR : R.at p with
    | none => rw [hR] at hd; rcases hd with hd | ⟨e, hd⟩ <;> simp at hd
    | some sh =>
      rw [hR] at hd
      simp only at hd
      have := hm (fuelFor (p :: r).length) sh p s
      rcases hd with hd | ⟨e, hd⟩ <;> rw [hd] at this <;> exact this

/-- C58. A run over any tokens: the calls come in blocks, one for each token that was handled, and each block goes from the inside outwards. -/
theorem C58_run {s s' : St} (h : History R s) (ts : List Token) (hd : run E R ts s = .ok () s' ∨ ∃ e, run E R ts s = .throw e s') :
    ∃ blocks : List (List Call), s'.log = blocks.flatten ++ s.log ∧ blocks.length ≤ ts.length ∧ ∀ b ∈ blocks, b.Pairwise Outwards := by
  induction ts generalizing s with
  | nil =>
    rcases hd with hd | ⟨e, hd⟩
    · injection hd with _ hd; subst hd; exact ⟨[], rfl, Nat.le_refl _, by simp⟩
    · exact absurd hd (by simp [run, M.pure])
  | cons t ts ih =>
    rw [run_cons] at hd
    cases hc : dispatch E R t s with
    | ok a s1 =>
      rw [bind_ok hc] at hd
      have h1 : History R s1 := .tokens (E := E) [t] h (by rw [Demo.run_one]; exact hc)
      obtain ⟨bl, h2, h3, h4⟩ := ih h1 hd
      obtain ⟨new, h5, h6⟩ := C58_order h t (Or.inl hc)
      refine ⟨bl ++ [new], by rw [h2, h5]; simp, by simp; omega, fun b hb => ?_⟩
      rcases List.mem_append.1 hb with hb | hb
      · exact h4 b hb
      · rw [List.mem_singleton.1 hb]; exact h6
    | throw e s1 =>
      unfold M.bind at hd
      rw [hc] at hd
      have hs : s1 = s' := by
        rcases hd with hd | ⟨e', hd⟩
        · simp at hd
        · injection hd
      subst hs
      obtain ⟨new, h5, h6⟩ := C58_order h t (Or.inr ⟨e, hc⟩)
      exact ⟨[new], by simpa using h5, by simp, by simpa using h6⟩
    | ub => unfold M.bind at hd; rw [hc] at hd; rcases hd with hd | ⟨e, hd⟩ <;> simp at hd
    | fuel => unfold M.bind at hd; rw [hc] at hd; rcases hd with hd | ⟨e, hd⟩ <;> simp at hd

/-! ### Examples -/
section Examples
open Demo

/-- `Map{Object{tuple{Member{"m", Map{Value<int64_t>{}}}}, ObjectOptions{Reaction::Ignore}}}`, with callbacks everywhere. -/
def nestedCalls : Shape := .map false (.object .plain false [({ name := .str "m" }, .map false (.value .int))])

def nestedText : List Token := [.mapStart, .mapKey "k", .mapStart, .mapKey "m", .mapStart, .mapKey "x", .scalar (.int 1)]

def nestedSt : St := after accepting nestedCalls nestedText (St.init nestedCalls)

theorem nestedSt_history : History nestedCalls nestedSt := .tokens (E := accepting) nestedText .init (after_ok (by decide +kernel))

/-- The scalar `1` calls the value's finish callback, then the map's element callback. -/
example : nestedSt.log.map (fun c => (c.owner, c.isElement)) = [([.mem 0, .elem], true), ([.elem, .mem 0, .elem], false)] := by decide +kernel

/-- The closing brace of the object calls its finish callback and the element callback of the map around it. -/
example : (after accepting nestedCalls [.mapEnd, .mapEnd] nestedSt).log.map (fun c => (c.owner, c.isElement)) =
    [([], true), ([.elem], false), ([.mem 0, .elem], false)] ++ nestedSt.log.map (fun c => (c.owner, c.isElement)) := by decide +kernel

example : CallsOutwards (after accepting nestedCalls [.mapEnd] nestedSt) (after accepting nestedCalls [.mapEnd] (after accepting nestedCalls [.mapEnd] nestedSt)) :=
  C58_order (E := accepting) (R := nestedCalls) (.tokens (E := accepting) [.mapEnd] nestedSt_history (after_ok (by decide +kernel))) .mapEnd (Or.inl (after_token (by decide +kernel)))

example : ∃ blocks : List (List Call), (after accepting nestedCalls [.mapEnd, .mapEnd, .mapEnd] nestedSt).log = blocks.flatten ++ nestedSt.log ∧ blocks.length ≤ 3 ∧
    ∀ b ∈ blocks, b.Pairwise Outwards :=
  C58_run (E := accepting) nestedSt_history [.mapEnd, .mapEnd, .mapEnd] (Or.inl (after_ok (by decide +kernel)))

end Examples

end SJ
