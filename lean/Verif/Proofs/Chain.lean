/-
A generic invariant rule for the mutual recursion popParser - childParsed - endParsing - end of object.
-/
import Verif.Proofs.Sim

set_option linter.unusedVariables false

namespace SJ

variable {E : Env} {R : Shape}

/-- Every parser on the stack is in the tree and has its dispatcher pointer set. -/
def Valid (R : Shape) (s : St) : Prop := ∀ p ∈ s.stack, (∃ sh, R.at p = some sh) ∧ (s.heap p).disp = true

/-- The result satisfies `P` (a normal end) or `X` (an exception); there is no undefined behaviour, unless `U`. -/
def Fine {α} (P : St → Prop) (X : Exn → St → Prop) (U : Prop) : Res α → Prop
  | .ok _ s => P s
  | .throw e s => X e s
  | .ub => U
  | .fuel => False

theorem Fine.bind {α β} {P P' : St → Prop} {X : Exn → St → Prop} {U} {m : M α} {f : α → M β} {s : St} (h : Fine P X U (m s))
    (hf : ∀ a s', m s = .ok a s' → P s' → Fine P' X U (f a s')) : Fine P' X U (M.bind m f s) := by
  unfold M.bind
  cases hc : m s with
  | ok a s' => rw [hc] at h; exact hf a s' hc h
  | throw e s' => rw [hc] at h; exact h
  | ub => rw [hc] at h; exact h
  | fuel => rw [hc] at h; exact h

theorem Fine.mono {α} {P P' : St → Prop} {X X' : Exn → St → Prop} {U U' : Prop} {r : Res α} (h : Fine P X U r) (hP : ∀ s, P s → P' s)
    (hX : ∀ e s, X e s → X' e s) (hU : U → U') : Fine P' X' U' r := by
  cases r with
  | ok a s => exact hP s h
  | throw e s => exact hX e s h
  | ub => exact hU h
  | fuel => exact h

def St.drop (s : St) : St := { s with stack := s.stack.tail }

/-- `Pre` is kept by the local parts of the recursion; `X` holds after an exception. -/
structure ChainInv (E : Env) (R : Shape) (Pre : St → Prop) (X : Exn → St → Prop) (U : Prop) : Prop where
  valid : ∀ s, Pre s → Valid R s
  plain : ∀ s msg, Pre s → X (.std msg) s
  /-- the parser on top completes and is removed -/
  fin : ∀ s p rest sh, Pre s → s.stack = p :: rest → R.at p = some sh → (∀ st e, sh ≠ .array st e) → (∀ ty, sh ≠ .value ty) →
    Fine (fun s' => Pre s'.drop) X U (complete E sh p s)
  struct : ∀ s p rest r, Pre s → s.stack = p :: rest → R.at p = some .ignore →
    Pre { s with heap := s.heap.upd p fun c => { c with struct := r } }
  arr : ∀ s p rest st e, Pre s → s.stack = p :: rest → R.at p = some (.array st e) → Fine Pre X U (arrChild st p s)
  map : ∀ s p rest st e, Pre s → s.stack = p :: rest → R.at p = some (.map st e) → Fine Pre X U (mapChild E st e p s)

theorem chP_arrChild {p st e} (hR : R.at p = some (.array st e)) : chP E R p = arrChild st p := by
  cases st with
  | true => rw [chP_sarray hR]; rfl
  | false => rw [chP_array hR]; rfl

theorem chP_mapChild {p st e} (hR : R.at p = some (.map st e)) : chP E R p = mapChild E st e p := by
  cases st with
  | true => rw [chP_smap hR]; rfl
  | false => rw [chP_map hR]; rfl

theorem complete_stack {sh p} {s s' : St} {a} (h : complete E sh p s = .ok a s') : s'.stack = s.stack :=
  ((Loc.complete (E := E) sh p).ok h).1

theorem complete_disp {sh p} {s s' : St} {a} (h : complete E sh p s = .ok a s') (q) : (s'.heap q).disp = (s.heap q).disp :=
  (((Loc.complete (E := E) sh p).ok h).2.ctl q).1

/-- Removing parsers keeps dispatcher pointers and started flags; the stack only shrinks. -/
def Shrinks {α} (s : St) : Res α → Prop
  | .ok _ s' => s'.stack <:+ s.stack ∧ SameCtl s.heap s'.heap
  | .throw _ s' => s'.stack <:+ s.stack ∧ SameCtl s.heap s'.heap
  | .ub => True
  | .fuel => True

theorem Shrinks.bind {α β} {m : M α} {f : α → M β} {s : St} (h : Shrinks s (m s)) (hf : ∀ a s', Shrinks s' (f a s')) :
    Shrinks s (M.bind m f s) := by
  unfold M.bind
  cases hc : m s with
  | ok a s' =>
    rw [hc] at h
    have := hf a s'
    show Shrinks s (f a s')
    cases hc' : f a s' with
    | ok b s'' => rw [hc'] at this; exact ⟨this.1.trans h.1, h.2.trans this.2⟩
    | throw b s'' => rw [hc'] at this; exact ⟨this.1.trans h.1, h.2.trans this.2⟩
    | ub => trivial
    | fuel => trivial
  | throw e s' => rw [hc] at h; exact h
  | ub => trivial
  | fuel => trivial

theorem Loc.shrinks {α} {p} {m : M α} (h : Loc p m) (s : St) : Shrinks s (m s) := by
  have := h s
  cases hc : m s with
  | ok a s' => rw [hc] at this; exact ⟨by rw [this.1]; exact List.suffix_refl _, this.2.ctl⟩
  | throw a s' => rw [hc] at this; exact ⟨by rw [this.1]; exact List.suffix_refl _, this.2.ctl⟩
  | ub => trivial
  | fuel => trivial

theorem Shrinks.pure {α} (a : α) (s : St) : Shrinks s (M.pure a s) := ⟨List.suffix_refl _, SameCtl.refl _⟩
theorem Shrinks.throwStd {α} (m) (s : St) : Shrinks s (throwStd m s : Res α) := ⟨List.suffix_refl _, SameCtl.refl _⟩
theorem Shrinks.getC (p) (s : St) : Shrinks s (getC p s) := ⟨List.suffix_refl _, SameCtl.refl _⟩

theorem chain_shrinks : ∀ n : Nat,
    (∀ s, Shrinks s (popParser E R n s)) ∧ (∀ p s, Shrinks s (childParsed E R n p s)) ∧
    (∀ sh p s, Shrinks s (endParsing E R n sh p s)) ∧ (∀ s, Shrinks s (dispatchMapEnd E R n s)) := by
  intro n
  induction n with
  | zero => exact ⟨fun _ => trivial, fun _ _ => trivial, fun _ _ _ => trivial, fun _ => trivial⟩
  | succ n ih =>
    obtain ⟨ih1, ih2, ih3, ih4⟩ := ih
    refine ⟨?_, ?_, ?_, ?_⟩
    · intro s
      unfold popParser
      match hs : s.stack with
      | [] => exact ⟨List.suffix_refl _, SameCtl.refl _⟩
      | [p] => exact ⟨List.nil_suffix, SameCtl.refl _⟩
      | p :: q :: r =>
        have := ih2 q { s with stack := q :: r }
        simp only
        cases hc : childParsed E R n q { s with stack := q :: r } with
        | ok a s' => rw [hc] at this; exact ⟨this.1.trans (by rw [hs]; exact List.suffix_cons _ _), this.2⟩
        | throw a s' => rw [hc] at this; exact ⟨this.1.trans (by rw [hs]; exact List.suffix_cons _ _), this.2⟩
        | ub => trivial
        | fuel => trivial
    · intro p s
      cases hR : R.at p with
      | none => simp only [childParsed, hR]; trivial
      | some sh =>
        cases sh with
        | value ty => simp only [childParsed, hR]; exact Shrinks.pure _ _
        | ignore => simp only [childParsed, hR]; exact Shrinks.pure _ _
        | object k u ms => simp only [childParsed, hR]; exact Shrinks.pure _ _
        | array st e =>
          cases st with
          | false => simp only [childParsed, hR]; exact Shrinks.pure _ _
          | true =>
            simp only [childParsed, hR]
            exact (Loc.arrChild true p).shrinks s
        | map st e =>
          cases st with
          | false => simp only [childParsed, hR]; exact (Loc.elementCb _ _).shrinks s
          | true =>
            simp only [childParsed, hR]
            exact (Loc.mapChild true e p).shrinks s
        | union ty tm st ms =>
          simp only [childParsed, hR]
          refine Shrinks.bind (ih3 _ _ _) fun _ s' => ?_
          split
          · refine Shrinks.bind (Shrinks.getC _ _) fun c s'' => ?_
            split
            · exact ih4 _
            · trivial
          · exact Shrinks.pure _ _
    · intro sh p s
      unfold endParsing
      refine Shrinks.bind ?_ fun _ s1 =>
        Shrinks.bind ((Loc.finish sh p).shrinks s1) fun _ s2 => Shrinks.bind (Shrinks.getC _ _) fun c s3 => ?_
      · exact ⟨List.suffix_refl _, SameCtl.upd fun c => ⟨rfl, rfl⟩⟩
      split
      · exact ih1 _
      · exact Shrinks.pure _ _
    · intro s
      rw [dispatchMapEnd]; dsimp only
      split
      · exact ⟨List.suffix_refl _, SameCtl.refl _⟩
      · split
        · trivial
        · split
          · rename_i p _ _ _ _ _ r _
            have h0 : SameCtl s.heap (s.heap.upd p fun c => { c with struct := r }) := SameCtl.upd fun c => ⟨rfl, rfl⟩
            split
            · have := ih3 .ignore p { s with heap := s.heap.upd p fun c => { c with struct := r } }
              cases hc : endParsing E R n .ignore p { s with heap := s.heap.upd p fun c => { c with struct := r } } with
              | ok a s' => rw [hc] at this; exact ⟨this.1, h0.trans this.2⟩
              | throw a s' => rw [hc] at this; exact ⟨this.1, h0.trans this.2⟩
              | ub => trivial
              | fuel => trivial
            · exact ⟨List.suffix_refl _, h0⟩
          · exact Shrinks.throwStd _ _
        · exact ih3 _ _ _
        · exact ih3 _ _ _
        · exact ih3 _ _ _
        · exact Shrinks.throwStd _ _

theorem pop_shrinks (s : St) : Shrinks s (pop E R s) := (chain_shrinks _).1 s
theorem chP_shrinks (p) (s : St) : Shrinks s (chP E R p s) := (chain_shrinks _).2.1 p s
theorem endP_shrinks (sh p) (s : St) : Shrinks s (endP E R sh p s) := (chain_shrinks _).2.2.1 sh p s

theorem pop_disp {s s' : St} {a} (h : pop E R s = .ok a s') (p) (hd : (s.heap p).disp = true) : (s'.heap p).disp = true := by
  have := pop_shrinks (E := E) (R := R) s
  rw [h] at this
  rw [(this.2 p).1]; exact hd

variable {Pre : St → Prop} {X : Exn → St → Prop} {U : Prop}

/-- The four mutually recursive methods, by induction on the depth of the stack. -/
theorem ChainInv.all (c : ChainInv E R Pre X U) : ∀ n : Nat,
    (∀ s, s.stack.length ≤ n → s.stack ≠ [] → Pre s.drop → Fine Pre X U (pop E R s)) ∧
    (∀ s p rest sh, s.stack.length ≤ n → Pre s → s.stack = p :: rest → R.at p = some sh → (∀ st e, sh ≠ .array st e) →
      (∀ ty, sh ≠ .value ty) → Fine Pre X U (endP E R sh p s)) ∧
    (∀ s, s.stack.length ≤ n → Pre s → Fine Pre X U (mapEndD E R s)) ∧
    (∀ s p rest, s.stack.length ≤ n → Pre s → s.stack = p :: rest → Fine Pre X U (chP E R p s)) := by
  intro n
  induction n with
  | zero =>
    refine ⟨?_, ?_, ?_, ?_⟩
    · intro s hl hne _; exact absurd (List.length_eq_zero_iff.1 (by omega)) hne
    · intro s p rest sh hl _ hs; rw [hs] at hl; simp at hl
    · intro s hl hp
      have : s.stack = [] := List.length_eq_zero_iff.1 (by omega)
      rw [mapEndD_nil this]; exact c.plain s _ hp
    · intro s p rest hl _ hs; rw [hs] at hl; simp at hl
  | succ n ih =>
    obtain ⟨ih1, ih2, ih3, ih4⟩ := ih
    have A : ∀ s, s.stack.length ≤ n + 1 → s.stack ≠ [] → Pre s.drop → Fine Pre X U (pop E R s) := by
      intro s hl hne hp
      match hs : s.stack with
      | [] => exact absurd hs hne
      | [p] => rw [pop_one hs]; have : s.drop = { s with stack := [] } := by simp [St.drop, hs]
               rw [this] at hp; exact hp
      | p :: q :: r =>
        rw [pop_cons hs]
        have : s.drop = { s with stack := q :: r } := by simp [St.drop, hs]
        rw [this] at hp
        exact ih4 _ q r (by rw [hs] at hl; simp at hl ⊢; omega) hp rfl
    have B : ∀ s p rest sh, s.stack.length ≤ n + 1 → Pre s → s.stack = p :: rest → R.at p = some sh → (∀ st e, sh ≠ .array st e) →
      (∀ ty, sh ≠ .value ty) → Fine Pre X U (endP E R sh p s) := by
      intro s p rest sh hl hp hs hR ha hv
      have hd : (s.heap p).disp = true := (c.valid s hp p (by simp [hs])).2
      rw [endP_pop hd]
      refine Fine.bind (c.fin s p rest sh hp hs hR ha hv) fun _ s' h1 h2 => ?_
      have h3 := complete_stack h1
      exact A s' (by rw [h3]; exact hl) (by rw [h3, hs]; simp) h2
    have C : ∀ s, s.stack.length ≤ n + 1 → Pre s → Fine Pre X U (mapEndD E R s) := by
      intro s hl hp
      match hs : s.stack with
      | [] => rw [mapEndD_nil hs]; exact c.plain s _ hp
      | p :: r =>
        obtain ⟨⟨sh, hR⟩, hd⟩ := c.valid s hp p (by simp [hs])
        cases sh with
        | value ty => rw [mapEndD_value hs hR]; exact c.plain s _ hp
        | array st e => rw [mapEndD_array hs hR]; exact c.plain s _ hp
        | object k u ms => rw [mapEndD_object hs hR]; exact B s p r _ hl hp hs hR (by simp) (by simp)
        | union ty tm st ms => rw [mapEndD_union hs hR]; exact B s p r _ hl hp hs hR (by simp) (by simp)
        | map st e => rw [mapEndD_map hs hR]; exact B s p r _ hl hp hs hR (by simp) (by simp)
        | ignore =>
          rw [mapEndD_ignore hs hR]
          split
          · have hp' := c.struct s p r ‹_› hp hs hR
            split
            · exact B _ p r _ hl hp' hs hR (by simp) (by simp)
            · exact hp'
          · exact c.plain s _ hp
    refine ⟨A, B, C, ?_⟩
    intro s p rest hl hp hs
    obtain ⟨⟨sh, hR⟩, hd⟩ := c.valid s hp p (by simp [hs])
    cases sh with
    | value ty => rw [chP_value hR]; exact hp
    | object k u ms => rw [chP_object hR]; exact hp
    | ignore => rw [chP_ignore hR]; exact hp
    | array st e => rw [chP_arrChild hR]; exact c.arr s p rest st e hp hs hR
    | map st e => rw [chP_mapChild hR]; exact c.map s p rest st e hp hs hR
    | union ty tm st ms =>
      rw [chP_union hR]
      refine Fine.bind (P := fun s' => Pre s' ∧ s'.stack.length ≤ n ∧ (s'.heap p).disp = true) ?_ fun _ s' h1 h2 => ?_
      · rw [endP_pop hd]
        refine Fine.bind (c.fin s p rest _ hp hs hR (by simp) (by simp)) fun _ s1 h1 h2 => ?_
        have h3 := complete_stack h1
        have h4 := A s1 (by rw [h3]; exact hl) (by rw [h3, hs]; simp) h2
        have hd1 : (s1.heap p).disp = true := by rw [complete_disp h1]; exact hd
        cases hc : pop E R s1 with
        | ok a s2 =>
          rw [hc] at h4
          refine ⟨h4, ?_, ?_⟩
          · have := pop_ok_len hc; rw [h3] at this; omega
          · exact pop_disp hc p hd1
        | throw e s2 => rw [hc] at h4; exact h4
        | ub => rw [hc] at h4; exact h4
        | fuel => rw [hc] at h4; exact h4
      · split
        · rw [bind_getC, h2.2.2]
          simp only [if_true]
          exact ih3 s' h2.2.1 h2.1
        · exact h2.1

end SJ
