/-
The ignore parsers remember only the nesting of what they are reading.
-/
import Verif.Proofs.TidyStep
import Verif.Proofs.Access

set_option linter.unusedVariables false

namespace SJ

variable {E : Env} {R : Shape}

/-- Each remembered structure has only been shortened at its open end. -/
def Sub (h h' : Heap) : Prop := ∀ q, (h' q).struct <:+ (h q).struct

theorem Sub.refl (h : Heap) : Sub h h := fun _ => List.suffix_refl _
theorem Sub.trans {h h' h'' : Heap} (a : Sub h h') (b : Sub h' h'') : Sub h h'' := fun q => (b q).trans (a q)
theorem Sub.upd {h : Heap} {p f} (hf : (f (h p)).struct <:+ (h p).struct) : Sub h (h.upd p f) := fun q => by
  rw [upd_apply]; split
  · rename_i e; rw [e]; exact hf
  · exact List.suffix_refl _
theorem Sub.keep {h : Heap} {p f} (hf : ∀ c : Cell, (f c).struct = c.struct) : Sub h (h.upd p f) := Sub.upd (by rw [hf]; exact List.suffix_refl _)
theorem Sub.clear {h : Heap} {p f} (hf : ∀ c : Cell, (f c).struct = []) : Sub h (h.upd p f) := Sub.upd (by rw [hf]; exact List.nil_suffix)
theorem Sub.nil {h h' : Heap} (a : Sub h h') {q} (hq : (h q).struct = []) : (h' q).struct = [] := List.suffix_nil.1 (hq ▸ a q)
theorem Quiet.sub {p} {h h' : Heap} (a : Quiet p h h') : Sub h h' := fun q => by rw [a.struct q]; exact List.suffix_refl _
theorem DispOnly.sub {h h' : Heap} (a : DispOnly h h') : Sub h h' := fun q => by rw [a.struct q]; exact List.suffix_refl _

mutual
theorem resetH_sub : ∀ (sh : Shape) (p : Path) (h : Heap), Sub h (resetH p sh h)
  | .value _, p, h => Sub.keep (by intro _; rfl)
  | .ignore, p, h => Sub.clear (by intro _; rfl)
  | .object k _ ms, p, h => by
    have h1 : Sub h (h.upd p Cell.baseReset) := Sub.keep (by intro _; rfl)
    have h2 := h1.trans (resetMs_sub ms p 0 _)
    have h3 : Sub h (Heap.upd _ (.ign :: p) fun c => { c.baseReset with struct := [] }) := h2.trans (Sub.clear (by intro _; rfl))
    cases k
    · exact h3
    · exact h3.trans (Sub.keep (f := fun c => { c with val := .init }) (fun _ => rfl))
    · exact h3.trans (Sub.keep (f := fun c => { c with val := .init }) (fun _ => rfl))
  | .union _ _ st ms, p, h => by
    have h0 : Sub h (h.upd p fun c => { c with curId := 0 }) := Sub.keep (by intro _; rfl)
    have h1 : Sub h (Heap.upd _ p Cell.baseReset) := h0.trans (Sub.keep (by intro _; rfl))
    have h2 := h1.trans (resetMs_sub ms p 0 _)
    have h3 : Sub h (Heap.upd _ (.ign :: p) fun c => { c.baseReset with struct := [] }) := h2.trans (Sub.clear (by intro _; rfl))
    cases st
    · exact h3
    · exact h3.trans (Sub.keep (f := fun c => { c with val := .init }) (fun _ => rfl))
  | .array st e, p, h => by
    have h1 : Sub h (h.upd p Cell.baseReset) := Sub.keep (by intro _; rfl)
    have h2 := h1.trans (resetH_sub e (.elem :: p) _)
    cases st
    · exact h2
    · exact h2.trans (Sub.keep (f := fun c => { c with val := .arr [] }) fun _ => rfl)
  | .map st e, p, h => by
    have h1 : Sub h (h.upd p Cell.baseReset) := Sub.keep (by intro _; rfl)
    cases st
    · exact h1
    · exact h1.trans (Sub.keep (f := fun c => { c with val := .map [] }) fun _ => rfl)
theorem resetMs_sub : ∀ (ms : List (MInfo × Shape)) (p : Path) (n : Nat) (h : Heap), Sub h (resetMs p n ms h)
  | [], p, n, h => Sub.refl h
  | (_, sh) :: ms, p, n, h => (resetH_sub sh (.mem n :: p) h).trans (resetMs_sub ms p (n + 1) _)
end

/-- After a reset, the parser's own ignore parser is empty. -/
theorem resetH_blank {sh m : Shape} (hc : sh.child .ign = some m) (p : Path) (h : Heap) : (resetH p sh h (.ign :: p)).struct = [] := by
  cases sh with
  | object k u ms =>
    have h3 : ∀ h' : Heap, ((h'.upd (.ign :: p) fun c => { c.baseReset with struct := [] }) (.ign :: p)).struct = [] := fun h' => by simp
    cases k
    · exact h3 _
    · exact (Sub.keep (f := fun c => { c with val := .init }) (fun _ => rfl) : Sub _ _).nil (h3 _)
    · exact (Sub.keep (f := fun c => { c with val := .init }) (fun _ => rfl) : Sub _ _).nil (h3 _)
  | union ty tm st ms =>
    have h3 : ∀ h' : Heap, ((h'.upd (.ign :: p) fun c => { c.baseReset with struct := [] }) (.ign :: p)).struct = [] := fun h' => by simp
    cases st
    · exact h3 _
    · exact (Sub.keep (f := fun c => { c with val := .init }) (fun _ => rfl) : Sub _ _).nil (h3 _)
  | _ => simp [Shape.child] at hc

theorem resetMs_blank (p : Path) : ∀ (ms : List (MInfo × Shape)) (n k : Nat) (h : Heap) {i sh m}, ms[k]? = some (i, sh) → sh.child .ign = some m →
    (resetMs p n ms h (.ign :: .mem (n + k) :: p)).struct = []
  | [], n, k, h, i, sh, m, hk, _ => by simp at hk
  | (_, sh') :: ms, n, 0, h, i, sh, m, hk, hc => by
    simp at hk; obtain ⟨_, rfl⟩ := hk
    exact (resetMs_sub ms p (n + 1) _).nil (resetH_blank hc (.mem n :: p) h)
  | (_, sh') :: ms, n, k + 1, h, i, sh, m, hk, hc => by
    rw [show n + (k + 1) = n + 1 + k by omega]
    exact resetMs_blank p ms (n + 1) k _ (by simpa using hk) hc

theorem resetH_union_blank {ty tm st} {ms : List (MInfo × Shape)} (p : Path) (h : Heap) {k : Nat} {i sh m} (hk : ms[k]? = some (i, sh)) (hc : sh.child .ign = some m) :
    (resetH p (.union ty tm st ms) h (.ign :: .mem k :: p)).struct = [] := by
  have h1 := fun h' : Heap => resetMs_blank p ms 0 k h' hk hc
  rw [Nat.zero_add] at h1
  have h3 := fun h' : Heap => (Sub.clear (h := resetMs p 0 ms h') (p := .ign :: p) (f := fun c => { c.baseReset with struct := [] }) fun _ => rfl).nil (h1 h')
  cases st
  · exact h3 _
  · exact (Sub.keep (f := fun c => { c with val := .init }) (fun _ => rfl) : Sub _ _).nil (h3 _)

/-- An ignore parser belongs to an object or union parser. -/
theorem ignore_at (hwf : R.wf = true) {x : Step} {p : Path} {sh : Shape} (hR : R.at p = some sh) (hq : R.at (x :: p) = some .ignore) :
    x = .ign ∧ sh.child .ign = some .ignore := by
  simp only [Shape.at, hR, Option.bind_some] at hq
  rcases wf_at hwf p sh hR with h | rfl
  · by_cases hx : x = .ign
    · subst hx; exact ⟨rfl, hq⟩
    · rcases wf_child h hq with h' | h'
      · simp [Shape.wf] at h'
      · exact absurd h' hx
  · simp [Shape.child] at hq

/-! ### Removing parsers -/

def Wanes {α} (s : St) : Res α → Prop
  | .ok _ s' => s'.stack <:+ s.stack ∧ Sub s.heap s'.heap
  | .throw _ s' => s'.stack <:+ s.stack ∧ Sub s.heap s'.heap
  | .ub => True
  | .fuel => True

theorem Wanes.trans {α} {s s1 : St} {r : Res α} (h1 : s1.stack <:+ s.stack) (h2 : Sub s.heap s1.heap) (h : Wanes s1 r) : Wanes s r := by
  cases r with
  | ok a s' => exact ⟨h.1.trans h1, h2.trans h.2⟩
  | throw e s' => exact ⟨h.1.trans h1, h2.trans h.2⟩
  | ub => trivial
  | fuel => trivial

theorem Wanes.bind {α β} {m : M α} {f : α → M β} {s : St} (h : Wanes s (m s)) (hf : ∀ a s', Wanes s' (f a s')) : Wanes s (M.bind m f s) := by
  unfold M.bind
  cases hc : m s with
  | ok a s' => rw [hc] at h; exact (hf a s').trans h.1 h.2
  | throw e s' => rw [hc] at h; exact h
  | ub => trivial
  | fuel => trivial

theorem Loc.wanes {α} {p} {m : M α} (h : Loc p m) (s : St) : Wanes s (m s) := by
  have := h s
  cases hc : m s with
  | ok a s' => rw [hc] at this; exact ⟨by rw [this.1]; exact List.suffix_refl _, this.2.sub⟩
  | throw a s' => rw [hc] at this; exact ⟨by rw [this.1]; exact List.suffix_refl _, this.2.sub⟩
  | ub => trivial
  | fuel => trivial

theorem Wanes.pure {α} (a : α) (s : St) : Wanes s (M.pure a s) := ⟨List.suffix_refl _, Sub.refl _⟩
theorem Wanes.throwStd {α} (m) (s : St) : Wanes s (throwStd m s : Res α) := ⟨List.suffix_refl _, Sub.refl _⟩
theorem Wanes.getC (p) (s : St) : Wanes s (getC p s) := ⟨List.suffix_refl _, Sub.refl _⟩
theorem Wanes.modC {p f} (hf : ∀ c : Cell, (f c).struct = c.struct) (s : St) : Wanes s (modC p f s) := ⟨List.suffix_refl _, Sub.keep hf⟩

theorem chain_wanes : ∀ n : Nat,
    (∀ s, Wanes s (popParser E R n s)) ∧ (∀ p s, Wanes s (childParsed E R n p s)) ∧
    (∀ sh p s, Wanes s (endParsing E R n sh p s)) ∧ (∀ s, Wanes s (dispatchMapEnd E R n s)) := by
  intro n
  induction n with
  | zero => exact ⟨fun _ => trivial, fun _ _ => trivial, fun _ _ _ => trivial, fun _ => trivial⟩
  | succ n ih =>
    obtain ⟨ih1, ih2, ih3, ih4⟩ := ih
    refine ⟨?_, ?_, ?_, ?_⟩
    · intro s
      unfold popParser
      match hs : s.stack with
      | [] => exact ⟨List.suffix_refl _, Sub.refl _⟩
      | [p] => exact ⟨List.nil_suffix, Sub.refl _⟩
      | p :: q :: r =>
        simp only
        exact Wanes.trans (s1 := { s with stack := q :: r }) (by rw [hs]; exact List.suffix_cons _ _) (Sub.refl _) (ih2 q { s with stack := q :: r })
    · intro p s
      cases hR : R.at p with
      | none => simp only [childParsed, hR]; trivial
      | some sh =>
        cases sh with
        | array st e =>
          cases st with
          | false => simp only [childParsed, hR]; exact Wanes.pure _ _
          | true => simp only [childParsed, hR]; exact (Loc.arrChild true p).wanes s
        | map st e =>
          cases st with
          | false => simp only [childParsed, hR]; exact (Loc.elementCb _ _).wanes s
          | true => simp only [childParsed, hR]; exact (Loc.mapChild true e p).wanes s
        | union ty tm st ms =>
          simp only [childParsed, hR]
          refine Wanes.bind (ih3 _ _ _) fun _ s' => ?_
          split
          · refine Wanes.bind (Wanes.getC _ _) fun c s'' => ?_
            split
            · exact ih4 _
            · trivial
          · exact Wanes.pure _ _
        | _ => simp only [childParsed, hR]; exact Wanes.pure _ _
    · intro sh p s
      unfold endParsing
      refine Wanes.bind ?_ fun _ s1 =>
        Wanes.bind ((Loc.finish sh p).wanes s1) fun _ s2 => Wanes.bind (Wanes.getC _ _) fun c s3 => ?_
      · exact Wanes.modC (by intro _; rfl) s
      split
      · exact ih1 _
      · exact Wanes.pure _ _
    · intro s
      rw [dispatchMapEnd]; dsimp only
      split
      · exact ⟨List.suffix_refl _, Sub.refl _⟩
      · split
        · trivial
        · split
          · rename_i p _ _ _ _ _ r hst
            have h0 : Sub s.heap (s.heap.upd p fun c => { c with struct := r }) := Sub.upd (by rw [hst]; exact List.suffix_cons _ _)
            split
            · exact Wanes.trans (s1 := { s with heap := s.heap.upd p fun c => { c with struct := r } }) (List.suffix_refl _) h0 (ih3 .ignore p _)
            · exact ⟨List.suffix_refl _, h0⟩
          · exact Wanes.throwStd _ _
        · exact ih3 _ _ _
        · exact ih3 _ _ _
        · exact ih3 _ _ _
        · exact Wanes.throwStd _ _

/-! ### Tokens -/

/-- The ignore parsers among `l` and those that belong to parsers in `l'` are empty. -/
def Vacant (R : Shape) (l l' : List Path) (h : Heap) : Prop := ∀ q, R.at q = some .ignore → q ∈ l ∨ q.tail ∈ l' → (h q).struct = []

theorem Vacant.sub {l l' m m' : List Path} {h h' : Heap} (hb : Vacant R l l' h) (hs : Sub h h') (h1 : ∀ q ∈ m, q ∈ l) (h2 : ∀ q ∈ m', q ∈ l') : Vacant R m m' h' :=
  fun q hq hm => hs.nil (hb q hq (hm.imp (h1 q) (h2 q.tail)))

/-- After the token: the structures have not grown, and after a success they satisfy `Q`. -/
def After {α} (Q : St → Prop) (h : Heap) : Res α → Prop
  | .ok _ s' => Q s' ∧ Sub h s'.heap
  | .throw _ s' => Sub h s'.heap
  | _ => True

theorem After.from {α} {Q : St → Prop} {h h' : Heap} {r : Res α} (a : After Q h' r) (hs : Sub h h') : After Q h r := by
  cases r with
  | ok _ s' => exact ⟨a.1, hs.trans a.2⟩
  | throw _ s' => exact hs.trans a
  | ub => trivial
  | fuel => trivial

theorem After.mono {α} {Q Q' : St → Prop} {h : Heap} {r : Res α} (a : After Q h r) (hq : ∀ s, Q s → Q' s) : After Q' h r := by
  cases r with
  | ok _ s' => exact ⟨hq _ a.1, a.2⟩
  | throw _ s' => exact a
  | ub => trivial
  | fuel => trivial

theorem After.bind {α β} {Q Q' : St → Prop} {m : M α} {f : α → M β} {s : St} (h : After Q s.heap (m s)) (hf : ∀ a s', Q s' → After Q' s'.heap (f a s')) :
    After Q' s.heap (M.bind m f s) := by
  unfold M.bind
  cases hc : m s with
  | ok a s' => rw [hc] at h; exact (hf a s' h.1).from h.2
  | throw e s' => rw [hc] at h; exact h
  | ub => trivial
  | fuel => trivial

abbrev All (R : Shape) (s : St) : Prop := Vacant R s.stack s.stack s.heap

theorem Wanes.after {α} {s : St} {r : Res α} (h : Wanes s r) (hb : All R s) : After (All R) s.heap r := by
  cases r with
  | ok a s' => exact ⟨hb.sub h.2 (fun q hq => h.1.subset hq) (fun q hq => h.1.subset hq), h.2⟩
  | throw e s' => exact h.2
  | ub => trivial
  | fuel => trivial

theorem After.throwStd {α} {Q : St → Prop} (m) (s : St) : After Q s.heap (throwStd m s : Res α) := Sub.refl _

/-- What is known about the stack when the parser at `p`, not an ignore parser, gets the token `t`. -/
def Before (R : Shape) (t : Token) (p : Path) (s : St) : Prop :=
  ∀ q, R.at q = some .ignore → (q ∈ s.stack → (s.heap q).struct = []) ∧ (q.tail ∈ s.stack → (Starts t ∧ q.tail = p) ∨ (s.heap q).struct = [])

theorem Before.all {t p} {s : St} (h : Before R t p s) (ht : ¬ Starts t) : All R s := fun q hq hm => by
  rcases hm with hm | hm
  · exact (h q hq).1 hm
  · rcases (h q hq).2 hm with h1 | h1
    · exact absurd h1.1 ht
    · exact h1

/-- A reset blanks what is possibly not. -/
theorem Before.reset (hwf : R.wf = true) {t p sh} {s : St} (h : Before R t p s) (hR : R.at p = some sh) : Vacant R s.stack s.stack (resetH p sh s.heap) := fun q hq hm => by
  have hs := resetH_sub sh p s.heap
  rcases hm with hm | hm
  · exact hs.nil ((h q hq).1 hm)
  · rcases (h q hq).2 hm with ⟨_, h1⟩ | h1
    · cases q with
      | nil => simp only [Shape.at] at hq; cases hq; simp [Shape.wf] at hwf
      | cons x q =>
        simp only [List.tail_cons] at h1; subst h1
        obtain ⟨rfl, hc⟩ := ignore_at hwf hR hq
        exact resetH_blank hc q _
    · exact hs.nil h1

def isKey : Token → Bool
  | .mapKey _ => true
  | _ => false

/-- What is known afterwards. -/
def Then (R : Shape) (t : Token) (s : St) : Prop := Vacant R s.stack (if isKey t then s.stack.tail else s.stack) s.heap

theorem Vacant.then {t} {s : St} (h : All R s) : Then R t s := fun q hq hm => h q hq (hm.imp id fun h => by
  split at h
  · exact List.mem_of_mem_tail h
  · exact h)

variable {f : Nat}

theorem push_after {q : Path} {s : St} (h : ∀ x, R.at (x :: q) = some .ignore → (s.heap (x :: q)).struct = []) (hq : R.at q = some .ignore → (s.heap q).struct = []) (hb : All R s) :
    After (All R) s.heap (pushParser q s) :=
  ⟨fun r hr hm => by
    simp only [List.mem_cons] at hm
    rcases hm with (rfl | hm) | (hm | hm)
    · exact hq hr
    · exact hb r hr (Or.inl hm)
    · cases r with
      | nil => simp only [List.tail_nil] at hm; subst hm; exact hq hr
      | cons x r => simp only [List.tail_cons] at hm; subst hm; exact h x hr
    · exact hb r hr (Or.inr hm), Sub.refl _⟩

theorem onNull_after (hwf : R.wf = true) {t p sh} {s : St} (h : Before R t p s) (hR : R.at p = some sh) : After (All R) s.heap (onNullBase E R f sh p s) := by
  unfold onNullBase
  refine After.bind (Q := All R) ⟨h.reset hwf hR, resetH_sub _ _ _⟩ fun _ s1 h1 => ?_
  refine Wanes.after (Wanes.bind (Wanes.getC _ _) fun c s2 => ?_) h1
  split
  · exact (chain_wanes f).1 _
  · exact Wanes.pure _ _

theorem mem_ignore (hwf : R.wf = true) {p sh n} (hR : R.at p = some sh) : R.at (.mem n :: p) ≠ some .ignore := fun h => by
  have := (ignore_at hwf hR h).1; simp at this

theorem elem_ignore (hwf : R.wf = true) {p sh} (hR : R.at p = some sh) : R.at (.elem :: p) ≠ some .ignore := fun h => by
  have := (ignore_at hwf hR h).1; simp at this

theorem onMember_after (hwf : R.wf = true) {u ms p x sh} {s : St} (hR : R.at p = some sh) (hp : p ∈ s.stack) (ha : All R s) :
    After (fun s' => Vacant R s'.stack s'.stack.tail s'.heap) s.heap (onMember E u ms p x s) := by
  unfold onMember
  have h1 : All R { s with heap := s.heap.upd p fun c => { c with empty := false } } := Vacant.sub ha (Sub.keep (by intro _; rfl)) (fun _ h => h) (fun _ h => h)
  refine After.from (h' := s.heap.upd p fun c => { c with empty := false }) ?_ (Sub.keep (by intro _; rfl))
  rw [setNotEmpty_def, bind_modC, bind_getC]
  generalize hs1 : ({ s with heap := s.heap.upd p fun c => { c with empty := false } } : St) = s1 at *
  have hp1 : p ∈ s1.stack := by rw [← hs1]; exact hp
  have hh : (s.heap.upd p fun c => { c with empty := false }) = s1.heap := by rw [← hs1]
  rw [hh]
  have push : ∀ st : Step, After (fun s' => Vacant R s'.stack s'.stack.tail s'.heap) s1.heap (pushParser (st :: p) s1) := fun st =>
    ⟨fun q hq hm => by
      simp only [List.mem_cons, List.tail_cons] at hm
      rcases hm with (rfl | hm) | hm
      · exact h1 _ hq (Or.inr hp1)
      · exact h1 q hq (Or.inl hm)
      · exact h1 q hq (Or.inr hm), Sub.refl _⟩
  cases lookup x 0 ms with
  | none =>
    simp only
    split
    · exact After.throwStd _ _
    · split
      · exact After.bind (push _) fun _ s' h => ⟨h, Sub.refl _⟩
      · trivial
  | some a =>
    simp only
    split
    · exact After.bind (push _) fun _ s' h => ⟨h, Sub.refl _⟩
    · trivial

theorem Before.leaf (hwf : R.wf = true) {t p sh} {s : St} (h : Before R t p s) (hR : R.at p = some sh) (hc : sh.child .ign = none) : All R s := fun q hq hm => by
  rcases hm with hm | hm
  · exact (h q hq).1 hm
  · rcases (h q hq).2 hm with ⟨_, h1⟩ | h1
    · cases q with
      | nil => simp only [Shape.at] at hq; cases hq; simp [Shape.wf] at hwf
      | cons x q => simp only [List.tail_cons] at h1; subst h1; obtain ⟨_, hc'⟩ := ignore_at hwf hR hq; rw [hc] at hc'; cases hc'
    · exact h1

theorem All.before {t p} {s : St} (h : All R s) : Before R t p s := fun q hq => ⟨fun hm => h q hq (Or.inl hm), fun hm => Or.inr (h q hq (Or.inr hm))⟩

theorem on_after (hwf : R.wf = true) (t : Token) (sh : Shape) (hni : sh ≠ .ignore) :
    ∀ (p : Path) (s : St), R.at p = some sh → (isKey t = true → p ∈ s.stack) → Before R t p s → After (Then R t) s.heap (on E R f sh p t s) := by
  have fin : ∀ sh p (s : St), All R s → After (All R) s.heap (endParsing E R f sh p s) := fun sh p s h => ((chain_wanes f).2.2.1 sh p s).after h
  induction sh using Shape.arrInd with
  | ignore => exact absurd rfl hni
  | value ty =>
    intro p s hR hk hb
    have ha := hb.leaf hwf hR rfl
    cases t with
    | null => exact (onNull_after hwf hb hR).mono fun _ h => h.then
    | scalar v =>
      simp only [on]
      split
      · refine After.mono (Wanes.after ?_ ha) fun _ h => h.then
        refine Wanes.bind ?_ fun _ s1 => Wanes.bind ?_ fun _ s2 => (chain_wanes f).2.2.1 _ _ _
        · exact Wanes.modC (by intro _; rfl) _
        · exact Wanes.modC (by intro _; rfl) _
      · exact After.throwStd _ _
    | _ => exact After.throwStd _ _
  | object k u ms =>
    intro p s hR hk hb
    cases t with
    | null => exact (onNull_after hwf hb hR).mono fun _ h => h.then
    | mapStart => exact ⟨(show All R { s with heap := resetH p _ s.heap } from hb.reset hwf hR).then, resetH_sub _ _ _⟩
    | mapKey key =>
      simp only [on]
      exact After.bind (onMember_after hwf hR (hk rfl) (hb.all (by simp [Starts]))) fun _ s1 h1 => ⟨h1, Sub.refl _⟩
    | mapEnd => exact (fin _ _ _ (hb.all (by simp [Starts]))).mono fun _ h => h.then
    | _ => exact After.throwStd _ _
  | union ty tm st ms =>
    intro p s hR hk hb
    cases t with
    | null => exact (onNull_after hwf hb hR).mono fun _ h => h.then
    | scalar v =>
      simp only [on]
      split
      · rw [bind_modH]
        refine After.from (h' := resetH p (.union ty tm st ms) s.heap) ?_ (resetH_sub _ _ _)
        have hr : All R { s with heap := resetH p (.union ty tm st ms) s.heap } := hb.reset hwf hR
        have hm : ∀ n, R.at (.ign :: .mem n :: p) = some .ignore → (resetH p (.union ty tm st ms) s.heap (.ign :: .mem n :: p)).struct = [] := fun n hn => by
          rw [Shape.at, Shape.at, hR] at hn
          simp only [Option.bind_some, Shape.child] at hn
          cases hms : ms[n]? with
          | none => simp [hms] at hn
          | some a => simp only [hms, Option.map_some, Option.bind_some] at hn; exact resetH_union_blank p _ (i := a.1) (sh := a.2) hms hn
        generalize hs1 : ({ s with heap := resetH p (.union ty tm st ms) s.heap } : St) = s1 at *
        have hh : resetH p (.union ty tm st ms) s.heap = s1.heap := by rw [← hs1]
        rw [hh] at hm ⊢
        have hone : After (All R) s1.heap (onMember E true ms p v s1) := by
          unfold onMember
          have h1 : Sub s1.heap (s1.heap.upd p fun c => { c with empty := false }) := Sub.keep (by intro _; rfl)
          rw [setNotEmpty_def, bind_modC, bind_getC]
          cases hl : lookup v 0 ms with
          | none => exact h1
          | some a =>
            simp only
            split
            · refine After.from (h' := s1.heap.upd p fun c => { c with empty := false }) ?_ h1
              refine After.bind (Q := All R) (push_after (q := .mem a.1 :: p) (s := { s1 with heap := _ }) (fun x hx => ?_) (fun hx => absurd hx (mem_ignore hwf hR)) ?_) fun _ s' h => ⟨h, Sub.refl _⟩
              · cases hM : R.at (.mem a.1 :: p) with
                | none => rw [Shape.at, hM] at hx; cases hx
                | some m =>
                  obtain ⟨rfl, _⟩ := ignore_at hwf hM hx
                  exact h1.nil (hm _ hx)
              · exact Vacant.sub hr h1 (fun _ h => h) (fun _ h => h)
            · trivial
        refine After.bind (Q := All R) hone fun r s2 h2 => ?_
        cases r with
        | none => exact ⟨h2.then, Sub.refl _⟩
        | some n =>
          have hs2 : Sub s2.heap (s2.heap.upd p fun c => { c with curId := n }) := Sub.keep (by intro _; rfl)
          exact ⟨(show All R { s2 with heap := s2.heap.upd p fun c => { c with curId := n } } from Vacant.sub h2 hs2 (fun _ h => h) (fun _ h => h)).then, hs2⟩
      · exact After.throwStd _ _
    | mapStart =>
      simp only [on]
      split
      · exact After.throwStd _ _
      · exact ⟨(show All R { s with heap := resetH p _ s.heap } from hb.reset hwf hR).then, resetH_sub _ _ _⟩
    | mapKey key =>
      simp only [on]
      split
      · exact After.throwStd _ _
      · split
        · exact After.throwStd _ _
        · exact ⟨(hb.all (by simp [Starts])).then, Sub.refl _⟩
    | mapEnd => exact (fin _ _ _ (hb.all (by simp [Starts]))).mono fun _ h => h.then
    | _ => exact After.throwStd _ _
  | map st e =>
    intro p s hR hk hb
    cases t with
    | null => exact (onNull_after hwf hb hR).mono fun _ h => h.then
    | mapStart => exact ⟨(show All R { s with heap := resetH p _ s.heap } from hb.reset hwf hR).then, resetH_sub _ _ _⟩
    | mapKey key =>
      have ha := hb.all (t := .mapKey key) (by simp [Starts])
      simp only [on]
      rw [setNotEmpty_def, bind_modC, bind_getC]
      split
      · rw [bind_push]
        have hs2 : Sub s.heap ((s.heap.upd p fun c => { c with empty := false }).upd p fun c => { c with curKey := key }) :=
          (Sub.keep (by intro _; rfl) : Sub s.heap (s.heap.upd p fun c => { c with empty := false })).trans (Sub.keep (by intro _; rfl))
        refine ⟨fun q hq hm => ?_, hs2⟩
        refine hs2.nil ?_
        simp only [isKey, if_true, List.mem_cons, List.tail_cons] at hm
        rcases hm with (rfl | hm) | hm
        · exact ha _ hq (Or.inr (hk rfl))
        · exact ha q hq (Or.inl hm)
        · exact ha q hq (Or.inr hm)
      · trivial
    | mapEnd => exact (fin _ _ _ (hb.all (by simp [Starts]))).mono fun _ h => h.then
    | _ => exact After.throwStd _ _
  | array st e ih =>
    intro p s hR hk hb
    have ha := hb.leaf hwf hR rfl
    have hne : e ≠ .ignore := fun h => by subst h; exact elem_ignore hwf hR (at_elem_array hR)
    have ihe := ih hne (.elem :: p)
    have open_ : Starts t → After (Then R t) s.heap ((M.bind (setNotEmpty p) fun _ => M.bind (modH (setDispH (.elem :: p) e)) fun _ =>
        M.bind (pushParser (.elem :: p)) fun _ => on E R f e (.elem :: p) t) s) := by
      intro ht
      rw [setNotEmpty_def, bind_modC, bind_modH, bind_push]
      have hsub : Sub s.heap (setDispH (.elem :: p) e (s.heap.upd p fun c => { c with empty := false })) :=
        (Sub.keep (by intro _; rfl) : Sub s.heap (s.heap.upd p fun c => { c with empty := false })).trans (setDispH_only _ _ _).sub
      refine After.from (ihe { s with heap := _, stack := _ } (at_elem_array hR) (fun _ => by simp) fun q hq => ⟨fun hm => ?_, fun hm => ?_⟩) hsub
      · simp only [List.mem_cons] at hm
        rcases hm with rfl | hm
        · exact absurd hq (elem_ignore hwf hR)
        · exact hsub.nil (ha q hq (Or.inl hm))
      · simp only [List.mem_cons] at hm
        rcases hm with hm | hm
        · exact Or.inl ⟨ht, hm⟩
        · exact Or.inr (hsub.nil (ha q hq (Or.inr hm)))
    cases t with
    | null =>
      simp only [on]
      rw [bind_getC]
      split
      · exact (onNull_after hwf hb hR).mono fun _ h => h.then
      · exact ihe s (at_elem_array hR) (fun h => by cases h) ha.before
    | scalar v =>
      simp only [on]
      rw [bind_getC]
      split
      · exact After.throwStd _ _
      · refine After.bind (Q := All R) (ihe s (at_elem_array hR) (fun h => by cases h) ha.before) fun _ s1 h1 => ?_
        refine After.mono (Wanes.after ?_ h1) fun _ h => h.then
        refine Wanes.bind ?_ fun _ s2 => (chain_wanes f).2.1 _ _
        exact Wanes.modC (by intro _; rfl) _
    | mapStart =>
      simp only [on]
      rw [bind_getC]
      split
      · exact After.throwStd _ _
      · split
        · trivial
        · exact open_ trivial
    | arrStart =>
      simp only [on]
      rw [bind_getC]
      split
      · rw [bind_modH]
        have hs2 : Sub s.heap ((resetH p (.array st e) s.heap).upd p fun c => { c with started := true }) := (resetH_sub (.array st e) p s.heap).trans (Sub.keep (by intro _; rfl))
        exact ⟨(show All R { s with heap := (resetH p (.array st e) s.heap).upd p fun c => { c with started := true } } from
          Vacant.sub ha hs2 (fun _ h => h) (fun _ h => h)).then, hs2⟩
      · split
        · trivial
        · exact open_ trivial
    | arrEnd =>
      simp only [on]
      refine After.mono (Wanes.after ?_ ha) fun _ h => h.then
      refine Wanes.bind ?_ fun _ s2 => (chain_wanes f).2.2.1 _ _ _
      exact Wanes.modC (by intro _; rfl) _
    | _ => exact After.throwStd _ _

/-! ### Streams of documents -/

/-- What is remembered by the parser on top, if it is an ignore parser, is not more than the nesting `d`; nothing is remembered by the other ignore parsers in use;
nowhere more than `D`. -/
structure Shallow (R : Shape) (D d : Nat) (rest : List Token) (s : St) : Prop where
  top : ∀ q r, s.stack = q :: r → R.at q = some .ignore → (s.heap q).struct.length ≤ d
  below : ∀ q, R.at q = some .ignore → s.stack.head? ≠ some q → q ∈ s.stack → (s.heap q).struct = []
  use : (∀ q, R.at q = some .ignore → s.stack.head? ≠ some q → q.tail ∈ s.stack → (s.heap q).struct = []) ∨
    Begins rest ∧ ∀ q, R.at q = some .ignore → s.stack.head? ≠ some q → q.tail ∈ s.stack.tail → (s.heap q).struct = []
  all : ∀ q, (s.heap q).struct.length ≤ D

/-- The nesting stays within `D`. -/
def Within (D : Nat) : Nat → List Token → Prop
  | _, [] => True
  | d, .mapStart :: ts => d + 1 ≤ D ∧ Within D (d + 1) ts
  | d, .arrStart :: ts => d + 1 ≤ D ∧ Within D (d + 1) ts
  | d, .mapEnd :: ts => Within D (d - 1) ts
  | d, .arrEnd :: ts => Within D (d - 1) ts
  | d, _ :: ts => Within D d ts

/-- The nesting after the token. -/
def level (d : Nat) : Token → Nat
  | .mapStart => d + 1
  | .arrStart => d + 1
  | .mapEnd => d - 1
  | .arrEnd => d - 1
  | _ => d

theorem Within.next {D d t ts} (h : Within D d (t :: ts)) : Within D (level d t) ts ∧ (t = .mapStart ∨ t = .arrStart → d + 1 ≤ D) := by
  cases t <;> simp_all [Within, level]

theorem Sub.within {D : Nat} {h h' : Heap} (a : Sub h h') (hD : ∀ q, (h q).struct.length ≤ D) (q) : (h' q).struct.length ≤ D := Nat.le_trans (a q).length_le (hD q)

theorem All.shallow {D d rest} {s : St} (h : All R s) (hD : ∀ q, (s.heap q).struct.length ≤ D) : Shallow R D d rest s where
  top := fun q r hs hq => by rw [h q hq (Or.inl (by simp [hs]))]; simp
  below := fun q hq _ hm => h q hq (Or.inl hm)
  use := Or.inl fun q hq _ hm => h q hq (Or.inr hm)
  all := hD

theorem Then.shallow {D d t rest} {s : St} (h : Then R t s) (ha : Adj (t :: rest)) (hD : ∀ q, (s.heap q).struct.length ≤ D) : Shallow R D d rest s where
  top := fun q r hs hq => by rw [h q hq (Or.inl (by simp [hs]))]; simp
  below := fun q hq _ hm => h q hq (Or.inl hm)
  use := by
    cases hk : isKey t with
    | false => exact Or.inl fun q hq _ hm => h q hq (Or.inr (by rw [hk]; exact hm))
    | true => exact Or.inr ⟨ha.next (by cases t <;> first | exact ⟨_, rfl⟩ | cases hk), fun q hq _ hm => h q hq (Or.inr (by rw [hk]; exact hm))⟩
  all := hD

/-- The outcome of a token. -/
def Stays (R : Shape) (D d : Nat) (rest : List Token) : Res Unit → Prop
  | .ok _ s' => Shallow R D d rest s'
  | .throw _ s' => ∀ q, (s'.heap q).struct.length ≤ D
  | _ => True

theorem After.stays {D d rest} {h : Heap} {r : Res Unit} (a : After (All R) h r) (hD : ∀ q, (h q).struct.length ≤ D) : Stays R D d rest r := by
  cases r with
  | ok u s' => exact All.shallow a.1 (a.2.within hD)
  | throw e s' => exact Sub.within a hD
  | ub => trivial
  | fuel => trivial

/-- The parser on top is an ignore parser. -/
theorem ignore_stays (hwf : R.wf = true) {D d t rest} {p below} {s : St} (h : Shallow R D d (t :: rest) s) (hs : s.stack = p :: below) (hR : R.at p = some .ignore)
    (hd : t = .mapStart ∨ t = .arrStart → d + 1 ≤ D) : Stays R D (level d t) rest (on E R f .ignore p t s) := by
  have htop := h.top p below hs hR
  have hbelow : ∀ q, R.at q = some .ignore → q ≠ p → (q ∈ s.stack ∨ q.tail ∈ s.stack) → (s.heap q).struct = [] := by
    intro q hq hne hm
    have hh : s.stack.head? ≠ some q := by rw [hs]; simp; exact fun h => hne h.symm
    rcases hm with hm | hm
    · exact h.below q hq hh hm
    · rcases h.use with h1 | ⟨_, h1⟩
      · exact h1 q hq hh hm
      · rw [hs] at hm h1
        simp only [List.mem_cons, List.tail_cons] at hm h1
        rcases hm with hm | hm
        · cases q with
          | nil => simp only [Shape.at] at hq; cases hq; simp [Shape.wf] at hwf
          | cons x q => simp only [List.tail_cons] at hm; subst hm; obtain ⟨_, hc⟩ := ignore_at hwf hR hq; simp [Shape.child] at hc
        · exact h1 q hq (by rw [hs] at hh; exact hh) hm
  have blank : ∀ h' : Heap, Sub s.heap h' → (h' p).struct = [] → All R { s with heap := h' } := fun h' hsub hp q hq hm => by
    by_cases hqp : q = p
    · subst hqp; exact hp
    · exact hsub.nil (hbelow q hq hqp hm)
  have keep : ∀ (h' : Heap) (d' : Nat), (h' p).struct.length ≤ d' → (h' p).struct.length ≤ D → (∀ q, q ≠ p → h' q = s.heap q) → Shallow R D d' rest { s with heap := h' } :=
    fun h' d' h1 h2 h3 =>
    { top := fun q r hq hi => by
        simp only at hq; rw [hs] at hq; cases hq; exact h1
      below := fun q hq hh hm => by
        have hne : q ≠ p := by rintro rfl; exact hh (by simp [hs])
        simp only; rw [h3 q hne]; exact hbelow q hq hne (Or.inl hm)
      use := Or.inl fun q hq hh hm => by
        have hne : q ≠ p := by rintro rfl; exact hh (by simp [hs])
        simp only; rw [h3 q hne]; exact hbelow q hq hne (Or.inr hm)
      all := fun q => by
        by_cases hqp : q = p
        · subst hqp; exact h2
        · simp only; rw [h3 q hqp]; exact h.all q }
  have same : ∀ d', d ≤ d' → Shallow R D d' rest s := fun d' hdd => keep s.heap d' (by omega) (h.all p) (fun _ _ => rfl)
  have ends : ∀ r : List Bool, r <:+ (s.heap p).struct → r.length ≤ d - 1 → Stays R D (d - 1) rest
      ((M.bind (modC p fun c => { c with struct := r }) fun _ => if r = [] then endParsing E R f .ignore p else M.pure ()) s) := by
    intro r hr hl
    rw [bind_modC]
    have hsub : Sub s.heap (s.heap.upd p fun c => { c with struct := r }) := Sub.upd hr
    split
    · rename_i hn
      refine After.stays (After.from (((chain_wanes f).2.2.1 _ _ _).after (blank _ hsub (by simp [hn]))) hsub) h.all
    · exact keep _ _ (by simpa using hl) (by simpa using Nat.le_trans hr.length_le (h.all p)) fun q hq => upd_other hq
  cases t with
  | null =>
    refine After.stays (R := R) ?_ h.all
    have hb : All R { s with heap := resetH p .ignore s.heap } := blank _ (resetH_sub _ _ _) (by simp [resetH])
    simp only [on, onNullBase]
    rw [bind_modH]
    refine After.from (Wanes.after ?_ hb) (resetH_sub _ _ _)
    rw [bind_getC]
    split
    · exact (chain_wanes f).1 _
    · exact Wanes.pure _ _
  | scalar v =>
    simp only [on]
    rw [bind_getC]
    split
    · rename_i hn
      exact After.stays (((chain_wanes f).2.2.1 _ _ _).after (blank s.heap (Sub.refl _) hn)) h.all
    · exact same d (Nat.le_refl _)
  | mapStart =>
    refine keep _ _ ?_ ?_ fun q hq => upd_other hq
    · simp [level]; omega
    · have := hd (by simp); simp; omega
  | arrStart =>
    refine keep _ _ ?_ ?_ fun q hq => upd_other hq
    · simp [level]; omega
    · have := hd (by simp); simp; omega
  | mapKey k =>
    simp only [on]
    rw [bind_getC]
    rcases (s.heap p).struct with _ | ⟨_ | _, r⟩
    · exact h.all
    · exact h.all
    · exact same d (Nat.le_refl _)
  | mapEnd =>
    simp only [on]
    rw [bind_getC]
    rcases hst : (s.heap p).struct with _ | ⟨_ | _, r⟩
    · exact h.all
    · exact h.all
    · rw [hst] at htop ends
      exact ends r (List.suffix_cons _ _) (by simp at htop; omega)
  | arrEnd =>
    simp only [on]
    rw [bind_getC]
    rcases hst : (s.heap p).struct with _ | ⟨_ | _, r⟩
    · exact h.all
    · rw [hst] at htop ends
      exact ends r (List.suffix_cons _ _) (by simp at htop; omega)
    · exact h.all

theorem Shallow.step (hwf : R.wf = true) {D d t rest} {s : St} (h : Shallow R D d (t :: rest) s) (ha : Adj (t :: rest)) (hw : Within D d (t :: rest)) :
    Stays R D (level d t) rest (dispatch E R t s) := by
  unfold dispatch
  cases hs : s.stack with
  | nil => exact h.all
  | cons p below =>
    simp only
    cases hR : R.at p with
    | none => trivial
    | some sh =>
      simp only
      by_cases hi : sh = .ignore
      · subst hi; exact ignore_stays hwf h hs hR hw.next.2
      · have hb : Before R t p s := fun q hq => by
          have hne : s.stack.head? ≠ some q := by
            rw [hs]; simp; rintro rfl; rw [hR] at hq; cases hq; exact hi rfl
          refine ⟨fun hm => h.below q hq hne hm, fun hm => ?_⟩
          rcases h.use with h1 | ⟨hbg, h1⟩
          · exact Or.inr (h1 q hq hne hm)
          · rw [hs] at hm
            rcases List.mem_cons.1 hm with hm | hm
            · exact Or.inl ⟨hbg, hm⟩
            · exact Or.inr (h1 q hq hne (by rw [hs]; exact hm))
        have := on_after (E := E) (f := fuelFor (p :: below).length) hwf t sh hi p s hR (fun _ => by simp [hs]) hb
        cases hr : on E R (fuelFor (p :: below).length) sh p t s with
        | ok u s' => rw [hr] at this; exact this.1.shallow ha (this.2.within h.all)
        | throw e s' => rw [hr] at this; exact Sub.within this h.all
        | ub => trivial
        | fuel => trivial

end SJ
