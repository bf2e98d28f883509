/-
Which parsers a token can change.
-/
import Verif.Proofs.Control

set_option linter.unusedVariables false

namespace SJ

variable {E : Env} {R : Shape}

/-- Every parser of the stack is inside those under it. -/
def Nested (l : List Path) : Prop := l.Pairwise fun a b => Below b a

theorem Nested.suffix {l l' : List Path} (h : Nested l) (hs : l' <:+ l) : Nested l' := h.sublist hs.sublist

/-- `p` is the current parser or inside it. -/
def AtTop (p : Path) (s : St) : Prop := ∀ q r, s.stack = q :: r → Below q p

/-- Parsers may have been removed from the stack; nothing has changed outside of the one that is current now. -/
def Climb {α} (s : St) : Res α → Prop
  | .ok _ s' => s'.stack <:+ s.stack ∧ ∀ q r, s'.stack = q :: r → Frame q s.heap s'.heap
  | .throw _ s' => s'.stack <:+ s.stack ∧ ∀ q r, s'.stack = q :: r → Frame q s.heap s'.heap
  | .ub => True
  | .fuel => True

theorem top_below {l l' : List Path} {q r q' r'} (hn : Nested l) (hl : l = q :: r) (hs : l' <:+ l) (hl' : l' = q' :: r') : Below q' q := by
  subst hl
  have : q' ∈ q :: r := hs.subset (by rw [hl']; simp)
  rcases List.mem_cons.1 this with rfl | h
  · exact Below.refl _
  · exact (List.pairwise_cons.1 hn).1 _ h

theorem AtTop.shrink {p} {s s' : St} (h : AtTop p s) (hn : Nested s.stack) (hs : s'.stack <:+ s.stack) : AtTop p s' := by
  intro q' r' h'
  cases hl : s.stack with
  | nil => rw [hl] at hs; rw [List.suffix_nil.1 hs] at h'; simp at h'
  | cons q r => exact (top_below hn hl hs h').trans (h q r hl)

theorem Climb.trans {α} {s s1 : St} {r : Res α} (hn : Nested s.stack) (h1 : s1.stack <:+ s.stack)
    (h2 : ∀ q r, s1.stack = q :: r → Frame q s.heap s1.heap) (h : Climb s1 r) : Climb s r := by
  have key : ∀ s' : St, s'.stack <:+ s1.stack → (∀ q r, s'.stack = q :: r → Frame q s1.heap s'.heap) →
      s'.stack <:+ s.stack ∧ ∀ q r, s'.stack = q :: r → Frame q s.heap s'.heap := by
    intro s' a b
    refine ⟨a.trans h1, fun q r hq => ?_⟩
    cases hl : s1.stack with
    | nil => rw [hl] at a; rw [List.suffix_nil.1 a] at hq; simp at hq
    | cons q1 r1 => exact ((h2 q1 r1 hl).up (top_below (hn.suffix h1) hl a hq)).trans (b q r hq)
  cases r with
  | ok a s' => exact key s' h.1 h.2
  | throw e s' => exact key s' h.1 h.2
  | ub => trivial
  | fuel => trivial

theorem Climb.bind {α β} {m : M α} {f : α → M β} {s : St} (hn : Nested s.stack) (h : Climb s (m s))
    (hf : ∀ a s', m s = .ok a s' → s'.stack <:+ s.stack → Climb s' (f a s')) : Climb s (M.bind m f s) := by
  unfold M.bind
  cases hc : m s with
  | ok a s' => rw [hc] at h; exact Climb.trans hn h.1 h.2 (hf a s' hc h.1)
  | throw e s' => rw [hc] at h; exact h
  | ub => trivial
  | fuel => trivial

theorem Climb.same {α} (a : α) (s : St) : Climb s (.ok a s : Res α) := ⟨List.suffix_refl _, fun _ _ _ => Frame.refl _ _⟩
theorem Climb.threw {α} (e : Exn) (s : St) : Climb s (.throw e s : Res α) := ⟨List.suffix_refl _, fun _ _ _ => Frame.refl _ _⟩

theorem Loc.climb {α} {p} {m : M α} (h : Loc p m) {s : St} (ht : AtTop p s) : Climb s (m s) := by
  have := h s
  cases hc : m s with
  | ok a s' => rw [hc] at this; exact ⟨by rw [this.1]; exact List.suffix_refl _, fun q r hq => this.2.frame.up (ht q r (this.1 ▸ hq))⟩
  | throw a s' => rw [hc] at this; exact ⟨by rw [this.1]; exact List.suffix_refl _, fun q r hq => this.2.frame.up (ht q r (this.1 ▸ hq))⟩
  | ub => trivial
  | fuel => trivial

theorem chain_climb : ∀ n : Nat,
    (∀ s, Nested s.stack → Climb s (popParser E R n s)) ∧ (∀ p s, Nested s.stack → AtTop p s → Climb s (childParsed E R n p s)) ∧
    (∀ sh p s, Nested s.stack → AtTop p s → Climb s (endParsing E R n sh p s)) ∧ (∀ s, Nested s.stack → Climb s (dispatchMapEnd E R n s)) := by
  intro n
  induction n with
  | zero => exact ⟨fun _ _ => trivial, fun _ _ _ _ => trivial, fun _ _ _ _ _ => trivial, fun _ _ => trivial⟩
  | succ n ih =>
    obtain ⟨ih1, ih2, ih3, ih4⟩ := ih
    refine ⟨?_, ?_, ?_, ?_⟩
    · intro s hn
      unfold popParser
      match hs : s.stack with
      | [] => exact Climb.threw _ _
      | [p] => exact ⟨List.nil_suffix, fun _ _ h => by simp at h⟩
      | p :: q :: r =>
        have hsuf : (q :: r) <:+ s.stack := by rw [hs]; exact List.suffix_cons _ _
        exact Climb.trans (s1 := { s with stack := q :: r }) hn hsuf (fun _ _ _ => Frame.refl _ _)
          (ih2 q { s with stack := q :: r } (hn.suffix hsuf) (fun q' r' h => by injection h with h; rw [h]; exact Below.refl _))
    · intro p s hn ht
      cases hR : R.at p with
      | none => simp only [childParsed, hR]; trivial
      | some sh =>
        cases sh with
        | value ty => simp only [childParsed, hR]; exact Climb.same _ _
        | ignore => simp only [childParsed, hR]; exact Climb.same _ _
        | object k u ms => simp only [childParsed, hR]; exact Climb.same _ _
        | array st e =>
          cases st with
          | false => simp only [childParsed, hR]; exact Climb.same _ _
          | true =>
            simp only [childParsed, hR]
            exact (Loc.arrChild true p).climb ht
        | map st e =>
          cases st with
          | false => simp only [childParsed, hR]; exact (Loc.mapChild false e p).climb ht
          | true =>
            simp only [childParsed, hR]
            exact (Loc.mapChild true e p).climb ht
        | union ty tm st ms =>
          simp only [childParsed, hR]
          refine Climb.bind hn (ih3 _ _ _ hn ht) fun _ s' _ hs => ?_
          split
          · refine Climb.bind (hn.suffix hs) (Climb.same _ _) fun c s'' h1 hs' => ?_
            split
            · exact ih4 _ ((hn.suffix hs).suffix hs')
            · trivial
          · exact Climb.same _ _
    · intro sh p s hn ht
      unfold endParsing
      refine Climb.bind hn ((Loc.modC (f := fun c => { c with set := true }) fun _ => ⟨rfl, rfl, rfl⟩).climb ht) fun _ s1 h1 e1 =>
        Climb.bind (hn.suffix e1) ((Loc.finish sh p).climb (ht.shrink hn e1)) fun _ s2 h2 e2 =>
        Climb.bind ((hn.suffix e1).suffix e2) (Climb.same _ _) fun c s3 h3 e3 => ?_
      split
      · exact ih1 _ (((hn.suffix e1).suffix e2).suffix e3)
      · exact Climb.same _ _
    · intro s hn
      rw [dispatchMapEnd]; dsimp only
      split
      · exact Climb.threw _ _
      · rename_i p r hs
        have ht : AtTop p s := fun q' r' h => by rw [hs] at h; injection h with h; rw [h]; exact Below.refl _
        split
        · trivial
        · split
          · rename_i r _
            have h0 : ∀ q r', s.stack = q :: r' → Frame q s.heap (s.heap.upd p fun c => { c with struct := r }) := by
              intro q r' h
              exact (Frame.upd p _ _).up (ht q r' h)
            split
            · exact Climb.trans (s1 := { s with heap := s.heap.upd p fun c => { c with struct := r } }) hn (List.suffix_refl _) h0 (ih3 .ignore p _ hn ht)
            · exact ⟨List.suffix_refl _, h0⟩
          · exact Climb.threw _ _
        · exact ih3 _ _ _ hn ht
        · exact ih3 _ _ _ hn ht
        · exact ih3 _ _ _ hn ht
        · exact Climb.threw _ _

/-- Nothing has changed but the parser at `p`, the one that is current now and those inside them. -/
def Touched (p : Path) (s s' : St) : Prop :=
  ∀ x, s'.heap x = s.heap x ∨ Below p x ∨ s'.stack = [] ∨ ∃ q r, s'.stack = q :: r ∧ Below q x

def TouchRes {α} (p : Path) (s : St) : Res α → Prop
  | .ok _ s' => Touched p s s'
  | .throw _ s' => Touched p s s'
  | .ub => True
  | .fuel => True

theorem Climb.touch {α} {s : St} {r : Res α} (p) (h : Climb s r) : TouchRes p s r := by
  have key : ∀ s' : St, (∀ q r, s'.stack = q :: r → Frame q s.heap s'.heap) → Touched p s s' := by
    intro s' h x
    cases hs : s'.stack with
    | nil => exact Or.inr (Or.inr (Or.inl rfl))
    | cons q r =>
      by_cases hb : Below q x
      · exact Or.inr (Or.inr (Or.inr ⟨q, r, rfl, hb⟩))
      · exact Or.inl (h q r hs x hb)
  cases r with
  | ok a s' => exact key s' h.2
  | throw e s' => exact key s' h.2
  | ub => trivial
  | fuel => trivial

/-- After a change inside `p`. -/
theorem TouchRes.after {α} {p} {s s1 : St} {r : Res α} (hf : Frame p s.heap s1.heap) (h : TouchRes p s1 r) : TouchRes p s r := by
  have key : ∀ s', Touched p s1 s' → Touched p s s' := by
    intro s' h x
    rcases h x with h | h
    · by_cases hb : Below p x
      · exact Or.inr (Or.inl hb)
      · exact Or.inl (h.trans (hf x hb))
    · exact Or.inr h
  cases r with
  | ok a s' => exact key s' h
  | throw e s' => exact key s' h
  | ub => trivial
  | fuel => trivial

theorem TouchRes.up {α} {p p'} {s : St} {r : Res α} (hb : Below p p') (h : TouchRes p' s r) : TouchRes p s r := by
  have key : ∀ s', Touched p' s s' → Touched p s s' := by
    intro s' h x
    rcases h x with h | h | h
    · exact Or.inl h
    · exact Or.inr (Or.inl (hb.trans h))
    · exact Or.inr (Or.inr h)
  cases r with
  | ok a s' => exact key s' h
  | throw e s' => exact key s' h
  | ub => trivial
  | fuel => trivial

theorem Touched.of_frame {p} {s s' : St} (h : Frame p s.heap s'.heap) : Touched p s s' := by
  intro x
  by_cases hb : Below p x
  · exact Or.inr (Or.inl hb)
  · exact Or.inl (h x hb)

theorem Touched.refl (p) (s : St) : Touched p s s := fun x => Or.inl rfl

/-- A local step afterwards. -/
theorem TouchRes.bind_loc {α β} {p} {m : M α} {f : α → M β} {s : St} (h : TouchRes p s (m s))
    (hf : ∀ a s', LocRes p s' (f a s') ∨ f a s' = .fuel) : TouchRes p s (M.bind m f s) := by
  unfold M.bind
  cases hc : m s with
  | ok a s' =>
    rw [hc] at h
    have key : ∀ s'' : St, s''.stack = s'.stack → Frame p s'.heap s''.heap → Touched p s s'' := by
      intro s'' e1 e2 x
      by_cases hb : Below p x
      · exact Or.inr (Or.inl hb)
      · rw [e1, e2 x hb]; exact h x
    show TouchRes p s (f a s')
    rcases hf a s' with this | this
    rotate_left
    · rw [this]; trivial
    cases hc' : f a s' with
    | ok b s'' => rw [hc'] at this; exact key s'' this.1 this.2.frame
    | throw b s'' => rw [hc'] at this; exact key s'' this.1 this.2.frame
    | ub => trivial
    | fuel => trivial
  | throw e s' => rw [hc] at h; exact h
  | ub => trivial
  | fuel => trivial

theorem TouchRes.bindC {α} {p f} {k : Unit → M α} {s : St} (h : TouchRes p { s with heap := s.heap.upd p f } (k () { s with heap := s.heap.upd p f })) :
    TouchRes p s (M.bind (SJ.modC p f) k s) := by
  rw [bind_modC]
  exact TouchRes.after (s1 := { s with heap := s.heap.upd p f }) (Frame.upd p s.heap f) h

theorem TouchRes.bindH {α} {p f} {k : Unit → M α} {s : St} (hf : Frame p s.heap (f s.heap))
    (h : TouchRes p { s with heap := f s.heap } (k () { s with heap := f s.heap })) : TouchRes p s (M.bind (modH f) k s) := by
  rw [bind_modH]
  exact TouchRes.after (s1 := { s with heap := f s.heap }) hf h

theorem TouchRes.modC {p f} {s : St} : TouchRes p s (SJ.modC p f s) := Touched.of_frame (s' := { s with heap := s.heap.upd p f }) (Frame.upd p s.heap f)
theorem TouchRes.modH {p f} {s : St} (hf : Frame p s.heap (f s.heap)) : TouchRes p s (SJ.modH f s) := Touched.of_frame (s' := { s with heap := f s.heap }) hf

theorem onNull_touch {f sh p} {s : St} (hn : Nested s.stack) : TouchRes p s (onNullBase E R f sh p s) := by
  unfold onNullBase
  rw [bind_modH, bind_getC]
  refine TouchRes.after (s1 := { s with heap := resetH p sh s.heap }) (resetH_frame sh p _) ?_
  split
  · exact ((chain_climb f).1 { s with heap := resetH p sh s.heap } hn).touch p
  · exact Touched.refl _ _

theorem end_touch {f sh p} {s : St} (hn : Nested s.stack) (ht : AtTop p s) : TouchRes p s (endParsing E R f sh p s) := ((chain_climb f).2.2.1 sh p s hn ht).touch p

theorem onMember_touch {u ms p name} {s : St} : TouchRes p s (onMember E u ms p name s) := by
  unfold onMember
  rw [setNotEmpty_def, bind_modC, bind_getC]
  have h0 : Frame p s.heap (s.heap.upd p fun c => { c with empty := false }) := Frame.upd _ _ _
  have h1 : ∀ l, Touched p s { s with heap := s.heap.upd p fun c => { c with empty := false }, stack := l } := fun l => Touched.of_frame h0
  cases lookup name 0 ms with
  | some a =>
    simp only
    split
    · exact h1 _
    · trivial
  | none =>
    simp only
    split
    · exact h1 _
    · split
      · exact h1 _
      · trivial

theorem on_touch : ∀ (sh : Shape) (f : Nat) (p : Path) (t : Token) (s : St), R.at p = some sh → Nested s.stack → AtTop p s → TouchRes p s (on E R f sh p t s) := by
  intro sh
  induction sh using Shape.rec (motive_2 := fun _ => True) (motive_3 := fun _ => True) with
  | value ty =>
    intro f p t s hR hn ht
    cases t with
    | null => exact onNull_touch hn
    | scalar v =>
      simp only [on]
      split
      · exact TouchRes.bindC (TouchRes.bindC (end_touch hn ht))
      · exact Touched.refl _ _
    | _ => exact Touched.refl _ _
  | ignore =>
    intro f p t s hR hn ht
    cases t with
    | null => exact onNull_touch hn
    | scalar v =>
      simp only [on]
      rw [bind_getC]
      split
      · exact end_touch hn ht
      · exact Touched.refl _ _
    | mapStart => exact TouchRes.modC
    | arrStart => exact TouchRes.modC
    | mapKey k =>
      simp only [on]
      rw [bind_getC]
      cases (s.heap p).struct with
      | nil => exact Touched.refl _ _
      | cons b r => cases b <;> exact Touched.refl _ _
    | mapEnd =>
      simp only [on]
      rw [bind_getC]
      cases (s.heap p).struct with
      | nil => exact Touched.refl _ _
      | cons b r =>
        cases b with
        | true =>
          refine TouchRes.bindC ?_
          split
          · exact end_touch hn ht
          · exact Touched.refl _ _
        | false => exact Touched.refl _ _
    | arrEnd =>
      simp only [on]
      rw [bind_getC]
      cases (s.heap p).struct with
      | nil => exact Touched.refl _ _
      | cons b r =>
        cases b with
        | false =>
          refine TouchRes.bindC ?_
          split
          · exact end_touch hn ht
          · exact Touched.refl _ _
        | true => exact Touched.refl _ _
  | object k u ms =>
    intro f p t s hR hn ht
    cases t with
    | null => exact onNull_touch hn
    | mapStart => exact TouchRes.modH (resetH_frame _ _ _)
    | mapKey key => exact onMember_touch.bind_loc fun _ s' => Or.inl (Loc.pure _ _ s')
    | mapEnd => exact end_touch hn ht
    | _ => exact Touched.refl _ _
  | union ty tm st ms =>
    intro f p t s hR hn ht
    cases t with
    | null => exact onNull_touch hn
    | scalar v =>
      simp only [on]
      split
      · refine TouchRes.bindH (resetH_frame _ _ _) (onMember_touch.bind_loc fun r s' => Or.inl ?_)
        cases r with
        | none => exact Loc.pure _ _ s'
        | some n => exact Loc.modC (f := fun c => { c with curId := n }) (fun _ => ⟨rfl, rfl, rfl⟩) s'
      · exact Touched.refl _ _
    | mapStart =>
      simp only [on]
      split
      · exact Touched.refl _ _
      · exact TouchRes.modH (resetH_frame _ _ _)
    | mapKey key =>
      simp only [on]
      split
      · exact Touched.refl _ _
      · split
        · exact Touched.refl _ _
        · exact Touched.refl _ _
    | mapEnd => exact end_touch hn ht
    | _ => exact Touched.refl _ _
  | array st e ih =>
    intro f p t s hR hn ht
    have hE : R.at (.elem :: p) = some e := by simp [Shape.at, hR, Shape.child]
    have hte : AtTop (.elem :: p) s := fun q r h => (ht q r h).trans (Below.cons _ _)
    have opening : ∀ t', TouchRes p s (M.bind (setNotEmpty p) (fun _ => M.bind (modH (setDispH (.elem :: p) e)) fun _ =>
        M.bind (pushParser (.elem :: p)) fun _ => on E R f e (.elem :: p) t') s) := by
      intro t'
      refine TouchRes.bindC (TouchRes.bindH ((setDispH_frame e (.elem :: p) _).up (Below.cons _ _)) ?_)
      rw [bind_push]
      refine TouchRes.after (s1 := { heap := setDispH (.elem :: p) e (s.heap.upd p fun c => { c with empty := false }), stack := (.elem :: p) :: s.stack, log := s.log })
        (Frame.refl _ _) ?_
      refine TouchRes.up (Below.cons _ _) (ih f _ t' _ hE ?_ ?_)
      · cases hs : s.stack with
        | nil => simp only; exact List.pairwise_singleton _ _
        | cons q r =>
          simp only [hs]
          refine List.pairwise_cons.2 ⟨fun b hb => ?_, hs ▸ hn⟩
          refine (Below.trans ?_ (ht q r hs)).trans (Below.cons _ _)
          rcases List.mem_cons.1 hb with rfl | hb
          · exact Below.refl _
          · exact (List.pairwise_cons.1 (hs ▸ hn)).1 b hb
      · intro q r h; injection h with h; rw [h]; exact Below.refl _
    cases t with
    | null =>
      simp only [on]
      rw [bind_getC]
      split
      · exact onNull_touch hn
      · exact TouchRes.up (Below.cons _ _) (ih f _ _ _ hE hn hte)
    | scalar v =>
      simp only [on]
      rw [bind_getC]
      split
      · exact Touched.refl _ _
      · refine TouchRes.bind_loc (TouchRes.up (Below.cons _ _) (ih f _ _ _ hE hn hte)) fun _ s' => ?_
        rw [setNotEmpty_def, bind_modC]
        cases f with
        | zero => exact Or.inr rfl
        | succ f =>
          left
          have h0 : Quiet p s'.heap (s'.heap.upd p fun c => { c with empty := false }) := Quiet.upd fun _ => ⟨rfl, rfl, rfl⟩
          cases st with
          | false => simp only [childParsed, hR]; exact ⟨rfl, h0⟩
          | true =>
            simp only [childParsed, hR]
            have h1 := Loc.arrChild true p { s' with heap := s'.heap.upd p fun c => { c with empty := false } }
            revert h1
            generalize hg : arrChild true p { s' with heap := s'.heap.upd p fun c => { c with empty := false } } = r
            intro h1
            have : (M.bind (popVal (.elem :: p)) fun v => modC p fun c => { c with val := .arr (c.val.vec ++ [v]) })
                { s' with heap := s'.heap.upd p fun c => { c with empty := false } } = r := hg
            rw [this]
            cases r with
            | ok a s'' => exact ⟨h1.1, h0.trans h1.2⟩
            | throw a s'' => exact ⟨h1.1, h0.trans h1.2⟩
            | ub => exact h1
            | fuel => exact h1
    | mapStart =>
      simp only [on]
      rw [bind_getC]
      split
      · exact Touched.refl _ _
      · split
        · trivial
        · exact opening _
    | arrStart =>
      simp only [on]
      rw [bind_getC]
      split
      · exact TouchRes.bindH (resetH_frame _ _ _) TouchRes.modC
      · split
        · trivial
        · exact opening _
    | arrEnd =>
      simp only [on]
      exact TouchRes.bindC (end_touch hn ht)
    | _ => exact Touched.refl _ _
  | map st e ih =>
    intro f p t s hR hn ht
    cases t with
    | null => exact onNull_touch hn
    | mapStart => exact TouchRes.modH (resetH_frame _ _ _)
    | mapKey key =>
      simp only [on]
      refine TouchRes.bindC ?_
      rw [bind_getC]
      split
      · rw [bind_push]
        refine Touched.of_frame ?_
        intro x hx
        have hne : x ≠ p := fun e => hx (e ▸ Below.refl _)
        simp [Heap.upd, hne]
      · trivial
    | mapEnd => exact end_touch hn ht
    | _ => exact Touched.refl _ _
  | _ => trivial

theorem Stacked.nested {l : List Path} (h : Stacked InsideOf l) : Nested l := by
  induction l with
  | nil => exact List.Pairwise.nil
  | cons p l ih =>
    cases l with
    | nil => exact List.pairwise_singleton _ _
    | cons q r =>
      have hn := ih h.2
      refine List.pairwise_cons.2 ⟨fun b hb => ?_, hn⟩
      rcases List.mem_cons.1 hb with rfl | hb
      · exact h.1.1
      · exact ((List.pairwise_cons.1 hn).1 b hb).trans h.1.1

theorem dispatch_touch {s : St} {p rest} {t} (hn : Nested s.stack) (hs : s.stack = p :: rest) : TouchRes p s (dispatch E R t s) := by
  unfold dispatch
  simp only [hs]
  cases hR : R.at p with
  | none => trivial
  | some sh => exact on_touch sh _ p t s hR hn (fun q r h => by rw [hs] at h; injection h with h; rw [h]; exact Below.refl _)

end SJ
