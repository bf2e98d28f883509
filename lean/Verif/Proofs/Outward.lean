/-
The callbacks of one token are called from the inside outwards.
-/
import Verif.Proofs.Touch
import Verif.SpecOutward

set_option linter.unusedVariables false

namespace SJ

variable {E : Env} {R : Shape}

/-! ### What single steps add to the log -/

/-- At most one call, which is `K`, is made. -/
def OneRes {α} (K : Call → Prop) (s : St) : Res α → Prop
  | .ok _ s' => s'.log = s.log ∨ ∃ c, K c ∧ s'.log = c :: s.log
  | .throw _ s' => s'.log = s.log ∨ ∃ c, K c ∧ s'.log = c :: s.log
  | .ub => True
  | .fuel => True

def One {α} (K : Call → Prop) (m : M α) : Prop := ∀ s, OneRes K s (m s)

/-- No call is made. -/
def NoCallRes {α} (s : St) : Res α → Prop
  | .ok _ s' => s'.log = s.log
  | .throw _ s' => s'.log = s.log
  | .ub => True
  | .fuel => True

def NoCall {α} (m : M α) : Prop := ∀ s, NoCallRes s (m s)

theorem NoCallRes.one {α} {K} {s : St} {r : Res α} (h : NoCallRes s r) : OneRes K s r := by cases r <;> first | exact Or.inl h | trivial
theorem NoCall.one {α} {K} {m : M α} (h : NoCall m) : One K m := fun s => (h s).one
theorem NoCall.pure {α} (a : α) : NoCall (M.pure a) := fun _ => rfl
theorem NoCall.modC (p f) : NoCall (modC p f) := fun _ => rfl
theorem NoCall.modH (f) : NoCall (modH f) := fun _ => rfl
theorem NoCall.getC (p) : NoCall (getC p) := fun _ => rfl
theorem NoCall.thr {α} (m) : NoCall (throwStd m : M α) := fun _ => rfl
theorem NoCall.push (p) : NoCall (pushParser p) := fun _ => rfl
theorem NoCall.ub {α} : NoCall (fun _ => .ub : M α) := fun _ => trivial
theorem NoCall.popVal (p) : NoCall (popVal p) := fun s => by unfold SJ.popVal; split <;> exact rfl
theorem NoCall.id (p) : NoCall (currentMemberId p) := fun s => by unfold SJ.currentMemberId; split <;> exact rfl

theorem One.after {α β} {K} {m : M α} {f : α → M β} (hm : NoCall m) (hf : ∀ a, One K (f a)) : One K (M.bind m f) := by
  intro s
  have h1 := hm s
  unfold M.bind
  cases h : m s with
  | ok a s' =>
    rw [h] at h1
    have h2 := hf a s'
    show OneRes K s (f a s')
    cases h' : f a s' with
    | ok b s'' => rw [h'] at h2; simp only [OneRes] at h2 ⊢; rw [show s'.log = s.log from h1] at h2; exact h2
    | throw b s'' => rw [h'] at h2; simp only [OneRes] at h2 ⊢; rw [show s'.log = s.log from h1] at h2; exact h2
    | ub => trivial
    | fuel => trivial
  | throw e s' => rw [h] at h1; exact Or.inl h1
  | ub => trivial
  | fuel => trivial

theorem One.before {α β} {K} {m : M α} {f : α → M β} (hm : One K m) (hf : ∀ a, NoCall (f a)) : One K (M.bind m f) := by
  intro s
  have h1 := hm s
  unfold M.bind
  cases h : m s with
  | ok a s' =>
    rw [h] at h1
    have h2 := hf a s'
    show OneRes K s (f a s')
    cases h' : f a s' with
    | ok b s'' => rw [h'] at h2; simp only [OneRes]; rw [show s''.log = s'.log from h2]; exact h1
    | throw b s'' => rw [h'] at h2; simp only [OneRes]; rw [show s''.log = s'.log from h2]; exact h1
    | ub => trivial
    | fuel => trivial
  | throw e s' => rw [h] at h1; exact h1
  | ub => trivial
  | fuel => trivial

theorem NoCall.bind {α β} {m : M α} {f : α → M β} (hm : NoCall m) (hf : ∀ a, NoCall (f a)) : NoCall (M.bind m f) := by
  intro s
  have h1 := hm s
  unfold M.bind
  cases h : m s with
  | ok a s' =>
    rw [h] at h1
    have h2 := hf a s'
    show NoCallRes s (f a s')
    cases h' : f a s' with
    | ok b s'' => rw [h'] at h2; exact h2.trans h1
    | throw b s'' => rw [h'] at h2; exact h2.trans h1
    | ub => trivial
    | fuel => trivial
  | throw e s' => rw [h] at h1; exact h1
  | ub => trivial
  | fuel => trivial

theorem NoCall.ite {α} {c : Prop} [Decidable c] {a b : M α} (ha : NoCall a) (hb : NoCall b) : NoCall (if c then a else b) := by split <;> assumption
theorem One.ite {α} {K} {c : Prop} [Decidable c] {a b : M α} (ha : One K a) (hb : One K b) : One K (if c then a else b) := by split <;> assumption

theorem NoCall.setValues (p) : ∀ (ms : List (MInfo × Shape)) (n : Nat), NoCall (setValues p n ms)
  | [], n => NoCall.pure _
  | (i, sh) :: ms, n => by
    rw [SJ.setValues]
    refine (NoCall.setValues p ms (n + 1)).bind fun vs => (NoCall.getC _).bind fun c => NoCall.ite ((NoCall.popVal _).bind fun _ => NoCall.pure _) (NoCall.ite ?_ (NoCall.thr _))
    cases i.dflt with
    | none => exact NoCall.thr _
    | some d => exact NoCall.pure _

theorem NoCall.setAlt (p) : ∀ (ms : List (MInfo × Shape)) (n : Nat), NoCall (setAlt p n ms)
  | [], n => NoCall.pure _
  | (i, sh) :: ms, n => by
    rw [SJ.setAlt]
    refine (NoCall.setAlt p ms (n + 1)).bind fun vs => (NoCall.id _).bind fun id => NoCall.ite (NoCall.pure _) ((NoCall.getC _).bind fun c =>
      NoCall.ite ((NoCall.popVal _).bind fun _ => NoCall.pure _) (NoCall.ite ?_ (NoCall.thr _)))
    cases i.dflt with
    | none => exact NoCall.thr _
    | some d => exact NoCall.pure _

theorem NoCall.checkAlt (p) : ∀ (ms : List (MInfo × Shape)) (n : Nat), NoCall (checkAlt p n ms)
  | [], n => NoCall.pure _
  | (i, sh) :: ms, n => by
    rw [SJ.checkAlt]
    exact (NoCall.checkAlt p ms (n + 1)).bind fun vs => (NoCall.id _).bind fun id => NoCall.ite (NoCall.pure _) ((NoCall.getC _).bind fun c => NoCall.ite (NoCall.thr _) (NoCall.pure _))

theorem NoCall.wrap {α} {p} {m : M α} (h : NoCall m) : NoCall (wrapOnThrow p m) := by
  intro s
  have := h s
  unfold wrapOnThrow
  cases hr : m s <;> rw [hr] at this <;> first | exact this | trivial

theorem NoCall.unsets {α} {p} {m : M α} (h : NoCall m) : NoCall (unsetOnThrow p m) := by
  intro s
  have := h s
  unfold unsetOnThrow
  cases hr : m s <;> rw [hr] at this <;> first | exact this | trivial

theorem verdict_one {K : Call → Prop} {v w} {s0 s : St} {c} (hc : K c) (h : s.log = c :: s0.log) : OneRes K s0 (verdict v w s) := by
  cases v <;> exact Or.inr ⟨c, hc, h⟩

def FinishOf (p : Path) (c : Call) : Prop := c.owner = p ∧ c.isElement = false
def ElementOf (p : Path) (c : Call) : Prop := c.owner = p ∧ c.isElement = true

theorem One.finishCbVal (p) : One (FinishOf p) (finishCbVal E p) := fun s => by
  unfold SJ.finishCbVal
  cases E.onFinish p with
  | none => exact Or.inl rfl
  | some cb => exact verdict_one (c := .finish p _) ⟨rfl, rfl⟩ rfl

theorem One.finishCbParser (sh c p) : One (FinishOf p) (finishCbParser E sh c p) := fun s => by
  unfold SJ.finishCbParser
  cases E.onFinish p with
  | none => exact Or.inl rfl
  | some cb => exact verdict_one (c := .finish p _) ⟨rfl, rfl⟩ rfl

theorem One.elementCb (e p) : One (ElementOf p) (elementCb E e p) := fun s => by
  unfold SJ.elementCb
  cases E.onElement p with
  | none => exact Or.inl rfl
  | some cb => exact verdict_one (c := .element p _ _) ⟨rfl, rfl⟩ rfl

theorem One.unless {p} {m : M Unit} {K} (h : One K m) : One K (unlessEmpty p m) :=
  One.after (NoCall.getC _) fun c => One.ite (NoCall.modC _ _).one h

theorem One.finish (sh p) : One (FinishOf p) (finish E sh p) := by
  unfold SJ.finish
  split
  · exact One.finishCbVal _
  · exact (NoCall.pure _).one
  · exact One.unless (One.after (NoCall.setValues _ _ _).wrap fun _ => One.after (NoCall.modC _ _) fun _ => One.finishCbVal _)
  · refine One.unless (One.after (NoCall.unsets fun s => ?_) fun _ => One.finishCbParser _ _ _)
    cases E.onFinish p <;> (try split) <;> exact rfl
  · exact One.unless (One.after (NoCall.checkAlt _ _ _).unsets fun _ => One.finishCbParser _ _ _)
  · refine One.unless (One.after (NoCall.setAlt _ _ _).wrap fun r => One.after ?_ fun _ => One.finishCbVal _)
    cases r
    · exact NoCall.pure _
    · exact NoCall.modC _ _
  · exact One.finishCbVal _
  · exact One.finishCbParser _ _ _
  · exact One.finishCbParser _ _ _

theorem NoCall.arrChild (st p) : NoCall (arrChild st p) := by
  unfold SJ.arrChild
  split
  · exact (NoCall.popVal _).bind fun v => NoCall.modC _ _
  · exact NoCall.pure _

theorem One.mapChild (st e p) : One (ElementOf p) (mapChild E st e p) := by
  unfold SJ.mapChild
  split
  · exact One.before (One.elementCb _ _) fun _ => (NoCall.popVal _).bind fun v => NoCall.modC _ _
  · exact One.elementCb _ _

/-! ### The stack -/

/-- The current parsers are strictly nested and can be removed. -/
structure Upright (s : St) : Prop where
  nested : s.stack.Pairwise fun a b => InsideOf a b
  disp : ∀ p ∈ s.stack, (s.heap p).disp = true

theorem Upright.shrink {s s' : St} (h : Upright s) (hs : s'.stack <:+ s.stack) (hd : ∀ q, (s'.heap q).disp = (s.heap q).disp) : Upright s' :=
  ⟨h.nested.sublist hs.sublist, fun p hp => by rw [hd]; exact h.disp p (hs.subset hp)⟩

theorem InsideOf.below {a b c : Path} (h : InsideOf a b) (hc : Below c b) : InsideOf a c := by
  refine ⟨List.IsSuffix.trans hc h.1, fun e => ?_⟩
  subst e
  exact h.2 (h.1.eq_of_length_le hc.length_le).symm

theorem Below.inside {a b c : Path} (h : Below b a) (hc : InsideOf b c) : InsideOf a c := by
  refine ⟨List.IsSuffix.trans hc.1 h, fun e => ?_⟩
  subst e
  exact hc.2 (h.eq_of_length_le hc.1.length_le)

theorem Below.cases {a b : Path} (h : Below b a) : InsideOf a b ∨ a = b := by
  by_cases e : a = b
  · exact Or.inr e
  · exact Or.inl ⟨h, e⟩

/-! ### The calls so far -/

/-- Since the log was `L`, calls were made outwards, all of them with `P`. -/
def Since (L : Log) (P : Call → Prop) (s : St) : Prop := ∃ new : List Call, s.log = new ++ L ∧ new.Pairwise Outwards ∧ ∀ c ∈ new, P c

theorem Since.mono {L P P'} {s s' : St} (h : Since L P s) (hl : s'.log = s.log) (hp : ∀ c, P c → P' c) : Since L P' s' := by
  obtain ⟨new, h1, h2, h3⟩ := h
  exact ⟨new, hl.trans h1, h2, fun c hc => hp c (h3 c hc)⟩

theorem Since.add {L P P'} {s s' : St} {c} (h : Since L P s) (hl : s'.log = c :: s.log) (ho : ∀ d, P d → Outwards c d) (hp : ∀ d, P d → P' d) (hc : P' c) : Since L P' s' := by
  obtain ⟨new, h1, h2, h3⟩ := h
  refine ⟨c :: new, by rw [hl, h1]; rfl, List.pairwise_cons.2 ⟨fun d hd => ho d (h3 d hd), h2⟩, fun d hd => ?_⟩
  rcases List.mem_cons.1 hd with rfl | hd
  · exact hc
  · exact hp d (h3 d hd)

/-- A call that is done with: everything that may follow is outside of it. -/
def Past (s : St) (c : Call) : Prop := ∀ q r, s.stack = q :: r → InsideOf c.owner q ∨ (c.owner = q ∧ c.isElement = true)

theorem Past.shrink {s s' : St} {c} (h : Past s c) (hu : Upright s) (hs : s'.stack <:+ s.stack) : Past s' c := by
  intro q' r' h'
  cases hl : s.stack with
  | nil => rw [hl] at hs; rw [List.suffix_nil.1 hs] at h'; simp at h'
  | cons q r =>
    have hmem : q' ∈ q :: r := by rw [← hl]; exact hs.subset (by rw [h']; simp)
    rcases List.mem_cons.1 hmem with rfl | hm
    · exact h _ _ hl
    · have hq : InsideOf q q' := (List.pairwise_cons.1 (hl ▸ hu.nested)).1 q' hm
      left
      rcases h _ _ hl with h1 | ⟨h1, _⟩
      · exact h1.below hq.1
      · rw [h1]; exact hq

def Goes {α} (L : Log) : Res α → Prop
  | .ok _ s' => Since L (Past s') s'
  | .throw _ s' => Since L (fun _ => True) s'
  | .ub => True
  | .fuel => True

theorem Goes.bind {α β} {L} {m : M α} {f : α → M β} {s : St} (h : Goes L (m s)) (hf : ∀ a s', m s = .ok a s' → Goes L (f a s')) : Goes L (M.bind m f s) := by
  unfold M.bind
  cases hc : m s with
  | ok a s' => exact hf a s' hc
  | throw e s' => rw [hc] at h; exact h
  | ub => trivial
  | fuel => trivial

theorem Goes.weaken {α} {L} {r : Res α} (h : Goes L r) : ∀ s', (∃ a, r = .ok a s') ∨ (∃ e, r = .throw e s') → Since L (fun _ => True) s' := by
  intro s' h'
  rcases h' with ⟨a, rfl⟩ | ⟨e, rfl⟩
  · exact Since.mono h rfl fun _ _ => trivial
  · exact h

theorem chain_after (L : Log) : ∀ n : Nat,
    (∀ s, Upright s → Since L (fun c => ∀ q r, s.stack = q :: r → Below q c.owner) s → Goes L (popParser E R n s)) ∧
    (∀ p r s, Upright s → s.stack = p :: r → Since L (fun c => InsideOf c.owner p) s → Goes L (childParsed E R n p s)) ∧
    (∀ sh p s, Upright s → AtTop p s → Since L (fun c => InsideOf c.owner p ∨ ElementOf p c) s → Goes L (endParsing E R n sh p s)) ∧
    (∀ s, Upright s → Since L (Past s) s → Goes L (dispatchMapEnd E R n s)) := by
  intro n
  induction n with
  | zero => exact ⟨fun _ _ _ => trivial, fun _ _ _ _ _ _ => trivial, fun _ _ _ _ _ _ => trivial, fun _ _ _ => trivial⟩
  | succ n ih =>
    obtain ⟨ih1, ih2, ih3, ih4⟩ := ih
    refine ⟨?_, ?_, ?_, ?_⟩
    · intro s hu hl
      unfold popParser
      match hs : s.stack with
      | [] => exact hl.mono rfl fun _ _ => trivial
      | [p] => exact hl.mono rfl fun _ _ => by intro q r h; simp at h
      | p :: q :: r =>
        have hsuf : (q :: r) <:+ s.stack := by rw [hs]; exact List.suffix_cons _ _
        have hpq : InsideOf p q := (List.pairwise_cons.1 (hs ▸ hu.nested)).1 q (by simp)
        exact ih2 q r { s with stack := q :: r } (hu.shrink hsuf fun _ => rfl) rfl (hl.mono rfl fun c hc => (hc p _ hs).inside hpq)
    · intro p r s hu hs hl
      have done : Goes L (.ok () s : Res Unit) := hl.mono rfl fun c hc q r' h => by rw [hs] at h; injection h with h _; subst h; exact Or.inl hc
      cases hR : R.at p with
      | none => simp only [childParsed, hR]; trivial
      | some sh =>
        cases sh with
        | value ty => simp only [childParsed, hR]; exact done
        | ignore => simp only [childParsed, hR]; exact done
        | object k u ms => simp only [childParsed, hR]; exact done
        | array st e =>
          have : childParsed E R (n + 1) p s = arrChild st p s := by cases st <;> simp only [childParsed, hR] <;> rfl
          rw [this]
          have h1 := NoCall.arrChild st p s
          have h2 := Loc.arrChild st p s
          cases hc : arrChild st p s with
          | ok a s' =>
            rw [hc] at h1 h2
            exact hl.mono h1 fun c hc q r' h => by rw [h2.1, hs] at h; injection h with h _; subst h; exact Or.inl hc
          | throw e s' => rw [hc] at h1; exact hl.mono h1 fun _ _ => trivial
          | ub => trivial
          | fuel => trivial
        | map st e =>
          have : childParsed E R (n + 1) p s = mapChild E st e p s := by cases st <;> simp only [childParsed, hR] <;> rfl
          rw [this]
          have h1 := One.mapChild (E := E) st e p s
          have h2 := Loc.mapChild (E := E) st e p s
          cases hc : mapChild E st e p s with
          | ok a s' =>
            rw [hc] at h1 h2
            rcases h1 with h1 | ⟨c, hk, h1⟩
            · exact hl.mono h1 fun c hc q r' h => by rw [h2.1, hs] at h; injection h with h _; subst h; exact Or.inl hc
            · refine hl.add h1 (fun d hd => Or.inl (by rw [hk.1]; exact hd)) (fun d hd q r' h => ?_) (fun q r' h => ?_)
              · rw [h2.1, hs] at h; injection h with h _; subst h; exact Or.inl hd
              · rw [h2.1, hs] at h; injection h with h _; subst h; exact Or.inr hk
          | throw e s' =>
            rw [hc] at h1
            rcases h1 with h1 | ⟨c, hk, h1⟩
            · exact hl.mono h1 fun _ _ => trivial
            · exact hl.add h1 (fun d hd => Or.inl (by rw [hk.1]; exact hd)) (fun _ _ => trivial) trivial
          | ub => trivial
          | fuel => trivial
        | union ty tm st ms =>
          simp only [childParsed, hR]
          have ht : AtTop p s := fun q' r' h => by rw [hs] at h; injection h with h; rw [h]; exact Below.refl _
          have h1 := ih3 (.union ty tm st ms) p s hu ht (hl.mono rfl fun c hc => Or.inl hc)
          have h2 := (chain_shrinks (E := E) (R := R) n).2.2.1 (.union ty tm st ms) p s
          refine h1.bind fun a s' hc => ?_
          rw [hc] at h1 h2
          split
          · rw [bind_getC]
            split
            · exact ih4 s' (hu.shrink h2.1 fun q => (h2.2 q).1) h1
            · trivial
          · exact h1
    · intro sh p s hu ht hl
      unfold endParsing
      rw [bind_modC]
      have h1 := One.finish (E := E) sh p { s with heap := s.heap.upd p fun c => { c with set := true } }
      have h2 := Loc.finish (E := E) sh p { s with heap := s.heap.upd p fun c => { c with set := true } }
      have hd1 : ∀ q, ((s.heap.upd p fun c => { c with set := true }) q).disp = (s.heap q).disp := by intro q; rw [upd_apply]; split <;> rfl
      have out : ∀ c d, FinishOf p c → (InsideOf d.owner p ∨ ElementOf p d) → Outwards c d := by
        rintro c d hc (hd | hd)
        · exact Or.inl (by rw [hc.1]; exact hd)
        · exact Or.inr ⟨hc.1.trans hd.1.symm, hd.2, hc.2⟩
      have hb : ∀ d, (InsideOf d.owner p ∨ ElementOf p d) → Below p d.owner := by
        rintro d (hd | hd)
        · exact hd.1
        · rw [hd.1]; exact Below.refl _
      cases hc : SJ.finish E sh p { s with heap := s.heap.upd p fun c => { c with set := true } } with
      | ok a s' =>
        rw [hc] at h1 h2
        rw [bind_ok hc]
        have hu' : Upright s' := hu.shrink (by rw [h2.1]; exact List.suffix_refl _) fun q => ((h2.2.ctl q).1).trans (hd1 q)
        have hl' : Since L (fun c => Below p c.owner) s' := by
          rcases h1 with h1 | ⟨c, hk, h1⟩
          · exact hl.mono h1 hb
          · exact hl.add h1 (fun d hd => out c d hk hd) hb (by rw [hk.1]; exact Below.refl _)
        rw [bind_getC]
        split
        · refine ih1 s' hu' (hl'.mono rfl fun c hc q r h => (ht q r ?_).trans hc)
          rw [h2.1] at h; exact h
        · rename_i hnd
          refine hl'.mono rfl fun c hc q r h => Or.inl ?_
          have hq : s.stack = q :: r := by rw [← h, h2.1]
          rcases (ht q r hq).cases with hi | he
          · exact hc.inside hi
          · exact absurd (hu'.disp q (by rw [h]; simp)) (by rw [← he]; exact hnd)
      | throw e s' =>
        rw [hc] at h1
        have : Goes L (.throw e s' : Res Unit) := by
          rcases h1 with h1 | ⟨c, hk, h1⟩
          · exact hl.mono h1 fun _ _ => trivial
          · exact hl.add h1 (fun d hd => out c d hk hd) (fun _ _ => trivial) trivial
        unfold M.bind; rw [hc]; exact this
      | ub => unfold M.bind; rw [hc]; trivial
      | fuel => unfold M.bind; rw [hc]; trivial
    · intro s hu hl
      have thrown : ∀ e, Goes L (.throw e s : Res Unit) := fun e => hl.mono rfl fun _ _ => trivial
      rw [dispatchMapEnd]; dsimp only
      split
      · exact thrown _
      · rename_i p r hs
        have ht : AtTop p s := fun q' r' h => by rw [hs] at h; injection h with h; rw [h]; exact Below.refl _
        have hl' : Since L (fun c => InsideOf c.owner p ∨ ElementOf p c) s := hl.mono rfl fun c hc => hc p r hs
        split
        · trivial
        · split
          · rename_i r' _
            have hu' : Upright { s with heap := s.heap.upd p fun c => { c with struct := r' } } := hu.shrink (List.suffix_refl _) fun q => by
              simp only [upd_apply]; split <;> rfl
            split
            · exact ih3 .ignore p { s with heap := s.heap.upd p fun c => { c with struct := r' } } hu' ht (hl'.mono rfl fun _ h => h)
            · exact hl.mono rfl fun c hc => hc
          · exact thrown _
        · exact ih3 _ _ _ hu ht hl'
        · exact ih3 _ _ _ hu ht hl'
        · exact ih3 _ _ _ hu ht hl'
        · exact thrown _

/-! ### One token -/

/-- Calls were made outwards, if any. -/
def OutRes {α} (L : Log) : Res α → Prop
  | .ok _ s' => Since L (fun _ => True) s'
  | .throw _ s' => Since L (fun _ => True) s'
  | .ub => True
  | .fuel => True

theorem Goes.out {α} {L} {r : Res α} (h : Goes L r) : OutRes L r := by
  cases r with
  | ok a s => exact Since.mono h rfl fun _ _ => trivial
  | throw e s => exact h
  | ub => trivial
  | fuel => trivial

theorem Since.none {L} {P} {s : St} (h : s.log = L) : Since L P s := ⟨[], by simp [h], List.Pairwise.nil, by simp⟩

theorem NoCall.out {α} {m : M α} (h : NoCall m) {s : St} {L} (hl : s.log = L) : OutRes L (m s) := by
  have := h s
  cases hc : m s with
  | ok a s' => rw [hc] at this; exact Since.none (this.trans hl)
  | throw a s' => rw [hc] at this; exact Since.none (this.trans hl)
  | ub => trivial
  | fuel => trivial

theorem OutRes.bind_mute {α β} {L} {m : M α} {f : α → M β} {s : St} (h : OutRes L (m s)) (hf : ∀ a, NoCall (f a)) : OutRes L (M.bind m f s) := by
  unfold M.bind
  cases hc : m s with
  | ok a s' =>
    rw [hc] at h
    have := hf a s'
    show OutRes L (f a s')
    cases hc' : f a s' with
    | ok b s'' => rw [hc'] at this; exact Since.mono h this fun _ _ => trivial
    | throw b s'' => rw [hc'] at this; exact Since.mono h this fun _ _ => trivial
    | ub => trivial
    | fuel => trivial
  | throw e s' => rw [hc] at h; exact h
  | ub => trivial
  | fuel => trivial

theorem end_out {f sh p} {s : St} {L} (hu : Upright s) (ht : AtTop p s) (hl : s.log = L) : OutRes L (endParsing E R f sh p s) :=
  ((chain_after (E := E) (R := R) L f).2.2.1 sh p s hu ht (Since.none hl)).out

theorem null_out {f sh p} {s : St} {L} (hu : Upright s) (hl : s.log = L) : OutRes L (onNullBase E R f sh p s) := by
  unfold onNullBase
  rw [bind_modH, bind_getC]
  split
  · refine ((chain_after (E := E) (R := R) L f).1 { s with heap := resetH p sh s.heap } (hu.shrink (List.suffix_refl _) fun q => ?_) (Since.none hl)).out
    exact (resetH_ctl sh p s.heap q).1
  · exact Since.none hl

theorem NoCall.onMember (u ms p name) : NoCall (onMember E u ms p name) := by
  unfold SJ.onMember
  refine NoCall.bind (NoCall.modC _ _) fun _ => NoCall.bind (NoCall.getC _) fun c => ?_
  cases lookup name 0 ms with
  | some a => exact NoCall.ite ((NoCall.push _).bind fun _ => NoCall.pure _) NoCall.ub
  | none => exact NoCall.ite (NoCall.thr _) (NoCall.ite ((NoCall.push _).bind fun _ => NoCall.pure _) NoCall.ub)

/-- An opening brace or bracket calls nothing. -/
theorem NoCall.opening : ∀ (sh : Shape) (f : Nat) (p : Path) (t : Token), t = .mapStart ∨ t = .arrStart → NoCall (on E R f sh p t) := by
  intro sh
  induction sh using Shape.rec (motive_2 := fun _ => True) (motive_3 := fun _ => True) with
  | value ty => rintro f p t (rfl | rfl) <;> exact NoCall.thr _
  | ignore => rintro f p t (rfl | rfl) <;> exact NoCall.modC _ _
  | object k u ms =>
    rintro f p t (rfl | rfl)
    · exact NoCall.modH _
    · exact NoCall.thr _
  | union ty tm st ms =>
    rintro f p t (rfl | rfl)
    · simp only [on]; exact NoCall.ite (NoCall.thr _) (NoCall.modH _)
    · exact NoCall.thr _
  | array st e ih =>
    rintro f p t (rfl | rfl)
    · simp only [on]
      exact (NoCall.getC _).bind fun c => NoCall.ite (NoCall.thr _) (NoCall.ite NoCall.ub ((NoCall.modC _ _).bind fun _ => (NoCall.modH _).bind fun _ => (NoCall.push _).bind fun _ => ih _ _ _ (Or.inl rfl)))
    · simp only [on]
      exact (NoCall.getC _).bind fun c => NoCall.ite ((NoCall.modH _).bind fun _ => NoCall.modC _ _) (NoCall.ite NoCall.ub
        ((NoCall.modC _ _).bind fun _ => (NoCall.modH _).bind fun _ => (NoCall.push _).bind fun _ => ih _ _ _ (Or.inr rfl)))
  | map st e ih =>
    rintro f p t (rfl | rfl)
    · exact NoCall.modH _
    · exact NoCall.thr _
  | _ => trivial

theorem Upright.upd {s : St} {p f} (h : Upright s) (hf : ∀ c, (f c).disp = c.disp) : Upright { s with heap := s.heap.upd p f } :=
  h.shrink (List.suffix_refl _) fun q => by simp only [upd_apply]; split; · exact hf _
                                            · rfl

theorem on_out : ∀ (sh : Shape) (f : Nat) (p : Path) (t : Token) (s : St), R.at p = some sh → Upright s → AtTop p s → OutRes s.log (on E R f sh p t s) := by
  intro sh
  induction sh using Shape.rec (motive_2 := fun _ => True) (motive_3 := fun _ => True) with
  | value ty =>
    intro f p t s hR hu ht
    cases t with
    | null => exact null_out hu rfl
    | scalar v =>
      simp only [on]
      split
      · rw [setNotEmpty_def, bind_modC, bind_modC]
        exact end_out (s := { s with heap := (s.heap.upd p fun c => { c with empty := false }).upd p fun c => { c with val := .sc v } })
          ((hu.upd (p := p) (f := fun c => { c with empty := false }) fun _ => rfl).upd (p := p) (f := fun c => { c with val := .sc v }) fun _ => rfl) ht rfl
      · exact Since.none rfl
    | _ => exact Since.none rfl
  | ignore =>
    intro f p t s hR hu ht
    cases t with
    | null => exact null_out hu rfl
    | scalar v =>
      simp only [on]
      rw [bind_getC]
      split
      · exact end_out hu ht rfl
      · exact Since.none rfl
    | mapStart => exact Since.none rfl
    | arrStart => exact Since.none rfl
    | mapKey k =>
      simp only [on]
      rw [bind_getC]
      cases (s.heap p).struct with
      | nil => exact Since.none rfl
      | cons b r => cases b <;> exact Since.none rfl
    | mapEnd =>
      simp only [on]
      rw [bind_getC]
      cases (s.heap p).struct with
      | nil => exact Since.none rfl
      | cons b r =>
        cases b with
        | true =>
          simp only
          rw [bind_modC]
          split
          · exact end_out (s := { s with heap := s.heap.upd p fun c => { c with struct := r } }) (hu.upd fun _ => rfl) ht rfl
          · exact Since.none rfl
        | false => exact Since.none rfl
    | arrEnd =>
      simp only [on]
      rw [bind_getC]
      cases (s.heap p).struct with
      | nil => exact Since.none rfl
      | cons b r =>
        cases b with
        | false =>
          simp only
          rw [bind_modC]
          split
          · exact end_out (s := { s with heap := s.heap.upd p fun c => { c with struct := r } }) (hu.upd fun _ => rfl) ht rfl
          · exact Since.none rfl
        | true => exact Since.none rfl
  | object k u ms =>
    intro f p t s hR hu ht
    cases t with
    | null => exact null_out hu rfl
    | mapStart => exact Since.none rfl
    | mapKey key => exact ((NoCall.onMember _ _ _ _).bind fun _ => NoCall.pure _).out rfl
    | mapEnd => exact end_out hu ht rfl
    | _ => exact Since.none rfl
  | union ty tm st ms =>
    intro f p t s hR hu ht
    cases t with
    | null => exact null_out hu rfl
    | scalar v =>
      refine NoCall.out (m := on E R f (.union ty tm st ms) p (.scalar v)) ?_ rfl
      simp only [on]
      refine NoCall.ite ((NoCall.modH _).bind fun _ => (NoCall.onMember _ _ _ _).bind fun r => ?_) (NoCall.thr _)
      cases r with
      | none => exact NoCall.pure _
      | some n => exact NoCall.modC _ _
    | mapStart => exact (NoCall.opening (E := E) (R := R) (.union ty tm st ms) f p .mapStart (Or.inl rfl)).out rfl
    | mapKey key =>
      refine NoCall.out (m := on E R f (.union ty tm st ms) p (.mapKey key)) ?_ rfl
      simp only [on]
      exact NoCall.ite (NoCall.thr _) (NoCall.ite (NoCall.thr _) (NoCall.pure _))
    | mapEnd => exact end_out hu ht rfl
    | _ => exact Since.none rfl
  | array st e ih =>
    intro f p t s hR hu ht
    have hE : R.at (.elem :: p) = some e := by simp [Shape.at, hR, Shape.child]
    have hte : AtTop (.elem :: p) s := fun q r h => (ht q r h).trans (Below.cons _ _)
    cases t with
    | null =>
      simp only [on]
      rw [bind_getC]
      split
      · exact null_out hu rfl
      · exact ih f _ _ _ hE hu hte
    | scalar v =>
      simp only [on]
      rw [bind_getC]
      split
      · exact Since.none rfl
      · refine (ih f _ _ _ hE hu hte).bind_mute fun _ => NoCall.bind (NoCall.modC _ _) fun _ => ?_
        cases f with
        | zero => exact fun _ => trivial
        | succ f =>
          intro s'
          have : childParsed E R (f + 1) p s' = arrChild st p s' := by cases st <;> simp only [childParsed, hR] <;> rfl
          rw [this]
          exact NoCall.arrChild st p s'
    | mapStart => exact (NoCall.opening (E := E) (R := R) (.array st e) f p .mapStart (Or.inl rfl)).out rfl
    | arrStart => exact (NoCall.opening (E := E) (R := R) (.array st e) f p .arrStart (Or.inr rfl)).out rfl
    | arrEnd =>
      simp only [on]
      rw [bind_modC]
      exact end_out (s := { s with heap := s.heap.upd p fun c => { c with started := false } }) (hu.upd fun _ => rfl) ht rfl
    | _ => exact Since.none rfl
  | map st e ih =>
    intro f p t s hR hu ht
    cases t with
    | null => exact null_out hu rfl
    | mapStart => exact Since.none rfl
    | mapKey key =>
      refine NoCall.out (m := on E R f (.map st e) p (.mapKey key)) ?_ rfl
      simp only [on]
      exact (NoCall.modC _ _).bind fun _ => (NoCall.getC _).bind fun c => NoCall.ite ((NoCall.push _).bind fun _ => NoCall.modC _ _) NoCall.ub
    | mapEnd => exact end_out hu ht rfl
    | _ => exact Since.none rfl
  | _ => trivial

theorem dispatch_out (t : Token) {s : St} (hu : Upright s) : OutRes s.log (dispatch E R t s) := by
  unfold dispatch
  cases hs : s.stack with
  | nil => exact Since.none rfl
  | cons p r =>
    simp only
    cases hR : R.at p with
    | none => trivial
    | some sh => exact on_out sh _ p t s hR hu (fun q r' h => by rw [hs] at h; injection h with h; rw [h]; exact Below.refl _)

theorem Stacked.upright {l : List Path} (h : Stacked InsideOf l) : l.Pairwise fun a b => InsideOf a b := by
  induction l with
  | nil => exact List.Pairwise.nil
  | cons p l ih =>
    cases l with
    | nil => exact List.pairwise_singleton _ _
    | cons q r =>
      have hn := ih h.2
      refine List.pairwise_cons.2 ⟨fun b hb => ?_, hn⟩
      rcases List.mem_cons.1 hb with rfl | hb
      · exact h.1
      · exact h.1.below ((List.pairwise_cons.1 hn).1 b hb).1

end SJ
