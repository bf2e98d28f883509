/-
C50: a simulation between two uses of the parser with different callbacks.
-/
import Verif.SpecWatch
import Verif.Proofs.Equations

namespace SJ

/-- The two sets of callbacks act in the same way, as long as the calls so far are related by `rel`, and `rel` is kept by every call: a callback that only
one of them has does nothing, those that both have do the same. -/
structure Parallel (E E' : Env) (rel : Log → Log → Prop) : Prop where
  text : E'.fmtDbl = E.fmtDbl
  fBoth : ∀ p cb cb' l l' a, E.onFinish p = some cb → E'.onFinish p = some cb' → rel l l' →
    cb' l' a = cb l a ∧ rel (.finish p a :: l) (.finish p a :: l')
  fLeft : ∀ p cb l l' a, E.onFinish p = some cb → E'.onFinish p = none → rel l l' →
    ((cb l a).verdict = .accept ∧ (cb l a).pops = [] ∧ (cb l a).newVal = none) ∧ rel (.finish p a :: l) l'
  fRight : ∀ p cb l l' a, E.onFinish p = none → E'.onFinish p = some cb → rel l l' →
    ((cb l' a).verdict = .accept ∧ (cb l' a).pops = [] ∧ (cb l' a).newVal = none) ∧ rel l (.finish p a :: l')
  eBoth : ∀ p cb cb' l l' k a, E.onElement p = some cb → E'.onElement p = some cb' → rel l l' →
    ((cb' l' k a).verdict = (cb l k a).verdict ∧ (cb' l' k a).pops = (cb l k a).pops) ∧ rel (.element p k a :: l) (.element p k a :: l')
  eLeft : ∀ p cb l l' k a, E.onElement p = some cb → E'.onElement p = none → rel l l' →
    ((cb l k a).verdict = .accept ∧ (cb l k a).pops = []) ∧ rel (.element p k a :: l) l'
  eRight : ∀ p cb l l' k a, E.onElement p = none → E'.onElement p = some cb → rel l l' →
    ((cb l' k a).verdict = .accept ∧ (cb l' k a).pops = []) ∧ rel l (.element p k a :: l')

/-- Two computations that do the same. -/
def Par {α : Type} (rel : Log → Log → Prop) (m m' : M α) : Prop := ∀ s s', SameBesides rel s s' → SameEnd rel (m s) (m' s')

section Basic
variable {rel : Log → Log → Prop} {α β : Type}

theorem Par.pure (a : α) : Par rel (M.pure a) (M.pure a) := fun _ _ h => ⟨rfl, h⟩

theorem Par.bind {m m' : M α} {f f' : α → M β} (h : Par rel m m') (hf : ∀ a, Par rel (f a) (f' a)) : Par rel (M.bind m f) (M.bind m' f') := by
  intro s s' hs
  have h1 := h s s' hs
  unfold M.bind
  cases hm : m s with
  | ok a t =>
    cases hm' : m' s' with
    | ok a' t' =>
      rw [hm, hm'] at h1
      obtain ⟨rfl, h2⟩ := h1
      exact hf _ _ _ h2
    | _ => rw [hm, hm'] at h1; exact h1.elim
  | throw e t =>
    cases hm' : m' s' with
    | throw e' t' => rw [hm, hm'] at h1; exact h1
    | _ => rw [hm, hm'] at h1; exact h1.elim
  | ub =>
    cases hm' : m' s' with
    | ub => exact trivial
    | _ => rw [hm, hm'] at h1; exact h1.elim
  | fuel =>
    cases hm' : m' s' with
    | fuel => exact trivial
    | _ => rw [hm, hm'] at h1; exact h1.elim

theorem Par.throw (e : Exn) : Par (α := α) rel (fun s => .throw e s) (fun s => .throw e s) := fun _ _ h => ⟨rfl, h⟩
theorem Par.std (msg : String) : Par (α := α) rel (throwStd msg) (throwStd msg) := fun _ _ h => ⟨rfl, h⟩
theorem Par.unexpected (t : Token) : Par (α := α) rel (unexpected t) (unexpected t) := fun _ _ h => ⟨rfl, h⟩
theorem Par.ub : Par (α := α) rel (fun _ => .ub) (fun _ => .ub) := fun _ _ _ => trivial
theorem Par.fuel : Par (α := α) rel (fun _ => .fuel) (fun _ => .fuel) := fun _ _ _ => trivial
theorem Par.getC (p : Path) : Par rel (getC p) (getC p) := fun s s' h => by
  refine ⟨?_, h⟩
  rw [h.heap]
theorem Par.modH (f : Heap → Heap) : Par rel (modH f) (modH f) := fun s s' h => ⟨rfl, by show f _ = f _; rw [h.heap], h.stack, h.log⟩
theorem Par.modC (p : Path) (f : Cell → Cell) : Par rel (modC p f) (modC p f) := fun s s' h => ⟨rfl, by show Heap.upd _ _ _ = Heap.upd _ _ _; rw [h.heap], h.stack, h.log⟩
theorem Par.unset (p : Path) : Par rel (unset p) (unset p) := Par.modC _ _
theorem Par.setNotEmpty (p : Path) : Par rel (setNotEmpty p) (setNotEmpty p) := Par.modC _ _
theorem Par.push (p : Path) : Par rel (pushParser p) (pushParser p) := fun s s' h => ⟨rfl, h.heap, by show _ :: _ = _ :: _; rw [h.stack], h.log⟩
theorem Par.ite {c : Prop} [Decidable c] {a b a' b' : M α} (h1 : Par rel a a') (h2 : Par rel b b') :
    Par rel (if c then a else b) (if c then a' else b') := by
  split <;> assumption
theorem Par.popVal (p : Path) : Par rel (popVal p) (popVal p) := fun s s' h => by
  unfold SJ.popVal
  rw [h.heap]
  split
  · exact ⟨rfl, rfl, h.stack, h.log⟩
  · exact ⟨rfl, h⟩
theorem Par.currentMemberId (p : Path) : Par rel (currentMemberId p) (currentMemberId p) := fun s s' h => by
  unfold SJ.currentMemberId
  rw [h.heap]
  split
  · exact ⟨rfl, h⟩
  · exact ⟨rfl, h⟩

theorem Par.unsetOnThrow {m m' : M α} (p : Path) (h : Par rel m m') : Par rel (unsetOnThrow p m) (unsetOnThrow p m') := by
  intro s s' hs
  have h1 := h s s' hs
  unfold SJ.unsetOnThrow
  cases hm : m s <;> cases hm' : m' s' <;> rw [hm, hm'] at h1 <;> first | exact h1.elim | exact h1 | skip
  obtain ⟨rfl, h2⟩ := h1
  exact ⟨rfl, by dsimp only; rw [h2.heap], h2.stack, h2.log⟩

theorem Par.wrapOnThrow {m m' : M α} (p : Path) (h : Par rel m m') : Par rel (wrapOnThrow p m) (wrapOnThrow p m') := by
  intro s s' hs
  have h1 := h s s' hs
  unfold SJ.wrapOnThrow
  cases hm : m s <;> cases hm' : m' s' <;> rw [hm, hm'] at h1 <;> first | exact h1.elim | exact h1 | skip
  obtain ⟨rfl, h2⟩ := h1
  exact ⟨rfl, by dsimp only; rw [h2.heap], h2.stack, h2.log⟩

theorem Par.unlessEmpty {m m' : M Unit} (p : Path) (h : Par rel m m') : Par rel (unlessEmpty p m) (unlessEmpty p m') :=
  .bind (.getC p) fun _ => .ite (.unset p) h

theorem Par.setValues (p : Path) : ∀ (ms : List (MInfo × Shape)) (n : Nat), Par rel (setValues p n ms) (setValues p n ms)
  | [], _ => .pure _
  | (i, _) :: ms, n => by
    unfold SJ.setValues
    refine .bind (Par.setValues p ms (n + 1)) fun vs => .bind (.getC _) fun c => .ite (.bind (.popVal _) fun v => .pure _) (.ite ?_ (.std _))
    cases i.dflt with
    | none => exact .std _
    | some d => exact .pure _

theorem Par.checkAlt (p : Path) : ∀ (ms : List (MInfo × Shape)) (n : Nat), Par rel (checkAlt p n ms) (checkAlt p n ms)
  | [], _ => .pure _
  | (i, _) :: ms, n => by
    unfold SJ.checkAlt
    exact .bind (Par.checkAlt p ms (n + 1)) fun _ => .bind (.currentMemberId p) fun id => .ite (.pure _)
      (.bind (.getC _) fun c => .ite (.std _) (.pure _))

theorem Par.setAlt (p : Path) : ∀ (ms : List (MInfo × Shape)) (n : Nat), Par rel (setAlt p n ms) (setAlt p n ms)
  | [], _ => .pure _
  | (i, _) :: ms, n => by
    unfold SJ.setAlt
    refine .bind (Par.setAlt p ms (n + 1)) fun r => .bind (.currentMemberId p) fun id => .ite (.pure _)
      (.bind (.getC _) fun c => .ite (.bind (.popVal _) fun v => .pure _) (.ite ?_ (.std _)))
    cases i.dflt with
    | none => exact .std _
    | some d => exact .pure _

theorem Par.checkMembers (p : Path) (ms : List (MInfo × Shape)) : Par rel
    (fun s => match checkMembers s.heap p 0 ms with | some e => .throw (.std e) s | none => .ok () s)
    (fun s => match checkMembers s.heap p 0 ms with | some e => .throw (.std e) s | none => .ok () s) := by
  intro s s' h
  dsimp only
  rw [h.heap]
  cases SJ.checkMembers s.heap p 0 ms with
  | some e => exact ⟨rfl, h⟩
  | none => exact ⟨rfl, h⟩

theorem Par.verdict (v : Verdict) (what : String) : Par rel (verdict v what) (verdict v what) := by
  cases v with
  | accept => exact .pure ()
  | reject => exact .std _
  | throws e => exact .throw e

end Basic

section Callbacks
variable {E E' : Env} {R : Shape} {rel : Log → Log → Prop} (H : Parallel E E' rel)
include H

theorem Par.finishCbVal (p : Path) : Par rel (finishCbVal E p) (finishCbVal E' p) := by
  intro s s' h
  unfold SJ.finishCbVal
  rw [h.heap]
  cases h1 : E.onFinish p with
  | none =>
    cases h2 : E'.onFinish p with
    | none => exact ⟨rfl, h⟩
    | some cb =>
      obtain ⟨⟨hv, _⟩, hr⟩ := H.fRight p cb _ _ (.val (s.heap p).val) h1 h2 h.log
      dsimp only
      rw [hv]
      exact ⟨rfl, h.heap ▸ rfl, h.stack, hr⟩
  | some cb =>
    cases h2 : E'.onFinish p with
    | none =>
      obtain ⟨⟨hv, _⟩, hr⟩ := H.fLeft p cb _ _ (.val (s.heap p).val) h1 h2 h.log
      dsimp only
      rw [hv]
      exact ⟨rfl, h.heap, h.stack, hr⟩
    | some cb' =>
      obtain ⟨hv, hr⟩ := H.fBoth p cb cb' _ _ (.val (s.heap p).val) h1 h2 h.log
      dsimp only
      rw [hv]
      exact Par.verdict _ _ _ _ ⟨h.heap ▸ rfl, h.stack, hr⟩

theorem Par.finishCbParser (sh : Shape) (custom : Bool) (p : Path) : Par rel (finishCbParser E sh custom p) (finishCbParser E' sh custom p) := by
  intro s s' h
  unfold SJ.finishCbParser
  rw [h.heap]
  cases h1 : E.onFinish p with
  | none =>
    cases h2 : E'.onFinish p with
    | none => exact ⟨rfl, h⟩
    | some cb =>
      obtain ⟨⟨hv, hp, hn⟩, hr⟩ := H.fRight p cb _ _ (.parser (snap s.heap p sh)) h1 h2 h.log
      dsimp only
      rw [hv, hp, hn]
      refine ⟨rfl, ?_, h.stack, hr⟩
      cases custom <;> rfl
  | some cb =>
    cases h2 : E'.onFinish p with
    | none =>
      obtain ⟨⟨hv, hp, hn⟩, hr⟩ := H.fLeft p cb _ _ (.parser (snap s.heap p sh)) h1 h2 h.log
      dsimp only
      rw [hv, hp, hn]
      refine ⟨rfl, ?_, h.stack, hr⟩
      cases custom <;> exact h.heap
    | some cb' =>
      obtain ⟨hv, hr⟩ := H.fBoth p cb cb' _ _ (.parser (snap s.heap p sh)) h1 h2 h.log
      dsimp only
      rw [hv]
      exact Par.verdict _ _ _ _ ⟨rfl, h.stack, hr⟩

theorem Par.elementCb (e : Shape) (p : Path) : Par rel (elementCb E e p) (elementCb E' e p) := by
  intro s s' h
  unfold SJ.elementCb
  rw [h.heap]
  cases h1 : E.onElement p with
  | none =>
    cases h2 : E'.onElement p with
    | none => exact ⟨rfl, h⟩
    | some cb =>
      obtain ⟨⟨hv, hp⟩, hr⟩ := H.eRight p cb _ _ (s.heap p).curKey (snap s.heap (.elem :: p) e) h1 h2 h.log
      dsimp only
      rw [hv, hp]
      exact ⟨rfl, rfl, h.stack, hr⟩
  | some cb =>
    cases h2 : E'.onElement p with
    | none =>
      obtain ⟨⟨hv, hp⟩, hr⟩ := H.eLeft p cb _ _ (s.heap p).curKey (snap s.heap (.elem :: p) e) h1 h2 h.log
      dsimp only
      rw [hv, hp]
      exact ⟨rfl, h.heap, h.stack, hr⟩
    | some cb' =>
      obtain ⟨⟨hv, hp⟩, hr⟩ := H.eBoth p cb cb' _ _ (s.heap p).curKey (snap s.heap (.elem :: p) e) h1 h2 h.log
      dsimp only
      rw [hv, hp]
      exact Par.verdict _ _ _ _ ⟨rfl, h.stack, hr⟩

theorem Par.finish (sh : Shape) (p : Path) : Par rel (finish E sh p) (finish E' sh p) := by
  cases sh with
  | value ty => exact .finishCbVal H p
  | ignore => exact .pure ()
  | object k u ms =>
    cases k with
    | auto => exact .unlessEmpty p (.bind (.wrapOnThrow p (.setValues p ms 0)) fun vs => .bind (.modC _ _) fun _ => .finishCbVal H p)
    | plain => exact .unlessEmpty p (.bind (.unsetOnThrow p (.checkMembers p ms)) fun _ => .finishCbParser H _ _ p)
    | custom => exact .unlessEmpty p (.bind (.unsetOnThrow p (.checkMembers p ms)) fun _ => .finishCbParser H _ _ p)
  | union ty tm b ms =>
    cases b with
    | false => exact .unlessEmpty p (.bind (.unsetOnThrow p (.checkAlt p ms 0)) fun _ => .finishCbParser H _ _ p)
    | true =>
      refine .unlessEmpty p (.bind (.wrapOnThrow p (.setAlt p ms 0)) fun r => .bind ?_ fun _ => .finishCbVal H p)
      cases r with
      | none => exact .pure ()
      | some v => exact .modC _ _
  | array b e =>
    cases b with
    | false => exact .finishCbParser H (.array false e) false p
    | true => exact .finishCbVal H p
  | map b e => exact .finishCbParser H (.map b e) false p

theorem Par.loop : ∀ n : Nat, Par rel (popParser E R n) (popParser E' R n) ∧ (∀ p, Par rel (childParsed E R n p) (childParsed E' R n p)) ∧
    (∀ sh p, Par rel (endParsing E R n sh p) (endParsing E' R n sh p)) ∧ Par rel (dispatchMapEnd E R n) (dispatchMapEnd E' R n)
  | 0 => ⟨.fuel, fun _ => .fuel, fun _ _ => .fuel, .fuel⟩
  | n + 1 => by
    obtain ⟨hpop, hch, hend, hmap⟩ := Par.loop n
    refine ⟨?_, ?_, ?_, ?_⟩
    · intro s s' h
      unfold SJ.popParser
      rw [h.stack]
      split
      · exact ⟨rfl, h⟩
      · exact ⟨rfl, h.heap, rfl, h.log⟩
      · exact hch _ _ _ ⟨h.heap, rfl, h.log⟩
    · intro p
      unfold SJ.childParsed
      split
      · exact .ub
      · exact .bind (.popVal _) fun v => .modC _ _
      · exact .elementCb H _ p
      · exact .bind (.elementCb H _ p) fun _ => .bind (.popVal _) fun v => .modC _ _
      · exact .bind (hend _ _) fun _ => .ite (.bind (.getC p) fun c => .ite hmap .ub) (.pure ())
      · exact .pure ()
    · intro sh p
      unfold SJ.endParsing
      exact .bind (.modC _ _) fun _ => .bind (.finish H sh p) fun _ => .bind (.getC p) fun c => .ite hpop (.pure ())
    · intro s s' h
      unfold SJ.dispatchMapEnd
      dsimp only
      rw [h.stack, h.heap]
      split
      · exact ⟨rfl, h⟩
      · split
        · trivial
        · split
          · split
            · exact hend _ _ _ _ ⟨rfl, rfl, h.log⟩
            · exact ⟨rfl, rfl, rfl, h.log⟩
          · exact Par.unexpected _ _ _ h
        · exact hend _ _ _ _ h
        · exact hend _ _ _ _ h
        · exact hend _ _ _ _ h
        · exact Par.unexpected _ _ _ h

theorem Par.onNull (f : Nat) (sh : Shape) (p : Path) : Par rel (onNullBase E R f sh p) (onNullBase E' R f sh p) :=
  .bind (.modH _) fun _ => .bind (.getC p) fun _ => .ite (Par.loop H f).1 (.pure ())

theorem Par.onMember (u : Bool) (ms : List (MInfo × Shape)) (p : Path) (name : Scalar) :
    Par rel (onMember E u ms p name) (onMember E' u ms p name) := by
  unfold SJ.onMember
  refine .bind (.setNotEmpty p) fun _ => .bind (.getC p) fun c => ?_
  cases lookup name 0 ms with
  | some x => exact .ite (.bind (.push _) fun _ => .pure _) .ub
  | none =>
    dsimp only
    rw [H.text]
    exact .ite (.std _) (.ite (.bind (.push _) fun _ => .pure _) .ub)

theorem Par.on (f : Nat) : ∀ (sh : Shape) (p : Path) (t : Token), Par rel (on E R f sh p t) (on E' R f sh p t)
  | .value ty, p, t => by
    cases t with
    | null => simp only [SJ.on]; exact .onNull H f _ p
    | scalar v => simp only [SJ.on]; exact .ite (.bind (.setNotEmpty p) fun _ => .bind (.modC _ _) fun _ => (Par.loop H f).2.2.1 _ p) (.unexpected _)
    | _ => simp only [SJ.on]; exact .unexpected _
  | .ignore, p, t => by
    cases t with
    | null => simp only [SJ.on]; exact .onNull H f _ p
    | scalar v => simp only [SJ.on]; exact .bind (.getC p) fun c => .ite ((Par.loop H f).2.2.1 _ p) (.pure ())
    | mapStart => simp only [SJ.on]; exact .modC _ _
    | arrStart => simp only [SJ.on]; exact .modC _ _
    | mapKey k =>
      simp only [SJ.on]
      refine .bind (.getC p) fun c => ?_
      split
      · exact .pure ()
      · exact .unexpected _
    | mapEnd =>
      simp only [SJ.on]
      refine .bind (.getC p) fun c => ?_
      split
      · exact .bind (.modC _ _) fun _ => .ite ((Par.loop H f).2.2.1 _ p) (.pure ())
      · exact .unexpected _
    | arrEnd =>
      simp only [SJ.on]
      refine .bind (.getC p) fun c => ?_
      split
      · exact .bind (.modC _ _) fun _ => .ite ((Par.loop H f).2.2.1 _ p) (.pure ())
      · exact .unexpected _
  | .object k u ms, p, t => by
    cases t with
    | null => simp only [SJ.on]; exact .onNull H f _ p
    | mapStart => simp only [SJ.on]; exact .modH _
    | mapKey key => simp only [SJ.on]; exact .bind (.onMember H u ms p _) fun _ => .pure ()
    | mapEnd => simp only [SJ.on]; exact (Par.loop H f).2.2.1 _ p
    | _ => simp only [SJ.on]; exact .unexpected _
  | .union ty tm b ms, p, t => by
    cases t with
    | null => simp only [SJ.on]; exact .onNull H f _ p
    | scalar v =>
      simp only [SJ.on]
      refine .ite (.bind (.modH _) fun _ => .bind (.onMember H _ ms p _) fun r => ?_) (.unexpected _)
      cases r with
      | none => exact .pure ()
      | some n => exact .modC _ _
    | mapStart => simp only [SJ.on]; exact .ite (.std _) (.modH _)
    | mapKey key => simp only [SJ.on]; exact .ite (.std _) (.ite (.std _) (.pure ()))
    | mapEnd => simp only [SJ.on]; exact (Par.loop H f).2.2.1 _ p
    | _ => simp only [SJ.on]; exact .unexpected _
  | .array b e, p, t => by
    cases t with
    | null => simp only [SJ.on]; exact .bind (.getC p) fun c => .ite (.onNull H f _ p) (Par.on f e (.elem :: p) .null)
    | scalar v => simp only [SJ.on]; exact .bind (.getC p) fun c => .ite (.unexpected _) (.bind (Par.on f e (.elem :: p) (.scalar v)) fun _ =>
        .bind (.setNotEmpty p) fun _ => (Par.loop H f).2.1 p)
    | mapStart => simp only [SJ.on]; exact .bind (.getC p) fun c => .ite (.unexpected _) (.ite .ub (.bind (.setNotEmpty p) fun _ => .bind (.modH _) fun _ =>
        .bind (.push _) fun _ => Par.on f e (.elem :: p) .mapStart))
    | arrStart => simp only [SJ.on]; exact .bind (.getC p) fun c => .ite (.bind (.modH _) fun _ => .modC _ _) (.ite .ub (.bind (.setNotEmpty p) fun _ =>
        .bind (.modH _) fun _ => .bind (.push _) fun _ => Par.on f e (.elem :: p) .arrStart))
    | arrEnd => simp only [SJ.on]; exact .bind (.modC _ _) fun _ => (Par.loop H f).2.2.1 _ p
    | _ => simp only [SJ.on]; exact .unexpected _
  | .map b e, p, t => by
    cases t with
    | null => simp only [SJ.on]; exact .onNull H f _ p
    | mapStart => simp only [SJ.on]; exact .modH _
    | mapKey key => simp only [SJ.on]; exact .bind (.setNotEmpty p) fun _ => .bind (.getC p) fun c => .ite (.bind (.push _) fun _ => .modC _ _) .ub
    | mapEnd => simp only [SJ.on]; exact (Par.loop H f).2.2.1 _ p
    | _ => simp only [SJ.on]; exact .unexpected _

theorem Par.dispatch (t : Token) : Par rel (dispatch E R t) (dispatch E' R t) := by
  intro s s' h
  unfold SJ.dispatch
  rw [h.stack]
  split
  · exact ⟨rfl, h⟩
  · split
    · trivial
    · exact Par.on H _ _ _ _ _ _ h

theorem Par.run : ∀ ts : List Token, Par rel (run E R ts) (run E' R ts)
  | [] => .pure ()
  | t :: ts => .bind (.dispatch H t) fun _ => Par.run ts

end Callbacks

/-! ## The whole parser -/

def ParP {Y : Yajl} {α : Type} (rel : Log → Log → Prop) (m m' : P Y α) : Prop := ∀ s s', SameBesidesP rel s s' → SameEndP rel (m s) (m' s')

section Session
variable {Y : Yajl} {rel : Log → Log → Prop} {α β : Type}

theorem ParP.pure (a : α) : ParP (Y := Y) rel (P.pure a) (P.pure a) := fun _ _ h => ⟨rfl, h⟩

theorem ParP.bind {m m' : P Y α} {f f' : α → P Y β} (h : ParP rel m m') (hf : ∀ a, ParP rel (f a) (f' a)) : ParP rel (P.bind m f) (P.bind m' f') := by
  intro s s' hs
  have h1 := h s s' hs
  unfold P.bind
  cases hm : m s <;> cases hm' : m' s' <;> rw [hm, hm'] at h1 <;> first | exact h1.elim | exact h1 | skip
  obtain ⟨rfl, h2⟩ := h1
  exact hf _ _ _ h2

variable {E E' : Env} {R : Shape} (H : Parallel E E' rel)
include H

theorem ParP.onToken (t : Token) : ParP rel (onToken Y E R t) (onToken Y E' R t) := by
  intro s s' hs
  have h1 := Par.dispatch (R := R) H t _ _ hs.st
  unfold SJ.onToken
  cases hm : dispatch E R t s.st <;> cases hm' : dispatch E' R t s'.st <;> rw [hm, hm'] at h1 <;> first | exact h1.elim | exact h1 | skip
  · exact ⟨rfl, h1.2, hs.handle, hs.alive, hs.data, hs.len, hs.resetNeeded, hs.err⟩
  · obtain ⟨rfl, h2⟩ := h1
    rename_i e _
    cases e with
    | std msg => exact ⟨rfl, h2, hs.handle, hs.alive, hs.data, hs.len, hs.resetNeeded, rfl⟩
    | other => exact ⟨rfl, h2, hs.handle, hs.alive, hs.data, hs.len, hs.resetNeeded, rfl⟩

theorem ParP.report : ∀ ts : List Token, ParP rel (report Y E R ts) (report Y E' R ts)
  | [] => .pure _
  | t :: ts => .bind (.onToken H t) fun go => by
    cases go with
    | true => exact ParP.report ts
    | false => exact .pure _

theorem ParP.advance (out : Y.H × List Token × Bool) : ParP rel (advance Y E R out) (advance Y E' R out) := by
  refine .bind (.report H _) fun go s s' h => ?_
  cases go with
  | true => exact ⟨rfl, h.st, rfl, rfl, h.data, h.len, h.resetNeeded, h.err⟩
  | false => exact ⟨rfl, h.st, rfl, rfl, h.data, h.len, h.resetNeeded, h.err⟩

theorem ParP.yajlParse : ∀ bs : List UInt8, ParP rel (yajlParse Y E R bs) (yajlParse Y E' R bs)
  | [] => fun s s' h => ⟨h.alive, h⟩
  | b :: bs => fun s s' h => by
    unfold SJ.yajlParse
    rw [h.alive, h.handle]
    split
    · refine ParP.bind (.advance H _) (fun go => ?_) _ _ h
      cases go with
      | true => exact ParP.yajlParse bs
      | false => exact .pure _
    · exact ⟨rfl, h⟩

omit H in
theorem ParP.throwParsingError (m : Mem) : ParP (Y := Y) rel (throwParsingError Y m) (throwParsingError Y m) := by
  intro s s' h
  unfold SJ.throwParsingError
  rw [h.data, h.len, h.err, h.handle]
  split
  · trivial
  · exact ⟨rfl, h⟩

theorem ParP.parse (m : Mem) (p : Ptr) (len : Nat) : ParP rel (parse Y E R m p len) (parse Y E' R m p len) := by
  intro s s' h
  unfold SJ.parse
  split
  · trivial
  · refine ParP.bind (.yajlParse H _) (fun good t t' ht => ?_) _ _ ?_
    · cases good with
      | true => exact ⟨rfl, ht⟩
      | false => exact ParP.throwParsingError m _ _ ⟨ht.st, ht.handle, ht.alive, ht.data, ht.len, rfl, ht.err⟩
    · unfold PSt.renew
      dsimp only
      rw [h.resetNeeded]
      split
      · exact ⟨⟨h.st.heap, rfl, h.st.log⟩, rfl, rfl, rfl, rfl, rfl, rfl⟩
      · exact ⟨h.st, h.handle, h.alive, rfl, rfl, rfl, h.err⟩

theorem ParP.finishDoc (m : Mem) : ParP rel (finishDoc Y E R m) (finishDoc Y E' R m) := by
  intro s s' h
  unfold SJ.finishDoc
  refine ParP.bind (m := yajlComplete Y E R) (m' := yajlComplete Y E' R) ?_ (fun good => ?_) _ _ ⟨h.st, h.handle, h.alive, h.data, h.len, rfl, h.err⟩
  · intro t t' ht
    unfold SJ.yajlComplete
    rw [ht.alive, ht.handle]
    split
    · exact ParP.advance H _ _ _ ht
    · exact ⟨rfl, ht⟩
  · cases good with
    | true =>
      intro t t' ht
      show SameEndP rel (checkDispatcherStack Y t) (checkDispatcherStack Y t')
      unfold SJ.checkDispatcherStack
      rw [ht.st.stack]
      split
      · exact ⟨rfl, ht⟩
      · exact ⟨rfl, ht⟩
    | false => exact ParP.throwParsingError m

theorem ParP.parseAll : ∀ cs : List Chunk, ParP rel (parseAll Y E R cs) (parseAll Y E' R cs)
  | [] => .pure _
  | _ :: cs => .bind (.parse H _ _ _) fun _ => ParP.parseAll cs

theorem ParP.parseDocument (cs : List Chunk) (m : Mem) : ParP rel (parseDocument Y E R cs m) (parseDocument Y E' R cs m) :=
  .bind (.parseAll H cs) fun _ => .finishDoc H m

end Session

/-! ## Instances -/

theorem AddsWatchers.parallel {E E' : Env} (h : AddsWatchers E E') (hi : Independent E) : Parallel E E' (CallsOf E) where
  text := h.text
  fBoth p cb cb' l l' a h1 h2 hr := by
    have : cb' = cb := Option.some.inj (h2.symm.trans (h.finish p cb h1))
    subst this
    refine ⟨?_, ?_⟩
    · rw [hi.finish p _ h1 l', ← hr]
    · unfold CallsOf at *
      rw [List.filter_cons_of_pos (by simp [Call.isOf, h1]), hr]
  fLeft p cb l l' a h1 h2 hr := by rw [h.finish p cb h1] at h2; exact absurd h2 (by simp)
  fRight p cb l l' a h1 h2 hr := by
    refine ⟨h.newFinish p cb h1 h2 _ _, ?_⟩
    unfold CallsOf at *
    rw [List.filter_cons_of_neg (by simp [Call.isOf, h1])]
    exact hr
  eBoth p cb cb' l l' k a h1 h2 hr := by
    have : cb' = cb := Option.some.inj (h2.symm.trans (h.element p cb h1))
    subst this
    refine ⟨?_, ?_⟩
    · rw [hi.element p _ h1 l', ← hr]; exact ⟨rfl, rfl⟩
    · unfold CallsOf at *
      rw [List.filter_cons_of_pos (by simp [Call.isOf, h1]), hr]
  eLeft p cb l l' k a h1 h2 hr := by rw [h.element p cb h1] at h2; exact absurd h2 (by simp)
  eRight p cb l l' k a h1 h2 hr := by
    refine ⟨h.newElement p cb h1 h2 _ _ _, ?_⟩
    unfold CallsOf at *
    rw [List.filter_cons_of_neg (by simp [Call.isOf, h1])]
    exact hr

theorem SameReports.cons {E E' : Env} {l₀ l₀' l l' : Log} (h : SameReports E E' l₀ l₀' l l') (c : Call) :
    SameReports E E' l₀ l₀' (if c.isOf E then c :: l else l) (if c.isOf E' then c :: l' else l') := by
  obtain ⟨cs, rfl, rfl⟩ := h
  refine ⟨c :: cs, ?_, ?_⟩ <;> simp only [List.filter_cons] <;> split <;> rfl

theorem Passive.parallel {E E' : Env} (h : Passive E) (h' : Passive E') (ht : E'.fmtDbl = E.fmtDbl) (l₀ l₀' : Log) :
    Parallel E E' (SameReports E E' l₀ l₀') where
  text := ht
  fBoth p cb cb' l l' a h1 h2 hr := by
    have r := hr.cons (.finish p a)
    simp only [Call.isOf, h1, h2, Option.isSome_some, if_true] at r
    obtain ⟨a1, a2, a3⟩ := h.fin p cb h1 l a
    obtain ⟨b1, b2, b3⟩ := h'.fin p cb' h2 l' a
    refine ⟨?_, r⟩
    cases hx : cb l a; cases hy : cb' l' a
    simp_all
  fLeft p cb l l' a h1 h2 hr := by
    have r := hr.cons (.finish p a)
    simp only [Call.isOf, h1, h2, Option.isSome_some, Option.isSome_none, if_true, Bool.false_eq_true, if_false] at r
    exact ⟨h.fin p cb h1 l a, r⟩
  fRight p cb l l' a h1 h2 hr := by
    have r := hr.cons (.finish p a)
    simp only [Call.isOf, h1, h2, Option.isSome_some, Option.isSome_none, if_true, Bool.false_eq_true, if_false] at r
    exact ⟨h'.fin p cb h2 l' a, r⟩
  eBoth p cb cb' l l' k a h1 h2 hr := by
    have r := hr.cons (.element p k a)
    simp only [Call.isOf, h1, h2, Option.isSome_some, if_true] at r
    obtain ⟨a1, a2⟩ := h.elem p cb h1 l k a
    obtain ⟨b1, b2⟩ := h'.elem p cb' h2 l' k a
    exact ⟨⟨b1.trans a1.symm, b2.trans a2.symm⟩, r⟩
  eLeft p cb l l' k a h1 h2 hr := by
    have r := hr.cons (.element p k a)
    simp only [Call.isOf, h1, h2, Option.isSome_some, Option.isSome_none, if_true, Bool.false_eq_true, if_false] at r
    exact ⟨h.elem p cb h1 l k a, r⟩
  eRight p cb l l' k a h1 h2 hr := by
    have r := hr.cons (.element p k a)
    simp only [Call.isOf, h1, h2, Option.isSome_some, Option.isSome_none, if_true, Bool.false_eq_true, if_false] at r
    exact ⟨h'.elem p cb h2 l' k a, r⟩

theorem WatchesLess.parallel {E E' : Env} (h : WatchesLess E E') (h' : Passive E') : Parallel E E' List.Sublist where
  text := h.text
  fBoth p cb cb' l l' a h1 h2 hr := by
    obtain ⟨a1, a2, a3⟩ := h.passive.fin p cb h1 l a
    obtain ⟨b1, b2, b3⟩ := h'.fin p cb' h2 l' a
    refine ⟨?_, hr.cons_cons _⟩
    cases hx : cb l a; cases hy : cb' l' a
    simp_all
  fLeft p cb l l' a h1 h2 hr := by
    have := h.fewer (.finish p a) (by simp [Call.isOf, h1])
    simp [Call.isOf, h2] at this
  fRight p cb l l' a h1 h2 hr := ⟨h'.fin p cb h2 l' a, hr.cons _⟩
  eBoth p cb cb' l l' k a h1 h2 hr := by
    obtain ⟨a1, a2⟩ := h.passive.elem p cb h1 l k a
    obtain ⟨b1, b2⟩ := h'.elem p cb' h2 l' k a
    exact ⟨⟨b1.trans a1.symm, b2.trans a2.symm⟩, hr.cons_cons _⟩
  eLeft p cb l l' k a h1 h2 hr := by
    have := h.fewer (.element p k a) (by simp [Call.isOf, h1])
    simp [Call.isOf, h2] at this
  eRight p cb l l' k a h1 h2 hr := ⟨h'.elem p cb h2 l' k a, hr.cons _⟩

theorem runParts_parallel {E : Env} {R : Shape} (hE : Passive E) : ∀ parts : List (Env × List Token), (∀ x ∈ parts, WatchesLess x.1 E) →
    Par List.Sublist (runParts R parts) (run E R (parts.flatMap (·.2)))
  | [], _ => .pure ()
  | (F, ts) :: rest, h => by
    have h1 := runParts_parallel (R := R) hE rest fun x hx => h x (List.mem_cons_of_mem _ hx)
    have h2 := Par.run (R := R) ((h _ List.mem_cons_self).parallel hE) ts
    simp only [List.flatMap_cons]
    have e : run E R (ts ++ rest.flatMap (·.2)) = M.bind (run E R ts) fun _ => run E R (rest.flatMap (·.2)) := by
      clear h h1 h2
      induction ts with
      | nil => rfl
      | cons t ts ih =>
        simp only [List.cons_append, run, ih]
        funext s
        unfold M.bind
        cases dispatch E R t s <;> rfl
    rw [e]
    exact .bind h2 fun _ => h1

theorem parseParts_parallel {Y : Yajl} {E : Env} {R : Shape} (hE : Passive E) : ∀ parts : List (Env × Chunk), (∀ x ∈ parts, WatchesLess x.1 E) →
    ParP List.Sublist (parseParts Y R parts) (parseAll Y E R (parts.map (·.2)))
  | [], _ => .pure ()
  | (_, _) :: rest, h => .bind (.parse ((h _ List.mem_cons_self).parallel hE) _ _ _)
      fun _ => parseParts_parallel hE rest fun x hx => h x (List.mem_cons_of_mem _ hx)

theorem SameBesidesP.refl {Y : Yajl} {rel : Log → Log → Prop} (s : PSt Y) (h : rel s.st.log s.st.log) : SameBesidesP rel s s :=
  ⟨⟨rfl, rfl, h⟩, rfl, rfl, rfl, rfl, rfl, rfl⟩

theorem SameEnd.throw_left {α : Type} {rel : Log → Log → Prop} {e : Exn} {s : St} {r r' : Res α} (h : SameEnd rel r r') (hr : r = .throw e s) :
    ∃ s', r' = .throw e s' ∧ SameBesides rel s s' := by
  subst hr
  cases r' with
  | throw e' s' => obtain ⟨rfl, h⟩ := h; exact ⟨s', rfl, h⟩
  | _ => exact h.elim

theorem SameEnd.ok_right {α : Type} {rel : Log → Log → Prop} {a : α} {s' : St} {r r' : Res α} (h : SameEnd rel r r') (hr : r' = .ok a s') :
    ∃ s, r = .ok a s ∧ SameBesides rel s s' := by
  subst hr
  cases r with
  | ok a' s => obtain ⟨rfl, h⟩ := h; exact ⟨s, rfl, h⟩
  | _ => exact h.elim

end SJ
