/-
Running out of memory: what is left of the control state.
-/
import Verif.Proofs.Memory

set_option linter.unusedVariables false

namespace SJ

variable {F : Faults} {E : Env} {R : Shape}

/-- What a new document needs of the old state. -/
structure Fitting (R : Shape) (s : St) : Prop where
  closed : DClosed R s.heap
  root : (s.heap []).disp = true
  arr : ∀ q, (s.heap q).started = true → ∃ st e, R.at q = some (.array st e)

theorem Fitting.ctl {s s' : St} (h : Fitting R s) (hc : SameCtl s.heap s'.heap) : Fitting R s' where
  closed := h.closed.ctl hc
  root := by rw [(hc []).1]; exact h.root
  arr := fun q hq => h.arr q (by rw [(hc q).2] at hq; exact hq)

theorem Ctl.fit {s : St} (h : Ctl R s) : Fitting R s := ⟨h.closed, h.root, h.arr⟩

theorem Fitting.restart {s : St} (h : Fitting R s) : Ctl R s.restart where
  linked := rfl
  valid := fun p hp => by
    rw [show s.restart.stack = [[]] from rfl, List.mem_singleton] at hp
    subst hp
    exact ⟨⟨R, by simp [Shape.at]⟩, h.root⟩
  closed := h.closed
  root := h.root
  arr := h.arr

def ResA.All {α} (I : St → Prop) : ResA α → Prop
  | .ok _ _ s => I s
  | .throw _ _ s => I s
  | .fault _ s => I s
  | .ub => True
  | .fuel => True

namespace MA

/-- Whatever happens, the property stays true. -/
def Always {α} (I : St → Prop) (mA : MA α) : Prop := ∀ n s, I s → (mA n s).All I

variable {I : St → Prop}

theorem Always.pure {α} (a : α) : Always I (pure a) := fun n s h => h
theorem Always.ub {α} : Always (α := α) I (fun _ _ => .ub) := fun n s h => trivial
theorem Always.fuel {α} : Always (α := α) I (fun _ _ => .fuel) := fun n s h => trivial
theorem Always.may (x : Exn) : Always I (may x) := fun n s h => by cases n <;> exact h
theorem Always.alloc : Always I (alloc F) := by cases F <;> first | exact Always.may _ | exact Always.pure _
theorem Always.move : Always I (move F) := by cases F <;> first | exact Always.may _ | exact Always.pure _
theorem Always.store : Always I (store F) := by cases F <;> exact Always.may _

theorem Always.bind {α β} {m : MA α} {f : α → MA β} (hm : Always I m) (hf : ∀ a, Always I (f a)) : Always I (bind m f) := by
  intro n s h
  have := hm n s h
  simp only [MA.bind]
  cases hr : m n s <;> rw [hr] at this
  · exact hf _ _ _ this
  · exact this
  · exact this
  · trivial
  · trivial

theorem Always.ite {α} {c : Prop} [Decidable c] {a b : MA α} (ha : Always I a) (hb : Always I b) : Always I (if c then a else b) := by
  split <;> assumption

theorem Always.lift {α} {m : M α} (h : ∀ s, I s → match m s with | .ok _ s' => I s' | .throw _ s' => I s' | .ub => True | .fuel => True) : Always I (lift F m) := by
  intro n s hs
  have := h s hs
  simp only [MA.lift]
  cases hr : m s <;> rw [hr] at this
  · exact this
  · cases F with
    | memory => cases n <;> exact this
    | user x U => exact this
  · trivial
  · trivial

theorem Always.loc {α} {p : Path} {m : M α} (h : Loc p m) : Always (Fitting R) (MA.lift F m) := by
  refine Always.lift fun s hs => ?_
  have := h s
  cases hr : m s <;> rw [hr] at this
  · exact hs.ctl this.2.ctl
  · exact hs.ctl this.2.ctl
  · trivial
  · trivial

theorem Always.thr {α} (m : String) : Always (α := α) I (MA.lift F (throwStd m)) := Always.lift fun s h => h
theorem Always.unexpected {α} (t : Token) : Always (α := α) I (MA.lift F (SJ.unexpected t)) := Always.lift fun s h => h
theorem Always.modC {p : Path} {f : Cell → Cell} (hf : ∀ c, (f c).disp = c.disp ∧ (f c).started = c.started) : Always (Fitting R) (MA.lift F (SJ.modC p f)) :=
  Always.lift fun s h => h.ctl (SameCtl.upd hf)
theorem resetPart_ctl {U : Path → Option Bool} {a b : Heap} (h : SameCtl a b) : SameCtl a (resetPart U a b) := fun q => by
  unfold resetPart
  rcases U q with _ | _ | _
  · exact ⟨rfl, rfl⟩
  · exact h q
  · exact h q
theorem Always.reset {p : Path} {sh : Shape} : Always (Fitting R) (MA.reset F p sh) := by
  cases F with
  | memory => exact (Always.lift fun s h => h.ctl (resetH_ctl _ _ _) : Always (Fitting R) (MA.lift .memory (SJ.modH (resetH p sh))))
  | user x U =>
    intro n s h
    cases n with
    | zero => exact h.ctl (resetPart_ctl (resetH_ctl _ _ _))
    | succ n => exact h.ctl (resetH_ctl _ _ _)
theorem Always.push {p : Path} : Always (Fitting R) (MA.pushParser F p) :=
  Always.alloc.bind fun _ => Always.lift fun s h => ⟨h.closed, h.root, h.arr⟩

theorem setValues_always (p : Path) : ∀ (ms : List (MInfo × Shape)) (n : Nat), Always (Fitting R) (setValues F p n ms)
  | [], n => Always.pure _
  | (i, sh) :: ms, n => by
    rw [setValues]
    refine (setValues_always p ms (n + 1)).bind fun vs => (Always.loc (Loc.getC p _)).bind fun c => Always.ite ((Always.loc (Loc.popVal _)).bind fun v => Always.move.bind fun _ => Always.pure _) (Always.ite ?_ (Always.thr _))
    cases i.dflt with
    | none => exact Always.thr _
    | some d => exact Always.store.bind fun _ => Always.pure _

theorem setAlt_always (p : Path) : ∀ (ms : List (MInfo × Shape)) (n : Nat), Always (Fitting R) (setAlt F p n ms)
  | [], n => Always.pure _
  | (i, sh) :: ms, n => by
    rw [setAlt]
    refine (setAlt_always p ms (n + 1)).bind fun vs => (Always.loc (Loc.currentMemberId p)).bind fun id => Always.ite (Always.pure _)
      ((Always.loc (Loc.getC p _)).bind fun c => Always.ite ((Always.loc (Loc.popVal _)).bind fun v => Always.move.bind fun _ => Always.pure _) (Always.ite ?_ (Always.thr _)))
    cases i.dflt with
    | none => exact Always.thr _
    | some d => exact Always.store.bind fun _ => Always.pure _

theorem Always.wrap {α} {p : Path} {m : MA α} (h : Always (Fitting R) m) : Always (Fitting R) (wrapOnThrow F p m) := by
  intro n s hs
  have := h n s hs
  simp only [wrapOnThrow]
  cases hr : m n s with
  | ok a k s' => rw [hr] at this; exact this
  | throw e k s' => 
    rw [hr] at this
    cases F with
    | memory => cases k <;> exact Fitting.ctl this (SameCtl.upd fun _ => ⟨rfl, rfl⟩)
    | user x U => exact Fitting.ctl this (SameCtl.upd fun _ => ⟨rfl, rfl⟩)
  | fault e s' => rw [hr] at this; exact Fitting.ctl this (SameCtl.upd fun _ => ⟨rfl, rfl⟩)
  | ub => trivial
  | fuel => trivial

theorem Always.unsets {α} {p : Path} {m : MA α} (h : Always (Fitting R) m) : Always (Fitting R) (unsetOnThrow p m) := by
  intro n s hs
  have := h n s hs
  simp only [unsetOnThrow]
  cases hr : m n s with
  | ok a k s' => rw [hr] at this; exact this
  | throw e k s' => rw [hr] at this; exact Fitting.ctl this (SameCtl.upd fun _ => ⟨rfl, rfl⟩)
  | fault e s' => rw [hr] at this; exact Fitting.ctl this (SameCtl.upd fun _ => ⟨rfl, rfl⟩)
  | ub => trivial
  | fuel => trivial

theorem Always.unless {p : Path} {m : MA Unit} (h : Always (Fitting R) m) : Always (Fitting R) (unlessEmpty F p m) :=
  (Always.loc (Loc.getC p p)).bind fun c => Always.ite (Always.loc (Loc.unset p)) h

theorem finish_always (sh : Shape) (p : Path) : Always (Fitting R) (finish F E sh p) := by
  have hm : ∀ v : Val, Always (Fitting R) (MA.lift F (SJ.modC p fun c => { c with val := v })) := fun v => Always.modC fun _ => ⟨rfl, rfl⟩
  have hv : Always (Fitting R) (MA.lift F (finishCbVal E p)) := Always.loc (Loc.finishCbVal p)
  have hp : ∀ c, Always (Fitting R) (MA.lift F (finishCbParser E sh c p)) := fun c => Always.loc (Loc.finishCbParser sh c p)
  cases sh with
  | value ty => exact hv
  | ignore => exact Always.pure _
  | object k u ms =>
    have hc : Always (Fitting R) (MA.lift F (fun s => match checkMembers s.heap p 0 ms with | some e => .throw (.std e) s | none => .ok () s) : MA Unit) :=
      Always.lift fun s h => by cases checkMembers s.heap p 0 ms <;> exact h
    cases k with
    | auto => exact ((setValues_always p ms 0).wrap.bind fun vs => (hm (.tup vs)).bind fun _ => hv).unless
    | plain => exact (hc.unsets.bind fun _ => hp _).unless
    | custom => exact (hc.unsets.bind fun _ => hp _).unless
  | union ty tm st ms =>
    cases st with
    | false => exact ((Always.loc (Loc.checkAlt p ms 0)).unsets.bind fun _ => hp _).unless
    | true =>
      refine ((setAlt_always p ms 0).wrap.bind fun r => Always.bind ?_ fun _ => hv).unless
      cases r with
      | none => exact Always.pure _
      | some v => exact Always.modC fun _ => ⟨rfl, rfl⟩
  | array st e =>
    cases st with
    | true => exact hv
    | false => exact hp _
  | map st e => exact hp _

theorem chain_always : ∀ f : Nat, Always (Fitting R) (popParser F E R f) ∧ (∀ p, Always (Fitting R) (childParsed F E R f p)) ∧
    (∀ sh p, Always (Fitting R) (endParsing F E R f sh p)) ∧ Always (Fitting R) (dispatchMapEnd F E R f)
  | 0 => by
    refine ⟨?_, fun p => ?_, fun sh p => ?_, ?_⟩
    · rw [popParser]; exact Always.fuel
    · rw [childParsed]; exact Always.fuel
    · rw [endParsing]; exact Always.fuel
    · rw [dispatchMapEnd]; exact Always.fuel
  | f + 1 => by
    obtain ⟨hpop, hch, hend, hme⟩ := chain_always f
    refine ⟨?_, fun p => ?_, fun sh p => ?_, ?_⟩
    · intro n s h
      simp only [popParser]
      cases hs : s.stack with
      | nil => exact Always.thr _ n s h
      | cons q r =>
        cases r with
        | nil => exact Fitting.ctl h (SameCtl.refl _)
        | cons q' r => exact hch q' _ _ (Fitting.ctl h (SameCtl.refl _))
    · have hm : ∀ g : Cell → Val, Always (Fitting R) (MA.lift F (SJ.modC p fun c => { c with val := g c })) := fun g => Always.modC fun _ => ⟨rfl, rfl⟩
      rw [childParsed]
      cases R.at p with
      | none => exact Always.ub
      | some sh =>
        cases sh with
        | value ty => exact Always.pure _
        | ignore => exact Always.pure _
        | object k u ms => exact Always.pure _
        | union ty tm st ms =>
          exact (hend _ _).bind fun _ => Always.ite ((Always.loc (Loc.getC p p)).bind fun c => Always.ite hme Always.ub) (Always.pure _)
        | array st e =>
          cases st with
          | false => exact Always.pure _
          | true => exact (Always.loc (Loc.popVal _)).bind fun v => Always.store.bind fun _ => hm _
        | map st e =>
          cases st with
          | false => exact Always.loc (Loc.elementCb e p)
          | true => exact (Always.loc (Loc.elementCb e p)).bind fun _ => (Always.loc (Loc.popVal _)).bind fun v => Always.store.bind fun _ => hm _
    · rw [endParsing]
      have hm : Always (Fitting R) (MA.lift F (SJ.modC p fun c => { c with set := true })) := Always.modC fun _ => ⟨rfl, rfl⟩
      exact hm.bind fun _ => (finish_always sh p).bind fun _ => (Always.loc (Loc.getC p p)).bind fun c => Always.ite hpop (Always.pure _)
    · intro n s h
      simp only [dispatchMapEnd]
      cases hs : s.stack with
      | nil => exact Always.thr _ n s h
      | cons p r =>
        simp only
        cases R.at p with
        | none => exact Always.ub (I := Fitting R) (α := Unit) n s h
        | some sh =>
          cases sh with
          | value ty => exact Always.unexpected _ n s h
          | ignore =>
            simp only
            rcases hst : (s.heap p).struct with _ | ⟨_ | _, r⟩
            · exact Always.unexpected _ n s h
            · exact Always.unexpected _ n s h
            · simp only
              split
              · exact hend _ _ _ _ (Fitting.ctl h (SameCtl.upd fun _ => ⟨rfl, rfl⟩))
              · exact (Fitting.ctl h (SameCtl.upd fun _ => ⟨rfl, rfl⟩))
          | object k u ms => exact hend _ _ n s h
          | union ty tm st ms => exact hend _ _ n s h
          | array st e => exact Always.unexpected _ n s h
          | map st e => exact hend _ _ n s h

theorem popParser_always (f : Nat) : Always (Fitting R) (popParser F E R f) := (chain_always f).1
theorem childParsed_always (f : Nat) (p) : Always (Fitting R) (childParsed F E R f p) := (chain_always f).2.1 p
theorem endParsing_always (f : Nat) (sh p) : Always (Fitting R) (endParsing F E R f sh p) := (chain_always f).2.2.1 sh p

theorem onNullBase_always (f : Nat) (sh p) : Always (Fitting R) (onNullBase F E R f sh p) :=
  Always.reset.bind fun _ => (Always.loc (Loc.getC p p)).bind fun c => Always.ite (popParser_always f) (Always.pure _)

theorem onMember_always (u ms p x) : Always (Fitting R) (onMember F E u ms p x) := by
  refine (Always.loc (Loc.setNotEmpty p)).bind fun _ => (Always.loc (Loc.getC p p)).bind fun c => ?_
  cases lookup x 0 ms with
  | none => exact Always.ite (Always.thr _) (Always.ite (Always.push.bind fun _ => Always.pure _) Always.ub)
  | some y => exact Always.ite (Always.push.bind fun _ => Always.pure _) Always.ub

theorem Always.setDisp {p : Path} {sh : Shape} (hR : R.at p = some sh) : Always (Fitting R) (MA.lift F (SJ.modH (setDispH p sh))) :=
  Always.lift fun s h => ⟨h.closed.setDispH hR, (setDispH_only sh p s.heap).mono h.root, fun q hq => h.arr q (by
    change (setDispH p sh s.heap q).started = true at hq
    rw [(setDispH_only sh p s.heap).started] at hq; exact hq)⟩

theorem Always.start {p : Path} {st e b} (hR : R.at p = some (.array st e)) : Always (Fitting R) (MA.lift F (SJ.modC p fun c => { c with started := b })) :=
  Always.lift fun s h => by
    refine ⟨h.closed.congr fun q => upd_started_disp q, ?_, fun q hq => ?_⟩
    · show ((s.heap.upd p fun c => { c with started := b }) []).disp = true
      rw [upd_started_disp]; exact h.root
    · by_cases hqp : q = p
      · exact ⟨st, e, hqp ▸ hR⟩
      · refine h.arr q ?_
        dsimp only at hq
        rw [upd_other hqp] at hq
        exact hq

theorem at_elem_of {p : Path} {st e} (hR : R.at p = some (.array st e)) : R.at (.elem :: p) = some e := by simp [Shape.at, hR, Shape.child]

theorem on_always (f : Nat) : ∀ (sh : Shape) (p : Path) (t : Token), R.at p = some sh → Always (Fitting R) (on F E R f sh p t)
  | .value ty, p, t, hR => by
    cases t <;> simp only [on] <;> try exact Always.unexpected _
    · exact onNullBase_always f _ p
    · refine Always.ite ((Always.loc (Loc.setNotEmpty p)).bind fun _ => ?_) (Always.unexpected _)
      have hm : ∀ v, Always (Fitting R) (MA.lift F (SJ.modC p fun c => { c with val := v })) := fun v => Always.modC fun _ => ⟨rfl, rfl⟩
      exact Always.bind (Always.ite Always.alloc (Always.pure _)) fun _ => (hm _).bind fun _ => endParsing_always f _ _
  | .ignore, p, t, hR => by
    have hm : ∀ g : Cell → List Bool, Always (Fitting R) (MA.lift F (SJ.modC p fun c => { c with struct := g c })) := fun g => Always.modC fun _ => ⟨rfl, rfl⟩
    cases t <;> simp only [on]
    · exact onNullBase_always f _ p
    · exact (Always.loc (Loc.getC p p)).bind fun c => Always.ite (endParsing_always f _ _) (Always.pure _)
    · exact Always.alloc.bind fun _ => hm _
    · refine (Always.loc (Loc.getC p p)).bind fun c => ?_
      rcases c.struct with _ | ⟨_ | _, r⟩
      · exact Always.unexpected _
      · exact Always.unexpected _
      · exact Always.pure _
    · refine (Always.loc (Loc.getC p p)).bind fun c => ?_
      rcases c.struct with _ | ⟨_ | _, r⟩
      · exact Always.unexpected _
      · exact Always.unexpected _
      · exact (hm _).bind fun _ => Always.ite (endParsing_always f _ _) (Always.pure _)
    · exact Always.alloc.bind fun _ => hm _
    · refine (Always.loc (Loc.getC p p)).bind fun c => ?_
      rcases c.struct with _ | ⟨_ | _, r⟩
      · exact Always.unexpected _
      · exact (hm _).bind fun _ => Always.ite (endParsing_always f _ _) (Always.pure _)
      · exact Always.unexpected _
  | .object k u ms, p, t, hR => by
    cases t <;> simp only [on] <;> try exact Always.unexpected _
    · exact onNullBase_always f _ p
    · exact Always.reset
    · exact (onMember_always _ _ _ _).bind fun _ => Always.pure _
    · exact endParsing_always f _ _
  | .union ty tm st ms, p, t, hR => by
    cases t <;> simp only [on] <;> try exact Always.unexpected _
    · exact onNullBase_always f _ p
    · refine Always.ite (Always.reset.bind fun _ => (onMember_always _ _ _ _).bind fun r => ?_) (Always.unexpected _)
      cases r with
      | none => exact Always.pure _
      | some n => exact Always.modC fun _ => ⟨rfl, rfl⟩
    · exact Always.ite (Always.thr _) Always.reset
    · exact Always.ite (Always.thr _) (Always.ite (Always.thr _) (Always.pure _))
    · exact endParsing_always f _ _
  | .array st e, p, t, hR => by
    have hg : Always (Fitting R) (MA.lift F (SJ.getC p)) := Always.loc (Loc.getC p p)
    have hn : Always (Fitting R) (MA.lift F (SJ.setNotEmpty p)) := Always.loc (Loc.setNotEmpty p)
    cases t <;> simp only [on] <;> try exact Always.unexpected _
    · exact hg.bind fun c => Always.ite (onNullBase_always f _ p) (on_always f e _ _ (at_elem_of hR))
    · exact hg.bind fun c => Always.ite (Always.unexpected _) ((on_always f e _ _ (at_elem_of hR)).bind fun _ => hn.bind fun _ => childParsed_always f p)
    · exact hg.bind fun c => Always.ite (Always.unexpected _) (Always.ite Always.ub (hn.bind fun _ => (Always.setDisp (at_elem_of hR)).bind fun _ =>
        Always.push.bind fun _ => on_always f e _ _ (at_elem_of hR)))
    · exact hg.bind fun c => Always.ite (Always.reset.bind fun _ => Always.start hR) (Always.ite Always.ub (hn.bind fun _ => (Always.setDisp (at_elem_of hR)).bind fun _ =>
        Always.push.bind fun _ => on_always f e _ _ (at_elem_of hR)))
    · exact (Always.start hR).bind fun _ => endParsing_always f _ _
  | .map st e, p, t, hR => by
    cases t <;> simp only [on] <;> try exact Always.unexpected _
    · exact onNullBase_always f _ p
    · exact Always.reset
    · exact (Always.loc (Loc.setNotEmpty p)).bind fun _ => (Always.loc (Loc.getC p p)).bind fun c => Always.ite (Always.push.bind fun _ => Always.alloc.bind fun _ =>
        Always.modC fun _ => ⟨rfl, rfl⟩) Always.ub
    · exact endParsing_always f _ _

theorem dispatch_always (t : Token) : Always (Fitting R) (dispatch F E R t) := by
  intro n s h
  simp only [dispatch]
  cases hs : s.stack with
  | nil => exact Always.thr _ n s h
  | cons p r =>
    simp only
    cases hR : R.at p with
    | none => trivial
    | some sh => exact on_always _ sh p t hR n s h

theorem run_always : ∀ ts : List Token, Always (Fitting R) (run F E R ts)
  | [] => Always.pure _
  | t :: ts => (dispatch_always t).bind fun _ => run_always ts

end MA

end SJ
