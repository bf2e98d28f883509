/-
Values pass through the library untouched and unseen (C65).
-/
import Verif.SpecThrough
import Verif.Proofs.Denote
import Verif.Proofs.Rename

set_option linter.unusedVariables false

namespace SJ

namespace Thr

variable {r : Scalar → Scalar → Prop} {Q : Exn → Exn → Prop} {R : Shape} {E E' : Env} {α β γ δ : Type}

/-- The two computations have outcomes that are alike from states that are alike. -/
def Both (r : Scalar → Scalar → Prop) (Q : Exn → Exn → Prop) (P : α → β → Prop) (m : M α) (m' : M β) : Prop :=
  ∀ s s', StateAlike r s s' → ResultAlike r Q P (m s) (m' s')

theorem Both.pure {P : α → β → Prop} {a b} (h : P a b) : Both r Q P (M.pure a) (M.pure b) := fun s s' hs => .ok h hs

theorem Both.bind {P : α → β → Prop} {P' : γ → δ → Prop} {m m'} {f : α → M γ} {f' : β → M δ} (h : Both r Q P m m')
    (hf : ∀ a b, P a b → Both r Q P' (f a) (f' b)) : Both r Q P' (M.bind m f) (M.bind m' f') := by
  intro s s' hs
  have := h s s' hs
  unfold M.bind
  revert this
  generalize m s = x
  generalize m' s' = x'
  intro this
  cases this with
  | ok hp h1 => exact hf _ _ hp _ _ h1
  | throw e h1 => exact .throw e h1
  | ub => exact .ub
  | fuel => exact .fuel

theorem Both.weaken {P : α → β → Prop} {Q' : Exn → Exn → Prop} {m m'} (h : Both r Q P m m') (hq : ∀ e e', Q e e' → Q' e e') : Both r Q' P m m' := by
  intro s s' hs
  have := h s s' hs
  revert this
  generalize m s = x
  generalize m' s' = x'
  intro this
  cases this with
  | ok hp h1 => exact .ok hp h1
  | throw e h1 => exact .throw (hq _ _ e) h1
  | ub => exact .ub
  | fuel => exact .fuel

theorem Both.bad {P : α → β → Prop} : Both r Q P (fun _ => (.ub : Res α)) (fun _ => .ub) := fun s s' h => .ub
theorem Both.spent {P : α → β → Prop} : Both r Q P (fun _ => (.fuel : Res α)) (fun _ => .fuel) := fun s s' h => .fuel

variable (hQ : ∀ e, Q e e)

include hQ in
theorem Both.throwStd {P : α → β → Prop} (msg : String) : Both r Q P (SJ.throwStd msg) (SJ.throwStd msg) := fun s s' h => .throw (hQ _) h

theorem ty_kind {x y : Scalar} (h : x.ty = y.ty) : (Token.scalar x).kind = (Token.scalar y).kind := by
  cases x <;> cases y <;> simp [Scalar.ty] at h <;> rfl

include hQ in
theorem Both.unexpected {P : α → β → Prop} (t : Token) : Both r Q P (SJ.unexpected t) (SJ.unexpected t) := fun s s' h => .throw (hQ _) h

theorem Both.getC (p : Path) : Both r Q (CellAlike r) (SJ.getC p) (SJ.getC p) := fun s s' h => .ok (h.cells p) h

theorem cells_upd {h h' : Heap} (hh : ∀ p, CellAlike r (h p) (h' p)) (p : Path) {f f' : Cell → Cell} (hf : ∀ c c', CellAlike r c c' → CellAlike r (f c) (f' c')) :
    ∀ q, CellAlike r (h.upd p f q) (h'.upd p f' q) := by
  intro q
  unfold Heap.upd
  split
  · exact hf _ _ (hh q)
  · exact hh q

theorem Both.modC (p : Path) {f f' : Cell → Cell} (hf : ∀ c c', CellAlike r c c' → CellAlike r (f c) (f' c')) : Both r Q (fun _ _ => True) (SJ.modC p f) (SJ.modC p f') :=
  fun s s' h => .ok trivial ⟨h.stack, cells_upd h.cells p hf, h.calls⟩

theorem baseReset_alike {c c' : Cell} (h : CellAlike r c c') : CellAlike r c.baseReset c'.baseReset := ⟨h.disp, rfl, rfl, h.val, h.started, h.curKey, h.curId, h.struct⟩
theorem struct_alike {c c' : Cell} (h : CellAlike r c c') : CellAlike r { c.baseReset with struct := [] } { c'.baseReset with struct := [] } :=
  ⟨h.disp, rfl, rfl, h.val, h.started, h.curKey, h.curId, rfl⟩
theorem val_alike {v v' : Val} (hv : ValAlike r v v') {c c' : Cell} (h : CellAlike r c c') : CellAlike r { c with val := v } { c' with val := v' } :=
  ⟨h.disp, h.set, h.empty, hv, h.started, h.curKey, h.curId, h.struct⟩
theorem curId_alike (n : Nat) {c c' : Cell} (h : CellAlike r c c') : CellAlike r { c with curId := n } { c' with curId := n } :=
  ⟨h.disp, h.set, h.empty, h.val, h.started, h.curKey, rfl, h.struct⟩
theorem disp_alike {c c' : Cell} (h : CellAlike r c c') : CellAlike r { c with disp := true } { c' with disp := true } :=
  ⟨rfl, h.set, h.empty, h.val, h.started, h.curKey, h.curId, h.struct⟩
theorem set_alike (b : Bool) {c c' : Cell} (h : CellAlike r c c') : CellAlike r { c with set := b } { c' with set := b } :=
  ⟨h.disp, rfl, h.empty, h.val, h.started, h.curKey, h.curId, h.struct⟩
theorem empty_alike {c c' : Cell} (h : CellAlike r c c') : CellAlike r { c with empty := false } { c' with empty := false } :=
  ⟨h.disp, h.set, rfl, h.val, h.started, h.curKey, h.curId, h.struct⟩
theorem started_alike (b : Bool) {c c' : Cell} (h : CellAlike r c c') : CellAlike r { c with started := b } { c' with started := b } :=
  ⟨h.disp, h.set, h.empty, h.val, rfl, h.curKey, h.curId, h.struct⟩
theorem push_alike (b : Bool) {c c' : Cell} (h : CellAlike r c c') : CellAlike r { c with struct := b :: c.struct } { c' with struct := b :: c'.struct } :=
  ⟨h.disp, h.set, h.empty, h.val, h.started, h.curKey, h.curId, by rw [h.struct]⟩
theorem levels_alike (l : List Bool) {c c' : Cell} (h : CellAlike r c c') : CellAlike r { c with struct := l } { c' with struct := l } :=
  ⟨h.disp, h.set, h.empty, h.val, h.started, h.curKey, h.curId, rfl⟩
theorem key_alike (k : String) {c c' : Cell} (h : CellAlike r c c') : CellAlike r { c with curKey := k } { c' with curKey := k } :=
  ⟨h.disp, h.set, h.empty, h.val, h.started, rfl, h.curId, h.struct⟩
theorem moved_alike {c c' : Cell} (h : CellAlike r c c') : CellAlike r { c with set := false, val := .moved } { c' with set := false, val := .moved } :=
  ⟨h.disp, rfl, h.empty, .moved, h.started, h.curKey, h.curId, h.struct⟩

mutual
theorem cells_resetH : ∀ (sh : Shape) (p : Path) {h h' : Heap}, (∀ p, CellAlike r (h p) (h' p)) → ∀ q, CellAlike r (resetH p sh h q) (resetH p sh h' q)
  | .value _, p, h, h', hh => cells_upd hh p fun _ _ => baseReset_alike
  | .ignore, p, h, h', hh => cells_upd hh p fun _ _ => struct_alike
  | .object k _ ms, p, h, h', hh => by
    have := cells_upd (cells_resetMs ms p 0 (cells_upd hh p fun _ _ => baseReset_alike)) (.ign :: p) fun _ _ => struct_alike
    cases k <;> simp only [resetH]
    · exact this
    · exact cells_upd this p fun _ _ => val_alike .init
    · exact cells_upd this p fun _ _ => val_alike .init
  | .union _ _ st ms, p, h, h', hh => by
    have := cells_upd (cells_resetMs ms p 0 (cells_upd (cells_upd hh p fun _ _ => curId_alike 0) p fun _ _ => baseReset_alike)) (.ign :: p) fun _ _ => struct_alike
    cases st <;> simp only [resetH, Bool.false_eq_true, if_false, if_true]
    · exact this
    · exact cells_upd this p fun _ _ => val_alike .init
  | .array st e, p, h, h', hh => by
    have := cells_resetH e (.elem :: p) (cells_upd hh p fun _ _ => baseReset_alike)
    cases st <;> simp only [resetH, Bool.false_eq_true, if_false, if_true]
    · exact this
    · exact cells_upd this p fun _ _ => val_alike (.arr .nil)
  | .map st e, p, h, h', hh => by
    have := cells_upd hh p fun _ _ => baseReset_alike
    cases st <;> simp only [resetH, Bool.false_eq_true, if_false, if_true]
    · exact this
    · exact cells_upd this p fun _ _ => val_alike (.map .nil)
theorem cells_resetMs : ∀ (ms : List (MInfo × Shape)) (p : Path) (n : Nat) {h h' : Heap}, (∀ p, CellAlike r (h p) (h' p)) →
    ∀ q, CellAlike r (resetMs p n ms h q) (resetMs p n ms h' q)
  | [], p, n, h, h', hh => hh
  | (_, sh) :: ms, p, n, h, h', hh => by simp only [resetMs]; exact cells_resetMs ms p (n + 1) (cells_resetH sh (.mem n :: p) hh)
end

mutual
theorem cells_setDispH : ∀ (sh : Shape) (p : Path) {h h' : Heap}, (∀ p, CellAlike r (h p) (h' p)) → ∀ q, CellAlike r (setDispH p sh h q) (setDispH p sh h' q)
  | .value _, p, h, h', hh => cells_upd hh p fun _ _ => disp_alike
  | .ignore, p, h, h', hh => cells_upd hh p fun _ _ => disp_alike
  | .array _ _, p, h, h', hh => cells_upd hh p fun _ _ => disp_alike
  | .object _ _ ms, p, h, h', hh => by
    simp only [setDispH]; exact cells_upd (cells_setDispMs ms p 0 (cells_upd hh p fun _ _ => disp_alike)) (.ign :: p) fun _ _ => disp_alike
  | .union _ _ _ ms, p, h, h', hh => by
    simp only [setDispH]; exact cells_upd (cells_setDispMs ms p 0 (cells_upd hh p fun _ _ => disp_alike)) (.ign :: p) fun _ _ => disp_alike
  | .map _ e, p, h, h', hh => by simp only [setDispH]; exact cells_setDispH e (.elem :: p) (cells_upd hh p fun _ _ => disp_alike)
theorem cells_setDispMs : ∀ (ms : List (MInfo × Shape)) (p : Path) (n : Nat) {h h' : Heap}, (∀ p, CellAlike r (h p) (h' p)) →
    ∀ q, CellAlike r (setDispMs p n ms h q) (setDispMs p n ms h' q)
  | [], p, n, h, h', hh => hh
  | (_, sh) :: ms, p, n, h, h', hh => by simp only [setDispMs]; exact cells_setDispMs ms p (n + 1) (cells_setDispH sh (.mem n :: p) hh)
end

theorem Both.reset (p : Path) (sh : Shape) : Both r Q (fun _ _ => True) (SJ.modH (resetH p sh)) (SJ.modH (resetH p sh)) :=
  fun s s' h => .ok trivial ⟨h.stack, cells_resetH sh p h.cells, h.calls⟩

theorem Both.setDisp (p : Path) (sh : Shape) : Both r Q (fun _ _ => True) (SJ.modH (setDispH p sh)) (SJ.modH (setDispH p sh)) :=
  fun s s' h => .ok trivial ⟨h.stack, cells_setDispH sh p h.cells, h.calls⟩

theorem Both.setNotEmpty (p : Path) : Both r Q (fun _ _ => True) (SJ.setNotEmpty p) (SJ.setNotEmpty p) := Both.modC p fun _ _ => empty_alike

include hQ in
theorem Both.popVal (p : Path) : Both r Q (ValAlike r) (SJ.popVal p) (SJ.popVal p) := fun s s' h => by
  unfold SJ.popVal
  rw [(h.cells p).set]
  split
  · exact .ok (h.cells p).val ⟨h.stack, cells_upd h.cells p fun _ _ => moved_alike, h.calls⟩
  · exact .throw (hQ _) h

include hQ in
theorem Both.get (p : Path) : Both r Q (ValAlike r) (SJ.get p) (SJ.get p) := fun s s' h => by
  unfold SJ.get
  rw [(h.cells p).set]
  split
  · exact .ok (h.cells p).val h
  · exact .throw (hQ _) h

include hQ in
theorem Both.currentMemberId (p : Path) : Both r Q (· = ·) (SJ.currentMemberId p) (SJ.currentMemberId p) := fun s s' h => by
  unfold SJ.currentMemberId
  rw [(h.cells p).set, (h.cells p).curId]
  split
  · exact .ok rfl h
  · exact .throw (hQ _) h

theorem Both.push (p : Path) : Both r Q (fun _ _ => True) (pushParser p) (pushParser p) := fun s s' h => .ok trivial ⟨by simp only [h.stack], h.cells, h.calls⟩

theorem cells_pops (sh : Shape) (p : Path) : ∀ (qs : List Path) {h h' : Heap}, (∀ p, CellAlike r (h p) (h' p)) → ∀ q, CellAlike r (cbPops sh p qs h q) (cbPops sh p qs h' q)
  | [], h, h', hh => hh
  | rel :: qs, h, h', hh => by
    simp only [cbPops, (hh (rel ++ p)).set]
    cases sh.at rel with
    | none => exact cells_pops sh p qs hh
    | some sh' =>
      simp only
      by_cases hc : (sh'.isStorage && (h' (rel ++ p)).set) = true
      · simp only [if_pos hc]; exact cells_pops sh p qs (cells_upd hh _ fun _ _ => moved_alike)
      · simp only [if_neg hc]; exact cells_pops sh p qs hh

include hQ in
theorem Both.verdict (v : Verdict) (msg : String) : Both r Q (fun _ _ => True) (SJ.verdict v msg) (SJ.verdict v msg) := by
  cases v with
  | accept => exact Both.pure trivial
  | reject => exact Both.throwStd hQ _
  | throws e => exact fun s s' h => .throw (hQ e) h

theorem seen_alike {b : Bool} {v v' : Val} (h : ValAlike r v v') : OptAlike r (if b then some v else none) (if b then some v' else none) := by
  cases b
  · exact .none
  · exact .some h

mutual
theorem snap_alike {h h' : Heap} (hh : ∀ p, CellAlike r (h p) (h' p)) : ∀ (sh : Shape) (p : Path), SnapAlike r (snap h p sh) (snap h' p sh)
  | .value _, p => by simp only [snap, (hh p).set, (hh p).empty]; exact .node (seen_alike (hh p).val) .nil
  | .ignore, p => by simp only [snap, (hh p).set, (hh p).empty]; exact .node .none .nil
  | .object k _ ms, p => by simp only [snap, (hh p).set, (hh p).empty]; exact .node (seen_alike (hh p).val) (snapMs_alike hh ms p 0)
  | .union _ _ st ms, p => by simp only [snap, (hh p).set, (hh p).empty, (hh p).curId]; exact .node (seen_alike (hh p).val) (snapMs_alike hh ms p 0)
  | .array st e, p => by simp only [snap, (hh p).set, (hh p).empty]; exact .node (seen_alike (hh p).val) (.cons (snap_alike hh e _) .nil)
  | .map st e, p => by simp only [snap, (hh p).set, (hh p).empty]; exact .node (seen_alike (hh p).val) (.cons (snap_alike hh e _) .nil)
theorem snapMs_alike {h h' : Heap} (hh : ∀ p, CellAlike r (h p) (h' p)) : ∀ (ms : List (MInfo × Shape)) (p : Path) (n : Nat), SnapsAlike r (snapMs h p n ms) (snapMs h' p n ms)
  | [], p, n => .nil
  | (_, sh) :: ms, p, n => .cons (snap_alike hh sh _) (snapMs_alike hh ms p (n + 1))
end

section
variable (hE : EnvAlike r E E')
include hE hQ

theorem Both.finishCbVal (p : Path) : Both r Q (fun _ _ => True) (finishCbVal E p) (finishCbVal E' p) := fun s s' h => by
  unfold SJ.finishCbVal
  rcases hE.finish p with ⟨h1, h2⟩ | ⟨cb, cb', h1, h2, h3⟩
  · rw [h1, h2]; exact .ok trivial h
  · rw [h1, h2]
    simp only
    have ha : ArgAlike r (.val (s.heap p).val) (.val (s'.heap p).val) := .val (h.cells p).val
    rw [(h3 _ _ _ _ h.calls ha).verdict]
    exact Both.verdict hQ _ _ _ _ ⟨h.stack, h.cells, .cons (.finish ha) h.calls⟩

theorem Both.finishCbParser (sh : Shape) (c : Bool) (p : Path) : Both r Q (fun _ _ => True) (finishCbParser E sh c p) (finishCbParser E' sh c p) := fun s s' h => by
  unfold SJ.finishCbParser
  rcases hE.finish p with ⟨h1, h2⟩ | ⟨cb, cb', h1, h2, h3⟩
  · rw [h1, h2]; exact .ok trivial h
  · rw [h1, h2]
    simp only
    have ha : ArgAlike r (.parser (snap s.heap p sh)) (.parser (snap s'.heap p sh)) := .parser (snap_alike h.cells sh p)
    have hb := h3 _ _ _ _ h.calls ha
    rw [hb.verdict, hb.pops]
    refine Both.verdict hQ _ _ _ _ ⟨h.stack, ?_, .cons (.finish ha) h.calls⟩
    have hp := cells_pops sh p (cb' s'.log (.parser (snap s'.heap p sh))).pops h.cells
    cases c with
    | false => exact hp
    | true =>
      have hn := hb.newVal
      revert hn
      generalize (cb s.log (.parser (snap s.heap p sh))).newVal = x
      generalize (cb' s'.log (.parser (snap s'.heap p sh))).newVal = y
      intro hn
      cases hn with
      | none => exact hp
      | some hv => exact cells_upd hp p fun _ _ => val_alike hv

theorem Both.elementCb (e : Shape) (p : Path) : Both r Q (fun _ _ => True) (elementCb E e p) (elementCb E' e p) := fun s s' h => by
  unfold SJ.elementCb
  rcases hE.element p with ⟨h1, h2⟩ | ⟨cb, cb', h1, h2, h3⟩
  · rw [h1, h2]; exact .ok trivial h
  · rw [h1, h2]
    simp only [(h.cells p).curKey]
    have ha := snap_alike h.cells e (.elem :: p)
    have hb := h3 _ _ (s'.heap p).curKey _ _ h.calls ha
    rw [hb.verdict, hb.pops]
    exact Both.verdict hQ _ _ _ _ ⟨h.stack, cells_pops e _ _ h.cells, .cons (.element ha) h.calls⟩
end

theorem checkMembers_alike {h h' : Heap} (hh : ∀ p, CellAlike r (h p) (h' p)) (p : Path) : ∀ (ms : List (MInfo × Shape)) (n : Nat), checkMembers h p n ms = checkMembers h' p n ms
  | [], n => rfl
  | (i, _) :: ms, n => by simp only [checkMembers, checkMembers_alike hh p ms, (hh (.mem n :: p)).set]

theorem Both.setValues (p : Path) : ∀ (ms : List (MInfo × Shape)) (n : Nat), (∀ i m v, (i, m) ∈ ms → i.dflt = some v → ValAlike r v v) →
    Both r (· = ·) (ValsAlike r) (setValues p n ms) (setValues p n ms)
  | [], n, hd => Both.pure .nil
  | (i, m) :: ms, n, hd => by
    unfold SJ.setValues
    refine (Both.setValues p ms (n + 1) fun i m v hm => hd i m v (List.mem_cons_of_mem _ hm)).bind fun vs vs' hvs => (Both.getC _).bind fun c c' hc => ?_
    rw [hc.set]
    split
    · exact (Both.popVal (fun _ => rfl) _).bind fun v v' hv => Both.pure (.cons hv hvs)
    · split
      · cases hi : i.dflt with
        | none => exact Both.throwStd (fun _ => rfl) _
        | some d => exact Both.pure (.cons (hd i m d (by simp) hi) hvs)
      · exact Both.throwStd (fun _ => rfl) _

include hQ in
theorem Both.checkAlt (p : Path) : ∀ (ms : List (MInfo × Shape)) (n : Nat), Both r Q (fun _ _ => True) (checkAlt p n ms) (checkAlt p n ms)
  | [], n => Both.pure trivial
  | (i, _) :: ms, n => by
    unfold SJ.checkAlt
    refine (Both.checkAlt p ms (n + 1)).bind fun _ _ _ => (Both.currentMemberId hQ _).bind fun id id' hid => ?_
    subst hid
    split
    · exact Both.pure trivial
    · refine (Both.getC _).bind fun c c' hc => ?_
      rw [hc.set]
      split
      · exact Both.throwStd hQ _
      · exact Both.pure trivial

theorem Both.setAlt (p : Path) : ∀ (ms : List (MInfo × Shape)) (n : Nat), (∀ i m v, (i, m) ∈ ms → i.dflt = some v → ValAlike r v v) →
    Both r (· = ·) (OptAlike r) (setAlt p n ms) (setAlt p n ms)
  | [], n, hd => Both.pure .none
  | (i, m) :: ms, n, hd => by
    unfold SJ.setAlt
    refine (Both.setAlt p ms (n + 1) fun i m v hm => hd i m v (List.mem_cons_of_mem _ hm)).bind fun vs vs' hvs => (Both.currentMemberId (fun _ => rfl) _).bind fun id id' hid => ?_
    subst hid
    split
    · exact Both.pure hvs
    · refine (Both.getC _).bind fun c c' hc => ?_
      rw [hc.set]
      split
      · exact (Both.popVal (fun _ => rfl) _).bind fun v v' hv => Both.pure (.some (.alt hv))
      · split
        · cases hi : i.dflt with
          | none => exact Both.throwStd (fun _ => rfl) _
          | some d => exact Both.pure (.some (.alt (hd i m d (by simp) hi)))
        · exact Both.throwStd (fun _ => rfl) _

theorem Both.unlessEmpty (p : Path) {m m' : M Unit} (h : Both r Q (fun _ _ => True) m m') : Both r Q (fun _ _ => True) (SJ.unlessEmpty p m) (SJ.unlessEmpty p m') := by
  unfold SJ.unlessEmpty
  refine (Both.getC p).bind fun c c' hc => ?_
  rw [hc.empty]
  split
  · exact Both.modC p fun _ _ => set_alike false
  · exact h

include hQ in
theorem Both.wrapOnThrow {P : α → β → Prop} (p : Path) {m m'} (h : Both r (· = ·) P m m') : Both r Q P (SJ.wrapOnThrow p m) (SJ.wrapOnThrow p m') := by
  intro s s' hs
  have := h s s' hs
  unfold SJ.wrapOnThrow
  revert this
  generalize m s = x
  generalize m' s' = x'
  intro this
  cases this with
  | ok hp h1 => exact .ok hp h1
  | throw e h1 => subst e; exact .throw (hQ _) ⟨h1.stack, cells_upd h1.cells p fun _ _ => set_alike false, h1.calls⟩
  | ub => exact .ub
  | fuel => exact .fuel

theorem Both.unsetOnThrow {P : α → β → Prop} (p : Path) {m m'} (h : Both r Q P m m') : Both r Q P (SJ.unsetOnThrow p m) (SJ.unsetOnThrow p m') := by
  intro s s' hs
  have := h s s' hs
  unfold SJ.unsetOnThrow
  revert this
  generalize m s = x
  generalize m' s' = x'
  intro this
  cases this with
  | ok hp h1 => exact .ok hp h1
  | throw e h1 => exact .throw e ⟨h1.stack, cells_upd h1.cells p fun _ _ => set_alike false, h1.calls⟩
  | ub => exact .ub
  | fuel => exact .fuel

include hQ in
theorem Both.check (p : Path) (ms : List (MInfo × Shape)) : Both r Q (fun _ _ => True) (fun s => match checkMembers s.heap p 0 ms with | some e => .throw (.std e) s | none => (.ok () s : Res Unit))
    (fun s => match checkMembers s.heap p 0 ms with | some e => .throw (.std e) s | none => (.ok () s : Res Unit)) := by
  intro s s' h
  simp only [checkMembers_alike h.cells]
  cases checkMembers s'.heap p 0 ms with
  | none => exact .ok trivial h
  | some e => exact .throw (hQ _) h

variable (hE : EnvAlike r E E') (hU : Unseen r R)
include hQ hE hU

theorem Both.finish (sh : Shape) (p : Path) (hR : R.at p = some sh) : Both r Q (fun _ _ => True) (finish E sh p) (finish E' sh p) := by
  cases sh with
  | value ty => exact Both.finishCbVal hQ hE p
  | ignore => exact Both.pure trivial
  | object k u ms =>
    cases k with
    | auto =>
      exact Both.unlessEmpty p ((Both.wrapOnThrow hQ p (Both.setValues p ms 0 fun i m v hm => hU.default p _ hR i m v hm)).bind fun vs vs' hvs =>
        (Both.modC p fun _ _ => val_alike (.tup hvs)).bind fun _ _ _ => Both.finishCbVal hQ hE p)
    | plain => exact Both.unlessEmpty p ((Both.unsetOnThrow p (Both.check hQ p ms)).bind fun _ _ _ => Both.finishCbParser hQ hE _ _ p)
    | custom => exact Both.unlessEmpty p ((Both.unsetOnThrow p (Both.check hQ p ms)).bind fun _ _ _ => Both.finishCbParser hQ hE _ _ p)
  | union ty tm st ms =>
    cases st with
    | false => exact Both.unlessEmpty p ((Both.unsetOnThrow p (Both.checkAlt hQ p ms 0)).bind fun _ _ _ => Both.finishCbParser hQ hE _ _ p)
    | true =>
      refine Both.unlessEmpty p ((Both.wrapOnThrow hQ p (Both.setAlt p ms 0 fun i m v hm => hU.default p _ hR i m v hm)).bind fun x x' hx =>
        Both.bind (P := fun _ _ => True) ?_ fun _ _ _ => Both.finishCbVal hQ hE p)
      cases hx with
      | none => exact Both.pure trivial
      | some hv => exact Both.modC p fun _ _ => val_alike hv
  | array st e =>
    cases st with
    | false => exact Both.finishCbParser hQ hE (.array false e) false p
    | true => exact Both.finishCbVal hQ hE p
  | map st e => exact Both.finishCbParser hQ hE (.map st e) false p

omit hQ hE hU in
theorem vec_alike {v v' : Val} (h : ValAlike r v v') : ValsAlike r v.vec v'.vec := by
  cases h with
  | arr h => exact h
  | init => exact .nil
  | _ => exact .cons .moved .nil

omit hQ hE hU in
theorem entries_alike {v v' : Val} (h : ValAlike r v v') : EntriesAlike r v.entries v'.entries := by
  cases h with
  | map h => exact h
  | init => exact .nil
  | _ => exact .cons .moved .nil

omit hQ hE hU in
theorem append_alike {v v' : Val} (hv : ValAlike r v v') : ∀ {l l' : List Val}, ValsAlike r l l' → ValsAlike r (l ++ [v]) (l' ++ [v'])
  | _, _, .nil => .cons hv .nil
  | _, _, .cons h hs => .cons h (append_alike hv hs)

omit hQ hE hU in
theorem insert_alike {k : String} {v v' : Val} (hv : ValAlike r v v') : ∀ {l l' : List (String × Val)}, EntriesAlike r l l' →
    EntriesAlike r (mapInsert k v l) (mapInsert k v' l')
  | _, _, .nil => .cons hv .nil
  | _, _, .cons (k := k') h hs => by
    simp only [mapInsert]
    split
    · exact .cons hv (.cons h hs)
    · split
      · exact .cons h hs
      · exact .cons h (insert_alike hv hs)

theorem Both.chain : ∀ n : Nat,
    Both r Q (fun _ _ => True) (popParser E R n) (popParser E' R n) ∧
    (∀ p, Both r Q (fun _ _ => True) (childParsed E R n p) (childParsed E' R n p)) ∧
    (∀ sh p, R.at p = some sh → Both r Q (fun _ _ => True) (endParsing E R n sh p) (endParsing E' R n sh p)) ∧
    Both r Q (fun _ _ => True) (dispatchMapEnd E R n) (dispatchMapEnd E' R n) := by
  intro n
  induction n with
  | zero => exact ⟨Both.spent, fun _ => Both.spent, fun _ _ _ => Both.spent, Both.spent⟩
  | succ n ih =>
    obtain ⟨h1, h2, h3, h4⟩ := ih
    refine ⟨?_, ?_, ?_, ?_⟩
    · intro s s' h
      simp only [popParser]
      rw [h.stack]
      match hs : s'.stack with
      | [] => exact .throw (hQ _) h
      | [_] => exact .ok trivial ⟨rfl, h.cells, h.calls⟩
      | _ :: q :: _ => exact h2 q _ _ ⟨rfl, h.cells, h.calls⟩
    · intro p
      simp only [childParsed]
      match hR : R.at p with
      | none => exact Both.bad
      | some (.array true _) =>
        exact (Both.popVal hQ _).bind fun v v' hv => Both.modC p fun c c' hc => val_alike (.arr (append_alike hv (vec_alike hc.val))) hc
      | some (.array false _) => exact Both.pure trivial
      | some (.map false e) => exact Both.elementCb hQ hE e p
      | some (.map true e) =>
        exact (Both.elementCb hQ hE e p).bind fun _ _ _ => (Both.popVal hQ _).bind fun v v' hv => Both.modC p fun c c' hc => by
          refine val_alike (.map ?_) hc
          rw [hc.curKey]; exact insert_alike hv (entries_alike hc.val)
      | some (.union ty tm st ms) =>
        refine (h3 _ p hR).bind fun _ _ _ => ?_
        split
        · refine (Both.getC p).bind fun c c' hc => ?_
          rw [hc.disp]
          split
          · exact h4
          · exact Both.bad
        · exact Both.pure trivial
      | some (.value _) => exact Both.pure trivial
      | some .ignore => exact Both.pure trivial
      | some (.object _ _ _) => exact Both.pure trivial
    · intro sh p hR
      simp only [endParsing]
      refine (Both.modC p fun _ _ => set_alike true).bind fun _ _ _ => (Both.finish hQ hE hU sh p hR).bind fun _ _ _ => (Both.getC p).bind fun c c' hc => ?_
      rw [hc.disp]
      split
      · exact h1
      · exact Both.pure trivial
    · intro s s' h
      simp only [dispatchMapEnd]
      rw [h.stack]
      match hs : s'.stack with
      | [] => exact .throw (hQ _) h
      | p :: _ =>
        simp only
        match hR : R.at p with
        | none => exact .ub
        | some .ignore =>
          simp only
          rw [(h.cells p).struct]
          rcases (s'.heap p).struct with _ | ⟨_ | _, l⟩
          · exact .throw (hQ _) h
          · exact .throw (hQ _) h
          · simp only
            have := cells_upd h.cells p fun _ _ => levels_alike l
            split
            · exact h3 _ p hR _ _ ⟨by first | rfl | exact h.stack, this, h.calls⟩
            · exact .ok trivial ⟨by first | rfl | exact h.stack, this, h.calls⟩
        | some (.object k u ms) => exact h3 _ p hR _ _ h
        | some (.union ty tm st ms) => exact h3 _ p hR _ _ h
        | some (.map st e) => exact h3 _ p hR _ _ h
        | some (.value _) => exact .throw (hQ _) h
        | some (.array _ _) => exact .throw (hQ _) h

theorem Both.onNullBase (f : Nat) (sh : Shape) (p : Path) : Both r Q (fun _ _ => True) (onNullBase E R f sh p) (onNullBase E' R f sh p) := by
  unfold SJ.onNullBase
  refine (Both.reset p sh).bind fun _ _ _ => (Both.getC p).bind fun c c' hc => ?_
  rw [hc.disp]
  split
  · exact (Both.chain hQ hE hU f).1
  · exact Both.pure trivial

omit hQ hE hU in
theorem lookup_alike {ms : List (MInfo × Shape)} {x y : Scalar} : ∀ (l : List (MInfo × Shape)) (n : Nat), (∀ i sh, (i, sh) ∈ l → i.name.cppEq x = i.name.cppEq y) →
    lookup x n l = lookup y n l
  | [], n, _ => rfl
  | (i, sh) :: l, n, h => by
    simp only [lookup, h i sh (by simp)]
    rw [lookup_alike (ms := ms) l (n + 1) fun i sh hm => h i sh (List.mem_cons_of_mem _ hm)]

omit hU hQ in
/-- Names that a map of members cannot tell apart. -/
theorem Both.onMember (u : Bool) (ms : List (MInfo × Shape)) (p : Path) {x y : Scalar} (hl : lookup x 0 ms = lookup y 0 ms)
    (hq : Q (.std ("Unexpected member " ++ showName E'.fmtDbl x)) (.std ("Unexpected member " ++ showName E'.fmtDbl y))) :
    Both r Q (· = ·) (onMember E u ms p x) (onMember E' u ms p y) := by
  unfold SJ.onMember
  refine (Both.setNotEmpty p).bind fun _ _ _ => (Both.getC p).bind fun c c' hc => ?_
  rw [hc.disp, hl]
  cases lookup y 0 ms with
  | some a =>
    simp only
    split
    · exact (Both.push _).bind fun _ _ _ => Both.pure rfl
    · exact Both.bad
  | none =>
    simp only [hE.fmt, nameText_show]
    split
    · exact fun s s' h => .throw hq h
    · split
      · exact (Both.push _).bind fun _ _ _ => Both.pure rfl
      · exact Both.bad

theorem Both.on (hq : ∀ x y, r x y → Q (.std ("Unexpected member " ++ showName E'.fmtDbl x)) (.std ("Unexpected member " ++ showName E'.fmtDbl y)))
    (f : Nat) {t t' : Token} (ht : TokenAlike r t t') (sh : Shape) : ∀ p, R.at p = some sh → Both r Q (fun _ _ => True) (on E R f sh p t) (on E' R f sh p t') := by
  have he := (Both.chain hQ hE hU f).2.2.1
  induction sh using Shape.arrInd with
  | value ty =>
    intro p hR
    cases ht with
    | @scalar x y hxy =>
      simp only [SJ.on, hU.type _ _ hxy]
      split
      · exact (Both.setNotEmpty p).bind fun _ _ _ => (Both.modC p fun _ _ => val_alike (.sc hxy)).bind fun _ _ _ => he _ p hR
      · unfold SJ.unexpected; rw [ty_kind (hU.type _ _ hxy)]; exact Both.throwStd hQ _
    | same hs =>
      cases t <;> simp only [SJ.on]
      case null => exact Both.onNullBase hQ hE hU f _ p
      case scalar v => exact absurd rfl (hs v)
      all_goals exact Both.unexpected hQ _
  | ignore =>
    intro p hR
    cases ht with
    | @scalar x y hxy =>
      simp only [SJ.on]
      refine (Both.getC p).bind fun c c' hc => ?_
      rw [hc.struct]
      split
      · exact he _ p hR
      · exact Both.pure trivial
    | same hs =>
      cases t <;> simp only [SJ.on]
      case null => exact Both.onNullBase hQ hE hU f _ p
      case scalar v => exact absurd rfl (hs v)
      case mapStart => exact Both.modC p fun _ _ => push_alike true
      case arrStart => exact Both.modC p fun _ _ => push_alike false
      case mapKey k =>
        refine (Both.getC p).bind fun c c' hc => ?_
        rw [hc.struct]
        rcases c'.struct with _ | ⟨_ | _, l⟩
        · exact Both.unexpected hQ _
        · exact Both.unexpected hQ _
        · exact Both.pure trivial
      case mapEnd =>
        refine (Both.getC p).bind fun c c' hc => ?_
        rw [hc.struct]
        rcases c'.struct with _ | ⟨_ | _, l⟩
        · exact Both.unexpected hQ _
        · exact Both.unexpected hQ _
        · refine (Both.modC p fun _ _ => levels_alike l).bind fun _ _ _ => ?_
          split
          · exact he _ p hR
          · exact Both.pure trivial
      case arrEnd =>
        refine (Both.getC p).bind fun c c' hc => ?_
        rw [hc.struct]
        rcases c'.struct with _ | ⟨_ | _, l⟩
        · exact Both.unexpected hQ _
        · refine (Both.modC p fun _ _ => levels_alike l).bind fun _ _ _ => ?_
          split
          · exact he _ p hR
          · exact Both.pure trivial
        · exact Both.unexpected hQ _
  | object k u ms =>
    intro p hR
    cases ht with
    | @scalar x y hxy => simp only [SJ.on]; unfold SJ.unexpected; rw [ty_kind (hU.type _ _ hxy)]; exact Both.throwStd hQ _
    | same hs =>
      cases t <;> simp only [SJ.on]
      case null => exact Both.onNullBase hQ hE hU f _ p
      case mapStart => exact Both.reset p _
      case mapKey key => exact (Both.onMember hE u ms p rfl (hQ _)).bind fun _ _ _ => Both.pure trivial
      case mapEnd => exact he _ p hR
      all_goals exact Both.unexpected hQ _
  | union ty tm st ms =>
    intro p hR
    cases ht with
    | @scalar x y hxy =>
      simp only [SJ.on, hU.type _ _ hxy]
      split
      · refine (Both.reset p _).bind fun _ _ _ => (Both.onMember hE true ms p
          (lookup_alike (ms := ms) ms 0 fun i sh hm => hU.choice p ty tm st ms hR i sh hm x y hxy) (hq x y hxy)).bind fun a b hab => ?_
        subst hab
        cases a with
        | none => exact Both.pure trivial
        | some n => exact Both.modC p fun _ _ => curId_alike n
      · unfold SJ.unexpected; rw [ty_kind (hU.type _ _ hxy)]; exact Both.throwStd hQ _
    | same hs =>
      cases t <;> simp only [SJ.on]
      case null => exact Both.onNullBase hQ hE hU f _ p
      case scalar v => exact absurd rfl (hs v)
      case mapStart =>
        split
        · exact Both.throwStd hQ _
        · exact Both.reset p _
      case mapKey key =>
        split
        · exact Both.throwStd hQ _
        · split
          · exact Both.throwStd hQ _
          · exact Both.pure trivial
      case mapEnd => exact he _ p hR
      all_goals exact Both.unexpected hQ _
  | map st e =>
    intro p hR
    cases ht with
    | @scalar x y hxy => simp only [SJ.on]; unfold SJ.unexpected; rw [ty_kind (hU.type _ _ hxy)]; exact Both.throwStd hQ _
    | same hs =>
      cases t <;> simp only [SJ.on]
      case null => exact Both.onNullBase hQ hE hU f _ p
      case mapStart => exact Both.reset p _
      case mapKey key =>
        refine (Both.setNotEmpty p).bind fun _ _ _ => (Both.getC p).bind fun c c' hc => ?_
        rw [hc.disp]
        split
        · exact (Both.push _).bind fun _ _ _ => Both.modC p fun _ _ => key_alike key
        · exact Both.bad
      case mapEnd => exact he _ p hR
      all_goals exact Both.unexpected hQ _
  | array st e ih =>
    intro p hR
    have hc0 := (Both.chain hQ hE hU f).2.1 p
    have hR' := at_elem_array hR
    cases ht with
    | @scalar x y hxy =>
      simp only [SJ.on]
      refine (Both.getC p).bind fun c c' hc => ?_
      rw [hc.started]
      split
      · unfold SJ.unexpected; rw [ty_kind (hU.type _ _ hxy)]; exact Both.throwStd hQ _
      · exact (ih _ hR').bind fun _ _ _ => (Both.setNotEmpty p).bind fun _ _ _ => hc0
    | same hs =>
      cases t <;> simp only [SJ.on]
      case null =>
        refine (Both.getC p).bind fun c c' hc => ?_
        rw [hc.started]
        split
        · exact Both.onNullBase hQ hE hU f _ p
        · exact ih _ hR'
      case scalar v => exact absurd rfl (hs v)
      case mapStart =>
        refine (Both.getC p).bind fun c c' hc => ?_
        rw [hc.started, hc.disp]
        split
        · exact Both.unexpected hQ _
        · split
          · exact Both.bad
          · exact (Both.setNotEmpty p).bind fun _ _ _ => (Both.setDisp _ e).bind fun _ _ _ => (Both.push _).bind fun _ _ _ => ih _ hR'
      case arrStart =>
        refine (Both.getC p).bind fun c c' hc => ?_
        rw [hc.started, hc.disp]
        split
        · exact (Both.reset p _).bind fun _ _ _ => Both.modC p fun _ _ => started_alike true
        · split
          · exact Both.bad
          · exact (Both.setNotEmpty p).bind fun _ _ _ => (Both.setDisp _ e).bind fun _ _ _ => (Both.push _).bind fun _ _ _ => ih _ hR'
      case arrEnd => exact (Both.modC p fun _ _ => started_alike false).bind fun _ _ _ => he _ p hR
      all_goals exact Both.unexpected hQ _

omit hQ in
theorem Both.dispatch {t t' : Token} (ht : TokenAlike r t t') : Both r (ErrorAlike r E'.fmtDbl) (fun _ _ => True) (dispatch E R t) (dispatch E' R t') := by
  intro s s' h
  unfold SJ.dispatch
  rw [h.stack]
  match hs : s'.stack with
  | [] => exact .throw .same h
  | p :: l =>
    simp only
    cases hR : R.at p with
    | none => exact .ub
    | some sh => exact Both.on (fun _ => .same) hE hU (fun x y hxy => .unknown hxy) _ ht sh p hR s s' h

omit hQ in
theorem Both.run : ∀ {ts ts' : List Token}, TokensAlike r ts ts' → Both r (ErrorAlike r E'.fmtDbl) (fun _ _ => True) (run E R ts) (run E' R ts')
  | _, _, .nil => Both.pure trivial
  | _, _, .cons ht hts => (Both.dispatch hE hU ht).bind fun _ _ _ => Both.run hts

omit hQ hE hU in
theorem init_alike : StateAlike r (St.init R) (St.init R) :=
  ⟨rfl, cells_setDispH R [] fun p => ⟨rfl, rfl, rfl, .init, rfl, rfl, rfl, rfl⟩, .nil⟩

omit hQ hE hU in
theorem restart_alike {s s' : St} (h : StateAlike r s s') : StateAlike r s.restart s'.restart := ⟨rfl, h.cells, h.calls⟩

/-! ## Documents -/

omit hQ hE hU in
theorem tokens_append : ∀ {a a' b b' : List Token}, TokensAlike r a a' → TokensAlike r b b' → TokensAlike r (a ++ b) (a' ++ b')
  | _, _, _, _, .nil, h => h
  | _, _, _, _, .cons ht hts, h => .cons ht (tokens_append hts h)

omit hQ hE hU in
mutual
theorem events_alike : ∀ (j j' : Json), JsonAlike r j j' → TokensAlike r (events j) (events j')
  | .null, _, .null => .cons (.same fun _ => by simp) .nil
  | .sc x, _, .sc h => .cons (.scalar h) .nil
  | .arr l, _, .arr (l' := l') h => .cons (.same fun _ => by simp) (tokens_append (elemEvents_alike l l' h) (.cons (.same fun _ => by simp) .nil))
  | .obj fs, _, .obj (fs' := fs') h => .cons (.same fun _ => by simp) (tokens_append (fieldEvents_alike fs fs' h) (.cons (.same fun _ => by simp) .nil))
theorem elemEvents_alike : ∀ (l l' : List Json), ElemsAlike r l l' → TokensAlike r (elemEvents l) (elemEvents l')
  | [], _, .nil => .nil
  | j :: l, _, .cons (j' := j') (l' := l') h hl => tokens_append (events_alike j j' h) (elemEvents_alike l l' hl)
theorem fieldEvents_alike : ∀ (l l' : List (String × Json)), FieldsAlike r l l' → TokensAlike r (fieldEvents l) (fieldEvents l')
  | [], _, .nil => .nil
  | (k, j) :: l, _, .cons (j' := j') (l' := l') h hl => .cons (.same fun _ => by simp) (tokens_append (events_alike j j' h) (fieldEvents_alike l l' hl))
end

/-! ## Replacing -/

variable {g : Scalar → Scalar}

omit hQ hE hU in
mutual
theorem replaced_alike : ∀ j : Json, JsonAlike (fun x y => y = g x) j (j.replace g)
  | .null => .null
  | .sc x => .sc rfl
  | .arr l => .arr (replacedL_alike l)
  | .obj fs => .obj (replacedF_alike fs)
theorem replacedL_alike : ∀ l : List Json, ElemsAlike (fun x y => y = g x) l (replaceL g l)
  | [] => .nil
  | j :: l => .cons (replaced_alike j) (replacedL_alike l)
theorem replacedF_alike : ∀ l : List (String × Json), FieldsAlike (fun x y => y = g x) l (replaceF g l)
  | [] => .nil
  | (k, j) :: l => .cons (replaced_alike j) (replacedF_alike l)
end

omit hQ hE hU in
mutual
theorem val_replaced : ∀ v : Val, ValAlike (fun x y => y = g x) v (v.replace g)
  | .sc x => .sc rfl
  | .arr l => .arr (vals_replaced l)
  | .tup l => .tup (vals_replaced l)
  | .map l => .map (entries_replaced l)
  | .alt n v => .alt (val_replaced v)
  | .init => .init
  | .user t l => .user (vals_replaced l)
  | .moved => .moved
theorem vals_replaced : ∀ l : List Val, ValsAlike (fun x y => y = g x) l (replaceVs g l)
  | [] => .nil
  | v :: l => .cons (val_replaced v) (vals_replaced l)
theorem entries_replaced : ∀ l : List (String × Val), EntriesAlike (fun x y => y = g x) l (replaceEs g l)
  | [] => .nil
  | (k, v) :: l => .cons (val_replaced v) (entries_replaced l)
end

omit hQ hE hU in
mutual
theorem alike_replaced : ∀ (v v' : Val), ValAlike (fun x y => y = g x) v v' → v' = v.replace g
  | .sc x, _, .sc h => by rw [h, Val.replace]
  | .arr l, _, .arr h => by rw [alike_replacedL _ _ h, Val.replace]
  | .tup l, _, .tup h => by rw [alike_replacedL _ _ h, Val.replace]
  | .map l, _, .map h => by rw [alike_replacedE _ _ h, Val.replace]
  | .alt n v, _, .alt h => by rw [alike_replaced _ _ h, Val.replace]
  | .init, _, .init => rfl
  | .user t l, _, .user h => by rw [alike_replacedL _ _ h, Val.replace]
  | .moved, _, .moved => rfl
theorem alike_replacedL : ∀ (l l' : List Val), ValsAlike (fun x y => y = g x) l l' → l' = replaceVs g l
  | [], _, .nil => rfl
  | v :: l, _, .cons h hl => by rw [alike_replaced _ _ h, alike_replacedL _ _ hl, replaceVs]
theorem alike_replacedE : ∀ (l l' : List (String × Val)), EntriesAlike (fun x y => y = g x) l l' → l' = replaceEs g l
  | [], _, .nil => rfl
  | (k, v) :: l, _, .cons h hl => by rw [alike_replaced _ _ h, alike_replacedE _ _ hl, replaceEs]
end

omit hQ hE hU in
mutual
theorem val_refl (h : ∀ x, r x x) : ∀ v : Val, ValAlike r v v
  | .sc x => .sc (h x)
  | .arr l => .arr (vals_refl h l)
  | .tup l => .tup (vals_refl h l)
  | .map l => .map (entries_refl h l)
  | .alt n v => .alt (val_refl h v)
  | .init => .init
  | .user t l => .user (vals_refl h l)
  | .moved => .moved
theorem vals_refl (h : ∀ x, r x x) : ∀ l : List Val, ValsAlike r l l
  | [] => .nil
  | v :: l => .cons (val_refl h v) (vals_refl h l)
theorem entries_refl (h : ∀ x, r x x) : ∀ l : List (String × Val), EntriesAlike r l l
  | [] => .nil
  | (k, v) :: l => .cons (val_refl h v) (entries_refl h l)
end

omit hQ hE hU in
theorem unseen_types {R : Shape} : Unseen (Indistinguishable R) R :=
  ⟨fun x y h => h.1, fun p ty tm st ms hp i sh hm x y h => h.2 p ty tm st ms hp i sh hm,
    fun p sh hp i m v hm hd => val_refl (fun x => ⟨rfl, fun _ _ _ _ _ _ _ _ _ => rfl⟩) v⟩

end Thr

end SJ
