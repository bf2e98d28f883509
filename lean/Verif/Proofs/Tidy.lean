/-
The data invariant: what is set is proper, what is being read is well-formed, for all prefixes of JSON documents.
-/
import Verif.Proofs.Control
import Verif.Proofs.Typing
import Verif.SpecTyped

set_option linter.unusedVariables false

namespace SJ

variable {E : Env} {R : Shape}

/-! ### Cells -/

/-- Between documents and for every parser. -/
structure Sound (sh : Shape) (c : Cell) : Prop where
  val : sh.isStorage = true → c.set = true → Proper sh c.val
  cur : ∀ ty tm st ms, sh = .union ty tm st ms → c.set = true → c.curId < ms.length
  run : ∀ st e, sh = .array st e → c.started = true → c.set = false ∧ (st = true → Proper sh c.val)

/-- A parser that has begun to read a value. -/
def Entered : Shape → Cell → Prop
  | .value _, _ => True
  | .ignore, _ => True
  | .object k _ _, c => c.set = false ∧ (k = .custom → c.val.clean = true)
  | .union _ _ _ ms, c => c.set = false ∧ (c.empty = false → c.curId < ms.length)
  | .array st e, c => c.set = false ∧ (st = true → Proper (.array st e) c.val)
  | .map st e, c => c.set = false ∧ (st = true → Proper (.map st e) c.val)

/-- Neither a scalar parser nor the ignore parser. -/
def Shape.composite : Shape → Bool
  | .value _ => false
  | .ignore => false
  | _ => true

theorem Entered.unset {sh : Shape} {c} (h : Entered sh c) (hc : sh.composite = true) : c.set = false := by
  cases sh <;> simp [Shape.composite] at hc <;> exact h.1

/-- A cell may have been popped. -/
def PopC (c c' : Cell) : Prop := c' = c ∨ (c.set = true ∧ c' = { c with set := false, val := .moved })

theorem PopC.refl (c) : PopC c c := Or.inl rfl
theorem PopC.trans {c c' c''} (a : PopC c c') (b : PopC c' c'') : PopC c c'' := by
  rcases a with rfl | ⟨h, rfl⟩
  · exact b
  · rcases b with rfl | ⟨h', _⟩
    · exact Or.inr ⟨h, rfl⟩
    · simp at h'

theorem PopC.good {sh c c'} (a : PopC c c') (h : Sound sh c) : Sound sh c' := by
  rcases a with rfl | ⟨hs, rfl⟩
  · exact h
  · refine ⟨fun _ h' => by simp at h', fun _ _ _ _ _ h' => by simp at h', fun st e he h' => ?_⟩
    have := (h.run st e he h').1
    rw [hs] at this; simp at this

theorem PopC.entered {sh c c'} (a : PopC c c') (h : Entered sh c) : Entered sh c' := by
  rcases a with rfl | ⟨hs, rfl⟩
  · exact h
  · cases sh with
    | value => trivial
    | ignore => trivial
    | _ => have := h.1; rw [hs] at this; simp at this

/-! ### Reset -/

/-- What `reset` does to the cell of a parser of shape `sh`. -/
def resetCell : Shape → Cell → Cell
  | .value _, c => c.baseReset
  | .ignore, c => { c.baseReset with struct := [] }
  | .object .plain _ _, c => c.baseReset
  | .object _ _ _, c => { c.baseReset with val := .init }
  | .union _ _ st _, c => { c.baseReset with curId := 0, val := if st then .init else c.val }
  | .array st _, c => { c.baseReset with val := if st then .arr [] else c.val }
  | .map st _, c => { c.baseReset with val := if st then .map [] else c.val }

theorem resetCell_idem (sh c) : resetCell sh (resetCell sh c) = resetCell sh c := by
  cases sh with
  | object k u ms => cases k <;> rfl
  | union ty tm st ms => cases st <;> rfl
  | array st e => cases st <;> rfl
  | map st e => cases st <;> rfl
  | _ => rfl

theorem proper_arr_nil {e} : Proper (.array true e) (.arr []) := by simp [Proper, hasType, Val.clean, cleanL]
theorem proper_map_nil {e} : Proper (.map true e) (.map []) := by simp [Proper, hasType, Val.clean, cleanE]

theorem resetCell_good {sh c} (h : Sound sh c) : Sound sh (resetCell sh c) := by
  have hset : (resetCell sh c).set = false := by
    cases sh with
    | object k u ms => cases k <;> rfl
    | _ => rfl
  refine ⟨fun _ h' => ?_, fun _ _ _ _ _ h' => ?_, fun st e he h' => ⟨hset, fun hst => ?_⟩⟩
  · rw [hset] at h'; simp at h'
  · rw [hset] at h'; simp at h'
  · subst he; subst hst; exact proper_arr_nil

theorem resetCell_entered (sh c) : Entered sh (resetCell sh c) := by
  cases sh with
  | value => trivial
  | ignore => trivial
  | object k u ms =>
    cases k
    · exact ⟨rfl, fun h => by simp at h⟩
    · exact ⟨rfl, fun _ => rfl⟩
    · exact ⟨rfl, fun _ => rfl⟩
  | union ty tm st ms => exact ⟨rfl, fun h => by simp [resetCell, Cell.baseReset] at h⟩
  | array st e => exact ⟨rfl, fun h => by subst h; exact proper_arr_nil⟩
  | map st e => exact ⟨rfl, fun h => by subst h; exact proper_map_nil⟩

/-- Each cell is kept or reset. -/
def Rst (R : Shape) (h h' : Heap) : Prop := ∀ q, h' q = h q ∨ ∃ sh, R.at q = some sh ∧ h' q = resetCell sh (h q)

theorem Rst.refl (h) : Rst R h h := fun _ => Or.inl rfl

theorem Rst.trans {h h' h''} (a : Rst R h h') (b : Rst R h' h'') : Rst R h h'' := by
  intro q
  rcases a q with ha | ⟨sh, hsh, ha⟩
  · rw [← ha]; exact b q
  · rcases b q with hb | ⟨sh', hsh', hb⟩
    · exact Or.inr ⟨sh, hsh, hb.trans ha⟩
    · rw [hsh] at hsh'; injection hsh' with hsh'; subst hsh'
      exact Or.inr ⟨sh, hsh, by rw [hb, ha, resetCell_idem]⟩

theorem resetMs_self (ms p n) (h : Heap) : resetMs p n ms h p = h p :=
  resetMs_other ms p n h p fun m _ _ => below_self_cons

theorem resetMs_ign (ms p n) (h : Heap) : resetMs p n ms h (.ign :: p) = h (.ign :: p) :=
  resetMs_other ms p n h _ fun m _ _ => by
    intro hb; have := below_eq_of_len hb (Below.refl _) rfl; simp at this

theorem cons_ne (st : Step) (p : Path) : p ≠ st :: p := by
  intro h; have := congrArg List.length h; simp at this

theorem resetH_selfCell (sh : Shape) (p h) : resetH p sh h p = resetCell sh (h p) := by
  cases sh with
  | value ty => simp [resetH, resetCell]
  | ignore => simp [resetH, resetCell]
  | object k u ms =>
    cases k <;> simp [resetH, resetCell, upd_other (cons_ne .ign p), resetMs_self]
  | union ty tm st ms =>
    cases st <;> simp [resetH, resetCell, upd_other (cons_ne .ign p), resetMs_self, Cell.baseReset]
  | array st e =>
    have : resetH (.elem :: p) e (h.upd p Cell.baseReset) p = (h.upd p Cell.baseReset) p := resetH_frame _ _ _ _ below_self_cons
    cases st <;> simp [resetH, resetCell, this, Cell.baseReset]
  | map st e => cases st <;> simp [resetH, resetCell, Cell.baseReset]

mutual
theorem resetH_rst : ∀ (sh : Shape) (p : Path) (h : Heap), R.at p = some sh → Rst R h (resetH p sh h)
  | .value ty, p, h, hR => fun q => by
    by_cases hq : q = p
    · subst hq; exact Or.inr ⟨_, hR, resetH_selfCell _ _ _⟩
    · exact Or.inl (upd_other hq)
  | .ignore, p, h, hR => fun q => by
    by_cases hq : q = p
    · subst hq; exact Or.inr ⟨_, hR, resetH_selfCell _ _ _⟩
    · exact Or.inl (upd_other hq)
  | .object k u ms, p, h, hR => fun q => by
    by_cases hq : q = p
    · subst hq; exact Or.inr ⟨_, hR, resetH_selfCell _ _ _⟩
    · have hms := resetMs_rst ms p 0 (h.upd p Cell.baseReset) (fun m i sh hm => by
        rw [Nat.zero_add]; exact at_mem_object hR hm) q
      rw [upd_other hq] at hms
      by_cases hi : q = .ign :: p
      · subst hi
        have hR' : R.at (.ign :: p) = some .ignore := at_ign_object hR
        refine Or.inr ⟨_, hR', ?_⟩
        cases k <;> simp [resetH, resetCell, upd_other hq, resetMs_ign]
      · have : resetH p (.object k u ms) h q = resetMs p 0 ms (h.upd p Cell.baseReset) q := by
          cases k <;> simp [resetH, upd_other hq, upd_other hi]
        rw [this]; exact hms
  | .union ty tm st ms, p, h, hR => fun q => by
    by_cases hq : q = p
    · subst hq; exact Or.inr ⟨_, hR, resetH_selfCell _ _ _⟩
    · have hms := resetMs_rst ms p 0 ((h.upd p fun c => { c with curId := 0 }).upd p Cell.baseReset) (fun m i sh hm => by
        rw [Nat.zero_add]; exact at_mem_union hR hm) q
      rw [upd_other hq, upd_other hq] at hms
      by_cases hi : q = .ign :: p
      · subst hi
        have hR' : R.at (.ign :: p) = some .ignore := by simp [Shape.at, hR, Shape.child]
        refine Or.inr ⟨_, hR', ?_⟩
        cases st <;> simp [resetH, resetCell, upd_other hq, resetMs_ign]
      · have : resetH p (.union ty tm st ms) h q = resetMs p 0 ms ((h.upd p fun c => { c with curId := 0 }).upd p Cell.baseReset) q := by
          cases st <;> simp [resetH, upd_other hq, upd_other hi]
        rw [this]; exact hms
  | .array st e, p, h, hR => fun q => by
    by_cases hq : q = p
    · subst hq; exact Or.inr ⟨_, hR, resetH_selfCell _ _ _⟩
    · have := resetH_rst e (.elem :: p) (h.upd p Cell.baseReset) (at_elem_array hR) q
      rw [upd_other hq] at this
      have h2 : resetH p (.array st e) h q = resetH (.elem :: p) e (h.upd p Cell.baseReset) q := by
        cases st <;> simp [resetH, upd_other hq]
      rw [h2]; exact this
  | .map st e, p, h, hR => fun q => by
    by_cases hq : q = p
    · subst hq; exact Or.inr ⟨_, hR, resetH_selfCell _ _ _⟩
    · left; cases st <;> simp [resetH, upd_other hq]
theorem resetMs_rst : ∀ (ms : List (MInfo × Shape)) (p : Path) (n : Nat) (h : Heap),
    (∀ (m : Nat) i sh, ms[m]? = some (i, sh) → R.at (.mem (n + m) :: p) = some sh) → Rst R h (resetMs p n ms h)
  | [], p, n, h, _ => Rst.refl _
  | (i, sh) :: ms, p, n, h, hm =>
    (resetH_rst sh (.mem n :: p) h (hm 0 i sh rfl)).trans
      (resetMs_rst ms p (n + 1) _ fun m i' sh' h' => by
        have := hm (m + 1) i' sh' (by simpa using h')
        rwa [show n + (m + 1) = n + 1 + m by omega] at this)
end

/-! ### Snapshots -/

mutual
theorem snap_proper {h : Heap} (hg : ∀ q sh, R.at q = some sh → Sound sh (h q)) : ∀ (sh : Shape) (p : Path), R.at p = some sh →
    Snap.Proper sh (snap h p sh)
  | .value ty, p, hR => by
    refine ⟨fun v hv => ?_, fun n hn => by simp at hn, trivial⟩
    simp only [Option.ite_none_right_eq_some] at hv
    obtain ⟨h1, h2⟩ := hv
    injection h2 with h2; subst h2
    exact (hg p _ hR).val rfl h1
  | .ignore, p, hR => ⟨fun v hv => by simp at hv, fun n hn => by simp at hn, trivial⟩
  | .object k u ms, p, hR => by
    refine ⟨fun v hv => ?_, fun n hn => by simp at hn, ?_⟩
    · simp only [Option.ite_none_right_eq_some, Bool.and_eq_true] at hv
      obtain ⟨⟨h0, h1⟩, h2⟩ := hv
      injection h2 with h2; subst h2
      exact (hg p _ hR).val (by simpa [Shape.isStorage] using h0) h1
    · exact snapMs_proper hg ms p 0 fun m i sh hm => by rw [Nat.zero_add]; exact at_mem_object hR hm
  | .union ty tm st ms, p, hR => by
    refine ⟨fun v hv => ?_, fun n hn => ?_, ?_⟩
    · simp only [Option.ite_none_right_eq_some, Bool.and_eq_true] at hv
      obtain ⟨⟨h0, h1⟩, h2⟩ := hv
      injection h2 with h2; subst h2
      exact (hg p _ hR).val h0 h1
    · simp only [Option.ite_none_right_eq_some] at hn
      obtain ⟨h1, h2⟩ := hn
      injection h2 with h2; subst h2
      exact (hg p _ hR).cur _ _ _ _ rfl h1
    · exact snapMs_proper hg ms p 0 fun m i sh hm => by rw [Nat.zero_add]; exact at_mem_union hR hm
  | .array st e, p, hR => by
    refine ⟨fun v hv => ?_, fun n hn => by simp at hn, snap_proper hg e _ (at_elem_array hR)⟩
    simp only [Option.ite_none_right_eq_some, Bool.and_eq_true] at hv
    obtain ⟨⟨h0, h1⟩, h2⟩ := hv
    injection h2 with h2; subst h2
    exact (hg p _ hR).val h0 h1
  | .map st e, p, hR => by
    refine ⟨fun v hv => ?_, fun n hn => by simp at hn, snap_proper hg e _ (at_elem_map hR)⟩
    simp only [Option.ite_none_right_eq_some, Bool.and_eq_true] at hv
    obtain ⟨⟨h0, h1⟩, h2⟩ := hv
    injection h2 with h2; subst h2
    exact (hg p _ hR).val h0 h1
theorem snapMs_proper {h : Heap} (hg : ∀ q sh, R.at q = some sh → Sound sh (h q)) : ∀ (ms : List (MInfo × Shape)) (p : Path) (n : Nat),
    (∀ (m : Nat) i sh, ms[m]? = some (i, sh) → R.at (.mem (n + m) :: p) = some sh) → Snap.ProperL ms (snapMs h p n ms)
  | [], p, n, _ => trivial
  | (i, sh) :: ms, p, n, hm => ⟨snap_proper hg sh _ (hm 0 i sh rfl), snapMs_proper hg ms p (n + 1) fun m i' sh' h' => by
      have := hm (m + 1) i' sh' (by simpa using h')
      rwa [show n + (m + 1) = n + 1 + m by omega] at this⟩
end


/-! ### States -/

/-- All cells are sound and all callback arguments so far were proper. -/
structure Inv (R : Shape) (s : St) : Prop where
  cells : ∀ q sh, R.at q = some sh → Sound sh (s.heap q)
  log : ∀ c ∈ s.log, c.Proper R

/-- Some parsers other than `p` may have been popped; the log may have grown by one call. -/
structure Pops (p : Path) (s s' : St) : Prop where
  stack : s'.stack = s.stack
  cells : ∀ q, q ≠ p → PopC (s.heap q) (s'.heap q)
  log : s'.log = s.log ∨ ∃ c, s'.log = c :: s.log

theorem cleanL_of : ∀ {l : List Val}, cleanL l = true ↔ ∀ v ∈ l, v.clean = true
  | [] => by simp [cleanL]
  | v :: l => by simp [cleanL, cleanL_of (l := l)]

theorem cleanE_of : ∀ {l : List (String × Val)}, cleanE l = true ↔ ∀ x ∈ l, x.2.clean = true
  | [] => by simp [cleanE]
  | (k, v) :: l => by simp [cleanE, cleanE_of (l := l)]

theorem popVal_ok {p} {s s' : St} {v} (h : popVal p s = .ok v s') : (s.heap p).set = true ∧ v = (s.heap p).val ∧
    s' = { s with heap := s.heap.upd p fun c => { c with set := false, val := .moved } } := by
  unfold popVal at h
  split at h
  · injection h with h1 h2; exact ⟨‹_›, h1.symm, h2.symm⟩
  · simp at h

theorem popVal_throw {p} {s s' : St} {e} (h : popVal p s = .throw e s') : s' = s := by
  unfold popVal at h
  split at h
  · simp at h
  · injection h with h1 h2; exact h2.symm

theorem upd_popC {h : Heap} {p} (hs : (h p).set = true) (q) : PopC (h q) (h.upd p (fun c => { c with set := false, val := .moved }) q) := by
  rw [upd_apply]; split
  · rename_i hq; subst hq; exact Or.inr ⟨hs, rfl⟩
  · exact Or.inl rfl

theorem cbPops_popC (sh p) : ∀ (ps : List Path) (h : Heap) (q), PopC (h q) (cbPops sh p ps h q)
  | [], h, q => Or.inl rfl
  | rel :: ps, h, q => by
    rw [cbPops]
    cases hsh : sh.at rel with
    | none => exact cbPops_popC sh p ps h q
    | some sh' =>
      by_cases hc : (sh'.isStorage && (h (rel ++ p)).set) = true
      · simp only [hc, if_true]
        simp only [Bool.and_eq_true] at hc
        exact (upd_popC hc.2 q).trans (cbPops_popC sh p ps _ q)
      · simp only [hc]
        exact cbPops_popC sh p ps h q

/-- Members of the object or union at `p` are popped; the rest stays. -/
structure PopM (p : Path) (s s' : St) : Prop where
  stack : s'.stack = s.stack
  log : s'.log = s.log
  self : s'.heap p = s.heap p
  cells : ∀ q, PopC (s.heap q) (s'.heap q)

theorem PopM.refl (p s) : PopM p s s := ⟨rfl, rfl, rfl, fun _ => Or.inl rfl⟩
theorem PopM.trans {p s s' s''} (a : PopM p s s') (b : PopM p s' s'') : PopM p s s'' :=
  ⟨b.stack.trans a.stack, b.log.trans a.log, b.self.trans a.self, fun q => (a.cells q).trans (b.cells q)⟩

theorem PopM.pop {p n} {s s' : St} {v} (h : popVal (.mem n :: p) s = .ok v s') : PopM p s s' := by
  obtain ⟨h1, _, rfl⟩ := popVal_ok h
  refine ⟨rfl, rfl, ?_, fun q => upd_popC h1 q⟩
  dsimp only; exact upd_other (cons_ne (.mem n) p)

/-- Outcome of a step that may only pop members. -/
def PopsM {α} (p : Path) (s : St) (Q : α → Prop) : Res α → Prop
  | .ok a s' => PopM p s s' ∧ Q a
  | .throw _ s' => PopM p s s'
  | .ub => False
  | .fuel => False

theorem PopsM.bind {α β} {p s} {Q : α → Prop} {Q' : β → Prop} {m : M α} {f : α → M β} (h : PopsM p s Q (m s))
    (hf : ∀ a s', m s = .ok a s' → PopM p s s' → Q a → PopsM p s' Q' (f a s')) : PopsM p s Q' (M.bind m f s) := by
  unfold M.bind
  cases hc : m s with
  | ok a s' =>
    rw [hc] at h
    have := hf a s' hc h.1 h.2
    show PopsM p s Q' (f a s')
    cases hc' : f a s' with
    | ok b s'' => rw [hc'] at this; exact ⟨h.1.trans this.1, this.2⟩
    | throw b s'' => rw [hc'] at this; exact h.1.trans this
    | ub => rw [hc'] at this; exact this
    | fuel => rw [hc'] at this; exact this
  | throw e s' => rw [hc] at h; exact h
  | ub => rw [hc] at h; exact h
  | fuel => rw [hc] at h; exact h

theorem setValues_proper {p} : ∀ (ms : List (MInfo × Shape)) (n : Nat) (s : St),
    (∀ (m : Nat) i sh, ms[m]? = some (i, sh) → Sound sh (s.heap (.mem (n + m) :: p)) ∧ sh.isStorage = true ∧
      ∀ v, i.dflt = some v → Proper sh v) →
    PopsM p s (fun vs => hasTypes ms vs = true ∧ cleanL vs = true) (setValues p n ms s)
  | [], n, s, _ => ⟨PopM.refl _ _, rfl, rfl⟩
  | (i, sh) :: ms, n, s, hm => by
    have h0 := hm 0 i sh rfl
    simp only [setValues]
    refine PopsM.bind (setValues_proper ms (n + 1) s fun m i' sh' h' => ?_) fun vs s1 _ h1 h2 => ?_
    · have := hm (m + 1) i' sh' (by simpa using h')
      rwa [show n + (m + 1) = n + 1 + m by omega] at this
    · have hg : Sound sh (s1.heap (.mem n :: p)) := (h1.cells _).good h0.1
      rw [bind_getC]
      split
      · rename_i hs
        refine PopsM.bind (Q := fun v => Proper sh v) ?_ fun v s2 _ h3 h4 => ?_
        · cases hp : popVal (.mem n :: p) s1 with
          | ok v s2 =>
            obtain ⟨_, h5, _⟩ := popVal_ok hp
            refine ⟨PopM.pop hp, ?_⟩
            rw [h5]; exact hg.val h0.2.1 hs
          | throw e s2 => rw [popVal_throw hp]; exact PopM.refl _ _
          | ub => exact absurd hp (Loc.popVal _).not_ub
          | fuel => unfold popVal at hp; split at hp <;> simp at hp
        · exact ⟨PopM.refl _ _, by simp [hasTypes, h4.1, h2.1], by simp [cleanL, h4.2, h2.2]⟩
      · split
        · cases hd : i.dflt with
          | none => exact PopM.refl _ _
          | some v =>
            have := h0.2.2 v hd
            exact ⟨PopM.refl _ _, by simp [hasTypes, this.1, h2.1], by simp [cleanL, this.2, h2.2]⟩
        · exact PopM.refl _ _

theorem currentMemberId_popsM {p s} {Q : Nat → Prop} (h : Q (s.heap p).curId) : PopsM p s Q (currentMemberId p s) := by
  unfold currentMemberId
  split
  · exact ⟨PopM.refl _ _, h⟩
  · exact PopM.refl _ _

theorem checkAlt_popsM {p} : ∀ (ms : List (MInfo × Shape)) (n : Nat) (s : St), PopsM p s (fun _ => True) (checkAlt p n ms s)
  | [], n, s => ⟨PopM.refl _ _, trivial⟩
  | (i, sh) :: ms, n, s => by
    simp only [checkAlt]
    refine PopsM.bind (checkAlt_popsM ms (n + 1) s) fun _ s1 _ h1 _ => ?_
    refine PopsM.bind (Q := fun _ => True) (currentMemberId_popsM trivial) fun id s2 _ h2 _ => ?_
    split
    · exact ⟨PopM.refl _ _, trivial⟩
    · rw [bind_getC]
      split
      · exact PopM.refl _ _
      · exact ⟨PopM.refl _ _, trivial⟩

theorem setAlt_proper {p} (all : List (MInfo × Shape)) : ∀ (ms : List (MInfo × Shape)) (n : Nat) (s : St),
    (∀ (m : Nat) i sh, ms[m]? = some (i, sh) → all[n + m]? = some (i, sh)) →
    (∀ (m : Nat) i sh, all[m]? = some (i, sh) → Sound sh (s.heap (.mem m :: p)) ∧ sh.isStorage = true ∧
      ∀ v, i.dflt = some v → Proper sh v) →
    PopsM p s (fun r => (∀ v, r = some v → ∃ m w, v = .alt m w ∧ hasAltType all m w = true ∧ w.clean = true) ∧
      (n ≤ (s.heap p).curId → (s.heap p).curId < n + ms.length → r ≠ none)) (setAlt p n ms s)
  | [], n, s, _, _ => ⟨PopM.refl _ _, fun v hv => by simp at hv, fun h1 h2 => by simp at h2; omega⟩
  | (i, sh) :: ms, n, s, hsub, hm => by
    simp only [setAlt]
    refine PopsM.bind (setAlt_proper all ms (n + 1) s (fun m i' sh' h' => ?_) hm) fun r s1 _ h1 h2 => ?_
    · have := hsub (m + 1) i' sh' (by simpa using h')
      rwa [show n + (m + 1) = n + 1 + m by omega] at this
    have hi : all[n]? = some (i, sh) := by simpa using hsub 0 i sh rfl
    obtain ⟨hg0, hst, hdf⟩ := hm n i sh hi
    have hg : Sound sh (s1.heap (.mem n :: p)) := (h1.cells _).good hg0
    refine PopsM.bind (Q := fun id => id = (s.heap p).curId) (currentMemberId_popsM (by rw [h1.self])) fun id s2 hid h3 h4 => ?_
    have hs2 : s2 = s1 := by
      unfold currentMemberId at hid; split at hid
      · injection hid with _ hid; exact hid.symm
      · simp at hid
    subst hs2
    subst h4
    have alt_ok : ∀ w, Proper sh w → hasAltType all n w = true ∧ w.clean = true := by
      intro w hw
      refine ⟨?_, hw.2⟩
      have : ∀ (all : List (MInfo × Shape)) (n : Nat), all[n]? = some (i, sh) → hasAltType all n w = true := by
        intro all
        induction all with
        | nil => intro n h; simp at h
        | cons x xs ih =>
          intro n h
          cases n with
          | zero => simp at h; subst h; exact hw.1
          | succ n => exact ih n (by simpa using h)
      exact this all n hi
    split
    · rename_i hne
      refine ⟨PopM.refl _ _, h2.1, fun h5 h6 => h2.2 (by omega) (by simp at h6; omega)⟩
    · rw [bind_getC]
      split
      · rename_i hs
        refine PopsM.bind (Q := fun v => Proper sh v) ?_ fun v s3 _ h5 h6 => ?_
        · cases hp : popVal (.mem n :: p) s2 with
          | ok v s3 =>
            obtain ⟨_, h5, _⟩ := popVal_ok hp
            refine ⟨PopM.pop hp, ?_⟩
            rw [h5]; exact hg.val hst hs
          | throw e s3 => rw [popVal_throw hp]; exact PopM.refl _ _
          | ub => exact absurd hp (Loc.popVal _).not_ub
          | fuel => unfold popVal at hp; split at hp <;> simp at hp
        · refine ⟨PopM.refl _ _, fun v' hv' => ?_, fun _ _ => by simp⟩
          injection hv' with hv'
          exact ⟨n, v, hv'.symm, alt_ok v h6⟩
      · split
        · cases hd : i.dflt with
          | none => exact PopM.refl _ _
          | some v =>
            refine ⟨PopM.refl _ _, fun v' hv' => ?_, fun _ _ => by simp⟩
            injection hv' with hv'
            exact ⟨n, v, hv'.symm, alt_ok v (hdf v hd)⟩
        · exact PopM.refl _ _


/-- What is assumed of the tree and of the callbacks. -/
structure Neat (E : Env) (R : Shape) : Prop where
  wf : R.wf = true
  dfl : CleanDefaults R
  cb : CleanCallbacks E

/-- As long as no callback is called. -/
theorem Neat.without (hwf : R.wf = true) (hd : CleanDefaults R) : Neat { onFinish := fun _ => none, onElement := fun _ => none, fmtDbl := fun _ => "" } R :=
  ⟨hwf, hd, fun p cb l a v h => by simp at h⟩

theorem Neat.user (hN : Neat E R) {p sh} (hR : R.at p = some sh) (hi : sh ≠ .ignore) : sh.wf = true :=
  (wf_at hN.wf p sh hR).resolve_right hi

theorem Neat.object (hN : Neat E R) {p k u ms} (hR : R.at p = some (.object k u ms)) {m : Nat} {i sh} (hm : ms[m]? = some (i, sh)) :
    (k = .auto → sh.isStorage = true) ∧ ∀ v, i.dflt = some v → Proper sh v := by
  have hw := wf_object (hN.user hR (by simp))
  refine ⟨fun hk => (wfMs_mem hw hm).2.2 (by simp [hk]), fun v hv => ⟨wfMs_dflt hw hm hv, ?_⟩⟩
  exact hN.dfl p _ (i, sh) v hR (List.mem_of_getElem? hm) hv

theorem Neat.union (hN : Neat E R) {p ty tm st ms} (hR : R.at p = some (.union ty tm st ms)) {m : Nat} {i sh} (hm : ms[m]? = some (i, sh)) :
    (st = true → sh.isStorage = true) ∧ ∀ v, i.dflt = some v → Proper sh v := by
  have hw := wf_union (hN.user hR (by simp))
  refine ⟨fun hk => (wfMs_mem hw hm).2.2 hk, fun v hv => ⟨wfMs_dflt hw hm hv, ?_⟩⟩
  exact hN.dfl p _ (i, sh) v hR (List.mem_of_getElem? hm) hv

/-- Heap changes at `p`, and pops elsewhere. -/
structure PopQ (p : Path) (s s' : St) : Prop where
  stack : s'.stack = s.stack
  log : s'.log = s.log
  cells : ∀ q, q ≠ p → PopC (s.heap q) (s'.heap q)

theorem PopQ.trans {p s s' s''} (a : PopQ p s s') (b : PopQ p s' s'') : PopQ p s s'' :=
  ⟨b.stack.trans a.stack, b.log.trans a.log, fun q hq => (a.cells q hq).trans (b.cells q hq)⟩
theorem PopQ.upd (p) (s : St) (f) : PopQ p s { s with heap := s.heap.upd p f } :=
  ⟨rfl, rfl, fun q hq => Or.inl (upd_other hq)⟩
theorem PopM.q {p s s'} (h : PopM p s s') : PopQ p s s' := ⟨h.stack, h.log, fun q _ => h.cells q⟩
theorem PopQ.comp {p s s' s''} (a : PopQ p s s') (b : Pops p s' s'') : Pops p s s'' :=
  ⟨b.stack.trans a.stack, fun q hq => (a.cells q hq).trans (b.cells q hq), by rw [← a.log]; exact b.log⟩
theorem PopQ.pops {p s s'} (a : PopQ p s s') : Pops p s s' := ⟨a.stack, a.cells, Or.inl a.log⟩

/-- Soundness of all cells but `p` survives, and what is known of `p` decides. -/
theorem PopQ.inv {p s s'} (a : PopQ p s s') (h : Inv R s) (hp : ∀ sh, R.at p = some sh → Sound sh (s'.heap p)) : Inv R s' := by
  refine ⟨fun q sh hR => ?_, by rw [a.log]; exact h.log⟩
  by_cases hq : q = p
  · subst hq; exact hp sh hR
  · exact (a.cells q hq).good (h.cells q sh hR)

/-- The outcome of a finish callback. -/
def CbDone (R : Shape) (p : Path) (s : St) : Res Unit → Prop
  | .ok _ s' => Inv R s' ∧ Pops p s s'
  | .throw _ s' => Inv R s' ∧ Pops p s s' ∧ ∃ a, s'.log = .finish p a :: s.log
  | .ub => False
  | .fuel => False

theorem cbDone_verdict {p s s1 a} {v w} (hi : Inv R s1) (hp : Pops p s s1) (hl : s1.log = .finish p a :: s.log) :
    CbDone R p s (verdict v w s1) := by
  cases v with
  | accept => exact ⟨hi, hp⟩
  | reject => exact ⟨hi, hp, a, hl⟩
  | throws e => exact ⟨hi, hp, a, hl⟩

theorem finishCbVal_done {p sh} {s : St} (hi : Inv R s) (hR : R.at p = some sh) (hst : sh.isStorage = true) (hs : (s.heap p).set = true) :
    CbDone R p s (finishCbVal E p s) := by
  unfold finishCbVal
  cases E.onFinish p with
  | none => exact ⟨hi, rfl, fun q _ => Or.inl rfl, Or.inl rfl⟩
  | some cb =>
    refine cbDone_verdict ⟨hi.cells, ?_⟩ ⟨rfl, fun q _ => Or.inl rfl, Or.inr ⟨_, rfl⟩⟩ rfl
    intro c hc
    rcases List.mem_cons.1 hc with rfl | hc
    · intro sh' hR'
      rw [hR] at hR'; injection hR' with hR'; subst hR'
      exact (hi.cells p _ hR).val hst hs
    · exact hi.log c hc

theorem finishCbParser_done (hN : Neat E R) {p sh c} {s : St} (hi : Inv R s) (hR : R.at p = some sh)
    (hc : c = true → ∃ u ms, sh = .object .custom u ms) : CbDone R p s (finishCbParser E sh c p s) := by
  unfold finishCbParser
  cases hcb : E.onFinish p with
  | none => exact ⟨hi, rfl, fun q _ => Or.inl rfl, Or.inl rfl⟩
  | some cb =>
    have hlog : ∀ x ∈ Call.finish p (Arg.parser (snap s.heap p sh)) :: s.log, x.Proper R := by
      intro x hx
      rcases List.mem_cons.1 hx with rfl | hx
      · intro sh' hR'
        rw [hR] at hR'; injection hR' with hR'; subst hR'
        exact snap_proper hi.cells _ _ hR
      · exact hi.log x hx
    refine cbDone_verdict (a := Arg.parser (snap s.heap p sh)) ⟨fun q shq hRq => ?_, hlog⟩ ⟨rfl, fun q hq => ?_, Or.inr ⟨_, rfl⟩⟩ rfl
    · have h1 : Sound shq (cbPops sh p (cb s.log (Arg.parser (snap s.heap p sh))).pops s.heap q) :=
        (cbPops_popC _ _ _ _ _).good (hi.cells q shq hRq)
      simp only
      cases c with
      | false => exact h1
      | true =>
        cases hv : (cb s.log (Arg.parser (snap s.heap p sh))).newVal with
        | none => exact h1
        | some v =>
          simp only
          by_cases hq : q = p
          · subst hq
            rw [hR] at hRq; injection hRq with hRq; subst hRq
            obtain ⟨u, ms, rfl⟩ := hc rfl
            rw [upd_same]
            refine ⟨fun _ _ => ⟨by simp [hasType], hN.cb _ _ _ _ _ hcb hv⟩, fun _ _ _ _ h => by simp at h, fun _ _ h => by simp at h⟩
          · rw [upd_other hq]; exact h1
    · have h1 : PopC (s.heap q) (cbPops sh p (cb s.log (Arg.parser (snap s.heap p sh))).pops s.heap q) := cbPops_popC _ _ _ _ _
      simp only
      cases c with
      | false => exact h1
      | true =>
        cases (cb s.log (Arg.parser (snap s.heap p sh))).newVal with
        | none => exact h1
        | some v => simp only; rw [upd_other hq]; exact h1

/-- What a parser needs at its end. -/
def FinOK : Shape → Cell → Prop
  | .value ty, c => Proper (.value ty) c.val
  | .ignore, _ => True
  | .object k _ _, c => k = .custom → c.val.clean = true
  | .union _ _ _ ms, c => c.empty = false → c.curId < ms.length
  | .array st e, c => c.started = false ∧ (st = true → Proper (.array st e) c.val)
  | .map st e, c => st = true → Proper (.map st e) c.val

theorem Entered.finOK {sh : Shape} {c} (h : Entered sh c) (ha : ∀ st e, sh ≠ .array st e) (hv : ∀ ty, sh ≠ .value ty) : FinOK sh c := by
  cases sh with
  | value ty => exact absurd rfl (hv ty)
  | array st e => exact absurd rfl (ha st e)
  | ignore => trivial
  | object k u ms => exact h.2
  | union ty tm st ms => exact h.2
  | map st e => exact h.2

/-- The outcome of `complete`. -/
def FinDone (R : Shape) (p : Path) (s : St) : Res Unit → Prop
  | .ok _ s' => Inv R s' ∧ Pops p s s'
  | .throw _ s' => Inv R s' ∧ Pops p s s' ∧ ((s'.heap p).set = false ∨ ∃ a, s'.log = .finish p a :: s.log)
  | .ub => False
  | .fuel => False

theorem CbDone.fin {p s s1 r} (hq : PopQ p s s1) (h : CbDone R p s1 r) : FinDone R p s r := by
  cases r with
  | ok _ s' => exact ⟨h.1, hq.comp h.2⟩
  | throw e s' => obtain ⟨h1, h2, a, h3⟩ := h; exact ⟨h1, hq.comp h2, Or.inr ⟨a, by rw [h3, hq.log]⟩⟩
  | ub => exact h
  | fuel => exact h

/-- A cell that is not set and not of a started array is sound. -/
theorem Sound.unset {sh : Shape} {c} (hs : c.set = false) (ha : ∀ st e, sh ≠ .array st e) : Sound sh c :=
  ⟨fun _ h => by rw [hs] at h; simp at h, fun _ _ _ _ _ h => by rw [hs] at h; simp at h, fun st e h => absurd h (ha st e)⟩

theorem complete_done (hN : Neat E R) {p sh} {s : St} (hi : Inv R s) (hR : R.at p = some sh) (hf : FinOK sh (s.heap p)) :
    FinDone R p s (complete E sh p s) := by
  unfold complete
  rw [bind_modC]
  have q0 := PopQ.upd p s fun c => { c with set := true }
  generalize hs0 : ({ s with heap := s.heap.upd p fun c => { c with set := true } } : St) = s0 at q0
  have hcell : s0.heap p = { s.heap p with set := true } := by rw [← hs0]; simp
  have hset : (s0.heap p).set = true := by rw [hcell]
  have others : ∀ q shq, q ≠ p → R.at q = some shq → Sound shq (s0.heap q) := fun q shq hq hRq => (q0.cells q hq).good (hi.cells q shq hRq)
  have self : (∀ st e, sh ≠ .array st e) → (sh.isStorage = true → Proper sh (s.heap p).val) →
      (∀ ty tm st ms, sh = .union ty tm st ms → (s.heap p).curId < ms.length) → Inv R s0 := by
    intro ha h1 h2
    refine q0.inv hi fun sh' hR' => ?_
    rw [hR] at hR'; injection hR' with hR'; subst hR'
    rw [hcell]
    exact ⟨fun h _ => h1 h, fun ty tm st ms h _ => h2 ty tm st ms h, fun st e h => absurd h (ha st e)⟩
  -- leaving the parser unset
  have unsetInv : (∀ st e, sh ≠ .array st e) → ∀ s1, PopQ p s s1 → Inv R { s1 with heap := s1.heap.upd p fun c => { c with set := false } } := by
    intro ha s1 h1
    refine (h1.trans (PopQ.upd p s1 _)).inv hi fun sh' hR' => ?_
    rw [hR] at hR'; injection hR' with hR'; subst hR'
    simp only [upd_same]
    exact Sound.unset rfl ha
  have unsetOk : (∀ st e, sh ≠ .array st e) → FinDone R p s (SJ.unset p s0) := by
    intro ha
    exact ⟨unsetInv ha s0 q0, (q0.trans (PopQ.upd p s0 _)).pops⟩
  have unsetThrow : (∀ st e, sh ≠ .array st e) → ∀ s1 e, PopQ p s s1 →
      FinDone R p s (.throw e { s1 with heap := s1.heap.upd p fun c => { c with set := false } }) := by
    intro ha s1 e h1
    exact ⟨unsetInv ha s1 h1, (h1.trans (PopQ.upd p s1 _)).pops, Or.inl (by simp)⟩
  have nonEmpty : ∀ m : M Unit, (∀ st e, sh ≠ .array st e) → ((s.heap p).empty = false → FinDone R p s (m s0)) →
      FinDone R p s (unlessEmpty p m s0) := by
    intro m ha hm
    unfold unlessEmpty
    rw [bind_getC]
    split
    · exact unsetOk ha
    · rename_i he; exact hm (by simpa [hcell] using he)
  cases sh with
  | value ty => exact (finishCbVal_done (self (by simp) (fun _ => hf) (by simp)) hR rfl hset).fin q0
  | ignore => exact ⟨self (by simp) (by simp [Shape.isStorage]) (by simp), q0.pops⟩
  | array st e =>
    have hi0 : Inv R s0 := by
      refine q0.inv hi fun sh' hR' => ?_
      rw [hR] at hR'; injection hR' with hR'; subst hR'
      rw [hcell]
      refine ⟨fun h _ => hf.2 h, fun _ _ _ _ h => by simp at h, fun st' e' h h' => ?_⟩
      have h'' : (s.heap p).started = true := h'
      rw [hf.1] at h''; simp at h''
    cases st with
    | true => exact (finishCbVal_done hi0 hR rfl hset).fin q0
    | false => exact (finishCbParser_done (c := false) hN hi0 hR (by simp)).fin q0
  | map st e => exact (finishCbParser_done (c := false) hN (self (by simp) hf (by simp)) hR (by simp)).fin q0
  | object k u ms =>
    have hmem : ∀ (m : Nat) i sh, ms[m]? = some (i, sh) → R.at (.mem m :: p) = some sh := fun m i sh h => at_mem_object hR h
    have check : k ≠ .auto → FinDone R p s (unlessEmpty p
      (M.bind (unsetOnThrow p fun s =>
        match checkMembers s.heap p 0 ms with
        | some e => .throw (.std e) s
        | none => .ok () s) fun _ =>
      finishCbParser E (.object k u ms) (k == .custom) p) s0) := by
      intro hk
      refine nonEmpty _ (by simp) fun he => ?_
      unfold M.bind unsetOnThrow
      dsimp only
      cases checkMembers s0.heap p 0 ms with
      | some e => exact unsetThrow (by simp) s0 _ q0
      | none =>
        refine (finishCbParser_done hN (self (by simp) (fun h => ?_) (by simp)) hR (fun h => ?_)).fin q0
        · cases k with
          | plain => simp [Shape.isStorage] at h
          | auto => exact absurd rfl hk
          | custom => exact ⟨by simp [hasType], hf rfl⟩
        · cases k with
          | custom => exact ⟨_, _, rfl⟩
          | _ => simp at h
    cases k with
    | plain => exact check (by simp)
    | custom => exact check (by simp)
    | auto =>
      refine nonEmpty _ (by simp) fun he => ?_
      have hv := setValues_proper (p := p) ms 0 s0 fun m i sh hm => ⟨others _ _ (cons_ne _ _).symm (by rw [Nat.zero_add]; exact hmem m i sh hm),
        (hN.object hR hm).1 rfl, (hN.object hR hm).2⟩
      unfold M.bind wrapOnThrow
      cases hc : setValues p 0 ms s0 with
      | throw e s1 => rw [hc] at hv; exact unsetThrow (by simp) s1 _ (q0.trans (PopM.q hv))
      | ub => rw [hc] at hv; exact hv.elim
      | fuel => rw [hc] at hv; exact hv.elim
      | ok vs s1 =>
        rw [hc] at hv
        have q1 := (q0.trans hv.1.q).trans (PopQ.upd p s1 fun c => { c with val := .tup vs })
        refine (finishCbVal_done (sh := .object .auto u ms) ?_ hR rfl ?_).fin q1
        · refine q1.inv hi fun sh' hR' => ?_
          rw [hR] at hR'; injection hR' with hR'; subst hR'
          simp only [upd_same]
          refine ⟨fun _ _ => ⟨?_, ?_⟩, fun _ _ _ _ h => by simp at h, fun _ _ h => by simp at h⟩
          · simpa [hasType] using hv.2.1
          · simpa [Val.clean] using hv.2.2
        · simp only [upd_same, hv.1.self, hset]
  | union ty tm st ms =>
    have hmem : ∀ (m : Nat) i sh, ms[m]? = some (i, sh) → R.at (.mem m :: p) = some sh := fun m i sh h => at_mem_union hR h
    cases st with
    | false =>
      refine nonEmpty _ (by simp) fun he => ?_
      have hv := checkAlt_popsM (p := p) ms 0 s0
      unfold M.bind unsetOnThrow
      cases hc : checkAlt p 0 ms s0 with
      | throw e s1 => rw [hc] at hv; exact unsetThrow (by simp) s1 _ (q0.trans (PopM.q hv))
      | ub => rw [hc] at hv; exact hv.elim
      | fuel => rw [hc] at hv; exact hv.elim
      | ok vs s1 =>
        rw [hc] at hv
        refine (finishCbParser_done hN ?_ hR (by simp)).fin (q0.trans hv.1.q)
        refine (q0.trans hv.1.q).inv hi fun sh' hR' => ?_
        rw [hR] at hR'; injection hR' with hR'; subst hR'
        rw [hv.1.self, hcell]
        refine ⟨fun h => by simp [Shape.isStorage] at h, fun ty tm st ms h _ => ?_, fun _ _ h => by simp at h⟩
        injection h with _ _ _ h; subst h; exact hf he
    | true =>
      refine nonEmpty _ (by simp) fun he => ?_
      have hv := setAlt_proper (p := p) ms ms 0 s0 (fun m i sh h => by rw [Nat.zero_add]; exact h)
        fun m i sh hm => ⟨others _ _ (cons_ne _ _).symm (hmem m i sh hm), (hN.union hR hm).1 rfl, (hN.union hR hm).2⟩
      unfold M.bind wrapOnThrow
      cases hc : setAlt p 0 ms s0 with
      | throw e s1 => rw [hc] at hv; exact unsetThrow (by simp) s1 _ (q0.trans (PopM.q hv))
      | ub => rw [hc] at hv; exact hv.elim
      | fuel => rw [hc] at hv; exact hv.elim
      | ok r s1 =>
        rw [hc] at hv
        obtain ⟨hv1, hv2, hv3⟩ := hv
        have hcur : (s0.heap p).curId < ms.length := by rw [hcell]; exact hf he
        cases r with
        | none => exact absurd rfl (hv3 (Nat.zero_le _) (by rw [Nat.zero_add]; exact hcur))
        | some v =>
          obtain ⟨m, w, rfl, hw1, hw2⟩ := hv2 v rfl
          have q1 := (q0.trans hv1.q).trans (PopQ.upd p s1 fun c => { c with val := .alt m w })
          refine (finishCbVal_done (sh := .union ty tm true ms) ?_ hR rfl ?_).fin q1
          · refine q1.inv hi fun sh' hR' => ?_
            rw [hR] at hR'; injection hR' with hR'; subst hR'
            simp only [upd_same]
            refine ⟨fun _ _ => ⟨?_, ?_⟩, fun ty tm st ms h _ => ?_, fun _ _ h => by simp at h⟩
            · simpa [hasType] using hw1
            · simpa [Val.clean] using hw2
            · injection h with _ _ _ h; subst h
              show (s1.heap p).curId < _
              rw [hv1.self]; exact hcur
          · simp only [upd_same, hv1.self, hset]


/-! ### Children -/

/-- Parsers that have begun to read stay so. -/
def Ents (R : Shape) (h h' : Heap) : Prop := ∀ q sh, R.at q = some sh → Entered sh (h q) → Entered sh (h' q)

theorem Ents.refl (h) : Ents R h h := fun _ _ _ h => h
theorem Ents.trans {h h' h''} (a : Ents R h h') (b : Ents R h' h'') : Ents R h h'' := fun q sh hR h => b q sh hR (a q sh hR h)
theorem Ents.popC {h h' : Heap} (a : ∀ q, PopC (h q) (h' q)) : Ents R h h' := fun q sh hR he => (a q).entered he
theorem Ents.rst {h h' : Heap} (a : Rst R h h') : Ents R h h' := fun q sh hR he => by
  rcases a q with hq | ⟨sh', hR', hq⟩
  · rw [hq]; exact he
  · rw [hR] at hR'; injection hR' with hR'; subst hR'
    rw [hq]; exact resetCell_entered _ _

theorem Inv.rst {s : St} (hi : Inv R s) {h' : Heap} (a : Rst R s.heap h') : Inv R { s with heap := h' } := by
  refine ⟨fun q sh hR => ?_, hi.log⟩
  rcases a q with hq | ⟨sh', hR', hq⟩
  · simp only; rw [hq]; exact hi.cells q sh hR
  · rw [hR] at hR'; injection hR' with hR'; subst hR'
    simp only; rw [hq]; exact resetCell_good (hi.cells q _ hR)

/-- Nothing but pops, and at most one more call. -/
structure Keeps (R : Shape) (s s' : St) : Prop where
  inv : Inv R s'
  stack : s'.stack = s.stack
  ents : Ents R s.heap s'.heap
  log : s.log.length ≤ s'.log.length

theorem Keeps.refl {s} (h : Inv R s) : Keeps R s s := ⟨h, rfl, Ents.refl _, Nat.le_refl _⟩
theorem Keeps.trans {s s' s''} (a : Keeps R s s') (b : Keeps R s' s'') : Keeps R s s'' :=
  ⟨b.inv, b.stack.trans a.stack, a.ents.trans b.ents, Nat.le_trans a.log b.log⟩

abbrev KeepsFine {α} (R : Shape) (s : St) (r : Res α) : Prop := Fine (Keeps R s) (fun _ => Keeps R s) False r

theorem KeepsFine.bind {α β} {m : M α} {f : α → M β} {s : St} (h : KeepsFine R s (m s))
    (hf : ∀ a s', m s = .ok a s' → Keeps R s s' → KeepsFine R s' (f a s')) : KeepsFine R s (M.bind m f s) := by
  refine Fine.bind h fun a s' h1 h2 => ?_
  exact (hf a s' h1 h2).mono (fun _ h => h2.trans h) (fun _ _ h => h2.trans h) id

theorem proper_arr {st e v} (h : Proper (.array st e) v) : ∃ l, v = .arr l ∧ ∀ w ∈ l, Proper e w := by
  obtain ⟨h1, h2⟩ := h
  unfold hasType at h1
  simp only [Bool.and_eq_true] at h1
  cases v with
  | arr l =>
    refine ⟨l, rfl, fun w hw => ⟨?_, ?_⟩⟩
    · exact (List.all_eq_true.1 h1.2) w hw
    · rw [Val.clean, cleanL_of] at h2; exact h2 w hw
  | _ => simp at h1

theorem arr_proper {e l} (h : ∀ w ∈ l, Proper e w) : Proper (.array true e) (.arr l) := by
  refine ⟨?_, ?_⟩
  · unfold hasType; simp only [Bool.true_and]; exact List.all_eq_true.2 fun w hw => (h w hw).1
  · rw [Val.clean, cleanL_of]; exact fun w hw => (h w hw).2

theorem proper_map {st e v} (h : Proper (.map st e) v) : ∃ l, v = .map l ∧ ∀ w ∈ l, Proper e w.2 := by
  obtain ⟨h1, h2⟩ := h
  unfold hasType at h1
  simp only [Bool.and_eq_true] at h1
  cases v with
  | map l =>
    refine ⟨l, rfl, fun w hw => ⟨?_, ?_⟩⟩
    · exact (List.all_eq_true.1 h1.2) w hw
    · rw [Val.clean, cleanE_of] at h2; exact h2 w hw
  | _ => simp at h1

theorem map_proper {e l} (h : ∀ w ∈ l, Proper e w.2) : Proper (.map true e) (.map l) := by
  refine ⟨?_, ?_⟩
  · unfold hasType; simp only [Bool.true_and]; exact List.all_eq_true.2 fun w hw => (h w hw).1
  · rw [Val.clean, cleanE_of]; exact fun w hw => (h w hw).2

theorem mapInsert_all {P : Val → Prop} {k v} : ∀ {l : List (String × Val)}, P v → (∀ w ∈ l, P w.2) → ∀ w ∈ mapInsert k v l, P w.2
  | [], hv, _, w, hw => by simp [mapInsert] at hw; subst hw; exact hv
  | (k', v') :: r, hv, hl, w, hw => by
    unfold mapInsert at hw
    split at hw
    · rcases List.mem_cons.1 hw with rfl | hw
      · exact hv
      · exact hl w hw
    · split at hw
      · exact hl w hw
      · rcases List.mem_cons.1 hw with rfl | hw
        · exact hl _ (by simp)
        · exact mapInsert_all hv (fun w hw => hl w (by simp [hw])) w hw

/-- A parser's value is popped by its parent. -/
theorem popVal_keeps {p sh} {s : St} (hi : Inv R s) (hR : R.at p = some sh) (hst : sh.isStorage = true) :
    Fine (fun s' => Keeps R s s' ∧ ∀ q, q ≠ p → s'.heap q = s.heap q) (fun _ => Keeps R s) False (popVal p s) ∧
    ∀ v s', popVal p s = .ok v s' → Proper sh v := by
  constructor
  · unfold popVal
    split
    · rename_i hs
      refine ⟨⟨⟨fun q shq hRq => (upd_popC hs q).good (hi.cells q shq hRq), hi.log⟩, rfl, Ents.popC fun q => upd_popC hs q, Nat.le_refl _⟩, fun q hq => ?_⟩
      dsimp only; exact upd_other hq
    · exact Keeps.refl hi
  · intro v s' h
    obtain ⟨h1, rfl, _⟩ := popVal_ok h
    exact (hi.cells p sh hR).val hst h1

theorem arrChild_keeps (hN : Neat E R) {p st e} {s : St} (hi : Inv R s) (hR : R.at p = some (.array st e))
    (he : Entered (.array st e) (s.heap p)) : KeepsFine R s (arrChild st p s) := by
  unfold arrChild
  split
  · rename_i hst; subst hst
    have hRe := at_elem_array hR
    have hse : e.isStorage = true := (wf_array (hN.user hR (by simp))).2 rfl
    obtain ⟨h1, h2⟩ := popVal_keeps hi hRe hse
    refine Fine.bind h1 fun v s1 hp hk => ?_
    have hv := h2 v s1 hp
    obtain ⟨hk, hsame⟩ := hk
    have hself := hsame p (cons_ne .elem p)
    obtain ⟨l, hl, hall⟩ := proper_arr (he.2 rfl)
    have hnew : Proper (.array true e) (.arr ((s1.heap p).val.vec ++ [v])) := by
      rw [hself, hl]
      refine arr_proper fun w hw => ?_
      rcases List.mem_append.1 hw with hw | hw
      · exact hall w hw
      · have : w = v := by simpa using hw
        subst this; exact hv
    refine ⟨⟨fun q shq hRq => ?_, hk.inv.log⟩, hk.stack, fun q shq hRq hq => ?_, hk.log⟩
    · by_cases hq : q = p
      · subst hq
        rw [hR] at hRq; injection hRq with hRq; subst hRq
        simp only [upd_same]
        have hset : (s1.heap q).set = false := by rw [hself]; exact he.1
        refine ⟨fun _ _ => hnew, fun _ _ _ _ h => by simp at h, fun st' e' h _ => ⟨hset, fun _ => hnew⟩⟩
      · simp only [upd_other hq]; exact hk.inv.cells q shq hRq
    · by_cases hqp : q = p
      · subst hqp
        rw [hR] at hRq; injection hRq with hRq; subst hRq
        simp only [upd_same]
        exact ⟨by rw [hself]; exact he.1, fun _ => hnew⟩
      · simp only [upd_other hqp]; exact hk.ents q shq hRq hq
  · exact Keeps.refl hi

theorem elementCb_keeps {p st e} {s : St} (hi : Inv R s) (hR : R.at p = some (.map st e)) : KeepsFine R s (elementCb E e p s) := by
  unfold elementCb
  cases E.onElement p with
  | none => exact Keeps.refl hi
  | some cb =>
    have hRe := at_elem_map hR
    have : Keeps R s { s with
        heap := cbPops e (.elem :: p) (cb s.log (s.heap p).curKey (snap s.heap (.elem :: p) e)).pops s.heap
        log := .element p (s.heap p).curKey (snap s.heap (.elem :: p) e) :: s.log } := by
      refine ⟨⟨fun q shq hRq => (cbPops_popC _ _ _ _ _).good (hi.cells q shq hRq), ?_⟩, rfl, Ents.popC fun q => cbPops_popC _ _ _ _ _, by simp⟩
      intro c hc
      rcases List.mem_cons.1 hc with rfl | hc
      · intro sh hsh
        rw [hRe] at hsh; injection hsh with hsh; subst hsh
        exact snap_proper hi.cells _ _ hRe
      · exact hi.log c hc
    dsimp only
    cases (cb s.log (s.heap p).curKey (snap s.heap (.elem :: p) e)).verdict with
    | accept => exact this
    | reject => exact this
    | throws e => exact this

theorem mapChild_keeps (hN : Neat E R) {p st e} {s : St} (hi : Inv R s) (hR : R.at p = some (.map st e))
    (he : Entered (.map st e) (s.heap p)) : KeepsFine R s (mapChild E st e p s) := by
  unfold mapChild
  split
  · rename_i hst; subst hst
    have hRe := at_elem_map hR
    have hse : e.isStorage = true := (wf_map (hN.user hR (by simp))).2 rfl
    refine KeepsFine.bind (elementCb_keeps hi hR) fun _ s0 _ hk0 => ?_
    obtain ⟨h1, h2⟩ := popVal_keeps hk0.inv hRe hse
    have he0 := hk0.ents p _ hR he
    refine Fine.bind h1 fun v s1 hp hk => ?_
    have hv := h2 v s1 hp
    obtain ⟨hk, hsame⟩ := hk
    have hself := hsame p (cons_ne .elem p)
    obtain ⟨l, hl, hall⟩ := proper_map (he0.2 rfl)
    have hnew : ∀ k, Proper (.map true e) (.map (mapInsert k v (s1.heap p).val.entries)) := by
      intro k
      rw [hself, hl]
      exact map_proper (mapInsert_all (P := Proper e) hv hall)
    refine ⟨⟨fun q shq hRq => ?_, hk.inv.log⟩, hk.stack, fun q shq hRq hq => ?_, hk.log⟩
    · by_cases hq : q = p
      · subst hq
        rw [hR] at hRq; injection hRq with hRq; subst hRq
        simp only [upd_same]
        exact ⟨fun _ _ => hnew _, fun _ _ _ _ h => by simp at h, fun st' e' h => by simp at h⟩
      · simp only [upd_other hq]; exact hk.inv.cells q shq hRq
    · by_cases hqp : q = p
      · subst hqp
        rw [hR] at hRq; injection hRq with hRq; subst hRq
        simp only [upd_same]
        exact ⟨by rw [hself]; exact he0.1, fun _ => hnew _⟩
      · simp only [upd_other hqp]; exact hk.ents q shq hRq hq
  · exact elementCb_keeps hi hR

/-! ### The recursion -/

/-- Every listed parser has begun to read. -/
def EntL (R : Shape) (l : List Path) (h : Heap) : Prop := ∀ q ∈ l, ∀ sh, R.at q = some sh → Entered sh (h q)

structure Tidy (R : Shape) (L0 : Nat) (s : St) : Prop where
  ctl : Ctl R s
  inv : Inv R s
  ent : EntL R s.stack s.heap
  log : L0 ≤ s.log.length

/-- After an exception: what is left on the stack is unset, unless its own finish callback was the last call. -/
def Left (R : Shape) (ex : Path → Prop) (L0 : Nat) (s : St) : Prop :=
  Inv R s ∧ ∀ q ∈ s.stack, ∀ sh, R.at q = some sh → sh.composite = true → ¬ ex q →
    (s.heap q).set = false ∨ ∃ a l, s.log = .finish q a :: l ∧ L0 ≤ l.length

theorem Tidy.left {L0 ex} {s : St} (h : Tidy R L0 s) : Left R ex L0 s :=
  ⟨h.inv, fun q hq sh hR hc _ => Or.inl ((h.ent q hq sh hR).unset hc)⟩

theorem stacked_shorter : ∀ {l : List Path} {p}, Stacked (Link R) (p :: l) → ∀ q ∈ l, q.length < p.length
  | [], p, h, q, hq => by simp at hq
  | a :: l, p, h, q, hq => by
    have h1 : a.length < p.length := by
      rcases h.1 with ⟨st, rfl⟩ | ⟨_, h2, h3⟩
      · simp
      · have := h2.length_le
        rcases Nat.lt_or_ge a.length p.length with h4 | h4
        · exact h4
        · exact absurd (h2.eq_of_length (by omega)).symm h3
    rcases List.mem_cons.1 hq with rfl | hq
    · exact h1
    · exact Nat.lt_trans (stacked_shorter h.2 q hq) h1

theorem Ctl.nodup {s : St} (h : Ctl R s) {p rest} (hs : s.stack = p :: rest) : p ∉ rest := by
  intro hm
  have := h.linked
  rw [hs] at this
  have := stacked_shorter this p hm
  omega

theorem Fine.and {α} {P P' : St → Prop} {X X' : Exn → St → Prop} {U U' : Prop} {r : Res α} (h : Fine P X U r) (h' : Fine P' X' U' r) :
    Fine (fun s => P s ∧ P' s) (fun e s => X e s ∧ X' e s) (U ∧ U') r := by
  cases r with
  | ok a s => exact ⟨h, h'⟩
  | throw e s => exact ⟨h, h'⟩
  | ub => exact ⟨h, h'⟩
  | fuel => exact h

theorem FinDone.fine {p s r} (h : FinDone R p s r) :
    Fine (fun s' => Inv R s' ∧ Pops p s s')
      (fun _ s' => Inv R s' ∧ Pops p s s' ∧ ((s'.heap p).set = false ∨ ∃ a, s'.log = .finish p a :: s.log)) False r := by
  cases r <;> exact h

theorem Pops.len {p s s'} (h : Pops p s s') : s.log.length ≤ s'.log.length := by
  rcases h.log with h | ⟨c, h⟩ <;> rw [h] <;> simp

theorem Left.of_fin {L0 ex p} {s s' : St} {sh0} (hR0 : R.at p = some sh0) (hl : L0 ≤ s.log.length)
    (hent : ∀ q ∈ s.stack, q ≠ p → ¬ ex q → ∀ sh, R.at q = some sh → Entered sh (s.heap q))
    (h : Inv R s' ∧ Pops p s s' ∧ ((s'.heap p).set = false ∨ ∃ a, s'.log = .finish p a :: s.log)) : Left R ex L0 s' := by
  obtain ⟨hi, hp, h⟩ := h
  refine ⟨hi, fun q hq sh hR hc hex => ?_⟩
  by_cases hqp : q = p
  · subst hqp
    rcases h with h | ⟨a, h⟩
    · exact Or.inl h
    · exact Or.inr ⟨a, _, h, hl⟩
  · rw [hp.stack] at hq
    exact Or.inl (((hp.cells q hqp).entered (hent q hq hqp hex sh hR)).unset hc)

theorem Keeps.tidy {L0} {s s' : St} (h : Tidy R L0 s) (hk : Keeps R s s') (hc : Ctl R s') : Tidy R L0 s' :=
  ⟨hc, hk.inv, fun q hq sh hR => hk.ents q sh hR (h.ent q (by rw [← hk.stack]; exact hq) sh hR), Nat.le_trans h.log hk.log⟩

theorem Keeps.left {L0 ex} {s s' : St} (h : Tidy R L0 s) (hk : Keeps R s s') : Left R ex L0 s' :=
  ⟨hk.inv, fun q hq sh hR hc _ => Or.inl ((hk.ents q sh hR (h.ent q (by rw [← hk.stack]; exact hq) sh hR)).unset hc)⟩

/-- Moreover, the parsers in `K` are not on the stack, and stay as they are. -/
structure TidyK (R : Shape) (K : Path → Prop) (L0 : Nat) (s : St) : Prop where
  tidy : Tidy R L0 s
  keep : ∀ k, K k → k ∉ s.stack ∧ ∀ sh, R.at k = some sh → Entered sh (s.heap k)

theorem Tidy.k {L0} {s : St} (h : Tidy R L0 s) : TidyK R (fun _ => False) L0 s := ⟨h, fun _ h => h.elim⟩

theorem Keeps.tidyK {K L0} {s s' : St} (h : TidyK R K L0 s) (hk : Keeps R s s') (hc : Ctl R s') : TidyK R K L0 s' :=
  ⟨hk.tidy h.tidy hc, fun k hK => ⟨by rw [hk.stack]; exact (h.keep k hK).1, fun sh hR => hk.ents k sh hR ((h.keep k hK).2 sh hR)⟩⟩

theorem TidyK.chain (hN : Neat E R) (K ex L0) : ChainInv E R (TidyK R K L0) (fun _ => Left R ex L0) (HasUnionArray R) where
  valid := fun s h => h.tidy.ctl.valid
  plain := fun s _ h => h.tidy.left
  fin := fun s p rest sh ⟨h, hK⟩ hs hR ha hv => by
    have h1 := (Ctl.chain (E := E) (R := R)).fin s p rest sh h.ctl hs hR ha hv
    have h2 := (complete_done (E := E) hN h.inv hR ((h.ent p (by simp [hs]) sh hR).finOK ha hv)).fine
    refine (h1.and h2).mono (fun s' h' => ?_) (fun e s' h' => ?_) (fun h => h.1)
    · obtain ⟨h3, h4, h5⟩ := h'
      have hst : s'.stack = p :: rest := h5.stack.trans hs
      refine ⟨⟨h3, ⟨h4.cells, h4.log⟩, fun q hq shq hRq => ?_, Nat.le_trans h.log h5.len⟩, fun k hk => ?_⟩
      · have hq' : q ∈ rest := by simpa [St.drop, hst] using hq
        exact (h5.cells q (by rintro rfl; exact h.ctl.nodup hs hq')).entered (h.ent q (by simp [hs, hq']) shq hRq)
      · obtain ⟨h6, h7⟩ := hK k hk
        rw [hs] at h6
        refine ⟨by simp [St.drop, hst]; exact fun h => h6 (by simp [h]), fun shk hRk => ?_⟩
        exact (h5.cells k (by rintro rfl; simp at h6)).entered (h7 shk hRk)
    · exact Left.of_fin hR h.log (fun q hq _ _ sh hR => h.ent q hq sh hR) h'.2
  struct := fun s p rest r ⟨h, hK⟩ hs hR => by
    have ents : ∀ q sh, R.at q = some sh → Entered sh (s.heap q) → Entered sh ((s.heap.upd p fun c => { c with struct := r }) q) := by
      intro q sh hRq he
      by_cases hqp : q = p
      · subst hqp
        rw [hR] at hRq; injection hRq with hRq; subst hRq
        trivial
      · rw [upd_other hqp]; exact he
    refine ⟨⟨Ctl.chain (E := E).struct s p rest r h.ctl hs hR, ⟨fun q sh hRq => ?_, h.inv.log⟩, fun q hq sh hRq => ?_, h.log⟩, fun k hk => ?_⟩
    · by_cases hq : q = p
      · subst hq
        rw [hR] at hRq; injection hRq with hRq; subst hRq
        exact ⟨fun h => by simp [Shape.isStorage] at h, fun _ _ _ _ h => by simp at h, fun _ _ h => by simp at h⟩
      · simp only [upd_other hq]; exact h.inv.cells q sh hRq
    · exact ents q sh hRq (h.ent q hq sh hRq)
    · exact ⟨(hK k hk).1, fun sh hRk => ents k sh hRk ((hK k hk).2 sh hRk)⟩
  arr := fun s p rest st e h hs hR => by
    have h1 := (Ctl.chain (E := E) (R := R)).arr s p rest st e h.tidy.ctl hs hR
    have h2 := arrChild_keeps (E := E) hN h.tidy.inv hR (h.tidy.ent p (by simp [hs]) _ hR)
    exact (h1.and h2).mono (fun s' h' => h'.2.tidyK h h'.1) (fun e s' h' => h'.2.left h.tidy) (fun h => h.1)
  map := fun s p rest st e h hs hR => by
    have h1 := (Ctl.chain (E := E) (R := R)).map s p rest st e h.tidy.ctl hs hR
    have h2 := mapChild_keeps (E := E) hN h.tidy.inv hR (h.tidy.ent p (by simp [hs]) _ hR)
    exact (h1.and h2).mono (fun s' h' => h'.2.tidyK h h'.1) (fun e s' h' => h'.2.left h.tidy) (fun h => h.1)

end SJ
