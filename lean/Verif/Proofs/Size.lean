/-
The sizes of stored values are bounded by the tree.
-/
import Verif.Proofs.Shared
import Verif.SpecSize

set_option linter.unusedVariables false

namespace SJ

namespace Shd

variable {ob : Path → Path} {E : FarEnv} {R : Shape} {L V : Nat}

/-- What a cell holds is bounded. -/
def Slim (L V : Nat) (sh : Shape) (c : Cell) : Prop := (sh.flat = true → c.val.size ≤ cap L V sh) ∧ c.curKey.utf8ByteSize ≤ L

def SlimH (ob : Path → Path) (R : Shape) (L V : Nat) (h : Heap) : Prop := ∀ p sh, R.at p = some sh → Slim L V sh (h (ob p))

theorem cap_pos (L V : Nat) (sh : Shape) : 1 ≤ cap L V sh := by
  cases sh with
  | object k u ms => cases k <;> simp only [cap] <;> omega
  | union ty tm st ms => cases st <;> simp only [cap] <;> omega
  | value => simp only [cap]; omega
  | _ => simp [cap]

theorem SlimH.upd (pl : Places R ob) {h : Heap} {p : Path} {f : Cell → Cell} (hh : SlimH ob R L V h)
    (hf : ∀ sh, R.at p = some sh → Slim L V sh (h (ob p)) → Slim L V sh (f (h (ob p)))) : SlimH ob R L V (h.upd (ob p) f) := by
  intro q sh hq
  by_cases he : ob q = ob p
  · rw [he, upd_same]
    have hp : R.at p = some sh := by rw [← pl.same q p he]; exact hq
    exact hf sh hp (by rw [← he]; exact hh q sh hq)
  · rw [upd_other he]; exact hh q sh hq

theorem SlimH.keep (pl : Places R ob) {h : Heap} {p : Path} {f : Cell → Cell} (hh : SlimH ob R L V h)
    (hf : ∀ c : Cell, (f c).val = c.val ∧ (f c).curKey = c.curKey) : SlimH ob R L V (h.upd (ob p) f) :=
  hh.upd pl fun sh _ hs => by
    obtain ⟨h1, h2⟩ := hf (h (ob p))
    unfold Slim; rw [h1, h2]; exact hs

theorem SlimH.drop (pl : Places R ob) {h : Heap} {p : Path} {f : Cell → Cell} (hh : SlimH ob R L V h)
    (hf : ∀ c : Cell, (f c).val.size = 1 ∧ (f c).curKey = c.curKey) : SlimH ob R L V (h.upd (ob p) f) :=
  hh.upd pl fun sh _ hs => by
    obtain ⟨h1, h2⟩ := hf (h (ob p))
    unfold Slim; rw [h1, h2]; exact ⟨fun _ => cap_pos L V sh, hs.2⟩

mutual
theorem SlimH.resetH (pl : Places R ob) : ∀ (sh : Shape) (p : Path) {h : Heap}, SlimH ob R L V h → SlimH ob R L V (resetH ob p sh h)
  | .value _, p, h, hh => hh.keep pl fun _ => ⟨rfl, rfl⟩
  | .ignore, p, h, hh => hh.keep pl fun _ => ⟨rfl, rfl⟩
  | .object k _ ms, p, h, hh => by
    have h1 : SlimH ob R L V (h.upd (ob p) Cell.baseReset) := hh.keep pl fun _ => ⟨rfl, rfl⟩
    have h2 := SlimH.resetMs pl ms p 0 h1
    have h3 : SlimH ob R L V (Heap.upd _ (ob (.ign :: p)) fun c => { c.baseReset with struct := [] }) := h2.keep pl fun _ => ⟨rfl, rfl⟩
    cases k
    · exact h3
    · exact h3.drop pl (f := fun c => { c with val := .init }) fun _ => ⟨rfl, rfl⟩
    · exact h3.drop pl (f := fun c => { c with val := .init }) fun _ => ⟨rfl, rfl⟩
  | .union _ _ st ms, p, h, hh => by
    have h0 : SlimH ob R L V (h.upd (ob p) fun c => { c with curId := 0 }) := hh.keep pl fun _ => ⟨rfl, rfl⟩
    have h1 : SlimH ob R L V (Heap.upd _ (ob p) Cell.baseReset) := h0.keep pl fun _ => ⟨rfl, rfl⟩
    have h2 := SlimH.resetMs pl ms p 0 h1
    have h3 : SlimH ob R L V (Heap.upd _ (ob (.ign :: p)) fun c => { c.baseReset with struct := [] }) := h2.keep pl fun _ => ⟨rfl, rfl⟩
    cases st
    · exact h3
    · exact h3.drop pl (f := fun c => { c with val := .init }) fun _ => ⟨rfl, rfl⟩
  | .array st e, p, h, hh => by
    have h1 : SlimH ob R L V (h.upd (ob p) Cell.baseReset) := hh.keep pl fun _ => ⟨rfl, rfl⟩
    have h2 := SlimH.resetH pl e (.elem :: p) h1
    cases st
    · exact h2
    · exact h2.drop pl (f := fun c => { c with val := .arr [] }) fun _ => ⟨rfl, rfl⟩
  | .map st e, p, h, hh => by
    have h1 : SlimH ob R L V (h.upd (ob p) Cell.baseReset) := hh.keep pl fun _ => ⟨rfl, rfl⟩
    cases st
    · exact h1
    · exact h1.drop pl (f := fun c => { c with val := .map [] }) fun _ => ⟨rfl, rfl⟩
theorem SlimH.resetMs (pl : Places R ob) : ∀ (ms : List (MInfo × Shape)) (p : Path) (n : Nat) {h : Heap}, SlimH ob R L V h → SlimH ob R L V (resetMs ob p n ms h)
  | [], p, n, h, hh => hh
  | (_, sh) :: ms, p, n, h, hh => SlimH.resetMs pl ms p (n + 1) (SlimH.resetH pl sh (.mem n :: p) hh)
end

mutual
theorem SlimH.setDispH (pl : Places R ob) : ∀ (sh : Shape) (p : Path) {h : Heap}, SlimH ob R L V h → SlimH ob R L V (setDispH ob p sh h)
  | .value _, p, h, hh => hh.keep pl fun _ => ⟨rfl, rfl⟩
  | .ignore, p, h, hh => hh.keep pl fun _ => ⟨rfl, rfl⟩
  | .array _ _, p, h, hh => hh.keep pl fun _ => ⟨rfl, rfl⟩
  | .object k _ ms, p, h, hh => by
    have h1 : SlimH ob R L V (h.upd (ob p) fun c => { c with disp := true }) := hh.keep pl fun _ => ⟨rfl, rfl⟩
    exact (SlimH.setDispMs pl ms p 0 h1).keep pl fun _ => ⟨rfl, rfl⟩
  | .union _ _ st ms, p, h, hh => by
    have h1 : SlimH ob R L V (h.upd (ob p) fun c => { c with disp := true }) := hh.keep pl fun _ => ⟨rfl, rfl⟩
    exact (SlimH.setDispMs pl ms p 0 h1).keep pl fun _ => ⟨rfl, rfl⟩
  | .map st e, p, h, hh => by
    have h1 : SlimH ob R L V (h.upd (ob p) fun c => { c with disp := true }) := hh.keep pl fun _ => ⟨rfl, rfl⟩
    exact SlimH.setDispH pl e (.elem :: p) h1
theorem SlimH.setDispMs (pl : Places R ob) : ∀ (ms : List (MInfo × Shape)) (p : Path) (n : Nat) {h : Heap}, SlimH ob R L V h → SlimH ob R L V (setDispMs ob p n ms h)
  | [], p, n, h, hh => hh
  | (_, sh) :: ms, p, n, h, hh => SlimH.setDispMs pl ms p (n + 1) (SlimH.setDispH pl sh (.mem n :: p) hh)
end

/-! ### Computations -/

/-- The computation keeps the sizes within their bounds, and its result satisfies `Q`. -/
def HoldsR {α} (I : Heap → Prop) (Q : α → Prop) : Res α → Prop
  | .ok a s' => I s'.heap ∧ Q a
  | .throw _ s' => I s'.heap
  | _ => True

/-- The computation keeps the sizes within their bounds, and its result satisfies `Q`. -/
def Holds {α} (I : Heap → Prop) (Q : α → Prop) (m : M α) : Prop := ∀ s, I s.heap → HoldsR I Q (m s)

variable {I : Heap → Prop}

theorem Holds.bind {α β} {Q : α → Prop} {Q' : β → Prop} {m : M α} {f : α → M β} (hm : Holds I Q m) (hf : ∀ a, Q a → Holds I Q' (f a)) : Holds I Q' (M.bind m f) := by
  intro s hs
  have h1 := hm s hs
  unfold M.bind
  cases h : m s with
  | ok a s' => rw [h] at h1; exact hf a h1.2 s' h1.1
  | throw e s' => rw [h] at h1; exact h1
  | ub => trivial
  | fuel => trivial

theorem Holds.pure {α} {Q : α → Prop} {a : α} (h : Q a) : Holds I Q (M.pure a) := fun s hs => ⟨hs, h⟩
theorem Holds.throwStd {α} {Q : α → Prop} (m : String) : Holds I Q (throwStd m) := fun s hs => hs
theorem Holds.unexpected {Q : Unit → Prop} (t : Token) : Holds I Q (unexpected t) := fun s hs => hs
theorem Holds.ub {α} {Q : α → Prop} : Holds I Q (fun _ => .ub : M α) := fun s hs => trivial
theorem Holds.weaken {α} {Q Q' : α → Prop} {m : M α} (h : Holds I Q m) (hq : ∀ a, Q a → Q' a) : Holds I Q' m := by
  intro s hs
  have := h s hs
  cases hm : m s with
  | ok a s' => rw [hm] at this; exact ⟨this.1, hq _ this.2⟩
  | throw e s' => rw [hm] at this; exact this
  | ub => trivial
  | fuel => trivial
theorem Holds.ite {α} {Q : α → Prop} {c : Prop} [Decidable c] {a b : M α} (ha : Holds I Q a) (hb : Holds I Q b) : Holds I Q (if c then a else b) := by
  split <;> assumption
theorem Holds.modH {f : Heap → Heap} (hf : ∀ h, I h → I (f h)) : Holds I (fun _ => True) (modH f) := fun s hs => ⟨hf _ hs, trivial⟩
theorem Holds.modC {p : Path} {f : Cell → Cell} (hf : ∀ h, I h → I (h.upd p f)) : Holds I (fun _ => True) (modC p f) := fun s hs => ⟨hf _ hs, trivial⟩
theorem Holds.push (p : Path) : Holds I (fun _ => True) (pushParser p) := fun s hs => ⟨hs, trivial⟩
theorem Holds.getC (p : Path) : Holds I (fun c => ∃ h, I h ∧ c = h p) (getC p) := fun s hs => ⟨hs, s.heap, hs, rfl⟩
theorem Holds.get {α} {Q : α → Prop} {p : Path} {f : Cell → M α} (hf : ∀ c, Holds I Q (f c)) : Holds I Q (M.bind (SJ.getC p) f) := (Holds.getC p).bind fun c _ => hf c

theorem Holds.popVal (hf : ∀ h p, I h → I (h.upd p fun c => { c with set := false, val := .moved })) (p : Path) :
    Holds I (fun v => ∃ h, I h ∧ v = (h p).val) (popVal p) := by
  intro s hs
  unfold SJ.popVal
  by_cases h : (s.heap p).set
  · rw [if_pos h]; exact ⟨hf _ _ hs, s.heap, hs, rfl⟩
  · rw [if_neg h]; exact hs

theorem Holds.verdict {v w} {s : St} (h : I s.heap) : HoldsR I (fun _ => True) (SJ.verdict v w s) := by
  cases v
  · exact ⟨h, trivial⟩
  · exact h
  · exact h

theorem Holds.currentMemberId (p : Path) : Holds I (fun _ => True) (currentMemberId p) := by
  intro s hs
  unfold SJ.currentMemberId
  by_cases h : (s.heap p).set
  · rw [if_pos h]; exact ⟨hs, trivial⟩
  · rw [if_neg h]; exact hs

theorem Holds.unsetOnThrow {α} {Q : α → Prop} {p : Path} {m : M α} (h : Holds I Q m) (hf : ∀ h, I h → I (h.upd p fun c => { c with set := false })) :
    Holds I Q (unsetOnThrow p m) := by
  intro s hs; have := h s hs; unfold SJ.unsetOnThrow
  cases h' : m s with
  | throw e s' => rw [h'] at this; exact hf _ this
  | ok a s' => rw [h'] at this; exact this
  | ub => trivial
  | fuel => trivial

theorem Holds.wrapOnThrow {α} {Q : α → Prop} {p : Path} {m : M α} (h : Holds I Q m) (hf : ∀ h, I h → I (h.upd p fun c => { c with set := false })) :
    Holds I Q (wrapOnThrow p m) := by
  intro s hs; have := h s hs; unfold SJ.wrapOnThrow
  cases h' : m s with
  | throw e s' => rw [h'] at this; exact hf _ this
  | ok a s' => rw [h'] at this; exact this
  | ub => trivial
  | fuel => trivial

theorem Holds.unlessEmpty {p : Path} {m : M Unit} (h : Holds I (fun _ => True) m) (hf : ∀ h, I h → I (h.upd p fun c => { c with set := false })) :
    Holds I (fun _ => True) (unlessEmpty p m) :=
  Holds.get fun c => Holds.ite (Holds.modC hf) h

abbrev Keeps (ob : Path → Path) (R : Shape) (L V : Nat) (m : M Unit) : Prop := Holds (SlimH ob R L V) (fun _ => True) m

theorem cbActs_slim (pl : Places R ob) : ∀ (qs : List FarAct) {h : Heap}, SlimH ob R L V h → SlimH ob R L V (cbActs ob R qs h)
  | [], h, hh => hh
  | .reset q :: qs, h, hh => by
    unfold cbActs
    split
    · exact cbActs_slim pl qs (hh.resetH pl _ _)
    · exact cbActs_slim pl qs hh
  | .pop q :: qs, h, hh => by
    unfold cbActs
    split
    · split
      · exact cbActs_slim pl qs (hh.drop pl fun _ => ⟨rfl, rfl⟩)
      · exact cbActs_slim pl qs hh
    · exact cbActs_slim pl qs hh

theorem finishCbVal_keeps (pl : Places R ob) (p : Path) : Keeps ob R L V (finishCbVal ob E R p) := by
  intro s hs
  unfold finishCbVal
  cases h : E.onFinish (ob p) with
  | none => exact ⟨hs, trivial⟩
  | some cb => simp only; exact Holds.verdict (I := SlimH ob R L V) (s := { s with heap := _, log := _ }) (cbActs_slim pl _ hs)

theorem elementCb_keeps (pl : Places R ob) (e : Shape) (p : Path) : Keeps ob R L V (elementCb ob E R e p) := by
  intro s hs
  unfold elementCb
  cases h : E.onElement (ob p) with
  | none => exact ⟨hs, trivial⟩
  | some cb => simp only; exact Holds.verdict (I := SlimH ob R L V) (s := { s with heap := _, log := _ }) (cbActs_slim pl _ hs)

theorem finishCbParser_keeps (pl : Places R ob) (hE : E.Modest V) {p : Path} {sh : Shape} {c : Bool} (hR : R.at p = some sh)
    (hc : c = true → ∃ u ms, sh = .object .custom u ms) : Keeps ob R L V (finishCbParser ob E R sh c p) := by
  intro s hs
  unfold finishCbParser
  cases h : E.onFinish (ob p) with
  | none => exact ⟨hs, trivial⟩
  | some cb =>
    simp only
    refine Holds.verdict (I := SlimH ob R L V) (s := { s with heap := _, log := _ }) ?_
    simp only
    split
    · rename_i v hv
      obtain ⟨u, ms, rfl⟩ := hc rfl
      refine SlimH.upd pl (cbActs_slim pl _ hs) fun sh' hR' h' => ?_
      rw [hR] at hR'; cases hR'
      exact ⟨fun _ => by simp only [cap]; have := hE _ _ _ _ _ _ h hv; omega, h'.2⟩
    · exact cbActs_slim pl _ hs

theorem unset_keeps (pl : Places R ob) (p : Path) (h : Heap) (hh : SlimH ob R L V h) : SlimH ob R L V (h.upd (ob p) fun c => { c with set := false }) :=
  hh.keep pl fun _ => ⟨rfl, rfl⟩

/-- A value taken out of the parser at `p`. -/
theorem popVal_slim (pl : Places R ob) {p : Path} {sh : Shape} (hR : R.at p = some sh) :
    Holds (SlimH ob R L V) (fun v => sh.flat = true → v.size ≤ cap L V sh) (popVal (ob p)) := by
  intro s hs
  unfold SJ.popVal
  by_cases h : (s.heap (ob p)).set
  · rw [if_pos h]; exact ⟨hs.drop pl fun _ => ⟨rfl, rfl⟩, (hs p sh hR).1⟩
  · rw [if_neg h]; exact hs

theorem setValues_slim (pl : Places R ob) (p : Path) : ∀ (ms : List (MInfo × Shape)) (n : Nat), flatMs ms = true →
    (∀ k i sh, ms[k]? = some (i, sh) → R.at (.mem (n + k) :: p) = some sh) →
    Holds (SlimH ob R L V) (fun vs => sizeL vs ≤ capMs L V ms) (setValues ob p n ms)
  | [], n, hf, hR => Holds.pure (by simp [sizeL, capMs])
  | (i, sh) :: ms, n, hf, hR => by
    simp only [flatMs, Bool.and_eq_true] at hf
    have h0 : R.at (.mem n :: p) = some sh := hR 0 i sh rfl
    unfold setValues
    refine (setValues_slim pl p ms (n + 1) hf.2 fun k i' sh' hk => by
      rw [show n + 1 + k = n + (k + 1) by omega]; exact hR (k + 1) i' sh' (by simpa using hk)).bind fun vs hvs => Holds.get fun c => Holds.ite ?_ (Holds.ite ?_ (Holds.throwStd _))
    · refine (popVal_slim pl h0).bind fun v hv => Holds.pure ?_
      have := hv hf.1
      simp only [sizeL, capMs]; omega
    · cases hd : i.dflt with
      | none => exact Holds.throwStd _
      | some d =>
        refine Holds.pure ?_
        simp only [sizeL, capMs, MInfo.dfltSize, hd]; omega

theorem setAlt_slim (pl : Places R ob) (p : Path) : ∀ (ms : List (MInfo × Shape)) (n : Nat), flatMs ms = true →
    (∀ k i sh, ms[k]? = some (i, sh) → R.at (.mem (n + k) :: p) = some sh) →
    Holds (SlimH ob R L V) (fun r => ∀ v, r = some v → v.size ≤ 1 + capMs L V ms) (setAlt ob p n ms)
  | [], n, hf, hR => Holds.pure (by simp)
  | (i, sh) :: ms, n, hf, hR => by
    simp only [flatMs, Bool.and_eq_true] at hf
    have h0 : R.at (.mem n :: p) = some sh := hR 0 i sh rfl
    unfold setAlt
    refine (setAlt_slim pl p ms (n + 1) hf.2 fun k i' sh' hk => by
      rw [show n + 1 + k = n + (k + 1) by omega]; exact hR (k + 1) i' sh' (by simpa using hk)).bind fun r hr =>
        (Holds.currentMemberId _).bind fun id _ => Holds.ite ?_ (Holds.get fun c => Holds.ite ?_ (Holds.ite ?_ (Holds.throwStd _)))
    · refine Holds.pure fun v hv => ?_
      have := hr v hv
      simp only [capMs]; omega
    · refine (popVal_slim pl h0).bind fun v hv => Holds.pure fun w hw => ?_
      injection hw with hw; subst hw
      have := hv hf.1
      simp only [Val.size, capMs]; omega
    · cases hd : i.dflt with
      | none => exact Holds.throwStd _
      | some d =>
        refine Holds.pure fun w hw => ?_
        injection hw with hw; subst hw
        simp only [Val.size, capMs, MInfo.dfltSize, hd]; omega

theorem setValues_keeps (pl : Places R ob) (p : Path) : ∀ (ms : List (MInfo × Shape)) (n : Nat), Holds (SlimH ob R L V) (fun _ => True) (setValues ob p n ms)
  | [], n => Holds.pure trivial
  | (i, sh) :: ms, n => by
    unfold setValues
    refine (setValues_keeps pl p ms (n + 1)).bind fun vs hvs => Holds.get fun c => Holds.ite ?_ (Holds.ite ?_ (Holds.throwStd _))
    · refine Holds.bind (Q := fun _ => True) ?_ fun v _ => Holds.pure trivial
      intro s hs
      unfold SJ.popVal
      by_cases h : (s.heap (ob (.mem n :: p))).set
      · rw [if_pos h]; exact ⟨hs.drop pl fun _ => ⟨rfl, rfl⟩, trivial⟩
      · rw [if_neg h]; exact hs
    · cases i.dflt
      · exact Holds.throwStd _
      · exact Holds.pure trivial

theorem setAlt_keeps (pl : Places R ob) (p : Path) : ∀ (ms : List (MInfo × Shape)) (n : Nat), Holds (SlimH ob R L V) (fun _ => True) (setAlt ob p n ms)
  | [], n => Holds.pure trivial
  | (i, sh) :: ms, n => by
    unfold setAlt
    refine (setAlt_keeps pl p ms (n + 1)).bind fun r _ =>
        (Holds.currentMemberId _).bind fun id _ => Holds.ite (Holds.pure trivial) (Holds.get fun c => Holds.ite ?_ (Holds.ite ?_ (Holds.throwStd _)))
    · refine Holds.bind (Q := fun _ => True) ?_ fun v _ => Holds.pure trivial
      intro s hs
      unfold SJ.popVal
      by_cases h : (s.heap (ob (.mem n :: p))).set
      · rw [if_pos h]; exact ⟨hs.drop pl fun _ => ⟨rfl, rfl⟩, trivial⟩
      · rw [if_neg h]; exact hs
    · cases i.dflt
      · exact Holds.throwStd _
      · exact Holds.pure trivial

theorem checkAlt_keeps (p : Path) : ∀ (ms : List (MInfo × Shape)) (n : Nat), Keeps ob R L V (checkAlt ob p n ms)
  | [], n => Holds.pure trivial
  | (i, sh) :: ms, n => by
    unfold checkAlt
    exact (checkAlt_keeps p ms (n + 1)).bind fun _ _ => (Holds.currentMemberId _).bind fun id _ =>
      Holds.ite (Holds.pure trivial) (Holds.get fun c => Holds.ite (Holds.throwStd _) (Holds.pure trivial))

/-- Storing a value. -/
theorem store_keeps (pl : Places R ob) {p : Path} {sh : Shape} {f : Cell → Cell} (hR : R.at p = some sh)
    (hf : ∀ c : Cell, Slim L V sh c → Slim L V sh (f c)) : Keeps ob R L V (modC (ob p) f) :=
  Holds.modC fun h hh => hh.upd pl fun sh' hR' h' => by rw [hR] at hR'; cases hR'; exact hf _ h'

theorem finish_keeps (pl : Places R ob) (hE : E.Modest V) {p : Path} {sh : Shape} (hR : R.at p = some sh) : Keeps ob R L V (finish ob E R sh p) := by
  cases sh with
  | value => exact finishCbVal_keeps pl p
  | ignore => exact Holds.pure trivial
  | object k u ms =>
    have hmem : ∀ k i sh, ms[k]? = some (i, sh) → R.at (.mem (0 + k) :: p) = some sh := fun k i sh h => by rw [Nat.zero_add]; exact at_mem_object hR h
    have chk : ∀ c : Bool, (c = true → k = .custom) → Keeps ob R L V (unlessEmpty (ob p) <|
      M.bind (unsetOnThrow (ob p) fun s =>
        match checkMembers ob s.heap p 0 ms with
        | some e => .throw (.std e) s
        | none => .ok () s) fun _ =>
      finishCbParser ob E R (.object k u ms) c p) := by
      intro c hc
      refine Holds.unlessEmpty (Holds.bind (Q := fun _ => True) (Holds.unsetOnThrow ?_ (unset_keeps pl p)) fun _ _ =>
        finishCbParser_keeps pl hE hR fun h => ⟨u, ms, by rw [hc h]⟩) (unset_keeps pl p)
      intro s hs
      simp only
      cases checkMembers ob s.heap p 0 ms with
      | none => exact ⟨hs, trivial⟩
      | some e => exact hs
    cases k with
    | plain => exact chk false (by simp)
    | custom => exact chk true (fun _ => rfl)
    | auto =>
      by_cases hf : flatMs ms = true
      · refine Holds.unlessEmpty ((Holds.wrapOnThrow (setValues_slim pl p ms 0 hf hmem) (unset_keeps pl p)).bind fun vs hvs => Holds.bind (Q := fun _ => True) ?_ fun _ _ => finishCbVal_keeps pl p) (unset_keeps pl p)
        exact store_keeps pl hR fun c hc => ⟨fun _ => by simp only [Val.size, cap]; omega, hc.2⟩
      · refine Holds.unlessEmpty ((Holds.wrapOnThrow (setValues_keeps pl p ms 0) (unset_keeps pl p)).bind fun vs hvs => Holds.bind (Q := fun _ => True) ?_ fun _ _ => finishCbVal_keeps pl p) (unset_keeps pl p)
        exact store_keeps pl hR fun c hc => ⟨fun h => absurd h (by simp only [Shape.flat]; exact hf), hc.2⟩
  | union ty tm st ms =>
    have hmem : ∀ k i sh, ms[k]? = some (i, sh) → R.at (.mem (0 + k) :: p) = some sh := fun k i sh h => by rw [Nat.zero_add]; exact at_mem_union hR h
    cases st with
    | false =>
      exact Holds.unlessEmpty (Holds.bind (Q := fun _ => True) (Holds.unsetOnThrow (checkAlt_keeps p ms 0) (unset_keeps pl p)) fun _ _ =>
        finishCbParser_keeps pl hE hR (by simp)) (unset_keeps pl p)
    | true =>
      by_cases hf : flatMs ms = true
      · refine Holds.unlessEmpty ((Holds.wrapOnThrow (setAlt_slim pl p ms 0 hf hmem) (unset_keeps pl p)).bind fun r hr => Holds.bind (Q := fun _ => True) ?_ fun _ _ => finishCbVal_keeps pl p) (unset_keeps pl p)
        cases r with
        | none => exact Holds.pure trivial
        | some v => exact store_keeps pl hR fun c hc => ⟨fun _ => by have := hr v rfl; simp only [cap]; omega, hc.2⟩
      · refine Holds.unlessEmpty ((Holds.wrapOnThrow (setAlt_keeps pl p ms 0) (unset_keeps pl p)).bind fun r hr => Holds.bind (Q := fun _ => True) ?_ fun _ _ => finishCbVal_keeps pl p) (unset_keeps pl p)
        cases r with
        | none => exact Holds.pure trivial
        | some v => exact store_keeps pl hR fun c hc => ⟨fun h => absurd h (by simp only [Shape.flat]; exact hf), hc.2⟩
  | array st e =>
    cases st with
    | true => exact finishCbVal_keeps pl p
    | false => exact finishCbParser_keeps pl hE hR (c := false) (by simp)
  | map st e => exact finishCbParser_keeps pl hE hR (c := false) (by simp)

theorem chain_keeps (pl : Places R ob) (hE : E.Modest V) : ∀ n : Nat,
    Keeps ob R L V (popParser ob E R n) ∧ (∀ p, Keeps ob R L V (childParsed ob E R n p)) ∧
    (∀ sh p, R.at p = some sh → Keeps ob R L V (endParsing ob E R n sh p)) ∧ Keeps ob R L V (dispatchMapEnd ob E R n) := by
  intro n
  induction n with
  | zero => exact ⟨fun s _ => trivial, fun p s _ => trivial, fun sh p _ s _ => trivial, fun s _ => trivial⟩
  | succ n ih =>
    obtain ⟨ih1, ih2, ih3, ih4⟩ := ih
    refine ⟨?_, ?_, ?_, ?_⟩
    · intro s hs
      unfold popParser
      match hst : s.stack with
      | [] => exact hs
      | [p] => exact ⟨hs, trivial⟩
      | p :: q :: r => exact ih2 q { s with stack := q :: r } hs
    · intro p
      cases hR : R.at p with
      | none => simp only [childParsed, hR]; exact Holds.ub
      | some sh =>
        have pop : Holds (SlimH ob R L V) (fun _ => True) (popVal (ob (.elem :: p))) := by
          intro s hs
          unfold SJ.popVal
          by_cases h : (s.heap (ob (.elem :: p))).set
          · rw [if_pos h]; exact ⟨hs.drop pl fun _ => ⟨rfl, rfl⟩, trivial⟩
          · rw [if_neg h]; exact hs
        cases sh with
        | array st e =>
          cases st with
          | false => simp only [childParsed, hR]; exact Holds.pure trivial
          | true =>
            simp only [childParsed, hR]
            refine pop.bind fun v _ => ?_
            exact store_keeps pl hR fun c hc => ⟨fun h => by simp [Shape.flat] at h, hc.2⟩
        | map st e =>
          cases st with
          | false => simp only [childParsed, hR]; exact elementCb_keeps pl e p
          | true =>
            simp only [childParsed, hR]
            refine (elementCb_keeps pl e p).bind fun _ _ => pop.bind fun v _ => ?_
            exact store_keeps pl hR fun c hc => ⟨fun h => by simp [Shape.flat] at h, hc.2⟩
        | union ty tm st ms =>
          simp only [childParsed, hR]
          exact (ih3 _ _ hR).bind fun _ _ => Holds.ite (Holds.get fun c => Holds.ite ih4 Holds.ub) (Holds.pure trivial)
        | _ => simp only [childParsed, hR]; exact Holds.pure trivial
    · intro sh p hR
      simp only [endParsing]
      refine Holds.bind (Q := fun _ => True) (Holds.modC fun h hh => hh.keep pl fun _ => ⟨rfl, rfl⟩) fun _ _ => (finish_keeps pl hE hR).bind fun _ _ =>
        Holds.get fun c => Holds.ite ih1 (Holds.pure trivial)
    · intro s hs
      rw [dispatchMapEnd]; dsimp only
      split
      · exact hs
      · rename_i p r _
        split
        · trivial
        · rename_i hR
          split
          · rename_i r' _
            have h0 : SlimH ob R L V (s.heap.upd (ob p) fun c => { c with struct := r' }) := hs.keep pl fun _ => ⟨rfl, rfl⟩
            split
            · exact ih3 .ignore p hR { s with heap := _ } h0
            · exact ⟨h0, trivial⟩
          · exact hs
        · rename_i hR; exact ih3 _ p hR s hs
        · rename_i hR; exact ih3 _ p hR s hs
        · rename_i hR; exact ih3 _ p hR s hs
        · exact hs

variable {f : Nat}

theorem onMember_keeps (pl : Places R ob) (u ms p x) : Holds (SlimH ob R L V) (fun _ => True) (onMember ob E u ms p x) := by
  unfold onMember
  refine Holds.bind (Q := fun _ => True) (Holds.modC fun h hh => hh.keep pl fun _ => ⟨rfl, rfl⟩) fun _ _ => Holds.get fun c => ?_
  cases lookup x 0 ms with
  | none => exact Holds.ite (Holds.throwStd _) (Holds.ite ((Holds.push _).bind fun _ _ => Holds.pure trivial) Holds.ub)
  | some a => exact Holds.ite ((Holds.push _).bind fun _ _ => Holds.pure trivial) Holds.ub

theorem on_keeps (pl : Places R ob) (hE : E.Modest V) (t : Token) (ht : t.bytes ≤ L) (sh : Shape) :
    ∀ p, R.at p = some sh → Keeps ob R L V (on ob E R f sh p t) := by
  have keep : ∀ (p : Path) (g : Cell → Cell), (∀ c : Cell, (g c).val = c.val ∧ (g c).curKey = c.curKey) → Keeps ob R L V (modC (ob p) g) :=
    fun p g hg => Holds.modC fun h hh => hh.keep pl hg
  have reset : ∀ p sh, Keeps ob R L V (modH (resetH ob p sh)) := fun p sh => Holds.modH fun h hh => hh.resetH pl sh p
  have null : ∀ p sh, Keeps ob R L V (onNullBase ob E R f sh p) := fun p sh =>
    (reset p sh).bind fun _ _ => Holds.get fun c => Holds.ite (chain_keeps pl hE f).1 (Holds.pure trivial)
  have fin : ∀ p sh, R.at p = some sh → Keeps ob R L V (endParsing ob E R f sh p) := fun p sh hR => (chain_keeps pl hE f).2.2.1 sh p hR
  induction sh using Shape.arrInd with
  | value ty =>
    intro p hR
    cases t with
    | null => exact null p _
    | scalar v =>
      simp only [on]
      refine Holds.ite (Holds.bind (Q := fun _ => True) (keep p _ fun _ => ⟨rfl, rfl⟩) fun _ _ => Holds.bind (Q := fun _ => True) ?_ fun _ _ => fin p _ hR) (Holds.unexpected _)
      exact store_keeps pl hR fun c hc => ⟨fun _ => by simp only [Val.size, cap]; simp only [Token.bytes] at ht; omega, hc.2⟩
    | _ => exact Holds.unexpected _
  | ignore =>
    intro p hR
    cases t with
    | null => exact null p _
    | scalar v => simp only [on]; exact Holds.get fun c => Holds.ite (fin p _ hR) (Holds.pure trivial)
    | mapStart => exact keep p _ fun _ => ⟨rfl, rfl⟩
    | arrStart => exact keep p _ fun _ => ⟨rfl, rfl⟩
    | mapKey k =>
      simp only [on]
      refine Holds.get fun c => ?_
      rcases c.struct with _ | ⟨_ | _, r⟩
      · exact Holds.unexpected _
      · exact Holds.unexpected _
      · exact Holds.pure trivial
    | mapEnd =>
      simp only [on]
      refine Holds.get fun c => ?_
      rcases c.struct with _ | ⟨_ | _, r⟩
      · exact Holds.unexpected _
      · exact Holds.unexpected _
      · exact Holds.bind (Q := fun _ => True) (keep p _ fun _ => ⟨rfl, rfl⟩) fun _ _ => Holds.ite (fin p _ hR) (Holds.pure trivial)
    | arrEnd =>
      simp only [on]
      refine Holds.get fun c => ?_
      rcases c.struct with _ | ⟨_ | _, r⟩
      · exact Holds.unexpected _
      · exact Holds.bind (Q := fun _ => True) (keep p _ fun _ => ⟨rfl, rfl⟩) fun _ _ => Holds.ite (fin p _ hR) (Holds.pure trivial)
      · exact Holds.unexpected _
  | object k u ms =>
    intro p hR
    cases t with
    | null => exact null p _
    | mapStart => exact reset p _
    | mapKey key => exact (onMember_keeps pl u ms p _).bind fun _ _ => Holds.pure trivial
    | mapEnd => exact fin p _ hR
    | _ => exact Holds.unexpected _
  | union ty tm st ms =>
    intro p hR
    cases t with
    | null => exact null p _
    | scalar v =>
      simp only [on]
      refine Holds.ite ((reset p _).bind fun _ _ => (onMember_keeps pl true ms p v).bind fun r _ => ?_) (Holds.unexpected _)
      cases r with
      | none => exact Holds.pure trivial
      | some n => exact keep p _ fun _ => ⟨rfl, rfl⟩
    | mapStart => exact Holds.ite (Holds.throwStd _) (reset p _)
    | mapKey key => exact Holds.ite (Holds.throwStd _) (Holds.ite (Holds.throwStd _) (Holds.pure trivial))
    | mapEnd => exact fin p _ hR
    | _ => exact Holds.unexpected _
  | map st e =>
    intro p hR
    cases t with
    | null => exact null p _
    | mapStart => exact reset p _
    | mapKey key =>
      simp only [on]
      refine Holds.bind (Q := fun _ => True) (keep p _ fun _ => ⟨rfl, rfl⟩) fun _ _ => Holds.get fun c => Holds.ite ((Holds.push _).bind fun _ _ => ?_) Holds.ub
      exact store_keeps pl hR fun c hc => ⟨hc.1, ht⟩
    | mapEnd => exact fin p _ hR
    | _ => exact Holds.unexpected _
  | array st e ih =>
    intro p hR
    have ihe := ih (.elem :: p) (at_elem_array hR)
    have disp : Keeps ob R L V (modH (setDispH ob (.elem :: p) e)) := Holds.modH fun h hh => hh.setDispH pl e (.elem :: p)
    have open_ : Keeps ob R L V (M.bind (setNotEmpty (ob p)) fun _ => M.bind (modH (setDispH ob (.elem :: p) e)) fun _ =>
        M.bind (pushParser (.elem :: p)) fun _ => on ob E R f e (.elem :: p) t) :=
      Holds.bind (Q := fun _ => True) (keep p _ fun _ => ⟨rfl, rfl⟩) fun _ _ => disp.bind fun _ _ => (Holds.push _).bind fun _ _ => ihe
    cases t with
    | null => simp only [on]; exact Holds.get fun c => Holds.ite (null p _) ihe
    | scalar v =>
      simp only [on]
      refine Holds.get fun c => Holds.ite (Holds.unexpected _) (ihe.bind fun _ _ => Holds.bind (Q := fun _ => True) ?_ fun _ _ => (chain_keeps pl hE f).2.1 p)
      exact keep p _ fun _ => ⟨rfl, rfl⟩
    | mapStart => simp only [on]; exact Holds.get fun c => Holds.ite (Holds.unexpected _) (Holds.ite Holds.ub open_)
    | arrStart =>
      simp only [on]
      refine Holds.get fun c => Holds.ite ((reset p _).bind fun _ _ => ?_) (Holds.ite Holds.ub open_)
      exact keep p _ fun _ => ⟨rfl, rfl⟩
    | arrEnd =>
      simp only [on]
      refine Holds.bind (Q := fun _ => True) ?_ fun _ _ => fin p _ hR
      exact keep p _ fun _ => ⟨rfl, rfl⟩
    | _ => exact Holds.unexpected _

theorem run_keeps (pl : Places R ob) (hE : E.Modest V) : ∀ (ts : List Token), (∀ t ∈ ts, t.bytes ≤ L) → Keeps ob R L V (run ob E R ts)
  | [], _ => Holds.pure trivial
  | t :: ts, ht => by
    refine Holds.bind (Q := fun _ => True) ?_ fun _ _ => run_keeps pl hE ts fun t' h' => ht t' (by simp [h'])
    intro s hs
    unfold dispatch
    split
    · exact hs
    · rename_i p _ _
      split
      · trivial
      · rename_i sh hR
        exact on_keeps pl hE t (ht t (by simp)) sh p hR s hs

theorem SlimH.fresh : SlimH ob R L V Heap.fresh := fun p sh _ => ⟨fun _ => cap_pos L V sh, by simp [Heap.fresh]⟩

theorem Modest.slim (pl : Places R ob) {s : St} (h : Modest ob R L V s) : SlimH ob R L V s.heap := by
  induction h with
  | init => exact SlimH.fresh.setDispH pl R []
  | @tokens E _ _ ts _ ht hE hr ih => have := run_keeps pl hE ts ht _ ih; rw [hr] at this; exact this.1
  | @failed E _ _ ts e _ ht hE hr ih => have := run_keeps pl hE ts ht _ ih; rw [hr] at this; exact this
  | restart _ ih => exact ih
  | @pop _ _ p _ _ _ hR _ hp ih => have := popVal_slim pl hR _ ih; unfold pop' at hp; rw [hp] at this; exact this.1
  | @reset _ p sh _ _ ih => exact SlimH.resetH pl sh p ih

end Shd

end SJ
