/-
A null in a place where this version of the library mishandles it makes the parser tree lose track of the
nesting of the document. For the trees of `Verif/SpecDefects.lean` this never goes unnoticed: from then on more
brackets are open in the document than the parsers on the stack wait for, until some token is
rejected.
-/
import Verif.Proofs.Control
import Verif.Proofs.Unsets
import Verif.Proofs.Typing
import Verif.SpecDefects

set_option linter.unusedVariables false

namespace SJ

variable {E : Env} {R : Shape}

/-! ## The grammar of JSON tokens -/

/-- The open brackets (`true`: a brace), innermost first, and whether a key (or the end of an object) comes next. -/
structure Gr where
  ctx : List Bool
  key : Bool

/-- After a value. -/
def Gr.after : List Bool → Gr
  | false :: C => ⟨false :: C, false⟩
  | C => ⟨C, true⟩

def gstep : Gr → Token → Option Gr
  | ⟨C, false⟩, t =>
    match t with
    | .null => some (.after C)
    | .scalar _ => some (.after C)
    | .mapStart => some ⟨true :: C, true⟩
    | .arrStart => some ⟨false :: C, false⟩
    | .arrEnd => match C with
      | false :: C' => some (.after C')
      | _ => none
    | _ => none
  | ⟨C, true⟩, t =>
    match t with
    | .mapKey _ => match C with
      | true :: _ => some ⟨C, false⟩
      | _ => none
    | .mapEnd => match C with
      | true :: C' => some (.after C')
      | _ => none
    | _ => none

def grun : Gr → List Token → Option Gr
  | g, [] => some g
  | g, t :: ts => (gstep g t).bind (grun · ts)

mutual
theorem grun_events : ∀ (j : Json) (C : List Bool) (ts : List Token), grun ⟨C, false⟩ (events j ++ ts) = grun (.after C) ts
  | .null, C, ts => rfl
  | .sc x, C, ts => rfl
  | .arr l, C, ts => by
    simp only [events, List.cons_append, List.append_assoc, List.nil_append]
    show grun ⟨false :: C, false⟩ _ = _
    rw [grun_elems]; rfl
  | .obj fs, C, ts => by
    simp only [events, List.cons_append, List.append_assoc, List.nil_append]
    show grun ⟨true :: C, true⟩ _ = _
    rw [grun_fields]; rfl
theorem grun_elems : ∀ (l : List Json) (C : List Bool) (ts : List Token),
    grun ⟨false :: C, false⟩ (elemEvents l ++ ts) = grun ⟨false :: C, false⟩ ts
  | [], C, ts => rfl
  | j :: l, C, ts => by
    simp only [elemEvents, List.append_assoc]
    rw [grun_events]
    exact grun_elems l C ts
theorem grun_fields : ∀ (fs : List (String × Json)) (C : List Bool) (ts : List Token),
    grun ⟨true :: C, true⟩ (fieldEvents fs ++ ts) = grun ⟨true :: C, true⟩ ts
  | [], C, ts => rfl
  | (k, j) :: fs, C, ts => by
    simp only [fieldEvents, List.cons_append, List.append_assoc]
    show grun ⟨true :: C, false⟩ _ = _
    rw [grun_events]
    exact grun_fields fs C ts
end

/-! ## Fewer brackets awaited than open -/

/-- `Behind K C`: the brackets `K` the parsers wait for are strictly fewer than the open brackets `C` of the document. An array that
is left over from a failed one may wait for its end in vain directly inside of an object. -/
inductive Behind : List Bool → List Bool → Prop
  | base {K K' x} : List.Sublist K K' → Behind K (x :: K')
  | skip {K C x} : Behind K C → Behind K (x :: C)
  | cons {K C x} : Behind K C → Behind (x :: K) (x :: C)
  | ghost {K C} : Behind K (true :: C) → Behind (false :: K) (true :: C)

theorem Behind.not_nil {K} : ¬ Behind K [] := by intro h; cases h

theorem Behind.drop {k K C} (h : Behind (k :: K) C) : Behind K C := by
  generalize hL : k :: K = L at h
  induction h generalizing k K with
  | base hs => subst hL; exact .base ((List.sublist_cons_self _ _).trans hs)
  | skip _ ih => exact .skip (ih hL)
  | cons h _ => injection hL with _ hL; subst hL; exact .skip h
  | ghost h _ => injection hL with _ hL; subst hL; exact h

theorem Behind.dropAll : ∀ {K' K C}, Behind (K' ++ K) C → Behind K C
  | [], K, C, h => h
  | k :: K', K, C, h => Behind.dropAll (K' := K') h.drop

theorem Behind.of_sub {K C : List Bool} {k} (h : List.Sublist (k :: K) C) : Behind K C := by
  cases C with
  | nil => cases h
  | cons x C =>
    cases h with
    | cons _ h => exact .base ((List.sublist_cons_self _ _).trans h)
    | cons_cons _ h => exact .base h

theorem Behind.close {x K C} (h : Behind (x :: K) (x :: C)) : Behind K C := by
  cases h with
  | base hs => exact .of_sub hs
  | skip h => exact h.drop
  | cons h => exact h

/-! ## The tree -/

theorem tightMs_mem : ∀ {ms : List (MInfo × Shape)}, tightMs ms = true → ∀ x ∈ ms, x.2.tight = true
  | [], _, x, hx => by simp at hx
  | (i, sh) :: ms, h, x, hx => by
    simp only [tightMs, Bool.and_eq_true] at h
    rcases List.mem_cons.1 hx with rfl | hx
    · exact h.1
    · exact tightMs_mem h.2 x hx

theorem tight_child {sh c : Shape} {st : Step} (h : sh.tight = true) (hc : sh.child st = some c) : c.tight = true := by
  have mem : ∀ (ms : List (MInfo × Shape)) (n : Nat), tightMs ms = true → ms[n]?.map (·.2) = some c → c.tight = true := by
    intro ms n h1 h2
    cases hx : ms[n]? with
    | none => rw [hx] at h2; simp at h2
    | some x =>
      rw [hx] at h2; simp at h2
      rw [← h2]; exact tightMs_mem h1 x (List.mem_of_getElem? hx)
  cases sh <;> cases st <;> simp only [Shape.child] at hc <;> simp only [Shape.tight, Bool.and_eq_true] at h
  all_goals first
    | (injection hc with hc; subst hc; first | rfl | exact h.1.1.1 | exact h)
    | exact mem _ _ h hc
    | exact mem _ _ h.2 hc
    | simp at hc

theorem tight_at (h : R.tight = true) : ∀ {q sh}, R.at q = some sh → sh.tight = true
  | [], sh, hs => by simp [Shape.at] at hs; subst hs; exact h
  | st :: q, sh, hs => by
    simp only [Shape.at] at hs
    cases hq : R.at q with
    | none => rw [hq] at hs; simp at hs
    | some sh' => rw [hq] at hs; exact tight_child (tight_at h hq) (by simpa using hs)

/-- The parser at `q` is a union. -/
def isU (R : Shape) (q : Path) : Bool :=
  match R.at q with
  | some (.union _ _ _ _) => true
  | _ => false

theorem isU_iff {q} : isU R q = true ↔ ∃ ty tm st ms, R.at q = some (.union ty tm st ms) := by
  unfold isU
  constructor
  · intro h; split at h
    · exact ⟨_, _, _, _, by assumption⟩
    · simp at h
  · rintro ⟨ty, tm, st, ms, h⟩; rw [h]

theorem not_isU {q sh} (hR : R.at q = some sh) (h : sh.isUnion = false) : isU R q = false := by
  cases sh <;> simp_all [isU, Shape.isUnion]

/-- The parent of a parser in the tree. -/
theorem at_parent {st q sh} (h : R.at (st :: q) = some sh) : ∃ sh', R.at q = some sh' ∧ sh'.child st = some sh := by
  simp only [Shape.at] at h
  cases hq : R.at q with
  | none => rw [hq] at h; simp at h
  | some sh' => rw [hq] at h; exact ⟨sh', rfl, by simpa using h⟩

/-- A union is a member of an object or the element of a map. -/
theorem union_parent (ht : R.watertight = true) {q ty tm b ms} (h : R.at q = some (.union ty tm b ms)) :
    tm = "" ∧ ∃ st o sho, q = st :: o ∧ R.at o = some sho ∧ sho.isKeyed = true ∧ sho.child st = some (.union ty tm b ms) := by
  simp only [Shape.watertight, Bool.and_eq_true] at ht
  refine ⟨?_, ?_⟩
  · have := tight_at ht.1.1 h; simp [Shape.tight] at this; exact this.1.1
  · cases q with
    | nil => simp [Shape.at] at h; rw [h] at ht; simp [Shape.isUnion] at ht
    | cons st o =>
      obtain ⟨sho, h1, h2⟩ := at_parent h
      refine ⟨st, o, sho, rfl, h1, ?_, h2⟩
      have ho := tight_at ht.1.1 h1
      cases sho <;> cases st <;> simp [Shape.child] at h2
      · rfl
      · obtain ⟨i, hi⟩ := h2
        simp [Shape.tight] at ho
        have := ho.1.2 _ _ (List.mem_of_getElem? hi)
        simp [Shape.isKeyed] at this
      · rw [h2] at ho; simp [Shape.tight, Shape.isUnion] at ho
      · rfl

/-- The members of a union are objects or maps. -/
theorem union_alt (ht : R.watertight = true) {q st sh} (hu : isU R q = true) (h : R.at (st :: q) = some sh) :
    sh.isKeyed = true ∨ sh = .ignore := by
  simp only [Shape.watertight, Bool.and_eq_true] at ht
  obtain ⟨ty, tm, b, ms, hq⟩ := isU_iff.1 hu
  obtain ⟨sh', h1, h2⟩ := at_parent h
  rw [hq] at h1; injection h1 with h1; subst h1
  have ho := tight_at ht.1.1 hq
  simp [Shape.tight] at ho
  cases st <;> simp [Shape.child] at h2
  · obtain ⟨i, hi⟩ := h2
    exact Or.inl (ho.1.2 _ _ (List.mem_of_getElem? hi))
  · exact Or.inr h2.symm

theorem array_elem (ht : R.watertight = true) {q st e} (h : R.at q = some (.array st e)) :
    e.isUser = true ∧ e.isUnion = false ∧ (e.isArray = true → st = true) := by
  simp only [Shape.watertight, Bool.and_eq_true] at ht
  have ho := tight_at ht.1.1 h
  simp [Shape.tight] at ho
  refine ⟨ho.1.1.2, ho.1.2, fun he => ?_⟩
  rcases ho.2 with h | h
  · exact h
  · rw [he] at h; simp at h

theorem no_union_array (ht : R.watertight = true) : ¬ HasUnionArray R := by
  rintro ⟨q, st, ty, tm, b, ms, h⟩
  have := (array_elem ht h).2.1
  simp [Shape.isUnion] at this

/-! ## The stack -/

/-- The parsers above `p` in the tree. -/
def anc : Path → List Path
  | [] => []
  | _ :: q => q :: anc q

theorem anc_shorter : ∀ {p q : Path}, q ∈ anc p → q.length < p.length
  | [], q, h => by simp [anc] at h
  | st :: p, q, h => by
    simp only [anc, List.mem_cons] at h
    rcases h with rfl | h
    · simp
    · have := anc_shorter h; simp; omega

theorem anc_below : ∀ {p q : Path}, q ∈ anc p → Below q p
  | [], q, h => by simp [anc] at h
  | st :: p, q, h => by
    simp only [anc, List.mem_cons] at h
    rcases h with rfl | h
    · exact Below.cons _ _
    · exact (anc_below h).trans (Below.cons _ _)

theorem anc_not_below {p q : Path} (h : q ∈ anc p) : ¬ Below p q := fun hb => by
  have := hb.length_le; have := anc_shorter h; omega

/-- The stack holds the parsers on the way to the root. -/
theorem Ctl.stack_anc (ht : R.watertight = true) {s : St} (h : Ctl R s) {p rest} (hs : s.stack = p :: rest) : rest = anc p := by
  have hl := h.linked
  rw [hs] at hl
  clear hs
  induction rest generalizing p with
  | nil => simp only [Stacked] at hl; subst hl; rfl
  | cons q r ih =>
    obtain ⟨h1, h2⟩ := hl
    rcases h1 with ⟨st, rfl⟩ | ⟨h1, _⟩
    · simp only [anc]; rw [← ih h2]
    · exact absurd h1 (no_union_array ht)

/-- The bracket a parser waits for. -/
def kindOf (R : Shape) (p : Path) : List Bool :=
  match R.at p with
  | some (.object _ _ _) => [true]
  | some (.map _ _) => [true]
  | some (.array _ _) => [false]
  | _ => []

/-- The brackets the parsers from `p` up wait for; for a member of a union it is the enclosing object that waits. -/
def bars (R : Shape) : Path → List Bool
  | [] => kindOf R []
  | st :: q => (if isU R q then [] else kindOf R (st :: q)) ++ bars R q

/-- The same for a stack. -/
def bst (R : Shape) : List Path → List Bool
  | [] => []
  | p :: _ => bars R p

/-- The brackets an ignore parser waits for. -/
def str (R : Shape) (h : Heap) (p : Path) : List Bool :=
  match R.at p with
  | some .ignore => (h p).struct
  | _ => []

theorem str_nil {h : Heap} {p} (hne : R.at p ≠ some .ignore) : str R h p = [] := by
  unfold str; split
  · exact absurd ‹_› hne
  · rfl

theorem parent_not_ignore {st q sh} (h : R.at (st :: q) = some sh) : R.at q ≠ some .ignore := by
  obtain ⟨sh', h1, h2⟩ := at_parent h
  rw [h1]; rintro h3; injection h3 with h3; subst h3
  cases st <;> simp [Shape.child] at h2

/-- What is left when the parser `p` at the top has been removed. -/
def Cut (R : Shape) (p : Path) (l : List Path) : Prop :=
  match p with
  | [] => l = []
  | st :: q => if isU R q then bars R (st :: q) = true :: bst R l else l = q :: anc q

/-- A stack on top of which there is an object, a map or an array. -/
def Top (R : Shape) (l : List Path) : Prop :=
  l = [] ∨ ∃ p, l = p :: anc p ∧ kindOf R p ≠ []

theorem kindOf_keyed {p sh} (hR : R.at p = some sh) (hk : sh.isKeyed = true) : kindOf R p = [true] := by
  cases sh <;> simp_all [kindOf, Shape.isKeyed]

theorem Cut.keyed {p l sh} (h : Cut R p l) (hR : R.at p = some sh) (hk : sh.isKeyed = true) : bars R p = true :: bst R l := by
  cases p with
  | nil => simp only [Cut] at h; subst h; simp only [bars, bst, kindOf_keyed hR hk]
  | cons st q =>
    simp only [Cut] at h
    split at h
    · exact h
    · rename_i hu; subst h; simp only [bars, if_neg hu, kindOf_keyed hR hk, bst]; rfl

theorem Cut.arr (ht : R.watertight = true) {p l st e} (h : Cut R p l) (hR : R.at p = some (.array st e)) : bars R p = false :: bst R l := by
  have hk : kindOf R p = [false] := by simp [kindOf, hR]
  cases p with
  | nil => simp only [Cut] at h; subst h; simp only [bars, bst, hk]
  | cons st q =>
    simp only [Cut] at h
    split at h
    · rename_i hu
      rcases union_alt ht hu hR with h1 | h1 <;> simp [Shape.isKeyed] at h1
    · rename_i hu; subst h; simp only [bars, if_neg hu, hk, bst]; rfl

theorem Behind.cut {p l C} (h : Behind (bars R p) C) (hc : Cut R p l) : Behind (bst R l) C := by
  cases p with
  | nil =>
    simp only [Cut] at hc; subst hc
    rw [← List.append_nil (bars R [])] at h
    exact h.dropAll
  | cons st q =>
    simp only [Cut] at hc
    split at hc
    · rw [hc] at h; exact h.drop
    · subst hc; exact h.dropAll

/-! ## Removing parsers from the stack -/

/-- Changes that do not concern the nesting: no array that is being read is set. -/
structure Mild (R : Shape) (h h' : Heap) : Prop where
  ctl : SameCtl h h'
  struct : ∀ q, (h' q).struct = (h q).struct ∨ (h' q).struct = []
  set : ∀ q st e, R.at q = some (.array st e) → (h' q).set = true → (h q).set = true ∨ (h q).started = false

theorem Mild.refl (h : Heap) : Mild R h h := ⟨SameCtl.refl _, fun _ => Or.inl rfl, fun _ _ _ _ h => Or.inl h⟩
theorem Mild.trans {h h' h'' : Heap} (a : Mild R h h') (b : Mild R h' h'') : Mild R h h'' where
  ctl := a.ctl.trans b.ctl
  struct q := by
    rcases b.struct q with h1 | h1
    · rw [h1]; exact a.struct q
    · exact Or.inr h1
  set q st e hR hs := by
    rcases b.set q st e hR hs with h1 | h1
    · exact a.set q st e hR h1
    · rw [(a.ctl q).2] at h1; exact Or.inr h1

theorem Mild.quiet {p} {h h' : Heap} (a : Quiet p h h') (b : NoSet h h') : Mild R h h' :=
  ⟨a.ctl, fun q => Or.inl (a.struct q), fun q _ _ _ hs => Or.inl (b q hs)⟩

theorem Mild.upd {h : Heap} {p f} (hf : ∀ c, (f c).disp = c.disp ∧ (f c).started = c.started ∧ (f c).struct = c.struct ∧
    ((f c).set = true → c.set = true)) : Mild R h (h.upd p f) :=
  Mild.quiet (Quiet.upd (p := p) fun c => ⟨(hf c).1, (hf c).2.1, (hf c).2.2.1⟩) (NoSet.upd fun c => (hf c).2.2.2)

theorem Mild.complete {sh p} {s s' : St} {a} (h : complete E sh p s = .ok a s')
    (hp : (∀ st e, R.at p ≠ some (.array st e)) ∨ (s.heap p).started = false) : Mild R s.heap s'.heap where
  ctl := ((Loc.complete sh p).ok h).2.ctl
  struct q := Or.inl (((Loc.complete sh p).ok h).2.struct q)
  set q st e hR hs := by
    by_cases hq : q = p
    · subst hq
      rcases hp with h1 | h1
      · exact absurd hR (h1 st e)
      · exact Or.inr h1
    · exact Or.inl (complete_noset h hq hs)

mutual
theorem resetH_struct : ∀ (sh : Shape) (p : Path) (h : Heap) (q : Path), (resetH p sh h q).struct = (h q).struct ∨ (resetH p sh h q).struct = []
  | .value _, p, h, q => by simp only [resetH, upd_apply]; split <;> simp [Cell.baseReset]
  | .ignore, p, h, q => by simp only [resetH, upd_apply]; split <;> simp
  | .object k u ms, p, h, q => by
    have h1 := resetMs_struct ms p 0 (h.upd p Cell.baseReset) q
    have h2 : ((h.upd p Cell.baseReset) q).struct = (h q).struct := by rw [upd_apply]; split <;> simp [Cell.baseReset]
    rw [h2] at h1
    have h3 : (((resetMs p 0 ms (h.upd p Cell.baseReset)).upd (.ign :: p) fun c => { c.baseReset with struct := [] }) q).struct = (h q).struct ∨
        (((resetMs p 0 ms (h.upd p Cell.baseReset)).upd (.ign :: p) fun c => { c.baseReset with struct := [] }) q).struct = [] := by
      rw [upd_apply]; split
      · exact Or.inr rfl
      · exact h1
    cases k <;> simp only [resetH]
    · exact h3
    · rw [upd_apply]; split <;> exact h3
    · rw [upd_apply]; split <;> exact h3
  | .union ty tm st ms, p, h, q => by
    have h1 := resetMs_struct ms p 0 ((h.upd p fun c => { c with curId := 0 }).upd p Cell.baseReset) q
    have h2 : (((h.upd p fun c => { c with curId := 0 }).upd p Cell.baseReset) q).struct = (h q).struct := by
      rw [upd_apply]; split <;> simp [Cell.baseReset, upd_apply] <;> split <;> rfl
    rw [h2] at h1
    have h3 : (((resetMs p 0 ms ((h.upd p fun c => { c with curId := 0 }).upd p Cell.baseReset)).upd (.ign :: p) fun c => { c.baseReset with struct := [] }) q).struct = (h q).struct ∨
        (((resetMs p 0 ms ((h.upd p fun c => { c with curId := 0 }).upd p Cell.baseReset)).upd (.ign :: p) fun c => { c.baseReset with struct := [] }) q).struct = [] := by
      rw [upd_apply]; split
      · exact Or.inr rfl
      · exact h1
    cases st <;> simp only [resetH, Bool.false_eq_true, if_false, if_true]
    · exact h3
    · rw [upd_apply]; split <;> exact h3
  | .array st e, p, h, q => by
    have h1 := resetH_struct e (.elem :: p) (h.upd p Cell.baseReset) q
    have h2 : ((h.upd p Cell.baseReset) q).struct = (h q).struct := by rw [upd_apply]; split <;> simp [Cell.baseReset]
    rw [h2] at h1
    cases st <;> simp only [resetH, Bool.false_eq_true, if_false, if_true]
    · exact h1
    · rw [upd_apply]; split <;> exact h1
  | .map st e, p, h, q => by
    have h2 : ((h.upd p Cell.baseReset) q).struct = (h q).struct := by rw [upd_apply]; split <;> simp [Cell.baseReset]
    cases st <;> simp only [resetH, Bool.false_eq_true, if_false, if_true]
    · exact Or.inl h2
    · rw [upd_apply]; split <;> exact Or.inl h2
theorem resetMs_struct : ∀ (ms : List (MInfo × Shape)) (p : Path) (n : Nat) (h : Heap) (q : Path),
    (resetMs p n ms h q).struct = (h q).struct ∨ (resetMs p n ms h q).struct = []
  | [], p, n, h, q => Or.inl rfl
  | (i, sh) :: ms, p, n, h, q => by
    rcases resetMs_struct ms p (n + 1) (resetH (.mem n :: p) sh h) q with h1 | h1
    · simp only [resetMs]; rw [h1]; exact resetH_struct sh _ h q
    · exact Or.inr h1
end

theorem Mild.reset (sh p) (h : Heap) : Mild R h (resetH p sh h) :=
  ⟨resetH_ctl _ _ _, resetH_struct _ _ _, fun q _ _ _ hs => Or.inl (resetH_noset _ _ _ q hs)⟩

/-- The successful removal of the parser at the top. -/
structure Popped (R : Shape) (p : Path) (s s' : St) : Prop where
  cut : Cut R p s'.stack
  top : Top R s'.stack
  mild : Mild R s.heap s'.heap
  sub : ∀ a ∈ s'.stack, a ∈ anc p
  keep : ∀ a ∈ anc p, a ∈ s'.stack ∨ ∀ st e, R.at a ≠ some (.array st e)
  elem : ∀ q e, p = .elem :: q → R.at q = some (.array true e) → (s.heap p).set = true

theorem bars_union (ht : R.watertight = true) {st q} (hu : isU R q = true) :
    ∃ st' o sho, q = st' :: o ∧ R.at o = some sho ∧ sho.isKeyed = true ∧ isU R o = false ∧ bars R (st :: q) = bars R o := by
  obtain ⟨ty, tm, b, ms, hq⟩ := isU_iff.1 hu
  obtain ⟨_, st', o, sho, rfl, h1, h2, _⟩ := union_parent ht hq
  have ho : isU R o = false := not_isU h1 (by cases sho <;> simp_all [Shape.isKeyed, Shape.isUnion])
  refine ⟨st', o, sho, rfl, h1, h2, ho, ?_⟩
  have hk : kindOf R (st' :: o) = [] := by simp only [kindOf, hq]
  simp only [bars, if_pos hu, ho, hk, List.nil_append]
  simp

theorem pop_cut (ht : R.watertight = true) : ∀ (n : Nat) {s s' : St} {p}, p.length ≤ n → Ctl R s → s.stack = p :: anc p →
    pop E R s = .ok () s' → Popped R p s s' := by
  intro n
  induction n with
  | zero =>
    intro s s' p hn h hs hp
    have : p = [] := List.eq_nil_of_length_eq_zero (by omega)
    subst this
    rw [pop_one (p := []) hs] at hp
    injection hp with _ hp; subst hp
    exact ⟨rfl, Or.inl rfl, Mild.refl _, by simp, by simp [anc], by simp⟩
  | succ n ih =>
    intro s s' p hn h hs hp
    cases p with
    | nil =>
      rw [pop_one (p := []) hs] at hp
      injection hp with _ hp; subst hp
      exact ⟨rfl, Or.inl rfl, Mild.refl _, by simp, by simp [anc], by simp⟩
    | cons st q =>
      simp only [anc] at hs
      rw [pop_cons hs] at hp
      obtain ⟨⟨shq, hq⟩, hdq⟩ := h.valid q (by simp [hs])
      obtain ⟨⟨shp, hRp⟩, _⟩ := h.valid (st :: q) (by simp [hs])
      -- nothing but the parser itself is removed
      have one : isU R q = false → kindOf R q ≠ [] → s'.stack = q :: anc q → Mild R s.heap s'.heap →
          (∀ e, st = .elem → R.at q = some (.array true e) → (s.heap (st :: q)).set = true) → Popped R (st :: q) s s' := by
        intro h1 h2 h3 h4 h5
        refine ⟨?_, ?_, h4, ?_, ?_, ?_⟩
        · simp only [Cut, h1]; exact h3
        · exact Or.inr ⟨q, h3, h2⟩
        · intro a ha; rw [h3] at ha; exact ha
        · intro a ha; rw [h3]; exact Or.inl ha
        · rintro q' e h6 h7
          injection h6 with h6 h8; subst h8
          exact h5 e h6 h7
      cases shq with
      | value ty => obtain ⟨sh', h1, h2⟩ := at_parent hRp; rw [hq] at h1; injection h1 with h1; subst h1; simp [Shape.child] at h2
      | ignore => exact absurd hq (parent_not_ignore hRp)
      | object k u ms =>
        rw [chP_object hq] at hp
        injection hp with _ hp; subst hp
        exact one (not_isU hq rfl) (by simp [kindOf, hq]) rfl (Mild.refl _) (by rintro e _ h6; rw [hq] at h6; simp at h6)
      | array b e =>
        rw [chP_arrChild hq] at hp
        have h1 := (Loc.arrChild b q).ok hp
        have h0 := NS.arrChild _ _ _ _ _ hp
        refine one (not_isU hq rfl) (by simp [kindOf, hq]) h1.1 (Mild.quiet h1.2 h0) ?_
        intro e' h5 h6
        subst h5
        rw [hq] at h6; injection h6 with h6; injection h6 with h6 h7
        subst h6
        simp only [arrChild, if_true] at hp
        obtain ⟨v, s1, h8, _⟩ := bind_ok_inv hp
        unfold popVal at h8
        split at h8
        · assumption
        · simp at h8
      | map b e =>
        rw [chP_mapChild hq] at hp
        have h1 := (Loc.mapChild b e q).ok hp
        have h0 := NS.mapChild _ _ _ _ _ _ hp
        exact one (not_isU hq rfl) (by simp [kindOf, hq]) h1.1 (Mild.quiet h1.2 h0) (by rintro e _ h6; rw [hq] at h6; simp at h6)
      | union ty tm b ms =>
        obtain ⟨htm, st', o, sho, hqo, ho, hk, _⟩ := union_parent ht hq
        have hu : isU R q = true := isU_iff.2 ⟨_, _, _, _, hq⟩
        rw [chP_union hq, if_pos htm] at hp
        obtain ⟨_, s1, h1, h2⟩ := bind_ok_inv hp
        rw [endP_pop (by exact hdq)] at h1
        obtain ⟨_, s2, h3, h4⟩ := bind_ok_inv h1
        have hs2 := complete_stack h3
        have m2 := Mild.complete (R := R) h3 (Or.inl (by intro st e; rw [hq]; simp))
        subst hqo
        simp only [anc] at hs2
        -- the union itself is removed
        have h5 : s1.stack = o :: anc o ∧ Mild R s2.heap s1.heap := by
          rw [pop_cons hs2] at h4
          cases sho <;> simp [Shape.isKeyed] at hk
          · rw [chP_object ho] at h4
            injection h4 with _ h4; subst h4
            exact ⟨rfl, Mild.refl _⟩
          · rw [chP_mapChild ho] at h4
            have h1 := (Loc.mapChild _ _ o).ok h4
            have h0 := NS.mapChild _ _ _ _ _ _ h4
            exact ⟨h1.1, Mild.quiet h1.2 h0⟩
        obtain ⟨hs1, m1⟩ := h5
        rw [bind_getC] at h2
        have hd1 : ∀ a, (s1.heap a).disp = (s.heap a).disp := fun a => by rw [(m1.ctl a).1, (m2.ctl a).1]
        rw [if_pos (by rw [hd1]; exact hdq)] at h2
        have hdo : (s1.heap o).disp = true := by rw [hd1]; exact (h.valid o (by rw [hs]; simp [anc])).2
        have h6 : endP E R sho o s1 = .ok () s' := by
          cases sho <;> simp [Shape.isKeyed] at hk
          · rw [mapEndD_object hs1 ho] at h2; exact h2
          · rw [mapEndD_map hs1 ho] at h2; exact h2
        rw [endP_pop hdo] at h6
        obtain ⟨_, s3, h7, h8⟩ := bind_ok_inv h6
        have hoa : ∀ st e, R.at o ≠ some (.array st e) := by
          intro st e; rw [ho]; rintro ⟨⟩; simp [Shape.isKeyed] at hk
        have m3 := Mild.complete (R := R) h7 (Or.inl hoa)
        have m0 : Mild R s.heap s3.heap := (m2.trans m1).trans m3
        have c3 : Ctl R s3 := h.shrink (by
          rw [complete_stack h7, hs1, hs]
          exact ((List.suffix_cons _ _).trans (List.suffix_cons _ _))) m0.ctl
        have r := ih (p := o) (by simp at hn; omega) c3 (by rw [complete_stack h7, hs1]) h8
        obtain ⟨_, o', _, hqo, _, _, _, hb⟩ := bars_union ht (st := st) hu
        injection hqo with _ hqo; subst hqo
        refine ⟨?_, r.top, m0.trans r.mild, ?_, ?_, ?_⟩
        · simp only [Cut, if_pos hu]
          rw [hb, r.cut.keyed ho hk]
        · intro a ha
          simp only [anc]
          exact List.mem_cons_of_mem _ (List.mem_cons_of_mem _ (r.sub a ha))
        · intro a ha
          simp only [anc, List.mem_cons] at ha
          rcases ha with rfl | rfl | ha
          · exact Or.inr fun st e => by rw [hq]; simp
          · exact Or.inr hoa
          · exact r.keep a ha
        · rintro q' e h9 h10
          injection h9 with _ h9; subst h9
          rw [hq] at h10; simp at h10

end SJ
