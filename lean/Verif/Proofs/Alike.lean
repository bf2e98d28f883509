/-
Two parsers of the same type with different pasts, side by side: the relation between their states, and that the local operations
keep it.
-/
import Verif.Proofs.Open
import Verif.Proofs.TidyStep
import Verif.SpecAlike

set_option linter.unusedVariables false

namespace SJ

variable {E : Env} {R : Shape} {L : List Path}

/-! ### Cells that matter -/

/-- `q` is below `a`, and there is no map from `a` on above `q`. -/
inductive Clear (R : Shape) (a : Path) : Path → Prop
  | refl : Clear R a a
  | step {q st} : Clear R a q → (∀ b e, R.at q ≠ some (.map b e)) → Clear R a (st :: q)

theorem Clear.under {a q} (h : Clear R a q) : Below a q := by
  induction h with
  | refl => exact Below.refl _
  | step _ _ ih => exact ih.trans (Below.cons _ _)

/-- Moving the upper end down. -/
theorem Clear.down {a q} (h : Clear R a q) : ∀ p, Below a p → Below p q → Clear R p q := by
  induction h with
  | refl =>
    intro p h1 h2
    have : p = a := List.IsSuffix.eq_of_length_le h2 h1.length_le
    subst this; exact .refl
  | @step q st _ hm ih =>
    intro p h1 h2
    rcases List.suffix_cons_iff.1 h2 with rfl | h2
    · exact .refl
    · exact .step (ih p h1 h2) hm

theorem Clear.trans {a p q} (h : Clear R a p) (h' : Clear R p q) : Clear R a q := by
  induction h' with
  | refl => exact h
  | step _ hm ih => exact .step ih hm

/-- The first step. -/
theorem Clear.not_map {a q st} (h : Clear R a q) (hb : Below (st :: a) q) : ∀ b e, R.at a ≠ some (.map b e) := by
  induction h with
  | refl => exact absurd hb below_self_cons
  | @step q st' hc hm ih =>
    rcases List.suffix_cons_iff.1 hb with h | h
    · injection h with h1 h2; subst h2; exact hm
    · exact ih h

theorem Clear.child_iff {p q st} (hm : ∀ b e, R.at p ≠ some (.map b e)) (hb : Below (st :: p) q) : Clear R p q ↔ Clear R (st :: p) q :=
  ⟨fun h => h.down _ (Below.cons _ _) hb, fun h => (Clear.step .refl hm).trans h⟩

theorem below_cases {p q : Path} (h : Below p q) : q = p ∨ ∃ st, Below (st :: p) q := by
  obtain ⟨l, rfl⟩ := h
  rcases List.eq_nil_or_concat l with rfl | ⟨l', x, rfl⟩
  · exact Or.inl rfl
  · exact Or.inr ⟨x, l', by simp⟩

def Live (R : Shape) (L : List Path) (q : Path) : Prop := ∃ a ∈ L, Clear R a q

theorem Live.mem {q} (h : q ∈ L) : Live R L q := ⟨q, h, .refl⟩
theorem Live.child {q st} (h : Live R L q) (hm : ∀ b e, R.at q ≠ some (.map b e)) : Live R L (st :: q) := by
  obtain ⟨a, h1, h2⟩ := h; exact ⟨a, h1, .step h2 hm⟩
theorem Live.clear {p q} (h : Live R L p) (hc : Clear R p q) : Live R L q := by
  obtain ⟨a, h1, h2⟩ := h; exact ⟨a, h1, h2.trans hc⟩
theorem Live.mono {L'} {q} (h : Live R L q) (hs : ∀ a ∈ L, a ∈ L') : Live R L' q := by
  obtain ⟨a, h1, h2⟩ := h; exact ⟨a, hs a h1, h2⟩

/-- The cells agree on everything that is read before it is written. -/
structure SameCell (sh : Shape) (c d : Cell) : Prop where
  set : c.set = d.set
  empty : c.empty = d.empty
  val : sh.isStorage = true → ((∀ ty, sh ≠ .value ty) ∨ c.set = true) → c.val = d.val
  cur : ∀ ty tm b ms, sh = .union ty tm b ms → c.curId = d.curId
  struct : sh = .ignore → c.struct = d.struct

theorem SameCell.ofReset (sh c d) : SameCell sh (resetCell sh c) (resetCell sh d) := by
  cases sh with
  | value ty => exact ⟨rfl, rfl, fun _ h => by simp [resetCell, Cell.baseReset] at h, by simp, by simp⟩
  | ignore => exact ⟨rfl, rfl, fun h => by simp [Shape.isStorage] at h, by simp, fun _ => rfl⟩
  | object k u ms =>
    cases k
    · exact ⟨rfl, rfl, fun h => by simp [Shape.isStorage] at h, by simp, by simp⟩
    · exact ⟨rfl, rfl, fun _ _ => rfl, by simp, by simp⟩
    · exact ⟨rfl, rfl, fun _ _ => rfl, by simp, by simp⟩
  | union ty tm b ms =>
    cases b
    · exact ⟨rfl, rfl, fun h => by simp [Shape.isStorage] at h, fun _ _ _ _ _ => rfl, by simp⟩
    · exact ⟨rfl, rfl, fun _ _ => rfl, fun _ _ _ _ _ => rfl, by simp⟩
  | array b e =>
    cases b
    · exact ⟨rfl, rfl, fun h => by simp [Shape.isStorage] at h, by simp, by simp⟩
    · exact ⟨rfl, rfl, fun _ _ => rfl, by simp, by simp⟩
  | map b e =>
    cases b
    · exact ⟨rfl, rfl, fun h => by simp [Shape.isStorage] at h, by simp, by simp⟩
    · exact ⟨rfl, rfl, fun _ _ => rfl, by simp, by simp⟩

/-! ### Heaps -/

structure HAlike (R : Shape) (L : List Path) (h h' : Heap) : Prop where
  started : ∀ q, (h q).started = (h' q).started
  cells : ∀ q sh, R.at q = some sh → Live R L q → SameCell sh (h q) (h' q)

theorem HAlike.mono {L'} {h h' : Heap} (a : HAlike R L' h h') (hs : ∀ a ∈ L, Live R L' a) : HAlike R L h h' :=
  ⟨a.started, fun q sh hR hl => a.cells q sh hR (by obtain ⟨b, hb, hc⟩ := hl; exact (hs b hb).clear hc)⟩

/-- A change of one cell on either side. -/
theorem HAlike.change {h h' h1 h1' : Heap} (a : HAlike R L h h') (p : Path) (e : ∀ q, q ≠ p → h1 q = h q) (e' : ∀ q, q ≠ p → h1' q = h' q)
    (hst : (h1 p).started = (h1' p).started) (hc : ∀ sh, R.at p = some sh → Live R L p → SameCell sh (h1 p) (h1' p)) : HAlike R L h1 h1' := by
  refine ⟨fun q => ?_, fun q sh hR hl => ?_⟩
  · by_cases hq : q = p
    · subst hq; exact hst
    · rw [e q hq, e' q hq]; exact a.started q
  · by_cases hq : q = p
    · subst hq; exact hc sh hR hl
    · rw [e q hq, e' q hq]; exact a.cells q sh hR hl

theorem HAlike.upd {h h' : Heap} (a : HAlike R L h h') (p : Path) (f g : Cell → Cell)
    (hst : (f (h p)).started = (g (h' p)).started) (hc : ∀ sh, R.at p = some sh → Live R L p → SameCell sh (f (h p)) (g (h' p))) :
    HAlike R L (h.upd p f) (h'.upd p g) :=
  a.change p (fun q hq => upd_other hq) (fun q hq => upd_other hq) (by simpa using hst) (by simpa using hc)

/-- A change that makes a cell agree that did not before. -/
theorem HAlike.add {h h' : Heap} (a : HAlike R L h h') (p : Path) (f g : Cell → Cell) {sh0} (hR : R.at p = some sh0)
    (hleaf : ∀ st, R.at (st :: p) = none)
    (hst : (f (h p)).started = (g (h' p)).started) (hc : SameCell sh0 (f (h p)) (g (h' p))) : HAlike R (p :: L) (h.upd p f) (h'.upd p g) := by
  refine ⟨fun q => ?_, fun q sh hq hl => ?_⟩
  · by_cases hq : q = p
    · subst hq; simpa using hst
    · rw [upd_other hq, upd_other hq]; exact a.started q
  · by_cases hqp : q = p
    · subst hqp; rw [hR] at hq; injection hq with hq; subst hq; simpa using hc
    · rw [upd_other hqp, upd_other hqp]
      obtain ⟨b, hb, hcl⟩ := hl
      rcases List.mem_cons.1 hb with rfl | hb
      · exfalso
        obtain ⟨st, hst'⟩ := (below_cases hcl.under).resolve_left hqp
        have h1 := hleaf st
        have h2 : ∀ r, Below (st :: b) r → R.at r = none := by
          rintro r ⟨l, rfl⟩
          induction l with
          | nil => exact h1
          | cons x l ih => simp [Shape.at, ih]
        rw [h2 q hst'] at hq; simp at hq
      · exact a.cells q sh hq ⟨b, hb, hcl⟩

/-! ### Reset -/

theorem at_below_some {p q : Path} (h : Below p q) {sh} (hq : R.at q = some sh) : ∃ c, R.at p = some c := by
  obtain ⟨l, rfl⟩ := h
  induction l generalizing sh with
  | nil => exact ⟨sh, hq⟩
  | cons x l ih =>
    simp only [List.cons_append, Shape.at, Option.bind_eq_some_iff] at hq
    obtain ⟨c, hc, _⟩ := hq
    exact ih hc

/-- Below a child, the reset of a parser that is no map is the reset of the child. -/
theorem resetH_child {sh p st c q} (h : Heap) (hm : ∀ b e, sh ≠ .map b e) (hc : sh.child st = some c) (hb : Below (st :: p) q) :
    resetH p sh h q = resetH (st :: p) c h q := by
  have hqp := ne_of_below_step hb
  have hp : ∀ (g : Cell → Cell) (h : Heap), h.upd p g q = h q := fun g h => upd_other hqp
  have key : ∀ (ms : List (MInfo × Shape)) (h : Heap) (h0 : Heap), (∀ r, r ≠ p → h0 r = h r) → (st = .ign ∧ c = .ignore ∨ ∃ n, st = .mem n ∧ ms[n]?.map (·.2) = some c) →
      ((resetMs p 0 ms h0).upd (.ign :: p) fun c => { c.baseReset with struct := [] }) q = resetH (st :: p) c h q := by
    intro ms h h0 h00 hst
    rcases hst with ⟨rfl, rfl⟩ | ⟨n, rfl, hn⟩
    · have e : resetMs p 0 ms h0 q = h q := by
        rw [resetMs_other ms p 0 h0 q fun m _ _ => below_disjoint (by simp) hb, h00 q hqp]
      rw [resetH, upd_apply, upd_apply, e]
    · cases hx : ms[n]? with
      | none => rw [hx] at hn; simp at hn
      | some x =>
        obtain ⟨i, sh'⟩ := x
        rw [hx] at hn; simp at hn; subst hn
        rw [upd_other (by rintro rfl; exact below_disjoint (st := .mem n) (st' := .ign) (by simp) hb (Below.refl _))]
        have hb' : Below (.mem (0 + n) :: p) q := by rw [Nat.zero_add]; exact hb
        rw [resetMs_at ms p 0 h0 n i sh' hx q hb', Nat.zero_add]
        exact resetH_ptw _ _ _ _ q (h00 q hqp)
  cases sh with
  | value => simp [Shape.child] at hc
  | ignore => simp [Shape.child] at hc
  | map b e => exact absurd rfl (hm b e)
  | array b e =>
    cases st with
    | elem =>
      simp [Shape.child] at hc; subst hc
      have e1 : resetH p (.array b e) h q = resetH (.elem :: p) e (h.upd p Cell.baseReset) q := by
        cases b <;> simp [resetH, upd_other hqp]
      rw [e1]; exact resetH_ptw _ _ _ _ q (upd_other hqp)
    | _ => simp [Shape.child] at hc
  | object k u ms =>
    have hst : st = .ign ∧ c = .ignore ∨ ∃ n, st = .mem n ∧ ms[n]?.map (·.2) = some c := by
      cases st with
      | mem n => exact Or.inr ⟨n, rfl, by simpa [Shape.child] using hc⟩
      | ign => exact Or.inl ⟨rfl, by simpa [Shape.child] using hc.symm⟩
      | elem => simp [Shape.child] at hc
    have := key ms h (h.upd p Cell.baseReset) (fun r hr => upd_other hr) hst
    cases k
    · exact this
    · simp only [resetH, upd_other hqp]; exact this
    · simp only [resetH, upd_other hqp]; exact this
  | union ty tm b ms =>
    have hst : st = .ign ∧ c = .ignore ∨ ∃ n, st = .mem n ∧ ms[n]?.map (·.2) = some c := by
      cases st with
      | mem n => exact Or.inr ⟨n, rfl, by simpa [Shape.child] using hc⟩
      | ign => exact Or.inl ⟨rfl, by simpa [Shape.child] using hc.symm⟩
      | elem => simp [Shape.child] at hc
    have := key ms h ((h.upd p fun c => { c with curId := 0 }).upd p Cell.baseReset) (fun r hr => by rw [upd_other hr, upd_other hr]) hst
    cases b
    · exact this
    · simp only [resetH, if_true, upd_other hqp]; exact this

/-- What a reset does: it resets the cells that are reached without passing through a map, and no other. -/
theorem resetH_clear (h : Heap) {q shq} (hq : R.at q = some shq) : ∀ (n : Nat) (p : Path) (sh : Shape), q.length ≤ p.length + n → R.at p = some sh → Below p q →
    (Clear R p q → resetH p sh h q = resetCell shq (h q)) ∧ (¬ Clear R p q → resetH p sh h q = h q) := by
  intro n
  induction n with
  | zero =>
    intro p sh hl hp hb
    have : p = q := List.IsSuffix.eq_of_length_le hb hl
    subst this
    rw [hp] at hq; injection hq with hq; subst hq
    exact ⟨fun _ => resetH_selfCell _ _ _, fun hn => absurd .refl hn⟩
  | succ n ih =>
    intro p sh hl hp hb
    rcases below_cases hb with rfl | ⟨st, hst⟩
    · rw [hp] at hq; injection hq with hq; subst hq
      exact ⟨fun _ => resetH_selfCell _ _ _, fun hn => absurd .refl hn⟩
    · obtain ⟨c, hc⟩ := at_below_some hst hq
      have hc' : sh.child st = some c := by simpa [Shape.at, hp] using hc
      by_cases hm : ∃ b e, sh = .map b e
      · obtain ⟨b, e, rfl⟩ := hm
        refine ⟨fun hcl => absurd hp (hcl.not_map hst b e), fun _ => ?_⟩
        have := ne_of_below_step hst
        cases b <;> simp [resetH, upd_other this]
      · have hm' : ∀ b e, sh ≠ .map b e := fun b e h => hm ⟨b, e, h⟩
        rw [resetH_child h hm' hc' hst, Clear.child_iff (fun b e h => hm' b e (by rw [hp] at h; injection h)) hst]
        exact ih (st :: p) c (by simp; omega) hc hst

theorem HAlike.reset {h h' : Heap} (a : HAlike R L h h') {p sh} (hp : R.at p = some sh) : HAlike R (p :: L) (resetH p sh h) (resetH p sh h') := by
  refine ⟨fun q => ?_, fun q shq hq hl => ?_⟩
  · rw [(resetH_ctl sh p h q).2, (resetH_ctl sh p h' q).2]; exact a.started q
  · by_cases hb : Below p q
    · obtain ⟨h1, h2⟩ := resetH_clear h hq q.length p sh (by omega) hp hb
      obtain ⟨h1', h2'⟩ := resetH_clear h' hq q.length p sh (by omega) hp hb
      by_cases hc : Clear R p q
      · rw [h1 hc, h1' hc]; exact SameCell.ofReset _ _ _
      · rw [h2 hc, h2' hc]
        obtain ⟨b, hb', hcl⟩ := hl
        rcases List.mem_cons.1 hb' with rfl | hb'
        · exact absurd hcl hc
        · exact a.cells q shq hq ⟨b, hb', hcl⟩
    · rw [resetH_frame sh p h q hb, resetH_frame sh p h' q hb]
      obtain ⟨b, hb', hcl⟩ := hl
      rcases List.mem_cons.1 hb' with rfl | hb'
      · exact absurd hcl.under hb
      · exact a.cells q shq hq ⟨b, hb', hcl⟩

theorem HAlike.disp {h h' : Heap} (a : HAlike R L h h') (p sh p' sh') : HAlike R L (setDispH p sh h) (setDispH p' sh' h') := by
  refine ⟨fun q => ?_, fun q shq hq hl => ?_⟩
  · rw [(setDispH_only sh p h).started, (setDispH_only sh' p' h').started]; exact a.started q
  · have := a.cells q shq hq hl
    rcases setDispH_only sh p h q with e | e <;> rcases setDispH_only sh' p' h' q with e' | e' <;> rw [e, e'] <;>
      exact ⟨this.set, this.empty, this.val, this.cur, this.struct⟩

/-! ### What is seen -/

theorem node_congr {a a' b b' : Bool} {v v' : Option Val} {c c' : Option Nat} {k k' : List Snap} (h1 : a = a') (h2 : b = b') (h3 : v = v')
    (h4 : c = c') (h5 : k = k') : Snap.node a b v c k = Snap.node a' b' v' c' k' := by rw [h1, h2, h3, h4, h5]

theorem SameCell.shown {sh : Shape} {c d : Cell} (h : SameCell sh c d) (hs : sh.isStorage = true) :
    (if c.set then some c.val else none) = (if d.set then some d.val else none) := by
  rw [← h.set]
  cases hc : c.set with
  | false => rfl
  | true => simp [h.val hs (Or.inr hc)]

mutual
theorem snap_alike {h h' : Heap} (a : HAlike R L h h') : ∀ (sh : Shape) (p : Path), R.at p = some sh → Live R L p →
    (snap h p sh).cut sh = (snap h' p sh).cut sh
  | .value ty, p, hR, hl => by
    have hs := a.cells p _ hR hl
    simp only [snap, Snap.cut]
    exact node_congr hs.set hs.empty (hs.shown rfl) rfl rfl
  | .ignore, p, hR, hl => by
    have hs := a.cells p _ hR hl
    simp only [snap, Snap.cut]
    exact node_congr hs.set hs.empty rfl rfl rfl
  | .object k u ms, p, hR, hl => by
    have hs := a.cells p _ hR hl
    simp only [snap, Snap.cut]
    refine node_congr hs.set hs.empty ?_ rfl (snapMs_alike a ms p 0 fun m i sh hm => ⟨by rw [Nat.zero_add]; exact at_mem_object hR hm, ?_⟩)
    · cases k
      · rfl
      · exact hs.shown rfl
      · exact hs.shown rfl
    · exact hl.child fun b e hb => by rw [hR] at hb; simp at hb
  | .union ty tm st ms, p, hR, hl => by
    have hs := a.cells p _ hR hl
    simp only [snap, Snap.cut]
    refine node_congr hs.set hs.empty ?_ ?_ (snapMs_alike a ms p 0 fun m i sh hm => ⟨by rw [Nat.zero_add]; exact at_mem_union hR hm, ?_⟩)
    · cases st
      · rfl
      · exact hs.shown rfl
    · rw [hs.set, hs.cur _ _ _ _ rfl]
    · exact hl.child fun b e hb => by rw [hR] at hb; simp at hb
  | .array st e, p, hR, hl => by
    have hs := a.cells p _ hR hl
    simp only [snap, Snap.cut, List.map]
    refine node_congr hs.set hs.empty ?_ rfl ?_
    · cases st
      · rfl
      · exact hs.shown rfl
    · rw [snap_alike a e (.elem :: p) (at_elem_array hR) (hl.child fun b e hb => by rw [hR] at hb; simp at hb)]
  | .map st e, p, hR, hl => by
    have hs := a.cells p _ hR hl
    simp only [snap, Snap.cut]
    refine node_congr hs.set hs.empty ?_ rfl rfl
    cases st
    · rfl
    · exact hs.shown rfl
theorem snapMs_alike {h h' : Heap} (a : HAlike R L h h') : ∀ (ms : List (MInfo × Shape)) (p : Path) (n : Nat),
    (∀ (m : Nat) i sh, ms[m]? = some (i, sh) → R.at (.mem (n + m) :: p) = some sh ∧ Live R L (.mem (n + m) :: p)) →
    cutMs ms (snapMs h p n ms) = cutMs ms (snapMs h' p n ms)
  | [], p, n, _ => rfl
  | (i, sh) :: ms, p, n, hm => by
    simp only [snapMs, cutMs]
    have h0 := hm 0 i sh rfl
    rw [Nat.add_zero] at h0
    rw [snap_alike a sh (.mem n :: p) h0.1 h0.2, snapMs_alike a ms p (n + 1) fun m i' sh' hm' => by
      have := hm (m + 1) i' sh' (by simpa using hm')
      rw [show n + 1 + m = n + (m + 1) by omega]; exact this]
end

/-! ### States -/

/-- Dispatcher pointers and current keys are kept. -/
def Sedate (h h' : Heap) : Prop := ∀ q, (h' q).disp = (h q).disp ∧ (h' q).curKey = (h q).curKey

theorem Sedate.refl (h) : Sedate h h := fun _ => ⟨rfl, rfl⟩
theorem Sedate.trans {h h' h''} (a : Sedate h h') (b : Sedate h' h'') : Sedate h h'' :=
  fun q => ⟨(b q).1.trans (a q).1, (b q).2.trans (a q).2⟩
theorem Sedate.upd {h : Heap} {p f} (hf : ∀ c, (f c).disp = c.disp ∧ (f c).curKey = c.curKey) : Sedate h (h.upd p f) := by
  intro q; rw [upd_apply]; split
  · exact hf _
  · exact ⟨rfl, rfl⟩

/-- The two parsers have the same current parsers, their callbacks were called in the same way, the cells reached from `L` agree, and so do
the keys read last by the maps in `K`. -/
structure Alike (R : Shape) (L K : List Path) (s t : St) : Prop where
  stack : s.stack = t.stack
  log : Log.cut R s.log = Log.cut R t.log
  heap : HAlike R L s.heap t.heap
  tree : ∀ p ∈ s.stack, InTree R p
  dispS : ∀ p ∈ s.stack, (s.heap p).disp = true
  dispT : ∀ p ∈ s.stack, (t.heap p).disp = true
  nested : Stacked ChildOf s.stack
  keys : ∀ p ∈ K, (∃ st e, R.at p = some (.map st e)) → (s.heap p).curKey = (t.heap p).curKey

variable {K : List Path}

theorem Alike.locally {s t : St} (a : Alike R L K s t) {l l' : Log} (hl : Log.cut R l = Log.cut R l') {L'} {h h' : Heap}
    (hh : HAlike R L' h h') (k1 : Sedate s.heap h) (k2 : Sedate t.heap h') :
    Alike R L' K { heap := h, stack := s.stack, log := l } { heap := h', stack := t.stack, log := l' } where
  stack := a.stack
  log := hl
  heap := hh
  tree := a.tree
  dispS := fun p hp => by rw [(k1 p).1]; exact a.dispS p hp
  dispT := fun p hp => by rw [(k2 p).1]; exact a.dispT p hp
  nested := a.nested
  keys := fun p hp hm => by rw [(k1 p).2, (k2 p).2]; exact a.keys p hp hm

theorem Alike.mono {s t : St} {L' K'} (a : Alike R L' K' s t) (h1 : ∀ a ∈ L, Live R L' a) (h2 : ∀ a ∈ K, (∃ st e, R.at a = some (.map st e)) → a ∈ K') :
    Alike R L K s t :=
  ⟨a.stack, a.log, a.heap.mono h1, a.tree, a.dispS, a.dispT, a.nested, fun p hp hm => a.keys p (h2 p hp hm) hm⟩

/-- Both computations end in the same way, in related states. -/
def Both {α} (P : St → St → Prop) : Res α → Res α → Prop
  | .ok a s, .ok b t => a = b ∧ P s t
  | .throw e s, .throw e' t => e = e' ∧ P s t
  | .ub, .ub => True
  | .fuel, .fuel => True
  | _, _ => False

theorem Both.bind {α β} {P Q : St → St → Prop} {m m' : M α} {f f' : α → M β} {s t : St} (h : Both P (m s) (m' t))
    (hx : ∀ e s' t', m s = .throw e s' → m' t = .throw e t' → P s' t' → Q s' t')
    (hf : ∀ a s' t', m s = .ok a s' → m' t = .ok a t' → P s' t' → Both Q (f a s') (f' a t')) :
    Both Q (M.bind m f s) (M.bind m' f' t) := by
  unfold M.bind
  cases h1 : m s <;> cases h2 : m' t <;> rw [h1, h2] at h <;> try exact h.elim
  · obtain ⟨rfl, h⟩ := h; exact hf _ _ _ h1 h2 h
  · obtain ⟨rfl, h⟩ := h; exact ⟨rfl, hx _ _ _ h1 h2 h⟩
  · trivial
  · trivial

theorem Both.seq {α β} {P : St → St → Prop} {m m' : M α} {f f' : α → M β} {s t : St} (h : Both P (m s) (m' t))
    (hf : ∀ a s' t', m s = .ok a s' → m' t = .ok a t' → P s' t' → Both P (f a s') (f' a t')) :
    Both P (M.bind m f s) (M.bind m' f' t) := h.bind (fun _ _ _ _ _ h => h) hf

theorem Both.mono {α} {P Q : St → St → Prop} {r r' : Res α} (h : Both P r r') (hpq : ∀ s t, P s t → Q s t) : Both Q r r' := by
  cases r <;> cases r' <;> try exact h.elim
  · exact ⟨h.1, hpq _ _ h.2⟩
  · exact ⟨h.1, hpq _ _ h.2⟩
  · trivial
  · trivial

/-- The same with what is known of the final states. -/
theorem Both.ok_inv {α} {P : St → St → Prop} {r r' : Res α} (h : Both P r r') {a s} (hr : r = .ok a s) : ∃ t, r' = .ok a t ∧ P s t := by
  subst hr
  cases r' <;> try exact h.elim
  obtain ⟨rfl, h⟩ := h; exact ⟨_, rfl, h⟩

/-! ### Local operations -/

theorem Alike.upd {s t : St} (a : Alike R L K s t) {p : Path} {f g : Cell → Cell} (hf : ∀ c, (f c).disp = c.disp ∧ (f c).curKey = c.curKey)
    (hg : ∀ c, (g c).disp = c.disp ∧ (g c).curKey = c.curKey) (hst : (f (s.heap p)).started = (g (t.heap p)).started)
    (hc : ∀ sh, R.at p = some sh → Live R L p → SameCell sh (f (s.heap p)) (g (t.heap p))) :
    Alike R L K { s with heap := s.heap.upd p f } { t with heap := t.heap.upd p g } :=
  a.locally a.log (a.heap.upd p f g hst hc) (Sedate.upd hf) (Sedate.upd hg)

theorem Alike.setTrue {s t : St} (a : Alike R L K s t) {p sh} (hR : R.at p = some sh) (hv : sh.isStorage = true → (s.heap p).val = (t.heap p).val) :
    Alike R L K { s with heap := s.heap.upd p fun c => { c with set := true } } { t with heap := t.heap.upd p fun c => { c with set := true } } := by
  refine a.upd (fun _ => ⟨rfl, rfl⟩) (fun _ => ⟨rfl, rfl⟩) (a.heap.started p) fun sh' hR' hl => ?_
  rw [hR] at hR'; injection hR' with hR'; subst hR'
  have := a.heap.cells p _ hR hl
  exact ⟨rfl, this.empty, fun hs _ => hv hs, this.cur, this.struct⟩

theorem Alike.setFalse {s t : St} (a : Alike R L K s t) (p) :
    Alike R L K { s with heap := s.heap.upd p fun c => { c with set := false } } { t with heap := t.heap.upd p fun c => { c with set := false } } := by
  refine a.upd (fun _ => ⟨rfl, rfl⟩) (fun _ => ⟨rfl, rfl⟩) (a.heap.started p) fun sh hR hl => ?_
  have := a.heap.cells p _ hR hl
  exact ⟨rfl, this.empty, fun hs h => this.val hs (h.imp_right fun h => by simp at h), this.cur, this.struct⟩

theorem Alike.notEmpty {s t : St} (a : Alike R L K s t) (p) :
    Alike R L K { s with heap := s.heap.upd p fun c => { c with empty := false } } { t with heap := t.heap.upd p fun c => { c with empty := false } } := by
  refine a.upd (fun _ => ⟨rfl, rfl⟩) (fun _ => ⟨rfl, rfl⟩) (a.heap.started p) fun sh hR hl => ?_
  have := a.heap.cells p _ hR hl
  exact ⟨this.set, rfl, this.val, this.cur, this.struct⟩

theorem Alike.setVal {s t : St} (a : Alike R L K s t) (p) (f : Val → Val)
    (hf : ∀ sh, R.at p = some sh → Live R L p → sh.isStorage = true → f (s.heap p).val = f (t.heap p).val) :
    Alike R L K { s with heap := s.heap.upd p fun c => { c with val := f c.val } } { t with heap := t.heap.upd p fun c => { c with val := f c.val } } := by
  refine a.upd (fun _ => ⟨rfl, rfl⟩) (fun _ => ⟨rfl, rfl⟩) (a.heap.started p) fun sh hR hl => ?_
  have := a.heap.cells p _ hR hl
  exact ⟨this.set, this.empty, fun hs _ => hf sh hR hl hs, this.cur, this.struct⟩

theorem Alike.setCur {s t : St} (a : Alike R L K s t) (p) (n : Nat) :
    Alike R L K { s with heap := s.heap.upd p fun c => { c with curId := n } } { t with heap := t.heap.upd p fun c => { c with curId := n } } := by
  refine a.upd (fun _ => ⟨rfl, rfl⟩) (fun _ => ⟨rfl, rfl⟩) (a.heap.started p) fun sh hR hl => ?_
  have := a.heap.cells p _ hR hl
  exact ⟨this.set, this.empty, this.val, fun _ _ _ _ _ => rfl, this.struct⟩

theorem Alike.setStruct {s t : St} (a : Alike R L K s t) (p) (f : List Bool → List Bool) (hf : ∀ sh, R.at p = some sh → Live R L p → sh = .ignore →
      f (s.heap p).struct = f (t.heap p).struct) :
    Alike R L K { s with heap := s.heap.upd p fun c => { c with struct := f c.struct } } { t with heap := t.heap.upd p fun c => { c with struct := f c.struct } } := by
  refine a.upd (fun _ => ⟨rfl, rfl⟩) (fun _ => ⟨rfl, rfl⟩) (a.heap.started p) fun sh hR hl => ?_
  have := a.heap.cells p _ hR hl
  exact ⟨this.set, this.empty, this.val, this.cur, fun hs => hf sh hR hl hs⟩

theorem Alike.popVal {s t : St} (a : Alike R L K s t) {p sh} (hR : R.at p = some sh) (hl : Live R L p) (hs : sh.isStorage = true) :
    Both (Alike R L K) (popVal p s) (popVal p t) := by
  have hc := a.heap.cells p _ hR hl
  unfold SJ.popVal
  rw [← hc.set]
  by_cases h : (s.heap p).set = true
  · rw [if_pos h, if_pos h]
    refine ⟨hc.val hs (Or.inr h), a.upd (fun _ => ⟨rfl, rfl⟩) (fun _ => ⟨rfl, rfl⟩) (a.heap.started p) fun sh hR hl => ?_⟩
    have := a.heap.cells p _ hR hl
    exact ⟨rfl, this.empty, fun _ _ => rfl, this.cur, this.struct⟩
  · rw [if_neg h, if_neg h]
    exact ⟨rfl, a⟩

theorem cbPops_alike {sh0 : Shape} {p : Path} (hp : R.at p = some sh0) : ∀ (ps : List Path) (h h' : Heap), HAlike R L h h' →
    HAlike R L (cbPops sh0 p ps h) (cbPops sh0 p ps h')
  | [], h, h', a => a
  | rel :: ps, h, h', a => by
    unfold cbPops
    cases hrel : sh0.at rel with
    | none => exact cbPops_alike hp ps h h' a
    | some sh' =>
      simp only
      have hR : R.at (rel ++ p) = some sh' := by
        clear a
        induction rel generalizing sh' with
        | nil => simp [Shape.at] at hrel; subst hrel; exact hp
        | cons x rel ih =>
          simp only [Shape.at, Option.bind_eq_some_iff] at hrel
          obtain ⟨c, hc, hx⟩ := hrel
          simp [Shape.at, ih c hc, hx]
      have done : ∀ h1 h1' : Heap, (h1 = h ∨ ((h (rel ++ p)).set = true ∧ h1 = h.upd (rel ++ p) fun c => { c with set := false, val := .moved })) →
          (h1' = h' ∨ ((h' (rel ++ p)).set = true ∧ h1' = h'.upd (rel ++ p) fun c => { c with set := false, val := .moved })) →
          (Live R L (rel ++ p) → (h1 = h ∧ h1' = h') ∨ (h1 = h.upd (rel ++ p) fun c => { c with set := false, val := .moved }) ∧
            h1' = h'.upd (rel ++ p) fun c => { c with set := false, val := .moved }) → HAlike R L h1 h1' := by
        intro h1 h1' e e' hl
        by_cases hlive : Live R L (rel ++ p)
        · rcases hl hlive with ⟨rfl, rfl⟩ | ⟨rfl, rfl⟩
          · exact a
          · refine a.upd _ _ _ (a.started _) fun sh hR hl => ?_
            have := a.cells _ _ hR hl
            exact ⟨rfl, this.empty, fun _ _ => rfl, this.cur, this.struct⟩
        · refine a.change (rel ++ p) (fun q hq => ?_) (fun q hq => ?_) ?_ (fun _ _ h => absurd h hlive)
          · rcases e with rfl | ⟨_, rfl⟩
            · rfl
            · exact upd_other hq
          · rcases e' with rfl | ⟨_, rfl⟩
            · rfl
            · exact upd_other hq
          · have := a.started (rel ++ p)
            rcases e with rfl | ⟨_, rfl⟩ <;> rcases e' with rfl | ⟨_, rfl⟩ <;> simpa using this
      by_cases c1 : (sh'.isStorage && (h (rel ++ p)).set) = true <;> by_cases c2 : (sh'.isStorage && (h' (rel ++ p)).set) = true
      · rw [if_pos c1, if_pos c2]
        simp only [Bool.and_eq_true] at c1 c2
        exact cbPops_alike hp ps _ _ (done _ _ (Or.inr ⟨c1.2, rfl⟩) (Or.inr ⟨c2.2, rfl⟩) fun _ => Or.inr ⟨rfl, rfl⟩)
      · rw [if_pos c1, if_neg c2]
        simp only [Bool.and_eq_true] at c1 c2
        refine cbPops_alike hp ps _ _ (done _ _ (Or.inr ⟨c1.2, rfl⟩) (Or.inl rfl) fun hl => ?_)
        exact absurd ⟨c1.1, (a.cells _ _ hR hl).set ▸ c1.2⟩ c2
      · rw [if_neg c1, if_pos c2]
        simp only [Bool.and_eq_true] at c1 c2
        refine cbPops_alike hp ps _ _ (done _ _ (Or.inl rfl) (Or.inr ⟨c2.2, rfl⟩) fun hl => ?_)
        exact absurd ⟨c2.1, (a.cells _ _ hR hl).set ▸ c2.2⟩ c1
      · rw [if_neg c1, if_neg c2]
        exact cbPops_alike hp ps _ _ a

theorem cbPops_sedate (sh p) : ∀ (ps : List Path) (h : Heap), Sedate h (cbPops sh p ps h)
  | [], h => Sedate.refl _
  | rel :: ps, h => by
    unfold cbPops
    split
    · split
      · refine Sedate.trans (h' := h.upd (rel ++ p) fun c => { c with set := false, val := .moved }) (Sedate.upd fun _ => ⟨rfl, rfl⟩) ?_
        exact cbPops_sedate sh p ps _
      · exact cbPops_sedate sh p ps h
    · exact cbPops_sedate sh p ps h

theorem verdict_alike {v w} {s t : St} (a : Alike R L K s t) : Both (Alike R L K) (verdict v w s) (verdict v w t) := by
  cases v <;> exact ⟨rfl, a⟩

theorem Alike.finishCbVal {s t : St} (hb : Blind R E) (a : Alike R L K s t) {p} (hv : (s.heap p).val = (t.heap p).val) :
    Both (Alike R L K) (finishCbVal E p s) (finishCbVal E p t) := by
  unfold SJ.finishCbVal
  cases h : E.onFinish p with
  | none => exact ⟨rfl, a⟩
  | some cb =>
    simp only
    rw [hb.fin p cb h s.log t.log (.val (s.heap p).val) (.val (t.heap p).val) a.log (by rw [hv])]
    refine verdict_alike (a.locally ?_ a.heap (Sedate.refl _) (Sedate.refl _))
    show (_ :: _ : List Call) = _ :: _
    rw [hv]
    exact congrArg _ a.log

theorem Alike.finishCbParser {s t : St} (hb : Blind R E) (a : Alike R L K s t) {p sh} (hR : R.at p = some sh) (hl : Live R L p) (c : Bool) :
    Both (Alike R L K) (finishCbParser E sh c p s) (finishCbParser E sh c p t) := by
  unfold SJ.finishCbParser
  cases h : E.onFinish p with
  | none => exact ⟨rfl, a⟩
  | some cb =>
    simp only
    have hcut : (Call.finish p (.parser (snap s.heap p sh))).cut R = (Call.finish p (.parser (snap t.heap p sh))).cut R := by
      simp only [Call.cut, hR]; rw [snap_alike a.heap sh p hR hl]
    have hout := hb.fin p cb h s.log t.log _ _ a.log hcut
    rw [hout]
    have a1 := cbPops_alike (L := L) hR (cb t.log (Arg.parser (snap t.heap p sh))).pops _ _ a.heap
    have k1 := cbPops_sedate sh p (cb t.log (Arg.parser (snap t.heap p sh))).pops s.heap
    have k2 := cbPops_sedate sh p (cb t.log (Arg.parser (snap t.heap p sh))).pops t.heap
    have hlog : Log.cut R (Call.finish p (.parser (snap s.heap p sh)) :: s.log) = Log.cut R (Call.finish p (.parser (snap t.heap p sh)) :: t.log) := by
      show (_ :: _ : List Call) = _ :: _
      rw [hcut]; exact congrArg _ a.log
    refine verdict_alike (a.locally hlog ?_ ?_ ?_)
    · split
      · refine a1.upd p _ _ (a1.started p) fun sh' hR' hl' => ?_
        have := a1.cells p _ hR' hl'
        exact ⟨this.set, this.empty, fun _ _ => rfl, this.cur, this.struct⟩
      · exact a1
    · split
      · exact k1.trans (Sedate.upd fun _ => ⟨rfl, rfl⟩)
      · exact k1
    · split
      · exact k2.trans (Sedate.upd fun _ => ⟨rfl, rfl⟩)
      · exact k2

theorem Alike.elementCb {s t : St} (hb : Blind R E) (a : Alike R L K s t) {p e} (hR : R.at (.elem :: p) = some e) (hl : Live R L (.elem :: p))
    (hm : ∃ st e, R.at p = some (.map st e)) (hk : p ∈ K) : Both (Alike R L K) (elementCb E e p s) (elementCb E e p t) := by
  unfold SJ.elementCb
  cases h : E.onElement p with
  | none => exact ⟨rfl, a⟩
  | some cb =>
    simp only
    rw [a.keys p hk hm]
    have hcut : (Call.element p (t.heap p).curKey (snap s.heap (.elem :: p) e)).cut R = (Call.element p (t.heap p).curKey (snap t.heap (.elem :: p) e)).cut R := by
      simp only [Call.cut, hR]; rw [snap_alike a.heap e _ hR hl]
    rw [hb.elem p cb h s.log t.log _ _ _ a.log hcut]
    refine verdict_alike (a.locally ?_ (cbPops_alike hR _ _ _ a.heap) (cbPops_sedate _ _ _ _) (cbPops_sedate _ _ _ _))
    show (_ :: _ : List Call) = _ :: _
    rw [hcut]; exact congrArg _ a.log

theorem checkMembers_alike {h h' : Heap} (a : HAlike R L h h') (p : Path) : ∀ (ms : List (MInfo × Shape)) (n : Nat),
    (∀ (m : Nat) i sh, ms[m]? = some (i, sh) → R.at (.mem (n + m) :: p) = some sh ∧ Live R L (.mem (n + m) :: p)) →
    checkMembers h p n ms = checkMembers h' p n ms
  | [], n, _ => rfl
  | (i, sh) :: ms, n, hm => by
    have h0 := hm 0 i sh rfl
    rw [Nat.add_zero] at h0
    simp only [checkMembers]
    rw [checkMembers_alike a p ms (n + 1) fun m i' sh' hm' => by
      have := hm (m + 1) i' sh' (by simpa using hm')
      rw [show n + 1 + m = n + (m + 1) by omega]; exact this, (a.cells _ _ h0.1 h0.2).set]

theorem setValues_alike (p : Path) : ∀ (ms : List (MInfo × Shape)) (n : Nat),
    (∀ (m : Nat) i sh, ms[m]? = some (i, sh) → R.at (.mem (n + m) :: p) = some sh ∧ Live R L (.mem (n + m) :: p) ∧ sh.isStorage = true) →
    ∀ s t, Alike R L K s t → Both (Alike R L K) (setValues p n ms s) (setValues p n ms t)
  | [], n, _, s, t, a => ⟨rfl, a⟩
  | (i, sh) :: ms, n, hm, s, t, a => by
    have h0 := hm 0 i sh rfl
    rw [Nat.add_zero] at h0
    unfold setValues
    refine (setValues_alike p ms (n + 1) (fun m i' sh' hm' => by
      have := hm (m + 1) i' sh' (by simpa using hm')
      rw [show n + 1 + m = n + (m + 1) by omega]; exact this) s t a).seq fun vs s1 t1 _ _ a1 => ?_
    rw [bind_getC, bind_getC, (a1.heap.cells _ _ h0.1 h0.2.1).set]
    split
    · exact (a1.popVal h0.1 h0.2.1 h0.2.2).seq fun v s2 t2 _ _ a2 => ⟨rfl, a2⟩
    · split
      · cases i.dflt <;> exact ⟨rfl, a1⟩
      · exact ⟨rfl, a1⟩

theorem currentMemberId_alike {p ty tm b ms} (hR : R.at p = some (.union ty tm b ms)) (hl : Live R L p) {s t : St} (a : Alike R L K s t) :
    Both (Alike R L K) (currentMemberId p s) (currentMemberId p t) := by
  have hc := a.heap.cells p _ hR hl
  unfold currentMemberId
  rw [hc.set, hc.cur _ _ _ _ rfl]
  split
  · exact ⟨rfl, a⟩
  · exact ⟨rfl, a⟩

theorem checkAlt_alike {p ty tm b ms0} (hR : R.at p = some (.union ty tm b ms0)) (hl : Live R L p) : ∀ (ms : List (MInfo × Shape)) (n : Nat),
    (∀ (m : Nat) i sh, ms[m]? = some (i, sh) → R.at (.mem (n + m) :: p) = some sh ∧ Live R L (.mem (n + m) :: p)) →
    ∀ s t, Alike R L K s t → Both (Alike R L K) (checkAlt p n ms s) (checkAlt p n ms t)
  | [], n, _, s, t, a => ⟨rfl, a⟩
  | (i, sh) :: ms, n, hm, s, t, a => by
    have h0 := hm 0 i sh rfl
    rw [Nat.add_zero] at h0
    unfold checkAlt
    refine (checkAlt_alike hR hl ms (n + 1) (fun m i' sh' hm' => by
      have := hm (m + 1) i' sh' (by simpa using hm')
      rw [show n + 1 + m = n + (m + 1) by omega]; exact this) s t a).seq fun vs s1 t1 _ _ a1 => ?_
    refine (currentMemberId_alike hR hl a1).seq fun id s2 t2 _ _ a2 => ?_
    split
    · exact ⟨rfl, a2⟩
    · rw [bind_getC, bind_getC, (a2.heap.cells _ _ h0.1 h0.2).set]
      split
      · exact ⟨rfl, a2⟩
      · exact ⟨rfl, a2⟩

theorem setAlt_alike {p ty tm b ms0} (hR : R.at p = some (.union ty tm b ms0)) (hl : Live R L p) : ∀ (ms : List (MInfo × Shape)) (n : Nat),
    (∀ (m : Nat) i sh, ms[m]? = some (i, sh) → R.at (.mem (n + m) :: p) = some sh ∧ Live R L (.mem (n + m) :: p) ∧ sh.isStorage = true) →
    ∀ s t, Alike R L K s t → Both (Alike R L K) (setAlt p n ms s) (setAlt p n ms t)
  | [], n, _, s, t, a => ⟨rfl, a⟩
  | (i, sh) :: ms, n, hm, s, t, a => by
    have h0 := hm 0 i sh rfl
    rw [Nat.add_zero] at h0
    unfold setAlt
    refine (setAlt_alike hR hl ms (n + 1) (fun m i' sh' hm' => by
      have := hm (m + 1) i' sh' (by simpa using hm')
      rw [show n + 1 + m = n + (m + 1) by omega]; exact this) s t a).seq fun vs s1 t1 _ _ a1 => ?_
    refine (currentMemberId_alike hR hl a1).seq fun id s2 t2 _ _ a2 => ?_
    split
    · exact ⟨rfl, a2⟩
    · rw [bind_getC, bind_getC, (a2.heap.cells _ _ h0.1 h0.2.1).set]
      split
      · exact (a2.popVal h0.1 h0.2.1 h0.2.2).seq fun v s3 t3 _ _ a3 => ⟨rfl, a3⟩
      · split
        · cases i.dflt <;> exact ⟨rfl, a2⟩
        · exact ⟨rfl, a2⟩

theorem unsetOnThrow_alike {α} {p} {m m' : M α} {s t : St} (h : Both (Alike R L K) (m s) (m' t)) :
    Both (Alike R L K) (unsetOnThrow p m s) (unsetOnThrow p m' t) := by
  unfold unsetOnThrow
  cases h1 : m s <;> cases h2 : m' t <;> rw [h1, h2] at h <;> try exact h.elim
  · exact h
  · exact ⟨h.1, h.2.setFalse p⟩
  · trivial
  · trivial

theorem wrapOnThrow_alike {α} {p} {m m' : M α} {s t : St} (h : Both (Alike R L K) (m s) (m' t)) :
    Both (Alike R L K) (wrapOnThrow p m s) (wrapOnThrow p m' t) := by
  unfold wrapOnThrow
  cases h1 : m s <;> cases h2 : m' t <;> rw [h1, h2] at h <;> try exact h.elim
  · exact h
  · obtain ⟨rfl, h⟩ := h; exact ⟨rfl, h.setFalse p⟩
  · trivial
  · trivial

theorem unlessEmpty_alike {p sh} (hR : R.at p = some sh) (hl : Live R L p) {m : M Unit} {s t : St} (a : Alike R L K s t)
    (h : Both (Alike R L K) (m s) (m t)) : Both (Alike R L K) (unlessEmpty p m s) (unlessEmpty p m t) := by
  unfold unlessEmpty
  rw [bind_getC, bind_getC, (a.heap.cells _ _ hR hl).empty]
  split
  · exact ⟨rfl, a.setFalse p⟩
  · exact h

/-- The parser at `p` completes. -/
theorem complete_alike (hw : R.wf = true) (hb : Blind R E) {p sh} (hR : R.at p = some sh) (hl : Live R L p) {s t : St} (a : Alike R L K s t)
    (hv : sh.isStorage = true → (s.heap p).val = (t.heap p).val) : Both (Alike R L K) (complete E sh p s) (complete E sh p t) := by
  unfold complete
  rw [bind_modC, bind_modC]
  have a0 := a.setTrue hR hv
  have hv0 : sh.isStorage = true → ((s.heap.upd p fun c => { c with set := true }) p).val = ((t.heap.upd p fun c => { c with set := true }) p).val := by
    intro h; simpa using hv h
  have hnm : ∀ {k u ms}, sh = .object k u ms → ∀ b e, R.at p ≠ some (.map b e) := by
    rintro k u ms rfl b e h; rw [hR] at h; simp at h
  cases sh with
  | value ty => exact a0.finishCbVal hb (hv0 rfl)
  | ignore => exact ⟨rfl, a0⟩
  | object k u ms =>
    have hmem : ∀ (m : Nat) i sh, ms[m]? = some (i, sh) → R.at (.mem (0 + m) :: p) = some sh ∧ Live R L (.mem (0 + m) :: p) := fun m i sh hm =>
      ⟨by rw [Nat.zero_add]; exact at_mem_object hR hm, hl.child fun b e hb => by rw [hR] at hb; simp at hb⟩
    have gen : ∀ k' : Bool, Both (Alike R L K)
        (unlessEmpty p (M.bind (unsetOnThrow p fun s => match checkMembers s.heap p 0 ms with | some e => .throw (.std e) s | none => .ok () s) fun _ =>
          SJ.finishCbParser E (.object k u ms) k' p) { s with heap := s.heap.upd p fun c => { c with set := true } })
        (unlessEmpty p (M.bind (unsetOnThrow p fun s => match checkMembers s.heap p 0 ms with | some e => .throw (.std e) s | none => .ok () s) fun _ =>
          SJ.finishCbParser E (.object k u ms) k' p) { t with heap := t.heap.upd p fun c => { c with set := true } }) := by
      intro k'
      refine unlessEmpty_alike hR hl a0 ((unsetOnThrow_alike ?_).seq fun _ s1 t1 _ _ a1 => a1.finishCbParser hb hR hl _)
      have := checkMembers_alike a0.heap p ms 0 hmem
      dsimp only at this ⊢
      rw [this]
      split
      · exact ⟨rfl, a0⟩
      · exact ⟨rfl, a0⟩
    cases k with
    | plain => exact gen _
    | custom => exact gen _
    | auto =>
      unfold finish
      refine unlessEmpty_alike hR hl a0 ((wrapOnThrow_alike (setValues_alike p ms 0 (fun m i sh hm => ⟨(hmem m i sh hm).1, (hmem m i sh hm).2, ?_⟩) _ _ a0)).seq
        fun vs s1 t1 _ _ a1 => ?_)
      · rcases wf_at hw p _ hR with h | h
        · simp only [Shape.wf] at h
          exact (wfMs_mem h hm).2.2 rfl
        · simp at h
      · rw [bind_modC, bind_modC]
        have a2 := a1.setVal p (fun _ => .tup vs) (fun _ _ _ _ => rfl)
        exact a2.finishCbVal hb (by simp)
  | union ty tm b ms =>
    have hmem : ∀ (m : Nat) i sh, ms[m]? = some (i, sh) → R.at (.mem (0 + m) :: p) = some sh ∧ Live R L (.mem (0 + m) :: p) := fun m i sh hm =>
      ⟨by rw [Nat.zero_add]; exact at_mem_union hR hm, hl.child fun b e hb => by rw [hR] at hb; simp at hb⟩
    cases b with
    | false =>
      unfold finish
      exact unlessEmpty_alike hR hl a0 ((unsetOnThrow_alike (checkAlt_alike hR hl ms 0 hmem _ _ a0)).seq fun _ s1 t1 _ _ a1 => a1.finishCbParser hb hR hl _)
    | true =>
      unfold finish
      refine unlessEmpty_alike hR hl a0 ((wrapOnThrow_alike (setAlt_alike hR hl ms 0 (fun m i sh hm => ⟨(hmem m i sh hm).1, (hmem m i sh hm).2, ?_⟩) _ _ a0)).seq
        fun r s1 t1 _ _ a1 => ?_)
      · rcases wf_at hw p _ hR with h | h
        · simp only [Shape.wf] at h
          exact (wfMs_mem h hm).2.2 rfl
        · simp at h
      · cases r with
        | none => exact a1.finishCbVal hb ((a1.heap.cells p _ hR hl).val rfl (Or.inl (by simp)))
        | some v =>
          simp only
          rw [bind_modC, bind_modC]
          have a2 := a1.setVal p (fun _ => v) (fun _ _ _ _ => rfl)
          exact a2.finishCbVal hb (by simp)
  | array b e =>
    cases b with
    | true => exact a0.finishCbVal hb (hv0 rfl)
    | false => unfold finish; exact a0.finishCbParser hb hR hl _
  | map b e => unfold finish; exact a0.finishCbParser hb hR hl _

theorem arrChild_alike (hw : R.wf = true) {p st e} (hR : R.at p = some (.array st e)) (hl : Live R L p) {s t : St} (a : Alike R L K s t) :
    Both (Alike R L K) (arrChild st p s) (arrChild st p t) := by
  unfold arrChild
  cases st with
  | false => exact ⟨rfl, a⟩
  | true =>
    simp only [if_true]
    have hs : e.isStorage = true := by
      rcases wf_at hw p _ hR with h | h
      · simpa using (wf_array h).2
      · simp at h
    refine (a.popVal (at_elem_array hR) (hl.child fun b e hb => by rw [hR] at hb; simp at hb) hs).seq fun v s1 t1 _ _ a1 => ?_
    refine ⟨rfl, a1.setVal p (fun x => .arr (x.vec ++ [v])) fun sh hR' _ _ => ?_⟩
    rw [(a1.heap.cells p _ hR hl).val rfl (Or.inl (by simp))]

theorem mapChild_alike (hw : R.wf = true) (hb : Blind R E) {p st e} (hR : R.at p = some (.map st e)) (hl : Live R L p) (hle : Live R L (.elem :: p))
    (hk : p ∈ K) {s t : St} (a : Alike R L K s t) : Both (Alike R L K) (mapChild E st e p s) (mapChild E st e p t) := by
  unfold mapChild
  cases st with
  | false => exact a.elementCb hb (at_elem_map hR) hle ⟨_, _, hR⟩ hk
  | true =>
    simp only [if_true]
    have hs : e.isStorage = true := by
      rcases wf_at hw p _ hR with h | h
      · simp [Shape.wf] at h; exact h.2
      · simp at h
    refine (a.elementCb hb (at_elem_map hR) hle ⟨_, _, hR⟩ hk).seq fun _ s1 t1 _ _ a1 => ?_
    refine (a1.popVal (at_elem_map hR) hle hs).seq fun v s2 t2 _ _ a2 => ?_
    refine ⟨rfl, a2.upd (fun _ => ⟨rfl, rfl⟩) (fun _ => ⟨rfl, rfl⟩) (a2.heap.started p) fun sh hR' hl' => ?_⟩
    have hc := a2.heap.cells p _ hR' hl'
    rw [hR] at hR'; injection hR' with hR'; subst hR'
    refine ⟨hc.set, hc.empty, fun _ _ => ?_, hc.cur, hc.struct⟩
    simp only
    rw [hc.val rfl (Or.inl (by simp)), a2.keys p hk ⟨_, _, hR⟩]

end SJ
