/-
A tree that has lost track of the nesting of the document rejects a token sooner or later.
-/
import Verif.Proofs.Acts
import Verif.Proofs.Main

set_option linter.unusedVariables false

namespace SJ

variable {E : Env} {R : Shape}

/-- More brackets are open in the document than the parsers wait for. -/
inductive Doom (R : Shape) (s : St) : Gr → Prop
  | void {C k} : s.stack = [] → C ≠ [] → Doom R s ⟨C, k⟩
  | opened {C k p} : Base R s → s.stack = p :: anc p → isU R p = false → Behind (str R s.heap p ++ bars R p) C →
      (∀ o ∈ s.stack, Spare R s o) → (k = false → ∀ C', C = true :: C' → ∃ r, str R s.heap p = true :: r) → Doom R s ⟨C, k⟩
  | pend {C st q sh} : Base R s → s.stack = (st :: q) :: anc (st :: q) → R.at q = some sh → sh.isKeyed = true → Behind (bars R q) (true :: C) →
      str R s.heap (st :: q) = [] → (∀ o ∈ anc (st :: q), Spare R s o) → Doom R s ⟨true :: C, false⟩

theorem keyed_not_isU {q sh} (hR : R.at q = some sh) (hk : sh.isKeyed = true) : isU R q = false :=
  not_isU hR (by cases sh <;> simp_all [Shape.isKeyed, Shape.isUnion])

theorem array_not_isU {q st e} (hR : R.at q = some (.array st e)) : isU R q = false := not_isU hR rfl

theorem str_keyed {h : Heap} {q sh} (hR : R.at q = some sh) (hk : sh.isKeyed = true) : str R h q = [] :=
  str_nil (by rw [hR]; rintro h; injection h with h; subst h; simp [Shape.isKeyed] at hk)

theorem str_array {h : Heap} {q st e} (hR : R.at q = some (.array st e)) : str R h q = [] := str_nil (by rw [hR]; simp)

theorem after_ctx (C : List Bool) : (Gr.after C).ctx = C := by
  unfold Gr.after; split <;> rfl

theorem after_key {C C' : List Bool} : (Gr.after C).key = false → C ≠ true :: C' := by
  unfold Gr.after; split <;> simp

theorem Gr.eta (C : List Bool) : Gr.after C = ⟨C, (Gr.after C).key⟩ := by
  unfold Gr.after; split <;> rfl

/-- After a value, when parsers were removed. -/
theorem Doom.popped {s' : St} {C} (hb : Base R s') (hN : ∀ o ∈ s'.stack, Spare R s' o) (ht : Top R s'.stack) (hB : Behind (bst R s'.stack) C) :
    Doom R s' (.after C) := by
  rw [Gr.eta]
  rcases ht with h | ⟨p, h1, h2⟩
  · exact .void h (by rintro rfl; exact hB.not_nil)
  · rw [h1] at hB
    have hu : isU R p = false := by
      cases h : isU R p with
      | false => rfl
      | true => obtain ⟨_, _, _, _, h⟩ := isU_iff.1 h; simp [kindOf, h] at h2
    have hs : str R s'.heap p = [] := str_nil (by intro h; simp [kindOf, h] at h2)
    refine .opened hb h1 hu (by rw [hs]; exact hB) hN ?_
    intro hk C' hC
    exact absurd hC (after_key hk)

/-- After a value, when the stack is the same. -/
theorem Doom.same {s' : St} {C p} (hb : Base R s') (hN : ∀ o ∈ s'.stack, Spare R s' o) (hs : s'.stack = p :: anc p) (hu : isU R p = false)
    (hB : Behind (str R s'.heap p ++ bars R p) C) : Doom R s' (.after C) := by
  rw [Gr.eta]
  exact .opened hb hs hu hB hN fun hk C' hC => absurd hC (after_key hk)

/-- After an opening bracket. -/
theorem Doom.more {s' : St} {b C p} (hb : Base R s') (hN : ∀ o ∈ s'.stack, Spare R s' o) (hs : s'.stack = p :: anc p) (hu : isU R p = false)
    (hB : Behind (str R s'.heap p ++ bars R p) (b :: C)) : Doom R s' ⟨b :: C, b⟩ :=
  .opened hb hs hu hB hN fun hk C' hC => by injection hC with hC; rw [hk] at hC; cases hC

theorem bars_child {st q} (h : isU R q = false) : bars R (st :: q) = kindOf R (st :: q) ++ bars R q := by simp [bars, h]

theorem doom_step (ht : R.watertight = true) (hw : R.wf = true) {s s' : St} {g g' t} (h : Doom R s g) (hg : gstep g t = some g')
    (ok : dispatch E R t s = .ok () s') : Doom R s' g' := by
  cases h with
  | void h1 h2 => rw [dispatch_nil h1] at ok; cases ok
  | @opened C k p hb hs hu hB hN hk =>
    have r := act ht hw hb hs (fun o ho => hN o (by rw [hs]; simp [ho])) (fun _ _ => hN p (by simp [hs])) (by simp [hu]) ok
    have hb' := r.base
    have hC0 : C ≠ [] := by rintro rfl; exact hB.not_nil
    have neat' : (∀ k, t ≠ .mapKey k) → ∀ o ∈ s'.stack, Spare R s' o := fun h o ho => r.neat o ho fun k hk => absurd hk (h k)
    cases k with
    | true =>
      cases t with
      | mapKey key =>
        cases C with
        | nil => exact absurd rfl hC0
        | cons b C =>
          cases b with
          | false => simp [gstep] at hg
          | true =>
            simp only [gstep] at hg; injection hg with hg; subst hg
            cases r.act with
            | key hR hk' h1 h2 _ =>
              have hs0 := str_keyed (h := s.heap) hR hk'
              rw [hs0] at hB
              refine .pend hb' (by rw [h1, hs]; rfl) hR hk' hB h2 ?_
              intro o ho
              simp only [anc] at ho
              rw [← hs] at ho
              exact r.neat o (by rw [h1]; simp [ho]) fun _ _ => ho
            | keyIgn hR h1 h2 =>
              subst h2
              exact .opened hb hs hu hB hN fun _ C' _ => by simp only [str, hR]; exact ⟨_, h1⟩
      | mapEnd =>
        have hN' := neat' (by simp)
        cases C with
        | nil => exact absurd rfl hC0
        | cons b C =>
          cases b with
          | false => simp [gstep] at hg
          | true =>
            simp only [gstep] at hg; injection hg with hg; subst hg
            cases r.act with
            | close hR hk' hc htop =>
              rw [str_keyed hR hk', List.nil_append, hc.keyed hR hk'] at hB
              exact .popped hb' hN' htop hB.close
            | endIgnMap hR h1 h2 h3 h4 =>
              simp only [str, hR, h1] at hB
              exact .same hb' hN' (h3.trans hs) hu (by simp only [str, hR, h4]; exact hB.close)
            | endIgnMapPop hR h1 hc htop =>
              simp only [str, hR, h1] at hB
              exact .popped hb' hN' htop (Behind.cut (Behind.close hB) hc)
      | _ => simp [gstep] at hg
    | false =>
      have hk := hk rfl
      cases t with
      | null =>
        have hN' := neat' (by simp)
        simp only [gstep] at hg; injection hg with hg; subst hg
        cases r.act with
        | nullPop hc htop => exact .popped hb' hN' htop (hB.dropAll.cut hc)
        | nullStay hR h1 h2 h3 =>
          rw [str_array hR] at hB
          exact .same hb' hN' (h3.trans hs) hu (by rw [str_array hR]; exact hB)
      | scalar v =>
        have hN' := neat' (by simp)
        simp only [gstep] at hg; injection hg with hg; subst hg
        cases r.act with
        | scPop hc htop _ => exact .popped hb' hN' htop (hB.dropAll.cut hc)
        | scStay hR h1 h3 =>
          rw [str_array hR] at hB
          exact .same hb' hN' (h3.trans hs) hu (by rw [str_array hR]; exact hB)
        | scIgn hR h1 h2 h3 =>
          simp only [str, hR] at hB
          exact .same hb' hN' (h2.trans hs) hu (by simp only [str, hR, h3]; exact hB)
        | scAlt h1 => rw [hu] at h1; cases h1
      | mapStart =>
        have hN' := neat' (by simp)
        simp only [gstep] at hg; injection hg with hg; subst hg
        cases r.act with
        | openKeyed hR hk' h1 =>
          rw [str_keyed hR hk'] at hB
          exact .more hb' hN' (h1.trans hs) hu (by rw [str_keyed hR hk']; exact .skip hB)
        | openIgnMap hR h1 h2 =>
          simp only [str, hR] at hB
          exact .more hb' hN' (h1.trans hs) hu (by simp only [str, hR, h2]; exact .cons hB)
        | elemKeyed hR h1 h2 h3 =>
          have hRe := at_elem_array hR
          rw [str_array hR] at hB
          refine .more hb' hN' (h3.trans (by rw [hs]; rfl)) (keyed_not_isU hRe h2) ?_
          rw [str_keyed hRe h2, bars_child hu, kindOf_keyed hRe h2]
          exact .cons hB
      | arrStart =>
        have hN' := neat' (by simp)
        simp only [gstep] at hg; injection hg with hg; subst hg
        cases r.act with
        | openArr hR h0 h1 =>
          rw [str_array hR] at hB
          exact .more hb' hN' (h1.trans hs) hu (by rw [str_array hR]; exact .skip hB)
        | openIgnArr hR h1 h2 =>
          simp only [str, hR] at hB
          exact .more hb' hN' (h1.trans hs) hu (by simp only [str, hR, h2]; exact .cons hB)
        | @elemArr st e hR h1 h2 h3 =>
          have hRe := at_elem_array hR
          rw [str_array hR] at hB
          cases e <;> simp [Shape.isArray] at h2
          refine .more hb' hN' (h3.trans (by rw [hs]; rfl)) (array_not_isU hRe) ?_
          rw [str_array hRe, bars_child hu]
          simp only [kindOf, hRe]
          exact .cons hB
      | arrEnd =>
        have hN' := neat' (by simp)
        cases C with
        | nil => exact absurd rfl hC0
        | cons b C =>
          cases b with
          | true => simp [gstep] at hg
          | false =>
            simp only [gstep] at hg; injection hg with hg; subst hg
            cases r.act with
            | closeArr hR hc htop =>
              rw [str_array hR, List.nil_append, hc.arr ht hR] at hB
              exact .popped hb' hN' htop hB.close
            | endIgnArr hR h1 h2 h3 h4 =>
              simp only [str, hR, h1] at hB
              exact .same hb' hN' (h3.trans hs) hu (by simp only [str, hR, h4]; exact hB.close)
            | endIgnArrPop hR h1 hc htop =>
              simp only [str, hR, h1] at hB
              exact .popped hb' hN' htop (Behind.cut (Behind.close hB) hc)
      | _ => simp [gstep] at hg
  | @pend C st q sh hb hs hRq hkq hB hstr hN =>
    have huq := keyed_not_isU hRq hkq
    have hnm : t ≠ .mapEnd ∧ ∀ k, t ≠ .mapKey k := by
      constructor
      · rintro rfl; simp [gstep] at hg
      · rintro k rfl; simp [gstep] at hg
    have r := act ht hw hb hs hN (fun k hk => absurd hk (hnm.2 k)) (fun _ => hnm.1) ok
    have hb' := r.base
    have hN' : ∀ o ∈ s'.stack, Spare R s' o := fun o ho => r.neat o ho fun k hk => absurd hk (hnm.2 k)
    have cut : ∀ l, Cut R (st :: q) l → Behind (bst R l) (true :: C) := by
      intro l hc
      simp only [Cut, huq] at hc
      rw [if_neg (by simp)] at hc
      subst hc; exact hB
    have hbars : ∀ k, kindOf R (st :: q) = k → bars R (st :: q) = k ++ bars R q := by
      rintro k rfl; exact bars_child huq
    cases t with
    | null =>
      simp only [gstep] at hg; injection hg with hg; subst hg
      cases r.act with
      | nullPop hc htop => exact .popped hb' hN' htop (cut _ hc)
      | nullStay hR h1 h2 h3 =>
        refine .same hb' hN' (h3.trans hs) (array_not_isU hR) ?_
        rw [str_array hR, hbars [false] (by simp [kindOf, hR])]
        exact .ghost hB
    | scalar v =>
      simp only [gstep] at hg; injection hg with hg; subst hg
      cases r.act with
      | scPop hc htop _ => exact .popped hb' hN' htop (cut _ hc)
      | scStay hR h1 h3 =>
        refine .same hb' hN' (h3.trans hs) (array_not_isU hR) ?_
        rw [str_array hR, hbars [false] (by simp [kindOf, hR])]
        exact .ghost hB
      | scIgn hR h1 h2 h3 => simp only [str, hR] at hstr; exact absurd hstr h1
      | @scAlt _ n sh' hu hR hk h1 =>
        refine .same hb' hN' (h1.trans (by rw [hs]; rfl)) (keyed_not_isU hR hk) ?_
        rw [str_keyed hR hk]
        obtain ⟨st', o, _, h2, _, _, _, h3⟩ := bars_union ht (st := .mem n) hu
        injection h2 with _ h2; subst h2
        rw [h3]; exact hB
    | mapStart =>
      simp only [gstep] at hg; injection hg with hg; subst hg
      cases r.act with
      | openKeyed hR hk' h1 =>
        refine .more hb' hN' (h1.trans hs) (keyed_not_isU hR hk') ?_
        rw [str_keyed hR hk', hbars _ (kindOf_keyed hR hk')]
        exact .cons hB
      | openIgnMap hR h1 h2 =>
        simp only [str, hR] at hstr
        refine .more hb' hN' (h1.trans hs) (not_isU hR rfl) ?_
        simp only [str, hR, h2, hstr]
        rw [hbars [] (by simp [kindOf, hR])]
        exact .cons hB
      | elemKeyed hR h1 h2 h3 =>
        have hRe := at_elem_array hR
        refine .more hb' hN' (h3.trans (by rw [hs]; rfl)) (keyed_not_isU hRe h2) ?_
        rw [str_keyed hRe h2, bars_child (array_not_isU hR), kindOf_keyed hRe h2, hbars [false] (by simp [kindOf, hR])]
        exact .cons (.ghost hB)
    | arrStart =>
      simp only [gstep] at hg; injection hg with hg; subst hg
      cases r.act with
      | openArr hR h0 h1 =>
        refine .more hb' hN' (h1.trans hs) (array_not_isU hR) ?_
        rw [str_array hR, hbars [false] (by simp [kindOf, hR])]
        exact .cons hB
      | openIgnArr hR h1 h2 =>
        simp only [str, hR] at hstr
        refine .more hb' hN' (h1.trans hs) (not_isU hR rfl) ?_
        simp only [str, hR, h2, hstr]
        rw [hbars [] (by simp [kindOf, hR])]
        exact .cons hB
      | @elemArr st' e hR h1 h2 h3 =>
        have hRe := at_elem_array hR
        cases e <;> simp [Shape.isArray] at h2
        refine .more hb' hN' (h3.trans (by rw [hs]; rfl)) (array_not_isU hRe) ?_
        rw [str_array hRe, bars_child (array_not_isU hR), hbars [false] (by simp [kindOf, hR])]
        simp only [kindOf, hRe]
        exact .cons (.ghost hB)
    | _ => simp [gstep] at hg

theorem doom_run (ht : R.watertight = true) (hw : R.wf = true) : ∀ (ts : List Token) {s s' : St} {g k}, Doom R s g → grun g ts = some ⟨[], k⟩ →
    run E R ts s ≠ .ok () s'
  | [], s, s', g, k, h, hg => by
    simp only [grun] at hg; injection hg with hg; subst hg
    cases h with
    | void h1 h2 => exact absurd rfl h2
    | opened h1 h2 h3 h4 => exact absurd h4 Behind.not_nil
  | t :: ts, s, s', g, k, h, hg => by
    simp only [grun] at hg
    cases hg1 : gstep g t with
    | none => rw [hg1] at hg; simp at hg
    | some g' =>
      rw [hg1] at hg
      intro hr
      rw [run_cons] at hr
      obtain ⟨_, s1, h1, h2⟩ := bind_ok_inv hr
      exact doom_run ht hw ts (doom_step ht hw h hg1 h1) hg h2

/-! ## Keeping track -/

/-- The brackets open around the value the parser at `p` is going to read. -/
def up (R : Shape) : Path → List Bool
  | [] => []
  | _ :: q => bars R q

/-- The parser at `p` belongs to a key, or is the root. -/
def UnderKey (R : Shape) : Path → Prop
  | [] => True
  | _ :: q => ∃ sh, R.at q = some sh ∧ sh.isKeyed = true

/-- The arrays that are being read are on the stack. -/
def Midway (R : Shape) (s : St) : Prop := ∀ q st e, R.at q = some (.array st e) → (s.heap q).started = true → q ∈ s.stack

/-- The parsers wait for exactly the brackets that are open in the document. -/
inductive Sync (R : Shape) (s : St) : Gr → Prop
  | done : s.stack = [] → Sync R s ⟨[], true⟩
  | opened {k p} : Base R s → s.stack = p :: anc p → isU R p = false → (∀ o ∈ s.stack, Spare R s o) → Midway R s →
      kindOf R p ++ str R s.heap p ≠ [] → (k = false → ∀ C', str R s.heap p ++ bars R p = true :: C' → ∃ r, str R s.heap p = true :: r) →
      Sync R s ⟨str R s.heap p ++ bars R p, k⟩
  | pend {p} : Base R s → s.stack = p :: anc p → UnderKey R p → str R s.heap p = [] → (∀ o ∈ anc p, Spare R s o) → Midway R s →
      (∀ st e, R.at p = some (.array st e) → (s.heap p).started = false) → Sync R s ⟨up R p, false⟩

/-- The nulls that this version of the library mishandles. -/
def Slip (R : Shape) (s : St) (t : Token) : Prop :=
  t = .null ∧ ∃ p, s.stack.head? = some p ∧
    (str R s.heap p ≠ [] ∨ ∃ st e, R.at p = some (.array st e) ∧ (s.heap p).started = true ∧ (s.heap (.elem :: p)).disp = true)

theorem Sync.popped {s' : St} {C} (hb : Base R s') (hN : ∀ o ∈ s'.stack, Spare R s' o) (hr : Midway R s') (ht : Top R s'.stack) (hB : bst R s'.stack = C) :
    Sync R s' (.after C) := by
  subst hB
  rcases ht with h | ⟨p, h1, h2⟩
  · rw [h]; exact .done h
  · have hu : isU R p = false := by
      cases h : isU R p with
      | false => rfl
      | true => obtain ⟨_, _, _, _, h⟩ := isU_iff.1 h; simp [kindOf, h] at h2
    have hs : str R s'.heap p = [] := str_nil (by intro h; simp [kindOf, h] at h2)
    have hC : bst R s'.stack = str R s'.heap p ++ bars R p := by rw [h1, hs]; rfl
    rw [hC, Gr.eta]
    refine .opened hb h1 hu hN hr (by simp [h2]) ?_
    intro hk C' hC
    exact absurd hC (after_key hk)

theorem Sync.same {s' : St} {C p} (hb : Base R s') (hN : ∀ o ∈ s'.stack, Spare R s' o) (hr : Midway R s') (hs : s'.stack = p :: anc p) (hu : isU R p = false)
    (hk : kindOf R p ++ str R s'.heap p ≠ []) (hB : str R s'.heap p ++ bars R p = C) : Sync R s' (.after C) := by
  subst hB
  rw [Gr.eta]
  exact .opened hb hs hu hN hr hk fun hk C' hC => absurd hC (after_key hk)

theorem Sync.more {s' : St} {b C p} (hb : Base R s') (hN : ∀ o ∈ s'.stack, Spare R s' o) (hr : Midway R s') (hs : s'.stack = p :: anc p) (hu : isU R p = false)
    (hk : kindOf R p ++ str R s'.heap p ≠ []) (hB : str R s'.heap p ++ bars R p = b :: C) : Sync R s' ⟨b :: C, b⟩ := by
  rw [← hB]
  refine .opened hb hs hu hN hr hk fun hk C' hC => ?_
  rw [hB] at hC; injection hC with hC; rw [hk] at hC; cases hC

/-- The brackets left when a parser that waits for none itself is removed. -/
theorem Cut.none {p l} (h : Cut R p l) (hk : kindOf R p = []) : bars R p = bst R l ∨ bars R p = true :: bst R l := by
  cases p with
  | nil => simp only [Cut] at h; subst h; left; simp [bars, bst, hk]
  | cons st q =>
    simp only [Cut] at h
    split at h
    · exact Or.inr h
    · rename_i hu; subst h; left; simp [bars, hu, hk, bst]

theorem Cut.sub {p l} (h : Cut R p l) : List.Sublist (bst R l) (bars R p) := by
  cases p with
  | nil => simp only [Cut] at h; subst h; simp [bst]
  | cons st q =>
    simp only [Cut] at h
    split at h
    · rw [h]; exact List.sublist_cons_self _ _
    · subst h; simp only [bst, bars]; exact List.sublist_append_right _ _

theorem Grow.reading {p t} {s s' : St} (h : Grow R p (Loose t) s s') (hr : Midway R s)
    (hp : p ∈ s'.stack ∨ ¬ Loose t ∨ ∀ st e, R.at p = some (.array st e) → (s.heap p).started = false) : Midway R s' := by
  intro q st e hq hs
  rcases h q st e hq hs with h1 | ⟨h1, h2⟩
  · exact h1
  · obtain ⟨h3, h4⟩ := h2 (hr q st e hq h1)
    subst h3
    rcases hp with h5 | h5 | h5
    · exact h5
    · exact absurd h4 h5
    · rw [h5 st e hq] at h1; cases h1

theorem bars_keyed_head (ht : R.watertight = true) {q sh} (hR : R.at q = some sh) (hk : sh.isKeyed = true) : ∃ C, bars R q = true :: C := by
  cases q with
  | nil => exact ⟨[], by simp [bars, kindOf_keyed hR hk]⟩
  | cons st q =>
    cases hu : isU R q with
    | false => exact ⟨_, by rw [bars_child hu, kindOf_keyed hR hk]; rfl⟩
    | true =>
      obtain ⟨st', o, sho, rfl, ho, hko, huo, hb⟩ := bars_union ht (st := st) hu
      rw [hb]
      cases o with
      | nil => exact ⟨[], by simp [bars, kindOf_keyed ho hko]⟩
      | cons st'' o' =>
        cases hu' : isU R o' with
        | false => exact ⟨_, by rw [bars_child hu', kindOf_keyed ho hko]; rfl⟩
        | true => exact bars_keyed_head ht ho hko
termination_by q.length

theorem sync_step (ht : R.watertight = true) (hw : R.wf = true) {s s' : St} {g g' t} (h : Sync R s g) (hg : gstep g t = some g')
    (ok : dispatch E R t s = .ok () s') : (Sync R s' g' ∧ ¬ Slip R s t) ∨ Doom R s' g' := by
  cases h with
  | done h1 => rw [dispatch_nil h1] at ok; cases ok
  | @opened k p hb hs hu hN hrd hne hk =>
    have r := act ht hw hb hs (fun o ho => hN o (by rw [hs]; simp [ho])) (fun _ _ => hN p (by simp [hs])) (by simp [hu]) ok
    have hb' := r.base
    have neat' : (∀ k, t ≠ .mapKey k) → ∀ o ∈ s'.stack, Spare R s' o := fun h o ho => r.neat o ho fun k hk => absurd hk (h k)
    have nosl : t ≠ .null → ¬ Slip R s t := fun h h1 => h h1.1
    have tight : ¬ Loose t → Midway R s' := fun h => r.grow.reading hrd (Or.inr (Or.inl h))
    have stay : s'.stack = s.stack → Midway R s' := fun h => r.grow.reading hrd (Or.inl (by rw [h, hs]; simp))
    cases k with
    | true =>
      cases t with
      | mapKey key =>
        left
        refine ⟨?_, nosl (by simp)⟩
        cases r.act with
        | @key _ st sh hR hk' h1 h2 h3 =>
          have hs0 := str_keyed (h := s.heap) hR hk'
          rw [hs0] at hg
          obtain ⟨C, hC⟩ := bars_keyed_head ht hR hk'
          rw [List.nil_append, hC] at hg
          simp only [gstep] at hg; injection hg with hg; subst hg
          have hup : up R (st :: p) = true :: C := hC
          rw [← hup]
          have hrd' : Midway R s' := by
            intro q a e hq hsq
            rw [h3] at hsq; rw [h1]; exact List.mem_cons_of_mem _ (hrd q a e hq hsq)
          refine .pend hb' (by rw [h1, hs]; rfl) ⟨sh, hR, hk'⟩ h2 ?_ hrd' ?_
          · intro o ho
            simp only [anc] at ho
            rw [← hs] at ho
            exact r.neat o (by rw [h1]; simp [ho]) fun _ _ => ho
          · intro a e hq
            rw [h3]
            cases hst : (s.heap (st :: p)).started with
            | false => rfl
            | true => exact absurd (hrd _ a e hq hst) (child_new hs)
        | @keyIgn _ rr hR h1 h2 =>
          subst h2
          have hs0 : str R s'.heap p = true :: rr := by simp only [str, hR]; exact h1
          rw [hs0, List.cons_append] at hg
          simp only [gstep] at hg; injection hg with hg; subst hg
          have := Sync.opened (k := false) hb hs hu hN hrd hne (fun _ _ _ => ⟨_, hs0⟩)
          rw [hs0] at this
          exact this
      | mapEnd =>
        have hN' := neat' (by simp)
        have hrd' := tight (by simp [Loose])
        cases r.act with
        | close hR hk' hc htop =>
          rw [str_keyed hR hk', List.nil_append, hc.keyed hR hk'] at hg
          simp only [gstep] at hg; injection hg with hg; subst hg
          exact Or.inl ⟨.popped hb' hN' hrd' htop rfl, nosl (by simp)⟩
        | @endIgnMap rr hR h1 h2 h3 h4 =>
          have hs0 : str R s.heap p = true :: rr := by simp only [str, hR]; exact h1
          have hs1 : str R s'.heap p = rr := by simp only [str, hR]; exact h4
          rw [hs0, List.cons_append] at hg
          simp only [gstep] at hg; injection hg with hg; subst hg
          exact Or.inl ⟨.same hb' hN' hrd' (h3.trans hs) hu (by rw [hs1]; simp [h2]) (by rw [hs1]), nosl (by simp)⟩
        | endIgnMapPop hR h1 hc htop =>
          have hs0 : str R s.heap p = [true] := by simp only [str, hR]; exact h1
          rw [hs0, List.cons_append, List.nil_append] at hg
          simp only [gstep] at hg; injection hg with hg; subst hg
          rcases hc.none (by simp [kindOf, hR]) with h2 | h2
          · exact Or.inl ⟨.popped hb' hN' hrd' htop h2.symm, nosl (by simp)⟩
          · exact Or.inr (.popped hb' hN' htop (by rw [h2]; exact .base (List.Sublist.refl _)))
      | _ => simp [gstep] at hg
    | false =>
      have hk := hk rfl
      -- the parser is no object or map
      have nokey : ∀ sh, R.at p = some sh → sh.isKeyed = true → False := by
        intro sh hR hk'
        obtain ⟨C, hC⟩ := bars_keyed_head ht hR hk'
        obtain ⟨r, hr⟩ := hk C (by rw [str_keyed hR hk', hC]; rfl)
        rw [str_keyed hR hk'] at hr; cases hr
      -- so it cannot be removed without losing a bracket
      have lost : ∀ l, Cut R p l → Behind (bst R l) (str R s.heap p ++ bars R p) := by
        intro l hc
        by_cases hs0 : str R s.heap p = []
        · rw [hs0, List.append_nil] at hne
          obtain ⟨⟨sh, hR⟩, _⟩ := hb.ctl.valid p (by simp [hs])
          rw [hs0, List.nil_append]
          cases sh with
          | array st e => rw [hc.arr ht hR]; exact .base (List.Sublist.refl _)
          | object a b c => exact (nokey _ hR rfl).elim
          | map a b => exact (nokey _ hR rfl).elim
          | _ => simp [kindOf, hR] at hne
        · obtain ⟨x, r, hxr⟩ := List.exists_cons_of_ne_nil hs0
          rw [hxr]
          exact .base (hc.sub.trans (List.sublist_append_right _ _))
      cases t with
      | null =>
        have hN' := neat' (by simp)
        simp only [gstep] at hg; injection hg with hg; subst hg
        cases r.act with
        | nullPop hc htop => exact Or.inr (.popped hb' hN' htop (lost _ hc))
        | nullStay hR h1 h2 h3 =>
          refine Or.inl ⟨.same hb' hN' (stay h3) (h3.trans hs) hu (by simp [kindOf, hR]) (by rw [str_array hR, str_array hR]), ?_⟩
          rintro ⟨_, p', h4, h5⟩
          rw [hs] at h4; injection h4 with h4; subst h4
          rcases h5 with h5 | ⟨_, _, _, _, h5⟩
          · exact h5 (str_array hR)
          · rw [h2] at h5; cases h5
      | scalar v =>
        have hN' := neat' (by simp)
        simp only [gstep] at hg; injection hg with hg; subst hg
        cases r.act with
        | scPop hc htop _ => exact Or.inr (.popped hb' hN' htop (lost _ hc))
        | scStay hR h1 h3 =>
          exact Or.inl ⟨.same hb' hN' (stay h3) (h3.trans hs) hu (by simp [kindOf, hR]) (by rw [str_array hR, str_array hR]), nosl (by simp)⟩
        | scIgn hR h1 h2 h3 =>
          have hs1 : str R s'.heap p = str R s.heap p := by simp only [str, hR, h3]
          exact Or.inl ⟨.same hb' hN' (stay h2) (h2.trans hs) hu (by rw [hs1]; exact hne) (by rw [hs1]), nosl (by simp)⟩
        | scAlt h1 => rw [hu] at h1; cases h1
      | mapStart =>
        have hN' := neat' (by simp)
        have hrd' := tight (by simp [Loose])
        simp only [gstep] at hg; injection hg with hg; subst hg
        cases r.act with
        | openKeyed hR hk' h1 => exact (nokey _ hR hk').elim
        | openIgnMap hR h1 h2 =>
          have hs1 : str R s'.heap p = true :: str R s.heap p := by simp only [str, hR, h2]
          exact Or.inl ⟨.more hb' hN' hrd' (h1.trans hs) hu (by rw [hs1]; simp) (by rw [hs1]; rfl), nosl (by simp)⟩
        | elemKeyed hR h1 h2 h3 =>
          have hRe := at_elem_array hR
          refine Or.inl ⟨.more hb' hN' hrd' (h3.trans (by rw [hs]; rfl)) (keyed_not_isU hRe h2) (by simp [kindOf_keyed hRe h2]) ?_, nosl (by simp)⟩
          rw [str_keyed hRe h2, bars_child hu, kindOf_keyed hRe h2, str_array hR]
          rfl
      | arrStart =>
        have hN' := neat' (by simp)
        have hrd' := tight (by simp [Loose])
        simp only [gstep] at hg; injection hg with hg; subst hg
        cases r.act with
        | openArr hR h0 h1 =>
          right
          refine .more hb' hN' (h1.trans hs) hu ?_
          rw [str_array hR, str_array hR]
          exact .base (List.Sublist.refl _)
        | openIgnArr hR h1 h2 =>
          have hs1 : str R s'.heap p = false :: str R s.heap p := by simp only [str, hR, h2]
          exact Or.inl ⟨.more hb' hN' hrd' (h1.trans hs) hu (by rw [hs1]; simp) (by rw [hs1]; rfl), nosl (by simp)⟩
        | @elemArr st e hR h1 h2 h3 =>
          have hRe := at_elem_array hR
          cases e <;> simp [Shape.isArray] at h2
          refine Or.inl ⟨.more hb' hN' hrd' (h3.trans (by rw [hs]; rfl)) (array_not_isU hRe) (by simp [kindOf, hRe]) ?_, nosl (by simp)⟩
          rw [str_array hRe, bars_child hu, str_array hR]
          simp only [kindOf, hRe]
          rfl
      | arrEnd =>
        have hN' := neat' (by simp)
        have hrd' := tight (by simp [Loose])
        cases r.act with
        | closeArr hR hc htop =>
          rw [str_array hR, List.nil_append, hc.arr ht hR] at hg
          simp only [gstep] at hg; injection hg with hg; subst hg
          exact Or.inl ⟨.popped hb' hN' hrd' htop rfl, nosl (by simp)⟩
        | @endIgnArr rr hR h1 h2 h3 h4 =>
          have hs0 : str R s.heap p = false :: rr := by simp only [str, hR]; exact h1
          have hs1 : str R s'.heap p = rr := by simp only [str, hR]; exact h4
          rw [hs0, List.cons_append] at hg
          simp only [gstep] at hg; injection hg with hg; subst hg
          exact Or.inl ⟨.same hb' hN' hrd' (h3.trans hs) hu (by rw [hs1]; simp [h2]) (by rw [hs1]), nosl (by simp)⟩
        | endIgnArrPop hR h1 hc htop =>
          have hs0 : str R s.heap p = [false] := by simp only [str, hR]; exact h1
          rw [hs0, List.cons_append, List.nil_append] at hg
          simp only [gstep] at hg; injection hg with hg; subst hg
          rcases hc.none (by simp [kindOf, hR]) with h2 | h2
          · exact Or.inl ⟨.popped hb' hN' hrd' htop h2.symm, nosl (by simp)⟩
          · exact Or.inr (.popped hb' hN' htop (by rw [h2]; exact .base (List.Sublist.refl _)))
      | _ => simp [gstep] at hg
  | @pend p hb hs hup hstr hN hrd hst =>
    left
    have hnm : t ≠ .mapEnd ∧ (∀ k, t ≠ .mapKey k) ∧ t ≠ .arrEnd := by
      refine ⟨?_, ?_, ?_⟩
      · rintro rfl; simp [gstep] at hg
      · rintro k rfl; simp [gstep] at hg
      · rintro rfl
        cases p with
        | nil => simp [gstep, up] at hg
        | cons st q =>
          obtain ⟨sh, h1, h2⟩ := hup
          obtain ⟨C, hC⟩ := bars_keyed_head ht h1 h2
          simp [gstep, up, hC] at hg
    have r := act ht hw hb hs hN (fun k hk => absurd hk (hnm.2.1 k)) (fun _ => hnm.1) ok
    have hb' := r.base
    have hN' : ∀ o ∈ s'.stack, Spare R s' o := fun o ho => r.neat o ho fun k hk => absurd hk (hnm.2.1 k)
    have hrd' : Midway R s' := r.grow.reading hrd (Or.inr (Or.inr hst))
    have nosl : ¬ Slip R s t := by
      rintro ⟨_, p', h4, h5⟩
      rw [hs] at h4; injection h4 with h4; subst h4
      rcases h5 with h5 | ⟨_, _, h5, h6, _⟩
      · exact h5 hstr
      · rw [hst _ _ h5] at h6; cases h6
    refine ⟨?_, nosl⟩
    have cut : ∀ l, Cut R p l → bst R l = up R p := by
      intro l hc
      cases p with
      | nil => simp only [Cut] at hc; subst hc; rfl
      | cons st q =>
        obtain ⟨sh, h1, h2⟩ := hup
        simp only [Cut, keyed_not_isU h1 h2] at hc
        rw [if_neg (by simp)] at hc
        subst hc; rfl
    have hbars : ∀ k, kindOf R p = k → bars R p = k ++ up R p := by
      rintro k rfl
      cases p with
      | nil => simp [bars, up]
      | cons st q =>
        obtain ⟨sh, h1, h2⟩ := hup
        exact bars_child (keyed_not_isU h1 h2)
    cases t with
    | null =>
      simp only [gstep] at hg; injection hg with hg; subst hg
      cases r.act with
      | nullPop hc htop => exact .popped hb' hN' hrd' htop (cut _ hc)
      | nullStay hR h1 h2 h3 => rw [hst _ _ hR] at h1; cases h1
    | scalar v =>
      simp only [gstep] at hg; injection hg with hg; subst hg
      cases r.act with
      | scPop hc htop _ => exact .popped hb' hN' hrd' htop (cut _ hc)
      | scStay hR h1 h3 => rw [hst _ _ hR] at h1; cases h1
      | scIgn hR h1 h2 h3 => simp only [str, hR] at hstr; exact absurd hstr h1
      | @scAlt _ n sh' hu hR hk h1 =>
        refine .same hb' hN' hrd' (h1.trans (by rw [hs]; rfl)) (keyed_not_isU hR hk) (by simp [kindOf_keyed hR hk]) ?_
        rw [str_keyed hR hk]
        obtain ⟨st', o, _, h2, _, _, _, h3⟩ := bars_union ht (st := .mem n) hu
        subst h2
        rw [h3]; rfl
    | mapStart =>
      simp only [gstep] at hg; injection hg with hg; subst hg
      cases r.act with
      | openKeyed hR hk' h1 =>
        refine .more hb' hN' hrd' (h1.trans hs) (keyed_not_isU hR hk') (by simp [kindOf_keyed hR hk']) ?_
        rw [str_keyed hR hk', hbars _ (kindOf_keyed hR hk')]
        rfl
      | openIgnMap hR h1 h2 =>
        have hs1 : str R s'.heap p = [true] := by simp only [str, hR] at hstr ⊢; rw [h2, hstr]
        refine .more hb' hN' hrd' (h1.trans hs) (not_isU hR rfl) (by rw [hs1]; simp) ?_
        rw [hs1, hbars [] (by simp [kindOf, hR])]
        rfl
      | elemKeyed hR h1 h2 h3 => rw [hst _ _ hR] at h1; cases h1
    | arrStart =>
      simp only [gstep] at hg; injection hg with hg; subst hg
      cases r.act with
      | openArr hR h0 h1 =>
        refine .more hb' hN' hrd' (h1.trans hs) (array_not_isU hR) (by simp [kindOf, hR]) ?_
        rw [str_array hR, hbars [false] (by simp [kindOf, hR])]
        rfl
      | openIgnArr hR h1 h2 =>
        have hs1 : str R s'.heap p = [false] := by simp only [str, hR] at hstr ⊢; rw [h2, hstr]
        refine .more hb' hN' hrd' (h1.trans hs) (not_isU hR rfl) (by rw [hs1]; simp) ?_
        rw [hs1, hbars [] (by simp [kindOf, hR])]
        rfl
      | elemArr hR h1 h2 h3 => rw [hst _ _ hR] at h1; cases h1
    | mapKey k => exact absurd rfl (hnm.2.1 k)
    | mapEnd => exact absurd rfl hnm.1
    | arrEnd => exact absurd rfl hnm.2.2

/-- No null is mishandled while the tokens are read. -/
def Smooth (E : Env) (R : Shape) : List Token → St → Prop
  | [], _ => True
  | t :: ts, s => ¬ Slip R s t ∧ ∀ s', dispatch E R t s = .ok () s' → Smooth E R ts s'

theorem sync_smooth (ht : R.watertight = true) (hw : R.wf = true) : ∀ (ts : List Token) {s s' : St} {g k}, Sync R s g → grun g ts = some ⟨[], k⟩ →
    run E R ts s = .ok () s' → Smooth E R ts s
  | [], s, s', g, k, h, hg, hr => trivial
  | t :: ts, s, s', g, k, h, hg, hr => by
    simp only [grun] at hg
    cases hg1 : gstep g t with
    | none => rw [hg1] at hg; simp at hg
    | some g' =>
      rw [hg1] at hg
      rw [run_cons] at hr
      obtain ⟨_, s1, h1, h2⟩ := bind_ok_inv hr
      rcases sync_step ht hw h hg1 h1 with ⟨h3, h4⟩ | h3
      · refine ⟨h4, fun s2 h5 => ?_⟩
        rw [h1] at h5; injection h5 with _ h5; subst h5
        exact sync_smooth ht hw ts h3 hg h2
      · exact absurd h2 (doom_run ht hw ts h3 hg)

theorem Ready.sync (ht : R.watertight = true) {s : St} (h : Ready R s) : Sync R s ⟨[], false⟩ := by
  have hst : ∀ q, (s.heap q).started = false := fun q => h.sane.started q List.nil_suffix
  have hc : Ctl R s := by
    refine ⟨by rw [h.stack]; rfl, ?_, h.sane.closed, h.disp, fun q hq => by rw [hst q] at hq; simp at hq⟩
    intro a ha
    rw [h.stack] at ha; simp at ha; subst ha
    exact ⟨⟨R, rfl⟩, h.disp⟩
  refine .pend (p := []) ⟨hc, fun q _ _ _ _ _ => hst _, fun q _ _ _ h1 => ?_⟩ h.stack trivial ?_ (by simp [anc]) ?_ (fun _ _ _ => hst _)
  · rw [hst] at h1; cases h1
  · refine str_nil ?_
    simp only [Shape.watertight, Bool.and_eq_true] at ht
    rintro h1; simp [Shape.at] at h1; subst h1; simp [Shape.isUser] at ht
  · intro q _ _ _ h1; rw [hst] at h1; cases h1

/-- An accepted document meets no mishandled null. -/
theorem ready_smooth (ht : R.watertight = true) (hw : R.wf = true) {s s' : St} (h : Ready R s) {j} (ok : run E R (events j) s = .ok () s') :
    Smooth E R (events j) s := by
  refine sync_smooth ht hw _ (h.sync ht) (k := true) ?_ ok
  have := grun_events j [] []
  rw [List.append_nil] at this
  rw [this]; rfl

end SJ
