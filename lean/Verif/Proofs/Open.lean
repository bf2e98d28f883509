/-
Which arrays are in the middle of their elements: those on the stack.
-/
import Verif.Proofs.Control
import Verif.Proofs.Main

set_option linter.unusedVariables false

namespace SJ

variable {E : Env} {R : Shape}

/-- Arrays in the middle of their elements are on the stack; scalar element parsers have no dispatcher. -/
structure Opened (R : Shape) (s : St) : Prop where
  ctl : Ctl R s
  started : ∀ q, (s.heap q).started = true → q ∈ s.stack
  velem : ∀ q st ty, R.at q = some (.array st (.value ty)) → (s.heap (.elem :: q)).disp = false

/-- The same after an exception. -/
structure OpenedX (R : Shape) (s : St) : Prop where
  ctl : Ctl R s
  started : ∀ q, (s.heap q).started = true → q ∈ s.stack
  velem : ∀ q st ty, R.at q = some (.array st (.value ty)) → (s.heap (.elem :: q)).disp = true → (s.heap q).started = true
  arr : ∀ q, (s.heap q).started = true → ∃ st e, R.at q = some (.array st e)

theorem Opened.same {s s' : St} (h : Opened R s) (hs : s'.stack = s.stack) (hc : SameCtl s.heap s'.heap) : Opened R s' :=
  ⟨h.ctl.shrink (by rw [hs]; exact List.suffix_refl _) hc, fun q hq => by rw [hs]; rw [(hc q).2] at hq; exact h.started q hq,
    fun q st ty hR => by rw [(hc _).1]; exact h.velem q st ty hR⟩

theorem Opened.drop {s : St} (h : Opened R s) {p rest} (hs : s.stack = p :: rest) (hp : (s.heap p).started = false) :
    Opened R s.drop :=
  ⟨h.ctl.drop, fun q hq => by
    have := h.started q hq
    rw [hs] at this
    rcases List.mem_cons.1 this with rfl | h'
    · change (s.heap q).started = true at hq; rw [hp] at hq; simp at hq
    · show q ∈ s.stack.tail
      rw [hs]; exact h', h.velem⟩

/-- Only arrays are ever started. -/
structure Opened' (R : Shape) (s : St) : Prop where
  op : Opened R s
  arr : ∀ q, (s.heap q).started = true → ∃ st e, R.at q = some (.array st e)

theorem Opened'.x {s : St} (h : Opened' R s) : OpenedX R s :=
  ⟨h.op.ctl, h.op.started, fun q st ty hR hd => by rw [h.op.velem q st ty hR] at hd; simp at hd, h.arr⟩

abbrev OpFine' {α} (R : Shape) (r : Res α) : Prop := Fine (Opened' R) (fun _ => OpenedX R) True r

theorem Opened'.same {s s' : St} (h : Opened' R s) (hs : s'.stack = s.stack) (hc : SameCtl s.heap s'.heap) : Opened' R s' :=
  ⟨h.op.same hs hc, fun q hq => h.arr q (by rw [(hc q).2] at hq; exact hq)⟩

theorem Opened'.drop {s : St} (h : Opened' R s) {p rest} (hs : s.stack = p :: rest) (hp : (s.heap p).started = false) :
    Opened' R s.drop := ⟨h.op.drop hs hp, h.arr⟩

theorem Opened'.not_started {s : St} (h : Opened' R s) {p sh} (hR : R.at p = some sh) (ha : ∀ st e, sh ≠ .array st e) :
    (s.heap p).started = false := by
  cases hd : (s.heap p).started with
  | false => rfl
  | true =>
    obtain ⟨st, e, h'⟩ := h.arr p hd
    rw [hR] at h'; injection h' with h'
    exact absurd h' (ha st e)

theorem Loc.op' {α} {p} {m : M α} (h : Loc p m) {s : St} (hc : Opened' R s) : OpFine' R (m s) := by
  have := h s
  cases hm : m s with
  | ok a s' => rw [hm] at this; exact hc.same this.1 this.2.ctl
  | throw a s' => rw [hm] at this; exact (hc.same this.1 this.2.ctl).x
  | ub => trivial
  | fuel => rw [hm] at this; exact this

theorem Opened'.chain : ChainInv E R (Opened' R) (fun _ => OpenedX R) True where
  valid := fun s h => h.op.ctl.valid
  plain := fun s _ h => h.x
  fin := fun s p rest sh h hs hR ha _ => by
    have := (Loc.complete (E := E) sh p) s
    cases hm : complete E sh p s with
    | ok a s' =>
      rw [hm] at this
      exact (h.same this.1 this.2.ctl).drop (this.1.trans hs) (by rw [(this.2.ctl p).2]; exact h.not_started hR ha)
    | throw a s' => rw [hm] at this; exact (h.same this.1 this.2.ctl).x
    | ub => trivial
    | fuel => rw [hm] at this; exact this
  struct := fun s p rest r h hs _ => h.same rfl (SameCtl.upd fun _ => ⟨rfl, rfl⟩)
  arr := fun s p rest st e h hs _ => (Loc.arrChild st p).op' h
  map := fun s p rest st e h hs _ => (Loc.mapChild st e p).op' h

theorem Opened'.popTop {s : St} (h : Opened' R s) {p rest} (hs : s.stack = p :: rest) (hp : (s.heap p).started = false) :
    OpFine' R (pop E R s) :=
  (Opened'.chain.all _).1 s (Nat.le_refl _) (by rw [hs]; simp) (h.drop hs hp)

/-- The parser on top completes. -/
theorem Opened'.endTop {s : St} (h : Opened' R s) {p rest} (hs : s.stack = p :: rest) (hp : (s.heap p).started = false) (sh) :
    OpFine' R (endP E R sh p s) := by
  rw [endP_eq]
  refine Fine.bind ((Loc.complete sh p).op' h) fun _ s1 h0 h1 => ?_
  obtain ⟨e1, e2⟩ := (Loc.complete (E := E) sh p).ok h0
  rw [bind_getC]
  split
  · exact h1.popTop (e1.trans hs) (by rw [(e2.ctl p).2]; exact hp)
  · exact h1

theorem Opened'.nullTop {s : St} (h : Opened' R s) {p rest} (hs : s.stack = p :: rest) (hp : (s.heap p).started = false) (sh) :
    OpFine' R (nullBase E R sh p s) := by
  unfold nullBase
  rw [bind_modH, bind_getC]
  have h1 : Opened' R { s with heap := resetH p sh s.heap } := h.same rfl (resetH_ctl _ _ _)
  split
  · refine h1.popTop (p := p) (rest := rest) hs ?_
    show (resetH p sh s.heap p).started = false
    rw [(resetH_ctl _ _ _ _).2]; exact hp
  · exact h1

/-- A parser without dispatcher completes. -/
theorem Opened'.endOff {s : St} (h : Opened' R s) {p} (hd : (s.heap p).disp = false) (sh) : OpFine' R (endP E R sh p s) := by
  rw [endP_eq]
  refine Fine.bind ((Loc.complete sh p).op' h) fun _ s1 h0 h1 => ?_
  obtain ⟨e1, e2⟩ := (Loc.complete (E := E) sh p).ok h0
  rw [bind_getC, if_neg (by rw [(e2.ctl p).1, hd]; simp)]
  exact h1

theorem Opened'.push {s : St} (h : Opened' R s) {q rest p sh} (hs : s.stack = q :: rest) (hR : R.at p = some sh) (hd : (s.heap p).disp = true)
    (hl : Link R p q) : Opened' R { s with stack := p :: s.stack } :=
  ⟨⟨h.op.ctl.push hs hR hd hl, fun a ha => List.mem_cons_of_mem _ (h.op.started a ha), h.op.velem⟩, h.arr⟩

theorem Opened'.onMember {s : St} (h : Opened' R s) {p q rest u ms x} (hs : s.stack = q :: rest)
    (hmem : ∀ n sh, lookup x 0 ms = some (n, sh) → R.at (.mem n :: p) = some sh)
    (hign : R.at (.ign :: p) = some .ignore)
    (hcl : (s.heap p).disp = true → ∀ st, InTree R (st :: p) → (s.heap (st :: p)).disp = true)
    (hl : (s.heap p).disp = true → ∀ st, Link R (st :: p) q) :
    OpFine' R (onMember E u ms p x s) := by
  unfold SJ.onMember
  rw [setNotEmpty_def, bind_modC, bind_getC]
  have h1 : Opened' R { s with heap := s.heap.upd p fun c => { c with empty := false } } := h.same rfl (SameCtl.upd fun _ => ⟨rfl, rfl⟩)
  have hdd : ∀ a, ((s.heap.upd p fun c => { c with empty := false }) a).disp = (s.heap a).disp := fun a =>
    ((SameCtl.upd (h := s.heap) (p := p) (f := fun c => { c with empty := false }) fun _ => ⟨rfl, rfl⟩) a).1
  simp only
  cases hlk : lookup x 0 ms with
  | some a =>
    obtain ⟨n, sh⟩ := a
    simp only
    rw [hdd]
    split
    · rename_i hdp
      rw [bind_push]
      refine h1.push (q := q) (rest := rest) hs (hmem n sh hlk) ?_ (hl hdp _)
      rw [hdd]; exact hcl hdp _ ⟨_, hmem n sh hlk⟩
    · trivial
  | none =>
    simp only
    split
    · exact h1.x
    · rw [hdd]
      split
      · rename_i hdp
        rw [bind_push]
        refine h1.push (q := q) (rest := rest) hs hign ?_ (hl hdp _)
        rw [hdd]; exact hcl hdp _ ⟨_, hign⟩
      · trivial

/-- `[` or `{` inside an array: the element parser is made current. -/
theorem Opened'.enter {s : St} (h : Opened' R s) {p rest st e} (hs : s.stack = p :: rest) (hR : R.at p = some (.array st e))
    (he : ∀ ty, e ≠ .value ty) :
    Opened' R { s with heap := setDispH (.elem :: p) e (s.heap.upd p fun c => { c with empty := false }), stack := (.elem :: p) :: s.stack } := by
  have hRe := at_elem_array hR
  have h1 : Opened' R { s with heap := s.heap.upd p fun c => { c with empty := false } } := h.same rfl (SameCtl.upd fun _ => ⟨rfl, rfl⟩)
  have hk := Keep.setDisp (h := s.heap.upd p fun c => { c with empty := false }) hR he
  have h2 : Opened' R { s with heap := setDispH (.elem :: p) e (s.heap.upd p fun c => { c with empty := false }) } := by
    refine ⟨⟨h1.op.ctl.setDisp hRe, fun q hq => h1.op.started q ?_, fun q st' ty hq => (hk.velem q st' ty hq).trans (h1.op.velem q st' ty hq)⟩,
      fun q hq => h1.arr q ?_⟩
    · change (setDispH _ _ _ q).started = true at hq
      rw [(setDispH_only _ _ _).started] at hq; exact hq
    · change (setDispH _ _ _ q).started = true at hq
      rw [(setDispH_only _ _ _).started] at hq; exact hq
  exact h2.push (q := p) (rest := rest) hs hRe (setDispH_self _ _ _) (Or.inl ⟨_, rfl⟩)

/-- The same if the element parser is a scalar one, which refuses. -/
theorem Opened'.enterX {s : St} (h : Opened' R s) {p rest st ty} (hs : s.stack = p :: rest) (hR : R.at p = some (.array st (.value ty)))
    (hst : (s.heap p).started = true) :
    OpenedX R { s with heap := setDispH (.elem :: p) (.value ty) (s.heap.upd p fun c => { c with empty := false }), stack := (.elem :: p) :: s.stack } := by
  have hRe := at_elem_array hR
  have h1 : Opened' R { s with heap := s.heap.upd p fun c => { c with empty := false } } := h.same rfl (SameCtl.upd fun _ => ⟨rfl, rfl⟩)
  refine ⟨(h1.op.ctl.setDisp hRe).push (q := p) (rest := rest) hs hRe (setDispH_self _ _ _) (Or.inl ⟨_, rfl⟩), fun q hq => ?_, fun q st' ty' hq hd => ?_, fun q hq => h1.arr q ?_⟩
  · refine List.mem_cons_of_mem _ (h1.op.started q ?_)
    change (setDispH _ _ _ q).started = true at hq
    rw [(setDispH_only _ _ _).started] at hq; exact hq
  · by_cases hpq : q = p
    · subst hpq
      show (setDispH _ _ _ q).started = true
      rw [(setDispH_only _ _ _).started]; simpa using hst
    · exfalso
      change (Heap.upd _ _ _ _).disp = true at hd
      rw [upd_other (by simpa using hpq)] at hd
      have := h1.op.velem q st' ty' hq
      rw [hd] at this; simp at this
  · change (setDispH _ _ _ q).started = true at hq
    rw [(setDispH_only _ _ _).started] at hq; exact hq

/-- The element parsers of arrays are values. -/
def ScalarArrays (R : Shape) : Prop := ∀ q st e, R.at q = some (.array st e) → ∃ ty, e = .value ty

/-- The internal ignore parser is not the element of an array. -/
def NoIgnoreElem (R : Shape) : Prop := ∀ q st, R.at q ≠ some (.array st .ignore)

theorem onF_open (hI : NoIgnoreElem R) (t : Token) (ht : t ≠ .null ∨ ScalarArrays R) (sh : Shape) :
    ∀ (p q : Path) (rest : List Path) (s : St), Opened' R s → s.stack = q :: rest →
    R.at p = some sh → Delegated R t p q sh → OpFine' R (onF E R sh p t s) := by
  induction sh using Shape.arrInd with
  | value ty =>
    intro p q rest s h hs hR hd
    have hp := h.not_started hR (by simp)
    cases t with
    | null =>
      rcases hd with rfl | ⟨p', st, rfl, hp', _, _⟩
      · exact h.nullTop hs hp _
      · simp only [onF, nullBase]
        rw [bind_modH, bind_getC]
        have hd := h.op.velem p' st ty hp'
        rw [if_neg (by rw [(resetH_ctl _ _ _ _).1, hd]; simp)]
        exact h.same rfl (resetH_ctl _ _ _)
    | scalar v =>
      simp only [onF]
      split
      · rw [setNotEmpty_def, bind_modC, bind_modC]
        have hc : SameCtl s.heap ((s.heap.upd p fun c => { c with empty := false }).upd p fun c => { c with val := .sc v }) :=
          SameCtl.trans (h' := s.heap.upd p fun c => { c with empty := false }) (SameCtl.upd fun _ => ⟨rfl, rfl⟩)
            (SameCtl.upd fun _ => ⟨rfl, rfl⟩)
        rcases hd with rfl | ⟨p', st, rfl, hp', _, _⟩
        · refine Opened'.endTop (h.same ?_ ?_) (rest := rest) ?_ ?_ _
          · rfl
          · exact hc
          · exact hs
          · rw [(hc _).2]; exact hp
        · refine Opened'.endOff (h.same ?_ ?_) ?_ _
          · rfl
          · exact hc
          · rw [(hc _).1]; exact h.op.velem p' st ty hp'
      · exact h.x
    | _ => exact h.x
  | ignore =>
    intro p q rest s h hs hR hd
    have hp := h.not_started hR (by simp)
    obtain rfl : p = q := by
      rcases hd with rfl | ⟨p', st, rfl, hp', _, _⟩
      · rfl
      · exact absurd hp' (hI p' st)
    cases t with
    | null => exact h.nullTop hs hp _
    | scalar v =>
      simp only [onF, bind_getC]
      split
      · exact h.endTop hs hp _
      · exact h
    | mapStart => exact h.same rfl (SameCtl.upd fun _ => ⟨rfl, rfl⟩)
    | arrStart => exact h.same rfl (SameCtl.upd fun _ => ⟨rfl, rfl⟩)
    | mapKey k =>
      simp only [onF, bind_getC]
      match (s.heap p).struct with
      | true :: _ => exact h
      | false :: _ => exact h.x
      | [] => exact h.x
    | mapEnd =>
      simp only [onF, bind_getC]
      match (s.heap p).struct with
      | true :: r =>
        simp only [bind_modC]
        have h1 : Opened' R { s with heap := s.heap.upd p fun c => { c with struct := r } } := h.same rfl (SameCtl.upd fun _ => ⟨rfl, rfl⟩)
        split
        · refine h1.endTop (rest := rest) hs ?_ _
          simp [hp]
        · exact h1
      | false :: _ => exact h.x
      | [] => exact h.x
    | arrEnd =>
      simp only [onF, bind_getC]
      match (s.heap p).struct with
      | false :: r =>
        simp only [bind_modC]
        have h1 : Opened' R { s with heap := s.heap.upd p fun c => { c with struct := r } } := h.same rfl (SameCtl.upd fun _ => ⟨rfl, rfl⟩)
        split
        · refine h1.endTop (rest := rest) hs ?_ _
          simp [hp]
        · exact h1
      | true :: _ => exact h.x
      | [] => exact h.x
  | object k u ms =>
    intro p q rest s h hs hR hd
    have hp := h.not_started hR (by simp)
    have hpq : (∀ v, t ≠ .scalar v) → p = q := by
      intro h1
      rcases hd with hd | ⟨p', st, rfl, hp', _, hd | ⟨v, hd⟩⟩
      · exact hd
      · exfalso
        rcases ht with ht | ht
        · exact ht hd
        · obtain ⟨ty, h2⟩ := ht p' st _ hp'; simp at h2
      · exact absurd hd (h1 v)
    cases t with
    | null => obtain rfl := hpq (by simp); exact h.nullTop hs hp _
    | mapStart => exact h.same rfl (resetH_ctl _ _ _)
    | mapKey key =>
      obtain rfl := hpq (by simp)
      simp only [onF]
      have hdp := (h.op.ctl.valid p (by simp [hs])).2
      refine Fine.bind (h.onMember hs (fun n sh hl => ?_) (at_ign_object hR) ?_ (fun _ st => Or.inl ⟨st, rfl⟩)) fun _ _ _ h' => h'
      · obtain ⟨i, hi⟩ := lookup_mem hl
        exact at_mem_object hR hi
      · intro _ st ⟨c, hc⟩
        exact h.op.ctl.closed p _ st c hR hdp (by simp) (by simpa [Shape.at, hR] using hc)
    | mapEnd => obtain rfl := hpq (by simp); exact h.endTop hs hp _
    | _ => exact h.x
  | union ty tm b ms =>
    intro p q rest s h hs hR hd
    have hp := h.not_started hR (by simp)
    have hpq : (∀ v, t ≠ .scalar v) → p = q := by
      intro h1
      rcases hd with hd | ⟨p', st, rfl, hp', _, hd | ⟨v, hd⟩⟩
      · exact hd
      · exfalso
        rcases ht with ht | ht
        · exact ht hd
        · obtain ⟨ty, h2⟩ := ht p' st _ hp'; simp at h2
      · exact absurd hd (h1 v)
    cases t with
    | null => obtain rfl := hpq (by simp); exact h.nullTop hs hp _
    | scalar v =>
      simp only [onF]
      split
      · rw [bind_modH]
        have h1 : Opened' R { s with heap := resetH p (.union ty tm b ms) s.heap } := h.same rfl (resetH_ctl _ _ _)
        refine Fine.bind (h1.onMember (q := q) (rest := rest) hs (fun n sh hl => ?_) ?_ ?_ ?_) fun r s' _ h' => ?_
        · obtain ⟨i, hi⟩ := lookup_mem hl
          exact at_mem_union hR hi
        · simp [Shape.at, hR, Shape.child]
        · intro hdp st ⟨c, hc⟩
          exact h1.op.ctl.closed p _ st c hR hdp (by simp) (by simpa [Shape.at, hR] using hc)
        · intro hdp st
          rcases hd with rfl | ⟨p', a, rfl, hp', hb, _⟩
          · exact Or.inl ⟨st, rfl⟩
          · refine Or.inr ⟨⟨_, _, _, _, _, _, hp'⟩, ?_, ?_⟩
            · exact (hb.trans (Below.cons _ _)).trans (Below.cons _ _)
            · rintro rfl
              have := hb.length_le
              simp at this; omega
        · cases r with
          | some n => exact h'.same rfl (SameCtl.upd fun _ => ⟨rfl, rfl⟩)
          | none => exact h'
      · exact h.x
    | mapStart =>
      simp only [onF]
      split
      · exact h.x
      · exact h.same rfl (resetH_ctl _ _ _)
    | mapKey key =>
      simp only [onF]
      split
      · exact h.x
      · split
        · exact h.x
        · exact h
    | mapEnd => obtain rfl := hpq (by simp); exact h.endTop hs hp _
    | _ => exact h.x
  | map st e =>
    intro p q rest s h hs hR hd
    have hp := h.not_started hR (by simp)
    have hpq : (∀ v, t ≠ .scalar v) → p = q := by
      intro h1
      rcases hd with hd | ⟨p', st, rfl, hp', _, hd | ⟨v, hd⟩⟩
      · exact hd
      · exfalso
        rcases ht with ht | ht
        · exact ht hd
        · obtain ⟨ty, h2⟩ := ht p' st _ hp'; simp at h2
      · exact absurd hd (h1 v)
    cases t with
    | null => obtain rfl := hpq (by simp); exact h.nullTop hs hp _
    | mapStart => exact h.same rfl (resetH_ctl _ _ _)
    | mapKey key =>
      obtain rfl := hpq (by simp)
      have hdp := (h.op.ctl.valid p (by simp [hs])).2
      simp only [onF, setNotEmpty_def, bind_modC, bind_getC, upd_same]
      rw [if_pos hdp, bind_push]
      have h1 : Opened' R { s with heap := s.heap.upd p fun c => { c with empty := false } } := h.same rfl (SameCtl.upd fun _ => ⟨rfl, rfl⟩)
      have hde : (s.heap (.elem :: p)).disp = true := h.op.ctl.closed p _ .elem e hR hdp (by simp) rfl
      exact (h1.push (q := p) (rest := rest) hs (at_elem_map hR) (by simp [upd_other, hde]) (Or.inl ⟨.elem, rfl⟩)).same rfl
        (SameCtl.upd fun _ => ⟨rfl, rfl⟩)
    | mapEnd => obtain rfl := hpq (by simp); exact h.endTop hs hp _
    | _ => exact h.x
  | array st e ih =>
    intro p q rest s h hs hR hd
    have hRe := at_elem_array hR
    have hb : Below q p := by
      rcases hd with rfl | ⟨p', a, rfl, hp', hb, _⟩
      · exact Below.refl _
      · exact hb.trans (Below.cons _ _)
    have top : (∀ v, t ≠ .scalar v) → p = q := by
      intro h1
      rcases hd with hd | ⟨p', st, rfl, hp', _, hd | ⟨v, hd⟩⟩
      · exact hd
      · exfalso
        rcases ht with ht | ht
        · exact ht hd
        · obtain ⟨ty, h2⟩ := ht p' st _ hp'; simp at h2
      · exact absurd hd (h1 v)
    have hstart : ∀ t', (t' = .mapStart ∨ t' = .arrStart) → t = t' → (s.heap p).started = true → OpFine' R (M.bind (setNotEmpty p) (fun _ =>
        M.bind (modH (setDispH (.elem :: p) e)) fun _ => M.bind (pushParser (.elem :: p)) fun _ => onF E R e (.elem :: p) t') s) := by
      intro t' ht' hte hst
      obtain rfl := top (by intro v hv; rw [hv] at hte; rcases ht' with rfl | rfl <;> simp at hte)
      rw [setNotEmpty_def, bind_modC, bind_modH, bind_push]
      by_cases he : ∃ ty, e = .value ty
      · obtain ⟨ty, rfl⟩ := he
        have hx := h.enterX hs hR hst
        rcases ht' with rfl | rfl
        · exact hx
        · exact hx
      · have hx := h.enter hs hR fun ty he' => he ⟨ty, he'⟩
        subst hte
        exact ih _ (.elem :: p) s.stack _ hx rfl hRe (Or.inl rfl)
    cases t with
    | null =>
      obtain rfl := top (by simp)
      simp only [onF, bind_getC]
      split
      · rename_i hst
        exact h.nullTop hs (by simpa using hst) _
      · exact ih _ p rest s h hs hRe (Or.inr ⟨p, st, rfl, hR, hb, Or.inl rfl⟩)
    | scalar v =>
      simp only [onF, bind_getC]
      split
      · exact h.x
      · refine Fine.bind (ih _ q rest s h hs hRe (Or.inr ⟨p, st, rfl, hR, hb, Or.inr ⟨v, rfl⟩⟩)) fun _ s1 _ h1 => ?_
        rw [setNotEmpty_def, bind_modC, chP_arrChild hR]
        refine (Loc.arrChild st p).op' (h1.same ?_ ?_)
        · rfl
        · exact SameCtl.upd fun _ => ⟨rfl, rfl⟩
    | mapStart =>
      simp only [onF, bind_getC]
      split
      · exact h.x
      · rename_i hst
        split
        · trivial
        · exact hstart _ (Or.inl rfl) rfl (by simpa using hst)
    | arrStart =>
      simp only [onF, bind_getC]
      split
      · obtain rfl := top (by simp)
        have h1 : Opened' R { s with heap := resetH p (.array st e) s.heap } := h.same rfl (resetH_ctl _ _ _)
        refine ⟨⟨h1.op.ctl.start hR, fun a ha => ?_, fun a st' ty ha => ?_⟩, fun a ha => ?_⟩
        · by_cases hap : a = p
          · subst hap; show a ∈ s.stack; rw [hs]; simp
          · dsimp only at ha; rw [upd_other hap] at ha; exact h1.op.started a ha
        · rw [upd_started_disp]; exact h1.op.velem a st' ty ha
        · by_cases hap : a = p
          · subst hap; exact ⟨_, _, hR⟩
          · dsimp only at ha; rw [upd_other hap] at ha; exact h1.arr a ha
      · rename_i hst
        split
        · trivial
        · exact hstart _ (Or.inr rfl) rfl (by simpa using hst)
    | arrEnd =>
      obtain rfl := top (by simp)
      simp only [onF, bind_modC]
      have h1 : Opened' R { s with heap := s.heap.upd p fun c => { c with started := false } } := by
        refine ⟨⟨h.op.ctl.start hR, fun a ha => ?_, fun a st' ty ha => ?_⟩, fun a ha => ?_⟩
        · by_cases hap : a = p
          · subst hap; simp at ha
          · dsimp only at ha; rw [upd_other hap] at ha; exact h.op.started a ha
        · rw [upd_started_disp]; exact h.op.velem a st' ty ha
        · by_cases hap : a = p
          · subst hap; simp at ha
          · dsimp only at ha; rw [upd_other hap] at ha; exact h.arr a ha
      exact h1.endTop (rest := rest) hs (by simp) _
    | mapKey k => exact h.x
    | mapEnd => exact h.x

theorem dispatch_open (hI : NoIgnoreElem R) {t : Token} {s : St} (h : Opened' R s) (hn : ¬ NullElement R t s) : OpFine' R (dispatch E R t s) := by
  match hs : s.stack with
  | [] => rw [dispatch_nil hs]; exact h.x
  | p :: rest =>
    obtain ⟨⟨sh, hR⟩, _⟩ := h.op.ctl.valid p (by simp [hs])
    rw [dispatch_cons hs hR]
    by_cases ht : t = .null
    · subst ht
      cases hst : (s.heap p).started with
      | false =>
        have : onF E R sh p .null s = nullBase E R sh p s := by
          cases sh <;> simp only [onF, bind_getC, hst, Bool.not_false, if_true]
        rw [this]; exact h.nullTop hs hst _
      | true =>
        obtain ⟨st, e, hR'⟩ := h.arr p hst
        rw [hR] at hR'; injection hR' with hR'; subst hR'
        have he : ∃ ty, e = .value ty := Classical.byContradiction fun hc => hn ⟨p, rest, st, e, hs, hR, hst, rfl, fun ty he => hc ⟨ty, he⟩⟩
        obtain ⟨ty, rfl⟩ := he
        have hd := h.op.velem p st ty hR
        simp only [onF, bind_getC, hst, Bool.not_true, Bool.false_eq_true, if_false, nullBase]
        rw [bind_modH, bind_getC, if_neg (by rw [(resetH_ctl _ _ _ _).1, hd]; simp)]
        exact h.same rfl (resetH_ctl _ _ _)
    · exact onF_open hI t (.inl ht) sh p p rest s h hs hR (Or.inl rfl)

theorem Arrives.cons {bad t ts} {s s' : St} {u} (h : dispatch E R t s = .ok u s') (ha : Arrives E R bad ts s') : Arrives E R bad (t :: ts) s := by
  obtain ⟨a, x, b, s1, rfl, h1, h2⟩ := ha
  exact ⟨t :: a, x, b, s1, rfl, by rw [run_cons, M.bind, h]; exact h1, h2⟩

theorem Arrives.head {bad t ts} {s : St} (h : bad t s) : Arrives E R bad (t :: ts) s := ⟨[], t, ts, s, rfl, rfl, h⟩

theorem run_open (hI : NoIgnoreElem R) : ∀ (ts : List Token) {s : St} (ht : ¬ Arrives E R (NullElement R) ts s), Opened' R s →
    OpFine' R (run E R ts s)
  | [], s, _, h => h
  | t :: ts, s, ht, h => by
    rw [run_cons]
    exact Fine.bind (P := Opened' R) (dispatch_open hI h fun hb => ht (.head hb)) fun _ s' h1 h' => run_open hI ts (fun ha => ht (.cons h1 ha)) h'

theorem no_null_element {ts} (ht : .null ∉ ts ∨ ScalarArrays R) (s : St) : ¬ Arrives E R (NullElement R) ts s := by
  rintro ⟨a, x, b, s', rfl, _, p, rest, st, e, _, hR, _, rfl, he⟩
  rcases ht with ht | ht
  · exact ht (by simp)
  · obtain ⟨ty, h⟩ := ht p st e hR; exact he ty h

theorem Ready.opened {s : St} (hr : Ready R s) : Opened' R s := by
  have hs : ∀ q, (s.heap q).started = false := fun q => hr.sane.started q List.nil_suffix
  refine ⟨⟨⟨?_, ?_, hr.sane.closed, hr.disp, fun q hq => by rw [hs q] at hq; simp at hq⟩, fun q hq => ?_, fun q st ty hR => hr.sane.velem q st ty List.nil_suffix hR⟩, fun q hq => ?_⟩
  · rw [hr.stack]; rfl
  · intro p hp
    rw [hr.stack] at hp
    obtain rfl : p = [] := by simpa using hp
    exact ⟨⟨R, rfl⟩, hr.disp⟩
  · rw [hs q] at hq; simp at hq
  · rw [hs q] at hq; simp at hq

end SJ
