/-
The data invariant of `Tidy` is kept by every token of a JSON document.
-/
import Verif.Proofs.Tidy

set_option linter.unusedVariables false

namespace SJ

variable {E : Env} {R : Shape}

/-- The token begins a value. -/
def Starts : Token → Prop
  | .null | .scalar _ | .mapStart | .arrStart => True
  | _ => False

theorem Sound.flags {sh : Shape} {c c' : Cell} (h : Sound sh c) (h1 : c'.set = c.set) (h2 : c'.val = c.val) (h3 : c'.curId = c.curId)
    (h4 : c'.started = c.started) : Sound sh c' :=
  ⟨fun a b => by rw [h2]; exact h.val a (by rw [← h1]; exact b), fun ty tm st ms a b => by rw [h3]; exact h.cur ty tm st ms a (by rw [← h1]; exact b),
   fun st e a b => by rw [h1, h2]; exact h.run st e a (by rw [← h4]; exact b)⟩

theorem DispOnly.sound {h h' : Heap} (hd : DispOnly h h') {sh : Shape} {q} (hs : Sound sh (h q)) : Sound sh (h' q) := by
  rcases hd q with hq | hq
  · rw [hq]; exact hs
  · rw [hq]; exact hs.flags rfl rfl rfl rfl

theorem DispOnly.entered {h h' : Heap} (hd : DispOnly h h') {sh : Shape} {q} (hs : Entered sh (h q)) : Entered sh (h' q) := by
  rcases hd q with hq | hq
  · rw [hq]; exact hs
  · rw [hq]; cases sh <;> exact hs

/-- The parser at `q` is on top; the one at `p` (the same, or one inside of it) gets a token. -/
structure Place (R : Shape) (ex : Path → Prop) (L0 : Nat) (p q : Path) (rest : List Path) (s : St) : Prop where
  ctl : Ctl R s
  inv : Inv R s
  log : L0 ≤ s.log.length
  stk : s.stack = q :: rest
  ent : EntL R rest s.heap
  top : (∀ sh, R.at q = some sh → Entered sh (s.heap q)) ∨ (p = q ∧ ex q)
  loc : p = q ∨ q.length < p.length

theorem Place.rest_lt {ex L0 p q rest} {s : St} (h : Place R ex L0 p q rest s) : ∀ r ∈ rest, r.length < q.length :=
  stacked_shorter (h.stk ▸ h.ctl.linked)

theorem Place.notin {ex L0 p q rest} {s : St} (h : Place R ex L0 p q rest s) : ∀ r ∈ rest, r ≠ p := by
  rintro r hr rfl
  have := h.rest_lt r hr
  rcases h.loc with rfl | h'
  · omega
  · omega

theorem Place.others {ex L0 p q rest} {s : St} (h : Place R ex L0 p q rest s) :
    ∀ r ∈ s.stack, r ≠ p → ∀ sh, R.at r = some sh → Entered sh (s.heap r) := by
  intro r hr hne sh hR
  rw [h.stk] at hr
  rcases List.mem_cons.1 hr with rfl | hr
  · exact (h.top.resolve_right fun ⟨h1, _⟩ => hne h1.symm) sh hR
  · exact h.ent r hr sh hR

theorem Place.left {ex L0 p q rest} {s : St} (h : Place R ex L0 p q rest s) : Left R ex L0 s := by
  refine ⟨h.inv, fun r hr sh hR hc hex => Or.inl ?_⟩
  rw [h.stk] at hr
  rcases List.mem_cons.1 hr with rfl | hr
  · exact ((h.top.resolve_right fun h' => hex h'.2) sh hR).unset hc
  · exact (h.ent r hr sh hR).unset hc

theorem Place.tidy {ex L0 p q rest} {s : St} (h : Place R ex L0 p q rest s)
    (ht : ∀ sh, R.at q = some sh → Entered sh (s.heap q)) : Tidy R L0 s := by
  refine ⟨h.ctl, h.inv, fun r hr sh hR => ?_, h.log⟩
  rw [h.stk] at hr
  rcases List.mem_cons.1 hr with rfl | hr
  · exact ht sh hR
  · exact h.ent r hr sh hR

/-- A change of data in the cell of `p` only. -/
theorem Place.upd {ex L0 p q rest sh f} {s : St} (h : Place R ex L0 p q rest s) (hR : R.at p = some sh)
    (hf : ∀ c, (f c).disp = c.disp ∧ (f c).started = c.started) (hs : Sound sh (f (s.heap p)))
    (he : Entered sh (s.heap p) → Entered sh (f (s.heap p))) : Place R ex L0 p q rest { s with heap := s.heap.upd p f } := by
  refine ⟨h.ctl.data hf, ⟨fun r shr hRr => ?_, h.inv.log⟩, h.log, h.stk, fun r hr shr hRr => ?_, ?_, h.loc⟩
  · by_cases hrp : r = p
    · subst hrp
      rw [hR] at hRr; injection hRr with hRr; subst hRr
      simp only [upd_same]; exact hs
    · simp only [upd_other hrp]; exact h.inv.cells r shr hRr
  · simp only [upd_other (h.notin r hr)]; exact h.ent r hr shr hRr
  · rcases h.top with ht | ht
    · left
      intro shq hRq
      by_cases hqp : q = p
      · subst hqp
        rw [hR] at hRq; injection hRq with hRq; subst hRq
        simp only [upd_same]; exact he (ht _ hR)
      · simp only [upd_other hqp]; exact ht shq hRq
    · exact Or.inr ht

theorem Place.rst {ex L0 p q rest sh} {s : St} (h : Place R ex L0 p q rest s) (hR : R.at p = some sh) :
    Place R ex L0 p q rest { s with heap := resetH p sh s.heap } := by
  have hr := resetH_rst sh p s.heap hR
  refine ⟨h.ctl.shrink (List.suffix_refl _) (resetH_ctl _ _ _), h.inv.rst hr, h.log, h.stk,
    fun r hr' shr hRr => Ents.rst hr r shr hRr (h.ent r hr' shr hRr), ?_, h.loc⟩
  rcases h.top with ht | ht
  · exact Or.inl fun shq hRq => Ents.rst hr q shq hRq (ht shq hRq)
  · exact Or.inr ht

/-- Parsers not shorter than `q`, other than `p`, that have begun to read stay so. -/
def Kept (R : Shape) (p q : Path) (h h' : Heap) : Prop :=
  ∀ k sh, q.length ≤ k.length → k.length ≤ p.length → k ≠ p → R.at k = some sh → Entered sh (h k) → Entered sh (h' k)

/-- After a token. -/
structure Next (R : Shape) (L0 : Nat) (t : Token) (stk : List Path) (s : St) : Prop where
  ctl : Ctl R s
  inv : Inv R s
  log : L0 ≤ s.log.length
  ent : EntL R s.stack s.heap ∨ ((∃ k, t = .mapKey k) ∧ ∃ c, s.stack = c :: stk ∧ EntL R stk s.heap)

theorem Tidy.next {L0 t stk} {s : St} (h : Tidy R L0 s) : Next R L0 t stk s := ⟨h.ctl, h.inv, h.log, Or.inl h.ent⟩

/-- The parser on top is removed, with all that follows from that. -/
theorem pop_tidyK (hN : Neat E R) {K ex L0} {s : St} (hs : s.stack ≠ []) (h : TidyK R K L0 s.drop) :
    Fine (TidyK R K L0) (fun _ => Left R ex L0) (HasUnionArray R) (pop E R s) :=
  ((TidyK.chain hN K ex L0).all _).1 s (Nat.le_refl _) hs h

theorem Place.dropK {ex L0 p q rest} {s s1 : St} (h : Place R ex L0 p q rest s) (hc : Ctl R s1) (hi : Inv R s1) (hst : s1.stack = s.stack)
    (hl : L0 ≤ s1.log.length) (he : ∀ k sh, k ≠ p → R.at k = some sh → Entered sh (s.heap k) → Entered sh (s1.heap k)) :
    TidyK R (fun k => q.length ≤ k.length ∧ k ≠ p ∧ ∀ sh, R.at k = some sh → Entered sh (s.heap k)) L0 s1.drop := by
  have htail : s1.drop.stack = rest := by simp [St.drop, hst, h.stk]
  refine ⟨⟨hc.drop, ⟨hi.cells, hi.log⟩, ?_, hl⟩, fun k ⟨h1, h2, h3⟩ => ⟨?_, fun sh hR => he k sh h2 hR (h3 sh hR)⟩⟩
  · rw [htail]
    exact fun r hr sh hR => he r sh (h.notin r hr) hR (h.ent r hr sh hR)
  · rw [htail]
    intro hk
    have := h.rest_lt k hk
    omega

theorem Place.endP (hN : Neat E R) {ex L0 p q rest sh} {s : St} (h : Place R ex L0 p q rest s) (hR : R.at p = some sh)
    (hf : FinOK sh (s.heap p)) :
    Fine (fun s' => Tidy R L0 s' ∧ Kept R p q s.heap s'.heap) (fun _ => Left R ex L0) (HasUnionArray R) (SJ.endP E R sh p s) := by
  rw [endP_eq]
  have h1 := (Loc.complete (E := E) sh p).ctl (U := HasUnionArray R) h.ctl
  have h2 := (complete_done (E := E) hN h.inv hR hf).fine
  have h3 : Fine (fun s' => Ctl R s' ∧ Inv R s' ∧ Pops p s s') (fun _ => Left R ex L0) (HasUnionArray R) (complete E sh p s) := by
    refine (h1.and h2).mono (fun _ h => h) (fun e s' h' => ?_) (fun h => h.1)
    exact Left.of_fin hR h.log (fun r hr hne _ sh hR => h.others r hr hne sh hR) h'.2
  refine Fine.bind h3 fun _ s1 hc ⟨hc1, hi1, hp1⟩ => ?_
  rw [bind_getC]
  have kept : ∀ k sh, k ≠ p → R.at k = some sh → Entered sh (s.heap k) → Entered sh (s1.heap k) :=
    fun k sh hk _ he => (hp1.cells k hk).entered he
  have hlen : L0 ≤ s1.log.length := Nat.le_trans h.log hp1.len
  split
  · refine (pop_tidyK hN (by rw [hp1.stack, h.stk]; simp) (h.dropK hc1 hi1 hp1.stack hlen kept)).mono (fun s' h' => ?_) (fun _ _ h => h) id
    refine ⟨h'.tidy, fun k shk h4 _ h5 h6 h7 => (h'.keep k ⟨h4, h5, fun sh hsh => ?_⟩).2 shk h6⟩
    rw [h6] at hsh; injection hsh with hsh; subst hsh; exact h7
  · rename_i hd
    have hpq : p ≠ q := by
      rintro rfl
      exact hd (by rw [complete_disp hc]; exact (h.ctl.valid p (by simp [h.stk])).2)
    refine ⟨⟨hc1, hi1, fun r hr shr hRr => ?_, hlen⟩, fun k shk _ _ h5 h6 h7 => kept k shk h5 h6 h7⟩
    rw [hp1.stack] at hr
    have hne : r ≠ p := by
      rintro rfl
      rw [h.stk] at hr
      rcases List.mem_cons.1 hr with rfl | hr
      · exact hpq rfl
      · exact h.notin r hr rfl
    exact kept r shr hne hRr (h.others r hr hne shr hRr)

theorem Place.nullBase (hN : Neat E R) {ex L0 p q rest sh} {s : St} (h : Place R ex L0 p q rest s) (hR : R.at p = some sh) :
    Fine (Tidy R L0) (fun _ => Left R ex L0) (HasUnionArray R) (SJ.nullBase E R sh p s) := by
  unfold SJ.nullBase
  rw [bind_modH, bind_getC]
  have h1 := h.rst hR
  split
  · have := h1.dropK h1.ctl h1.inv rfl h1.log (fun k sh _ _ he => he)
    exact (pop_tidyK hN (by rw [h1.stk]; simp) this).mono (fun _ h => h.tidy) (fun _ _ h => h) id
  · rename_i hd
    refine h1.tidy fun shq hRq => ?_
    rcases h1.top with ht | ⟨rfl, _⟩
    · exact ht shq hRq
    · exact absurd (h1.ctl.valid p (by rw [h1.stk]; simp)).2 hd

theorem Delegated.same {t p q sh} (hd : Delegated R t p q sh) (h1 : ∀ v, t ≠ .scalar v) (h2 : t ≠ .null) : p = q := by
  rcases hd with rfl | ⟨p', a, rfl, hp', hb, h3 | ⟨v, h3⟩⟩
  · rfl
  · exact absurd h3 h2
  · exact absurd h3 (h1 v)

/-- A parser reads the begin of its value. -/
theorem Place.begin {ex L0 p rest sh} {s : St} (h : Place R ex L0 p p rest s) (hR : R.at p = some sh) :
    Tidy R L0 { s with heap := resetH p sh s.heap } := by
  refine (h.rst hR).tidy fun sh' hR' => ?_
  rw [hR] at hR'; injection hR' with hR'; subst hR'
  simp only [resetH_selfCell]
  exact resetCell_entered _ _

/-- A child is put on the stack; it may be in any state. -/
theorem Next.open {L0 t} {s s' : St} {c} (hk : ∃ k, t = .mapKey k) (hc : Ctl R s') (hi : Inv R s') (hl : L0 ≤ s'.log.length)
    (hs : s'.stack = c :: s.stack) (he : EntL R s.stack s'.heap) : Next R L0 t s.stack s' :=
  ⟨hc, hi, hl, Or.inr ⟨hk, c, hs, he⟩⟩

theorem sound_map {st e c} (h : st = true → c.set = true → Proper (.map st e) c.val) : Sound (.map st e) c :=
  ⟨fun h1 h2 => h h1 h2, fun _ _ _ _ h => by simp at h, fun _ _ h => by simp at h⟩

theorem fineCtl {α} {P : St → Prop} {X : Exn → St → Prop} {U : Prop} {r : Res α} (hc : CtlFine R r) (h : Fine (fun s' => Ctl R s' → P s') X U r) :
    Fine P X U r := by
  cases r with
  | ok a s => exact h hc
  | throw e s => exact h
  | ub => exact h
  | fuel => exact h

/-- What a token leaves. -/
def Post (R : Shape) (L0 : Nat) (t : Token) (p q : Path) (s s' : St) : Prop :=
  Next R L0 t s.stack s' ∧ ((∃ v, t = .scalar v) → Kept R p q s.heap s'.heap)

theorem Post.of {L0 t p q} {s s' : St} (hn : Next R L0 t s.stack s') (ht : ∀ v, t ≠ .scalar v) : Post R L0 t p q s s' :=
  ⟨hn, fun ⟨v, hv⟩ => absurd hv (ht v)⟩

/-- Selecting a member of an object by its name. -/
theorem onMember_tidy {ex L0 p rest k u ms key} {s : St} (h : Place R ex L0 p p rest s) (hR : R.at p = some (.object k u ms))
    (ht : ∀ sh, R.at p = some sh → Entered sh (s.heap p)) (P : St → Prop)
    (hP : ∀ c s', s'.stack = c :: s.stack → Inv R s' → L0 ≤ s'.log.length → EntL R s.stack s'.heap → P s') :
    Fine P (fun _ => Left R ex L0) False (onMember E u ms p (.str key) s) := by
  have hd := (h.ctl.valid p (by simp [h.stk])).2
  have h1 : Place R ex L0 p p rest { s with heap := s.heap.upd p fun c => { c with empty := false } } := by
    refine h.upd hR ?_ ?_ ?_
    · exact fun _ => ⟨rfl, rfl⟩
    · exact (h.inv.cells p _ hR).flags rfl rfl rfl rfl
    · exact fun h => h
  have hent : EntL R s.stack (s.heap.upd p fun c => { c with empty := false }) :=
    (h1.tidy (h1.top.elim id fun _ sh hRs => by
      rw [hR] at hRs; injection hRs with hRs; subst hRs
      have := ht _ hR
      simp only [upd_same]; exact this)).ent
  unfold SJ.onMember
  rw [setNotEmpty_def, bind_modC, bind_getC]
  simp only [upd_same, hd, if_true]
  cases lookup (Scalar.str key) 0 ms with
  | some a =>
    obtain ⟨n, sh⟩ := a
    simp only
    rw [bind_push]
    exact hP (.mem n :: p) _ rfl ⟨h1.inv.cells, h1.inv.log⟩ h.log hent
  | none =>
    simp only
    split
    · exact h1.left
    · rw [bind_push]
      exact hP (.ign :: p) _ rfl ⟨h1.inv.cells, h1.inv.log⟩ h.log hent

theorem union_scalar_tidy {ex L0 p q rest ty tm b ms v} {s : St} (h : Place R ex L0 p q rest s) (hR : R.at p = some (.union ty tm b ms))
    (hd : Delegated R (.scalar v) p q (.union ty tm b ms)) :
    Fine (Post R L0 (.scalar v) p q s) (fun _ => Left R ex L0) (HasUnionArray R) (onF E R (.union ty tm b ms) p (.scalar v) s) := by
  refine fineCtl (onF_ctl (E := E) _ _ p q rest s h.ctl h.stk hR hd) ?_
  simp only [onF]
  split
  · rw [bind_modH]
    have h1 := h.rst hR
    have hcell : resetH p (.union ty tm b ms) s.heap p = resetCell (.union ty tm b ms) (s.heap p) := resetH_selfCell _ _ _
    have hset : (resetH p (.union ty tm b ms) s.heap p).set = false := by rw [hcell]; rfl
    unfold SJ.onMember
    simp only [setNotEmpty_def, bind_assoc, bind_modC, bind_getC]
    cases hl : lookup v 0 ms with
    | none =>
      simp only [if_true]
      refine ⟨?_, ?_⟩
      · exact ((PopQ.upd p { s with heap := resetH p (.union ty tm b ms) s.heap } fun c => { c with empty := false }).inv h1.inv fun sh hRs => by
          rw [hR] at hRs; injection hRs with hRs; subst hRs
          simp only [upd_same]
          exact Sound.unset hset (by simp))
      · intro r hr sh hRr hc hex
        left
        by_cases hrp : r = p
        · subst hrp; simp only [upd_same]; exact hset
        · simp only [upd_other hrp]
          exact (h1.others r hr hrp sh hRr).unset hc
    | some a =>
      obtain ⟨n, sh⟩ := a
      obtain ⟨i, hi⟩ := lookup_mem hl
      have hlt : n < ms.length := by
        rcases Nat.lt_or_ge n ms.length with h' | h'
        · exact h'
        · rw [List.getElem?_eq_none h'] at hi; simp at hi
      by_cases hdp : (resetH p (.union ty tm b ms) s.heap p).disp = true
      · simp only [upd_same, hdp, if_true, bind_assoc, bind_push]
        intro hctl
        have hmem : Entered sh (resetH p (.union ty tm b ms) s.heap (.mem n :: p)) := by
          rw [resetH_union_member s.heap hi (Below.refl _), resetH_selfCell]
          exact resetCell_entered _ _
        -- all cells
        have hnew : ∀ r, r ≠ p → (((resetH p (.union ty tm b ms) s.heap).upd p fun c => { c with empty := false }).upd p fun c => { c with curId := n }) r
            = resetH p (.union ty tm b ms) s.heap r := fun r hr => by rw [upd_other hr, upd_other hr]
        have hself : (((resetH p (.union ty tm b ms) s.heap).upd p fun c => { c with empty := false }).upd p fun c => { c with curId := n }) p
            = { resetH p (.union ty tm b ms) s.heap p with empty := false, curId := n } := by rw [upd_same, upd_same]
        have hentp : Entered (.union ty tm b ms) { resetH p (.union ty tm b ms) s.heap p with empty := false, curId := n } := ⟨hset, fun _ => hlt⟩
        refine ⟨⟨hctl, ⟨fun r shr hRr => ?_, h1.inv.log⟩, h.log, Or.inl fun r hr shr hRr => ?_⟩, fun _ k shk hk1 _ hk2 hk3 hk4 => ?_⟩
        · by_cases hrp : r = p
          · subst hrp
            rw [hR] at hRr; injection hRr with hRr; subst hRr
            dsimp only; rw [hself]; exact Sound.unset hset (by simp)
          · dsimp only; rw [hnew r hrp]; exact h1.inv.cells r shr hRr
        · by_cases hrp : r = p
          · subst hrp
            rw [hR] at hRr; injection hRr with hRr; subst hRr
            dsimp only; rw [hself]; exact hentp
          · dsimp only; rw [hnew r hrp]
            rcases List.mem_cons.1 hr with rfl | hr
            · rw [at_mem_union hR hi] at hRr; injection hRr with hRr; subst hRr
              exact hmem
            · exact h1.others r hr hrp shr hRr
        · show Entered shk ((((resetH p (.union ty tm b ms) s.heap).upd p fun c => { c with empty := false }).upd p fun c => { c with curId := n }) k)
          rw [hnew k hk2]
          exact Ents.rst (resetH_rst _ p s.heap hR) k shk hk3 hk4
      · simp only [upd_same, hdp]
        rcases hd with rfl | ⟨p', a, rfl, hp', hb, _⟩
        · exact absurd (h1.ctl.valid p (by rw [h1.stk]; simp)).2 hdp
        · exact ⟨_, _, _, _, _, _, hp'⟩
  · exact h.left

theorem onF_tidy (hN : Neat E R) (t : Token) (L0 : Nat) (sh : Shape) : ∀ (ex : Path → Prop) (p q : Path) (rest : List Path) (s : St),
    Place R ex L0 p q rest s → R.at p = some sh → Delegated R t p q sh →
    ((∀ sh, R.at q = some sh → Entered sh (s.heap q)) ∨ Starts t) → (∀ k : Path, q.length < k.length → ex k) →
    Fine (Post R L0 t p q s) (fun _ => Left R ex L0) (HasUnionArray R) (onF E R sh p t s) := by
  have ended : ∀ {t : Token} {ex p q rest sh} {s s0 : St}, Place R ex L0 p q rest s → R.at p = some sh → FinOK sh (s.heap p) →
      (∀ k, k ≠ p → s0.heap k = s.heap k) →
      Fine (Post R L0 t p q s0) (fun _ => Left R ex L0) (HasUnionArray R) (endP E R sh p s) := by
    intro t ex p q rest sh s s0 h hR hf hk
    refine (h.endP hN hR hf).mono (fun s' h' => ⟨h'.1.next, fun _ k shk h1 h0 h2 h3 h4 => ?_⟩) (fun _ _ h => h) id
    exact h'.2 k shk h1 h0 h2 h3 (by rw [← hk k h2]; exact h4)
  have nulled : ∀ {ex p q rest sh} {s : St}, Place R ex L0 p q rest s → R.at p = some sh →
      Fine (Post R L0 .null p q s) (fun _ => Left R ex L0) (HasUnionArray R) (nullBase E R sh p s) := by
    intro ex p q rest sh s h hR
    exact (h.nullBase hN hR).mono (fun s' h' => Post.of h'.next (by simp)) (fun _ _ h => h) id
  induction sh using Shape.arrInd with
  | value ty =>
    intro ex p q rest s h hR hd hv hex
    cases t with
    | null => exact nulled h hR
    | scalar v =>
      simp only [onF]
      split
      · rename_i hty
        have hpr : Proper (.value ty) (.sc v) := ⟨by simp [hasType, hty], rfl⟩
        rw [setNotEmpty_def, bind_modC, bind_modC]
        have h1 : Place R ex L0 p q rest { s with heap := s.heap.upd p fun c => { c with empty := false } } := by
          refine h.upd hR ?_ ?_ ?_
          · exact fun _ => ⟨rfl, rfl⟩
          · exact (h.inv.cells p _ hR).flags rfl rfl rfl rfl
          · exact fun _ => trivial
        have h2 : Place R ex L0 p q rest { s with heap := (s.heap.upd p fun c => { c with empty := false }).upd p fun c => { c with val := .sc v } } := by
          refine h1.upd hR ?_ ?_ ?_
          · exact fun _ => ⟨rfl, rfl⟩
          · exact ⟨fun _ _ => hpr, fun _ _ _ _ h => by simp at h, fun _ _ h => by simp at h⟩
          · exact fun _ => trivial
        refine ended (s0 := s) h2 hR ?_ fun k hk => ?_
        · simp only [upd_same]; exact hpr
        · dsimp only; rw [upd_other hk, upd_other hk]
      · exact h.left
    | _ => exact h.left
  | ignore =>
    intro ex p q rest s h hR hd hv hex
    have key : ∀ r, Place R ex L0 p q rest { s with heap := s.heap.upd p fun c => { c with struct := r } } := by
      intro r
      refine h.upd hR ?_ ?_ ?_
      · exact fun _ => ⟨rfl, rfl⟩
      · exact (h.inv.cells p _ hR).flags rfl rfl rfl rfl
      · exact fun _ => trivial
    have top : ∀ {s : St}, p = q → ∀ sh, R.at q = some sh → Entered sh (s.heap q) := by
      rintro s rfl sh hRs
      rw [hR] at hRs; injection hRs with hRs; subst hRs; trivial
    have pushed : ∀ b : Bool, p = q → Post R L0 t p q s { s with heap := s.heap.upd p fun c => { c with struct := b :: c.struct } } := by
      intro b hpq
      have h1 : Place R ex L0 p q rest { s with heap := s.heap.upd p fun c => { c with struct := b :: c.struct } } := by
        refine h.upd hR ?_ ?_ ?_
        · exact fun _ => ⟨rfl, rfl⟩
        · exact (h.inv.cells p _ hR).flags rfl rfl rfl rfl
        · exact fun _ => trivial
      refine ⟨(h1.tidy (top hpq)).next, fun _ k shk _ _ h2 _ h4 => ?_⟩
      simp only [upd_other h2]; exact h4
    have stays : p = q → Post R L0 t p q s s := fun hpq => ⟨(h.tidy (top hpq)).next, fun _ k shk _ _ h2 _ h4 => h4⟩
    cases t with
    | null => exact nulled h hR
    | scalar v =>
      simp only [onF, bind_getC]
      split
      · exact ended (s0 := s) h hR trivial fun k _ => rfl
      · refine ⟨(h.tidy ?_).next, fun _ k shk _ _ h2 _ h4 => h4⟩
        rcases h.top with ht | ⟨hpq, _⟩
        · exact ht
        · exact top hpq
    | mapStart => exact pushed true (hd.same (by simp) (by simp))
    | arrStart => exact pushed false (hd.same (by simp) (by simp))
    | mapKey k =>
      simp only [onF, bind_getC]
      match (s.heap p).struct with
      | true :: _ => exact stays (hd.same (by simp) (by simp))
      | false :: _ => exact h.left
      | [] => exact h.left
    | mapEnd =>
      simp only [onF, bind_getC]
      match (s.heap p).struct with
      | true :: r =>
        simp only [bind_modC]
        split
        · exact ended (s0 := s) (key r) hR trivial fun k hk => by dsimp only; rw [upd_other hk]
        · exact Post.of ((key r).tidy (top (hd.same (by simp) (by simp)))).next (by simp)
      | false :: _ => exact h.left
      | [] => exact h.left
    | arrEnd =>
      simp only [onF, bind_getC]
      match (s.heap p).struct with
      | false :: r =>
        simp only [bind_modC]
        split
        · exact ended (s0 := s) (key r) hR trivial fun k hk => by dsimp only; rw [upd_other hk]
        · exact Post.of ((key r).tidy (top (hd.same (by simp) (by simp)))).next (by simp)
      | true :: _ => exact h.left
      | [] => exact h.left
  | object k u ms =>
    intro ex p q rest s h hR hd hv hex
    cases t with
    | null => exact nulled h hR
    | mapStart =>
      obtain rfl := hd.same (by simp) (by simp)
      exact Post.of (h.begin hR).next (by simp)
    | mapKey key =>
      obtain rfl := hd.same (by simp) (by simp)
      have ht := hv.resolve_right (by simp [Starts])
      refine fineCtl (onF_ctl (E := E) _ _ p p rest s h.ctl h.stk hR (Or.inl rfl)) ?_
      simp only [onF]
      refine Fine.bind ((onMember_tidy (E := E) h hR ht (fun s' => Ctl R s' → Post R L0 (.mapKey key) p p s s')
        fun c s' h1 h2 h3 h4 hc => Post.of (Next.open ⟨key, rfl⟩ hc h2 h3 h1 h4) (by simp)).mono (fun _ h => h) (fun _ _ h => h) False.elim) fun _ s' _ h' => h'
    | mapEnd =>
      have ht := hv.resolve_right (by simp [Starts])
      obtain rfl := hd.same (by simp) (by simp)
      exact ended (s0 := s) h hR ((ht _ hR).finOK (by simp) (by simp)) fun _ _ => rfl
    | _ => exact h.left
  | union ty tm b ms =>
    intro ex p q rest s h hR hd hv hex
    cases t with
    | null => exact nulled h hR
    | scalar v => exact union_scalar_tidy h hR hd
    | mapStart =>
      obtain rfl := hd.same (by simp) (by simp)
      simp only [onF]
      split
      · exact h.left
      · exact Post.of (h.begin hR).next (by simp)
    | mapKey key =>
      have ht := hv.resolve_right (by simp [Starts])
      simp only [onF]
      split
      · exact h.left
      · split
        · exact h.left
        · exact Post.of (h.tidy ht).next (by simp)
    | mapEnd =>
      have ht := hv.resolve_right (by simp [Starts])
      obtain rfl := hd.same (by simp) (by simp)
      exact ended (s0 := s) h hR ((ht _ hR).finOK (by simp) (by simp)) fun _ _ => rfl
    | _ => exact h.left
  | map st e =>
    intro ex p q rest s h hR hd hv hex
    cases t with
    | null => exact nulled h hR
    | mapStart =>
      obtain rfl := hd.same (by simp) (by simp)
      exact Post.of (h.begin hR).next (by simp)
    | mapKey key =>
      obtain rfl := hd.same (by simp) (by simp)
      have ht := hv.resolve_right (by simp [Starts])
      have hdp := (h.ctl.valid p (by simp [h.stk])).2
      refine fineCtl (onF_ctl (E := E) _ _ p p rest s h.ctl h.stk hR (Or.inl rfl)) ?_
      simp only [onF, setNotEmpty_def, bind_modC, bind_getC, upd_same]
      rw [if_pos hdp, bind_push]
      intro hc
      have h2 : Place R ex L0 p p rest { s with heap := (s.heap.upd p fun c => { c with empty := false }).upd p fun c => { c with curKey := key } } := by
        refine Place.upd (s := { s with heap := s.heap.upd p fun c => { c with empty := false } }) (h.upd hR ?_ ?_ ?_) hR ?_ ?_ ?_
        · exact fun _ => ⟨rfl, rfl⟩
        · exact (h.inv.cells p _ hR).flags rfl rfl rfl rfl
        · exact fun h => h
        · exact fun _ => ⟨rfl, rfl⟩
        · simp only [upd_same]; exact (h.inv.cells p _ hR).flags rfl rfl rfl rfl
        · exact fun h => h
      refine Post.of (Next.open (s := s) ⟨key, rfl⟩ hc ⟨h2.inv.cells, h2.inv.log⟩ h.log rfl ?_) (by simp)
      refine (h2.tidy fun sh hRs => ?_).ent
      rw [hR] at hRs; injection hRs with hRs; subst hRs
      have := ht _ hR
      simp only [upd_same]; exact this
    | mapEnd =>
      have ht := hv.resolve_right (by simp [Starts])
      obtain rfl := hd.same (by simp) (by simp)
      exact ended (s0 := s) h hR ((ht _ hR).finOK (by simp) (by simp)) fun _ _ => rfl
    | _ => exact h.left
  | array st e ih =>
    intro ex p q rest s h hR hd hv hex
    have hRe := at_elem_array hR
    have hb : Below q p := by
      rcases hd with rfl | ⟨p', a, rfl, hp', hb, _⟩
      · exact Below.refl _
      · exact hb.trans (Below.cons _ _)
    -- a started array has begun to read
    have run : (s.heap p).started = true → Entered (.array st e) (s.heap p) := fun hs => (h.inv.cells p _ hR).run st e rfl hs
    have topq : (s.heap p).started = true → ∀ sh, R.at q = some sh → Entered sh (s.heap q) := by
      intro hs
      rcases h.top with ht | ⟨rfl, _⟩
      · exact ht
      · intro sh hRs
        rw [hR] at hRs; injection hRs with hRs; subst hRs
        exact run hs
    have deeper : (s.heap p).started = true → Place R ex L0 (.elem :: p) q rest s := fun hs =>
      ⟨h.ctl, h.inv, h.log, h.stk, h.ent, Or.inl (topq hs), Or.inr (by have := hb.length_le; simp; omega)⟩
    -- an element with a structure of its own
    have nested : ∀ t' : Token, t = t' → (t' = .mapStart ∨ t' = .arrStart) → (s.heap p).started = true →
        Fine (Post R L0 t' p q s) (fun _ => Left R ex L0) (HasUnionArray R)
          (onF E R e (.elem :: p) t' { s with
            heap := setDispH (.elem :: p) e (s.heap.upd p fun c => { c with empty := false }), stack := (.elem :: p) :: s.stack }) := by
      intro t' htt ht' hs
      subst htt
      obtain rfl := hd.same (by rintro v rfl; simp at ht') (by rintro rfl; simp at ht')
      have h1 : Place R ex L0 p p rest { s with heap := s.heap.upd p fun c => { c with empty := false } } := by
        refine h.upd hR ?_ ?_ ?_
        · exact fun _ => ⟨rfl, rfl⟩
        · exact (h.inv.cells p _ hR).flags rfl rfl rfl rfl
        · exact fun h => h
      have ht1 := (h1.tidy fun sh hRs => by
        rw [hR] at hRs; injection hRs with hRs; subst hRs
        have := run hs
        simp only [upd_same]; exact this)
      have hsd := setDispH_only e (.elem :: p) (s.heap.upd p fun c => { c with empty := false })
      have hc2 := (h1.ctl.setDisp hRe).push (q := p) (rest := rest) h.stk hRe (setDispH_self _ _ _) (Or.inl ⟨_, rfl⟩)
      have h2 : Place R ex L0 (.elem :: p) (.elem :: p) s.stack { s with
          heap := setDispH (.elem :: p) e (s.heap.upd p fun c => { c with empty := false }), stack := (.elem :: p) :: s.stack } := by
        refine ⟨hc2, ⟨fun r shr hRr => ?_, h.inv.log⟩, h.log, rfl, fun r hr shr hRr => ?_, Or.inr ⟨rfl, hex _ (by simp)⟩, Or.inl rfl⟩
        · exact hsd.sound (h1.inv.cells r shr hRr)
        · exact hsd.entered (ht1.ent r hr shr hRr)
      refine (ih ex _ _ _ _ h2 hRe (Or.inl rfl) (Or.inr ?_) fun k hk => hex k (by simp at hk; omega)).mono (fun s' h' => Post.of ⟨h'.1.ctl, h'.1.inv, h'.1.log, Or.inl (h'.1.ent.resolve_right ?_)⟩ ?_) (fun _ _ h => h) id
      · rcases ht' with rfl | rfl <;> trivial
      · rcases ht' with rfl | rfl <;> simp
      · rcases ht' with rfl | rfl <;> simp
    cases t with
    | null =>
      simp only [onF, bind_getC]
      split
      · exact nulled h hR
      · rename_i hs
        have hs : (s.heap p).started = true := by simpa using hs
        refine (ih ex _ q rest s (deeper hs) hRe (Or.inr ⟨p, st, rfl, hR, hb, Or.inl rfl⟩) (Or.inr trivial) hex).mono (fun s' h' => Post.of h'.1 (by simp))
          (fun _ _ h => h) id
    | scalar v =>
      simp only [onF, bind_getC]
      split
      · exact h.left
      · rename_i hs
        have hs : (s.heap p).started = true := by simpa using hs
        refine Fine.bind (ih ex _ q rest s (deeper hs) hRe (Or.inr ⟨p, st, rfl, hR, hb, Or.inr ⟨v, rfl⟩⟩) (Or.inr trivial) hex) fun _ s1 _ h1 => ?_
        obtain ⟨hn, hk⟩ := h1
        have hk := hk ⟨v, rfl⟩
        have ht1 : Tidy R L0 s1 := ⟨hn.ctl, hn.inv, hn.ent.resolve_right (by simp), hn.log⟩
        have hp1 : Entered (.array st e) (s1.heap p) := hk p _ (by have := hb.length_le; omega) (by simp) (cons_ne _ _) hR (run hs)
        rw [setNotEmpty_def, bind_modC, chP_arrChild hR]
        have hents : Ents R s1.heap (s1.heap.upd p fun c => { c with empty := false }) := by
          intro r shr hRr he
          by_cases hrp : r = p
          · subst hrp
            rw [hR] at hRr; injection hRr with hRr; subst hRr
            rw [upd_same]; exact he
          · rw [upd_other hrp]; exact he
        have ht2 : Tidy R L0 { s1 with heap := s1.heap.upd p fun c => { c with empty := false } } := by
          refine ⟨ht1.ctl.data fun _ => ⟨rfl, rfl⟩, ⟨fun r shr hRr => ?_, ht1.inv.log⟩, fun r hr shr hRr => hents r shr hRr (ht1.ent r hr shr hRr), ht1.log⟩
          by_cases hrp : r = p
          · subst hrp
            rw [hR] at hRr; injection hRr with hRr; subst hRr
            simp only [upd_same]; exact (ht1.inv.cells r _ hR).flags rfl rfl rfl rfl
          · simp only [upd_other hrp]; exact ht1.inv.cells r shr hRr
        have hc3 := (Loc.arrChild st p).ctl (U := HasUnionArray R) ht2.ctl
        have hk3 := arrChild_keeps (E := E) hN ht2.inv hR (hents p _ hR hp1)
        refine (hc3.and hk3).mono (fun s' h' => ⟨(h'.2.tidy ht2 h'.1).next, fun _ k shk h4 h8 h5 h6 h7 => ?_⟩) (fun _ s' h' => h'.2.left ht2) (fun h => h.1)
        refine h'.2.ents k shk h6 (hents k shk h6 ?_)
        exact hk k shk h4 (by simp at h8 ⊢; omega) (by rintro rfl; simp at h8; omega) h6 h7
    | mapStart =>
      obtain rfl := hd.same (by simp) (by simp)
      have hdp := (h.ctl.valid p (by simp [h.stk])).2
      simp only [onF, bind_getC, hdp, setNotEmpty_def]
      split
      · exact h.left
      · rename_i hs
        rw [if_neg (by simp)]
        exact nested .mapStart rfl (Or.inl rfl) (by simpa using hs)
    | arrStart =>
      obtain rfl := hd.same (by simp) (by simp)
      have hdp := (h.ctl.valid p (by simp [h.stk])).2
      simp only [onF, bind_getC, hdp, setNotEmpty_def]
      split
      · rename_i hs
        have h1 := h.begin hR
        refine Post.of (Tidy.next ?_) (by simp)
        refine ⟨h1.ctl.start hR, ⟨fun r shr hRr => ?_, h1.inv.log⟩, fun r hr shr hRr => ?_, h1.log⟩
        · by_cases hrp : r = p
          · subst hrp
            rw [hR] at hRr; injection hRr with hRr; subst hRr
            have he := h1.ent r (by simp [h.stk]) _ hR
            simp only [upd_same]
            have hset := he.1
            refine ⟨fun _ hc => by rw [show _ = false from hset] at hc; simp at hc, fun _ _ _ _ h => by simp at h, fun st' e' heq _ => ?_⟩
            injection heq with h3 h4; subst h3; subst h4
            exact he
          · simp only [upd_other hrp]; exact h1.inv.cells r shr hRr
        · by_cases hrp : r = p
          · subst hrp
            have he := h1.ent r hr shr hRr
            rw [hR] at hRr; injection hRr with hRr; subst hRr
            simp only [upd_same]; exact he
          · simp only [upd_other hrp]; exact h1.ent r hr shr hRr
      · rename_i hs
        rw [if_neg (by simp)]
        exact nested .arrStart rfl (Or.inr rfl) (by simpa using hs)
    | arrEnd =>
      have ht := hv.resolve_right (by simp [Starts])
      obtain rfl := hd.same (by simp) (by simp)
      simp only [onF, bind_modC]
      have he := ht _ hR
      have h1 : Place R ex L0 p p rest { s with heap := s.heap.upd p fun c => { c with started := false } } := by
        refine ⟨h.ctl.start hR, ⟨fun r shr hRr => ?_, h.inv.log⟩, h.log, h.stk, fun r hr shr hRr => ?_, Or.inl fun shr hRr => ?_, Or.inl rfl⟩
        · by_cases hrp : r = p
          · subst hrp
            rw [hR] at hRr; injection hRr with hRr; subst hRr
            simp only [upd_same]
            exact ⟨fun h1 h2 => (h.inv.cells r _ hR).val h1 h2, fun _ _ _ _ h => by simp at h, fun _ _ _ h => by simp at h⟩
          · simp only [upd_other hrp]; exact h.inv.cells r shr hRr
        · simp only [upd_other (h.notin r hr)]; exact h.ent r hr shr hRr
        · rw [hR] at hRr; injection hRr with hRr; subst hRr
          simp only [upd_same]; exact he
      refine ended (s0 := s) h1 hR ?_ fun k hk => ?_
      · simp only [upd_same]; exact ⟨rfl, he.2⟩
      · dsimp only; rw [upd_other hk]
    | mapKey k => exact h.left
    | mapEnd => exact h.left

/-- One token of a JSON document. -/
theorem dispatch_tidy (hN : Neat E R) (t : Token) {s : St} {q rest} (hc : Ctl R s) (hi : Inv R s) (hs : s.stack = q :: rest)
    (he : EntL R rest s.heap) (ht : (∀ sh, R.at q = some sh → Entered sh (s.heap q)) ∨ Starts t) :
    Fine (Next R s.log.length t s.stack)
      (fun _ s' => Left R (fun k => q.length < k.length ∨ (k = q ∧ ¬ ∀ sh, R.at q = some sh → Entered sh (s.heap q))) s.log.length s')
      (HasUnionArray R) (dispatch E R t s) := by
  obtain ⟨⟨sh, hR⟩, _⟩ := hc.valid q (by simp [hs])
  rw [dispatch_cons hs hR]
  refine (onF_tidy hN t s.log.length sh (fun k => q.length < k.length ∨ (k = q ∧ ¬ ∀ sh, R.at q = some sh → Entered sh (s.heap q))) q q rest s
    ⟨hc, hi, Nat.le_refl _, hs, he, ?_, Or.inl rfl⟩ hR (Or.inl rfl) ht fun k hk => Or.inl hk).mono (fun s' h => h.1) (fun _ _ h => h) id
  by_cases h : ∀ sh, R.at q = some sh → Entered sh (s.heap q)
  · exact Or.inl h
  · exact Or.inr ⟨rfl, Or.inr ⟨rfl, h⟩⟩

/-! ### Token sequences of JSON documents -/

/-- After a field name comes a value. -/
def Adj : List Token → Prop
  | [] => True
  | [_] => True
  | t :: t' :: ts => ((∃ k, t = .mapKey k) → Starts t') ∧ Adj (t' :: ts)

/-- The sequence is empty or begins with a value. -/
def Begins : List Token → Prop
  | [] => True
  | t :: _ => Starts t

theorem Adj.tail {t ts} (h : Adj (t :: ts)) : Adj ts := by
  cases ts with
  | nil => trivial
  | cons t' ts => exact h.2

theorem Adj.next {t ts} (h : Adj (t :: ts)) (hk : ∃ k, t = .mapKey k) : Begins ts := by
  cases ts with
  | nil => trivial
  | cons t' ts => exact h.1 hk

/-- Not a field name at the end. -/
def Closed : List Token → Prop
  | [] => True
  | [t] => ∀ k, t ≠ .mapKey k
  | _ :: t' :: ts => Closed (t' :: ts)

theorem Adj.append : ∀ {l l' : List Token}, Adj l → Closed l → Adj l' → Adj (l ++ l')
  | [], l', _, _, h => h
  | [t], [], _, _, _ => trivial
  | [t], t' :: ts, _, hc, h => ⟨fun ⟨k, hk⟩ => absurd hk (hc k), h⟩
  | t :: t' :: ts, l', ha, hc, h => ⟨ha.1, Adj.append (l := t' :: ts) ha.2 hc h⟩

theorem Closed.append : ∀ {l l' : List Token}, Closed l → Closed l' → Closed (l ++ l')
  | [], l', _, h => h
  | [t], [], h, _ => h
  | [t], t' :: ts, _, h => h
  | t :: t' :: ts, l', hc, h => Closed.append (l := t' :: ts) hc h

theorem Closed.cons {t l} (hl : l ≠ []) (h : Closed l) : Closed (t :: l) := by
  cases l with
  | nil => exact absurd rfl hl
  | cons a l => exact h

theorem Adj.cons {t l} (ht : (∃ k, t = .mapKey k) → Begins l) (h : Adj l) : Adj (t :: l) := by
  cases l with
  | nil => trivial
  | cons a l => exact ⟨ht, h⟩

theorem events_ne : ∀ j, events j ≠ [] := by intro j; cases j <;> simp [events]

theorem events_begins (j) : Begins (events j) := by cases j <;> simp [events, Begins, Starts]

theorem Begins.append {l l'} (h : Begins l) (hl : l ≠ []) : Begins (l ++ l') := by
  cases l with
  | nil => exact absurd rfl hl
  | cons a l => exact h

mutual
theorem events_adj : ∀ j : Json, Adj (events j) ∧ Closed (events j)
  | .null => by simp [events, Adj, Closed]
  | .sc v => by simp [events, Adj, Closed]
  | .arr l => by
    obtain ⟨h1, h2⟩ := elemEvents_adj l
    have h3 := h1.append h2 (l' := [.arrEnd]) trivial
    have h4 := h2.append (l' := [.arrEnd]) (by simp [Closed])
    simp only [events]
    exact ⟨h3.cons (by simp), h4.cons (by simp)⟩
  | .obj fs => by
    obtain ⟨h1, h2⟩ := fieldEvents_adj fs
    have h3 := h1.append h2 (l' := [.mapEnd]) trivial
    have h4 := h2.append (l' := [.mapEnd]) (by simp [Closed])
    simp only [events]
    exact ⟨h3.cons (by simp), h4.cons (by simp)⟩
theorem elemEvents_adj : ∀ l : List Json, Adj (elemEvents l) ∧ Closed (elemEvents l)
  | [] => by simp [elemEvents, Adj, Closed]
  | j :: l => by
    obtain ⟨h1, h2⟩ := events_adj j
    obtain ⟨h3, h4⟩ := elemEvents_adj l
    exact ⟨h1.append h2 h3, h2.append h4⟩
theorem fieldEvents_adj : ∀ l : List (String × Json), Adj (fieldEvents l) ∧ Closed (fieldEvents l)
  | [] => by simp [fieldEvents, Adj, Closed]
  | (k, j) :: l => by
    obtain ⟨h1, h2⟩ := events_adj j
    obtain ⟨h3, h4⟩ := fieldEvents_adj l
    have h5 := h1.append h2 h3
    have h6 := h2.append h4
    simp only [fieldEvents]
    exact ⟨h5.cons fun _ => (events_begins j).append (events_ne j), h6.cons (by simp [events_ne])⟩
end

end SJ
