/-
What one token does to the nesting, for any state of the parsers.
-/
import Verif.Proofs.Doom
import Verif.Proofs.Denote

set_option linter.unusedVariables false

namespace SJ

variable {E : Env} {R : Shape}

/-- What is needed of a state, however much the parsers have lost track of the document. -/
structure Base (R : Shape) (s : St) : Prop where
  ctl : Ctl R s
  inner : ∀ q st st' e, R.at q = some (.array st (.array st' e)) → .elem :: q ∉ s.stack → (s.heap (.elem :: q)).started = false
  unset : ∀ q st e, R.at q = some (.array st e) → (s.heap q).started = true → (s.heap q).set = false

theorem Base.mild {s s' : St} (h : Base R s) (hc : Ctl R s') (m : Mild R s.heap s'.heap)
    (hk : ∀ q st st' e, R.at q = some (.array st (.array st' e)) → .elem :: q ∈ s.stack →
      .elem :: q ∈ s'.stack ∨ (s.heap (.elem :: q)).started = false) : Base R s' where
  ctl := hc
  inner q st st' e hq hn := by
    rw [(m.ctl _).2]
    by_cases hm : .elem :: q ∈ s.stack
    · rcases hk q st st' e hq hm with h1 | h1
      · exact absurd h1 hn
      · exact h1
    · exact h.inner q st st' e hq hm
  unset q st e hq hs := by
    rw [(m.ctl _).2] at hs
    have := h.unset q st e hq hs
    cases h1 : (s'.heap q).set with
    | false => rfl
    | true =>
      rcases m.set q st e hq h1 with h2 | h2
      · rw [this] at h2; cases h2
      · rw [hs] at h2; cases h2

/-- The ignore parser of an object waits for nothing when it is not the current parser. -/
def Spare (R : Shape) (s : St) (o : Path) : Prop :=
  ∀ k u ms, R.at o = some (.object k u ms) → .ign :: o ∉ s.stack → (s.heap (.ign :: o)).struct = []

theorem anc_not_ignore : ∀ {p a : Path} {sh}, R.at p = some sh → a ∈ anc p → R.at a ≠ some .ignore
  | [], a, sh, _, h => by simp [anc] at h
  | st :: q, a, sh, hR, h => by
    simp only [anc, List.mem_cons] at h
    obtain ⟨sh', hq, _⟩ := at_parent hR
    rcases h with rfl | h
    · exact parent_not_ignore hR
    · exact anc_not_ignore hq h

/-- Every array that is being read afterwards is on the stack, or was being read before without being on the stack, or is the parser
at the top and `X` holds. -/
def Grow (R : Shape) (p : Path) (X : Prop) (s s' : St) : Prop :=
  ∀ q st e, R.at q = some (.array st e) → (s'.heap q).started = true →
    q ∈ s'.stack ∨ ((s.heap q).started = true ∧ (q ∈ s.stack → q = p ∧ X))

theorem pop_next (ht : R.watertight = true) {p s s1 s'} {X : Prop} (hb : Base R s1) (hs : s.stack = p :: anc p) (h1 : s1.stack = s.stack)
    (hst : ∀ q, (s1.heap q).struct = (s.heap q).struct ∨ (s1.heap q).struct = [] ∨ q = p)
    (hig : R.at p = some .ignore → (s1.heap p).struct = []) (hN : ∀ o ∈ anc p, Spare R s o)
    (hg : ∀ q, (s1.heap q).started = true → (s.heap q).started = true ∧ (q = p → X))
    (hp : pop E R s1 = .ok () s') :
    Popped R p s1 s' ∧ Base R s' ∧ (∀ o ∈ s'.stack, Spare R s' o) ∧ Grow R p X s s' := by
  have hs1 : s1.stack = p :: anc p := h1.trans hs
  have r := pop_cut ht _ (Nat.le_refl _) hb.ctl hs1 hp
  obtain ⟨⟨shp, hRp⟩, _⟩ := hb.ctl.valid p (by simp [hs1])
  have hc : Ctl R s' := by have := hb.ctl.pop (E := E) (U := False); rw [hp] at this; exact this
  refine ⟨r, hb.mild hc r.mild ?_, ?_, ?_⟩
  · intro q st st' e hq hm
    rw [hs1] at hm
    rcases List.mem_cons.1 hm with h2 | h2
    · right
      have h3 := (array_elem ht hq).2.2 rfl
      subst h3
      have h4 := r.elem q _ h2.symm hq
      rw [h2]
      cases h5 : (s1.heap p).started with
      | false => rfl
      | true =>
        rw [← h2] at h5 h4
        rw [hb.unset _ _ _ (at_elem_array hq) h5] at h4; cases h4
    · rcases r.keep _ h2 with h3 | h3
      · exact Or.inl h3
      · exact absurd (at_elem_array hq) (h3 _ _)
  · intro o ho k u ms hRo hn
    have ho' := r.sub o ho
    have e1 : (s1.heap (.ign :: o)).struct = [] := by
      by_cases hpo : .ign :: o = p
      · rw [hpo]; apply hig; rw [← hpo]; exact at_ign_object hRo
      · have hni : .ign :: o ∉ s.stack := by
          rw [hs]; intro hm
          rcases List.mem_cons.1 hm with h2 | h2
          · exact hpo h2
          · exact anc_not_ignore hRp h2 (at_ign_object hRo)
        have := hN o ho' k u ms hRo hni
        rcases hst (.ign :: o) with h2 | h2 | h2
        · rw [h2]; exact this
        · exact h2
        · exact absurd h2 hpo
    rcases r.mild.struct (.ign :: o) with h2 | h2
    · rw [h2]; exact e1
    · exact h2
  · intro q st e hq hsq
    rw [(r.mild.ctl q).2] at hsq
    obtain ⟨h2, h3⟩ := hg q hsq
    by_cases hm : q ∈ s.stack
    · rw [hs] at hm
      rcases List.mem_cons.1 hm with h4 | h4
      · exact Or.inr ⟨h2, fun _ => ⟨h4, h3 h4⟩⟩
      · rcases r.keep q h4 with h5 | h5
        · exact Or.inl h5
        · exact absurd hq (h5 st e)
    · exact Or.inr ⟨h2, fun h => absurd h hm⟩

theorem keep_next {p} {s s' : St} {t : Token} {X : Prop} (hs : s.stack = p :: anc p) (hsub : ∀ a ∈ s.stack, a ∈ s'.stack)
    (hst : ∀ q, q ∉ s.stack → (s'.heap q).struct = (s.heap q).struct ∨ (s'.heap q).struct = []) (hN : ∀ o ∈ anc p, Spare R s o)
    (hnew : ∀ o ∈ s'.stack, o ∉ anc p → (∀ k, t = .mapKey k → o ∈ s.stack) → Spare R s' o)
    (hg : ∀ q, (s'.heap q).started = true → (s.heap q).started = true ∨ q ∈ s'.stack) :
    (∀ o ∈ s'.stack, (∀ k, t = .mapKey k → o ∈ s.stack) → Spare R s' o) ∧ Grow R p X s s' := by
  constructor
  · intro o ho hk
    by_cases hm : o ∈ anc p
    · intro k u ms hRo hn
      have hn' : .ign :: o ∉ s.stack := fun h => hn (hsub _ h)
      have := hN o hm k u ms hRo hn'
      rcases hst _ hn' with h2 | h2
      · rw [h2]; exact this
      · exact h2
    · exact hnew o ho hm hk
  · intro q st e hq hsq
    rcases hg q hsq with h1 | h1
    · by_cases hm : q ∈ s.stack
      · exact Or.inl (hsub _ hm)
      · exact Or.inr ⟨h1, fun h => absurd h hm⟩
    · exact Or.inl h1

/-- What a token does to the nesting when the parser at the top is `p`. -/
inductive Act (R : Shape) (p : Path) (s s' : St) : Token → Prop
  | nullPop : Cut R p s'.stack → Top R s'.stack → Act R p s s' .null
  | nullStay {st e} : R.at p = some (.array st e) → (s.heap p).started = true → (s.heap (.elem :: p)).disp = false →
      s'.stack = s.stack → Act R p s s' .null
  | scPop {v} : Cut R p s'.stack → Top R s'.stack → str R s.heap p = [] → Act R p s s' (.scalar v)
  | scStay {v st e} : R.at p = some (.array st e) → (s.heap p).started = true → s'.stack = s.stack → Act R p s s' (.scalar v)
  | scIgn {v} : R.at p = some .ignore → (s.heap p).struct ≠ [] → s'.stack = s.stack → (s'.heap p).struct = (s.heap p).struct →
      Act R p s s' (.scalar v)
  | scAlt {v n sh} : isU R p = true → R.at (.mem n :: p) = some sh → sh.isKeyed = true → s'.stack = (.mem n :: p) :: s.stack →
      Act R p s s' (.scalar v)
  | openKeyed {sh} : R.at p = some sh → sh.isKeyed = true → s'.stack = s.stack → Act R p s s' .mapStart
  | openArr {st e} : R.at p = some (.array st e) → (s.heap p).started = false → s'.stack = s.stack → Act R p s s' .arrStart
  | openIgnMap : R.at p = some .ignore → s'.stack = s.stack → (s'.heap p).struct = true :: (s.heap p).struct → Act R p s s' .mapStart
  | openIgnArr : R.at p = some .ignore → s'.stack = s.stack → (s'.heap p).struct = false :: (s.heap p).struct → Act R p s s' .arrStart
  | elemKeyed {st e} : R.at p = some (.array st e) → (s.heap p).started = true → e.isKeyed = true → s'.stack = (.elem :: p) :: s.stack →
      Act R p s s' .mapStart
  | elemArr {st e} : R.at p = some (.array st e) → (s.heap p).started = true → e.isArray = true → s'.stack = (.elem :: p) :: s.stack →
      Act R p s s' .arrStart
  | key {k st sh} : R.at p = some sh → sh.isKeyed = true → s'.stack = (st :: p) :: s.stack → str R s'.heap (st :: p) = [] →
      (∀ q, (s'.heap q).started = (s.heap q).started) → Act R p s s' (.mapKey k)
  | keyIgn {k r} : R.at p = some .ignore → (s.heap p).struct = true :: r → s' = s → Act R p s s' (.mapKey k)
  | close {sh} : R.at p = some sh → sh.isKeyed = true → Cut R p s'.stack → Top R s'.stack → Act R p s s' .mapEnd
  | closeArr {st e} : R.at p = some (.array st e) → Cut R p s'.stack → Top R s'.stack → Act R p s s' .arrEnd
  | endIgnMap {r} : R.at p = some .ignore → (s.heap p).struct = true :: r → r ≠ [] → s'.stack = s.stack → (s'.heap p).struct = r →
      Act R p s s' .mapEnd
  | endIgnArr {r} : R.at p = some .ignore → (s.heap p).struct = false :: r → r ≠ [] → s'.stack = s.stack → (s'.heap p).struct = r →
      Act R p s s' .arrEnd
  | endIgnMapPop : R.at p = some .ignore → (s.heap p).struct = [true] → Cut R p s'.stack → Top R s'.stack → Act R p s s' .mapEnd
  | endIgnArrPop : R.at p = some .ignore → (s.heap p).struct = [false] → Cut R p s'.stack → Top R s'.stack → Act R p s s' .arrEnd

/-- The token may remove an array from the stack that is being read. -/
def Loose (t : Token) : Prop := t = .null ∨ ∃ v, t = .scalar v

structure Onward (R : Shape) (p : Path) (t : Token) (s s' : St) : Prop where
  act : Act R p s s' t
  base : Base R s'
  neat : ∀ o ∈ s'.stack, (∀ k, t = .mapKey k → o ∈ s.stack) → Spare R s' o
  grow : Grow R p (Loose t) s s'

/-- The state in which a token arrives. -/
structure Here (R : Shape) (p : Path) (t : Token) (s s' : St) : Prop where
  base : Base R s
  stk : s.stack = p :: anc p
  neat : ∀ o ∈ anc p, Spare R s o
  key : ∀ k, t = .mapKey k → Spare R s p
  ctl' : Ctl R s'

theorem Here.disp {p t s s'} (h : Here R p t s s') : (s.heap p).disp = true := (h.base.ctl.valid p (by simp [h.stk])).2

/-- The parser at the top is removed after harmless changes. -/
theorem Here.pop (ht : R.watertight = true) {p t s s' s1} (h : Here R p t s s') (h1 : s1.stack = s.stack) (m : Mild R s.heap s1.heap)
    (hig : R.at p = some .ignore → (s1.heap p).struct = []) (hX : Loose t ∨ (s.heap p).started = false ∨ ∀ st e, R.at p ≠ some (.array st e)) (hp : pop E R s1 = .ok () s')
    (hact : Cut R p s'.stack → Top R s'.stack → Act R p s s' t) : Onward R p t s s' := by
  have hc1 : Ctl R s1 := h.base.ctl.shrink (by rw [h1]; exact List.suffix_refl _) m.ctl
  have hb1 : Base R s1 := h.base.mild hc1 m fun q st st' e _ hm => Or.inl (by rw [h1]; exact hm)
  obtain ⟨r, a, b, c⟩ := pop_next ht (X := Loose t ∨ ∀ st e, R.at p ≠ some (.array st e)) hb1 h.stk h1
    (fun q => by rcases m.struct q with h2 | h2 <;> simp [h2]) hig h.neat (by
      intro q hq
      rw [(m.ctl q).2] at hq
      refine ⟨hq, ?_⟩
      rintro rfl
      rcases hX with h2 | h2 | h2
      · exact Or.inl h2
      · rw [hq] at h2; cases h2
      · exact Or.inr h2) hp
  refine ⟨hact r.cut r.top, a, fun o ho _ => b o ho, ?_⟩
  intro q st e hq hsq
  rcases c q st e hq hsq with h2 | ⟨h2, h3⟩
  · exact Or.inl h2
  · refine Or.inr ⟨h2, fun hm => ?_⟩
    obtain ⟨rfl, h4⟩ := h3 hm
    rcases h4 with h4 | h4
    · exact ⟨rfl, h4⟩
    · exact absurd hq (h4 st e)

/-- ... after completing. -/
theorem Here.endP (ht : R.watertight = true) {p t s s' s1 sh} (h : Here R p t s s') (h1 : s1.stack = s.stack) (m : Mild R s.heap s1.heap)
    (hig : R.at p = some .ignore → (s1.heap p).struct = []) (hX : Loose t ∨ (s.heap p).started = false ∨ ∀ st e, R.at p ≠ some (.array st e))
    (hna : (∀ st e, R.at p ≠ some (.array st e)) ∨ (s.heap p).started = false) (hp : SJ.endP E R sh p s1 = .ok () s')
    (hact : Cut R p s'.stack → Top R s'.stack → Act R p s s' t) : Onward R p t s s' := by
  rw [endP_pop (by rw [(m.ctl p).1]; exact h.disp)] at hp
  obtain ⟨_, s2, h2, h3⟩ := bind_ok_inv hp
  refine h.pop ht ((complete_stack h2).trans h1) (m.trans (Mild.complete h2 (by rw [(m.ctl p).2]; exact hna))) ?_ hX h3 hact
  intro hi
  rw [((Loc.complete sh p).ok h2).2.struct]; exact hig hi

theorem Here.null (ht : R.watertight = true) {p s s' sh} (h : Here R p .null s s') (hR : R.at p = some sh)
    (hp : nullBase E R sh p s = .ok () s') : Onward R p .null s s' := by
  rw [nullBase_pop h.disp, bind_modH] at hp
  refine h.pop ht (s1 := { s with heap := resetH p sh s.heap }) rfl (Mild.reset _ _ _) ?_ (Or.inl (Or.inl rfl)) hp .nullPop
  intro hi
  rw [hR] at hi; injection hi with hi; subst hi
  simp [resetH]

/-- Nothing is removed; an array that is now being read may be added. -/
theorem Here.keepS {p t s s'} (h : Here R p t s s') (hsub : ∀ a ∈ s.stack, a ∈ s'.stack)
    (m : ∀ q, (s'.heap q).started = (s.heap q).started ∨ (q ∈ s'.stack ∧ (s'.heap q).set = false))
    (hst : ∀ q, q ∉ s.stack → (s'.heap q).struct = (s.heap q).struct ∨ (s'.heap q).struct = [])
    (hset : ∀ q st e, R.at q = some (.array st e) → (s'.heap q).set = true → (s.heap q).set = true)
    (hnew : ∀ o ∈ s'.stack, o ∉ anc p → (∀ k, t = .mapKey k → o ∈ s.stack) → Spare R s' o) (hact : Act R p s s' t) : Onward R p t s s' := by
  obtain ⟨a, b⟩ := keep_next (t := t) (X := Loose t) h.stk hsub hst h.neat hnew (fun q hq => by
    rcases m q with h1 | h1
    · rw [h1] at hq; exact Or.inl hq
    · exact Or.inr h1.1)
  refine ⟨hact, ⟨h.ctl', ?_, ?_⟩, a, b⟩
  · intro q st st' e hq hn
    rcases m (.elem :: q) with h1 | h1
    · rw [h1]; exact h.base.inner q st st' e hq fun hm => hn (hsub _ hm)
    · exact absurd h1.1 hn
  · intro q st e hq hs
    rcases m q with h1 | h1
    · rw [h1] at hs
      have := h.base.unset q st e hq hs
      cases h1 : (s'.heap q).set with
      | false => rfl
      | true => rw [hset q st e hq h1] at this; cases this
    · exact h1.2

theorem Here.keep {p t s s'} (h : Here R p t s s') (hsub : ∀ a ∈ s.stack, a ∈ s'.stack) (m : SameCtl s.heap s'.heap)
    (hst : ∀ q, q ∉ s.stack → (s'.heap q).struct = (s.heap q).struct ∨ (s'.heap q).struct = [])
    (hset : ∀ q st e, R.at q = some (.array st e) → (s'.heap q).set = true → (s.heap q).set = true)
    (hnew : ∀ o ∈ s'.stack, o ∉ anc p → (∀ k, t = .mapKey k → o ∈ s.stack) → Spare R s' o) (hact : Act R p s s' t) : Onward R p t s s' :=
  h.keepS hsub (fun q => Or.inl (m q).2) hst hset hnew hact

theorem throwStd_ok {α} {m} {s s' : St} {a : α} (h : (throwStd m : M α) s = .ok a s') : False := by simp [throwStd] at h
theorem unexpected_ok {t} {s s' : St} (h : unexpected t s = .ok () s') : False := by simp [unexpected, throwStd] at h

theorem neat_nonobj {s : St} {o sh} (hR : R.at o = some sh) (h : ∀ k u ms, sh ≠ .object k u ms) : Spare R s o := by
  intro k u ms h1; rw [hR] at h1; injection h1 with h1; exact absurd h1 (h k u ms)

theorem act_value (ht : R.watertight = true) {p t s s' ty} (h : Here R p t s s') (hR : R.at p = some (.value ty))
    (ok : onF E R (.value ty) p t s = .ok () s') : Onward R p t s s' := by
  cases t with
  | null => exact h.null ht hR ok
  | scalar v =>
    simp only [onF] at ok
    split at ok
    · rw [setNotEmpty_def, bind_modC, bind_modC] at ok
      have hna : ∀ st e, R.at p ≠ some (.array st e) := by intro st e; rw [hR]; simp
      refine h.endP ht (s1 := { s with heap := (s.heap.upd p fun c => { c with empty := false }).upd p fun c => { c with val := .sc v } }) rfl
        ?_ (by rw [hR]; simp) (Or.inl (Or.inr ⟨v, rfl⟩)) (Or.inl hna) ok fun a b => .scPop a b (str_nil (by rw [hR]; simp))
      refine Mild.trans (h' := s.heap.upd p fun c => { c with empty := false }) ?_ ?_
      · apply Mild.upd; exact fun _ => ⟨rfl, rfl, rfl, id⟩
      · show Mild R _ ((s.heap.upd p fun c => { c with empty := false }).upd p fun c => { c with val := .sc v })
        apply Mild.upd; exact fun _ => ⟨rfl, rfl, rfl, id⟩
    · exact (unexpected_ok ok).elim
  | _ => exact (unexpected_ok ok).elim

theorem act_ignore (ht : R.watertight = true) {p t s s'} (h : Here R p t s s') (hR : R.at p = some .ignore)
    (ok : onF E R .ignore p t s = .ok () s') : Onward R p t s s' := by
  have hna : ∀ st e, R.at p ≠ some (.array st e) := by intro st e; rw [hR]; simp
  have hp : p ∈ s.stack := by simp [h.stk]
  -- the structure changes
  have upd : ∀ l : Heap → List Bool, s' = { s with heap := s.heap.upd p fun c => { c with struct := l s.heap } } → Act R p s s' t → Onward R p t s s' := by
    intro l hs' ha
    refine h.keep (by subst hs'; simp) ?_ ?_ ?_ ?_ ha
    · subst hs'; exact SameCtl.upd fun _ => ⟨rfl, rfl⟩
    · intro q hq; left; subst hs'; show ((s.heap.upd p _) q).struct = _; rw [upd_other (p := p) (q := q) (fun e => hq (e ▸ hp))]
    · intro q st e _ hs; subst hs'; simp only [upd_apply] at hs; split at hs <;> exact hs
    · intro o ho hn _
      have : o = p := by
        have : o ∈ s.stack := by subst hs'; exact ho
        rw [h.stk] at this
        rcases List.mem_cons.1 this with h1 | h1
        · exact h1
        · exact absurd h1 hn
      subst this
      exact neat_nonobj hR (by simp)
  -- the last closing bracket
  have fin : ∀ b, t = .mapEnd ∧ b = true ∨ t = .arrEnd ∧ b = false → (s.heap p).struct = [b] →
      SJ.endP E R .ignore p { s with heap := s.heap.upd p fun c => { c with struct := [] } } = .ok () s' →
      Onward R p t s s' := by
    intro b hb hst hok
    refine h.endP ht (s1 := { s with heap := s.heap.upd p fun c => { c with struct := [] } }) rfl ?_ (fun _ => by simp) (Or.inr (Or.inr hna)) (Or.inl hna) hok ?_
    · refine ⟨SameCtl.upd fun _ => ⟨rfl, rfl⟩, ?_, ?_⟩
      · intro q; simp only [upd_apply]; split
        · exact Or.inr rfl
        · exact Or.inl rfl
      · intro q st e _ hs; simp only [upd_apply] at hs; split at hs <;> exact Or.inl hs
    · intro hc htop
      rcases hb with ⟨rfl, rfl⟩ | ⟨rfl, rfl⟩
      · exact .endIgnMapPop hR hst hc htop
      · exact .endIgnArrPop hR hst hc htop
  cases t with
  | null => exact h.null ht hR ok
  | scalar v =>
    simp only [onF, bind_getC] at ok
    split at ok
    · rename_i hst
      exact h.endP ht (s1 := s) rfl (Mild.refl _) (fun _ => hst) (Or.inl (Or.inr ⟨v, rfl⟩)) (Or.inl hna) ok
        fun a b => .scPop a b (by simp only [str, hR]; exact hst)
    · rename_i hst
      injection ok with _ ok
      refine upd (fun h => (h p).struct) ?_ (.scIgn hR hst (by rw [ok]) (by rw [ok]))
      rw [upd_id rfl, ok]
  | mapStart =>
    simp only [onF] at ok
    injection ok with _ ok; subst ok
    refine h.keep (by simp) ?_ ?_ ?_ ?_ (.openIgnMap hR rfl (by simp))
    · exact SameCtl.upd fun _ => ⟨rfl, rfl⟩
    · intro q hq; left; show ((s.heap.upd p _) q).struct = _; rw [upd_other (p := p) (q := q) (fun e => hq (e ▸ hp))]
    · intro q st e _ hs; simp only [upd_apply] at hs; split at hs <;> exact hs
    · intro o ho hn _
      have : o = p := by
        have : o ∈ s.stack := ho
        rw [h.stk] at this
        rcases List.mem_cons.1 this with h1 | h1
        · exact h1
        · exact absurd h1 hn
      subst this
      exact neat_nonobj hR (by simp)
  | arrStart =>
    simp only [onF] at ok
    injection ok with _ ok; subst ok
    refine h.keep (by simp) ?_ ?_ ?_ ?_ (.openIgnArr hR rfl (by simp))
    · exact SameCtl.upd fun _ => ⟨rfl, rfl⟩
    · intro q hq; left; show ((s.heap.upd p _) q).struct = _; rw [upd_other (p := p) (q := q) (fun e => hq (e ▸ hp))]
    · intro q st e _ hs; simp only [upd_apply] at hs; split at hs <;> exact hs
    · intro o ho hn _
      have : o = p := by
        have : o ∈ s.stack := ho
        rw [h.stk] at this
        rcases List.mem_cons.1 this with h1 | h1
        · exact h1
        · exact absurd h1 hn
      subst this
      exact neat_nonobj hR (by simp)
  | mapKey k =>
    simp only [onF, bind_getC] at ok
    match hst : (s.heap p).struct with
    | true :: r =>
      rw [hst] at ok
      injection ok with _ ok
      refine upd (fun h => (h p).struct) ?_ (.keyIgn hR hst ok.symm)
      rw [upd_id rfl, ok]
    | false :: r => rw [hst] at ok; exact (unexpected_ok ok).elim
    | [] => rw [hst] at ok; exact (unexpected_ok ok).elim
  | mapEnd =>
    simp only [onF, bind_getC] at ok
    match hst : (s.heap p).struct with
    | true :: r =>
      rw [hst] at ok
      simp only [bind_modC] at ok
      split at ok
      · rename_i hr; subst hr
        exact fin true (Or.inl ⟨rfl, rfl⟩) hst ok
      · rename_i hr
        injection ok with _ ok
        refine upd (fun _ => r) ok.symm (.endIgnMap hR hst hr (by rw [← ok]) (by rw [← ok]; simp))
    | false :: r => rw [hst] at ok; exact (unexpected_ok ok).elim
    | [] => rw [hst] at ok; exact (unexpected_ok ok).elim
  | arrEnd =>
    simp only [onF, bind_getC] at ok
    match hst : (s.heap p).struct with
    | false :: r =>
      rw [hst] at ok
      simp only [bind_modC] at ok
      split at ok
      · rename_i hr; subst hr
        exact fin false (Or.inr ⟨rfl, rfl⟩) hst ok
      · rename_i hr
        injection ok with _ ok
        refine upd (fun _ => r) ok.symm (.endIgnArr hR hst hr (by rw [← ok]) (by rw [← ok]; simp))
    | true :: r => rw [hst] at ok; exact (unexpected_ok ok).elim
    | [] => rw [hst] at ok; exact (unexpected_ok ok).elim

/-- A reset of the parser at the top. -/
theorem act_reset {p t s s' sh} (h : Here R p t s s') (hR : R.at p = some sh) (hs' : s' = { s with heap := resetH p sh s.heap })
    (hact : Act R p s s' t) : Onward R p t s s' := by
  subst hs'
  refine h.keep (by simp) (resetH_ctl _ _ _) (fun q _ => resetH_struct _ _ _ _) (fun q _ _ _ hs => resetH_noset _ _ _ q hs) ?_ hact
  intro o ho hn _
  have : o = p := by
    have : o ∈ s.stack := ho
    rw [h.stk] at this
    rcases List.mem_cons.1 this with h1 | h1
    · exact h1
    · exact absurd h1 hn
  subst this
  intro k u ms hRo _
  rw [hR] at hRo; injection hRo with hRo; subst hRo
  exact resetH_ign_object k u ms o s.heap

/-- A child is pushed after its name was read. -/
theorem act_key {p k s s' sh st} {f : Cell → Cell} (h : Here R p (.mapKey k) s s') (hR : R.at p = some sh) (hk : sh.isKeyed = true)
    (hs' : s' = { s with heap := s.heap.upd p f, stack := (st :: p) :: s.stack })
    (hf : ∀ c, (f c).disp = c.disp ∧ (f c).started = c.started ∧ (f c).struct = c.struct ∧ ((f c).set = true → c.set = true))
    (hstr : str R s.heap (st :: p) = []) : Onward R p (.mapKey k) s s' := by
  have hp : p ∈ s.stack := by simp [h.stk]
  have hstr' : ∀ q, ((s.heap.upd p f) q).struct = (s.heap q).struct := fun q => by
    rw [upd_apply]; split
    · exact (hf _).2.2.1
    · rfl
  subst hs'
  refine h.keep (by intro a ha; simp [ha]) (SameCtl.upd fun c => ⟨(hf c).1, (hf c).2.1⟩) (fun q _ => Or.inl (hstr' q)) ?_ ?_ (.key hR hk rfl ?_ ?_)
  · intro q st e _ hs; simp only [upd_apply] at hs; split at hs
    · exact (hf _).2.2.2 hs
    · exact hs
  · intro o ho hn hm
    have hos := hm k rfl
    have : o = p := by
      rw [h.stk] at hos
      rcases List.mem_cons.1 hos with h1 | h1
      · exact h1
      · exact absurd h1 hn
    subst this
    intro k' u ms hRo hni
    show ((s.heap.upd o f) _).struct = []
    rw [hstr']
    exact h.key k rfl k' u ms hRo fun hm => hni (by simp [hm])
  · unfold str at hstr ⊢
    split
    · rename_i hi; rw [hi] at hstr; simp only at hstr ⊢; rw [hstr']; exact hstr
    · rfl
  · intro q; exact ((SameCtl.upd (h := s.heap) (p := p) fun c => ⟨(hf c).1, (hf c).2.1⟩) q).2

theorem str_child (hw : R.wf = true) {p sh st c} {h : Heap} (hp : R.at p = some sh) (hne : sh ≠ .ignore) (hc : sh.child st = some c) (hst : st ≠ .ign) :
    str R h (st :: p) = [] := by
  have hR : R.at (st :: p) = some c := by simp [Shape.at, hp, hc]
  refine str_nil ?_
  rw [hR]
  rintro h1; injection h1 with h1; subst h1
  rcases wf_at hw p sh hp with h1 | h1
  · rcases wf_child h1 hc with h2 | h2
    · simp [Shape.wf] at h2
    · exact hst h2
  · exact hne h1

theorem act_object (ht : R.watertight = true) (hw : R.wf = true) {p t s s' k u ms} (h : Here R p t s s') (hR : R.at p = some (.object k u ms))
    (ok : onF E R (.object k u ms) p t s = .ok () s') : Onward R p t s s' := by
  have hna : ∀ st e, R.at p ≠ some (.array st e) := by intro st e; rw [hR]; simp
  cases t with
  | null => exact h.null ht hR ok
  | mapStart =>
    simp only [onF] at ok
    injection ok with _ ok
    exact act_reset h hR ok.symm (.openKeyed hR rfl (by rw [← ok]))
  | mapKey key =>
    simp only [onF, onMember, setNotEmpty_def, bind_modC, bind_getC, bind_assoc, upd_same] at ok
    have hd := h.disp
    cases hl : lookup (.str key) 0 ms with
    | some x =>
      obtain ⟨n, sh⟩ := x
      obtain ⟨i, hi⟩ := lookup_mem hl
      simp only [hl, hd, if_true, bind_push, bind_assoc, bind_pure_left] at ok
      injection ok with _ ok
      refine act_key (f := fun c => { c with empty := false }) h hR rfl ok.symm (fun _ => ⟨rfl, rfl, rfl, id⟩)
        (str_child hw hR (by simp) (c := sh) (by simp [Shape.child, hi]) (by simp))
    | none =>
      simp only [hl] at ok
      split at ok
      · obtain ⟨_, _, h1, _⟩ := bind_ok_inv ok; exact (throwStd_ok h1).elim
      · simp only [bind_push, bind_assoc, bind_pure_left] at ok
        injection ok with _ ok
        refine act_key (f := fun c => { c with empty := false }) h hR rfl ok.symm (fun _ => ⟨rfl, rfl, rfl, id⟩) ?_
        simp only [str, at_ign_object hR]
        refine h.key key rfl k u ms hR ?_
        rw [h.stk]
        intro hm
        rcases List.mem_cons.1 hm with h1 | h1
        · have := congrArg List.length h1; simp at this
        · have := anc_shorter h1; simp at this; omega
  | mapEnd => exact h.endP ht (s1 := s) rfl (Mild.refl _) (by rw [hR]; simp) (Or.inr (Or.inr hna)) (Or.inl hna) ok fun a b => .close hR rfl a b
  | _ => exact (unexpected_ok ok).elim

theorem act_map (ht : R.watertight = true) (hw : R.wf = true) {p t s s' st e} (h : Here R p t s s') (hR : R.at p = some (.map st e))
    (ok : onF E R (.map st e) p t s = .ok () s') : Onward R p t s s' := by
  have hna : ∀ st e, R.at p ≠ some (.array st e) := by intro st e; rw [hR]; simp
  cases t with
  | null => exact h.null ht hR ok
  | mapStart =>
    simp only [onF] at ok
    injection ok with _ ok
    exact act_reset h hR ok.symm (.openKeyed hR rfl (by rw [← ok]))
  | mapKey key =>
    have hd := h.disp
    simp only [onF, setNotEmpty_def, bind_modC, bind_getC, upd_same, hd, if_true, bind_push] at ok
    injection ok with _ ok
    refine act_key (st := .elem) (f := fun c => { c with empty := false, curKey := key }) h hR rfl ?_ (fun _ => ⟨rfl, rfl, rfl, id⟩)
        (str_child hw hR (by simp) (st := .elem) (c := e) rfl (by simp))
    rw [← ok, upd_upd]
  | mapEnd => exact h.endP ht (s1 := s) rfl (Mild.refl _) (by rw [hR]; simp) (Or.inr (Or.inr hna)) (Or.inl hna) ok fun a b => .close hR rfl a b
  | _ => exact (unexpected_ok ok).elim

theorem mem_top {p : Path} {l : List Path} {o} (hs : l = p :: anc p) (ho : o ∈ l) (hn : o ∉ anc p) : o = p := by
  rw [hs] at ho
  rcases List.mem_cons.1 ho with h1 | h1
  · exact h1
  · exact absurd h1 hn

theorem child_new {p : Path} {l : List Path} {st} (hs : l = p :: anc p) : st :: p ∉ l := by
  rw [hs]
  intro hm
  rcases List.mem_cons.1 hm with h1 | h1
  · have := congrArg List.length h1; simp at this
  · have := anc_shorter h1; simp at this; omega

theorem act_union (ht : R.watertight = true) {p t s s' ty tm st ms} (h : Here R p t s s') (hR : R.at p = some (.union ty tm st ms))
    (hne : t ≠ .mapEnd) (ok : onF E R (.union ty tm st ms) p t s = .ok () s') : Onward R p t s s' := by
  have htm := (union_parent ht hR).1
  cases t with
  | null => exact h.null ht hR ok
  | scalar v =>
    simp only [onF] at ok
    split at ok
    · simp only [onMember, setNotEmpty_def, bind_modH, bind_modC, bind_getC, bind_assoc, upd_same] at ok
      have hd : (resetH p (.union ty tm st ms) s.heap p).disp = true := by rw [(resetH_ctl _ _ _ _).1]; exact h.disp
      cases hl : lookup v 0 ms with
      | none =>
        simp only [hl] at ok
        obtain ⟨_, _, h1, _⟩ := bind_ok_inv ok; exact (throwStd_ok h1).elim
      | some x =>
        obtain ⟨n, sh⟩ := x
        obtain ⟨i, hi⟩ := lookup_mem hl
        simp only [hl, hd, if_true, bind_push, bind_assoc, bind_pure_left] at ok
        injection ok with _ ok
        have ok' : s' = { s with heap := (resetH p (.union ty tm st ms) s.heap).upd p fun c => { c with empty := false, curId := n }, stack := (.mem n :: p) :: s.stack } := by
          rw [← ok, upd_upd]
        clear ok
        have hRn := at_mem_union hR hi
        have hk : sh.isKeyed = true := by
          simp only [Shape.watertight, Bool.and_eq_true] at ht
          have ho := tight_at ht.1.1 hR
          simp [Shape.tight] at ho
          exact ho.1.2 _ _ (List.mem_of_getElem? hi)
        have hstr : ∀ q, (s'.heap q).struct = (resetH p (.union ty tm st ms) s.heap q).struct := by
          intro q; subst ok'; simp only [upd_apply]; split <;> rfl
        have hset : ∀ q, (s'.heap q).set = (resetH p (.union ty tm st ms) s.heap q).set := by
          intro q; subst ok'; simp only [upd_apply]; split <;> rfl
        refine h.keep ?_ ?_ ?_ ?_ ?_ (.scAlt (n := n) (isU_iff.2 ⟨_, _, _, _, hR⟩) hRn hk (by rw [ok']))
        · intro a ha; rw [ok']; simp [ha]
        · rw [ok']
          refine SameCtl.trans (resetH_ctl (.union ty tm st ms) p s.heap) ?_
          apply SameCtl.upd; exact fun _ => ⟨rfl, rfl⟩
        · intro q _; rw [hstr]; exact resetH_struct _ _ _ _
        · intro q st e _ hs; rw [hset] at hs; exact resetH_noset _ _ _ q hs
        · intro o ho hn _
          have ho' : o = .mem n :: p ∨ o ∈ s.stack := by rw [ok'] at ho; simpa using ho
          rcases ho' with rfl | ho'
          · intro k u ms' hRo _
            rw [hRn] at hRo; injection hRo with hRo; subst hRo
            rw [hstr, resetH_union_member s.heap hi (Below.cons _ _)]
            exact resetH_ign_object _ _ _ _ _
          · have := mem_top h.stk ho' hn
            subst this
            exact neat_nonobj hR (by simp)
    · exact (unexpected_ok ok).elim
  | mapStart => simp only [onF, htm, if_true] at ok; exact (throwStd_ok ok).elim
  | mapKey k => simp only [onF, htm, if_true] at ok; exact (throwStd_ok ok).elim
  | mapEnd => exact absurd rfl hne
  | _ => exact (unexpected_ok ok).elim

/-- Harmless changes afterwards. -/
theorem Onward.later {p t s s1 s'} (h : Onward R p t s s1) (hs : s'.stack = s1.stack) (m : Mild R s1.heap s'.heap) (hact : Act R p s s' t) :
    Onward R p t s s' where
  act := hact
  base := by
    refine h.base.mild (h.base.ctl.shrink (by rw [hs]; exact List.suffix_refl _) m.ctl) m ?_
    intro q st st' e _ hm; left; rw [hs]; exact hm
  neat := by
    intro o ho hk k u ms hRo hn
    rw [hs] at ho hn
    have := h.neat o ho hk k u ms hRo hn
    rcases m.struct (.ign :: o) with h1 | h1
    · rw [h1]; exact this
    · exact h1
  grow := by
    intro q st e hq hsq
    rw [(m.ctl q).2] at hsq
    rw [hs]
    exact h.grow q st e hq hsq

theorem nullBase_nodisp {sh p} {s : St} (hd : (s.heap p).disp = false) :
    nullBase E R sh p s = .ok () { s with heap := resetH p sh s.heap } := by
  unfold nullBase
  rw [bind_modH, bind_getC, if_neg]
  · rfl
  · simp only [(resetH_ctl sh p s.heap p).1, hd]; simp

theorem endP_nodisp {sh p} {s : St} (hd : (s.heap p).disp = false) : endP E R sh p s = complete E sh p s := by
  rw [endP_eq]
  unfold complete
  rw [bind_assoc]
  refine bind_congr rfl fun _ s1 h1 => ?_
  injection h1 with _ h1; subst h1
  cases h2 : finish E sh p { s with heap := s.heap.upd p fun c => { c with set := true } } with
  | ok a s2 =>
    cases a
    have h3 : (s2.heap p).disp = false := by
      rw [(((Loc.finish sh p).ok h2).2.ctl p).1]; simp [hd]
    unfold M.bind; rw [h2]; simp only [getC, h3]; rfl
  | _ => unfold M.bind; rw [h2]

/-- `on(NullT)` of the element parser of an array that is being read. -/
theorem onF_elem_null {p st e} {s : St} (ht : R.watertight = true) (hb : Base R s) (hs : s.stack = p :: anc p) (hR : R.at p = some (.array st e)) :
    onF E R e (.elem :: p) .null s = nullBase E R e (.elem :: p) s := by
  cases e with
  | array st' e' =>
    have := hb.inner p st st' e' hR (child_new hs)
    simp only [onF, bind_getC, this]; rfl
  | _ => rfl

theorem act_array (ht : R.watertight = true) {p t s s' st e} (h : Here R p t s s') (hR : R.at p = some (.array st e))
    (ok : onF E R (.array st e) p t s = .ok () s') : Onward R p t s s' := by
  have hRe := at_elem_array hR
  obtain ⟨huser, hnu, _⟩ := array_elem ht hR
  have hch : .elem :: p ∉ s.stack := child_new h.stk
  have hig : R.at p ≠ some .ignore := by rw [hR]; simp
  have hd := h.disp
  cases t with
  | null =>
    simp only [onF, bind_getC] at ok
    rcases Bool.eq_false_or_eq_true (s.heap p).started with hst | hst
    · simp only [hst, Bool.not_true, Bool.false_eq_true, if_false] at ok
      rw [onF_elem_null ht h.base h.stk hR] at ok
      rcases Bool.eq_false_or_eq_true (s.heap (.elem :: p)).disp with hde | hde
      · rw [nullBase_pop hde, bind_modH] at ok
        exact h.pop ht (s1 := { s with heap := resetH (.elem :: p) e s.heap }) rfl (Mild.reset _ _ _) (fun h => absurd h hig) (Or.inl (Or.inl rfl)) ok .nullPop
      · rw [nullBase_nodisp hde] at ok
        injection ok with _ ok
        have m : Mild R s.heap s'.heap := by rw [← ok]; exact Mild.reset _ _ _
        have hs : s'.stack = s.stack := by rw [← ok]
        refine h.keep (fun a ha => by rw [hs]; exact ha) m.ctl (fun q _ => m.struct q) ?_ ?_ (.nullStay hR hst hde hs)
        · intro q _ _ _ hq; rw [← ok] at hq; exact resetH_noset _ _ _ q hq
        · intro o ho hn _
          rw [hs] at ho
          obtain rfl := mem_top h.stk ho hn
          exact neat_nonobj hR (by simp)
    · simp only [hst, Bool.not_false, if_true] at ok
      exact h.null ht hR ok
  | scalar v =>
    simp only [onF, bind_getC] at ok
    rcases Bool.eq_false_or_eq_true (s.heap p).started with hst | hst
    · simp only [hst, Bool.not_true, Bool.false_eq_true, if_false] at ok
      obtain ⟨_, s1, h1, h2⟩ := bind_ok_inv ok
      rw [setNotEmpty_def, bind_modC, chP_arrChild hR] at h2
      -- afterwards
      have m2 : ∀ s1 : St, arrChild st p { s1 with heap := s1.heap.upd p fun c => { c with empty := false } } = .ok () s' → s'.stack = s1.stack ∧ Mild R s1.heap s'.heap := by
        intro s1 h2
        have h3 := (Loc.arrChild st p).ok h2
        have h4 := NS.arrChild _ _ _ _ _ h2
        refine ⟨h3.1, Mild.trans (h' := s1.heap.upd p fun c => { c with empty := false }) ?_ (Mild.quiet h3.2 h4)⟩
        apply Mild.upd; exact fun _ => ⟨rfl, rfl, rfl, id⟩
      cases e with
      | value ty =>
        simp only [onF] at h1
        split at h1
        · rw [setNotEmpty_def, bind_modC, bind_modC] at h1
          have hna : ∀ st e, R.at (.elem :: p) ≠ some (.array st e) := by intro st e; rw [hRe]; simp
          have m0 : Mild R s.heap ((s.heap.upd (.elem :: p) fun c => { c with empty := false }).upd (.elem :: p) fun c => { c with val := .sc v }) := by
            refine Mild.trans (h' := s.heap.upd (.elem :: p) fun c => { c with empty := false }) ?_ ?_
            · apply Mild.upd; exact fun _ => ⟨rfl, rfl, rfl, id⟩
            · apply Mild.upd; exact fun _ => ⟨rfl, rfl, rfl, id⟩
          rcases Bool.eq_false_or_eq_true (s.heap (.elem :: p)).disp with hde | hde
          · rw [endP_pop (by simp [hde])] at h1
            obtain ⟨_, s0, h3, h4⟩ := bind_ok_inv h1
            have hs0 := complete_stack h3
            have m1 := m0.trans (Mild.complete (R := R) h3 (Or.inl hna))
            have c0 : Ctl R s0 := h.base.ctl.shrink (by rw [hs0]; exact List.suffix_refl _) m1.ctl
            have c1 : Ctl R s1 := by have := c0.pop (E := E) (U := False); rw [h4] at this; exact this
            have hh : Here R p (.scalar v) s s1 := ⟨h.base, h.stk, h.neat, h.key, c1⟩
            have r := hh.pop ht (s1 := s0) hs0 m1 (fun h => absurd h hig) (Or.inl (Or.inr ⟨v, rfl⟩)) h4 fun a b => .scPop a b (str_nil hig)
            obtain ⟨h5, h6⟩ := m2 s1 h2
            refine r.later h5 h6 ?_
            cases r.act with
            | scPop a b c => exact .scPop (by rw [h5]; exact a) (by rw [h5]; exact b) c
            | scStay a b c => exact .scStay a b (by rw [h5]; exact c)
            | scIgn a => exact absurd a hig
            | scAlt a b => obtain ⟨_, _, _, _, a⟩ := isU_iff.1 a; rw [hR] at a; simp at a
          · rw [endP_nodisp (by simp [hde])] at h1
            have hs1 := complete_stack h1
            have m1 := m0.trans (Mild.complete (R := R) h1 (Or.inl hna))
            obtain ⟨h5, h6⟩ := m2 s1 h2
            have m := m1.trans h6
            have hs : s'.stack = s.stack := h5.trans hs1
            have c1 : Ctl R s1 := h.base.ctl.shrink (by rw [hs1]; exact List.suffix_refl _) m1.ctl
            have hh : Here R p (.scalar v) s s1 := ⟨h.base, h.stk, h.neat, h.key, c1⟩
            have r : Onward R p (.scalar v) s s1 := by
              refine hh.keep (fun a ha => by rw [hs1]; exact ha) m1.ctl (fun q _ => m1.struct q) ?_ ?_ (.scStay hR hst hs1)
              · intro q st' e' hq hs'
                have := complete_noset h1 (q := q) (by rintro rfl; rw [hRe] at hq; simp at hq) hs'
                simp only [upd_apply] at this
                split at this <;> exact this
              · intro o ho hn _
                rw [hs1] at ho
                obtain rfl := mem_top h.stk ho hn
                exact neat_nonobj hR (by simp)
            exact r.later h5 h6 (.scStay hR hst hs)
        · exact (unexpected_ok h1).elim
      | ignore => simp [Shape.isUser] at huser
      | union => simp [Shape.isUnion] at hnu
      | array st' e' =>
        have := h.base.inner p st st' e' hR hch
        simp only [onF, bind_getC, this, Bool.not_false, if_true] at h1
        exact (unexpected_ok h1).elim
      | object => exact (unexpected_ok h1).elim
      | map => exact (unexpected_ok h1).elim
    · simp only [hst, Bool.not_false, if_true] at ok
      exact (unexpected_ok ok).elim
  | arrEnd =>
    simp only [onF, bind_modC] at ok
    have c1 : Ctl R { s with heap := s.heap.upd p fun c => { c with started := false } } := h.base.ctl.start hR
    have hh : Here R p .arrEnd { s with heap := s.heap.upd p fun c => { c with started := false } } s' := by
      refine ⟨⟨c1, ?_, ?_⟩, h.stk, ?_, fun k hk => by simp at hk, h.ctl'⟩
      · intro q a b e' hq hn
        simp only [upd_apply]; split
        · rfl
        · exact h.base.inner q a b e' hq hn
      · intro q a e' hq hs
        simp only [upd_apply] at hs ⊢
        split at hs
        · simp at hs
        · rename_i hqp; rw [if_neg hqp]; exact h.base.unset q a e' hq hs
      · intro o ho k u ms hRo hn
        have := h.neat o ho k u ms hRo hn
        simp only [upd_apply]; split <;> exact this
    have r := hh.endP ht (s1 := { s with heap := s.heap.upd p fun c => { c with started := false } }) rfl (Mild.refl _) (fun h => absurd h hig)
      (Or.inr (Or.inl (by simp))) (Or.inr (by simp)) ok fun a b => .closeArr hR a b
    have ra : Act R p s s' .arrEnd := by
      cases r.act with
      | closeArr a b c => exact .closeArr a b c
      | endIgnArr a => exact absurd a hig
      | endIgnArrPop a => exact absurd a hig
    refine ⟨ra, r.base, r.neat, ?_⟩
    intro q a e' hq hs
    rcases r.grow q a e' hq hs with h1 | ⟨h1, h2⟩
    · exact Or.inl h1
    · refine Or.inr ⟨?_, h2⟩
      simp only [upd_apply] at h1
      split at h1
      · simp at h1
      · exact h1
  | mapStart =>
    simp only [onF, bind_getC] at ok
    rcases Bool.eq_false_or_eq_true (s.heap p).started with hst | hst
    · simp only [hst, hd, Bool.not_true, Bool.false_eq_true, if_false, setNotEmpty_def, bind_modC, bind_modH, bind_push] at ok
      have fin : e.isKeyed = true → s' = { s with heap := resetH (.elem :: p) e (setDispH (.elem :: p) e (s.heap.upd p fun c => { c with empty := false })), stack := (.elem :: p) :: s.stack } →
          Onward R p .mapStart s s' := by
        intro hk hs'
        have hD := setDispH_only e (.elem :: p) (s.heap.upd p fun c => { c with empty := false })
        have h1 : ∀ q, ((setDispH (.elem :: p) e (s.heap.upd p fun c => { c with empty := false })) q).struct = (s.heap q).struct := by
          intro q; rw [hD.struct]; simp only [upd_apply]; split <;> rfl
        have hs : s'.stack = (.elem :: p) :: s.stack := by rw [hs']
        refine h.keepS (fun a ha => by rw [hs]; simp [ha]) ?_ ?_ ?_ ?_ (.elemKeyed hR hst hk hs)
        · intro q; left; rw [hs']; simp only [(resetH_ctl _ _ _ _).2, hD.started, upd_apply]; split <;> rfl
        · intro q _; rw [hs', ← h1]; exact resetH_struct _ _ _ _
        · intro q _ _ _ hq; rw [hs'] at hq
          have h2 := resetH_noset _ _ _ q hq
          rcases hD q with h3 | h3 <;> rw [h3] at h2 <;> simp only [upd_apply] at h2 <;> split at h2 <;> exact h2
        · intro o ho hn _
          rw [hs] at ho
          rcases List.mem_cons.1 ho with rfl | ho
          · intro k u ms hRo _
            rw [hRe] at hRo; injection hRo with hRo; subst hRo
            rw [hs']; exact resetH_ign_object k u ms _ _
          · obtain rfl := mem_top h.stk ho hn
            exact neat_nonobj hR (by simp)
      cases e with
      | value ty => exact (unexpected_ok ok).elim
      | ignore => simp [Shape.isUser] at huser
      | union => simp [Shape.isUnion] at hnu
      | array st' e' =>
        have h0 := h.base.inner p st st' e' hR hch
        have h1 : ((setDispH (.elem :: p) (.array st' e') (s.heap.upd p fun c => { c with empty := false })) (.elem :: p)).started = false := by
          rw [(setDispH_only _ _ _).started, upd_other (by intro h; have := congrArg List.length h; simp at this)]; exact h0
        simp only [onF, bind_getC, h1, Bool.not_false, if_true] at ok
        exact (unexpected_ok ok).elim
      | object => simp only [onF] at ok; injection ok with _ ok; exact fin rfl ok.symm
      | map => simp only [onF] at ok; injection ok with _ ok; exact fin rfl ok.symm
    · simp only [hst, Bool.not_false, if_true] at ok
      exact (unexpected_ok ok).elim
  | arrStart =>
    simp only [onF, bind_getC] at ok
    rcases Bool.eq_false_or_eq_true (s.heap p).started with hst | hst
    · simp only [hst, hd, Bool.not_true, Bool.false_eq_true, if_false, setNotEmpty_def, bind_modC, bind_modH, bind_push] at ok
      cases e with
      | value ty => exact (unexpected_ok ok).elim
      | ignore => simp [Shape.isUser] at huser
      | union => simp [Shape.isUnion] at hnu
      | object => exact (unexpected_ok ok).elim
      | map => exact (unexpected_ok ok).elim
      | array st' e' =>
        have h0 := h.base.inner p st st' e' hR hch
        have h1 : ((setDispH (.elem :: p) (.array st' e') (s.heap.upd p fun c => { c with empty := false })) (.elem :: p)).started = false := by
          rw [(setDispH_only _ _ _).started, upd_other (by intro h; have := congrArg List.length h; simp at this)]; exact h0
        simp only [onF, bind_getC, h1, Bool.not_false, if_true, bind_modH] at ok
        injection ok with _ ok
        have hD := setDispH_only (.array st' e') (.elem :: p) (s.heap.upd p fun c => { c with empty := false })
        have h2 : ∀ q, ((setDispH (.elem :: p) (.array st' e') (s.heap.upd p fun c => { c with empty := false })) q).struct = (s.heap q).struct := by
          intro q; rw [hD.struct]; simp only [upd_apply]; split <;> rfl
        have hs : s'.stack = (.elem :: p) :: s.stack := by rw [← ok]
        refine h.keepS (fun a ha => by rw [hs]; simp [ha]) ?_ ?_ ?_ ?_ (.elemArr hR hst rfl hs)
        · intro q
          by_cases hq : q = .elem :: p
          · right; subst hq; rw [hs]; refine ⟨by simp, ?_⟩
            rw [← ok]; simp only [upd_same]; exact (resetH_self _ _ _).1
          · left; rw [← ok]; simp only [upd_apply, if_neg hq, (resetH_ctl _ _ _ _).2, hD.started]; split <;> rfl
        · intro q _; rw [← h2, ← ok]
          rcases resetH_struct (.array st' e') (.elem :: p) (setDispH (.elem :: p) (.array st' e') (s.heap.upd p fun c => { c with empty := false })) q with h3 | h3
          · left; rw [← h3]; show (Heap.upd _ _ _ q).struct = _; rw [upd_apply]; split <;> rfl
          · right; rw [← h3]; show (Heap.upd _ _ _ q).struct = _; rw [upd_apply]; split <;> rfl
        · intro q _ _ _ hq
          have h3 : (resetH (.elem :: p) (.array st' e') (setDispH (.elem :: p) (.array st' e') (s.heap.upd p fun c => { c with empty := false })) q).set = true := by
            rw [← ok] at hq; simp only [upd_apply] at hq; split at hq <;> exact hq
          have h4 := resetH_noset _ _ _ q h3
          rcases hD q with h3 | h3 <;> rw [h3] at h4 <;> simp only [upd_apply] at h4 <;> split at h4 <;> exact h4
        · intro o ho hn _
          rw [hs] at ho
          rcases List.mem_cons.1 ho with rfl | ho
          · exact neat_nonobj hRe (by simp)
          · obtain rfl := mem_top h.stk ho hn
            exact neat_nonobj hR (by simp)
    · simp only [hst, Bool.not_false, if_true, bind_modH] at ok
      injection ok with _ ok
      have hs : s'.stack = s.stack := by rw [← ok]
      refine h.keepS (fun a ha => by rw [hs]; exact ha) ?_ ?_ ?_ ?_ (.openArr hR hst hs)
      · intro q
        by_cases hq : q = p
        · right; subst hq; rw [hs]; refine ⟨by simp [h.stk], ?_⟩
          rw [← ok]; simp only [upd_same]; exact (resetH_self _ _ _).1
        · left; rw [← ok]; simp only [upd_apply, if_neg hq, (resetH_ctl _ _ _ _).2]
      · intro q _; rw [← ok]
        rcases resetH_struct (.array st e) p s.heap q with h3 | h3
        · left; rw [← h3]; show (Heap.upd _ _ _ q).struct = _; rw [upd_apply]; split <;> rfl
        · right; rw [← h3]; show (Heap.upd _ _ _ q).struct = _; rw [upd_apply]; split <;> rfl
      · intro q _ _ _ hq
        have h3 : (resetH p (.array st e) s.heap q).set = true := by
          rw [← ok] at hq; simp only [upd_apply] at hq; split at hq <;> exact hq
        exact resetH_noset _ _ _ q h3
      · intro o ho hn _
        rw [hs] at ho
        obtain rfl := mem_top h.stk ho hn
        exact neat_nonobj hR (by simp)
  | _ => exact (unexpected_ok ok).elim

/-- One token. -/
theorem act (ht : R.watertight = true) (hw : R.wf = true) {p t s s'} (hb : Base R s) (hs : s.stack = p :: anc p)
    (hN : ∀ o ∈ anc p, Spare R s o) (hk : ∀ k, t = .mapKey k → Spare R s p) (hu : isU R p = true → t ≠ .mapEnd)
    (ok : dispatch E R t s = .ok () s') : Onward R p t s s' := by
  have hc : Ctl R s' := by
    have := dispatch_ctl (E := E) t hb.ctl
    rw [ok] at this; exact this
  have h : Here R p t s s' := ⟨hb, hs, hN, hk, hc⟩
  obtain ⟨⟨sh, hR⟩, _⟩ := hb.ctl.valid p (by simp [hs])
  rw [dispatch_cons hs hR] at ok
  cases sh with
  | value => exact act_value ht h hR ok
  | ignore => exact act_ignore ht h hR ok
  | object => exact act_object ht hw h hR ok
  | map => exact act_map ht hw h hR ok
  | union => exact act_union ht h hR (hu (isU_iff.2 ⟨_, _, _, _, hR⟩)) ok
  | array => exact act_array ht h hR ok

end SJ
