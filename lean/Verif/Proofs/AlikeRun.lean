/-
Two parsers of the same type with different pasts, side by side: sequences of tokens.
-/
import Verif.Proofs.AlikeStep
import Verif.Proofs.Open

set_option linter.unusedVariables false

namespace SJ

variable {E : Env} {R : Shape} {L K : List Path}

theorem Stacked.len {p rest} (h : Stacked ChildOf (p :: rest)) : ∀ q ∈ p :: rest, q.length ≤ p.length := by
  induction rest generalizing p with
  | nil => intro q hq; simp at hq; rw [hq]; exact Nat.le_refl _
  | cons r rest ih =>
    intro q hq
    rcases List.mem_cons.1 hq with rfl | hq
    · exact Nat.le_refl _
    · obtain ⟨st, hst⟩ := h.1
      have := ih h.2 q hq
      rw [hst]; simp; omega

theorem Stacked.fresh {p rest} (h : Stacked ChildOf (p :: rest)) (st) : st :: p ∉ p :: rest := by
  intro hm
  have := h.len _ hm
  simp at this
  omega

/-- A parser of the tree passes its dispatcher on to its children. -/
theorem Opened'.passed {s : St} (h : Opened' R s) {p sh} (hR : R.at p = some sh) (hd : (s.heap p).disp = true) (ha : ∀ b e, sh ≠ .array b e) : Passed R p s := by
  intro st ⟨c, hc⟩
  exact h.op.ctl.closed p _ st c hR hd ha (by simpa [Shape.at, hR] using hc)

theorem Opened'.child_idle {s : St} (h : Opened' R s) {p rest} (hn : Stacked ChildOf s.stack) (hs : s.stack = p :: rest) (st) : (s.heap (st :: p)).started = false := by
  cases hd : (s.heap (st :: p)).started with
  | false => rfl
  | true =>
    have := h.op.started _ hd
    rw [hs] at this hn
    exact absurd this (hn.fresh st)

theorem Alike.entered {s t : St} (a : Alike R L K s t) {p rest st e} (hs : s.stack = p :: rest) (hR : R.at p = some (.array st e)) :
    Alike R L (p :: K) { s with heap := setDispH (.elem :: p) e (s.heap.upd p fun c => { c with empty := false }), stack := (.elem :: p) :: s.stack }
      { t with heap := setDispH (.elem :: p) e (t.heap.upd p fun c => { c with empty := false }), stack := (.elem :: p) :: t.stack } := by
  have a1 := a.notEmpty p
  have hd := a1.heap.disp (.elem :: p) e (.elem :: p) e
  have hk : ∀ (h : Heap) q, (setDispH (.elem :: p) e h q).curKey = (h q).curKey := by
    intro h q
    rcases setDispH_only e (.elem :: p) h q with e' | e' <;> rw [e']
  refine ⟨?_, a.log, hd, ?_, ?_, ?_, ?_, ?_⟩
  · dsimp only; rw [a.stack]
  · intro x hx; rcases List.mem_cons.1 hx with rfl | hx
    · exact ⟨_, at_elem_array hR⟩
    · exact a.tree x hx
  · intro x hx; rcases List.mem_cons.1 hx with rfl | hx
    · exact setDispH_self _ _ _
    · exact (setDispH_only _ _ _).mono (a1.dispS x hx)
  · intro x hx; rcases List.mem_cons.1 hx with rfl | hx
    · exact setDispH_self _ _ _
    · exact (setDispH_only _ _ _).mono (a1.dispT x hx)
  · have := a.nested
    dsimp only
    rw [hs] at this ⊢
    exact ⟨⟨.elem, rfl⟩, this⟩
  · intro q hq hm
    rcases List.mem_cons.1 hq with rfl | hq
    · obtain ⟨b, e', h⟩ := hm; rw [hR] at h; simp at h
    · dsimp only
      rw [hk, hk]
      exact a1.keys q hq hm

/-- A token that begins a value, for an array in the middle of its elements. -/
theorem elements_alike (hw : R.wf = true) (hI : NoIgnoreElem R) (hb : Blind R E) {x : Token} (hx : x.opens = true) {s t : St} (a : Alike R L K s t) {p rest st e}
    (hs : s.stack = p :: rest) (hR : R.at p = some (.array st e)) (hst : (s.heap p).started = true) (h0 : [] ∈ L) (hL : ∀ y ∈ s.stack, y ∈ L)
    (hK : ∀ y ∈ s.stack.tail, y ∈ K) (o1 : Opened' R s) (o2 : Opened' R t) (hz : ¬ Hazard R x s) :
    Ends R (Between2 R false) (onF E R (.array st e) p x s) (onF E R (.array st e) p x t) := by
  have hst' : (t.heap p).started = true := by rw [← a.heap.started]; exact hst
  have hs' : t.stack = p :: rest := a.stack ▸ hs
  have hRe := at_elem_array hR
  have hnm : ∀ b e, R.at p ≠ some (.map b e) := fun b e h => by rw [hR] at h; simp at h
  have hle : Live R L (.elem :: p) := Live.child (.mem (hL p (by simp [hs]))) hnm
  have hidle : (s.heap (.elem :: p)).started = false := o1.child_idle a.nested hs _
  have hidle' : (t.heap (.elem :: p)).started = false := by rw [← a.heap.started]; exact hidle
  have d1 := a.dispS p (by simp [hs])
  have d2 := a.dispT p (by simp [hs])
  have hstart : ∀ x : Token, x.opens = true → Ends R (Between2 R false) (M.bind (setNotEmpty p) (fun _ =>
        M.bind (modH (setDispH (.elem :: p) e)) fun _ => M.bind (pushParser (.elem :: p)) fun _ => onF E R e (.elem :: p) x) s)
      (M.bind (setNotEmpty p) (fun _ =>
        M.bind (modH (setDispH (.elem :: p) e)) fun _ => M.bind (pushParser (.elem :: p)) fun _ => onF E R e (.elem :: p) x) t) := by
    intro x hx
    rw [setNotEmpty_def, bind_modC, bind_modH, bind_push, bind_modC, bind_modH, bind_push]
    have ae := a.entered hs hR
    have hst1 : ((setDispH (.elem :: p) e (s.heap.upd p fun c => { c with empty := false })) (.elem :: p)).started = false := by
      rw [(setDispH_only _ _ _).started, upd_other (by simp)]; exact hidle
    have pas : ∀ (u : St), Opened' R u → u.stack = p :: rest → (∀ b e', e ≠ .array b e') →
        Passed R (.elem :: p) { u with heap := setDispH (.elem :: p) e (u.heap.upd p fun c => { c with empty := false }), stack := (.elem :: p) :: u.stack } := by
      intro u hu hus hna
      by_cases he : ∃ ty, e = .value ty
      · obtain ⟨ty, rfl⟩ := he
        intro st' ⟨c, hc⟩
        rw [value_no_child hRe st'] at hc; simp at hc
      · exact (hu.enter hus hR fun ty h => he ⟨ty, h⟩).passed hRe (setDispH_self _ _ _) hna
    refine opens_alike hw hb hx ae (rest := s.stack) rfl hRe hL ?_ (List.mem_cons_of_mem _ h0) hst1 ?_ (pas s o1 hs) (pas t o2 hs')
    · intro y hy
      rw [hs] at hy hK
      rcases List.mem_cons.1 hy with rfl | hy
      · simp
      · exact List.mem_cons_of_mem _ (hK y hy)
    · rintro rfl; exact absurd hR (hI p st)
  cases x with
  | null =>
    have he : ∃ ty, e = .value ty := Classical.byContradiction fun h => hz (.inl ⟨p, rest, st, e, hs, hR, hst, rfl, fun ty he => h ⟨ty, he⟩⟩)
    obtain ⟨ty, rfl⟩ := he
    simp only [onF, bind_getC, hst, hst', Bool.not_true, Bool.false_eq_true, if_false]
    rw [nullBase_nodisp (o1.op.velem p st ty hR), nullBase_nodisp (o2.op.velem p st ty hR)]
    exact ⟨rfl, Between2.of (a.reset hRe) (.mem (List.mem_cons_of_mem _ h0)) (fun y hy => .mem (List.mem_cons_of_mem _ (hL y hy))) fun y hy _ => hK y hy⟩
  | scalar v =>
    simp only [onF, bind_getC, hst, hst', Bool.not_true, Bool.false_eq_true, if_false]
    cases e with
    | value ty =>
      simp only [onF]
      split
      · have hA := (a.notEmpty (.elem :: p)).setVal (.elem :: p) (fun _ => .sc v) (fun _ _ _ _ => rfl)
        have v1 := o1.op.velem p st ty hR
        have v2 := o2.op.velem p st ty hR
        have e1 : ∀ (u : St), (u.heap (.elem :: p)).disp = false → M.bind (setNotEmpty (.elem :: p)) (fun _ => M.bind (modC (.elem :: p) fun c => { c with val := .sc v }) fun _ =>
            endP E R (.value ty) (.elem :: p)) u = complete E (.value ty) (.elem :: p)
              { u with heap := (u.heap.upd (.elem :: p) fun c => { c with empty := false }).upd (.elem :: p) fun c => { c with val := .sc v } } := by
          intro u hu
          rw [setNotEmpty_def, bind_modC, bind_modC, endP_nodisp (by simpa using hu)]
        have hB : Both (Alike R L K) (M.bind (setNotEmpty (.elem :: p)) (fun _ => M.bind (modC (.elem :: p) fun c => { c with val := .sc v }) fun _ =>
            endP E R (.value ty) (.elem :: p)) s) (M.bind (setNotEmpty (.elem :: p)) (fun _ => M.bind (modC (.elem :: p) fun c => { c with val := .sc v }) fun _ =>
            endP E R (.value ty) (.elem :: p)) t) := by
          rw [e1 s v1, e1 t v2]
          exact complete_alike hw hb hRe hle hA (fun _ => by simp)
        refine Ends.bindB hB fun _ s1 t1 h1 h2 a1 => ?_
        have hs1 : s1.stack = s.stack := by
          rw [e1 s v1] at h1
          exact ((Loc.complete (E := E) _ _).ok h1).1
        rw [setNotEmpty_def, bind_modC, bind_modC, chP_arrChild hR]
        refine (arrChild_alike hw hR (.mem (hL p (by simp [hs]))) (a1.notEmpty p)).ends fun _ s2 t2 h3 _ a2 => ?_
        have hs2 : s2.stack = s.stack := ((Loc.arrChild st p).ok h3).1.trans hs1
        exact Between2.of a2 (.mem h0) (fun y hy => .mem (hL y (hs2 ▸ hy))) fun y hy _ => hK y (hs2 ▸ hy)
      · exact ⟨rfl, a.stack, a.log⟩
    | union ty tm b ms =>
      have : v.ty ≠ ty := fun h => hz (.inr ⟨p, rest, st, _, _, _, _, v, hs, hR, hst, rfl, h⟩)
      simp only [onF, if_neg this]
      exact ⟨rfl, a.stack, a.log⟩
    | array b e' =>
      have e1 : ∀ (u : St), (u.heap (.elem :: p)).started = false → (onF E R (.array b e') (.elem :: p) (.scalar v)) u = unexpected (.scalar v) u := by
        intro u hu
        simp only [onF, bind_getC, hu, Bool.not_false, if_true]
      rw [M.bind, e1 s hidle, M.bind, e1 t hidle']
      exact ⟨rfl, a.stack, a.log⟩
    | ignore => exact absurd hR (hI p st)
    | _ => exact ⟨rfl, a.stack, a.log⟩
  | mapStart =>
    simp only [onF, bind_getC, hst, hst', d1, d2, Bool.not_true, Bool.false_eq_true, if_false]
    exact hstart .mapStart rfl
  | arrStart =>
    simp only [onF, bind_getC, hst, hst', d1, d2, Bool.not_true, Bool.false_eq_true, if_false]
    exact hstart .arrStart rfl
  | _ => simp [Token.opens] at hx

/-- Whether a value must follow. -/
def Token.isKey : Token → Bool
  | .mapKey _ => true
  | _ => false

/-- Between tokens; if a value is expected the parser on top is not an array in the middle of its elements. -/
structure Abreast (R : Shape) (exp : Bool) (s t : St) : Prop where
  two : Between2 R exp s t
  idle : exp = true → ∀ p rest, s.stack = p :: rest → (s.heap p).started = false

theorem Ends.mono {α} {P Q : St → St → Prop} {r r' : Res α} (h : Ends R P r r') (hpq : ∀ s t, P s t → Q s t) : Ends R Q r r' := by
  cases r <;> cases r' <;> try exact h.elim
  · exact ⟨h.1, hpq _ _ h.2⟩
  · exact h
  · trivial
  · trivial

theorem Between2.abreast {α} {r r' : Res α} (h : Ends R (Between2 R false) r r') : Ends R (Abreast R false) r r' :=
  h.mono fun s t h => ⟨h, by simp⟩

theorem onMember_heap {u ms p x} {s s' : St} {r} (h : onMember E u ms p x s = .ok r s') : s'.heap = s.heap.upd p fun c => { c with empty := false } := by
  unfold onMember at h
  rw [setNotEmpty_def, bind_modC, bind_getC] at h
  simp only at h
  cases hl : lookup x 0 ms with
  | some a =>
    rw [hl] at h
    simp only at h
    split at h
    · rw [bind_push] at h; injection h with _ h; subst h; rfl
    · simp at h
  | none =>
    rw [hl] at h
    simp only at h
    split at h
    · simp [throwStd] at h
    · split at h
      · rw [bind_push] at h; injection h with _ h; subst h; rfl
      · simp at h

/-- A token that does not begin a value. -/
theorem closes_alike (hw : R.wf = true) (hb : Blind R E) {x : Token} (hx : x.opens = false) {s t : St} (a : Between2 R false s t) {p rest sh}
    (hs : s.stack = p :: rest) (hR : R.at p = some sh) (o1 : Opened' R s) (o2 : Opened' R t) :
    Ends R (Abreast R x.isKey) (onF E R sh p x s) (onF E R sh p x t) := by
  have a : Alike R ([] :: s.stack) s.stack.tail s t := a
  have hL : ∀ y ∈ s.stack, y ∈ [] :: s.stack := fun y hy => List.mem_cons_of_mem _ hy
  have hK : ∀ y ∈ s.stack.tail, y ∈ s.stack.tail := fun y hy => hy
  have h0 : [] ∈ [] :: s.stack := by simp
  have hlp : Live R ([] :: s.stack) p := .mem (by simp [hs])
  have d1 := a.dispS p (by simp [hs])
  have d2 := a.dispT p (by simp [hs])
  have hend : (sh.isStorage = true → (s.heap p).val = (t.heap p).val) → Ends R (Abreast R false) (endP E R sh p s) (endP E R sh p t) := fun hv =>
    Between2.abreast (endP_alike hw hb a hs h0 hL hK hR hv)
  have keep : (∀ b e, sh ≠ .array b e) → Abreast R true s t := fun ha =>
    ⟨Between2.exp a (.mem h0) (fun y hy => .mem (hL y (List.mem_of_mem_tail hy))) fun y hy _ => hK y hy, fun _ q r hq => by
      rw [hs] at hq; injection hq with hq _; subst hq; exact o1.not_started hR ha⟩
  have hchild : ∀ {s' t' : St} {st}, Alike R ([] :: s.stack) s.stack.tail s' t' → s'.stack = (st :: p) :: s.stack →
      (∀ b e, sh = .map b e → (s'.heap p).curKey = (t'.heap p).curKey) → (s'.heap (st :: p)).started = (s.heap (st :: p)).started → Abreast R true s' t' := by
    intro s' t' st a' hst' hkey hstd
    have a2 : Alike R ([] :: s.stack) s.stack s' t' := by
      refine ⟨a'.stack, a'.log, a'.heap, a'.tree, a'.dispS, a'.dispT, a'.nested, fun q hq hm => ?_⟩
      rw [hs] at hq
      rcases List.mem_cons.1 hq with rfl | hq
      · obtain ⟨b, e, h⟩ := hm; rw [hR] at h; injection h with h; exact hkey b e h
      · exact a'.keys q (by rw [hs]; exact hq) hm
    refine ⟨Between2.exp a2 (.mem h0) (fun y hy => .mem ?_) fun y hy _ => ?_, fun _ q r hq => ?_⟩
    · rw [hst'] at hy; exact hL y hy
    · rw [hst'] at hy; exact hy
    · rw [hst'] at hq; injection hq with hq _; subst hq
      rw [hstd]; exact o1.child_idle a.nested hs _
  have struct : ∀ (f : List Bool → List Bool), sh = .ignore → Alike R ([] :: s.stack) s.stack.tail
      { s with heap := s.heap.upd p fun c => { c with struct := f c.struct } } { t with heap := t.heap.upd p fun c => { c with struct := f c.struct } } := by
    rintro f rfl
    exact a.setStruct p f fun _ _ _ _ => by rw [(a.heap.cells p _ hR hlp).struct rfl]
  have stay : ∀ {s' t' : St}, Alike R ([] :: s.stack) s.stack.tail s' t' → s'.stack = s.stack → Abreast R false s' t' := fun a' h =>
    ⟨Between2.of a' (.mem h0) (fun y hy => .mem (hL y (h ▸ hy))) fun y hy _ => hK y (h ▸ hy), by simp⟩
  cases sh with
  | value ty => cases x <;> first | exact ⟨rfl, a.stack, a.log⟩ | simp [Token.opens] at hx
  | ignore =>
    have hstr := (a.heap.cells p _ hR hlp).struct rfl
    cases x with
    | mapKey k =>
      simp only [onF, bind_getC, ← hstr]
      match (s.heap p).struct with
      | true :: _ => exact ⟨rfl, keep (by simp)⟩
      | false :: _ => exact ⟨rfl, a.stack, a.log⟩
      | [] => exact ⟨rfl, a.stack, a.log⟩
    | mapEnd =>
      simp only [onF, bind_getC, ← hstr]
      match (s.heap p).struct with
      | true :: r =>
        simp only [bind_modC]
        have a1 := struct (fun _ => r) rfl
        split
        · exact Between2.abreast (endP_alike hw hb a1 hs h0 hL hK hR (by simp [Shape.isStorage]))
        · exact ⟨rfl, stay a1 rfl⟩
      | false :: _ => exact ⟨rfl, a.stack, a.log⟩
      | [] => exact ⟨rfl, a.stack, a.log⟩
    | arrEnd =>
      simp only [onF, bind_getC, ← hstr]
      match (s.heap p).struct with
      | false :: r =>
        simp only [bind_modC]
        have a1 := struct (fun _ => r) rfl
        split
        · exact Between2.abreast (endP_alike hw hb a1 hs h0 hL hK hR (by simp [Shape.isStorage]))
        · exact ⟨rfl, stay a1 rfl⟩
      | true :: _ => exact ⟨rfl, a.stack, a.log⟩
      | [] => exact ⟨rfl, a.stack, a.log⟩
    | _ => simp [Token.opens] at hx
  | object k u ms =>
    cases x with
    | mapKey key =>
      simp only [onF]
      have hm := onMember_alike (E := E) (u := u) (ms := ms) (x := .str key) a hs (o1.passed hR d1 (by simp)) (o2.passed hR d2 (by simp))
        (fun n sh hl => by obtain ⟨i, hi⟩ := lookup_mem hl; exact at_mem_object hR hi) (at_ign_object hR)
      refine Ends.bindG hm (fun _ _ h => ⟨h.1.stack, h.1.log⟩) fun r s1 t1 h1 _ a1 => ?_
      refine ⟨rfl, ?_⟩
      have hheap : ∀ q, (s1.heap q).started = (s.heap q).started := by
        intro q
        have := onMember_heap (E := E) h1
        rw [this, upd_apply]; split
        · rename_i h; subst h; rfl
        · rfl
      rcases a1.2 with h | ⟨st, h⟩
      · refine ⟨Between2.exp a1.1 (.mem h0) (fun y hy => .mem (hL y (List.mem_of_mem_tail (h ▸ hy)))) fun y hy _ => hK y (h ▸ hy), fun _ q r hq => ?_⟩
        rw [h, hs] at hq; injection hq with hq _; subst hq
        rw [hheap]; exact o1.not_started hR (by simp)
      · exact hchild a1.1 h (by simp) (hheap _)
    | mapEnd => exact hend (a.val hR hlp (by simp))
    | arrEnd => exact ⟨rfl, a.stack, a.log⟩
    | _ => simp [Token.opens] at hx
  | union ty tm b ms =>
    cases x with
    | mapKey key =>
      simp only [onF]
      split
      · exact ⟨rfl, a.stack, a.log⟩
      · split
        · exact ⟨rfl, a.stack, a.log⟩
        · exact ⟨rfl, keep (by simp)⟩
    | mapEnd => exact hend (a.val hR hlp (by simp))
    | arrEnd => exact ⟨rfl, a.stack, a.log⟩
    | _ => simp [Token.opens] at hx
  | map b e =>
    cases x with
    | mapKey key =>
      simp only [onF, setNotEmpty_def, bind_modC, bind_getC, upd_same, d1, d2, if_true, bind_push]
      refine ⟨rfl, ?_⟩
      have c : ∀ (h : Heap), ((h.upd p fun c => { c with empty := false }) (.elem :: p)).disp = (h (.elem :: p)).disp := fun h => by rw [upd_other (by simp)]
      have a1 := (a.notEmpty p).push (st := .elem) hs ⟨_, at_elem_map hR⟩ (by simpa only [c] using o1.passed hR d1 (by simp) _ ⟨_, at_elem_map hR⟩)
        (by simpa only [c] using o2.passed hR d2 (by simp) _ ⟨_, at_elem_map hR⟩)
      have a2 : Alike R ([] :: s.stack) s.stack.tail
          { s with heap := (s.heap.upd p fun c => { c with empty := false }).upd p fun c => { c with curKey := key }, stack := (.elem :: p) :: s.stack }
          { t with heap := (t.heap.upd p fun c => { c with empty := false }).upd p fun c => { c with curKey := key }, stack := (.elem :: p) :: t.stack } := by
        have dd : ∀ (h : Heap) q, ((h.upd p fun c => { c with curKey := key }) q).disp = (h q).disp := fun h q => by
          rw [upd_apply]; split
          · rename_i h; subst h; rfl
          · rfl
        refine ⟨a1.stack, a1.log, ?_, a1.tree, ?_, ?_, a1.nested, ?_⟩
        · refine a1.heap.upd p (fun c => { c with curKey := key }) (fun c => { c with curKey := key }) (a1.heap.started p) fun sh' hR' hl' => ?_
          have := a1.heap.cells p _ hR' hl'
          exact ⟨this.set, this.empty, this.val, this.cur, this.struct⟩
        · intro q hq; dsimp only; rw [dd]; exact a1.dispS q hq
        · intro q hq; dsimp only; rw [dd]; exact a1.dispT q hq
        · intro q hq hm
          by_cases h : q = p
          · subst h; simp
          · have := a1.keys q hq hm
            dsimp only at this ⊢
            simpa [upd_other h] using this
      exact hchild a2 rfl (by intros; simp) (by dsimp only; rw [upd_other (by simp), upd_other (by simp)])
    | mapEnd => exact hend (a.val hR hlp (by simp))
    | arrEnd => exact ⟨rfl, a.stack, a.log⟩
    | _ => simp [Token.opens] at hx
  | array b e =>
    cases x with
    | mapKey key => exact ⟨rfl, a.stack, a.log⟩
    | mapEnd => exact ⟨rfl, a.stack, a.log⟩
    | arrEnd =>
      simp only [onF, bind_modC]
      have a1 := a.upd (p := p) (f := fun c => { c with started := false }) (g := fun c => { c with started := false }) (fun _ => ⟨rfl, rfl⟩)
        (fun _ => ⟨rfl, rfl⟩) rfl fun sh' hR' hl' => by
          have := a.heap.cells p _ hR' hl'
          exact ⟨this.set, this.empty, this.val, this.cur, this.struct⟩
      refine Between2.abreast (endP_alike hw hb a1 hs h0 hL hK hR fun h => ?_)
      have := a.val hR hlp (by simp) h
      simpa using this
    | _ => simp [Token.opens] at hx


/-! ### Sequences of tokens -/

theorem ignore_live (hw : R.wf = true) {p rest} (hn : Stacked ChildOf (p :: rest)) (hR : R.at p = some .ignore) (hL : ∀ y ∈ rest, y ∈ L) : Live R L p := by
  cases rest with
  | nil =>
    obtain rfl : p = [] := hn
    simp [Shape.at] at hR; subst hR; simp [Shape.wf] at hw
  | cons q rest =>
    obtain ⟨st, rfl⟩ := hn.1
    refine Live.child (.mem (hL q (by simp))) fun b e h => ?_
    have h1 : (Shape.map b e).child st = some .ignore := by simpa [Shape.at, h] using hR
    cases st <;> simp [Shape.child] at h1
    subst h1
    rcases wf_at hw q _ h with h2 | h2
    · have := (wf_map h2).1; simp [Shape.wf] at this
    · simp at h2

theorem dispatch_alike (hw : R.wf = true) (hI : NoIgnoreElem R) (hb : Blind R E) {exp : Bool} {x : Token} (hx : exp = true → x.opens = true) {s t : St}
    (a : Abreast R exp s t) (o1 : Opened' R s) (o2 : Opened' R t) (hz : ¬ Hazard R x s) :
    Ends R (Abreast R x.isKey) (dispatch E R x s) (dispatch E R x t) := by
  have al : Alike R ([] :: if exp then s.stack.tail else s.stack) s.stack.tail s t := a.two
  match hs : s.stack with
  | [] =>
    have hs' : t.stack = [] := al.stack ▸ hs
    rw [dispatch_nil hs, dispatch_nil hs']
    exact ⟨rfl, al.stack, al.log⟩
  | p :: rest =>
    have hs' : t.stack = p :: rest := al.stack ▸ hs
    obtain ⟨sh, hR⟩ := al.tree p (by simp [hs])
    rw [dispatch_cons hs hR, dispatch_cons hs' hR]
    cases hop : x.opens with
    | false =>
      have : exp = false := by cases exp; rfl; rw [hx rfl] at hop; simp at hop
      subst this
      exact closes_alike hw hb hop a.two hs hR o1 o2
    | true =>
      have hk : x.isKey = false := by cases x <;> first | rfl | simp [Token.opens] at hop
      rw [hk]
      refine Between2.abreast ?_
      cases hst : (s.heap p).started with
      | true =>
        have : exp = false := by
          cases exp with
          | false => rfl
          | true => rw [a.idle rfl p rest hs] at hst; simp at hst
        subst this
        obtain ⟨st, e, hR'⟩ := o1.arr p hst
        rw [hR] at hR'; injection hR' with hR'; subst hR'
        exact elements_alike hw hI hb hop al hs hR hst (by simp) (fun y hy => by simp [hy]) (fun y hy => hy) o1 o2 hz
      | false =>
        have hL : ∀ y ∈ rest, y ∈ [] :: if exp then s.stack.tail else s.stack := by
          intro y hy
          cases exp <;> simp [hs, hy]
        refine opens_alike hw hb hop al hs hR hL (fun y hy => by simpa [hs] using hy) (by simp) hst ?_ (fun h => o1.passed hR (al.dispS p (by simp [hs])) h)
          (fun h => o2.passed hR (al.dispT p (by simp [hs])) h)
        rintro rfl
        exact ignore_live hw (hs ▸ al.nested) hR hL

theorem Sequenced.tail {exp x ts} (h : Sequenced exp (x :: ts)) : Sequenced x.isKey ts := by
  have := h.2
  cases x <;> exact this

theorem Ends.seen {r r' : Res Unit} {exp} (h : Ends R (Abreast R exp) r r') (hf : r ≠ .fuel) : SameRun R r r' := by
  cases r <;> cases r' <;> try exact h.elim
  · obtain ⟨_, h⟩ := h
    have al := h.two
    exact .ok al.stack al.log (snap_alike al.heap R [] rfl (.mem (by simp)))
  · obtain ⟨rfl, h1, h2⟩ := h; exact .throw h1 h2
  · exact .ub
  · exact absurd rfl hf

theorem run_alike (hw : R.wf = true) (hI : NoIgnoreElem R) (hb : Blind R E) : ∀ (ts : List Token) {exp : Bool} {s t : St}, Sequenced exp ts → Abreast R exp s t →
    Opened' R s → Opened' R t → ¬ Arrives E R (Hazard R) ts s → SameRun R (run E R ts s) (run E R ts t)
  | [], exp, s, t, _, a, _, _, _ => .ok a.two.stack a.two.log (snap_alike a.two.heap R [] rfl (.mem (by simp)))
  | x :: ts, exp, s, t, hq, a, o1, o2, hz => by
    have hzx : ¬ Hazard R x s := fun h => hz (.head h)
    have hzt : ¬ NullElement R x t := by
      rintro ⟨p, rest, st, e, h1, h2, h3, h4, h5⟩
      exact hzx (.inl ⟨p, rest, st, e, by rw [a.two.stack]; exact h1, h2, by rw [a.two.heap.started]; exact h3, h4, h5⟩)
    have h := dispatch_alike hw hI hb hq.1 a o1 o2 hzx
    have f1 := dispatch_open (E := E) hI o1 fun h => hzx (.inl h)
    have f2 := dispatch_open (E := E) hI o2 hzt
    rw [run_cons, run_cons, M.bind, M.bind]
    cases h1 : dispatch E R x s <;> cases h2 : dispatch E R x t <;> rw [h1, h2] at h <;> try exact h.elim
    · rw [h1] at f1; rw [h2] at f2
      exact run_alike hw hI hb ts hq.tail h.2 f1 f2 fun ha => hz (.cons h1 ha)
    · obtain ⟨rfl, g1, g2⟩ := h; exact .throw g1 g2
    · exact .ub
    · rw [h1] at f1; exact f1.elim

/-- Two parsers that expect a document. -/
theorem start_alike (hw : R.wf = true) (hI : NoIgnoreElem R) (hb : Blind R E) {s t : St} (hs : s.stack = [[]]) (ht : t.stack = [[]]) (i1 : ∀ q, (s.heap q).started = false)
    (i2 : ∀ q, (t.heap q).started = false) (hl : Log.cut R s.log = Log.cut R t.log) (o1 : Opened' R s) (o2 : Opened' R t) {ts : List Token} (hne : ts ≠ [])
    (hq : Sequenced true ts) (hz : ¬ Arrives E R (Hazard R) ts s) : SameRun R (run E R ts s) (run E R ts t) := by
  match ts, hne with
  | x :: ts, _ =>
    have al : Alike R [] [] s t := by
      refine ⟨hs.trans ht.symm, hl, ⟨fun q => by rw [i1, i2], fun q sh _ h => by obtain ⟨_, h, _⟩ := h; simp at h⟩, ?_, ?_, ?_, by rw [hs]; rfl, by simp⟩
      · intro p hp; exact (o1.op.ctl.valid p hp).1
      · intro p hp; exact (o1.op.ctl.valid p hp).2
      · intro p hp; exact (o2.op.ctl.valid p (by rw [ht]; rw [hs] at hp; exact hp)).2
    have hop := hq.1 rfl
    have hk : x.isKey = false := by cases x <;> first | rfl | simp [Token.opens] at hop
    have hu : R ≠ .ignore := by rintro rfl; simp [Shape.wf] at hw
    have h := opens_alike hw hb hop al hs (sh := R) rfl (by simp) (by simp) (by simp) (i1 _) (fun h => absurd h hu)
      (fun h => o1.passed rfl o1.op.ctl.root h) (fun h => o2.passed rfl o2.op.ctl.root h)
    have no : ∀ (u : St), (∀ q, (u.heap q).started = false) → ¬ NullElement R x u := by
      rintro u hi ⟨p, rest, st, e, _, _, h3, _⟩
      rw [hi p] at h3; simp at h3
    have f1 := dispatch_open (E := E) hI o1 (no s i1)
    have f2 := dispatch_open (E := E) hI o2 (no t i2)
    rw [← dispatch_cons hs rfl, ← dispatch_cons ht rfl] at h
    rw [run_cons, run_cons, M.bind, M.bind]
    cases h1 : dispatch E R x s <;> cases h2 : dispatch E R x t <;> rw [h1, h2] at h <;> try exact h.elim
    · rw [h1] at f1; rw [h2] at f2
      have hqt := hq.tail
      rw [hk] at hqt
      exact run_alike hw hI hb ts hqt ⟨h.2, by simp⟩ f1 f2 fun ha => hz (.cons h1 ha)
    · obtain ⟨rfl, g1, g2⟩ := h; exact .throw g1 g2
    · exact .ub
    · rw [h1] at f1; exact f1.elim

end SJ
