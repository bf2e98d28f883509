/-
Parser trees with the same schema accept the same documents (C72).
-/
import Verif.SpecSchema
import Verif.Proofs.Conform

set_option linter.unusedVariables false
set_option linter.unnecessarySimpa false

namespace SJ

section
variable {to back : Nat → Nat} {ms ms' : List (MInfo × Shape)}

theorem Matching.symm (h : Matching to back ms ms') : Matching back to ms' ms := ⟨h.from', h.into, h.right, h.left⟩

theorem getElem_some_lt {α} {l : List α} {n : Nat} {x : α} (h : l[n]? = some x) : n < l.length := by
  obtain ⟨hn, _⟩ := List.getElem?_eq_some_iff.1 h
  exact hn

/-- Each member has its counterpart. -/
theorem Matching.get (h : Matching to back ms ms') {n : Nat} {x : MInfo × Shape} (hx : ms[n]? = some x) : ∃ x', ms'[to n]? = some x' ∧ back (to n) = n := by
  have hn := getElem_some_lt hx
  exact ⟨ms'[to n]'(h.into n hn), List.getElem?_eq_getElem _, h.left n hn⟩

theorem Matching.counter (h : Matching to back ms ms') {n : Nat} {x' : MInfo × Shape} (hx : ms'[n]? = some x') : ∃ x, ms[back n]? = some x ∧ to (back n) = n :=
  h.symm.get hx
end

theorem SameSchema.symm {sh sh' : Shape} (h : SameSchema sh sh') : SameSchema sh' sh := by
  induction h with
  | value ty => exact .value ty
  | ignore => exact .ignore
  | @array st st' e e' elem values ih =>
    refine .array ih ?_
    rcases values with h | h
    · exact .inl h.symm
    · right; cases elem <;> first | rfl | simp [Shape.always] at h
  | map elem ih => exact .map ih
  | object to back mat names missing parsers ih =>
    refine .object back to mat.symm ?_ ?_ ?_
    · intro n i m i' m' h1 h2
      have e := mat.right n (getElem_some_lt h1)
      exact (names _ _ _ _ _ h2 (by rw [e]; exact h1)).symm
    · intro n i m i' m' h1 h2
      have e := mat.right n (getElem_some_lt h1)
      exact (missing _ _ _ _ _ h2 (by rw [e]; exact h1)).symm
    · intro n i m i' m' h1 h2
      have e := mat.right n (getElem_some_lt h1)
      exact ih _ _ _ _ _ h2 (by rw [e]; exact h1)
  | union to back mat names missing parsers ih =>
    refine .union back to mat.symm ?_ ?_ ?_
    · intro n i m i' m' h1 h2
      have e := mat.right n (getElem_some_lt h1)
      exact (names _ _ _ _ _ h2 (by rw [e]; exact h1)).symm
    · intro n i m i' m' h1 h2
      have e := mat.right n (getElem_some_lt h1)
      exact (missing _ _ _ _ _ h2 (by rw [e]; exact h1)).symm
    · intro n i m i' m' h1 h2
      have e := mat.right n (getElem_some_lt h1)
      exact ih _ _ _ _ _ h2 (by rw [e]; exact h1)

theorem filledFields_same {sh sh' : Shape} (h : SameSchema sh sh') (fs : List (String × Json)) : filledFields sh fs = filledFields sh' fs := by
  cases h <;> rfl

theorem filled_same {sh sh' : Shape} (h : SameSchema sh sh') (j : Json) : filled sh j = filled sh' j := by
  cases j with
  | obj fs => cases sh <;> cases sh' <;> first | exact filledFields_same h fs | (cases h)
  | null | sc | arr => simp only [filled]

theorem filledBy_same {i i' : MInfo} {m m' : Shape} (hn : i.name = i'.name) (h : SameSchema m m') (fs : List (String × Json)) :
    filledBy i m fs = filledBy i' m' fs := by
  unfold filledBy
  rw [← hn]
  cases i.name with
  | str k => simp only; cases lastField k fs with
    | none => rfl
    | some j => exact filled_same h j
  | _ => rfl

/-- Values and arrays accept nothing that leaves them without a value, but null. -/
theorem always_filled {e : Shape} {j : Json} (ha : e.always = true) (h : Conforms e j) (hn : j ≠ .null) : filled e j = true := by
  cases h with
  | null => exact absurd rfl hn
  | scalar => rfl
  | array => rfl
  | object own fields =>
    cases fields <;> first | rfl | (simp [Shape.always] at ha)

mutual
theorem conforms_same : ∀ {sh : Shape} {j : Json}, Conforms sh j → ∀ {sh' : Shape}, SameSchema sh sh' → Conforms sh' j
  | _, _, .null, sh', hs => .null
  | _, _, .scalar type, sh', hs => by cases hs; exact .scalar type
  | _, _, .array (stored := stored) (e := e) (l := l) elems values, sh', hs => by
    cases hs with
    | @array _ st' _ e' elem vals =>
      refine .array (fun j hj => conforms_same (elems j hj) elem) fun hst j hj hn => ?_
      rw [← filled_same elem]
      rcases vals with h | h
      · exact values (h.trans hst) j hj hn
      · exact always_filled h (elems j hj) hn
  | sh, _, .object own fields, sh', hs => by
    have h1 := fieldsConform_same fields hs
    refine .object (fun ty st ms he => ?_) h1
    subst he
    cases hs with
    | union => exact own _ _ _ rfl
theorem fieldsConform_same : ∀ {sh : Shape} {fs : List (String × Json)}, FieldsConform sh fs → ∀ {sh' : Shape}, SameSchema sh sh' → FieldsConform sh' fs
  | _, _, .object (kind := k) (unknownErr := u) (ms := ms) (fs := fs) known fields complete, sh', hs => by
    cases hs with
    | @object _ k' _ _ ms' to back mat names missing parsers =>
      refine .object (fun hu kv hkv => ?_) (fun kv hkv n' i' m' hnm => ?_) (fun hne x' hx' => ?_)
      · obtain ⟨n, i, m, h1, h2⟩ := known hu kv hkv
        obtain ⟨⟨i', m'⟩, h3, _⟩ := mat.get h1
        exact ⟨to n, i', m', h3, by rw [← names _ _ _ _ _ h1 h3]; exact h2⟩
      · obtain ⟨⟨i, m⟩, h3, h4⟩ := mat.counter hnm.here
        have hh : ms'[to (back n')]? = some (i', m') := by rw [h4]; exact hnm.here
        exact conforms_same (fields kv hkv (back n') i m ⟨h3, by rw [names _ _ _ _ _ h3 hh]; exact hnm.name⟩) (parsers _ _ _ _ _ h3 hh)
      · obtain ⟨n', hn'⟩ := List.getElem?_of_mem hx'
        obtain ⟨i', m'⟩ := x'
        obtain ⟨⟨i, m⟩, h3, h4⟩ := mat.counter hn'
        have hh : ms'[to (back n')]? = some (i', m') := by rw [h4]; exact hn'
        rw [← filledBy_same (names _ _ _ _ _ h3 hh) (parsers _ _ _ _ _ h3 hh), ← missing _ _ _ _ _ h3 hh]
        exact complete hne (i, m) (List.mem_of_getElem? h3)
  | _, _, .embedding (kind := k) (unknownErr := u) (ms := ms) (before := before) (key := key) (x := x) (after := after) (n := n) (i := i) (ty := ty) (stored := stored) (alts := alts)
      (a := a) (ai := ai) (alt := alt) known fields member type choice rest chosen complete, sh', hs => by
    cases hs with
    | @object _ k' _ _ ms' to back mat names missing parsers =>
      obtain ⟨⟨iu, mu⟩, hu1, _⟩ := mat.get member.here
      have hsu := parsers _ _ _ _ _ member.here hu1
      cases hsu with
      | @union _ _ _ st' _ alts' to2 back2 mat2 names2 missing2 parsers2 =>
        obtain ⟨⟨ai', alt'⟩, ha1, _⟩ := mat2.get choice.here
        have hsa := parsers2 _ _ _ _ _ choice.here ha1
        refine .embedding (n := to n) (i := iu) (a := to2 a) (ai := ai') (alt := alt') (fun hu kv hkv => ?_) (fun kv hkv n' i' m' hnm => ?_)
          ⟨hu1, by rw [← names _ _ _ _ _ member.here hu1]; exact member.name⟩ type ⟨ha1, by rw [← names2 _ _ _ _ _ choice.here ha1]; exact choice.name⟩
          (fieldsConform_same rest hsa) ?_ (fun n' y' hne hy' => ?_)
        · obtain ⟨n, i, m, h1, h2⟩ := known hu kv hkv
          obtain ⟨⟨i', m'⟩, h3, _⟩ := mat.get h1
          exact ⟨to n, i', m', h3, by rw [← names _ _ _ _ _ h1 h3]; exact h2⟩
        · obtain ⟨⟨i, m⟩, h3, h4⟩ := mat.counter hnm.here
          have hh : ms'[to (back n')]? = some (i', m') := by rw [h4]; exact hnm.here
          exact conforms_same (fields kv hkv (back n') i m ⟨h3, by rw [names _ _ _ _ _ h3 hh]; exact hnm.name⟩) (parsers _ _ _ _ _ h3 hh)
        · rw [← filledFields_same hsa, ← missing2 _ _ _ _ _ choice.here ha1]
          exact chosen
        · obtain ⟨i', m'⟩ := y'
          obtain ⟨⟨i, m⟩, h3, h4⟩ := mat.counter hy'
          have hh : ms'[to (back n')]? = some (i', m') := by rw [h4]; exact hy'
          rw [← filledBy_same (names _ _ _ _ _ h3 hh) (parsers _ _ _ _ _ h3 hh), ← missing _ _ _ _ _ h3 hh]
          exact complete (back n') (i, m) (fun e => hne (by rw [← e, h4])) h3
  | _, _, .map elems values, sh', hs => by
    cases hs with
    | @map st e e' elem =>
      exact .map (fun kv hkv => conforms_same (elems kv hkv) elem) fun hst kv hkv => by rw [← filled_same elem]; exact values hst kv hkv
  | _, _, .mapEmbedding (a := a) (ai := ai) (alt := alt) elems values type choice rest chosen, sh', hs => by
    cases hs with
    | @map st e e' elem =>
      have helem := elem
      cases elem with
      | @union _ _ _ st' _ alts' to2 back2 mat2 names2 missing2 parsers2 =>
        obtain ⟨⟨ai', alt'⟩, ha1, _⟩ := mat2.get choice.here
        have hsa := parsers2 _ _ _ _ _ choice.here ha1
        refine .mapEmbedding (a := to2 a) (ai := ai') (alt := alt') (fun kv hkv => conforms_same (elems kv hkv) helem)
          (fun hst kv hkv => by rw [← filled_same helem]; exact values hst kv hkv) type
          ⟨ha1, by rw [← names2 _ _ _ _ _ choice.here ha1]; exact choice.name⟩ (fieldsConform_same rest hsa) ?_
        rw [← filledFields_same hsa, ← missing2 _ _ _ _ _ choice.here ha1]
        exact chosen
  | _, _, .noType, sh', hs => by cases hs; exact .noType
  | _, _, .union (a := a) (ai := ai) (alt := alt) hasType type choice rest chosen, sh', hs => by
    cases hs with
    | @union _ _ _ st' _ alts' to2 back2 mat2 names2 missing2 parsers2 =>
      obtain ⟨⟨ai', alt'⟩, ha1, _⟩ := mat2.get choice.here
      have hsa := parsers2 _ _ _ _ _ choice.here ha1
      refine .union (a := to2 a) (ai := ai') (alt := alt') hasType type
        ⟨ha1, by rw [← names2 _ _ _ _ _ choice.here ha1]; exact choice.name⟩ (fieldsConform_same rest hsa) ?_
      rw [← filledFields_same hsa, ← missing2 _ _ _ _ _ choice.here ha1]
      exact chosen
end

theorem conforms_iff {sh sh' : Shape} (h : SameSchema sh sh') (j : Json) : Conforms sh j ↔ Conforms sh' j :=
  ⟨fun hc => conforms_same hc h, fun hc => conforms_same hc h.symm⟩

/-! ### The documents outside of the known defects are the same -/

theorem lookup_named {x : Scalar} {ms : List (MInfo × Shape)} {n m} (h : lookup x 0 ms = some (n, m)) : ∃ i, ms[n]? = some (i, m) ∧ i.name.cppEq x = true := by
  obtain ⟨i, _, h2, h3⟩ := lookup_get h
  exact ⟨i, by simpa using h2, h3⟩

section
variable {to back : Nat → Nat} {ms ms' : List (MInfo × Shape)}

theorem lookup_same (mat : Matching to back ms ms') (names : ∀ n i m i' m', ms[n]? = some (i, m) → ms'[to n]? = some (i', m') → i.name = i'.name)
    (parsers : ∀ n i m i' m', ms[n]? = some (i, m) → ms'[to n]? = some (i', m') → SameSchema m m') (hd : DistinctNames ms') {x : Scalar} {n : Nat} {m : Shape}
    (h : lookup x 0 ms = some (n, m)) : ∃ m', lookup x 0 ms' = some (to n, m') ∧ SameSchema m m' := by
  obtain ⟨i, hi, hx⟩ := lookup_named h
  obtain ⟨⟨i', m'⟩, h1, _⟩ := mat.get hi
  have hn : Named ms' x (to n) i' m' := ⟨h1, by rw [← names _ _ _ _ _ hi h1]; exact hx⟩
  exact ⟨m', Named.lookup hd hn, parsers _ _ _ _ _ hi h1⟩

theorem lookup_same_none (mat : Matching to back ms ms') (names : ∀ n i m i' m', ms[n]? = some (i, m) → ms'[to n]? = some (i', m') → i.name = i'.name)
    (hd : DistinctNames ms) {x : Scalar} (h : lookup x 0 ms = none) : lookup x 0 ms' = none := by
  cases h' : lookup x 0 ms' with
  | none => rfl
  | some a =>
    obtain ⟨n', m'⟩ := a
    obtain ⟨i', hi, hx⟩ := lookup_named h'
    obtain ⟨⟨i, m⟩, h1, h2⟩ := mat.counter hi
    have hn : Named ms x (back n') i m := ⟨h1, by rw [names _ _ _ _ _ h1 (by rw [h2]; exact hi)]; exact hx⟩
    rw [Named.lookup hd hn] at h
    simp at h
end

theorem isUser_same {m m' : Shape} (h : SameSchema m m') : m.isUser = m'.isUser := by cases h <;> rfl

theorem embedded_same_none {m m' : Shape} (h : SameSchema m m') {v : Json} (he : embedded m v = none) : embedded m' v = none := by
  cases h with
  | union =>
    cases v with
    | sc x => simp only [embedded] at he ⊢; split at he <;> simp_all
    | null | arr | obj => rfl
  | _ => exact he

theorem embedded_is {m : Shape} {v : Json} {z} (he : embedded m v = some z) : m = .union z.1 "" z.2.1 z.2.2.1 ∧ v = .sc z.2.2.2 ∧ z.2.2.2.ty = z.1 := by
  cases m with
  | union ty tm st ms =>
    cases v with
    | sc x =>
      simp only [embedded] at he
      split at he
      · rename_i hc
        injection he with he; subst he
        exact ⟨by rw [hc.1], rfl, hc.2⟩
      · simp at he
    | null | arr | obj => simp [embedded] at he
  | _ => simp [embedded] at he

mutual
theorem okVal_same : ∀ (j : Json) {sh sh' : Shape}, SoundTree sh → SoundTree sh' → SameSchema sh sh' → okVal sh j = true → okVal sh' j = true
  | .null, sh, sh', hg, hg', hs, h => by simp [okVal]
  | .sc x, sh, sh', hg, hg', hs, h => by cases hs <;> simpa only [okVal] using h
  | .arr l, sh, sh', hg, hg', hs, h => by
    cases hs with
    | array elem vals =>
      simp only [okVal] at h ⊢
      exact okElems_same l hg.arrayElem hg'.arrayElem elem h
    | _ => simpa only [okVal] using h
  | .obj fs, sh, sh', hg, hg', hs, h => by
    have h1 := okFields_same fs hg hg' hs
    cases hs with
    | object => simp only [okVal] at h ⊢; exact h1 h
    | map => simp only [okVal] at h ⊢; exact h1 h
    | union =>
      simp only [okVal] at h ⊢
      split
      · rfl
      · rename_i ht; rw [if_neg ht] at h; exact h1 h
    | _ => simpa only [okVal] using h
theorem okElems_same : ∀ (l : List Json) {e e' : Shape}, SoundTree e → SoundTree e' → SameSchema e e' → okElems e l = true → okElems e' l = true
  | [], e, e', hg, hg', hs, h => rfl
  | j :: l, e, e', hg, hg', hs, h => by
    simp only [okElems, Bool.and_eq_true] at h ⊢
    refine ⟨⟨⟨?_, by rw [← isUser_same hs]; exact h.1.1.2⟩, okVal_same j hg hg' hs h.1.2⟩, okElems_same l hg hg' hs h.2⟩
    have h0 := h.1.1.1
    cases hs <;> exact h0
theorem okFields_same : ∀ (fs : List (String × Json)) {sh sh' : Shape}, SoundTree sh → SoundTree sh' → SameSchema sh sh' → okFields sh fs = true → okFields sh' fs = true
  | [], sh, sh', hg, hg', hs, h => by simp [okFields]
  | (k, v) :: fs, sh, sh', hg, hg', hs, h => by
    have hs0 := hs
    cases hs with
    | value | ignore | array => simp [okFields]
    | @object kd kd' u ms ms' to back mat names missing parsers =>
      simp only [okFields] at h ⊢
      cases hl : lookup (.str k) 0 ms with
      | none =>
        rw [hl] at h
        rw [lookup_same_none mat names hg.objectNames hl]
        simp only at h ⊢
        cases u with
        | true => rfl
        | false =>
          simp only [Bool.false_eq_true, if_false, Bool.and_eq_true] at h ⊢
          exact ⟨h.1, okFields_same fs hg hg' hs0 h.2⟩
      | some a =>
        obtain ⟨n, m⟩ := a
        rw [hl] at h
        obtain ⟨m', hl', hm⟩ := lookup_same mat names parsers hg'.objectNames hl
        rw [hl']
        obtain ⟨i, hi⟩ := lookup_mem hl
        obtain ⟨i', hi'⟩ := lookup_mem hl'
        simp only at h ⊢
        cases he : embedded m v with
        | none =>
          rw [he] at h
          rw [embedded_same_none hm he]
          simp only [Bool.and_eq_true] at h ⊢
          exact ⟨⟨by rw [← isUser_same hm]; exact h.1.1, okVal_same v (hg.objectMember hi) (hg'.objectMember hi') hm h.1.2⟩, okFields_same fs hg hg' hs0 h.2⟩
        | some z =>
          obtain ⟨ty, st, alts, x⟩ := z
          obtain ⟨e1, e2, e3⟩ := embedded_is he
          simp only at e1 e2 e3
          subst e1 e2
          rw [he] at h
          cases hm with
          | @union _ _ _ st' _ alts' to2 back2 mat2 names2 missing2 parsers2 =>
            rw [embedded_union e3]
            simp only at h ⊢
            cases hx : lookup x 0 alts' with
            | none => rfl
            | some b =>
              obtain ⟨a', alt'⟩ := b
              cases hy : lookup x 0 alts with
              | none => rw [lookup_same_none mat2 names2 (hg.objectMember hi).unionNames hy] at hx; simp at hx
              | some b =>
                obtain ⟨a, alt⟩ := b
                rw [hy] at h
                obtain ⟨alt2, hz, hsa⟩ := lookup_same mat2 names2 parsers2 (hg'.objectMember hi').unionNames hy
                rw [hz] at hx
                injection hx with hx; injection hx with hx1 hx2; subst hx2
                obtain ⟨ia, hia⟩ := lookup_mem hy
                obtain ⟨ia', hia'⟩ := lookup_mem hz
                exact okFields_same fs ((hg.objectMember hi).unionMember hia) ((hg'.objectMember hi').unionMember hia') hsa h
    | @map st e e' elem =>
      simp only [okFields] at h ⊢
      cases he : embedded e v with
      | none =>
        rw [he] at h
        rw [embedded_same_none elem he]
        simp only [Bool.and_eq_true] at h ⊢
        exact ⟨⟨by rw [← isUser_same elem]; exact h.1.1, okVal_same v hg.mapElem hg'.mapElem elem h.1.2⟩, okFields_same fs hg hg' hs0 h.2⟩
      | some z =>
        obtain ⟨ty, st, alts, x⟩ := z
        obtain ⟨e1, e2, e3⟩ := embedded_is he
        simp only at e1 e2 e3
        subst e1 e2
        rw [he] at h
        cases elem with
        | @union _ _ _ st' _ alts' to2 back2 mat2 names2 missing2 parsers2 =>
          rw [embedded_union e3]
          simp only at h ⊢
          cases hx : lookup x 0 alts' with
          | none => rfl
          | some b =>
            obtain ⟨a', alt'⟩ := b
            cases hy : lookup x 0 alts with
            | none => rw [lookup_same_none mat2 names2 hg.mapElem.unionNames hy] at hx; simp at hx
            | some b =>
              obtain ⟨a, alt⟩ := b
              rw [hy] at h
              obtain ⟨alt2, hz, hsa⟩ := lookup_same mat2 names2 parsers2 hg'.mapElem.unionNames hy
              rw [hz] at hx
              injection hx with hx; injection hx with hx1 hx2; subst hx2
              obtain ⟨ia, hia⟩ := lookup_mem hy
              obtain ⟨ia', hia'⟩ := lookup_mem hz
              exact okFields_same fs (hg.mapElem.unionMember hia) (hg'.mapElem.unionMember hia') hsa h
    | @union ty tm st st' alts alts' to2 back2 mat2 names2 missing2 parsers2 =>
      simp only [okFields] at h ⊢
      split
      · rfl
      · rename_i ht
        rw [if_neg ht] at h
        split
        · rfl
        · rename_i hk
          rw [if_neg hk] at h
          cases v with
          | null | arr | obj => exact h
          | sc x =>
            simp only at h ⊢
            split
            · rename_i hty
              rw [if_pos hty] at h
              cases hx : lookup x 0 alts' with
              | none => rfl
              | some b =>
                obtain ⟨a', alt'⟩ := b
                cases hy : lookup x 0 alts with
                | none => rw [lookup_same_none mat2 names2 hg.unionNames hy] at hx; simp at hx
                | some b =>
                  obtain ⟨a, alt⟩ := b
                  rw [hy] at h
                  obtain ⟨alt2, hz, hsa⟩ := lookup_same mat2 names2 parsers2 hg'.unionNames hy
                  rw [hz] at hx
                  injection hx with hx; injection hx with hx1 hx2; subst hx2
                  obtain ⟨ia, hia⟩ := lookup_mem hy
                  obtain ⟨ia', hia'⟩ := lookup_mem hz
                  exact okFields_same fs (hg.unionMember hia) (hg'.unionMember hia') hsa h
            · rfl
end

/-! ### An equivalence -/

theorem Matching.refl (ms : List (MInfo × Shape)) : Matching id id ms ms := ⟨fun _ h => h, fun _ h => h, fun _ _ => rfl, fun _ _ => rfl⟩

mutual
theorem SameSchema.refl : ∀ sh : Shape, SameSchema sh sh
  | .value ty => .value ty
  | .ignore => .ignore
  | .array st e => .array (SameSchema.refl e) (.inl rfl)
  | .map st e => .map (SameSchema.refl e)
  | .object k u ms => .object id id (.refl ms) (fun n i m i' m' h h' => by rw [id, h] at h'; cases h'; rfl) (fun n i m i' m' h h' => by rw [id, h] at h'; cases h'; rfl)
      (fun n i m i' m' h h' => by rw [id, h] at h'; cases h'; exact SameSchema.refls ms n i m h)
  | .union ty tm st ms => .union id id (.refl ms) (fun n i m i' m' h h' => by rw [id, h] at h'; cases h'; rfl) (fun n i m i' m' h h' => by rw [id, h] at h'; cases h'; rfl)
      (fun n i m i' m' h h' => by rw [id, h] at h'; cases h'; exact SameSchema.refls ms n i m h)
theorem SameSchema.refls : ∀ (ms : List (MInfo × Shape)) (n : Nat) (i : MInfo) (m : Shape), ms[n]? = some (i, m) → SameSchema m m
  | [], n, i, m, h => by simp at h
  | (i', m') :: ms, 0, i, m, h => by simp at h; obtain ⟨rfl, rfl⟩ := h; exact SameSchema.refl m'
  | x :: ms, n + 1, i, m, h => by
    cases x with
    | mk i' m' => exact SameSchema.refls ms n i m (by simpa using h)
end

theorem Matching.trans {to back to' back' : Nat → Nat} {ms ms' ms'' : List (MInfo × Shape)} (h : Matching to back ms ms') (h' : Matching to' back' ms' ms'') :
    Matching (fun n => to' (to n)) (fun n => back (back' n)) ms ms'' :=
  ⟨fun n hn => h'.into _ (h.into n hn), fun n hn => h.from' _ (h'.from' n hn),
   fun n hn => by rw [h'.left _ (h.into n hn), h.left n hn], fun n hn => by rw [h.right _ (h'.from' n hn), h'.right n hn]⟩

theorem always_same {e e' : Shape} (h : SameSchema e e') : e.always = e'.always := by cases h <;> rfl

theorem SameSchema.trans {a b : Shape} (h : SameSchema a b) : ∀ {c : Shape}, SameSchema b c → SameSchema a c := by
  induction h with
  | value ty => exact fun h => h
  | ignore => exact fun h => h
  | array elem values ih =>
    intro c h
    cases h with
    | array elem' values' =>
      refine .array (ih elem') ?_
      rcases values with rfl | hv
      · rcases values' with rfl | hv'
        · exact .inl rfl
        · exact .inr (by rw [always_same elem]; exact hv')
      · exact .inr hv
  | map elem ih => intro c h; cases h with | map elem' => exact .map (ih elem')
  | object to back mat names missing parsers ih =>
    intro c h
    cases h with
    | object to' back' mat' names' missing' parsers' =>
      refine .object _ _ (mat.trans mat') ?_ ?_ ?_ <;>
      · intro n i m i'' m'' h h''
        obtain ⟨⟨i', m'⟩, h', _⟩ := mat.get h
        first
          | exact (names n i m i' m' h h').trans (names' _ i' m' i'' m'' h' h'')
          | exact (missing n i m i' m' h h').trans (missing' _ i' m' i'' m'' h' h'')
          | exact ih n i m i' m' h h' (parsers' _ i' m' i'' m'' h' h'')
  | union to back mat names missing parsers ih =>
    intro c h
    cases h with
    | union to' back' mat' names' missing' parsers' =>
      refine .union _ _ (mat.trans mat') ?_ ?_ ?_ <;>
      · intro n i m i'' m'' h h''
        obtain ⟨⟨i', m'⟩, h', _⟩ := mat.get h
        first
          | exact (names n i m i' m' h h').trans (names' _ i' m' i'' m'' h' h'')
          | exact (missing n i m i' m' h h').trans (missing' _ i' m' i'' m'' h' h'')
          | exact ih n i m i' m' h h' (parsers' _ i' m' i'' m'' h' h'')

end SJ
