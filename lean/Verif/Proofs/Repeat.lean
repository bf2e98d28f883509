/-
Repeated fields that make no difference can be left out (C70).
-/
import Verif.SpecRepeat
import Verif.Proofs.SpecFacts
import Verif.Proofs.Order
import Verif.Proofs.Typing

set_option linter.unusedVariables false

namespace SJ

variable {fmt : Dbl → String}

theorem denElems_nonnull {st : Bool} {e : Shape} {j : Json} {l : List Json} (h : j ≠ .null) : denElems fmt st e (j :: l) = (do
    let d ← denote fmt e j
    if st then
      match d.value? with
      | some v => do return v :: (← denElems fmt st e l)
      | none => .error notSet
    else denElems fmt st e l) := by
  cases j <;> first | exact absurd rfl h | rfl

theorem denFields_object_ents {kd u ms slots ents b} {fs : List (String × Json)} :
    denFields fmt (.object kd u ms) slots ents b fs = denFields fmt (.object kd u ms) slots [] b fs := by
  cases fs <;> simp only [denFields]

theorem denFields_map_slots {st e slots ents b} {fs : List (String × Json)} :
    denFields fmt (.map st e) slots ents b fs = denFields fmt (.map st e) [] ents true fs := by
  cases fs <;> simp only [denFields]

theorem mapInsert_there {k : String} {v : Val} : ∀ {l : List (String × Val)}, SortedKeys l → (∃ w, (k, w) ∈ l) → mapInsert k v l = l
  | [], _, ⟨w, hw⟩ => by simp at hw
  | (k', v') :: r, hs, ⟨w, hw⟩ => by
    simp only [SortedKeys, List.pairwise_cons] at hs
    simp only [mapInsert]
    rcases List.mem_cons.1 hw with h | h
    · injection h with h1 h2
      subst h1
      rw [if_neg (String.lt_irrefl k), if_pos rfl]
    · have hlt : k' < k := hs.1 _ h
      rw [if_neg (String.lt_asymm hlt), if_neg (fun e => String.lt_irrefl k (by rw [e] at hlt ⊢; exact hlt)), mapInsert_there hs.2 ⟨w, h⟩]

theorem mapInsert_mem {k : String} {v : Val} : ∀ {l : List (String × Val)} {x : String}, (x = k ∨ ∃ w, (x, w) ∈ l) → ∃ w, (x, w) ∈ mapInsert k v l
  | [], x, h => by
    rcases h with rfl | ⟨w, h⟩
    · exact ⟨v, by simp [mapInsert]⟩
    · simp at h
  | (k', v') :: r, x, h => by
    simp only [mapInsert]
    split
    · rcases h with rfl | ⟨w, h⟩
      · exact ⟨v, by simp⟩
      · exact ⟨w, List.mem_cons_of_mem _ h⟩
    · split
      · rename_i h2
        subst h2
        rcases h with rfl | h
        · exact ⟨v', by simp⟩
        · exact h
      · rcases h with rfl | ⟨w, h⟩
        · obtain ⟨w, hw⟩ := mapInsert_mem (k := x) (v := v) (l := r) (.inl rfl)
          exact ⟨w, List.mem_cons_of_mem _ hw⟩
        · rcases List.mem_cons.1 h with h | h
          · injection h with h1 h2
            subst h1
            exact ⟨v', by simp⟩
          · obtain ⟨w, hw⟩ := mapInsert_mem (k := k) (v := v) (l := r) (.inr ⟨w, h⟩)
            exact ⟨w, List.mem_cons_of_mem _ hw⟩

/-- What a member held before does not matter if it has a field later. -/
theorem denFields_again {kd u ms} {n : Nat} : ∀ (fs : List (String × Json)), again ms n fs = true → ∀ (slots : List D) (d : D) (ents : List (String × Val)) (b b' : Bool),
    denFields fmt (.object kd u ms) (slots.set n d) ents b fs = denFields fmt (.object kd u ms) slots ents b' fs
  | [], h, slots, d, ents, b, b' => by simp [again] at h
  | (k, v) :: fs, h, slots, d, ents, b, b' => by
    simp only [again] at h
    cases hl : lookup (.str k) 0 ms with
    | none =>
      rw [hl] at h
      have ih := fun ents => denFields_again (kd := kd) (u := u) fs h slots d ents true true
      simp only [denFields, hl, ih]
    | some a =>
      obtain ⟨n', m⟩ := a
      rw [hl] at h
      simp only [Bool.or_eq_true, beq_iff_eq, Bool.and_eq_true] at h
      by_cases hn : n' = n
      · subst hn
        simp only [denFields, hl, List.set_set]
      · obtain ⟨he, h⟩ := h.resolve_left hn
        rw [Option.isNone_iff_eq_none] at he
        simp only [denFields, hl, he]
        congr 1
        funext x
        rw [List.set_comm _ _ (Ne.symm hn)]
        exact denFields_again fs h _ d [] true true

/-- The keys were there: they have entries. -/
def KeysIn : Shape → List String → List (String × Val) → Prop
  | .map true _, keys, ents => SortedKeys ents ∧ ∀ k ∈ keys, ∃ v, (k, v) ∈ ents
  | _, _, _ => True

theorem KeysIn.nil (sh : Shape) : KeysIn sh [] [] := by
  match sh with
  | .map true _ => exact ⟨by simp [SortedKeys], by simp⟩
  | .map false _ | .value _ | .ignore | .object _ _ _ | .union _ _ _ _ | .array _ _ => trivial

theorem KeysIn.object {kd u ms keys ents} : KeysIn (.object kd u ms) keys ents := trivial

theorem KeysIn.store {st : Bool} {e : Shape} {keys k d ents ents'} (h : KeysIn (.map st e) keys ents) (hs : storeEntry st k d ents = .ok ents') :
    KeysIn (.map st e) (k :: keys) ents' := by
  cases st with
  | false => trivial
  | true =>
    simp only [storeEntry, if_true] at hs
    cases hv : d.value? with
    | none => rw [hv] at hs; simp at hs
    | some v =>
      rw [hv] at hs
      injection hs with hs; subst hs
      refine ⟨mapInsert_sorted h.1, fun x hx => mapInsert_mem ?_⟩
      rcases List.mem_cons.1 hx with rfl | hx
      · exact .inl rfl
      · exact .inr (h.2 x hx)

theorem FewerRepeats.null {e : Shape} {j : Json} (h : FewerRepeats e .null j) : j = .null := by cases h; rfl
theorem FewerRepeats.null' {e : Shape} {j : Json} (h : FewerRepeats e j .null) : j = .null := by cases h; rfl

theorem FewerRepeats.embedded {e : Shape} {v v' : Json} (h : FewerRepeats e v v') (he : embedded e v = none) : SJ.embedded e v' = none := by
  cases h with
  | same => exact he
  | array st h => rfl
  | object h => cases e <;> rfl

mutual
theorem denote_fewer : ∀ {sh : Shape} {j j' : Json}, FewerRepeats sh j j' → ∀ {d : D}, denote fmt sh j = .ok d → denote fmt sh j' = .ok d
  | _, _, _, .same sh j, d, h => h
  | _, _, _, .array st h, d, hd => by
    simp only [denote] at hd ⊢
    rename_i e l l'
    cases hl : denElems fmt st e l with
    | error e => rw [hl] at hd; simp [Except.map] at hd
    | ok vs => rw [hl] at hd; rw [denElems_fewer h hl]; exact hd
  | sh, _, _, .object h, d, hd => by
    have h1 := fun hd => denFields_fewer h (slots := noSlots sh) (ents := []) (b := false) (d := d) (KeysIn.nil sh) hd
    cases sh with
    | object k u ms => simp only [denote] at hd ⊢; exact h1 hd
    | map st e => simp only [denote] at hd ⊢; exact h1 hd
    | union ty tm st ms =>
      simp only [denote] at hd ⊢
      split at hd
      · simp at hd
      · rename_i ht; rw [if_neg ht]; exact h1 hd
    | value ty => simp [denote] at hd
    | array st e => simp [denote] at hd
    | ignore => simpa only [denote] using hd
theorem denElems_fewer : ∀ {e : Shape} {l l' : List Json}, ElemsFewer e l l' → ∀ {st : Bool} {vs : List Val}, denElems fmt st e l = .ok vs → denElems fmt st e l' = .ok vs
  | _, _, _, .nil e, st, vs, h => h
  | e, _, _, .cons (j := j) (j' := j') (l := l) (l' := l') h h', st, vs, hd => by
    have h1 := fun d => denote_fewer h (d := d)
    have h2 := fun vs => denElems_fewer h' (st := st) (vs := vs)
    by_cases hn : j = .null
    · subst hn
      have := h.null; subst this
      simp only [denElems] at hd ⊢
      exact h2 _ hd
    · have hn' : j' ≠ .null := fun e => hn (by subst e; exact h.null')
      rw [denElems_nonnull hn] at hd
      rw [denElems_nonnull hn']
      obtain ⟨d, ha, hb⟩ := except_bind_ok hd
      rw [h1 d ha]
      show (if st then _ else _) = _
      cases st with
      | false => simp only [Bool.false_eq_true, if_false] at hb ⊢; exact h2 _ hb
      | true =>
        simp only [if_true] at hb ⊢
        cases hv : d.value? with
        | none => rw [hv] at hb; simp at hb
        | some v =>
          rw [hv] at hb
          simp only at hb ⊢
          obtain ⟨ws, hc, hd⟩ := except_bind_ok hb
          rw [h2 ws hc]
          exact hd
theorem denFields_fewer : ∀ {sh : Shape} {keys : List String} {fs fs' : List (String × Json)}, FieldsFewer sh keys fs fs' →
    ∀ {slots : List D} {ents : List (String × Val)} {b : Bool} {d : D}, KeysIn sh keys ents →
    denFields fmt sh slots ents b fs = .ok d → denFields fmt sh slots ents b fs' = .ok d
  | _, _, _, _, .same sh keys fs, slots, ents, b, d, hk, hd => hd
  | _, _, _, _, .member (n := n) (m := m) hl he h h', slots, ents, b, d, hk, hd => by
    have he' := h.embedded he
    simp only [denFields, hl, he, he'] at hd ⊢
    obtain ⟨x, ha, hb⟩ := except_bind_ok hd
    rw [denote_fewer h ha]
    exact denFields_fewer h' .object hb
  | _, _, _, _, .overridden (n := n) (fs := fs) hl he hg h, slots, ents, b, d, hk, hd => by
    simp only [denFields, hl, he] at hd
    obtain ⟨x, ha, hb⟩ := except_bind_ok hd
    rw [denFields_again fs hg slots x [] true b] at hb
    have := denFields_fewer h (.object) hb
    rwa [denFields_object_ents] at this ⊢
  | _, _, _, _, .embedded (n := n) (a := a) (m := m) hl hx h, slots, ents, b, d, hk, hd => by
    simp only [denFields, hl, embedded, and_self, if_true, selectAlt, hx] at hd ⊢
    obtain ⟨y, ha, hb⟩ := except_bind_ok hd
    injection ha with ha; subst ha
    obtain ⟨z, hc, hd⟩ := except_bind_ok hb
    show (denFields fmt m (noSlots m) [] false _ >>= _) = _
    rw [denFields_fewer h (KeysIn.nil m) hc]
    exact hd
  | _, _, _, _, .other hl h, slots, ents, b, d, hk, hd => by
    simp only [denFields, hl, Bool.false_eq_true, if_false] at hd ⊢
    exact denFields_fewer h .object hd
  | _, _, _, _, .entry he h h', slots, ents, b, d, hk, hd => by
    have he' := h.embedded he
    simp only [denFields, he, he'] at hd ⊢
    obtain ⟨x, ha, hb⟩ := except_bind_ok hd
    obtain ⟨ents', hc, hd⟩ := except_bind_ok hb
    rw [denote_fewer h ha]
    show (storeEntry _ _ x ents >>= _) = _
    rw [hc]
    exact denFields_fewer h' (hk.store hc) hd
  | _, _, _, _, .repeated (k := k) he hm h, slots, ents, b, d, hk, hd => by
    simp only [denFields, he] at hd
    obtain ⟨x, ha, hb⟩ := except_bind_ok hd
    obtain ⟨ents', hc, hd⟩ := except_bind_ok hb
    simp only [storeEntry, if_true] at hc
    cases hv : x.value? with
    | none => rw [hv] at hc; simp at hc
    | some v =>
      rw [hv] at hc
      injection hc with hc
      rw [mapInsert_there hk.1 (hk.2 k hm)] at hc
      subst hc
      have := denFields_fewer h hk hd
      rwa [denFields_map_slots] at this ⊢
  | _, _, _, _, .embeddedEntry (a := a) (m := m) hx h, slots, ents, b, d, hk, hd => by
    simp only [denFields, embedded, and_self, if_true, selectAlt, hx] at hd ⊢
    obtain ⟨y, ha, hb⟩ := except_bind_ok hd
    injection ha with ha; subst ha
    obtain ⟨z, hc, hd⟩ := except_bind_ok hb
    show (denFields fmt m (noSlots m) [] false _ >>= _) = _
    rw [denFields_fewer h (KeysIn.nil m) hc]
    exact hd
  | _, _, _, _, .type (tm := tm) (a := a) (m := m) hx h, slots, ents, b, d, hk, hd => by
    by_cases ht : tm = ""
    · simp [denFields, ht] at hd
    · simp only [denFields, if_neg ht, ne_eq, not_true, if_false, if_true, selectAlt, hx] at hd ⊢
      obtain ⟨y, ha, hb⟩ := except_bind_ok hd
      injection ha with ha; subst ha
      obtain ⟨z, hc, hd⟩ := except_bind_ok hb
      show (denFields fmt m (noSlots m) [] false _ >>= _) = _
      rw [denFields_fewer h (KeysIn.nil m) hc]
      exact hd
end

mutual
theorem okVal_fewer : ∀ {sh : Shape} {j j' : Json}, FewerRepeats sh j j' → okVal sh j = true → okVal sh j' = true
  | _, _, _, .same sh j, h => h
  | _, _, _, .array st h, hd => by
    simp only [okVal] at hd ⊢
    exact okElems_fewer h hd
  | sh, _, _, .object h, hd => by
    have h1 := okFields_fewer h
    cases sh with
    | object k u ms => simp only [okVal] at hd ⊢; exact h1 hd
    | map st e => simp only [okVal] at hd ⊢; exact h1 hd
    | union ty tm st ms =>
      simp only [okVal] at hd ⊢
      split at hd
      · rename_i ht; simp [ht]
      · rename_i ht; rw [if_neg ht]; exact h1 hd
    | value ty => simp [okVal]
    | array st e => simp [okVal]
    | ignore => cases h with | same => exact hd
theorem okElems_fewer : ∀ {e : Shape} {l l' : List Json}, ElemsFewer e l l' → okElems e l = true → okElems e l' = true
  | _, _, _, .nil e, h => h
  | e, _, _, .cons (j := j) (j' := j') (l := l) (l' := l') h h', hd => by
    have h1 := okVal_fewer h
    have h2 := okElems_fewer h'
    simp only [okElems, Bool.and_eq_true] at hd ⊢
    refine ⟨⟨⟨?_, hd.1.1.2⟩, h1 hd.1.2⟩, h2 hd.2⟩
    by_cases hn : j = .null
    · subst hn
      have := h.null; subst this
      exact hd.1.1.1
    · have hn' : j' ≠ .null := fun e => hn (by subst e; exact h.null')
      cases j' <;> first | exact absurd rfl hn' | rfl
theorem okFields_fewer : ∀ {sh : Shape} {keys : List String} {fs fs' : List (String × Json)}, FieldsFewer sh keys fs fs' → okFields sh fs = true → okFields sh fs' = true
  | _, _, _, _, .same sh keys fs, hd => hd
  | _, _, _, _, .member hl he h h', hd => by
    have he' := h.embedded he
    simp only [okFields, hl, he, he', Bool.and_eq_true] at hd ⊢
    exact ⟨⟨hd.1.1, okVal_fewer h hd.1.2⟩, okFields_fewer h' hd.2⟩
  | _, _, _, _, .overridden hl he hg h, hd => by
    simp only [okFields, hl, he, Bool.and_eq_true] at hd
    exact okFields_fewer h hd.2
  | _, _, _, _, .embedded hl hx h, hd => by
    simp only [okFields, hl, embedded, and_self, if_true, hx] at hd ⊢
    exact okFields_fewer h hd
  | _, _, _, _, .other hl h, hd => by
    simp only [okFields, hl, Bool.false_eq_true, if_false, Bool.and_eq_true] at hd ⊢
    exact ⟨hd.1, okFields_fewer h hd.2⟩
  | _, _, _, _, .entry he h h', hd => by
    have he' := h.embedded he
    simp only [okFields, he, he', Bool.and_eq_true] at hd ⊢
    exact ⟨⟨hd.1.1, okVal_fewer h hd.1.2⟩, okFields_fewer h' hd.2⟩
  | _, _, _, _, .repeated he hm h, hd => by
    simp only [okFields, he, Bool.and_eq_true] at hd
    exact okFields_fewer h hd.2
  | _, _, _, _, .embeddedEntry hx h, hd => by
    simp only [okFields, embedded, and_self, if_true, hx] at hd ⊢
    exact okFields_fewer h hd
  | _, _, _, _, .type (tm := tm) hx h, hd => by
    by_cases ht : tm = ""
    · simp [okFields, ht]
    · simp only [okFields, if_neg ht, ne_eq, not_true, if_false, if_true, hx] at hd ⊢
      exact okFields_fewer h hd
end

end SJ
