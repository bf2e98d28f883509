/-
Reordering the fields of objects anywhere in a document does not change what a parser makes of it.
-/
import Verif.SpecOrder
import Verif.Proofs.SpecFacts
import Verif.Proofs.Round

set_option linter.unusedVariables false
set_option linter.unusedSimpArgs false

namespace SJ

variable {fmt : Dbl → String} {fixed : List String}

theorem mapInsert_comm {a b : String} {v w : Val} (h : a ≠ b) : ∀ (l : List (String × Val)),
    mapInsert a v (mapInsert b w l) = mapInsert b w (mapInsert a v l)
  | [] => by
    simp only [mapInsert, h, h.symm, if_false]
    by_cases h1 : a < b
    · have h2 : ¬ b < a := fun h2 => String.lt_irrefl a (String.lt_trans h1 h2)
      simp [h1, h2]
    · have h2 := string_lt_of h1 h
      simp [h1, h2]
  | (k0, v0) :: l => by
    have ih := mapInsert_comm (v := v) (w := w) h l
    have asym : ∀ {x y : String}, x < y → ¬ y < x := fun h1 h2 => String.lt_irrefl _ (String.lt_trans h1 h2)
    have irr : ∀ x : String, ¬ x < x := String.lt_irrefl
    rcases Std.lt_trichotomy a k0 with ha | ha | ha <;> rcases Std.lt_trichotomy b k0 with hb | hb | hb
    · rcases Std.lt_trichotomy a b with hab | hab | hab
      · simp [mapInsert, ha, hb, hab, asym hab, h, h.symm]
      · exact absurd hab h
      · simp [mapInsert, ha, hb, hab, asym hab, h, h.symm]
    · subst hb
      simp [mapInsert, ha, asym ha, h, h.symm, irr]
    · have e1 : b ≠ k0 := fun e => by subst e; exact irr _ hb
      have hab := String.lt_trans ha hb
      simp [mapInsert, ha, asym hb, e1, h.symm, asym hab]
    · subst ha
      simp [mapInsert, hb, asym hb, h, h.symm, irr]
    · exact absurd (ha.trans hb.symm) h
    · subst ha
      simp [mapInsert, asym hb, h, h.symm, irr]
    · have e1 : a ≠ k0 := fun e => by subst e; exact irr _ ha
      have hab := String.lt_trans hb ha
      simp [mapInsert, hb, asym ha, e1, h, asym hab]
    · subst hb
      simp [mapInsert, asym ha, h, h.symm, irr]
    · have e1 : a ≠ k0 := fun e => by subst e; exact irr _ ha
      have e2 : b ≠ k0 := fun e => by subst e; exact irr _ hb
      simp [mapInsert, asym ha, asym hb, e1, e2, ih]

theorem noNullL_append : ∀ {a b : List Json}, noNullL (a ++ b) = (noNullL a && noNullL b)
  | [], b => by simp [noNullL]
  | j :: a, b => by simp [noNullL, noNullL_append (a := a), Bool.and_assoc]

theorem noNullF_append : ∀ {a b : List (String × Json)}, noNullF (a ++ b) = (noNullF a && noNullF b)
  | [], b => by simp [noNullF]
  | (k, j) :: a, b => by simp [noNullF, noNullF_append (a := a), Bool.and_assoc]

theorem Reordered.noNull {j j' : Json} (h : Reordered fixed j j') : j.noNull = j'.noNull := by
  induction h with
  | refl => rfl
  | trans _ _ i1 i2 => exact i1.trans i2
  | swap => simp only [Json.noNull, noNullF_append, noNullF]; congr 1; rw [← Bool.and_assoc, ← Bool.and_assoc]; congr 1; exact Bool.and_comm _ _
  | elem _ ih => simp only [Json.noNull, noNullL_append, noNullL, ih]
  | field _ ih => simp only [Json.noNull, noNullF_append, noNullF, ih]

/-- Nothing but containers can be reordered. -/
theorem Reordered.null {j j' : Json} (h : Reordered fixed j j') : (j = .null ↔ j' = .null) ∧ (∀ x, j = .sc x ↔ j' = .sc x) ∧
    ((∃ l, j = .arr l) ↔ ∃ l, j' = .arr l) := by
  induction h with
  | refl => simp
  | trans _ _ i1 i2 => exact ⟨i1.1.trans i2.1, fun x => (i1.2.1 x).trans (i2.2.1 x), i1.2.2.trans i2.2.2⟩
  | swap => simp
  | elem _ ih => simp
  | field _ ih => simp

/-- The parser makes the same of both values. -/
def Same (fmt : Dbl → String) (sh : Shape) (j j' : Json) : Prop :=
  ∀ d, okVal sh j = true → denote fmt sh j = .ok d → okVal sh j' = true ∧ denote fmt sh j' = .ok d

/-- What is required of a tree. -/
def Fit (fixed : List String) (sh : Shape) : Prop := sh.plainMaps = true ∧ ∀ k ∈ sh.typeNames, k ∈ fixed

/-- The parser makes the same of both lists of fields. -/
def SameFields (fmt : Dbl → String) (fixed : List String) (fs fs' : List (String × Json)) : Prop :=
  ∀ sh slots ents ne d, Fit fixed sh → okFields sh fs = true → denFields fmt sh slots ents ne fs = .ok d →
    okFields sh fs' = true ∧ denFields fmt sh slots ents ne fs' = .ok d

theorem typeNamesMs_mem {b} : ∀ {ms : List (MInfo × Shape)} {n : Nat} {i sh}, ms[n]? = some (i, sh) →
    (∀ k ∈ sh.typeNames, k ∈ typeNamesMs b ms) ∧ (b = true → sh.isEmbedded = true → i.key ∈ typeNamesMs b ms)
  | [], n, i, sh, h => by simp at h
  | x :: ms, 0, i, sh, h => by
    simp at h; subst h
    unfold typeNamesMs
    refine ⟨fun k hk => by simp [hk], fun hb he => by simp [hb, he]⟩
  | (i', sh') :: ms, n + 1, i, sh, h => by
    have := typeNamesMs_mem (b := b) (ms := ms) (n := n) (by simpa using h)
    unfold typeNamesMs
    exact ⟨fun k hk => by simp [this.1 k hk], fun hb he => by simp [this.2 hb he]⟩

theorem plainMapsMs_mem : ∀ {ms : List (MInfo × Shape)} {n : Nat} {i sh}, plainMapsMs ms = true → ms[n]? = some (i, sh) → sh.plainMaps = true
  | [], n, i, sh, _, h => by simp at h
  | x :: ms, 0, i, sh, hp, h => by
    simp at h; subst h
    unfold plainMapsMs at hp; simp at hp; exact hp.1
  | (i', sh') :: ms, n + 1, i, sh, hp, h => by
    unfold plainMapsMs at hp; simp at hp
    exact plainMapsMs_mem (n := n) hp.2 (by simpa using h)

theorem Fit.member {k u ms} {n : Nat} {i sh} (h : Fit fixed (.object k u ms)) (hm : ms[n]? = some (i, sh)) :
    Fit fixed sh ∧ (sh.isEmbedded = true → i.key ∈ fixed) := by
  obtain ⟨h1, h2⟩ := h
  unfold Shape.plainMaps at h1
  have h3 := typeNamesMs_mem (b := true) hm
  exact ⟨⟨plainMapsMs_mem h1 hm, fun k hk => h2 k (by unfold Shape.typeNames; exact h3.1 k hk)⟩,
    fun he => h2 _ (by unfold Shape.typeNames; exact h3.2 rfl he)⟩

theorem Fit.alt {ty tm st ms} {n : Nat} {i sh} (h : Fit fixed (.union ty tm st ms)) (hm : ms[n]? = some (i, sh)) : Fit fixed sh := by
  obtain ⟨h1, h2⟩ := h
  unfold Shape.plainMaps at h1
  have h3 := typeNamesMs_mem (b := false) hm
  exact ⟨plainMapsMs_mem h1 hm, fun k hk => h2 k (by unfold Shape.typeNames; simp [h3.1 k hk])⟩

theorem Fit.type {ty tm st ms} (h : Fit fixed (.union ty tm st ms)) (hn : tm ≠ "") : tm ∈ fixed := h.2 _ (by unfold Shape.typeNames; simp [hn])

theorem Fit.elem {st e} (h : Fit fixed (.array st e)) : Fit fixed e := by
  obtain ⟨h1, h2⟩ := h
  unfold Shape.plainMaps at h1
  exact ⟨h1, fun k hk => h2 k (by unfold Shape.typeNames; exact hk)⟩

theorem Fit.entry {st e} (h : Fit fixed (.map st e)) : Fit fixed e ∧ e.isEmbedded = false := by
  obtain ⟨h1, h2⟩ := h
  unfold Shape.plainMaps at h1
  simp at h1
  exact ⟨⟨h1.2, fun k hk => h2 k (by unfold Shape.typeNames; exact hk)⟩, h1.1⟩

theorem Fit.ignore : Fit fixed .ignore := by constructor <;> simp [Shape.plainMaps, Shape.typeNames]

theorem embedded_isEmbedded {m v} (h : m.isEmbedded = false) : embedded m v = none := by
  cases m with
  | union ty tm st ms =>
    simp [Shape.isEmbedded] at h
    cases v <;> simp [embedded, h]
  | _ => cases v <;> rfl

theorem embedded_shape {m v a} (h : embedded m v = some a) : ∃ ty st ms x, m = .union ty "" st ms ∧ v = .sc x ∧ a = (ty, st, ms, x) := by
  unfold embedded at h
  split at h
  · split at h
    · rename_i h1; injection h with h; exact ⟨_, _, _, _, by rw [h1.1], rfl, h.symm⟩
    · simp at h
  · simp at h

theorem selectAlt_lookup {ms : List (MInfo × Shape)} {x a} (h : selectAlt fmt ms x = .ok a) : lookup x 0 ms = some a := by
  unfold selectAlt at h
  split at h
  · injection h with h; subst h; assumption
  · simp at h

/-- The same first field. -/
theorem SameFields.cons {k v fs fs'} (h : SameFields fmt fixed fs fs') : SameFields fmt fixed ((k, v) :: fs) ((k, v) :: fs') := by
  intro sh slots ents ne d hf hok hd
  cases sh with
  | object kd u ms =>
    rw [okFields] at hok ⊢
    rw [denFields] at hd ⊢
    cases hl : lookup (.str k) 0 ms with
    | none =>
      rw [hl] at hok hd
      simp only at hok hd ⊢
      cases u with
      | true => simp at hd
      | false =>
        simp only [Bool.false_eq_true, if_false, Bool.and_eq_true] at hok hd ⊢
        have := h _ _ _ _ _ hf hok.2 hd
        exact ⟨⟨hok.1, this.1⟩, this.2⟩
    | some a =>
      obtain ⟨n, m⟩ := a
      rw [hl] at hok hd
      simp only at hok hd ⊢
      obtain ⟨i, hm, hi⟩ := lookup_str hl
      obtain ⟨f1, f2⟩ := hf.member hm
      cases he : embedded m v with
      | none =>
        rw [he] at hok hd
        simp only [Bool.and_eq_true] at hok hd ⊢
        obtain ⟨d1, h1, h2⟩ := except_bind_ok hd
        have := h _ _ _ _ _ hf hok.2 h2
        rw [h1]
        exact ⟨⟨hok.1, this.1⟩, this.2⟩
      | some a =>
        rw [he] at hok hd
        obtain ⟨ty, st, ms', x, e1, e2, e3⟩ := embedded_shape he
        subst e1 e2 e3
        simp only at hok hd ⊢
        obtain ⟨a, h1, h2⟩ := except_bind_ok hd
        obtain ⟨d1, h3, h4⟩ := except_bind_ok h2
        have hl' := selectAlt_lookup h1
        rw [hl'] at hok
        rw [h1, hl']
        obtain ⟨i', _, hm', _⟩ := lookup_get hl'
        have := h _ _ _ _ _ (f1.alt (by simpa using hm')) hok h3
        simp only [bind, Except.bind] at h4 ⊢
        rw [this.2]
        exact ⟨this.1, h4⟩
  | union ty tm st ms =>
    cases v with
    | sc x =>
      rw [okFields] at hok ⊢
      rw [denFields] at hd ⊢
      split at hd
      · simp [noEmbedded] at hd
      · rename_i h0
        split at hd
        · simp at hd
        · rename_i h1
          split at hd
          · rename_i h2
            simp only [if_neg h0, if_neg h1, if_pos h2] at hok ⊢
            obtain ⟨a, h1, h2⟩ := except_bind_ok hd
            obtain ⟨d1, h3, h4⟩ := except_bind_ok h2
            have hl' := selectAlt_lookup h1
            rw [hl'] at hok
            rw [h1, hl']
            obtain ⟨i', _, hm', _⟩ := lookup_get hl'
            have := h _ _ _ _ _ (hf.alt (by simpa using hm')) hok h3
            simp only [bind, Except.bind] at h4 ⊢
            rw [this.2]
            exact ⟨this.1, h4⟩
          · simp at hd
    | _ =>
      rw [denFields] at hd
      · split at hd
        · simp [noEmbedded] at hd
        · split at hd <;> simp at hd
      all_goals simp
  | map st e =>
    rw [okFields] at hok ⊢
    rw [denFields] at hd ⊢
    simp only [embedded_isEmbedded hf.entry.2] at hok hd ⊢
    simp only [Bool.and_eq_true] at hok ⊢
    obtain ⟨d1, h1, h2⟩ := except_bind_ok hd
    obtain ⟨e1, h3, h4⟩ := except_bind_ok h2
    have := h _ _ _ _ _ hf hok.2 h4
    rw [h1]
    simp only [bind, Except.bind] at h3 ⊢
    rw [h3]
    exact ⟨⟨hok.1, this.1⟩, this.2⟩
  | _ => simp [denFields] at hd

/-- A union takes nothing but its type field first. -/
theorem union_first {ty tm st ms slots ents ne k v fs d} (h : denFields fmt (.union ty tm st ms) slots ents ne ((k, v) :: fs) = .ok d) :
    k = tm ∧ (∃ x, v = .sc x) ∧ tm ≠ "" := by
  cases v with
  | sc x =>
    rw [denFields] at h
    split at h
    · simp at h
    · rename_i h0
      split at h
      · simp at h
      · rename_i h1
        exact ⟨Classical.byContradiction fun e => h1 e, ⟨x, rfl⟩, h0⟩
  | _ =>
    rw [denFields] at h
    · split at h
      · simp at h
      · split at h <;> simp at h
    all_goals simp

theorem denote_ignore (v : Json) : ∃ d, denote fmt .ignore v = .ok d := by
  cases v <;> simp [denote]

/-- A reordered value of the first field. -/
theorem SameFields.value {k v v' fs} (hr : Reordered fixed v v') (h : ∀ sh, Fit fixed sh → Same fmt sh v v') :
    SameFields fmt fixed ((k, v) :: fs) ((k, v') :: fs) := by
  intro sh slots ents ne d hf hok hd
  by_cases hs : ∃ x, v = .sc x
  · obtain ⟨x, hs⟩ := hs
    rw [← hs.trans ((hr.null.2.1 x).1 hs).symm]
    exact ⟨hok, hd⟩
  · have hs' : ¬ ∃ x, v' = .sc x := fun ⟨x, hx⟩ => hs ⟨x, (hr.null.2.1 x).2 hx⟩
    have hne : ∀ m, embedded m v = none := by
      intro m
      cases he : embedded m v with
      | none => rfl
      | some a => obtain ⟨_, _, _, x, _, e, _⟩ := embedded_shape he; exact absurd ⟨x, e⟩ hs
    have hne' : ∀ m, embedded m v' = none := by
      intro m
      cases he : embedded m v' with
      | none => rfl
      | some a => obtain ⟨_, _, _, x, _, e, _⟩ := embedded_shape he; exact absurd ⟨x, e⟩ hs'
    cases sh with
    | object kd u ms =>
      rw [okFields] at hok ⊢
      rw [denFields] at hd ⊢
      cases hl : lookup (.str k) 0 ms with
      | none =>
        rw [hl] at hok hd
        simp only at hok hd ⊢
        cases u with
        | true => simp at hd
        | false =>
          simp only [Bool.false_eq_true, if_false, Bool.and_eq_true] at hok hd ⊢
          obtain ⟨d', hd'⟩ := denote_ignore (fmt := fmt) v
          exact ⟨⟨(h _ .ignore _ hok.1 hd').1, hok.2⟩, hd⟩
      | some a =>
        obtain ⟨n, m⟩ := a
        rw [hl] at hok hd
        simp only [hne, hne', Bool.and_eq_true] at hok hd ⊢
        obtain ⟨i, hm, hi⟩ := lookup_str hl
        obtain ⟨d1, h1, h2⟩ := except_bind_ok hd
        have := h _ (hf.member hm).1 _ hok.1.2 h1
        rw [this.2]
        exact ⟨⟨⟨hok.1.1, this.1⟩, hok.2⟩, h2⟩
    | union ty tm st ms => exact absurd (union_first hd).2.1 hs
    | map st e =>
      rw [okFields] at hok ⊢
      rw [denFields] at hd ⊢
      simp only [hne, hne', Bool.and_eq_true] at hok hd ⊢
      obtain ⟨d1, h1, h2⟩ := except_bind_ok hd
      have := h _ hf.entry.1 _ hok.1.2 h1
      rw [this.2]
      exact ⟨⟨⟨hok.1.1, this.1⟩, hok.2⟩, h2⟩
    | _ => simp [denFields] at hd

/-- One field of an object. -/
theorem object_field {kd u ms slots ents ne k v fs d} (hf : Fit fixed (.object kd u ms)) (hk : k ∉ fixed) :
    (okFields (.object kd u ms) ((k, v) :: fs) = true ∧ denFields fmt (.object kd u ms) slots ents ne ((k, v) :: fs) = .ok d) ↔
      (match lookup (.str k) 0 ms with
       | none => u = false ∧ okVal .ignore v = true ∧ okFields (.object kd u ms) fs = true ∧ denFields fmt (.object kd u ms) slots [] true fs = .ok d
       | some (n, m) => ∃ d1, m.isUser = true ∧ okVal m v = true ∧ denote fmt m v = .ok d1 ∧ okFields (.object kd u ms) fs = true ∧
          denFields fmt (.object kd u ms) (slots.set n d1) [] true fs = .ok d) := by
  rw [okFields, denFields]
  cases hl : lookup (.str k) 0 ms with
  | none =>
    cases u <;> simp [and_assoc]
  | some a =>
    obtain ⟨n, m⟩ := a
    obtain ⟨i, hm, hi⟩ := lookup_str hl
    have hne : m.isEmbedded = false := by
      cases he : m.isEmbedded with
      | false => rfl
      | true =>
        have := (hf.member hm).2 he
        simp only [MInfo.key, hi] at this
        exact absurd this hk
    simp only [embedded_isEmbedded hne, Bool.and_eq_true]
    constructor
    · rintro ⟨⟨⟨h1, h2⟩, h3⟩, h4⟩
      obtain ⟨d1, h5, h6⟩ := except_bind_ok h4
      exact ⟨d1, h1, h2, h5, h3, h6⟩
    · rintro ⟨d1, h1, h2, h3, h4, h5⟩
      rw [h3]
      exact ⟨⟨⟨h1, h2⟩, h4⟩, h5⟩

/-- One field of a map. -/
theorem map_field {st e slots ents ne k v fs d} (hf : Fit fixed (.map st e)) :
    (okFields (.map st e) ((k, v) :: fs) = true ∧ denFields fmt (.map st e) slots ents ne ((k, v) :: fs) = .ok d) ↔
      ∃ d1 ents', e.isUser = true ∧ okVal e v = true ∧ denote fmt e v = .ok d1 ∧ storeEntry st k d1 ents = .ok ents' ∧ okFields (.map st e) fs = true ∧
        denFields fmt (.map st e) [] ents' true fs = .ok d := by
  rw [okFields, denFields]
  simp only [embedded_isEmbedded hf.entry.2, Bool.and_eq_true]
  constructor
  · rintro ⟨⟨⟨h1, h2⟩, h3⟩, h4⟩
    obtain ⟨d1, h5, h6⟩ := except_bind_ok h4
    obtain ⟨e1, h7, h8⟩ := except_bind_ok h6
    exact ⟨d1, e1, h1, h2, h5, h7, h3, h8⟩
  · rintro ⟨d1, e1, h1, h2, h3, h4, h5, h6⟩
    rw [h3]
    simp only [bind, Except.bind, h4]
    exact ⟨⟨⟨h1, h2⟩, h5⟩, h6⟩

theorem storeEntry_comm {st k k' d d' ents e1 e2} (hk : k ≠ k') (h1 : storeEntry st k d ents = .ok e1) (h2 : storeEntry st k' d' e1 = .ok e2) :
    ∃ e1', storeEntry st k' d' ents = .ok e1' ∧ storeEntry st k d e1' = .ok e2 := by
  unfold storeEntry at *
  cases st with
  | false => simp at h1 h2 ⊢; rw [h1, h2]
  | true =>
    simp only [if_true] at *
    cases hv : d.value? with
    | none => rw [hv] at h1; simp at h1
    | some v =>
      cases hv' : d'.value? with
      | none => rw [hv'] at h2; simp at h2
      | some v' =>
        rw [hv] at h1; rw [hv'] at h2
        simp only at h1 h2
        injection h1 with h1; injection h2 with h2
        subst h1 h2
        exact ⟨_, rfl, by simp only; rw [mapInsert_comm hk]⟩

/-- Two fields trade places. -/
theorem SameFields.swap {k v k' v' fs} (hk : k ≠ k') (h1 : k ∉ fixed) (h2 : k' ∉ fixed) :
    SameFields fmt fixed ((k, v) :: (k', v') :: fs) ((k', v') :: (k, v) :: fs) := by
  intro sh slots ents ne d hf hok hd
  cases sh with
  | object kd u ms =>
    have h := (object_field hf h1).1 ⟨hok, hd⟩
    refine (object_field hf h2).2 ?_
    cases hl : lookup (.str k) 0 ms with
    | none =>
      rw [hl] at h
      obtain ⟨a1, a2, a3, a4⟩ := h
      have h' := (object_field hf h2).1 ⟨a3, a4⟩
      cases hl' : lookup (.str k') 0 ms with
      | none =>
        rw [hl'] at h'
        obtain ⟨b1, b2, b3, b4⟩ := h'
        have := (object_field (v := v) (slots := slots) (ents := []) (ne := true) (d := d) (fmt := fmt) (fs := fs) hf h1).2 (by rw [hl]; exact ⟨a1, a2, b3, b4⟩)
        exact ⟨b1, b2, this⟩
      | some a =>
        rw [hl'] at h'
        obtain ⟨d1, b1, b2, b3, b4, b5⟩ := h'
        have := (object_field (v := v) (slots := slots.set a.1 d1) (ents := []) (ne := true) (d := d) (fmt := fmt) (fs := fs) hf h1).2 (by rw [hl]; exact ⟨a1, a2, b4, b5⟩)
        exact ⟨d1, b1, b2, b3, this⟩
    | some a =>
      rw [hl] at h
      obtain ⟨d1, a1, a2, a3, a4, a5⟩ := h
      have h' := (object_field hf h2).1 ⟨a4, a5⟩
      cases hl' : lookup (.str k') 0 ms with
      | none =>
        rw [hl'] at h'
        obtain ⟨b1, b2, b3, b4⟩ := h'
        have := (object_field (v := v) (slots := slots) (ents := []) (ne := true) (d := d) (fmt := fmt) (fs := fs) hf h1).2 (by rw [hl]; exact ⟨d1, a1, a2, a3, b3, b4⟩)
        exact ⟨b1, b2, this⟩
      | some a' =>
        rw [hl'] at h'
        obtain ⟨d2, b1, b2, b3, b4, b5⟩ := h'
        have hne : a.1 ≠ a'.1 := by
          intro e
          obtain ⟨i, c1, c2⟩ := lookup_str (n := a.1) (m := a.2) hl
          obtain ⟨i', c3, c4⟩ := lookup_str (n := a'.1) (m := a'.2) hl'
          rw [e, c3] at c1
          injection c1 with c1; injection c1 with c1
          rw [← c1, c4] at c2
          injection c2 with c2
          exact hk c2.symm
        have := (object_field (v := v) (slots := slots.set a'.1 d2) (ents := []) (ne := true) (d := d) (fmt := fmt) (fs := fs) hf h1).2
          (by rw [hl]; exact ⟨d1, a1, a2, a3, b4, by rw [List.set_comm _ _ hne.symm]; exact b5⟩)
        exact ⟨d2, b1, b2, b3, this⟩
  | union ty tm st ms => exact absurd ((union_first hd).1 ▸ hf.type (union_first hd).2.2) h1
  | map st e =>
    obtain ⟨d1, e1, a1, a2, a3, a4, a5, a6⟩ := (map_field hf).1 ⟨hok, hd⟩
    obtain ⟨d2, e2, b1, b2, b3, b4, b5, b6⟩ := (map_field hf).1 ⟨a5, a6⟩
    obtain ⟨e1', c1, c2⟩ := storeEntry_comm hk a4 b4
    have := (map_field (v := v) (slots := []) (ents := e1') (ne := true) (d := d) (k := k) (fmt := fmt) (fs := fs) hf).2 ⟨d1, e2, a1, a2, a3, c2, b5, b6⟩
    exact (map_field hf).2 ⟨d2, e1', b1, b2, b3, c1, this⟩
  | _ => simp [denFields] at hd

theorem SameFields.pre {fs fs'} (h : SameFields fmt fixed fs fs') : ∀ (pre : List (String × Json)), SameFields fmt fixed (pre ++ fs) (pre ++ fs')
  | [] => h
  | (k, v) :: pre => (SameFields.pre h pre).cons

theorem Same.obj {fs fs'} (h : SameFields fmt fixed fs fs') (hn : noNullF fs = noNullF fs') {sh} (hf : Fit fixed sh) : Same fmt sh (.obj fs) (.obj fs') := by
  intro d hok hd
  cases sh <;> simp only [okVal, denote] at hok hd ⊢
  case object => exact h _ _ _ _ _ hf hok hd
  case map => exact h _ _ _ _ _ hf hok hd
  case union ty tm st ms =>
    split at hd
    · simp at hd
    · rename_i h0
      simp only [if_neg h0] at hok ⊢
      exact h _ _ _ _ _ hf hok hd
  case ignore => rw [← hn]; exact ⟨hok, hd⟩
  all_goals simp at hd

theorem okElems_cons (e : Shape) (a : Json) : ∃ c, ∀ l, okElems e (a :: l) = (c && okElems e l) := by
  cases a with
  | null => cases e <;> exact ⟨_, fun l => by rw [okElems] <;> simp⟩
  | _ => exact ⟨_, fun l => by rw [okElems]; simp⟩

/-- A reordered element. -/
theorem elems_same {e : Shape} {j j' : Json} {post : List Json} {st : Bool} (hr : Reordered fixed j j') (h : Same fmt e j j') : ∀ (pre : List Json) (vs : List Val),
    okElems e (pre ++ j :: post) = true → denElems fmt st e (pre ++ j :: post) = .ok vs →
    okElems e (pre ++ j' :: post) = true ∧ denElems fmt st e (pre ++ j' :: post) = .ok vs
  | [], vs, hok, hd => by
    simp only [List.nil_append] at *
    by_cases hn : j = .null
    · rw [hr.null.1.1 hn]; rw [hn] at hok hd; exact ⟨hok, hd⟩
    · have hn' : j' ≠ .null := fun e => hn (hr.null.1.2 e)
      have e1 : ∀ j : Json, j ≠ .null → okElems e (j :: post) = (e.isUser && okVal e j && okElems e post) := by
        intro j hj
        cases j with
        | null => exact absurd rfl hj
        | _ => simp [okElems]
      rw [e1 j hn] at hok
      rw [e1 j' hn']
      rw [denElems] at hd ⊢
      · simp only [Bool.and_eq_true] at hok ⊢
        obtain ⟨d1, h1, h2⟩ := except_bind_ok hd
        have := h _ hok.1.2 h1
        rw [this.2]
        exact ⟨⟨⟨hok.1.1, this.1⟩, hok.2⟩, h2⟩
      all_goals first | exact fun h => absurd h hn | exact fun h => absurd h hn'
  | a :: pre, vs, hok, hd => by
    have ih := elems_same hr h (post := post) (st := st) pre
    simp only [List.cons_append] at *
    obtain ⟨c, hc⟩ := okElems_cons e a
    rw [hc] at hok ⊢
    simp only [Bool.and_eq_true] at hok ⊢
    have key : ∀ vs', denElems fmt st e (pre ++ j :: post) = .ok vs' → denElems fmt st e (pre ++ j' :: post) = .ok vs' := fun vs' h' => (ih vs' hok.2 h').2
    by_cases hn : a = .null
    · subst hn
      rw [denElems] at hd ⊢
      exact ⟨⟨hok.1, (ih _ hok.2 hd).1⟩, key _ hd⟩
    · rw [denElems] at hd ⊢
      · obtain ⟨d1, h1, h2⟩ := except_bind_ok hd
        rw [h1]
        cases st with
        | false => exact ⟨⟨hok.1, (ih _ hok.2 h2).1⟩, key _ h2⟩
        | true =>
          simp only [if_true] at h2
          cases hv : d1.value? with
          | none => rw [hv] at h2; simp at h2
          | some v =>
            rw [hv] at h2
            obtain ⟨vs', h3, h4⟩ := except_bind_ok h2
            refine ⟨⟨hok.1, (ih _ hok.2 h3).1⟩, ?_⟩
            simp only [bind, Except.bind, if_true, hv, key _ h3]
            exact h4
      all_goals exact fun h => absurd h hn

theorem Reordered.same {j j' : Json} (hr : Reordered fixed j j') : ∀ sh, Fit fixed sh → Same fmt sh j j' := by
  induction hr with
  | refl => intro sh _ d h1 h2; exact ⟨h1, h2⟩
  | trans _ _ i1 i2 =>
    intro sh hf d h1 h2
    have := i1 sh hf d h1 h2
    exact i2 sh hf d this.1 this.2
  | @swap pre post k v k' v' hk h1 h2 =>
    intro sh hf
    have hn := (Reordered.swap (pre := pre) (post := post) (v := v) (v' := v') hk h1 h2).noNull
    exact Same.obj ((SameFields.swap hk h1 h2).pre pre) hn hf
  | @field pre post k v v' hr ih =>
    intro sh hf
    have hn := (Reordered.field (pre := pre) (post := post) (k := k) hr).noNull
    exact Same.obj ((SameFields.value hr ih).pre pre) hn hf
  | @elem pre post j j' hr ih =>
    intro sh hf d hok hd
    have hn := (Reordered.elem (pre := pre) (post := post) hr).noNull
    cases sh <;> simp only [okVal, denote] at hok hd ⊢
    case array st e =>
      cases hl : denElems fmt st e (pre ++ j :: post) with
      | error => rw [hl] at hd; simp [Except.map] at hd
      | ok vs =>
        have := elems_same hr (ih e hf.elem) pre vs hok hl
        rw [hl] at hd
        rw [this.2]
        exact ⟨this.1, hd⟩
    case ignore =>
      simp only [Json.noNull] at hn
      rw [← hn]; exact ⟨hok, hd⟩
    all_goals simp at hd

theorem Reordered.symm {j j' : Json} (hr : Reordered fixed j j') : Reordered fixed j' j := by
  induction hr with
  | refl => exact .refl _
  | trans _ _ i1 i2 => exact .trans i2 i1
  | swap h h1 h2 => exact .swap h.symm h2 h1
  | elem _ ih => exact .elem ih
  | field _ ih => exact .field ih

end SJ
