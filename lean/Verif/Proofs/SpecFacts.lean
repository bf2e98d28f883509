/-
Facts about `denote` for objects, arrays, maps and unions.
-/
import Verif.SpecObjects
import Verif.Proofs.Typing
import Verif.Proofs.Sim

set_option linter.unusedVariables false

namespace SJ

theorem dbl_cppEq_comm (a b : Dbl) : a.cppEq b = b.cppEq a := by
  unfold Dbl.cppEq
  rw [Bool.and_comm (!a.isNaN), Bool.and_comm a.isZero, BEq.comm (a := a.bits)]

theorem cppEq_comm (a b : Scalar) : a.cppEq b = b.cppEq a := by
  cases a <;> cases b <;> simp only [Scalar.cppEq]
  · exact BEq.comm
  · exact BEq.comm
  · exact dbl_cppEq_comm _ _
  · exact BEq.comm

theorem cppEq_str {x : Scalar} {k} : x.cppEq (.str k) = true ↔ x = .str k := by
  cases x <;> simp [Scalar.cppEq]

theorem lookup_none {x : Scalar} : ∀ {ms : List (MInfo × Shape)} {n}, lookup x n ms = none ↔ ∀ y ∈ ms, y.1.name.cppEq x = false
  | [], n => by simp [lookup]
  | (i, sh) :: ms, n => by
    unfold lookup
    split
    · rename_i h; simp [h]
    · rename_i h
      rw [lookup_none (ms := ms)]
      simp [h]

theorem lookup_str {k : String} {ms : List (MInfo × Shape)} {n m} (h : lookup (.str k) 0 ms = some (n, m)) :
    ∃ i, ms[n]? = some (i, m) ∧ i.name = .str k := by
  obtain ⟨i, _, h2, h3⟩ := lookup_get h
  exact ⟨i, by simpa using h2, cppEq_str.1 h3⟩

theorem lookup_distinct {k : String} {ms : List (MInfo × Shape)} (hd : DistinctNames ms) {n i m} (h : ms[n]? = some (i, m))
    (hi : i.name = .str k) : lookup (.str k) 0 ms = some (n, m) := by
  cases hl : lookup (.str k) 0 ms with
  | none =>
    have := lookup_none.1 hl (i, m) (List.mem_of_getElem? h)
    rw [hi] at this; simp [Scalar.cppEq] at this
  | some a =>
    obtain ⟨a, sh⟩ := a
    obtain ⟨i', h1, h2⟩ := lookup_str hl
    have := hd a n _ _ h1 h (by simp [h2, hi, Scalar.cppEq])
    subst this
    rw [h] at h1
    simp at h1
    rw [h1.2]

theorem embedded_none {ms : List (MInfo × Shape)} (hne : NoEmbedded ms) {n : Nat} {i m} (h : ms[n]? = some (i, m)) (v) :
    embedded m v = none := by
  cases he : embedded m v with
  | none => rfl
  | some a =>
    obtain ⟨ty, st, ms', x⟩ := a
    exact absurd (embedded_some he).1 (hne (i, m) (List.mem_of_getElem? h) _ _ _)

/-- The members' slots after more fields. -/
def slotsAfter (fmt : Dbl → String) (ms : List (MInfo × Shape)) (slots : List D) (fs : List (String × Json)) : List D :=
  (ms.zip slots).map fun x => match x.1.1.name with
    | .str k => match lastField k fs with
      | none => x.2
      | some j => match denote fmt x.1.2 j with
        | .ok d => d
        | .error _ => .unset
    | _ => x.2

theorem slotsAfter_nil (fmt) (ms : List (MInfo × Shape)) (slots : List D) (hl : slots.length = ms.length) :
    slotsAfter fmt ms slots [] = slots := by
  unfold slotsAfter
  have : (fun x : (MInfo × Shape) × D => match x.1.1.name with
    | .str k => match lastField k [] with
      | none => x.2
      | some j => match denote fmt x.1.2 j with
        | .ok d => d
        | .error _ => .unset
    | _ => x.2) = fun x => x.2 := by
    funext x; cases x.1.1.name <;> rfl
  rw [this]
  show (ms.zip slots).map Prod.snd = slots
  rw [List.map_snd_zip (by omega)]

theorem slotsAfter_noSlots (fmt) (k u) (ms : List (MInfo × Shape)) (fs) :
    slotsAfter fmt ms (noSlots (.object k u ms)) fs = ms.map (memberHolds fmt fs) := by
  unfold slotsAfter noSlots
  induction ms with
  | nil => rfl
  | cons x ms ih =>
    simp only [List.map_cons, List.zip_cons_cons, ih]
    congr 1

theorem slotsAfter_length (fmt) (ms : List (MInfo × Shape)) (slots : List D) (fs) (hl : slots.length = ms.length) :
    (slotsAfter fmt ms slots fs).length = ms.length := by simp [slotsAfter, hl]

theorem slotsAfter_set (fmt) {ms : List (MInfo × Shape)} (hd : DistinctNames ms) {slots : List D} (hl : slots.length = ms.length)
    {k v n m d fs} (hk : lookup (.str k) 0 ms = some (n, m)) (hv : denote fmt m v = .ok d) :
    slotsAfter fmt ms (slots.set n d) fs = slotsAfter fmt ms slots ((k, v) :: fs) := by
  obtain ⟨i, hi, hn⟩ := lookup_str hk
  apply List.ext_getElem?
  intro a
  unfold slotsAfter
  simp only [List.getElem?_map]
  cases ha : ms[a]? with
  | none =>
    have h1 : (ms.zip (slots.set n d))[a]? = none := by
      rw [List.getElem?_eq_none_iff] at *; simp; omega
    have h2 : (ms.zip slots)[a]? = none := by
      rw [List.getElem?_eq_none_iff] at *; simp; omega
    rw [h1, h2]; rfl
  | some x =>
    have hal : a < ms.length := (List.getElem?_eq_some_iff.1 ha).1
    obtain ⟨d0, hd0⟩ : ∃ d0, slots[a]? = some d0 := ⟨slots[a]'(by omega), List.getElem?_eq_getElem _⟩
    have h2 : (ms.zip slots)[a]? = some (x, d0) := by rw [List.getElem?_zip_eq_some]; exact ⟨ha, hd0⟩
    by_cases e : a = n
    · subst e
      have h1 : (ms.zip (slots.set a d))[a]? = some (x, d) := by
        rw [List.getElem?_zip_eq_some]; exact ⟨ha, by rw [List.getElem?_set]; simp; omega⟩
      rw [h1, h2]
      rw [hi] at ha; injection ha with ha; subst ha
      simp only [Option.map_some, hn, lastField]
      cases lastField k fs with
      | none => simp [hv]
      | some j => simp
    · have h1 : (ms.zip (slots.set n d))[a]? = some (x, d0) := by
        rw [List.getElem?_zip_eq_some]; exact ⟨ha, by rw [List.getElem?_set]; simp [Ne.symm e, hd0]⟩
      rw [h1, h2]
      simp only [Option.map_some]
      cases hx : x.1.name with
      | str k' =>
        have : k ≠ k' := by
          rintro rfl
          exact e (hd a n x (i, m) ha hi (by simp [hx, hn, Scalar.cppEq]))
        simp only [lastField, if_neg this, Option.or_none]
      | _ => rfl

theorem slotsAfter_unknown (fmt) {ms : List (MInfo × Shape)} {slots : List D} {k v fs} (hk : lookup (.str k) 0 ms = none) :
    slotsAfter fmt ms slots ((k, v) :: fs) = slotsAfter fmt ms slots fs := by
  unfold slotsAfter
  apply List.map_congr_left
  intro x hx
  have hm : x.1 ∈ ms := (List.of_mem_zip hx).1
  have h1 := lookup_none.1 hk x.1 hm
  cases hn : x.1.1.name with
  | str k' =>
    have : k ≠ k' := by rintro rfl; rw [hn] at h1; simp [Scalar.cppEq] at h1
    simp only [lastField, if_neg this, Option.or_none]
  | _ => rfl

/-- A union does not accept a scalar as a whole value. -/
theorem denote_ok_embedded {fmt m v d} (h : denote fmt m v = .ok d) : embedded m v = none := by
  cases m with
  | union ty tm st ms =>
    cases v with
    | sc x => unfold denote at h; simp at h
    | _ => rfl
  | _ => cases v <;> rfl

/-- The fields of an object before `rest`, all accepted. -/
theorem denFields_prefix {fmt kd u ms} (hd : DistinctNames ms) (rest : List (String × Json)) : ∀ (fs : List (String × Json)) (slots : List D) (ne : Bool),
    slots.length = ms.length → FieldsOk fmt u ms fs →
    denFields fmt (.object kd u ms) slots [] ne (fs ++ rest) =
      denFields fmt (.object kd u ms) (slotsAfter fmt ms slots fs) [] (ne || !fs.isEmpty) rest
  | [], slots, ne, hl, hok => by simp [slotsAfter_nil fmt ms slots hl]
  | (k, v) :: fs, slots, ne, hl, hok => by
    rw [List.cons_append, denFields]
    have h1 := hok (k, v) (by simp)
    have h2 : FieldsOk fmt u ms fs := fun kv h => hok kv (by simp [h])
    cases hk : lookup (.str k) 0 ms with
    | none =>
      simp only [hk] at h1
      subst h1
      simp only [Bool.false_eq_true, if_false]
      rw [denFields_prefix hd rest fs slots true hl h2, slotsAfter_unknown fmt hk]; simp
    | some a =>
      obtain ⟨n, m⟩ := a
      simp only [hk] at h1
      obtain ⟨d, h1⟩ := h1
      simp only [denote_ok_embedded h1, h1]
      show denFields fmt (.object kd u ms) (slots.set n d) [] true (fs ++ rest) = _
      rw [denFields_prefix hd rest fs _ true (by simpa using hl) h2, slotsAfter_set fmt hd hl hk h1]; simp

/-- An object whose fields are all accepted. -/
theorem denFields_object {fmt kd u ms} (hd : DistinctNames ms) (fs : List (String × Json)) (slots : List D) (ne : Bool)
    (hl : slots.length = ms.length) (hok : FieldsOk fmt u ms fs) :
    denFields fmt (.object kd u ms) slots [] ne fs = finishObject kd ms (slotsAfter fmt ms slots fs) (ne || !fs.isEmpty) := by
  have := denFields_prefix (kd := kd) hd [] fs slots ne hl hok
  rw [List.append_nil] at this
  rw [this, denFields]

/-- The first field that is not accepted decides. -/
theorem denFields_object_error {fmt kd u ms} (hd : DistinctNames ms) {k v fs e}
    (hbad : match lookup (.str k) 0 ms with
      | some (_, m) => denote fmt m v = .error e ∧ embedded m v = none
      | none => u = true ∧ e = "Unexpected member " ++ k) (pre : List (String × Json)) (slots : List D) (ne : Bool)
    (hl : slots.length = ms.length) (hok : FieldsOk fmt u ms pre) :
    denFields fmt (.object kd u ms) slots [] ne (pre ++ (k, v) :: fs) = .error e := by
  rw [denFields_prefix hd _ pre slots ne hl hok, denFields]
  cases hk : lookup (.str k) 0 ms with
  | none => simp only [hk] at hbad; simp [hbad]
  | some a =>
    obtain ⟨n, m⟩ := a
    simp only [hk] at hbad
    simp only [hbad.2, hbad.1]; rfl

/-- Either all fields are accepted or there is a first one that is not. -/
theorem fieldsOk_or {fmt u ms} : ∀ (fs : List (String × Json)), FieldsOk fmt u ms fs ∨
    ∃ pre k v post e, fs = pre ++ (k, v) :: post ∧ FieldsOk fmt u ms pre ∧
      (match lookup (.str k) 0 ms with
      | some (_, m) => denote fmt m v = .error e
      | none => u = true ∧ e = "Unexpected member " ++ k)
  | [] => Or.inl (by intro kv h; simp at h)
  | (k, v) :: fs => by
    have hbad : (match lookup (.str k) 0 ms with
        | some (_, m) => ∃ d, denote fmt m v = .ok d
        | none => u = false) ∨ ∃ e, (match lookup (.str k) 0 ms with
        | some (_, m) => denote fmt m v = .error e
        | none => u = true ∧ e = "Unexpected member " ++ k) := by
      cases lookup (.str k) 0 ms with
      | none => cases u <;> simp
      | some a =>
        simp only
        cases denote fmt a.2 v <;> simp
    rcases hbad with hg | ⟨e, he⟩
    · rcases fieldsOk_or fs with h | ⟨pre, k', v', post, e, h1, h2, h3⟩
      · left
        intro kv hkv
        rcases List.mem_cons.1 hkv with rfl | hkv
        · exact hg
        · exact h kv hkv
      · right
        refine ⟨(k, v) :: pre, k', v', post, e, by rw [h1]; rfl, ?_, h3⟩
        intro kv hkv
        rcases List.mem_cons.1 hkv with rfl | hkv
        · exact hg
        · exact h2 kv hkv
    · exact Or.inr ⟨[], k, v, fs, e, rfl, by intro kv h; simp at h, he⟩

/-! ### Arrays -/

/-- The values of the elements, nulls left out. -/
theorem denElems_stored {fmt e} : ∀ {l : List Json} {vs}, denElems fmt true e l = .ok vs →
    Each (fun j v => ∃ d, denote fmt e j = .ok d ∧ d.value? = some v) (l.filter fun j => !j.isNull) vs
  | [], vs, h => by
    unfold denElems at h; injection h with h; subst h; exact .nil
  | j :: l, vs, h => by
    cases j with
    | null => unfold denElems at h; simpa [List.filter_cons, Json.isNull] using denElems_stored h
    | _ =>
      unfold denElems at h
      simp only at h
      obtain ⟨d, h1, h2⟩ := except_bind_ok h
      simp only [if_true] at h2
      cases hv : d.value? with
      | none => rw [hv] at h2; simp at h2
      | some v =>
        rw [hv] at h2
        obtain ⟨vs', h3, h4⟩ := except_bind_ok h2
        injection h4 with h4
        subst h4
        simp only [List.filter_cons, Json.isNull, Bool.not_false, if_true]
        exact .cons ⟨d, h1, hv⟩ (denElems_stored h3)

/-- Conversely. -/
theorem denElems_of {fmt e} : ∀ {l : List Json} {vs}, 
    Each (fun j v => ∃ d, denote fmt e j = .ok d ∧ d.value? = some v) (l.filter fun j => !j.isNull) vs →
    denElems fmt true e l = .ok vs
  | [], vs, h => by cases h; unfold denElems; rfl
  | j :: l, vs, h => by
    cases j with
    | null => unfold denElems; exact denElems_of h
    | _ =>
      simp only [List.filter_cons, Json.isNull, Bool.not_false, if_true] at h
      cases h with
      | cons hd ht =>
        obtain ⟨d, h1, h2⟩ := hd
        unfold denElems
        have := denElems_of ht
        simp only [h1, bind, Except.bind, if_true, h2, this]; rfl

/-! ### Maps -/

theorem entry_mapInsert {k v} : ∀ {l : List (String × Val)}, SortedKeys l → ∀ k',
    entry k' (mapInsert k v l) = (entry k' l).or (if k = k' then some v else none)
  | [], hs, k' => by
    simp only [mapInsert, entry, List.find?_cons]
    by_cases e : k = k' <;> simp [e]
  | (k0, v0) :: l, hs, k' => by
    unfold mapInsert
    have ht : SortedKeys l := (List.pairwise_cons.1 hs).2
    have hh := (List.pairwise_cons.1 hs).1
    split
    · rename_i hlt
      by_cases e : k = k'
      · subst e
        have h0 : k0 ≠ k := fun h => by rw [h] at hlt; exact String.lt_irrefl k hlt
        have h1 : l.find? (fun e => decide (e.1 = k)) = none := by
          rw [List.find?_eq_none]
          intro x hx
          have := hh x hx
          simp only [decide_eq_true_eq]
          intro h
          have h2 := String.lt_trans hlt this
          rw [h] at h2
          exact String.lt_irrefl k h2
        simp [entry, h0, h1]
      · simp [entry, e]
    · split
      · rename_i h1 h2
        subst h2
        by_cases e : k = k' <;> simp [entry, e]
      · have ih := entry_mapInsert (k := k) (v := v) ht k'
        by_cases e : k0 = k'
        · simp [entry, e]
        · simp only [entry, List.find?_cons, e, decide_false] at ih ⊢
          exact ih

theorem mem_mapInsert {k v} : ∀ {l : List (String × Val)} {x}, x ∈ mapInsert k v l → x.1 = k ∨ x ∈ l
  | [], x, h => by simp [mapInsert] at h; exact Or.inl (by rw [h])
  | (k0, v0) :: l, x, h => by
    unfold mapInsert at h
    split at h
    · rcases List.mem_cons.1 h with rfl | h
      · exact Or.inl rfl
      · exact Or.inr h
    · split at h
      · exact Or.inr h
      · rcases List.mem_cons.1 h with rfl | h
        · exact Or.inr (by simp)
        · rcases mem_mapInsert h with h | h
          · exact Or.inl h
          · exact Or.inr (by simp [h])

theorem string_lt_of {a b : String} (h : ¬ a < b) (hne : a ≠ b) : b < a := by
  rcases Std.lt_trichotomy a b with h1 | h1 | h1
  · exact absurd h1 h
  · exact absurd h1 hne
  · exact h1

theorem mapInsert_sorted {k v} : ∀ {l : List (String × Val)}, SortedKeys l → SortedKeys (mapInsert k v l)
  | [], hs => by simp [mapInsert, SortedKeys]
  | (k0, v0) :: l, hs => by
    have ht : SortedKeys l := (List.pairwise_cons.1 hs).2
    have hh := (List.pairwise_cons.1 hs).1
    unfold mapInsert
    split
    · rename_i hlt
      refine List.pairwise_cons.2 ⟨?_, hs⟩
      intro x hx
      rcases List.mem_cons.1 hx with rfl | hx
      · exact hlt
      · exact String.lt_trans hlt (hh x hx)
    · split
      · exact hs
      · rename_i h1 h2
        refine List.pairwise_cons.2 ⟨?_, mapInsert_sorted ht⟩
        intro x hx
        rcases mem_mapInsert hx with h | h
        · rw [h]; exact string_lt_of h1 h2
        · exact hh x h

theorem except_bind_error {ε α β} {m : Except ε α} {f : α → Except ε β} {e} (h : m = .error e) : (m >>= f) = .error e := by
  rw [h]; rfl

/-- A stored map whose values are all accepted and set. -/
theorem denFields_smap {fmt e} (hne : ∀ v, embedded e v = none) : ∀ (fs : List (String × Json)) (ents ne) (d : D),
    SortedKeys ents → denFields fmt (.map true e) [] ents ne fs = .ok d →
    (∀ kv ∈ fs, ∃ dv v, denote fmt e kv.2 = .ok dv ∧ dv.value? = some v) ∧
    ∃ out, d = .val (.map out) ∧ SortedKeys out ∧
      ∀ k, entry k out = (entry k ents).or ((firstField k fs).bind fun j => (denote fmt e j).toOption.bind D.value?)
  | [], ents, ne, d, hs, h => by
    unfold denFields at h
    simp only [finishMap, if_true] at h
    injection h with h
    exact ⟨by simp, ents, h.symm, hs, fun k => by simp [firstField]⟩
  | (k, v) :: fs, ents, ne, d, hs, h => by
    unfold denFields at h
    simp only [hne v] at h
    obtain ⟨dv, h1, h2⟩ := except_bind_ok h
    obtain ⟨ents', h3, h4⟩ := except_bind_ok h2
    unfold storeEntry at h3
    simp only [if_true] at h3
    cases hv : dv.value? with
    | none => rw [hv] at h3; simp at h3
    | some w =>
      rw [hv] at h3
      injection h3 with h3
      subst h3
      obtain ⟨hall, out, ho, hso, hent⟩ := denFields_smap hne fs _ true d (mapInsert_sorted hs) h4
      refine ⟨?_, out, ho, hso, ?_⟩
      · intro kv hkv
        rcases List.mem_cons.1 hkv with rfl | hkv
        · exact ⟨dv, w, h1, hv⟩
        · exact hall kv hkv
      · intro k'
        rw [hent k', entry_mapInsert hs]
        rw [firstField]
        by_cases e : k = k'
        · subst e
          cases entry k ents <;> simp [h1, hv, Except.toOption]
        · simp only [if_neg e, Option.or_none]

/-- A map fails at the first value that is refused or, if it stores, leaves the element unset. -/
theorem denFields_map_error {fmt st e} (hne : ∀ v, embedded e v = none) {k v fs msg}
    (hbad : denote fmt e v = .error msg ∨ (st = true ∧ msg = notSet ∧ ∃ d, denote fmt e v = .ok d ∧ d.value? = none)) :
    ∀ (pre : List (String × Json)) (ents ne),
    (∀ kv ∈ pre, ∃ d, denote fmt e kv.2 = .ok d ∧ (st = true → d.value?.isSome = true)) →
    denFields fmt (.map st e) [] ents ne (pre ++ (k, v) :: fs) = .error msg
  | [], ents, ne, hok => by
    rw [List.nil_append]; unfold denFields
    simp only [hne v]
    rcases hbad with h | ⟨h1, h2, d, h3, h4⟩
    · rw [h]; rfl
    · rw [h3]; subst h1 h2
      simp [bind, Except.bind, storeEntry, h4]
  | (k', v') :: pre, ents, ne, hok => by
    rw [List.cons_append]; unfold denFields
    simp only [hne v']
    obtain ⟨d, h1, h2⟩ := hok (k', v') (by simp)
    simp only at h1
    rw [h1]
    have ih := fun ents => denFields_map_error (k := k) (fs := fs) hne hbad pre ents true fun kv h => hok kv (by simp [h])
    cases st with
    | false => simp only [bind, Except.bind, storeEntry, Bool.false_eq_true, if_false]; exact ih _
    | true =>
      obtain ⟨w, hw⟩ := Option.isSome_iff_exists.1 (h2 rfl)
      simp only [bind, Except.bind, storeEntry, if_true, hw]; exact ih _

/-- A map that stores nothing and whose values are all accepted. -/
theorem denFields_map_ok {fmt e} (hne : ∀ v, embedded e v = none) : ∀ (fs : List (String × Json)) (ents ne),
    (∀ kv ∈ fs, ∃ d, denote fmt e kv.2 = .ok d) → denFields fmt (.map false e) [] ents ne fs = .ok .done
  | [], ents, ne, h => by unfold denFields; simp [finishMap]
  | (k, v) :: fs, ents, ne, h => by
    unfold denFields
    simp only [hne v]
    obtain ⟨d, h1⟩ := h (k, v) (by simp)
    simp only at h1
    rw [h1]
    simp only [bind, Except.bind, storeEntry, Bool.false_eq_true, if_false]
    exact denFields_map_ok hne fs ents true fun kv hkv => h kv (by simp [hkv])

end SJ
