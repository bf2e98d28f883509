/-
Properties of whole JSON objects read by `Object`, `SCustomObject` and `SAutoObject`, anywhere in a parser tree
(C03, C04, C05, C06, C07, C08, C12, C13, C31).

`Expecting R s p sh`: the parser at `p` is current and a value is expected of it. `Passive E`: callbacks only observe.
`okVal`: the document avoids the defects listed with this function in `Verif/Spec.lean`.
-/
import Verif.Proofs.Context
import Verif.Demo

set_option linter.unusedVariables false

namespace SJ

variable {E : Env} {R : Shape}

/-! ### Helpers -/

theorem zip_map_get {α β} {g : α → β} {l : List α} {n : Nat} {x} (h : l[n]? = some x) : (l.zip (l.map g))[n]? = some (x, g x) := by
  rw [List.getElem?_zip_eq_some]; exact ⟨h, by simp [h]⟩

theorem zip_map_inv {α β} {g : α → β} {l : List α} {n : Nat} {y} (h : (l.zip (l.map g))[n]? = some y) :
    l[n]? = some y.1 ∧ y.2 = g y.1 := by
  rw [List.getElem?_zip_eq_some] at h
  refine ⟨h.1, ?_⟩
  have h2 := h.2
  rw [List.getElem?_map, h.1] at h2
  exact (Option.some.inj h2).symm

theorem filter_last {α} {P : α → Bool} : ∀ {l : List α} {n : Nat} {a}, l[n]? = some a → P a = true →
    (∀ n' b, n < n' → l[n']? = some b → P b = false) → (l.filter P).getLast? = some a
  | [], n, a, h, _, _ => by simp at h
  | b :: l, 0, a, h, hp, hl => by
    simp at h; subst h
    have : l.filter P = [] := by
      rw [List.filter_eq_nil_iff]
      intro c hc
      obtain ⟨n, hn⟩ := List.getElem?_of_mem hc
      simp [hl (n + 1) c (by omega) (by simpa using hn)]
    simp [hp, this]
  | b :: l, n + 1, a, h, hp, hl => by
    have ih := filter_last (l := l) (n := n) (a := a) (by simpa using h) hp
      (fun n' c h1 h2 => hl (n' + 1) c (by omega) (by simpa using h2))
    rw [List.filter_cons]
    split
    · rw [List.getLast?_cons, ih]; rfl
    · exact ih

theorem missing_map_none {ms : List (MInfo × Shape)} {g : MInfo × Shape → D}
    (h : ∀ (n : Nat) x, ms[n]? = some x → x.1.optional = false → (g x).isSet = true) : missing ms (ms.map g) = [] := by
  unfold missing
  rw [List.map_eq_nil_iff, List.filter_eq_nil_iff]
  intro y hy
  obtain ⟨n, hn⟩ := List.getElem?_of_mem hy
  obtain ⟨h1, h2⟩ := zip_map_inv hn
  cases ho : y.1.1.optional with
  | true => simp
  | false => rw [h2, h n _ h1 ho]; simp

theorem missing_map_last {ms : List (MInfo × Shape)} {g : MInfo × Shape → D} {n : Nat} {x} (hn : ms[n]? = some x)
    (ho : x.1.optional = false) (hu : (g x).isSet = false)
    (hl : ∀ (n' : Nat) y, n < n' → ms[n']? = some y → y.1.optional = false → (g y).isSet = true) :
    (missing ms (ms.map g)).getLast? = some x.1 := by
  unfold missing
  rw [List.getLast?_map, filter_last (n := n) (zip_map_get hn)]
  · rfl
  · simp [ho, hu]
  · intro n' y h1 h2
    obtain ⟨h3, h4⟩ := zip_map_inv h2
    cases hy : y.1.1.optional with
    | true => simp
    | false => rw [h4, hl n' _ h1 h3 hy]; simp

theorem unfillable_map_none {ms : List (MInfo × Shape)} {g : MInfo × Shape → D}
    (h : ∀ (n : Nat) x, ms[n]? = some x → (x.1.optional = false ∨ x.1.dflt = none) → (g x).isSet = true) :
    unfillable ms (ms.map g) = [] := by
  unfold unfillable
  rw [List.map_eq_nil_iff, List.filter_eq_nil_iff]
  intro y hy
  obtain ⟨n, hn⟩ := List.getElem?_of_mem hy
  obtain ⟨h1, h2⟩ := zip_map_inv hn
  by_cases hc : y.1.1.optional = false ∨ y.1.1.dflt = none
  · rw [h2, h n _ h1 hc]; simp
  · cases h5 : y.1.1.optional <;> cases h6 : y.1.1.dflt <;> simp_all

theorem unfillable_map_last {ms : List (MInfo × Shape)} {g : MInfo × Shape → D} {n : Nat} {x} (hn : ms[n]? = some x)
    (ho : x.1.optional = false ∨ x.1.dflt = none) (hu : (g x).isSet = false)
    (hl : ∀ (n' : Nat) y, n < n' → ms[n']? = some y → (y.1.optional = false ∨ y.1.dflt = none) → (g y).isSet = true) :
    (unfillable ms (ms.map g)).getLast? = some x.1 := by
  unfold unfillable
  rw [List.getLast?_map, filter_last (n := n) (zip_map_get hn)]
  · rfl
  · rcases ho with ho | ho <;> simp [ho, hu]
  · intro n' y h1 h2
    obtain ⟨h3, h4⟩ := zip_map_inv h2
    rw [h4]
    by_cases hc : y.1.1.optional = false ∨ y.1.1.dflt = none
    · rw [hl n' _ h1 h3 hc]; simp
    · cases h5 : y.1.1.optional <;> cases h6 : y.1.1.dflt <;> simp_all

theorem denote_object {fmt k u ms fs} (hd : DistinctNames ms) (hf : FieldsOk fmt u ms fs) :
    denote fmt (.object k u ms) (.obj fs) = finishObject k ms (ms.map (memberHolds fmt fs)) (!fs.isEmpty) := by
  unfold denote
  simp only
  rw [denFields_object hd fs _ false (by simp [noSlots]) hf, slotsAfter_noSlots]; simp

theorem isEmpty_of_ne {α} {l : List α} (h : l ≠ []) : (!l.isEmpty) = true := by cases l <;> simp_all

/-! ### C03, C31 -/

/-- C03 for whole documents: a non-empty JSON object all of whose fields are accepted, read by an `Object` or
`SCustomObject`, is accepted if every mandatory member holds something after its last field; then the object is
set and every member holds exactly what its own parser makes of the last field with its name (C31). -/
theorem C03_object_accepted (hE : Passive E) {s : St} {p k u ms fs} (hx : Expecting R s p (.object k u ms)) (hk : k ≠ .auto)
    (hw : (Shape.object k u ms).wf = true) (hdist : DistinctNames ms)
    (hok : okVal (.object k u ms) (.obj fs) = true) (hfs : fs ≠ []) (hf : FieldsOk E.fmtDbl u ms fs)
    (hall : ∀ (n : Nat) x, ms[n]? = some x → x.1.optional = false → (memberHolds E.fmtDbl fs x).isSet = true) :
    ∃ s1, Completes E R s p (.obj fs) s1 ∧ isSet p s1 = true ∧
      ∀ (n : Nat) x, ms[n]? = some x → Holds s1.heap (.mem n :: p) (memberHolds E.fmtDbl fs x) := by
  have hden : denote E.fmtDbl (.object k u ms) (.obj fs) =
      .ok (.obj (if k = .custom then some .init else none) (ms.map (memberHolds E.fmtDbl fs))) := by
    rw [denote_object hdist hf, isEmpty_of_ne hfs]
    have hm := missing_map_none hall
    cases k with
    | auto => exact absurd rfl hk
    | plain => simp [finishObject, hm]
    | custom => simp [finishObject, hm]
  obtain ⟨s1, h1, h2, _⟩ := parse_at_ok hE hx hw hok hden
  refine ⟨s1, h1, h2.1, ?_⟩
  intro n x hn
  have := h2.2.2.get (m := n) (d := memberHolds E.fmtDbl fs x) (by simp [hn])
  rwa [Nat.zero_add] at this

/-- C03 for whole documents: if some mandatory member holds nothing at the end (absent, null or `{}`), reading fails,
naming the one declared last. -/
theorem C03_object_refused (hE : Passive E) {s : St} {p k u ms fs} {n : Nat} {x : MInfo × Shape} {nm : String} (hx : Expecting R s p (.object k u ms)) (hk : k ≠ .auto)
    (hw : (Shape.object k u ms).wf = true) (hdist : DistinctNames ms)
    (hok : okVal (.object k u ms) (.obj fs) = true) (hfs : fs ≠ []) (hf : FieldsOk E.fmtDbl u ms fs)
    (hn : ms[n]? = some x) (hnm : x.1.name = .str nm) (hman : x.1.optional = false)
    (hun : (memberHolds E.fmtDbl fs x).isSet = false)
    (hlast : ∀ (n' : Nat) y, n < n' → ms[n']? = some y → y.1.optional = false → (memberHolds E.fmtDbl fs y).isSet = true) :
    Fails E R s (.obj fs) ("Mandatory member " ++ nm ++ " is not present") := by
  refine parse_at_error hE hx hw hok ?_
  rw [denote_object hdist hf, isEmpty_of_ne hfs]
  have hm := missing_map_last hn hman hun hlast
  cases k with
  | auto => exact absurd rfl hk
  | plain => simp [finishObject, hm, hnm, showName]
  | custom => simp [finishObject, hm, hnm, showName]

/-- C31: after reading an object, a member that stores values has, as its `get()`, the value of the LAST field with its name; a member
whose last field is null (C02) or that has no field is unset. -/
theorem C31_last_wins (hE : Passive E) {s : St} {p k u ms fs} (hx : Expecting R s p (.object k u ms)) (hk : k ≠ .auto)
    (hw : (Shape.object k u ms).wf = true) (hdist : DistinctNames ms)
    (hok : okVal (.object k u ms) (.obj fs) = true) (hfs : fs ≠ []) (hf : FieldsOk E.fmtDbl u ms fs)
    (hall : ∀ (n : Nat) x, ms[n]? = some x → x.1.optional = false → (memberHolds E.fmtDbl fs x).isSet = true) :
    ∃ s1, Completes E R s p (.obj fs) s1 ∧ isSet p s1 = true ∧ ∀ (n : Nat) x nm, ms[n]? = some x → x.1.name = .str nm →
      (∀ j d v, lastField nm fs = some j → denote E.fmtDbl x.2 j = .ok d → d.value? = some v → get (.mem n :: p) s1 = .ok v s1) ∧
      (lastField nm fs = some .null ∨ lastField nm fs = none → isSet (.mem n :: p) s1 = false) := by
  obtain ⟨s1, h1, h2, hh⟩ := C03_object_accepted hE hx hk hw hdist hok hfs hf hall
  refine ⟨s1, h1, h2, fun n x nm hn hnm => ⟨fun j d v hl hd hv => ?_, fun hl => ?_⟩⟩
  · have := hh n x hn
    unfold memberHolds at this
    simp only [hnm, hl, hd] at this
    cases d with
    | val w => simp only [D.value?, Option.some.injEq] at hv; subst hv; simp only [Holds] at this; simp [get, this.1, this.2]
    | obj w ds => simp only [D.value?] at hv; subst hv; simp only [Holds] at this; simp [get, this.1, this.2.1 v rfl]
    | _ => simp [D.value?] at hv
  · have := hh n x hn
    unfold memberHolds at this
    simp only [hnm] at this
    rcases hl with hl | hl <;> rw [hl] at this <;> simpa [denote, Holds, isSet] using this

/-- C31, C03: a mandatory member whose last field is null counts as absent, whatever its earlier fields were; the object is refused, naming the
last such member. -/
theorem C31_last_null_refused (hE : Passive E) {s : St} {p k u ms fs} {n : Nat} {x : MInfo × Shape} {nm : String} (hx : Expecting R s p (.object k u ms))
    (hk : k ≠ .auto) (hw : (Shape.object k u ms).wf = true) (hdist : DistinctNames ms)
    (hok : okVal (.object k u ms) (.obj fs) = true) (hf : FieldsOk E.fmtDbl u ms fs)
    (hn : ms[n]? = some x) (hnm : x.1.name = .str nm) (hman : x.1.optional = false) (hl : lastField nm fs = some .null)
    (hlast : ∀ (n' : Nat) y, n < n' → ms[n']? = some y → y.1.optional = false → (memberHolds E.fmtDbl fs y).isSet = true) :
    Fails E R s (.obj fs) ("Mandatory member " ++ nm ++ " is not present") :=
  C03_object_refused hE hx hk hw hdist hok (by rintro rfl; simp [lastField] at hl) hf hn hnm hman
    (by simp [memberHolds, hnm, hl, denote, D.isSet]) hlast

/-! ### C04 -/

/-- C04 for whole documents: the first unknown field makes an object with the default options fail, whatever the
accepted fields before it and whatever its value and the fields after it. -/
theorem C04_document (hE : Passive E) {s : St} {p k ms pre key v post} (hx : Expecting R s p (.object k true ms))
    (hw : (Shape.object k true ms).wf = true) (hdist : DistinctNames ms)
    (hok : okVal (.object k true ms) (.obj (pre ++ (key, v) :: post)) = true) (hf : FieldsOk E.fmtDbl true ms pre)
    (hun : ∀ x ∈ ms, x.1.name ≠ .str key) :
    Fails E R s (.obj (pre ++ (key, v) :: post)) ("Unexpected member " ++ key) := by
  refine parse_at_error hE hx hw hok ?_
  unfold denote
  simp only
  refine denFields_object_error hdist ?_ pre _ false (by simp [noSlots]) hf
  have : lookup (.str key) 0 ms = none := lookup_none.2 fun y hy => by
    have := hun y hy
    cases hc : y.1.name.cppEq (.str key) with
    | false => rfl
    | true => exact absurd (cppEq_str.1 hc) this
  rw [this]; exact ⟨rfl, rfl⟩

/-- A field that its member's parser refuses makes the object fail with the member's error. -/
theorem C03_member_error (hE : Passive E) {s : St} {p k u ms pre key v post n m e} (hx : Expecting R s p (.object k u ms))
    (hw : (Shape.object k u ms).wf = true) (hdist : DistinctNames ms)
    (hok : okVal (.object k u ms) (.obj (pre ++ (key, v) :: post)) = true) (hf : FieldsOk E.fmtDbl u ms pre)
    (hl : lookup (.str key) 0 ms = some (n, m)) (hm : embedded m v = none) (hv : denote E.fmtDbl m v = .error e) :
    Fails E R s (.obj (pre ++ (key, v) :: post)) e := by
  refine parse_at_error hE hx hw hok ?_
  unfold denote
  simp only
  refine denFields_object_error hdist ?_ pre _ false (by simp [noSlots]) hf
  rw [hl]; exact ⟨hv, hm⟩

/-! ### C07 -/

/-- C07 for whole documents: `{}` is accepted by every object and standalone union parser, whatever its members, and leaves
it unset; no callback is called. -/
theorem C07_document (hE : Passive E) {s : St} {p sh} (hx : Expecting R s p sh)
    (hsh : (∃ k u ms, sh = .object k u ms) ∨ ∃ ty tm st ms, sh = .union ty tm st ms ∧ tm ≠ "") (hw : sh.wf = true) :
    ∃ s1, Completes E R s p (.obj []) s1 ∧ isSet p s1 = false ∧ s1.log = s.log := by
  have hok : okVal sh (.obj []) = true := by
    rcases hsh with ⟨k, u, ms, rfl⟩ | ⟨ty, tm, st, ms, rfl, _⟩ <;> simp [okVal, okFields]
  have hden : denote E.fmtDbl sh (.obj []) = .ok .unset ∧ (denoteT E.fmtDbl sh p (.obj [])).calls = [] := by
    rcases hsh with ⟨k, u, ms, rfl⟩ | ⟨ty, tm, st, ms, rfl, htm⟩
    · simp [denote, denFields, finishObject, denoteT, denFieldsT, W.lift, W.bind, W.done, D.isSet]
    · simp [denote, denFields, denoteT, denFieldsT, W.lift, htm]
  obtain ⟨s1, h1, h2, h3⟩ := parse_at_ok hE hx hw hok hden.1
  rw [hden.2] at h3
  exact ⟨s1, h1, h2, h3⟩

/-! ### C12, C13 -/

/-- C12 for whole documents: an `SAutoObject` stores the tuple whose n-th component is the value of the last field with
the n-th member's name or, if this member holds nothing, its default. -/
theorem C12_document (hE : Passive E) {s : St} {p u ms fs} (hx : Expecting R s p (.object .auto u ms))
    (hw : (Shape.object .auto u ms).wf = true) (hdist : DistinctNames ms)
    (hok : okVal (.object .auto u ms) (.obj fs) = true) (hfs : fs ≠ []) (hf : FieldsOk E.fmtDbl u ms fs)
    (hall : ∀ (n : Nat) x, ms[n]? = some x → (x.1.optional = false ∨ x.1.dflt = none) → (memberHolds E.fmtDbl fs x).isSet = true) :
    ∃ s1 vs, Completes E R s p (.obj fs) s1 ∧ get p s1 = .ok (.tup vs) s1 ∧ vs.length = ms.length ∧
      ∀ (n : Nat) x, ms[n]? = some x → vs[n]? = (memberHolds E.fmtDbl fs x).value?.or x.1.dflt := by
  have hm := unfillable_map_none hall
  have hden : denote E.fmtDbl (.object .auto u ms) (.obj fs) =
      .ok (.val (.tup ((ms.zip (ms.map (memberHolds E.fmtDbl fs))).map fun x => (x.2.value?.or x.1.1.dflt).getD .init))) := by
    rw [denote_object hdist hf, isEmpty_of_ne hfs]
    simp [finishObject, hm]
  obtain ⟨s1, h1, h2, _⟩ := parse_at_ok hE hx hw hok hden
  refine ⟨s1, ((ms.zip (ms.map (memberHolds E.fmtDbl fs))).map fun x => (x.2.value?.or x.1.1.dflt).getD .init), h1, ?_, by simp, ?_⟩
  · simp [get, h2.1, h2.2]
  · intro n x hn
    rw [List.getElem?_map, zip_map_get hn]
    simp only [Option.map_some]
    have hfit : x.2.fits (memberHolds E.fmtDbl fs x) = true := by
      unfold memberHolds
      split
      · rename_i nm hname
        split
        · exact fits_unset _
        · rename_i j hj
          split
          · rename_i d hd; exact denote_fits j x.2 d (wfMs_mem (wf_object hw) hn).2.1 hd
          · exact fits_unset _
      · exact fits_unset _
    cases hset : (memberHolds E.fmtDbl fs x).isSet with
    | true =>
      obtain ⟨v, hv⟩ := fits_store hfit ((wfMs_mem (wf_object hw) hn).2.2 rfl) hset
      simp [hv]
    | false =>
      have hv : (memberHolds E.fmtDbl fs x).value? = none := by
        cases hh : memberHolds E.fmtDbl fs x <;> simp_all [D.isSet, D.value?]
      rw [hv]
      cases hdf : x.1.dflt with
      | some v => simp
      | none => rw [hall n x hn (Or.inr hdf)] at hset; simp at hset

/-- C13 for whole documents. -/
theorem C13_document (hE : Passive E) {s : St} {p u ms fs} {n : Nat} {x : MInfo × Shape} {nm : String} (hx : Expecting R s p (.object .auto u ms))
    (hw : (Shape.object .auto u ms).wf = true) (hdist : DistinctNames ms)
    (hok : okVal (.object .auto u ms) (.obj fs) = true) (hfs : fs ≠ []) (hf : FieldsOk E.fmtDbl u ms fs)
    (hn : ms[n]? = some x) (hnm : x.1.name = .str nm) (hbad : x.1.optional = false ∨ x.1.dflt = none)
    (hun : (memberHolds E.fmtDbl fs x).isSet = false)
    (hlast : ∀ (n' : Nat) y, n < n' → ms[n']? = some y → (y.1.optional = false ∨ y.1.dflt = none) → (memberHolds E.fmtDbl fs y).isSet = true) :
    Fails E R s (.obj fs) ("Can not set value: " ++ cText (if x.1.optional then "Optional member " ++ nm ++ " does not have a default value"
      else "Mandatory member " ++ nm ++ " is not present")) := by
  refine parse_at_error hE hx hw hok ?_
  rw [denote_object hdist hf, isEmpty_of_ne hfs]
  have hm := unfillable_map_last hn hbad hun hlast
  simp only [finishObject, Bool.not_true, Bool.false_eq_true, if_false, hm, hnm, showName]

/-! ### C08 -/

theorem lastField_perm {fs fs' : List (String × Json)} (hp : fs.Perm fs') (hd : (fs.map (·.1)).Nodup) (k : String) :
    lastField k fs = lastField k fs' := by
  have mem_iff : ∀ {l : List (String × Json)}, (l.map (·.1)).Nodup → ∀ {v}, lastField k l = some v ↔ (k, v) ∈ l := by
    intro l
    induction l with
    | nil => intro _ v; simp [lastField]
    | cons a l ih =>
      intro hn v
      obtain ⟨k', v'⟩ := a
      simp only [List.map_cons, List.nodup_cons] at hn
      have ih' := fun {v} => ih hn.2 (v := v)
      unfold lastField
      by_cases e : k' = k
      · subst e
        have hnone : lastField k' l = none := by
          cases hc : lastField k' l with
          | none => rfl
          | some w => exact absurd (List.mem_map.2 ⟨_, ih'.1 hc, rfl⟩) hn.1
        simp only [hnone, if_true, Option.none_or, Option.some.injEq, List.mem_cons, Prod.mk.injEq, true_and]
        constructor
        · rintro rfl; exact Or.inl rfl
        · rintro (h | h)
          · exact h.symm
          · exact absurd (List.mem_map.2 ⟨_, h, rfl⟩) hn.1
      · simp only [if_neg e, Option.or_none, ih', List.mem_cons, Prod.mk.injEq]
        constructor
        · exact Or.inr
        · rintro (h | h)
          · exact absurd h.1.symm e
          · exact h
  have hd' : (fs'.map (·.1)).Nodup := (hp.map _).nodup_iff.1 hd
  cases h1 : lastField k fs with
  | some v => exact ((mem_iff hd').2 (hp.mem_iff.1 ((mem_iff hd).1 h1))).symm
  | none =>
    cases h2 : lastField k fs' with
    | none => rfl
    | some v => rw [(mem_iff hd).2 (hp.mem_iff.2 ((mem_iff hd').1 h2))] at h1; simp at h1

theorem denote_perm {fmt k u ms} {fs fs' : List (String × Json)} (hdist : DistinctNames ms) (hne : NoEmbedded ms) (hp : fs.Perm fs')
    (hd : (fs.map (·.1)).Nodup) :
    (denote fmt (.object k u ms) (.obj fs)).toOption = (denote fmt (.object k u ms) (.obj fs')).toOption := by
  have hbadl : ∀ fs : List (String × Json), ¬ FieldsOk fmt u ms fs → (denote fmt (.object k u ms) (.obj fs)).toOption = none := by
    intro fs hn
    rcases fieldsOk_or (fmt := fmt) (u := u) (ms := ms) fs with h | ⟨pre, key, v, post, e, h1, h2, h3⟩
    · exact absurd h hn
    · subst h1
      unfold denote
      simp only
      have h3' : match lookup (.str key) 0 ms with
          | some (_, m) => denote fmt m v = .error e ∧ embedded m v = none
          | none => u = true ∧ e = "Unexpected member " ++ key := by
        cases hk : lookup (.str key) 0 ms with
        | none => rw [hk] at h3; exact h3
        | some a =>
          rw [hk] at h3
          obtain ⟨i, hi⟩ := lookup_mem (a := a.1) (sh := a.2) hk
          exact ⟨h3, embedded_none hne hi v⟩
      rw [denFields_object_error hdist h3' pre _ false (by simp [noSlots]) h2]; rfl
  by_cases hf : FieldsOk fmt u ms fs
  · have hf' : FieldsOk fmt u ms fs' := fun kv hkv => hf kv (hp.mem_iff.2 hkv)
    rw [denote_object hdist hf, denote_object hdist hf']
    have h1 : memberHolds fmt fs = memberHolds fmt fs' := by
      funext x; unfold memberHolds; split
      · rw [lastField_perm hp hd]
      · rfl
    have h2 : fs.isEmpty = fs'.isEmpty := by
      have := hp.length_eq
      cases fs <;> cases fs' <;> simp_all
    rw [h1, h2]
  · have hf' : ¬ FieldsOk fmt u ms fs' := fun h => hf fun kv hkv => h kv (hp.mem_iff.1 hkv)
    rw [hbadl fs hf, hbadl fs' hf']

/-- C08: the order of the fields (with distinct names) does not matter for an object parser: either both orders are refused, or
both are accepted and leave the parser holding the same. -/
theorem C08_order (hE : Passive E) {s : St} {p k u ms} {fs fs' : List (String × Json)} (hx : Expecting R s p (.object k u ms))
    (hw : (Shape.object k u ms).wf = true) (hdist : DistinctNames ms) (hne : NoEmbedded ms)
    (hok : okVal (.object k u ms) (.obj fs) = true) (hok' : okVal (.object k u ms) (.obj fs') = true)
    (hp : fs.Perm fs') (hd : (fs.map (·.1)).Nodup) :
    (∃ e e', Fails E R s (.obj fs) e ∧ Fails E R s (.obj fs') e') ∨
    ∃ s1 s2 d, Completes E R s p (.obj fs) s1 ∧ Completes E R s p (.obj fs') s2 ∧ Holds s1.heap p d ∧ Holds s2.heap p d := by
  have h := denote_perm (fmt := E.fmtDbl) (k := k) (u := u) hdist hne hp hd
  cases h1 : denote E.fmtDbl (.object k u ms) (.obj fs) with
  | error e =>
    cases h2 : denote E.fmtDbl (.object k u ms) (.obj fs') with
    | error e' => exact Or.inl ⟨e, e', parse_at_error hE hx hw hok h1, parse_at_error hE hx hw hok' h2⟩
    | ok d => rw [h1, h2] at h; simp [Except.toOption] at h
  | ok d =>
    cases h2 : denote E.fmtDbl (.object k u ms) (.obj fs') with
    | error e' => rw [h1, h2] at h; simp [Except.toOption] at h
    | ok d' =>
      rw [h1, h2] at h; simp [Except.toOption] at h
      subst h
      obtain ⟨s1, a1, a2, _⟩ := parse_at_ok hE hx hw hok h1
      obtain ⟨s2, b1, b2, _⟩ := parse_at_ok hE hx hw hok' h2
      exact Or.inr ⟨s1, s2, d, a1, b1, a2, b2⟩

/-! ### The hypotheses are met -/

section Examples
open Demo

/-- `{"part":` has been read by `Demo.outer`, with callbacks everywhere: the inner object is expected. -/
def sInner : St := after accepting outer [.mapStart, .mapKey "part"] (St.init outer)

theorem sInner_expecting : Expecting outer sInner [.mem 1] inner := by
  obtain ⟨s', h, hx⟩ := Expecting.member (E := accepting) (key := "part") (n := 1) (m := inner) (Ready.init outer).expecting rfl
  have := after_ok (E := accepting) (R := outer) (ts := [.mapStart, .mapKey "part"]) (s := St.init outer) (by decide +kernel)
  rw [this] at h
  injection h with _ h
  subst h; exact hx

def outerMs : List (MInfo × Shape) := match outer with | .object _ _ ms => ms | _ => []
def innerMs : List (MInfo × Shape) := match inner with | .object _ _ ms => ms | _ => []

/-- The fields of `Demo.doc`, with a second `name`, a repeated `part` and a null. -/
def fields : List (String × Json) := [("name", .sc (.str "x")), ("part", .obj [("tags", .arr [.sc (.str "a"), .null, .sc (.str "b")]), ("id", .sc (.int 7))]),
  ("limits", .obj [("b", .sc (.int 2)), ("a", .sc (.int 1))]), ("name", .sc (.str "y")), ("more", .arr [.sc (.int 1)]), ("part", .null)]

/-- C03_object_accepted, C31_last_wins: the last `name` is stored, the last `part` is null. -/
example : ∃ s1, Completes accepting outer (St.init outer) [] (.obj fields) s1 ∧ isSet [] s1 = true ∧
    get [.mem 0] s1 = .ok (.sc (.str "y")) s1 ∧ isSet [.mem 1] s1 = false ∧
    get [.mem 2] s1 = .ok (.map [("a", .sc (.int 1)), ("b", .sc (.int 2))]) s1 := by
  obtain ⟨s1, h1, h2, h3⟩ := C31_last_wins (R := outer) accepting_passive (ms := outerMs) (fs := fields) (Ready.init outer).expecting (by decide)
    (by decide +kernel) (distinctB_sound (by decide +kernel)) (by decide +kernel) (by simp [fields]) (fieldsOkB_sound (by decide +kernel)) (by
      intro n x hn ho
      have := of_all (ms := outerMs) (fun x => x.1.optional || (memberHolds accepting.fmtDbl fields x).isSet) (by decide +kernel) n x hn
      simpa [ho] using this)
  refine ⟨s1, h1, h2, ?_, ?_, ?_⟩
  · exact (h3 0 _ "name" rfl rfl).1 (.sc (.str "y")) (.val (.sc (.str "y"))) _ rfl rfl rfl
  · exact (h3 1 _ "part" rfl rfl).2 (.inl rfl)
  · exact (h3 2 _ "limits" rfl rfl).1 _ (.val (.map [("a", .sc (.int 1)), ("b", .sc (.int 2))])) _ rfl (sameR_eq (by decide +kernel)) rfl

/-- C03_object_refused, C31_last_null_refused: `name` was there, but its last field is null. -/
example : Fails accepting outer (St.init outer) (.obj (fields ++ [("name", .null)])) "Mandatory member name is not present" :=
  C31_last_null_refused (R := outer) accepting_passive (ms := outerMs) (n := 0) (nm := "name") (Ready.init outer).expecting (by decide) (by decide +kernel)
    (distinctB_sound (by decide +kernel)) (by decide +kernel) (fieldsOkB_sound (by decide +kernel)) rfl rfl rfl rfl (by
      intro n' y hlt hn ho
      match n', hn with
      | 1, hn => simp [outerMs, outer] at hn; rw [← hn] at ho; cases ho
      | 2, hn => simp [outerMs, outer] at hn; rw [← hn] at ho; cases ho)

/-- C04_document, inside a document: `part` does not know `more`; an array with a null follows, which would be refused. -/
example : Fails accepting outer sInner (.obj ([("id", .sc (.int 1))] ++ ("more", .arr [.null]) :: [("id", .arr [])])) "Unexpected member more" :=
  C04_document accepting_passive (ms := innerMs) sInner_expecting (by decide +kernel) (distinctB_sound (by decide +kernel)) (by decide +kernel)
    (fieldsOkB_sound (by decide +kernel)) (by intro x hx; simp [innerMs, inner] at hx; rcases hx with rfl | rfl <;> decide)

/-- C03_member_error: the error of a member is the error of the object. -/
example : Fails accepting outer sInner (.obj ([("id", .sc (.int 1))] ++ ("tags", .arr [.sc (.str "a"), .sc (.int 2)]) :: [])) "Unexpected token integer" :=
  C03_member_error accepting_passive (ms := innerMs) (n := 1) (m := .array true (.value .str)) sInner_expecting (by decide +kernel) (distinctB_sound (by decide +kernel))
    (by decide +kernel) (fieldsOkB_sound (by decide +kernel)) rfl rfl (sameR_eq (by decide +kernel))

/-- C07_document: `{}`, although `name` is mandatory; also inside a document and for a union. -/
example : (∃ s1, Completes accepting outer (St.init outer) [] (.obj []) s1 ∧ isSet [] s1 = false ∧ s1.log = []) ∧
    (∃ s1, Completes accepting outer sInner [.mem 1] (.obj []) s1 ∧ isSet [.mem 1] s1 = false ∧ s1.log = sInner.log) ∧
    (∃ s1, Completes accepting choice (St.init choice) [] (.obj []) s1 ∧ isSet [] s1 = false ∧ s1.log = []) :=
  ⟨C07_document accepting_passive (Ready.init outer).expecting (.inl ⟨_, _, _, rfl⟩) (by decide +kernel),
   C07_document accepting_passive sInner_expecting (.inl ⟨_, _, _, rfl⟩) (by decide +kernel),
   C07_document accepting_passive (Ready.init choice).expecting (.inr ⟨_, _, _, _, rfl, by decide⟩) (by decide +kernel)⟩

/-- C12_document: without `tags`, which has a default. -/
example : ∃ s1, Completes accepting outer sInner [.mem 1] (.obj [("id", .sc (.int 1)), ("id", .sc (.int 3))]) s1 ∧
    get [.mem 1] s1 = .ok (.tup [.sc (.int 3), .arr []]) s1 := by
  obtain ⟨s1, vs, h1, h2, h3, h4⟩ := C12_document (R := outer) accepting_passive (ms := innerMs) (fs := [("id", .sc (.int 1)), ("id", .sc (.int 3))]) sInner_expecting
    (by decide +kernel) (distinctB_sound (by decide +kernel)) (by decide +kernel) (by simp) (fieldsOkB_sound (by decide +kernel)) (by
      intro n x hn ho
      have := of_all (ms := innerMs) (fun x => (x.1.optional && x.1.dflt.isSome) || (memberHolds accepting.fmtDbl [("id", .sc (.int 1)), ("id", .sc (.int 3))] x).isSet) (by decide +kernel) n x hn
      rcases ho with ho | ho <;> simpa [ho] using this)
  refine ⟨s1, h1, ?_⟩
  have e0 := h4 0 _ rfl
  have e1 := h4 1 _ rfl
  match vs, h3, e0, e1 with
  | [a, b], _, e0, e1 =>
    simp only [List.getElem?_cons_zero, List.getElem?_cons_succ] at e0 e1
    have : some a = some (Val.sc (.int 3)) := e0
    have h5 : some b = some (Val.arr []) := e1
    injection this with this; injection h5 with h5
    rw [h2, this, h5]

/-- C13_document: without `id`. -/
example : Fails accepting outer sInner (.obj [("tags", .arr [])]) "Can not set value: Mandatory member id is not present" := by
  have := C13_document (R := outer) accepting_passive (ms := innerMs) (fs := [("tags", .arr [])]) (n := 0) (nm := "id") sInner_expecting
    (by decide +kernel) (distinctB_sound (by decide +kernel)) (by decide +kernel) (by simp) (fieldsOkB_sound (by decide +kernel)) rfl rfl (.inl rfl) (by decide +kernel) (by
      intro n' y hlt hn ho
      match n', hn with
      | 1, hn => simp [innerMs, inner] at hn; rw [← hn] at ho; simp at ho)
  exact this

/-- C08_order: `Demo.doc` and its fields in reverse. -/
def docFields : List (String × Json) := match doc with | .obj fs => fs | _ => []
example : (∃ e e', Fails accepting outer (St.init outer) (.obj docFields) e ∧ Fails accepting outer (St.init outer) (.obj docFields.reverse) e') ∨
    ∃ s1 s2 d, Completes accepting outer (St.init outer) [] (.obj docFields) s1 ∧ Completes accepting outer (St.init outer) [] (.obj docFields.reverse) s2 ∧
      Holds s1.heap [] d ∧ Holds s2.heap [] d :=
  C08_order accepting_passive (ms := outerMs) (Ready.init outer).expecting (by decide +kernel) (distinctB_sound (by decide +kernel))
    (noEmbeddedB_sound (by decide +kernel)) (by decide +kernel) (by decide +kernel) (List.reverse_perm _).symm (by decide +kernel)

end Examples

end SJ
