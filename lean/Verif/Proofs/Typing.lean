/-
What `denote` yields has the type of the parser.
-/
import Verif.Proofs.Sim
import Verif.SpecTrace

set_option linter.unusedVariables false

namespace SJ

theorem except_bind_ok {ε α β} {m : Except ε α} {f : α → Except ε β} {b} (h : (m >>= f) = .ok b) :
    ∃ a, m = .ok a ∧ f a = .ok b := by
  cases m with
  | error e => simp [bind, Except.bind] at h
  | ok a => exact ⟨a, rfl, h⟩

theorem wfMs_mem : ∀ {ty st} {ms : List (MInfo × Shape)} {n : Nat} {i : MInfo} {sh : Shape}, wfMs ty st ms = true →
    ms[n]? = some (i, sh) → i.name.ty = ty ∧ sh.wf = true ∧ (st = true → sh.isStorage = true)
  | ty, st, [], n, i, sh, hw, hm => by simp at hm
  | ty, st, (i', sh') :: ms, 0, i, sh, hw, hm => by
    simp at hm; obtain ⟨rfl, rfl⟩ := hm
    simp only [wfMs, Bool.and_eq_true, Bool.or_eq_true, Bool.not_eq_true', beq_iff_eq] at hw
    exact ⟨hw.1.1.1.1, hw.1.1.1.2, fun h => by rcases hw.1.1.2 with h' | h' <;> simp_all⟩
  | ty, st, (i', sh') :: ms, n + 1, i, sh, hw, hm => by
    simp only [wfMs, Bool.and_eq_true] at hw
    exact wfMs_mem hw.2 (by simpa using hm)

theorem wf_object {k u ms} (hw : (Shape.object k u ms).wf = true) : wfMs .str (k == .auto) ms = true := by
  simpa [Shape.wf] using hw
theorem wf_union {ty tm st ms} (hw : (Shape.union ty tm st ms).wf = true) : wfMs ty st ms = true := by
  simpa [Shape.wf] using hw
theorem wf_array {st e} (hw : (Shape.array st e).wf = true) : e.wf = true ∧ (st = true → e.isStorage = true) := by
  simp only [Shape.wf, Bool.and_eq_true, Bool.or_eq_true, Bool.not_eq_true'] at hw
  exact ⟨hw.1, fun h => by rcases hw.2 with h' | h' <;> simp_all⟩
theorem wf_map {st e} (hw : (Shape.map st e).wf = true) : e.wf = true ∧ (st = true → e.isStorage = true) := by
  simp only [Shape.wf, Bool.and_eq_true, Bool.or_eq_true, Bool.not_eq_true'] at hw
  exact ⟨hw.1, fun h => by rcases hw.2 with h' | h' <;> simp_all⟩


mutual
/-- What a parser of this shape can hold. -/
def Shape.fits : Shape → D → Bool
  | .value ty, d => match d with
    | .unset => true
    | .val v => hasType (.value ty) v
    | _ => false
  | .ignore, d => match d with
    | .unset => true
    | .done => true
    | _ => false
  | .object k u ms, d => match d with
    | .unset => true
    | .val v => k == .auto && hasType (.object k u ms) v
    | .obj v ds => k != .auto && (v.isSome == (k == .custom)) && fitsL ms ds
    | _ => false
  | .union ty tm st ms, d => match d with
    | .unset => true
    | .val v => hasType (.union ty tm st ms) v
    | .alt n d => !st && fitsAlt ms n d
    | _ => false
  | .array st e, d => match d with
    | .unset => true
    | .val v => hasType (.array st e) v
    | .done => !st
    | _ => false
  | .map st e, d => match d with
    | .unset => true
    | .val v => hasType (.map st e) v
    | .done => !st
    | _ => false
def fitsL : List (MInfo × Shape) → List D → Bool
  | [], [] => true
  | (_, sh) :: ms, d :: ds => sh.fits d && fitsL ms ds
  | _, _ => false
def fitsAlt : List (MInfo × Shape) → Nat → D → Bool
  | [], _, _ => false
  | (_, sh) :: _, 0, d => sh.fits d
  | _ :: ms, n + 1, d => fitsAlt ms n d
end

theorem fits_unset (sh : Shape) : sh.fits .unset = true := by cases sh <;> simp [Shape.fits]

theorem fitsL_length : ∀ {ms ds}, fitsL ms ds = true → ds.length = ms.length
  | [], [], _ => rfl
  | [], d :: ds, h => by simp [fitsL] at h
  | x :: ms, [], h => by simp [fitsL] at h
  | (i, sh) :: ms, d :: ds, h => by
    simp only [fitsL, Bool.and_eq_true] at h
    simp [fitsL_length h.2]

theorem fitsL_get : ∀ {ms : List (MInfo × Shape)} {ds : List D} {n : Nat} {i sh d}, fitsL ms ds = true → ms[n]? = some (i, sh) → ds[n]? = some d → sh.fits d = true
  | [], _, n, i, sh, d, h, h1, h2 => by simp at h1
  | x :: ms, [], n, i, sh, d, h, h1, h2 => by simp at h2
  | (i', sh') :: ms, d' :: ds, 0, i, sh, d, h, h1, h2 => by
    simp only [fitsL, Bool.and_eq_true] at h
    simp at h1 h2; obtain ⟨rfl, rfl⟩ := h1; subst h2; exact h.1
  | (i', sh') :: ms, d' :: ds, n + 1, i, sh, d, h, h1, h2 => by
    simp only [fitsL, Bool.and_eq_true] at h
    exact fitsL_get h.2 (by simpa using h1) (by simpa using h2)

theorem fitsL_set : ∀ {ms : List (MInfo × Shape)} {ds : List D} {n : Nat} {i sh d}, fitsL ms ds = true → ms[n]? = some (i, sh) → sh.fits d = true →
    fitsL ms (ds.set n d) = true
  | [], [], n, i, sh, d, h, h1, h2 => by simp at h1
  | [], d' :: ds, n, i, sh, d, h, h1, h2 => by simp at h1
  | x :: ms, [], n, i, sh, d, h, h1, h2 => by simp [fitsL] at h
  | (i', sh') :: ms, d' :: ds, 0, i, sh, d, h, h1, h2 => by
    simp only [fitsL, Bool.and_eq_true] at h
    simp at h1; obtain ⟨rfl, rfl⟩ := h1
    simp [fitsL, h2, h.2]
  | (i', sh') :: ms, d' :: ds, n + 1, i, sh, d, h, h1, h2 => by
    simp only [fitsL, Bool.and_eq_true] at h
    simp only [List.set_cons_succ, fitsL, Bool.and_eq_true]
    exact ⟨h.1, fitsL_set h.2 (by simpa using h1) h2⟩

theorem fitsL_none : ∀ (ms : List (MInfo × Shape)), fitsL ms (ms.map fun _ => .unset) = true
  | [] => rfl
  | (i, sh) :: ms => by simp [fitsL, fits_unset, fitsL_none ms]

theorem fitsAlt_get : ∀ {ms : List (MInfo × Shape)} {n : Nat} {i sh d}, ms[n]? = some (i, sh) → fitsAlt ms n d = sh.fits d
  | [], n, i, sh, d, h => by simp at h
  | (i', sh') :: ms, 0, i, sh, d, h => by simp at h; obtain ⟨rfl, rfl⟩ := h; simp [fitsAlt]
  | x :: ms, n + 1, i, sh, d, h => by simp only [fitsAlt]; exact fitsAlt_get (by simpa using h)

theorem hasAltType_get : ∀ {ms : List (MInfo × Shape)} {n : Nat} {i sh v}, ms[n]? = some (i, sh) → hasAltType ms n v = hasType sh v
  | [], n, i, sh, d, h => by simp at h
  | (i', sh') :: ms, 0, i, sh, d, h => by simp at h; obtain ⟨rfl, rfl⟩ := h; simp [hasAltType]
  | x :: ms, n + 1, i, sh, d, h => by simp only [hasAltType]; exact hasAltType_get (by simpa using h)

/-- The value a parser holds has the parser's type. -/
theorem fits_value {sh : Shape} {d v} (h : sh.fits d = true) (hv : d.value? = some v) : hasType sh v = true := by
  cases d <;> simp [D.value?] at hv
  · subst hv
    cases sh <;> simp only [Shape.fits] at h <;> first | exact h | (simp only [Bool.and_eq_true] at h; exact h.2) | simp at h
  · subst hv
    cases sh <;> simp only [Shape.fits] at h <;> simp_all
    rename_i k _ _ _
    cases k <;> simp_all [hasType]

/-- A set storage parser has a value. -/
theorem fits_store {sh : Shape} {d} (h : sh.fits d = true) (hs : sh.isStorage = true) (hd : d.isSet = true) :
    ∃ v, d.value? = some v := by
  cases d <;> simp [D.isSet, D.value?] at *
  · cases sh with
    | object k u ms =>
      simp only [Shape.fits, Bool.and_eq_true] at h
      simp only [Shape.isStorage] at hs
      cases k <;> simp at h hs
      exact Option.isSome_iff_exists.1 h.1
    | _ => simp [Shape.fits] at h
  · cases sh <;> simp_all [Shape.fits, Shape.isStorage]
  · cases sh <;> simp_all [Shape.fits, Shape.isStorage]

theorem wfMs_dflt : ∀ {ty st} {ms : List (MInfo × Shape)} {n : Nat} {i : MInfo} {sh : Shape} {v}, wfMs ty st ms = true →
    ms[n]? = some (i, sh) → i.dflt = some v → hasType sh v = true
  | ty, st, [], n, i, sh, v, hw, hm, hv => by simp at hm
  | ty, st, (i', sh') :: ms, 0, i, sh, v, hw, hm, hv => by
    simp at hm; obtain ⟨rfl, rfl⟩ := hm
    simp only [wfMs, Bool.and_eq_true, hv] at hw
    exact hw.1.2.2
  | ty, st, (i', sh') :: ms, n + 1, i, sh, v, hw, hm, hv => by
    simp only [wfMs, Bool.and_eq_true] at hw
    exact wfMs_dflt hw.2 (by simpa using hm) hv

theorem tup_types : ∀ {ms slots}, wfMs .str true ms = true → fitsL ms slots = true → unfillable ms slots = [] →
    hasTypes ms ((ms.zip slots).map fun x => (x.2.value?.or x.1.1.dflt).getD .init) = true
  | [], [], _, _, _ => rfl
  | [], d :: ds, _, h, _ => by simp [fitsL] at h
  | x :: ms, [], _, h, _ => by simp [fitsL] at h
  | (i, sh) :: ms, d :: ds, hw, hf, hu => by
    have h0 := wfMs_mem (n := 0) (i := i) (sh := sh) hw (by simp)
    have hdf : ∀ v, i.dflt = some v → hasType sh v = true := fun v hv => wfMs_dflt (n := 0) hw (i := i) (sh := sh) (by simp) hv
    simp only [wfMs, Bool.and_eq_true] at hw
    simp only [fitsL, Bool.and_eq_true] at hf
    simp only [unfillable, List.zip_cons_cons, List.filter_cons] at hu
    have hu' : unfillable ms ds = [] ∧ (!d.isSet && (!i.optional || i.dflt.isNone)) = false := by
      split at hu
      · simp at hu
      · rename_i h; exact ⟨by simpa [unfillable] using hu, by simpa only [Bool.not_eq_true] using h⟩
    simp only [List.zip_cons_cons, List.map_cons, hasTypes, Bool.and_eq_true]
    refine ⟨?_, tup_types hw.2 hf.2 hu'.1⟩
    cases hv : d.value? with
    | some v => simp; exact fits_value hf.1 hv
    | none =>
      have hset : d.isSet = false := by
        cases hd : d.isSet with
        | false => rfl
        | true => obtain ⟨v, h⟩ := fits_store hf.1 (h0.2.2 rfl) hd; rw [hv] at h; simp at h
      rw [hset] at hu'
      cases hdd : i.dflt with
      | none => rw [hdd] at hu'; simp at hu'
      | some v => simp; exact hdf v hdd

theorem finishObject_fits {k u ms slots ne d} (hw : (Shape.object k u ms).wf = true) (hf : fitsL ms slots = true)
    (h : finishObject k ms slots ne = .ok d) : (Shape.object k u ms).fits d = true := by
  unfold finishObject at h
  split at h
  · injection h with h; subst h; exact fits_unset _
  · split at h
    · split at h
      · simp at h
      · rename_i hu
        injection h with h; subst h
        simp only [Shape.fits, beq_self_eq_true, Bool.true_and, hasType]
        exact tup_types (by simpa [Shape.wf] using hw) hf (by simpa using hu)
    · rename_i hk
      split at h
      · simp at h
      · injection h with h; subst h
        cases k <;> simp_all [Shape.fits]

theorem finishUnion_fits {ty tm st ms a i ash d d'} (hw : (Shape.union ty tm st ms).wf = true) (hm : ms[a]? = some (i, ash))
    (hf : ash.fits d = true) (h : finishUnion st ms a d = .ok d') : (Shape.union ty tm st ms).fits d' = true := by
  unfold finishUnion at h
  rw [hm] at h
  simp only at h
  cases st with
  | false =>
    simp only [Bool.not_false, if_true] at h
    split at h
    · simp at h
    · injection h with h; subst h
      simp [Shape.fits, fitsAlt_get hm, hf]
  | true =>
    simp only [Bool.not_true, Bool.false_eq_true, if_false] at h
    split at h
    · rename_i v hv
      injection h with h; subst h
      simp [Shape.fits, hasType, hasAltType_get hm, fits_value hf hv]
    · split at h
      · split at h
        · rename_i v hv
          injection h with h; subst h
          simp [Shape.fits, hasType, hasAltType_get hm, wfMs_dflt (wf_union hw) hm hv]
        · simp at h
      · simp at h

theorem mapInsert_types {e k v} : ∀ {ents : List (String × Val)}, (ents.all fun kv => hasType e kv.2) = true → hasType e v = true →
    ((mapInsert k v ents).all fun kv => hasType e kv.2) = true
  | [], h, hv => by simp [mapInsert, hv]
  | (k', v') :: r, h, hv => by
    simp only [List.all_cons, Bool.and_eq_true] at h
    unfold mapInsert
    split
    · simp only [List.all_cons, Bool.and_eq_true]; exact ⟨hv, h⟩
    · split
      · simp only [List.all_cons, Bool.and_eq_true]; exact h
      · simp only [List.all_cons, Bool.and_eq_true]; exact ⟨h.1, mapInsert_types h.2 hv⟩

theorem storeEntry_types {st e k d ents ents'} (hf : e.fits d = true) (he : st = true → (ents.all fun kv => hasType e kv.2) = true)
    (h : storeEntry st k d ents = .ok ents') : st = true → (ents'.all fun kv => hasType e kv.2) = true := by
  intro hst
  unfold storeEntry at h
  rw [if_pos hst] at h
  split at h
  · rename_i v hv
    injection h with h; subst h
    exact mapInsert_types (he hst) (fits_value hf hv)
  · simp at h

theorem finishMap_fits {st e ents} (he : st = true → (ents.all fun kv => hasType e kv.2) = true) :
    (Shape.map st e).fits (finishMap st ents) = true := by
  cases st <;> simp [finishMap, Shape.fits, hasType]
  simpa using he

/-- The invariant on what was read so far. -/
def AccFits (sh : Shape) (slots : List D) (ents : List (String × Val)) : Prop :=
  match sh with
  | .object _ _ ms => fitsL ms slots = true
  | .map st e => st = true → (ents.all fun kv => hasType e kv.2) = true
  | _ => True

theorem AccFits.none (sh) : AccFits sh (noSlots sh) [] := by
  cases sh <;> simp only [AccFits]
  · exact fitsL_none _
  · simp

mutual
theorem denote_fits {fmt} : ∀ (j : Json) (sh : Shape) (d : D), sh.wf = true → denote fmt sh j = .ok d → sh.fits d = true
  | .null, sh, d, hw, h => by
    unfold denote at h; injection h with h; subst h; exact fits_unset _
  | .sc x, sh, d, hw, h => by
    unfold denote at h
    cases sh <;> simp only at h
    case value ty =>
      split at h
      · rename_i hx
        injection h with h; subst h; simp [Shape.fits, hasType, hx]
      · simp at h
    case ignore => injection h with h; subst h; simp [Shape.fits]
    all_goals simp at h
  | .arr l, sh, d, hw, h => by
    unfold denote at h
    cases sh <;> simp only at h
    case array st e =>
      cases hl : denElems fmt st e l with
      | error m => rw [hl] at h; simp [Except.map] at h
      | ok vs =>
        rw [hl] at h; simp only [Except.map] at h
        injection h with h; subst h
        have := denElems_fits l st e vs (wf_array hw).1 hl
        cases st <;> simp [Shape.fits, hasType]
        simpa using this
    case ignore => injection h with h; subst h; simp [Shape.fits]
    all_goals simp at h
  | .obj fs, sh, d, hw, h => by
    unfold denote at h
    cases sh <;> simp only at h
    case ignore => injection h with h; subst h; simp [Shape.fits]
    case object => exact denFields_fits fs _ _ _ _ d hw (AccFits.none _) h
    case map => exact denFields_fits fs _ _ _ _ d hw (AccFits.none _) h
    case union =>
      split at h
      · simp at h
      · exact denFields_fits fs _ _ _ _ d hw (AccFits.none _) h
    all_goals simp at h
theorem denFields_fits {fmt} : ∀ (fs : List (String × Json)) (sh : Shape) (slots ents ne) (d : D), sh.wf = true →
    AccFits sh slots ents → denFields fmt sh slots ents ne fs = .ok d → sh.fits d = true
  | [], sh, slots, ents, ne, d, hw, ha, h => by
    unfold denFields at h
    cases sh <;> simp only at h
    case object => exact finishObject_fits hw ha h
    case map => injection h with h; subst h; exact finishMap_fits ha
    case union => injection h with h; subst h; exact fits_unset _
    all_goals simp at h
  | (k, v) :: fs, sh, slots, ents, ne, d, hw, ha, h => by
    unfold denFields at h
    cases sh <;> simp only at h
    case object kd u ms =>
      split at h
      · rename_i n m hl
        obtain ⟨i, hi⟩ := lookup_mem hl
        have hwm := wfMs_mem (wf_object hw) hi
        split at h
        · rename_i ty st ms' x he
          obtain ⟨rfl, rfl, hx⟩ := embedded_some he
          obtain ⟨a, h1, h⟩ := except_bind_ok h
          obtain ⟨d1, h2, h⟩ := except_bind_ok h
          obtain ⟨d2, h3, h⟩ := except_bind_ok h
          have hla : lookup x 0 ms' = some a := by
            unfold selectAlt at h1; split at h1
            · rename_i hl'; injection h1 with h1; subst h1; exact hl'
            · simp at h1
          obtain ⟨i', hi'⟩ := lookup_mem (a := a.1) (sh := a.2) hla
          have hwa := wfMs_mem (wf_union hwm.2.1) hi'
          have hd1 := denFields_fits fs _ _ _ _ d1 hwa.2.1 (AccFits.none _) h2
          have hd2 := finishUnion_fits hwm.2.1 hi' hd1 h3
          exact finishObject_fits hw (fitsL_set ha hi hd2) h
        · obtain ⟨d1, h1, h⟩ := except_bind_ok h
          have hd1 := denote_fits v m d1 hwm.2.1 h1
          exact denFields_fits fs (.object kd u ms) _ _ _ d hw (show AccFits (.object kd u ms) _ [] from fitsL_set ha hi hd1) h
      · split at h
        · simp at h
        · exact denFields_fits fs (.object kd u ms) _ _ _ d hw (show AccFits (.object kd u ms) slots [] from ha) h
    case union ty tm st ms =>
      split at h
      · simp at h
      · split at h
        · simp at h
        · cases v with
          | sc x =>
            simp only at h
            split at h
            · obtain ⟨a, h1, h⟩ := except_bind_ok h
              obtain ⟨d1, h2, h⟩ := except_bind_ok h
              have hla : lookup x 0 ms = some a := by
                unfold selectAlt at h1; split at h1
                · rename_i hl'; injection h1 with h1; subst h1; exact hl'
                · simp at h1
              obtain ⟨i', hi'⟩ := lookup_mem (a := a.1) (sh := a.2) hla
              have hwa := wfMs_mem (wf_union hw) hi'
              have hd1 := denFields_fits fs _ _ _ _ d1 hwa.2.1 (AccFits.none _) h2
              exact finishUnion_fits hw hi' hd1 h
            · simp at h
          | _ => simp at h
    case map st e =>
      have hwe := wf_map hw
      split at h
      · rename_i ty st' ms' x he
        obtain ⟨rfl, rfl, hx⟩ := embedded_some he
        obtain ⟨a, h1, h⟩ := except_bind_ok h
        obtain ⟨d1, h2, h⟩ := except_bind_ok h
        obtain ⟨d2, h3, h⟩ := except_bind_ok h
        obtain ⟨en, h4, h⟩ := except_bind_ok h
        have hla : lookup x 0 ms' = some a := by
          unfold selectAlt at h1; split at h1
          · rename_i hl'; injection h1 with h1; subst h1; exact hl'
          · simp at h1
        obtain ⟨i', hi'⟩ := lookup_mem (a := a.1) (sh := a.2) hla
        have hwa := wfMs_mem (wf_union hwe.1) hi'
        have hd1 := denFields_fits fs _ _ _ _ d1 hwa.2.1 (AccFits.none _) h2
        have hd2 := finishUnion_fits hwe.1 hi' hd1 h3
        injection h with h; subst h
        exact finishMap_fits (storeEntry_types hd2 ha h4)
      · obtain ⟨d1, h1, h⟩ := except_bind_ok h
        obtain ⟨en, h4, h⟩ := except_bind_ok h
        have hd1 := denote_fits v e d1 hwe.1 h1
        exact denFields_fits fs (.map st e) _ _ _ d hw (show AccFits (.map st e) [] en from storeEntry_types hd1 ha h4) h
    all_goals simp at h
theorem denElems_fits {fmt} : ∀ (l : List Json) (st : Bool) (e : Shape) (vs : List Val), e.wf = true →
    denElems fmt st e l = .ok vs → (vs.all (hasType e)) = true
  | [], st, e, vs, hw, h => by unfold denElems at h; injection h with h; subst h; rfl
  | .null :: l, st, e, vs, hw, h => by unfold denElems at h; exact denElems_fits l st e vs hw h
  | .sc x :: l, st, e, vs, hw, h => by
    unfold denElems at h
    obtain ⟨d, h1, h⟩ := except_bind_ok h
    have hd := denote_fits (.sc x) e d hw h1
    split at h
    · split at h
      · rename_i v hv
        obtain ⟨vs', h2, h⟩ := except_bind_ok h
        injection h with h; subst h
        simp only [List.all_cons, Bool.and_eq_true]
        exact ⟨fits_value hd hv, denElems_fits l st e vs' hw h2⟩
      · simp at h
    · exact denElems_fits l st e vs hw h
  | .arr l' :: l, st, e, vs, hw, h => by
    unfold denElems at h
    obtain ⟨d, h1, h⟩ := except_bind_ok h
    have hd := denote_fits (.arr l') e d hw h1
    split at h
    · split at h
      · rename_i v hv
        obtain ⟨vs', h2, h⟩ := except_bind_ok h
        injection h with h; subst h
        simp only [List.all_cons, Bool.and_eq_true]
        exact ⟨fits_value hd hv, denElems_fits l st e vs' hw h2⟩
      · simp at h
    · exact denElems_fits l st e vs hw h
  | .obj l' :: l, st, e, vs, hw, h => by
    unfold denElems at h
    obtain ⟨d, h1, h⟩ := except_bind_ok h
    have hd := denote_fits (.obj l') e d hw h1
    split at h
    · split at h
      · rename_i v hv
        obtain ⟨vs', h2, h⟩ := except_bind_ok h
        injection h with h; subst h
        simp only [List.all_cons, Bool.and_eq_true]
        exact ⟨fits_value hd hv, denElems_fits l st e vs' hw h2⟩
      · simp at h
    · exact denElems_fits l st e vs hw h
end

variable {R : Shape}

mutual
theorem wf_at_mem : ∀ {ty st} {ms : List (MInfo × Shape)} {n : Nat} {i sh}, wfMs ty st ms = true → ms[n]? = some (i, sh) → sh.wf = true
  | ty, st, [], n, i, sh, _, h => by simp at h
  | ty, st, (i', sh') :: ms, 0, i, sh, hw, h => by
    simp at h; obtain ⟨rfl, rfl⟩ := h
    simp only [wfMs, Bool.and_eq_true] at hw
    exact hw.1.1.1.2
  | ty, st, (i', sh') :: ms, n + 1, i, sh, hw, h => by
    simp only [wfMs, Bool.and_eq_true] at hw
    exact wf_at_mem hw.2 (by simpa using h)
end

theorem wf_child {sh : Shape} {st c} (hw : sh.wf = true) (h : sh.child st = some c) : c.wf = true ∨ st = .ign := by
  cases sh with
  | value => simp [Shape.child] at h
  | ignore => simp [Shape.child] at h
  | array b e => cases st <;> simp [Shape.child] at h; subst h; exact Or.inl (wf_array hw).1
  | map b e => cases st <;> simp [Shape.child] at h; subst h; exact Or.inl (wf_map hw).1
  | object k u ms =>
    cases st with
    | mem n =>
      simp [Shape.child] at h
      obtain ⟨i, hi⟩ := h
      exact Or.inl (wf_at_mem (wf_object hw) hi)
    | ign => exact Or.inr rfl
    | elem => simp [Shape.child] at h
  | union ty tm b ms =>
    cases st with
    | mem n =>
      simp [Shape.child] at h
      obtain ⟨i, hi⟩ := h
      exact Or.inl (wf_at_mem (wf_union hw) hi)
    | ign => exact Or.inr rfl
    | elem => simp [Shape.child] at h

theorem wf_at (hw : R.wf = true) : ∀ (p : Path) (sh : Shape), R.at p = some sh → sh.wf = true ∨ sh = .ignore
  | [], sh, h => by simp [Shape.at] at h; subst h; exact Or.inl hw
  | st :: p, sh, h => by
    simp only [Shape.at, Option.bind_eq_some_iff] at h
    obtain ⟨sh', h1, h2⟩ := h
    rcases wf_at hw p sh' h1 with h3 | rfl
    · rcases wf_child h3 h2 with h4 | rfl
      · exact Or.inl h4
      · cases sh' <;> simp [Shape.child] at h2
        · exact Or.inr h2.symm
        · exact Or.inr h2.symm
    · simp [Shape.child] at h2

end SJ
