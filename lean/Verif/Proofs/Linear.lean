/-
A value is at most as large as the document it comes from, up to a factor that depends on the parser tree only.
-/
import Verif.Proofs.Typing
import Verif.Proofs.Main
import Verif.SpecSize

set_option linter.unusedVariables false

namespace SJ

/-- The size of what is stored. -/
def D.vsize (d : D) : Nat := match d.value? with
  | some v => v.size
  | none => 0

def vsizes : List D → Nat
  | [] => 0
  | d :: l => d.vsize + vsizes l

theorem D.vsize_some {d : D} {v} (h : d.value? = some v) : d.vsize = v.size := by simp [D.vsize, h]

theorem vsizes_set : ∀ (l : List D) (n : Nat) (d : D), vsizes (l.set n d) ≤ vsizes l + d.vsize
  | [], n, d => by simp [vsizes]
  | a :: l, 0, d => by simp [vsizes]; omega
  | a :: l, n + 1, d => by have := vsizes_set l n d; simp only [List.set_cons_succ, vsizes]; omega

theorem vsizes_noSlots (sh : Shape) : vsizes (noSlots sh) = 0 := by
  cases sh with
  | object k u ms =>
    simp only [noSlots]
    induction ms with
    | nil => rfl
    | cons m ms ih => simp only [List.map_cons, vsizes, ih]; rfl
  | _ => rfl

theorem weight_pos (sh : Shape) : 1 ≤ sh.weight := by
  cases sh <;> simp [Shape.weight]

theorem weight_mem : ∀ {ms : List (MInfo × Shape)} {n : Nat} {i sh}, ms[n]? = some (i, sh) → i.dfltSize + sh.weight ≤ weightMs ms
  | [], n, i, sh, h => by simp at h
  | (i', sh') :: ms, 0, i, sh, h => by simp at h; obtain ⟨rfl, rfl⟩ := h; simp only [weightMs]; omega
  | (i', sh') :: ms, n + 1, i, sh, h => by have := weight_mem (ms := ms) (n := n) (by simpa using h); simp only [weightMs]; omega

theorem tup_size : ∀ (ms : List (MInfo × Shape)) (slots : List D), sizeL ((ms.zip slots).map fun x => (x.2.value?.or x.1.1.dflt).getD .init) ≤ vsizes slots + weightMs ms
  | [], slots => by simp [sizeL]
  | m :: ms, [] => by simp [sizeL]
  | (i, sh) :: ms, d :: slots => by
    have := tup_size ms slots
    have hw := weight_pos sh
    simp only [List.zip_cons_cons, List.map_cons, sizeL, vsizes, weightMs]
    have h1 : ((d.value?.or i.dflt).getD Val.init).size ≤ d.vsize + i.dfltSize + 1 := by
      unfold D.vsize MInfo.dfltSize
      cases d.value? with
      | some v => simp; omega
      | none => cases i.dflt with
        | some v => simp
        | none => simp [Val.size]
    omega

theorem finishObject_size {k ms slots ne d} (h : finishObject k ms slots ne = .ok d) : d.vsize ≤ 1 + weightMs ms + vsizes slots := by
  unfold finishObject at h
  split at h
  · injection h with h; subst h; simp [D.vsize, D.value?]
  · cases k with
    | auto =>
      simp only at h
      split at h
      · simp at h
      · injection h with h; subst h
        have := tup_size ms slots
        rw [D.vsize_some (v := .tup _) rfl]; simp only [Val.size]; omega
    | plain =>
      simp only at h
      split at h
      · simp at h
      · injection h with h; subst h; simp [D.vsize, D.value?]
    | custom =>
      simp only at h
      split at h
      · simp at h
      · injection h with h; subst h; simp [D.vsize, D.value?, Val.size]; omega

theorem finishUnion_size {st ms a d d' i sh} (hi : (ms : List (MInfo × Shape))[a]? = some (i, sh)) (h : finishUnion st ms a d = .ok d') :
    d'.vsize ≤ 1 + d.vsize + i.dfltSize := by
  unfold finishUnion at h
  rw [hi] at h
  simp only at h
  split at h
  · split at h
    · simp at h
    · injection h with h; subst h; simp [D.vsize, D.value?]
  · split at h
    · rename_i v hv
      injection h with h; subst h
      rw [D.vsize_some hv]
      simp only [D.vsize, D.value?, Val.size]; omega
    · split at h
      · split at h
        · rename_i v hv
          injection h with h; subst h
          simp only [D.vsize, D.value?, Val.size, MInfo.dfltSize, hv]; omega
        · simp at h
      · simp at h

theorem mapInsert_size (k : String) (v : Val) : ∀ l : List (String × Val), sizeE (mapInsert k v l) ≤ sizeE l + 1 + k.utf8ByteSize + v.size
  | [] => by simp [mapInsert, sizeE]
  | (k', v') :: l => by
    have := mapInsert_size k v l
    simp only [mapInsert]
    split
    · simp only [sizeE]; omega
    · split
      · simp only [sizeE]; omega
      · simp only [sizeE]; omega

theorem storeEntry_size {st k d ents en} (h : storeEntry st k d ents = .ok en) : sizeE en ≤ sizeE ents + 1 + k.utf8ByteSize + d.vsize := by
  unfold storeEntry at h
  split at h
  · split at h
    · rename_i v hv
      injection h with h; subst h
      rw [D.vsize_some hv]; exact mapInsert_size k v ents
    · simp at h
  · injection h with h; subst h; omega

theorem finishMap_size (st : Bool) (ents : List (String × Val)) : (finishMap st ents).vsize ≤ 1 + sizeE ents := by
  cases st
  · simp [finishMap, D.vsize, D.value?]
  · simp [finishMap, D.vsize, D.value?, Val.size]

theorem select_mem {fmt ms x a} (h : selectAlt fmt ms x = .ok a) : ∃ i, (ms : List (MInfo × Shape))[a.1]? = some (i, a.2) := by
  unfold selectAlt at h; split at h
  · rename_i hl'; injection h with h; subst h; exact lookup_mem hl'
  · simp at h

mutual
theorem denote_size {fmt} : ∀ (j : Json) (sh : Shape) (w : Nat) (d : D), sh.weight ≤ w → denote fmt sh j = .ok d → d.vsize ≤ w * j.size
  | .null, sh, w, d, hw, h => by
    unfold denote at h; injection h with h; subst h; simp [D.vsize, D.value?]
  | .sc x, sh, w, d, hw, h => by
    unfold denote at h
    cases sh <;> simp only at h
    case value ty =>
      split at h
      · injection h with h; subst h
        simp only [Shape.weight] at hw
        simp only [D.vsize, D.value?, Val.size, Json.size]
        exact Nat.le_mul_of_pos_left _ hw
      · simp at h
    case ignore => injection h with h; subst h; simp [D.vsize, D.value?]
    all_goals simp at h
  | .arr l, sh, w, d, hw, h => by
    unfold denote at h
    cases sh <;> simp only at h
    case array st e =>
      cases hl : denElems fmt st e l with
      | error m => rw [hl] at h; simp [Except.map] at h
      | ok vs =>
        rw [hl] at h; simp only [Except.map] at h
        injection h with h; subst h
        simp only [Shape.weight] at hw
        have := denElems_size l st e w vs (by omega) hl
        cases st
        · simp [D.vsize, D.value?]
        · simp only [if_true, D.vsize, D.value?, Val.size, Json.size, Nat.mul_add, Nat.mul_one]; omega
    case ignore => injection h with h; subst h; simp [D.vsize, D.value?]
    all_goals simp at h
  | .obj fs, sh, w, d, hw, h => by
    unfold denote at h
    have go : denFields fmt sh (noSlots sh) [] false fs = .ok d → d.vsize ≤ w * (Json.obj fs).size := fun h => by
      have := denFields_size fs sh w _ _ _ d hw h
      rw [vsizes_noSlots] at this
      simp only [sizeE] at this
      simp only [Json.size, Nat.mul_add, Nat.mul_one] at *; omega
    cases sh <;> simp only at h
    case ignore => injection h with h; subst h; simp [D.vsize, D.value?]
    case object => exact go h
    case map => exact go h
    case union =>
      split at h
      · simp at h
      · exact go h
    all_goals simp at h
theorem denFields_size {fmt} : ∀ (fs : List (String × Json)) (sh : Shape) (w : Nat) (slots ents ne) (d : D), sh.weight ≤ w →
    denFields fmt sh slots ents ne fs = .ok d → d.vsize ≤ vsizes slots + sizeE ents + w + w * jsizeF fs
  | [], sh, w, slots, ents, ne, d, hw, h => by
    unfold denFields at h
    cases sh <;> simp only at h
    case object => have := finishObject_size h; simp only [Shape.weight] at hw; omega
    case map st e =>
      injection h with h; subst h
      have := finishMap_size st ents
      simp only [Shape.weight] at hw; omega
    case union => injection h with h; subst h; simp [D.vsize, D.value?]
    all_goals simp at h
  | (k, v) :: fs, sh, w, slots, ents, ne, d, hw, h => by
    have hv : 1 ≤ v.size := by cases v <;> simp [Json.size]
    have hv' : w ≤ w * v.size := Nat.le_mul_of_pos_right _ hv
    have hk : k.utf8ByteSize ≤ w * k.utf8ByteSize := Nat.le_mul_of_pos_left _ (Nat.le_trans (weight_pos sh) hw)
    unfold denFields at h
    simp only [jsizeF, Nat.mul_add, Nat.mul_one]
    cases sh <;> simp only at h
    case object kd u ms =>
      simp only [Shape.weight] at hw
      split at h
      · rename_i n m hl
        obtain ⟨i, hi⟩ := lookup_mem hl
        have hwm := weight_mem hi
        split at h
        · rename_i ty st ms' x he
          obtain ⟨rfl, rfl, hx⟩ := embedded_some he
          obtain ⟨a, h1, h⟩ := except_bind_ok h
          obtain ⟨d1, h2, h⟩ := except_bind_ok h
          obtain ⟨d2, h3, h⟩ := except_bind_ok h
          obtain ⟨i', hi'⟩ := select_mem h1
          have hwa := weight_mem hi'
          simp only [Shape.weight] at hwm
          have hd1 := denFields_size fs _ w _ _ _ d1 (by omega) h2
          rw [vsizes_noSlots] at hd1
          simp only [sizeE] at hd1
          have hd2 := finishUnion_size hi' h3
          have hd3 := finishObject_size h
          have := vsizes_set slots n d2
          omega
        · obtain ⟨d1, h1, h⟩ := except_bind_ok h
          have hd1 := denote_size v m w d1 (by omega) h1
          have hd2 := denFields_size fs (.object kd u ms) w _ _ _ d (by simp only [Shape.weight]; omega) h
          have := vsizes_set slots n d1
          simp only [sizeE] at hd2
          omega
      · split at h
        · simp at h
        · have hd2 := denFields_size fs (.object kd u ms) w _ _ _ d (by simp only [Shape.weight]; omega) h
          simp only [sizeE] at hd2
          omega
    case union ty tm st ms =>
      simp only [Shape.weight] at hw
      split at h
      · simp at h
      · split at h
        · simp at h
        · cases v with
          | sc x =>
            simp only at h
            split at h
            · obtain ⟨a, h1, h⟩ := except_bind_ok h
              obtain ⟨d1, h2, h⟩ := except_bind_ok h
              obtain ⟨i', hi'⟩ := select_mem h1
              have hwa := weight_mem hi'
              have hd1 := denFields_size fs _ w _ _ _ d1 (by omega) h2
              rw [vsizes_noSlots] at hd1
              simp only [sizeE] at hd1
              have hd2 := finishUnion_size hi' h
              omega
            · simp at h
          | _ => simp at h
    case map st e =>
      simp only [Shape.weight] at hw
      split at h
      · rename_i ty st' ms' x he
        obtain ⟨rfl, rfl, hx⟩ := embedded_some he
        obtain ⟨a, h1, h⟩ := except_bind_ok h
        obtain ⟨d1, h2, h⟩ := except_bind_ok h
        obtain ⟨d2, h3, h⟩ := except_bind_ok h
        obtain ⟨en, h4, h⟩ := except_bind_ok h
        obtain ⟨i', hi'⟩ := select_mem h1
        have hwa := weight_mem hi'
        simp only [Shape.weight] at hw
        have hd1 := denFields_size fs _ w _ _ _ d1 (by omega) h2
        rw [vsizes_noSlots] at hd1
        simp only [sizeE] at hd1
        have hd2 := finishUnion_size hi' h3
        have hd3 := storeEntry_size h4
        injection h with h; subst h
        have := finishMap_size st en
        omega
      · obtain ⟨d1, h1, h⟩ := except_bind_ok h
        obtain ⟨en, h4, h⟩ := except_bind_ok h
        have hd1 := denote_size v e w d1 (by omega) h1
        have hd3 := storeEntry_size h4
        have hd2 := denFields_size fs (.map st e) w _ _ _ d (by simp only [Shape.weight]; omega) h
        simp only [vsizes] at hd2
        omega
    all_goals simp at h
theorem denElems_size {fmt} : ∀ (l : List Json) (st : Bool) (e : Shape) (w : Nat) (vs : List Val), e.weight ≤ w →
    denElems fmt st e l = .ok vs → sizeL vs ≤ w * jsizeL l
  | [], st, e, w, vs, hw, h => by unfold denElems at h; injection h with h; subst h; simp [sizeL]
  | .null :: l, st, e, w, vs, hw, h => by
    unfold denElems at h
    have := denElems_size l st e w vs hw h
    simp only [jsizeL, Nat.mul_add]; omega
  | .sc x :: l, st, e, w, vs, hw, h => by
    unfold denElems at h
    obtain ⟨d, h1, h⟩ := except_bind_ok h
    have hd := denote_size (.sc x) e w d hw h1
    simp only [jsizeL, Nat.mul_add]
    split at h
    · split at h
      · rename_i v hv
        obtain ⟨vs', h2, h⟩ := except_bind_ok h
        injection h with h; subst h
        have := denElems_size l st e w vs' hw h2
        rw [D.vsize_some hv] at hd
        simp only [sizeL]; omega
      · simp at h
    · have := denElems_size l st e w vs hw h; omega
  | .arr l' :: l, st, e, w, vs, hw, h => by
    unfold denElems at h
    obtain ⟨d, h1, h⟩ := except_bind_ok h
    have hd := denote_size (.arr l') e w d hw h1
    simp only [jsizeL, Nat.mul_add]
    split at h
    · split at h
      · rename_i v hv
        obtain ⟨vs', h2, h⟩ := except_bind_ok h
        injection h with h; subst h
        have := denElems_size l st e w vs' hw h2
        rw [D.vsize_some hv] at hd
        simp only [sizeL]; omega
      · simp at h
    · have := denElems_size l st e w vs hw h; omega
  | .obj l' :: l, st, e, w, vs, hw, h => by
    unfold denElems at h
    obtain ⟨d, h1, h⟩ := except_bind_ok h
    have hd := denote_size (.obj l') e w d hw h1
    simp only [jsizeL, Nat.mul_add]
    split at h
    · split at h
      · rename_i v hv
        obtain ⟨vs', h2, h⟩ := except_bind_ok h
        injection h with h; subst h
        have := denElems_size l st e w vs' hw h2
        rw [D.vsize_some hv] at hd
        simp only [sizeL]; omega
      · simp at h
    · have := denElems_size l st e w vs hw h; omega
end

end SJ
