/-
What `denote` makes of the JSON of a value (`toJson`): the value.
-/
import Verif.SpecRound
import Verif.Proofs.SpecFacts
import Verif.Proofs.Main

set_option linter.unusedVariables false

namespace SJ

variable {fmt : Dbl → String}

/-! ### Names -/

theorem lookup_names : ∀ {ms : List (MInfo × Shape)} {n : Nat} {i sh} (k : Nat), namesOk ms = true → ms[n]? = some (i, sh) →
    lookup i.name k ms = some (k + n, sh)
  | [], n, i, sh, k, _, h => by simp at h
  | (i', sh') :: ms, 0, i, sh, k, hn, h => by
    simp at h; obtain ⟨rfl, rfl⟩ := h
    simp only [namesOk, Bool.and_eq_true] at hn
    simp [lookup, hn.1.1]
  | (i', sh') :: ms, n + 1, i, sh, k, hn, h => by
    have h' : ms[n]? = some (i, sh) := by simpa using h
    simp only [namesOk, Bool.and_eq_true, List.all_eq_true] at hn
    have h1 := hn.1.2 (i, sh) (List.mem_of_getElem? h')
    simp only [Bool.not_eq_true'] at h1
    rw [lookup, h1.1]
    simp only [Bool.false_eq_true, if_false]
    rw [lookup_names (k + 1) hn.2 h']
    congr 2; omega

/-! ### Unions -/

theorem toAlt_get : ∀ {ms : List (MInfo × Shape)} {n : Nat} {i sh} (tm w), ms[n]? = some (i, sh) →
    toAlt tm ms n w = (tm, .sc i.name) :: (toJson sh w).fields
  | [], n, i, sh, tm, w, h => by simp at h
  | (i', sh') :: ms, 0, i, sh, tm, w, h => by simp at h; obtain ⟨rfl, rfl⟩ := h; simp [toAlt]
  | x :: ms, n + 1, i, sh, tm, w, h => by simp only [toAlt]; exact toAlt_get tm w (by simpa using h)

theorem hasAlt_some : ∀ {ms : List (MInfo × Shape)} {n : Nat} {w}, hasAltType ms n w = true → ∃ i sh, ms[n]? = some (i, sh) ∧ hasType sh w = true
  | [], n, w, h => by simp [hasAltType] at h
  | (i, sh) :: ms, 0, w, h => ⟨i, sh, by simp, by simpa [hasAltType] using h⟩
  | x :: ms, n + 1, w, h => by
    simp only [hasAltType] at h
    obtain ⟨i, sh, h1, h2⟩ := hasAlt_some h
    exact ⟨i, sh, by simpa using h1, h2⟩

theorem writableAlts_mem : ∀ {ms : List (MInfo × Shape)} {n : Nat} {i sh}, writableAlts ms = true → ms[n]? = some (i, sh) → writable sh = true ∧ sh.isRecord = true
  | [], n, i, sh, hw, h => by simp at h
  | (i', sh') :: ms, 0, i, sh, hw, h => by
    simp at h; obtain ⟨rfl, rfl⟩ := h
    simp only [writableAlts, Bool.and_eq_true] at hw
    exact hw.1
  | x :: ms, n + 1, i, sh, hw, h => by
    simp only [writableAlts, Bool.and_eq_true] at hw
    exact writableAlts_mem hw.2 (by simpa using h)

/-- What is to be shown for a union. -/
def GoodAlt (fmt : Dbl → String) (ty : ScalarTy) (tm : String) (st : Bool) (ms : List (MInfo × Shape)) (v : Val) : Prop :=
  ∃ n w i ash rest, v = .alt n w ∧ ms[n]? = some (i, ash) ∧ toJson (.union ty tm st ms) v = .obj ((tm, .sc i.name) :: rest) ∧ i.name.ty = ty ∧
    lookup i.name 0 ms = some (n, ash) ∧ denFields fmt ash (noSlots ash) [] false rest = .ok (.val w) ∧ okFields ash rest = true

/-- What is to be shown for a parser. -/
def Restored (fmt : Dbl → String) (sh : Shape) (v : Val) : Prop :=
  denote fmt sh (toJson sh v) = .ok (.val v) ∧ okVal sh (toJson sh v) = true ∧ toJson sh v ≠ .null ∧ embedded sh (toJson sh v) = none ∧
    (sh.isRecord = true → toJson sh v = .obj (toJson sh v).fields)

def Back (fmt : Dbl → String) (sh : Shape) : Prop :=
  writable sh = true → sh.wf = true → ∀ v, hasType sh v = true → v.ordered = true →
    match sh with
    | .union ty tm st ms => GoodAlt fmt ty tm st ms v
    | sh => Restored fmt sh v

theorem finishUnion_val {ms : List (MInfo × Shape)} {n i sh w} (h : ms[n]? = some (i, sh)) : finishUnion true ms n (.val w) = .ok (.val (.alt n w)) := by
  simp [finishUnion, h, D.value?]

/-- From a parser that is not an embedded union. -/
theorem Back.restored {sh : Shape} (h : Back fmt sh) (hw : writable sh = true) (hwf : sh.wf = true) (he : sh.isEmbedded = false) {v} (hv : hasType sh v = true)
    (ho : v.ordered = true) : Restored fmt sh v := by
  have h1 := h hw hwf v hv ho
  cases sh with
  | union ty tm st ms =>
    have htm : tm ≠ "" := by simpa [Shape.isEmbedded] using he
    obtain ⟨n, w, i, ash, rest, rfl, hm, hj, hty, hl, hd, hok⟩ := h1
    have hst : st = true := by simp only [writable, Bool.and_eq_true] at hw; exact hw.1.1
    subst hst
    refine ⟨?_, ?_, ?_, ?_, ?_⟩
    · rw [hj, denote]; simp only [if_neg htm]
      rw [denFields]; simp only [if_neg htm, ne_eq, not_true_eq_false, if_false, hty, if_true]
      simp only [selectAlt, hl, Except.bind, bind, hd]
      exact finishUnion_val hm
    · rw [hj, okVal]; simp only [if_neg htm]
      rw [okFields]; simp only [if_neg htm, ne_eq, not_true_eq_false, if_false, hty, if_true, hl]
      exact hok
    · rw [hj]; simp
    · rw [hj]; rfl
    · intro h; simp [Shape.isRecord] at h
  | value ty => exact h1
  | ignore => exact h1
  | object k u ms => exact h1
  | array st e => exact h1
  | map st e => exact h1

/-! ### Arrays and maps -/

theorem denElems_back {e : Shape} : ∀ {l : List Val}, (∀ v ∈ l, Restored fmt e v) → e.isUser = true → denElems fmt true e (l.map (toJson e)) = .ok l ∧ okElems e (l.map (toJson e)) = true
  | [], _, _ => ⟨rfl, rfl⟩
  | v :: l, h, hu => by
    obtain ⟨h1, h2, h3, _⟩ := h v (by simp)
    obtain ⟨i1, i2⟩ := denElems_back (l := l) (fun w hw => h w (by simp [hw])) hu
    simp only [List.map_cons]
    constructor
    · cases hj : toJson e v with
      | null => exact absurd hj h3
      | _ =>
        rw [hj] at h1
        rw [denElems]
        · simp only [h1, Except.bind, bind, if_true, D.value?, i1]; rfl
        · simp
    · cases hj : toJson e v with
      | null => exact absurd hj h3
      | _ => rw [hj] at h2; simp [okElems, hu, h2, i2]

theorem mapInsert_last {k : String} {v : Val} : ∀ {l : List (String × Val)}, (∀ e ∈ l, e.1 < k) → mapInsert k v l = l ++ [(k, v)]
  | [], _ => rfl
  | (k', v') :: l, h => by
    have h1 : k' < k := h (k', v') (by simp)
    have h2 : ¬ k < k' := String.lt_asymm h1
    have h3 : k ≠ k' := fun he => by subst he; exact String.lt_irrefl _ h1
    rw [mapInsert, if_neg h2, if_neg h3, mapInsert_last (fun e he => h e (by simp [he]))]
    rfl

theorem increasing_append : ∀ {a b : List (String × Val)}, increasing (a ++ b) = true → ∀ x ∈ a, ∀ y ∈ b, x.1 < y.1
  | [], b, h, x, hx, y, hy => by simp at hx
  | (k, v) :: a, b, h, x, hx, y, hy => by
    simp only [List.cons_append, increasing, Bool.and_eq_true, List.all_eq_true, decide_eq_true_eq] at h
    rcases List.mem_cons.1 hx with rfl | hx
    · exact h.1 y (by simp [hy])
    · exact increasing_append h.2 x hx y hy

theorem denFields_map_back {e : Shape} (hu : e.isUser = true) : ∀ {l acc : List (String × Val)} (ne : Bool), (∀ kv ∈ l, Restored fmt e kv.2) → increasing (acc ++ l) = true →
    denFields fmt (.map true e) [] acc ne (l.map fun kv => (kv.1, toJson e kv.2)) = .ok (.val (.map (acc ++ l))) ∧
    okFields (.map true e) (l.map fun kv => (kv.1, toJson e kv.2)) = true
  | [], acc, ne, _, _ => by simp [denFields, okFields, finishMap]
  | (k, v) :: l, acc, ne, h, hi => by
    obtain ⟨h1, h2, h3, h4, _⟩ := h (k, v) (by simp)
    have hins : mapInsert k v acc = acc ++ [(k, v)] := mapInsert_last fun x hx => increasing_append hi x hx (k, v) (by simp)
    obtain ⟨i1, i2⟩ := denFields_map_back hu (l := l) (acc := acc ++ [(k, v)]) true (fun w hw => h w (by simp [hw])) (by simpa using hi)
    simp only [List.map_cons]
    constructor
    · rw [denFields]
      simp only at h1 h4
      simp only [h4, h1, Except.bind, bind, storeEntry, if_true, D.value?, hins]
      rw [i1]; simp
    · rw [okFields]; simp only at h2 h4; simp only [h4, hu, h2, i2]; rfl

/-! ### Objects -/

theorem hasTypes_length : ∀ {ms : List (MInfo × Shape)} {vs : List Val}, hasTypes ms vs = true → vs.length = ms.length
  | [], [], _ => rfl
  | [], v :: vs, h => by simp [hasTypes] at h
  | x :: ms, [], h => by simp [hasTypes] at h
  | (i, sh) :: ms, v :: vs, h => by
    simp only [hasTypes, Bool.and_eq_true] at h
    simp [hasTypes_length h.2]

theorem finishObject_vals {ms : List (MInfo × Shape)} : ∀ {vs : List Val}, vs.length = ms.length → finishObject .auto ms (vs.map .val) true = .ok (.val (.tup vs)) := by
  intro vs h
  have h1 : ∀ {ms : List (MInfo × Shape)} {vs : List Val}, unfillable ms (vs.map .val) = [] := by
    intro ms vs
    unfold unfillable
    rw [List.filter_eq_nil_iff.2]
    · rfl
    · intro x hx
      obtain ⟨a, b⟩ := x
      obtain ⟨_, hb⟩ := List.of_mem_zip hx
      simp at hb
      obtain ⟨v, _, rfl⟩ := hb
      simp [D.isSet]
  have h2 : ∀ {ms : List (MInfo × Shape)} {vs : List Val}, vs.length = ms.length → ((ms.zip (vs.map D.val)).map fun x => (x.2.value?.or x.1.1.dflt).getD .init) = vs := by
    intro ms
    induction ms with
    | nil => intro vs h; simp at h; simp [h]
    | cons x ms ih =>
      intro vs h
      cases vs with
      | nil => simp at h
      | cons v vs =>
        simp only [List.length_cons, Nat.add_right_cancel_iff] at h
        simp only [List.map_cons, List.zip_cons_cons, ih h]
        rfl
  simp only [finishObject, h1, h2 h, Bool.not_true, Bool.false_eq_true, if_false, List.getLast?_nil]

theorem set_slot {vs : List Val} {v : Val} {post : List D} : (vs.map D.val ++ .unset :: post).set vs.length (.val v) = (vs ++ [v]).map D.val ++ post := by
  rw [List.set_append_right _ _ (by simp)]
  simp

theorem denFields_object_back {u : Bool} {ms : List (MInfo × Shape)} (hn : namesOk ms = true) (hwf : wfMs .str true ms = true) :
    ∀ {suf : List (MInfo × Shape)} {pre : List (MInfo × Shape)} {vs vp : List Val} (ne : Bool), ms = pre ++ suf → vp.length = pre.length → writableMs suf = true → hasTypes suf vs = true →
    orderedL vs = true → (∀ x ∈ suf, Back fmt x.2) → (ne = true ∨ suf ≠ []) →
    denFields fmt (.object .auto u ms) (vp.map .val ++ suf.map fun _ => .unset) [] ne (toFields suf vs) = .ok (.val (.tup (vp ++ vs))) ∧
    okFields (.object .auto u ms) (toFields suf vs) = true
  | [], pre, vs, vp, ne, hms, hl, _, ht, _, _, hne => by
    cases vs with
    | cons v vs => simp [hasTypes] at ht
    | nil =>
      have hne : ne = true := by simpa using hne
      subst hne
      simp only [toFields]
      refine ⟨?_, by simp [okFields]⟩
      rw [denFields]
      simp only [List.map_nil, List.append_nil]
      exact finishObject_vals (by rw [hms, hl]; simp)
  | (i, sh) :: suf, pre, vs, vp, ne, hms, hl, hw, ht, ho, hb, hne => by
    cases vs with
    | nil => simp [hasTypes] at ht
    | cons v vs =>
      simp only [hasTypes, Bool.and_eq_true] at ht
      simp only [orderedL, Bool.and_eq_true] at ho
      simp only [writableMs, Bool.and_eq_true, Bool.or_eq_true, Bool.not_eq_true'] at hw
      have hget : ms[pre.length]? = some (i, sh) := by rw [hms]; simp
      obtain ⟨hty, hwfs, hsto⟩ := wfMs_mem hwf hget
      have hu : sh.isUser = true := wf_user hwfs
      have hkey : i.name = .str i.key := by
        unfold MInfo.key
        cases hnm : i.name <;> rw [hnm] at hty <;> simp [Scalar.ty] at hty ⊢
      have hlook : lookup (.str i.key) 0 ms = some (pre.length, sh) := by
        have := lookup_names 0 hn hget
        rw [hkey] at this; simpa using this
      have hback := hb (i, sh) (by simp)
      rw [toFields]
      have hset : (vp.map D.val ++ List.map (fun _ => D.unset) ((i, sh) :: suf)).set pre.length (.val v) = (vp ++ [v]).map D.val ++ suf.map fun _ => .unset := by
        rw [← hl]; exact set_slot
      cases hemb : sh.isEmbedded with
      | false =>
        obtain ⟨h1, h2, h3, h4, _⟩ := hback.restored hw.1.1 hwfs hemb ht.1 ho.1
        obtain ⟨i1, i2⟩ := denFields_object_back (u := u) hn hwf (suf := suf) (pre := pre ++ [(i, sh)]) (vs := vs) (vp := vp ++ [v]) true (by simp [hms]) (by simp [hl]) hw.2 ht.2 ho.2
          (fun x hx => hb x (by simp [hx])) (.inl rfl)
        simp only [fieldsFor, Bool.false_eq_true, if_false, List.singleton_append]
        constructor
        · rw [denFields]
          simp only [hlook, h4, h1, Except.bind, bind]
          rw [hset, i1]; simp
        · rw [okFields]
          simp only [hlook, h4, hu, h2, i2]; rfl
      | true =>
        have hsuf : suf = [] := by
          rcases hw.1.2 with h | h
          · rw [hemb] at h; simp at h
          · simpa using h
        subst hsuf
        have hvs : vs = [] := by cases vs with
          | nil => rfl
          | cons _ _ => simp [hasTypes] at ht
        subst hvs
        cases sh with
        | union uty tm st ms' =>
          have htm : tm = "" := by simpa [Shape.isEmbedded] using hemb
          subst htm
          have hst : st = true := by have := hw.1.1; simp only [writable, Bool.and_eq_true] at this; exact this.1.1
          subst hst
          obtain ⟨n, w, i', ash, rest, rfl, hm, hj, hity, hl', hd, hok⟩ := hback hw.1.1 hwfs v ht.1 ho.1
          have hemb' : embedded (.union uty "" true ms') (.sc i'.name) = some (uty, true, ms', i'.name) := by simp [embedded, hity]
          rw [hj]
          simp only [fieldsFor, if_true, Json.fields, toFields, List.append_nil]
          constructor
          · rw [denFields]
            simp only [hlook, hemb', Except.bind, bind, selectAlt, hl', hd, finishUnion_val hm]
            rw [hset]
            simp only [List.map_nil, List.append_nil]
            exact finishObject_vals (by rw [hms]; simp [hl])
          · rw [okFields]
            simp only [hlook, hemb', hl']
            exact hok
        | value ty => simp [Shape.isEmbedded] at hemb
        | ignore => simp [Shape.isEmbedded] at hemb
        | object k u ms => simp [Shape.isEmbedded] at hemb
        | array st e => simp [Shape.isEmbedded] at hemb
        | map st e => simp [Shape.isEmbedded] at hemb

theorem orderedE_mem : ∀ {l : List (String × Val)}, orderedE l = true → ∀ kv ∈ l, kv.2.ordered = true
  | [], _, kv, h => by simp at h
  | (k, v) :: l, ho, kv, h => by
    simp only [orderedE, Bool.and_eq_true] at ho
    rcases List.mem_cons.1 h with rfl | h
    · exact ho.1
    · exact orderedE_mem ho.2 kv h

theorem orderedL_mem : ∀ {l : List Val}, orderedL l = true → ∀ v ∈ l, v.ordered = true
  | [], _, v, h => by simp at h
  | w :: l, ho, v, h => by
    simp only [orderedL, Bool.and_eq_true] at ho
    rcases List.mem_cons.1 h with rfl | h
    · exact ho.1
    · exact orderedL_mem ho.2 v h

mutual
theorem back (fmt : Dbl → String) : (sh : Shape) → Back fmt sh
  | .value ty => by
    intro _ _ v hv _
    cases v <;> simp [hasType] at hv
    refine ⟨?_, ?_, ?_, ?_, ?_⟩ <;> simp [toJson, denote, okVal, embedded, hv, Shape.isRecord]
  | .ignore => by intro h; simp [writable] at h
  | .object k u ms => by
    intro hw hwf v hv ho
    simp only [writable, Bool.and_eq_true, beq_iff_eq, Bool.not_eq_true', List.isEmpty_eq_false_iff] at hw
    obtain ⟨⟨⟨rfl, hne⟩, hn⟩, hw⟩ := hw
    cases v <;> simp [hasType] at hv
    rename_i l
    have hwf' : wfMs .str true ms = true := by simpa [Shape.wf] using hwf
    obtain ⟨h1, h2⟩ := denFields_object_back (fmt := fmt) (u := u) hn hwf' (suf := ms) (pre := []) (vs := l) (vp := []) false rfl rfl hw hv (by simpa [Val.ordered] using ho)
      (backMs fmt ms) (.inr hne)
    refine ⟨?_, ?_, ?_, ?_, ?_⟩
    · simp only [toJson, denote, noSlots]; simpa using h1
    · simp only [toJson, okVal]; exact h2
    · simp [toJson]
    · simp [embedded]
    · intro _; simp [toJson, Json.fields]
  | .union ty tm st ms => by
    intro hw hwf v hv ho
    simp only [writable, Bool.and_eq_true] at hw
    simp only [hasType, Bool.and_eq_true] at hv
    cases v <;> simp only [Bool.false_eq_true, and_false] at hv
    rename_i n w
    obtain ⟨i, ash, hm, ht⟩ := hasAlt_some hv.2
    obtain ⟨hwa, hrec⟩ := writableAlts_mem hw.2 hm
    have hwf' : wfMs ty st ms = true := by simpa [Shape.wf] using hwf
    obtain ⟨hty, hwfa, _⟩ := wfMs_mem hwf' hm
    have hne : ash.isEmbedded = false := by cases ash <;> simp [Shape.isRecord] at hrec <;> rfl
    obtain ⟨h1, h2, h3, h4, h5⟩ := (backMs fmt ms (i, ash) (List.mem_of_getElem? hm)).restored hwa hwfa hne ht (by simpa [Val.ordered] using ho)
    have hj := h5 hrec
    refine ⟨n, w, i, ash, (toJson ash w).fields, rfl, hm, ?_, hty, ?_, ?_, ?_⟩
    · simp only [toJson]; rw [toAlt_get tm w hm]
    · have := lookup_names 0 hw.1.2 hm; simpa using this
    · rw [hj] at h1
      cases ash with
      | object k u ms => simpa only [denote] using h1
      | map st e => simpa only [denote] using h1
      | _ => simp [Shape.isRecord] at hrec
    · rw [hj] at h2
      cases ash with
      | object k u ms => simpa only [okVal] using h2
      | map st e => simpa only [okVal] using h2
      | _ => simp [Shape.isRecord] at hrec
  | .array st e => by
    intro hw hwf v hv ho
    simp only [writable, Bool.and_eq_true, Bool.not_eq_true'] at hw
    obtain ⟨⟨rfl, hne⟩, hw⟩ := hw
    simp only [hasType, Bool.true_and] at hv
    cases v <;> simp only [Bool.false_eq_true] at hv
    rename_i l
    rw [List.all_eq_true] at hv
    have hwe := (wf_array hwf).1
    obtain ⟨h1, h2⟩ := denElems_back (fmt := fmt) (e := e) (l := l) (fun v hl => (back fmt e).restored hw hwe hne (hv v hl) (orderedL_mem (by simpa [Val.ordered] using ho) v hl)) (wf_user hwe)
    refine ⟨?_, ?_, ?_, ?_, ?_⟩
    · simp only [toJson, denote, h1]; rfl
    · simp only [toJson, okVal]; exact h2
    · simp [toJson]
    · simp [embedded]
    · intro h; simp [Shape.isRecord] at h
  | .map st e => by
    intro hw hwf v hv ho
    simp only [writable, Bool.and_eq_true, Bool.not_eq_true'] at hw
    obtain ⟨⟨rfl, hne⟩, hw⟩ := hw
    simp only [hasType, Bool.true_and] at hv
    cases v <;> simp only [Bool.false_eq_true] at hv
    rename_i l
    rw [List.all_eq_true] at hv
    simp only [Val.ordered, Bool.and_eq_true] at ho
    have hwe := (wf_map hwf).1
    obtain ⟨h1, h2⟩ := denFields_map_back (fmt := fmt) (e := e) (wf_user hwe) (l := l) (acc := []) false
      (fun kv hl => (back fmt e).restored hw hwe hne (hv kv hl) (orderedE_mem ho.2 kv hl)) (by simpa using ho.1)
    refine ⟨?_, ?_, ?_, ?_, ?_⟩
    · simp only [toJson, denote, noSlots]; simpa using h1
    · simp only [toJson, okVal]; exact h2
    · simp [toJson]
    · simp [embedded]
    · intro _; simp [toJson, Json.fields]
theorem backMs (fmt : Dbl → String) : (ms : List (MInfo × Shape)) → ∀ x ∈ ms, Back fmt x.2
  | [], x, hx => by simp at hx
  | (i, sh) :: ms, x, hx => by
    rcases List.mem_cons.1 hx with h | h
    · subst h; exact back fmt sh
    · exact backMs fmt ms x h
end

/-! ### Values that were read are ordered -/

/-- The value held, if any, is ordered. -/
def D.Ordered (d : D) : Prop := ∀ v, d.value? = some v → v.ordered = true

theorem D.Ordered.unset : D.Ordered .unset := by intro v h; simp [D.value?] at h

theorem orderedDefaultsMs_mem : ∀ {ms : List (MInfo × Shape)} {n : Nat} {i sh}, orderedDefaultsMs ms = true → ms[n]? = some (i, sh) →
    (∀ v, i.dflt = some v → v.ordered = true) ∧ orderedDefaults sh = true
  | [], n, i, sh, _, h => by simp at h
  | (i', sh') :: ms, 0, i, sh, ho, h => by
    simp at h; obtain ⟨rfl, rfl⟩ := h
    simp only [orderedDefaultsMs, Bool.and_eq_true] at ho
    exact ⟨fun v hv => by have := ho.1.1; rw [hv] at this; exact this, ho.1.2⟩
  | x :: ms, n + 1, i, sh, ho, h => by
    simp only [orderedDefaultsMs, Bool.and_eq_true] at ho
    exact orderedDefaultsMs_mem ho.2 (by simpa using h)

theorem orderedL_iff : ∀ {l : List Val}, orderedL l = true ↔ ∀ v ∈ l, v.ordered = true
  | [] => by simp [orderedL]
  | v :: l => by simp [orderedL, orderedL_iff (l := l)]

theorem orderedE_iff : ∀ {l : List (String × Val)}, orderedE l = true ↔ ∀ kv ∈ l, kv.2.ordered = true
  | [] => by simp [orderedE]
  | (k, v) :: l => by
    simp only [orderedE, Bool.and_eq_true, orderedE_iff (l := l), List.mem_cons]
    constructor
    · rintro ⟨h1, h2⟩ kv (rfl | h)
      · exact h1
      · exact h2 kv h
    · intro h; exact ⟨h (k, v) (.inl rfl), fun kv hk => h kv (.inr hk)⟩

theorem increasing_iff : ∀ {l : List (String × Val)}, increasing l = true ↔ SortedKeys l
  | [] => by simp [increasing, SortedKeys]
  | (k, v) :: l => by
    have := increasing_iff (l := l)
    unfold SortedKeys at this ⊢
    simp only [increasing, Bool.and_eq_true, List.all_eq_true, decide_eq_true_eq, this, List.pairwise_cons]

theorem finishObject_ordered {k ms slots ne d} (ho : orderedDefaultsMs ms = true) (hs : ∀ d ∈ slots, D.Ordered d)
    (h : finishObject k ms slots ne = .ok d) : d.Ordered := by
  unfold finishObject at h
  split at h
  · injection h with h; subst h; exact .unset
  · split at h
    · split at h
      · simp at h
      · injection h with h; subst h
        intro v hv
        injection hv with hv; subst hv
        rw [Val.ordered, orderedL_iff]
        intro v hv
        obtain ⟨⟨⟨i, sh⟩, d⟩, hx, rfl⟩ := List.mem_map.1 hv
        obtain ⟨h1, h2⟩ := List.of_mem_zip hx
        simp only
        cases hd : d.value? with
        | some w => simpa using hs d h2 w hd
        | none =>
          simp only [Option.none_or]
          cases hf : i.dflt with
          | none => rfl
          | some w =>
            obtain ⟨n, hn, he⟩ := List.mem_iff_getElem.1 h1
            exact (orderedDefaultsMs_mem ho (List.getElem?_eq_some_iff.2 ⟨hn, he⟩)).1 w hf
    · split at h
      · simp at h
      · injection h with h; subst h
        intro v hv
        simp only [D.value?] at hv
        split at hv
        · injection hv with hv; subst hv; rfl
        · simp at hv

theorem finishUnion_ordered {st ms a d d'} (ho : orderedDefaultsMs ms = true) (hd : d.Ordered) (h : finishUnion st ms a d = .ok d') : d'.Ordered := by
  unfold finishUnion at h
  split at h
  · injection h with h; subst h; exact .unset
  · rename_i i sh hm
    split at h
    · split at h
      · simp at h
      · injection h with h; subst h; intro v hv; simp [D.value?] at hv
    · split at h
      · rename_i v hv
        injection h with h; subst h
        intro w hw; injection hw with hw; subst hw
        simpa [Val.ordered] using hd v hv
      · split at h
        · split at h
          · rename_i v hv
            injection h with h; subst h
            intro w hw; injection hw with hw; subst hw
            simpa [Val.ordered] using (orderedDefaultsMs_mem ho hm).1 v hv
          · simp at h
        · simp at h

/-- The entries read so far. -/
def EntsOrdered (ents : List (String × Val)) : Prop := SortedKeys ents ∧ ∀ kv ∈ ents, kv.2.ordered = true

theorem storeEntry_ordered {st k d ents ents'} (hd : D.Ordered d) (he : EntsOrdered ents) (h : storeEntry st k d ents = .ok ents') : EntsOrdered ents' := by
  unfold storeEntry at h
  split at h
  · split at h
    · rename_i v hv
      injection h with h; subst h
      refine ⟨mapInsert_sorted he.1, ?_⟩
      have hall : ∀ {l : List (String × Val)}, (∀ kv ∈ l, kv.2.ordered = true) → ∀ kv ∈ mapInsert k v l, kv.2.ordered = true := by
        intro l
        induction l with
        | nil => intro _ kv hk; simp [mapInsert] at hk; subst hk; exact hd v hv
        | cons x l ih =>
          obtain ⟨k', v'⟩ := x
          intro hl kv hk
          unfold mapInsert at hk
          split at hk
          · rcases List.mem_cons.1 hk with rfl | hk
            · exact hd v hv
            · exact hl kv hk
          · split at hk
            · exact hl kv hk
            · rcases List.mem_cons.1 hk with rfl | hk
              · exact hl _ (by simp)
              · exact ih (fun kv h => hl kv (by simp [h])) kv hk
      exact hall he.2
    · simp at h
  · injection h with h; subst h; exact he

theorem finishMap_ordered {st ents} (he : EntsOrdered ents) : (finishMap st ents).Ordered := by
  intro v hv
  cases st <;> simp [finishMap, D.value?] at hv
  subst hv
  rw [Val.ordered, Bool.and_eq_true, increasing_iff, orderedE_iff]
  exact he

theorem EntsOrdered.nil : EntsOrdered [] := ⟨List.Pairwise.nil, by simp⟩

theorem noSlots_ordered (sh : Shape) : ∀ d ∈ noSlots sh, D.Ordered d := by
  intro d hd
  cases sh <;> simp [noSlots] at hd
  obtain ⟨_, _, _, rfl⟩ := hd
  exact .unset

theorem slots_ordered {slots : List D} {n d} (hs : ∀ d ∈ slots, D.Ordered d) (hd : D.Ordered d) : ∀ d' ∈ slots.set n d, D.Ordered d' := by
  intro d' h
  rcases List.mem_or_eq_of_mem_set h with h | rfl
  · exact hs d' h
  · exact hd

theorem selectAlt_get {ms : List (MInfo × Shape)} {x a} (h1 : selectAlt fmt ms x = .ok a) : ∃ i, ms[a.1]? = some (i, a.2) := by
  unfold selectAlt at h1; split at h1
  · rename_i hl'; injection h1 with h1; subst h1; exact lookup_mem hl'
  · simp at h1

mutual
theorem denote_ordered : ∀ (j : Json) (sh : Shape) (d : D), orderedDefaults sh = true → denote fmt sh j = .ok d → d.Ordered
  | .null, sh, d, ho, h => by
    unfold denote at h; injection h with h; subst h; exact .unset
  | .sc x, sh, d, ho, h => by
    unfold denote at h
    cases sh <;> simp only at h
    case value ty =>
      split at h
      · injection h with h; subst h; intro v hv; injection hv with hv; subst hv; rfl
      · simp at h
    case ignore => injection h with h; subst h; intro v hv; simp [D.value?] at hv
    all_goals simp at h
  | .arr l, sh, d, ho, h => by
    unfold denote at h
    cases sh <;> simp only at h
    case array st e =>
      cases hl : denElems fmt st e l with
      | error m => rw [hl] at h; simp [Except.map] at h
      | ok vs =>
        rw [hl] at h; simp only [Except.map] at h
        injection h with h; subst h
        have := denElems_ordered l st e vs (by simpa [orderedDefaults] using ho) hl
        intro v hv
        cases st <;> simp [D.value?] at hv
        subst hv
        rw [Val.ordered, orderedL_iff]; exact this
    case ignore => injection h with h; subst h; intro v hv; simp [D.value?] at hv
    all_goals simp at h
  | .obj fs, sh, d, ho, h => by
    unfold denote at h
    cases sh <;> simp only at h
    case ignore => injection h with h; subst h; intro v hv; simp [D.value?] at hv
    case object => exact denFields_ordered fs _ _ _ _ d ho (noSlots_ordered _) .nil h
    case map => exact denFields_ordered fs _ _ _ _ d ho (noSlots_ordered _) .nil h
    case union =>
      split at h
      · simp at h
      · exact denFields_ordered fs _ _ _ _ d ho (noSlots_ordered _) .nil h
    all_goals simp at h
theorem denFields_ordered : ∀ (fs : List (String × Json)) (sh : Shape) (slots ents ne) (d : D), orderedDefaults sh = true →
    (∀ d ∈ slots, D.Ordered d) → EntsOrdered ents → denFields fmt sh slots ents ne fs = .ok d → d.Ordered
  | [], sh, slots, ents, ne, d, ho, hs, he, h => by
    unfold denFields at h
    cases sh <;> simp only at h
    case object => exact finishObject_ordered (by simpa [orderedDefaults] using ho) hs h
    case map => injection h with h; subst h; exact finishMap_ordered he
    case union => injection h with h; subst h; exact .unset
    all_goals simp at h
  | (k, v) :: fs, sh, slots, ents, ne, d, ho, hs, he, h => by
    unfold denFields at h
    cases sh <;> simp only at h
    case object kd u ms =>
      have ho' : orderedDefaultsMs ms = true := by simpa [orderedDefaults] using ho
      split at h
      · rename_i n m hl
        obtain ⟨i, hi⟩ := lookup_mem hl
        have hom := (orderedDefaultsMs_mem ho' hi).2
        split at h
        · rename_i ty st ms' x hem
          obtain ⟨rfl, rfl, hx⟩ := embedded_some hem
          obtain ⟨a, h1, h⟩ := except_bind_ok h
          obtain ⟨d1, h2, h⟩ := except_bind_ok h
          obtain ⟨d2, h3, h⟩ := except_bind_ok h
          obtain ⟨i', hi'⟩ := selectAlt_get h1
          have hom' : orderedDefaultsMs ms' = true := by simpa [orderedDefaults] using hom
          have hd1 := denFields_ordered fs _ _ _ _ d1 (orderedDefaultsMs_mem hom' hi').2 (noSlots_ordered _) .nil h2
          have hd2 := finishUnion_ordered hom' hd1 h3
          exact finishObject_ordered ho' (slots_ordered hs hd2) h
        · obtain ⟨d1, h1, h⟩ := except_bind_ok h
          have hd1 := denote_ordered v m d1 hom h1
          exact denFields_ordered fs (.object kd u ms) _ _ _ d ho (slots_ordered hs hd1) .nil h
      · split at h
        · simp at h
        · exact denFields_ordered fs (.object kd u ms) _ _ _ d ho hs .nil h
    case union ty tm st ms =>
      have ho' : orderedDefaultsMs ms = true := by simpa [orderedDefaults] using ho
      split at h
      · simp at h
      · split at h
        · simp at h
        · cases v with
          | sc x =>
            simp only at h
            split at h
            · obtain ⟨a, h1, h⟩ := except_bind_ok h
              obtain ⟨d1, h2, h⟩ := except_bind_ok h
              obtain ⟨i', hi'⟩ := selectAlt_get h1
              have hd1 := denFields_ordered fs _ _ _ _ d1 (orderedDefaultsMs_mem ho' hi').2 (noSlots_ordered _) .nil h2
              exact finishUnion_ordered ho' hd1 h
            · simp at h
          | _ => simp at h
    case map st e =>
      have ho' : orderedDefaults e = true := by simpa [orderedDefaults] using ho
      split at h
      · rename_i ty st' ms' x hem
        obtain ⟨rfl, rfl, hx⟩ := embedded_some hem
        obtain ⟨a, h1, h⟩ := except_bind_ok h
        obtain ⟨d1, h2, h⟩ := except_bind_ok h
        obtain ⟨d2, h3, h⟩ := except_bind_ok h
        obtain ⟨en, h4, h⟩ := except_bind_ok h
        obtain ⟨i', hi'⟩ := selectAlt_get h1
        have hom' : orderedDefaultsMs ms' = true := by simpa [orderedDefaults] using ho'
        have hd1 := denFields_ordered fs _ _ _ _ d1 (orderedDefaultsMs_mem hom' hi').2 (noSlots_ordered _) .nil h2
        have hd2 := finishUnion_ordered hom' hd1 h3
        injection h with h; subst h
        exact finishMap_ordered (storeEntry_ordered hd2 he h4)
      · obtain ⟨d1, h1, h⟩ := except_bind_ok h
        obtain ⟨en, h4, h⟩ := except_bind_ok h
        have hd1 := denote_ordered v e d1 ho' h1
        exact denFields_ordered fs (.map st e) _ _ _ d ho (by simp) (storeEntry_ordered hd1 he h4) h
    all_goals simp at h
theorem denElems_ordered : ∀ (l : List Json) (st : Bool) (e : Shape) (vs : List Val), orderedDefaults e = true →
    denElems fmt st e l = .ok vs → ∀ v ∈ vs, v.ordered = true
  | [], st, e, vs, ho, h => by unfold denElems at h; injection h with h; subst h; simp
  | j :: l, st, e, vs, ho, h => by
    by_cases hj : j = .null
    · subst hj; rw [denElems] at h; exact denElems_ordered l st e vs ho h
    · rw [denElems] at h
      · obtain ⟨d, h1, h⟩ := except_bind_ok h
        have hd := denote_ordered j e d ho h1
        split at h
        · split at h
          · rename_i v hv
            obtain ⟨vs', h2, h⟩ := except_bind_ok h
            injection h with h; subst h
            intro w hw
            rcases List.mem_cons.1 hw with rfl | hw
            · exact hd _ hv
            · exact denElems_ordered l st e vs' ho h2 w hw
          · simp at h
        · exact denElems_ordered l st e vs ho h
      · exact hj
end

end SJ
