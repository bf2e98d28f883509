/-
`denote` succeeds exactly on the documents that conform (C47).
-/
import Verif.SpecConform
import Verif.Proofs.SpecFacts
import Verif.Props.Objects

set_option linter.unusedVariables false

namespace SJ

/-! ## Names -/

theorem cppEq_join {a b x : Scalar} (h1 : a.cppEq x = true) (h2 : b.cppEq x = true) : a.cppEq b = true := by
  cases a <;> cases x <;> simp only [Scalar.cppEq, Bool.false_eq_true] at h1 <;> cases b <;> simp only [Scalar.cppEq, Bool.false_eq_true] at h2 ⊢
  · simp_all
  · simp_all
  · rename_i a x b
    simp only [Dbl.cppEq, Bool.and_eq_true, Bool.or_eq_true, Bool.not_eq_true', beq_iff_eq] at *
    refine ⟨⟨h1.1.1, h2.1.1⟩, ?_⟩
    rcases h1.2 with e1 | e1 <;> rcases h2.2 with e2 | e2
    · exact .inl (e1.trans e2.symm)
    · right; refine ⟨?_, e2.1⟩; simp only [Dbl.isZero, e1]; exact e2.2
    · right; refine ⟨e1.1, ?_⟩; simp only [Dbl.isZero, e2]; exact e1.2
    · exact .inr ⟨e1.1, e2.1⟩
  · simp_all

theorem Named.lookup {ms : List (MInfo × Shape)} {x n i m} (hd : DistinctNames ms) (h : Named ms x n i m) : SJ.lookup x 0 ms = some (n, m) := by
  cases hl : SJ.lookup x 0 ms with
  | none =>
    have := lookup_none.1 hl (i, m) (List.mem_of_getElem? h.here)
    rw [h.name] at this
    simp at this
  | some a =>
    obtain ⟨a, sh⟩ := a
    obtain ⟨i', _, h2, h3⟩ := lookup_get hl
    have h2 : ms[a]? = some (i', sh) := by simpa using h2
    have := hd a n _ _ h2 h.here (cppEq_join h3 h.name)
    subst this
    have h4 := h.here
    rw [h2] at h4
    simp at h4
    rw [h4.2]

theorem Named.of_lookup {ms : List (MInfo × Shape)} {x n m} (h : SJ.lookup x 0 ms = some (n, m)) : ∃ i, Named ms x n i m := by
  obtain ⟨i, _, h2, h3⟩ := lookup_get h
  exact ⟨i, by simpa using h2, h3⟩

/-! ## Trees -/

/-- A tree the user can construct. -/
structure SoundTree (sh : Shape) : Prop where
  wf : sh.wf = true
  distinct : AllDistinct sh

theorem at_snoc {sh c : Shape} {st : Step} (h : sh.child st = some c) : ∀ p, sh.at (p ++ [st]) = c.at p
  | [] => by simp [Shape.at, h]
  | st' :: p => by
    have := at_snoc h p
    simp only [List.cons_append, Shape.at, this]

theorem AllDistinct.child {sh c : Shape} {st : Step} (hd : AllDistinct sh) (h : sh.child st = some c) : AllDistinct c := by
  intro p x hx
  exact hd (p ++ [st]) x (by rw [at_snoc h]; exact hx)

theorem SoundTree.objectMember {k u ms} (h : SoundTree (.object k u ms)) {n : Nat} {i : MInfo} {m : Shape} (hm : ms[n]? = some (i, m)) : SoundTree m :=
  ⟨(wfMs_mem h.wf hm).2.1, h.distinct.child (st := .mem n) (by simp [Shape.child, hm])⟩

theorem SoundTree.unionMember {ty tm st ms} (h : SoundTree (.union ty tm st ms)) {n : Nat} {i : MInfo} {m : Shape} (hm : ms[n]? = some (i, m)) : SoundTree m :=
  ⟨(wfMs_mem h.wf hm).2.1, h.distinct.child (st := .mem n) (by simp [Shape.child, hm])⟩

theorem SoundTree.arrayElem {st e} (h : SoundTree (.array st e)) : SoundTree e :=
  ⟨by have := h.wf; simp only [Shape.wf, Bool.and_eq_true] at this; exact this.1, h.distinct.child (st := .elem) rfl⟩

theorem SoundTree.mapElem {st e} (h : SoundTree (.map st e)) : SoundTree e :=
  ⟨by have := h.wf; simp only [Shape.wf, Bool.and_eq_true] at this; exact this.1, h.distinct.child (st := .elem) rfl⟩

theorem SoundTree.objectNames {k u ms} (h : SoundTree (.object k u ms)) : DistinctNames ms := h.distinct [] _ rfl
theorem SoundTree.unionNames {ty tm st ms} (h : SoundTree (.union ty tm st ms)) : DistinctNames ms := h.distinct [] _ rfl

/-! ## Ends of objects and unions -/

theorem getLast?_none {α} {l : List α} : l.getLast? = none ↔ l = [] := by cases l <;> simp

theorem filter_zip_nil {α β} {P : α × β → Bool} {l : List α} {l' : List β} :
    (l.zip l').filter P = [] ↔ ∀ (n : Nat) x y, l[n]? = some x → l'[n]? = some y → P (x, y) = false := by
  rw [List.filter_eq_nil_iff]
  constructor
  · intro h n x y hx hy
    have := h (x, y) (List.mem_of_getElem? (i := n) (List.getElem?_zip_eq_some.2 ⟨hx, hy⟩))
    simpa using this
  · intro h z hz
    obtain ⟨n, hn⟩ := List.mem_iff_getElem?.1 hz
    obtain ⟨h1, h2⟩ := List.getElem?_zip_eq_some.1 hn
    simp [h n _ _ h1 h2]

theorem finishObject_iff {kind : ObjKind} {ms : List (MInfo × Shape)} {slots : List D} :
    (∃ d, finishObject kind ms slots true = .ok d) ↔
      ∀ (n : Nat) x d, ms[n]? = some x → slots[n]? = some d → d.isSet = true ∨ Dispensable (kind == .auto) x.1 := by
  have hauto : (∃ d, finishObject .auto ms slots true = .ok d) ↔ unfillable ms slots = [] := by
    simp only [finishObject, Bool.not_true, Bool.false_eq_true, if_false]
    cases h : (unfillable ms slots).getLast? with
    | none => simp [getLast?_none.1 h]
    | some i => simp; intro h1; rw [h1] at h; simp at h
  have hother : ∀ k, k ≠ ObjKind.auto → ((∃ d, finishObject k ms slots true = .ok d) ↔ missing ms slots = []) := by
    intro k hk
    cases k with
    | auto => exact absurd rfl hk
    | _ =>
      simp only [finishObject, Bool.not_true, Bool.false_eq_true, if_false]
      cases h : (missing ms slots).getLast? with
      | none => simp [getLast?_none.1 h]
      | some i => simp; intro h1; rw [h1] at h; simp at h
  by_cases hk : kind = .auto
  · subst hk
    rw [hauto]
    simp only [unfillable, List.map_eq_nil_iff, filter_zip_nil, Dispensable]
    constructor
    · intro h n x d hx hd
      have := h n x d hx hd
      cases hs : d.isSet with
      | true => exact .inl rfl
      | false =>
        right
        rw [hs] at this
        simp at this
        exact ⟨this.1, fun _ => Option.isSome_iff_exists.1 this.2⟩
    · intro h n x d hx hd
      rcases h n x d hx hd with h1 | ⟨h1, h2⟩
      · simp [h1]
      · obtain ⟨v, hv⟩ := h2 rfl
        simp [h1, hv]
  · rw [hother kind hk]
    simp only [missing, List.map_eq_nil_iff, filter_zip_nil, Dispensable]
    have hk' : (kind == .auto) = false := by simpa using hk
    constructor
    · intro h n x d hx hd
      have := h n x d hx hd
      cases hs : d.isSet with
      | true => exact .inl rfl
      | false =>
        right
        rw [hs] at this
        simp at this
        exact ⟨this, fun h => by rw [hk'] at h; simp at h⟩
    · intro h n x d hx hd
      rcases h n x d hx hd with h1 | ⟨h1, h2⟩
      · simp [h1]
      · simp [h1]

theorem finishObject_set {kind : ObjKind} {ms : List (MInfo × Shape)} {slots : List D} {ne d} (h : finishObject kind ms slots ne = .ok d) : d.isSet = ne := by
  cases ne with
  | false => simp [finishObject] at h; subst h; rfl
  | true =>
    cases kind <;> simp only [finishObject, Bool.not_true, Bool.false_eq_true, if_false] at h
    all_goals
      split at h
      · simp at h
      · injection h with h; subst h; rfl

theorem finishUnion_iff {ty tm st ms a i alt d} (hw : (Shape.union ty tm st ms).wf = true) (hm : ms[a]? = some (i, alt)) (hf : alt.fits d = true) :
    (∃ d', finishUnion st ms a d = .ok d') ↔ d.isSet = true ∨ Dispensable st i := by
  simp only [finishUnion, hm]
  cases st with
  | false =>
    simp only [Bool.not_false, if_true, Dispensable]
    cases hs : d.isSet <;> cases ho : i.optional <;> simp
  | true =>
    simp only [Bool.not_true, Bool.false_eq_true, if_false, Dispensable]
    have hst : alt.isStorage = true := (wfMs_mem hw hm).2.2 rfl
    cases hs : d.isSet with
    | true =>
      obtain ⟨v, hv⟩ := fits_store hf hst hs
      simp [hv]
    | false =>
      have hv : d.value? = none := by cases d <;> simp [D.isSet, D.value?] at *
      rw [hv]
      cases ho : i.optional <;> cases hd : i.dflt <;> simp

theorem finishUnion_set {st ms a i alt d d'} (hm : ms[a]? = some (i, alt)) (h : finishUnion st ms a d = .ok d') :
    d'.isSet = true ∧ (st = true → ∃ v, d'.value? = some v) := by
  simp only [finishUnion, hm] at h
  cases st with
  | false =>
    simp only [Bool.not_false, if_true] at h
    split at h
    · simp at h
    · injection h with h; subst h; exact ⟨rfl, by simp⟩
  | true =>
    simp only [Bool.not_true, Bool.false_eq_true, if_false] at h
    split at h
    · injection h with h; subst h; exact ⟨rfl, by simp [D.value?]⟩
    · split at h
      · split at h
        · injection h with h; subst h; exact ⟨rfl, by simp [D.value?]⟩
        · simp at h
      · simp at h

/-! ## The equivalence -/

variable {fmt : Dbl → String}

/-- The claim for a value. -/
def ValClaim (fmt : Dbl → String) (sh : Shape) (j : Json) : Prop :=
  ((∃ d, denote fmt sh j = .ok d) ↔ Conforms sh j) ∧ ∀ d, denote fmt sh j = .ok d → d.isSet = filled sh j

/-- The claim for the fields of an object. -/
def FieldsClaim (fmt : Dbl → String) (sh : Shape) (fs : List (String × Json)) : Prop :=
  ((∃ d, denFields fmt sh (noSlots sh) [] false fs = .ok d) ↔ FieldsConform sh fs) ∧
    ∀ d, denFields fmt sh (noSlots sh) [] false fs = .ok d → d.isSet = filledFields sh fs

theorem denElems_iff {st : Bool} {e : Shape} : ∀ {l : List Json}, (∀ j ∈ l, ValClaim fmt e j) → (st = true → e.isStorage = true) → e.wf = true →
    ((∃ vs, denElems fmt st e l = .ok vs) ↔ (∀ j ∈ l, Conforms e j) ∧ (st = true → ∀ j ∈ l, j ≠ .null → filled e j = true))
  | [], _, _, _ => by simp [denElems]
  | j :: l, h, hst, hw => by
    have ih := denElems_iff (l := l) (fun j hj => h j (by simp [hj])) hst hw
    by_cases hj : j = .null
    · subst hj
      rw [denElems, ih]
      constructor
      · intro ⟨h1, h2⟩
        exact ⟨List.forall_mem_cons.2 ⟨.null, h1⟩, fun hs j hj hn => by
          rcases List.mem_cons.1 hj with rfl | hj
          · exact absurd rfl hn
          · exact h2 hs j hj hn⟩
      · intro ⟨h1, h2⟩
        exact ⟨fun j hj => h1 j (by simp [hj]), fun hs j hj => h2 hs j (by simp [hj])⟩
    · have hd := h j (by simp)
      have heq : denElems fmt st e (j :: l) = (denote fmt e j >>= fun d => if st then match d.value? with
          | some v => (denElems fmt st e l) >>= fun vs => pure (v :: vs)
          | none => .error notSet
        else denElems fmt st e l) := by
        cases j <;> first | exact absurd rfl hj | (rw [denElems] <;> first | rfl | exact hj)
      rw [heq]
      constructor
      · intro ⟨vs, hvs⟩
        obtain ⟨d, h1, h2⟩ := except_bind_ok hvs
        have hc : Conforms e j := hd.1.1 ⟨d, h1⟩
        cases st with
        | false =>
          simp only [Bool.false_eq_true, if_false] at h2
          obtain ⟨i1, i2⟩ := ih.1 ⟨vs, h2⟩
          exact ⟨List.forall_mem_cons.2 ⟨hc, i1⟩, by simp⟩
        | true =>
          simp only [if_true] at h2
          cases hv : d.value? with
          | none => rw [hv] at h2; simp at h2
          | some v =>
            rw [hv] at h2
            obtain ⟨vs', h3, h4⟩ := except_bind_ok h2
            obtain ⟨i1, i2⟩ := ih.1 ⟨vs', h3⟩
            refine ⟨List.forall_mem_cons.2 ⟨hc, i1⟩, fun hs j' hj' hn => ?_⟩
            rcases List.mem_cons.1 hj' with rfl | hj'
            · rw [← hd.2 d h1]
              cases d <;> simp [D.value?, D.isSet] at hv ⊢
            · exact i2 rfl j' hj' hn
      · intro ⟨h1, h2⟩
        obtain ⟨d, hdd⟩ := hd.1.2 (h1 j (by simp))
        obtain ⟨vs, hvs⟩ := ih.2 ⟨fun j hj => h1 j (by simp [hj]), fun hs j hj => h2 hs j (by simp [hj])⟩
        rw [hdd]
        cases st with
        | false => exact ⟨vs, by simpa [bind, Except.bind] using hvs⟩
        | true =>
          have hset : d.isSet = true := by rw [hd.2 d hdd]; exact h2 rfl j (by simp) hj
          obtain ⟨v, hv⟩ := fits_store (denote_fits j e d hw hdd) (hst rfl) hset
          exact ⟨v :: vs, by simp [bind, Except.bind, hv, hvs, pure, Except.pure]⟩

/-- Fields of known members conform, unknown ones are ignored. -/
theorem fieldsOk_iff {kd u ms} (hg : SoundTree (.object kd u ms)) {fs : List (String × Json)} (hv : ∀ kv ∈ fs, ∀ sh, SoundTree sh → ValClaim fmt sh kv.2) :
    FieldsOk fmt u ms fs ↔ (u = true → ∀ kv ∈ fs, ∃ n i m, Named ms (.str kv.1) n i m) ∧
      (∀ kv ∈ fs, ∀ n i m, Named ms (.str kv.1) n i m → Conforms m kv.2) := by
  constructor
  · intro h
    refine ⟨fun hu kv hkv => ?_, fun kv hkv n i m hn => ?_⟩
    · have := h kv hkv
      cases hl : lookup (.str kv.1) 0 ms with
      | none => rw [hl] at this; simp only at this; rw [hu] at this; simp at this
      | some a => obtain ⟨i, hi⟩ := Named.of_lookup (n := a.1) (m := a.2) hl; exact ⟨_, i, _, hi⟩
    · have := h kv hkv
      rw [hn.lookup hg.objectNames] at this
      exact (hv kv hkv m (hg.objectMember hn.here)).1.1 this
  · intro ⟨h1, h2⟩ kv hkv
    cases hl : lookup (.str kv.1) 0 ms with
    | none =>
      simp only
      cases u with
      | false => rfl
      | true =>
        obtain ⟨n, i, m, hn⟩ := h1 rfl kv hkv
        rw [hn.lookup hg.objectNames] at hl
        simp at hl
    | some a =>
      obtain ⟨i, hi⟩ := Named.of_lookup (n := a.1) (m := a.2) hl
      exact (hv kv hkv a.2 (hg.objectMember hi.here)).1.2 (h2 kv hkv _ _ _ hi)

theorem lastField_mem {k : String} : ∀ {fs : List (String × Json)} {j}, lastField k fs = some j → (k, j) ∈ fs
  | [], j, h => by simp [lastField] at h
  | (k', v) :: fs, j, h => by
    simp only [lastField] at h
    cases hl : lastField k fs with
    | some j' => rw [hl] at h; simp at h; subst h; simp [lastField_mem hl]
    | none =>
      rw [hl] at h
      simp at h
      simp [h.1, h.2]

theorem memberHolds_set {kd u ms} (hg : SoundTree (.object kd u ms)) {fs : List (String × Json)} (hv : ∀ kv ∈ fs, ∀ sh, SoundTree sh → ValClaim fmt sh kv.2)
    (hok : FieldsOk fmt u ms fs) {n : Nat} {x : MInfo × Shape} (hx : ms[n]? = some x) : (memberHolds fmt fs x).isSet = filledBy x.1 x.2 fs := by
  obtain ⟨i, m⟩ := x
  simp only [memberHolds, filledBy]
  cases hn : i.name with
  | str k =>
    simp only
    cases hl : lastField k fs with
    | none => rfl
    | some j =>
      simp only
      have hmem := lastField_mem hl
      have h1 := hok (k, j) hmem
      simp only [lookup_distinct hg.objectNames hx hn] at h1
      obtain ⟨d, hd⟩ := h1
      rw [hd]
      exact (hv (k, j) hmem m (hg.objectMember hx)).2 d hd
  | _ => rfl

theorem slots_get {fs : List (String × Json)} {ms : List (MInfo × Shape)} {n : Nat} {x d} (hx : ms[n]? = some x)
    (hd : (ms.map (memberHolds fmt fs))[n]? = some d) : d = memberHolds fmt fs x := by
  rw [List.getElem?_map, hx] at hd
  simpa using hd.symm

/-- An object without a field that selects an alternative. -/
theorem object_plain {kd u ms} (hg : SoundTree (.object kd u ms)) {fs : List (String × Json)} (hv : ∀ kv ∈ fs, ∀ sh, SoundTree sh → ValClaim fmt sh kv.2)
    (hok : FieldsOk fmt u ms fs) : (∃ d, denFields fmt (.object kd u ms) (noSlots (.object kd u ms)) [] false fs = .ok d) ↔
      (fs ≠ [] → ∀ x ∈ ms, filledBy x.1 x.2 fs = true ∨ Dispensable (kd == .auto) x.1) := by
  rw [denFields_object hg.objectNames fs _ false (by simp [noSlots]) hok, slotsAfter_noSlots]
  cases fs with
  | nil => simp [finishObject]
  | cons kv fs =>
    simp only [List.isEmpty_cons, Bool.not_false, Bool.or_true, finishObject_iff]
    constructor
    · intro h _ x hx
      obtain ⟨n, hn⟩ := List.mem_iff_getElem?.1 hx
      have h2 : (ms.map (memberHolds fmt (kv :: fs)))[n]? = some (memberHolds fmt (kv :: fs) x) := by rw [List.getElem?_map, hn]; rfl
      rw [← memberHolds_set hg hv hok hn]
      exact h n x _ hn h2
    · intro h n x d hx hd
      rw [slots_get hx hd, memberHolds_set hg hv hok hx]
      exact h (by simp) x (List.mem_of_getElem? hx)

/-- The alternative of a union, with the fields that follow. -/
theorem alternative {ty tm st ms} (hg : SoundTree (.union ty tm st ms)) {x : Scalar} {post : List (String × Json)}
    (hp : ∀ sh, SoundTree sh → FieldsClaim fmt sh post) :
    ((∃ a d d', selectAlt fmt ms x = .ok a ∧ denFields fmt a.2 (noSlots a.2) [] false post = .ok d ∧ finishUnion st ms a.1 d = .ok d') ↔
      ∃ a ai alt, Named ms x a ai alt ∧ FieldsConform alt post ∧ (filledFields alt post = true ∨ Dispensable st ai)) := by
  constructor
  · rintro ⟨⟨a, alt⟩, d, d', h1, h2, h3⟩
    simp only [selectAlt] at h1
    cases hl : lookup x 0 ms with
    | none => rw [hl] at h1; simp at h1
    | some b =>
      rw [hl] at h1
      simp only [Except.ok.injEq] at h1
      subst h1
      obtain ⟨ai, hn⟩ := Named.of_lookup hl
      have hs := hg.unionMember hn.here
      obtain ⟨c1, c2⟩ := hp alt hs
      refine ⟨a, ai, alt, hn, c1.1 ⟨d, h2⟩, ?_⟩
      rw [← c2 d h2]
      exact (finishUnion_iff hg.wf hn.here (denFields_fits post alt _ _ _ d hs.wf (AccFits.none _) h2)).1 ⟨d', h3⟩
  · rintro ⟨a, ai, alt, hn, h1, h2⟩
    have hs := hg.unionMember hn.here
    obtain ⟨c1, c2⟩ := hp alt hs
    obtain ⟨d, hd⟩ := c1.2 h1
    rw [← c2 d hd] at h2
    obtain ⟨d', hd'⟩ := (finishUnion_iff hg.wf hn.here (denFields_fits post alt _ _ _ d hs.wf (AccFits.none _) hd)).2 h2
    exact ⟨(a, alt), d, d', by simp only [selectAlt, hn.lookup hg.unionNames], hd, hd'⟩

theorem denFields_object_set {kd u ms} : ∀ {fs : List (String × Json)} {slots ents ne d},
    denFields fmt (.object kd u ms) slots ents ne fs = .ok d → d.isSet = (ne || !fs.isEmpty)
  | [], slots, ents, ne, d, h => by
    rw [denFields] at h
    simp [finishObject_set h]
  | (k, v) :: fs, slots, ents, ne, d, h => by
    simp only [List.isEmpty_cons, Bool.not_false, Bool.or_true]
    rw [denFields] at h
    split at h
    · split at h
      · obtain ⟨a, _, h⟩ := except_bind_ok h
        obtain ⟨d1, _, h⟩ := except_bind_ok h
        obtain ⟨d2, _, h⟩ := except_bind_ok h
        exact finishObject_set h
      · obtain ⟨d1, _, h⟩ := except_bind_ok h
        simpa using denFields_object_set h
    · split at h
      · simp at h
      · simpa using denFields_object_set h

theorem denFields_map_set {st e} : ∀ {fs : List (String × Json)} {slots ents ne d}, denFields fmt (.map st e) slots ents ne fs = .ok d → d.isSet = true
  | [], slots, ents, ne, d, h => by
    rw [denFields] at h
    simp only [finishMap] at h
    injection h with h
    subst h
    cases st <;> rfl
  | (k, v) :: fs, slots, ents, ne, d, h => by
    rw [denFields] at h
    split at h
    · obtain ⟨a, _, h⟩ := except_bind_ok h
      obtain ⟨d1, _, h⟩ := except_bind_ok h
      obtain ⟨d2, _, h⟩ := except_bind_ok h
      obtain ⟨d3, _, h⟩ := except_bind_ok h
      injection h with h
      subst h
      cases st <;> rfl
    · obtain ⟨d1, _, h⟩ := except_bind_ok h
      obtain ⟨d2, _, h⟩ := except_bind_ok h
      exact denFields_map_set h

/-- What an accepted nonempty object says about a union. -/
theorem union_inv {ty tm st ms k v} {fs : List (String × Json)} {slots ents ne d}
    (h : denFields fmt (.union ty tm st ms) slots ents ne ((k, v) :: fs) = .ok d) :
    tm ≠ "" ∧ k = tm ∧ ∃ x, v = .sc x ∧ x.ty = ty ∧ ∃ a d1, selectAlt fmt ms x = .ok a ∧
      denFields fmt a.2 (noSlots a.2) [] false fs = .ok d1 ∧ finishUnion st ms a.1 d1 = .ok d := by
  by_cases htm : tm = ""
  · cases v <;> simp [denFields, htm] at h
  by_cases hk : k = tm
  · cases v with
    | sc x =>
      by_cases hx : x.ty = ty
      · simp only [denFields, if_neg htm, hk, ne_eq, not_true, if_false, if_pos hx] at h
        obtain ⟨a, h1, h⟩ := except_bind_ok h
        obtain ⟨d1, h2, h⟩ := except_bind_ok h
        exact ⟨htm, hk, x, rfl, hx, a, d1, h1, h2, h⟩
      · simp [denFields, htm, hk, hx] at h
    | _ => simp [denFields, htm, hk] at h
  · cases v <;> simp [denFields, htm, hk] at h

theorem denFields_union_set {ty tm st ms} (hg : SoundTree (.union ty tm st ms)) : ∀ {fs : List (String × Json)} {slots ents ne d},
    denFields fmt (.union ty tm st ms) slots ents ne fs = .ok d → d.isSet = !fs.isEmpty
  | [], slots, ents, ne, d, h => by
    rw [denFields] at h
    injection h with h
    subst h
    rfl
  | (k, v) :: fs, slots, ents, ne, d, h => by
    obtain ⟨htm, hk, x, rfl, hx, a, d1, h1, _, h3⟩ := union_inv h
    simp only [selectAlt] at h1
    split at h1
    · rename_i b hb
      injection h1 with h1
      subst h1
      obtain ⟨ai, hn⟩ := Named.of_lookup (n := b.1) (m := b.2) hb
      simpa using (finishUnion_set hn.here h3).1
    · simp at h1

/-- An object at a field that selects an alternative. -/
theorem denFields_object_embed {kd u ms} (hd : DistinctNames ms) {pre post : List (String × Json)} {key : String} {v : Json} (hok : FieldsOk fmt u ms pre)
    {n m ty st ms' x} (hl : lookup (.str key) 0 ms = some (n, m)) (he : embedded m v = some (ty, st, ms', x)) :
    denFields fmt (.object kd u ms) (noSlots (.object kd u ms)) [] false (pre ++ (key, v) :: post) = (do
      let a ← selectAlt fmt ms' x
      let d ← denFields fmt a.2 (noSlots a.2) [] false post
      let d ← finishUnion st ms' a.1 d
      finishObject kd ms ((ms.map (memberHolds fmt pre)).set n d) true) := by
  rw [denFields_prefix hd _ pre _ false (by simp [noSlots]) hok, slotsAfter_noSlots, denFields]
  simp only [hl, he]

theorem embedded_iff {m v ty st ms x} : embedded m v = some (ty, st, ms, x) ↔ m = .union ty "" st ms ∧ v = .sc x ∧ x.ty = ty := by
  constructor
  · intro h
    cases m <;> cases v <;> simp only [embedded] at h <;> try simp at h
    obtain ⟨⟨h1, h2⟩, h3, h4, h5, h6⟩ := h
    subst h1 h3 h4 h5 h6
    exact ⟨rfl, rfl, h2⟩
  · rintro ⟨rfl, rfl, h⟩
    simp [embedded, h]

theorem object_claim {kd u ms} (hg : SoundTree (.object kd u ms)) {fs : List (String × Json)} (hv : ∀ kv ∈ fs, ∀ sh, SoundTree sh → ValClaim fmt sh kv.2)
    (hs : ∀ pre kv post, fs = pre ++ kv :: post → ∀ sh, SoundTree sh → FieldsClaim fmt sh post) : FieldsClaim fmt (.object kd u ms) fs := by
  refine ⟨⟨?_, ?_⟩, fun d h => by simpa [filledFields] using denFields_object_set h⟩
  · rintro ⟨d, h⟩
    rcases fieldsOk_or (fmt := fmt) (u := u) (ms := ms) fs with hok | ⟨pre, k, v, post, e, rfl, hok, hbad⟩
    · have h1 := (fieldsOk_iff hg hv).1 hok
      exact .object h1.1 h1.2 ((object_plain hg hv hok).1 ⟨d, h⟩)
    · have hvp : ∀ kv ∈ pre, ∀ sh, SoundTree sh → ValClaim fmt sh kv.2 := fun kv hkv => hv kv (by simp [hkv])
      cases hl : lookup (.str k) 0 ms with
      | none =>
        rw [hl] at hbad
        rw [denFields_object_error (e := e) hg.objectNames (by rw [hl]; exact hbad) pre _ false (by simp [noSlots]) hok] at h
        simp at h
      | some a =>
        obtain ⟨n, m⟩ := a
        rw [hl] at hbad
        cases he : embedded m v with
        | none =>
          rw [denFields_object_error (e := e) hg.objectNames (by rw [hl]; exact ⟨hbad, he⟩) pre _ false (by simp [noSlots]) hok] at h
          simp at h
        | some b =>
          obtain ⟨ty, st, ms', x⟩ := b
          rw [denFields_object_embed hg.objectNames hok hl he] at h
          obtain ⟨hm, rfl, hx⟩ := embedded_iff.1 he
          subst hm
          obtain ⟨i, hn⟩ := Named.of_lookup hl
          obtain ⟨a, h1, h⟩ := except_bind_ok h
          obtain ⟨d1, h2, h⟩ := except_bind_ok h
          obtain ⟨d2, h3, h⟩ := except_bind_ok h
          obtain ⟨a', ai, alt, c1, c2, c3⟩ := (alternative (hg.objectMember hn.here) (hs pre _ post rfl)).1 ⟨a, d1, d2, h1, h2, h3⟩
          have h4 := (fieldsOk_iff hg hvp).1 hok
          refine .embedding h4.1 h4.2 hn hx c1 c2 c3 fun n' y hne hy => ?_
          rw [← memberHolds_set hg hvp hok hy]
          refine finishObject_iff.1 ⟨d, h⟩ n' y _ hy ?_
          rw [List.getElem?_set_ne (Ne.symm hne), List.getElem?_map, hy]
          rfl
  · intro h
    cases h with
    | object known fields complete =>
      exact (object_plain hg hv ((fieldsOk_iff hg hv).2 ⟨known, fields⟩)).2 complete
    | @embedding _ _ _ pre key x post n i ty st alts a ai alt known fields member type choice rest chosen complete =>
      have hvp : ∀ kv ∈ pre, ∀ sh, SoundTree sh → ValClaim fmt sh kv.2 := fun kv hkv => hv kv (by simp [hkv])
      have hok := (fieldsOk_iff hg hvp).2 ⟨known, fields⟩
      obtain ⟨a', d1, d2, h1, h2, h3⟩ := (alternative (fmt := fmt) (hg.objectMember member.here) (hs pre _ post rfl)).2 ⟨a, ai, alt, choice, rest, chosen⟩
      rw [denFields_object_embed hg.objectNames hok (member.lookup hg.objectNames) (embedded_iff.2 ⟨rfl, rfl, type⟩)]
      have hset : d2.isSet = true := by
        simp only [selectAlt, choice.lookup (hg.objectMember member.here).unionNames] at h1
        injection h1 with h1
        subst h1
        exact (finishUnion_set choice.here h3).1
      have h4 : ∃ d, finishObject kd ms ((ms.map (memberHolds fmt pre)).set n d2) true = .ok d := by
        refine finishObject_iff.2 fun n' y d hy hd => ?_
        by_cases e : n' = n
        · subst e
          rw [List.getElem?_set] at hd
          simp at hd
          left
          rw [← hd.2, hset]
        · rw [List.getElem?_set_ne (Ne.symm e)] at hd
          rw [slots_get hy hd, memberHolds_set hg hvp hok hy]
          exact complete n' y e hy
      obtain ⟨d, h4⟩ := h4
      exact ⟨d, by simp only [h1, h2, h3, bind, Except.bind, h4]⟩

theorem storeEntry_iff {st : Bool} {e : Shape} {k : String} {d : D} {ents} (hf : e.fits d = true) (hst : st = true → e.isStorage = true) :
    (∃ es, storeEntry st k d ents = .ok es) ↔ (st = true → d.isSet = true) := by
  cases st with
  | false => simp [storeEntry]
  | true =>
    simp only [storeEntry, if_true]
    cases hs : d.isSet with
    | true =>
      obtain ⟨v, hv⟩ := fits_store hf (hst rfl) hs
      simp [hv]
    | false =>
      have hv : d.value? = none := by cases d <;> simp [D.isSet, D.value?] at *
      simp [hv]

theorem map_iff {st e} (hg : SoundTree (.map st e)) : ∀ {fs : List (String × Json)} {ents ne}, (∀ kv ∈ fs, ∀ sh, SoundTree sh → ValClaim fmt sh kv.2) →
    (∀ pre kv post, fs = pre ++ kv :: post → ∀ sh, SoundTree sh → FieldsClaim fmt sh post) →
    ((∃ d, denFields fmt (.map st e) [] ents ne fs = .ok d) ↔ FieldsConform (.map st e) fs)
  | [], ents, ne, hv, hs => by
    rw [denFields]
    exact ⟨fun _ => .map (by simp) (by simp), fun _ => ⟨_, rfl⟩⟩
  | (k, v) :: fs, ents, ne, hv, hs => by
    have hst : st = true → e.isStorage = true := by
      have := hg.wf
      simp only [Shape.wf, Bool.and_eq_true] at this
      intro h
      rw [h] at this
      simpa using this.2
    have ih : ∀ {ents ne}, ((∃ d, denFields fmt (.map st e) [] ents ne fs = .ok d) ↔ FieldsConform (.map st e) fs) := fun {ents ne} =>
      map_iff hg (fun kv hkv => hv kv (by simp [hkv])) (fun pre kv post h => hs ((k, v) :: pre) kv post (by rw [h]; rfl))
    rw [denFields]
    cases he : embedded e v with
    | some b =>
      obtain ⟨ty, st', ms', x⟩ := b
      obtain ⟨hm, rfl, hx⟩ := embedded_iff.1 he
      subst hm
      simp only
      have halt := alternative (fmt := fmt) (x := x) hg.mapElem (hs [] _ fs rfl)
      constructor
      · rintro ⟨d, h⟩
        obtain ⟨a, h1, h⟩ := except_bind_ok h
        obtain ⟨d1, h2, h⟩ := except_bind_ok h
        obtain ⟨d2, h3, h⟩ := except_bind_ok h
        obtain ⟨a', ai, alt, c1, c2, c3⟩ := halt.1 ⟨a, d1, d2, h1, h2, h3⟩
        exact .mapEmbedding (before := []) (by simp) (by simp) hx c1 c2 c3
      · intro h
        have hc : ∃ a ai alt, Named ms' x a ai alt ∧ FieldsConform alt fs ∧ (filledFields alt fs = true ∨ Dispensable st' ai) := by
          generalize hfs : (k, Json.sc x) :: fs = all at h
          cases h with
          | map elems values =>
            have := elems (k, .sc x) (by rw [← hfs]; simp)
            cases this
          | @mapEmbedding _ pre key x' post ty' st'' alts a ai alt elems values type choice rest chosen =>
            cases pre with
            | nil =>
              simp only [List.nil_append, List.cons.injEq, Prod.mk.injEq, Json.sc.injEq] at hfs
              obtain ⟨⟨rfl, rfl⟩, rfl⟩ := hfs
              exact ⟨a, ai, alt, choice, rest, chosen⟩
            | cons kv pre =>
              simp only [List.cons_append, List.cons.injEq] at hfs
              have := elems kv (by simp)
              rw [← hfs.1] at this
              cases this
        obtain ⟨a, d1, d2, h1, h2, h3⟩ := halt.2 hc
        have hset : d2.isSet = true ∧ (st' = true → ∃ v, d2.value? = some v) := by
          simp only [selectAlt] at h1
          split at h1
          · rename_i b hb
            injection h1 with h1
            subst h1
            obtain ⟨ai, hn⟩ := Named.of_lookup (n := b.1) (m := b.2) hb
            exact finishUnion_set hn.here h3
          · simp at h1
        have h4 : ∃ es, storeEntry st k d2 ents = .ok es := by
          cases st with
          | false => simp [storeEntry]
          | true =>
            obtain ⟨v, hv⟩ := hset.2 (by simpa [Shape.isStorage] using hst rfl)
            simp [storeEntry, hv]
        obtain ⟨es, h4⟩ := h4
        exact ⟨finishMap st es, by simp only [h1, h2, h3, h4, bind, Except.bind]⟩
    | none =>
      simp only
      have hval := hv (k, v) (by simp) e hg.mapElem
      have hsplit : FieldsConform (.map st e) ((k, v) :: fs) ↔ (Conforms e v ∧ (st = true → filled e v = true)) ∧ FieldsConform (.map st e) fs := by
        constructor
        · intro h
          generalize hfs : (k, v) :: fs = all at h
          cases h with
          | map elems values =>
            subst hfs
            exact ⟨⟨elems (k, v) (by simp), fun hs => values hs (k, v) (by simp)⟩,
              .map (fun kv hkv => elems kv (by simp [hkv])) (fun hs kv hkv => values hs kv (by simp [hkv]))⟩
          | @mapEmbedding _ pre key x' post ty' st'' alts a ai alt elems values type choice rest chosen =>
            cases pre with
            | nil =>
              simp only [List.nil_append, List.cons.injEq, Prod.mk.injEq] at hfs
              obtain ⟨⟨rfl, rfl⟩, rfl⟩ := hfs
              rw [embedded_iff.2 ⟨rfl, rfl, type⟩] at he
              simp at he
            | cons kv pre =>
              simp only [List.cons_append, List.cons.injEq] at hfs
              obtain ⟨rfl, rfl⟩ := hfs
              exact ⟨⟨elems (k, v) (by simp), fun hs => values hs (k, v) (by simp)⟩,
                .mapEmbedding (fun kv hkv => elems kv (by simp [hkv])) (fun hs kv hkv => values hs kv (by simp [hkv])) type choice rest chosen⟩
        · rintro ⟨⟨h1, h2⟩, h⟩
          generalize hsh : Shape.map st e = sh at h
          cases h with
          | map elems values =>
            injection hsh with e1 e2
            subst e1 e2
            exact .map (List.forall_mem_cons.2 ⟨h1, elems⟩) (fun hs => List.forall_mem_cons.2 ⟨h2 hs, values hs⟩)
          | @mapEmbedding _ pre key x' post ty' st'' alts a ai alt elems values type choice rest chosen =>
            injection hsh with e1 e2
            subst e1 e2
            exact .mapEmbedding (before := (k, v) :: pre) (List.forall_mem_cons.2 ⟨h1, elems⟩) (fun hs => List.forall_mem_cons.2 ⟨h2 hs, values hs⟩) type choice rest chosen
          | _ => simp at hsh
      rw [hsplit]
      constructor
      · rintro ⟨d, h⟩
        obtain ⟨d1, h1, h⟩ := except_bind_ok h
        obtain ⟨es, h2, h⟩ := except_bind_ok h
        refine ⟨⟨hval.1.1 ⟨d1, h1⟩, ?_⟩, ih.1 ⟨d, h⟩⟩
        rw [← hval.2 d1 h1]
        exact (storeEntry_iff (denote_fits v e d1 hg.mapElem.wf h1) hst).1 ⟨es, h2⟩
      · rintro ⟨⟨h1, h2⟩, h⟩
        obtain ⟨d1, hd1⟩ := hval.1.2 h1
        rw [← hval.2 d1 hd1] at h2
        obtain ⟨es, hes⟩ := (storeEntry_iff (k := k) (ents := ents) (denote_fits v e d1 hg.mapElem.wf hd1) hst).2 h2
        obtain ⟨d, hd⟩ := (ih (ents := es) (ne := true)).2 h
        exact ⟨d, by simp only [hd1, hes, bind, Except.bind, hd]⟩

theorem union_claim {ty tm st ms} (hg : SoundTree (.union ty tm st ms)) {fs : List (String × Json)}
    (hs : ∀ pre kv post, fs = pre ++ kv :: post → ∀ sh, SoundTree sh → FieldsClaim fmt sh post) : FieldsClaim fmt (.union ty tm st ms) fs := by
  refine ⟨?_, fun d h => by simpa [filledFields] using denFields_union_set hg h⟩
  cases fs with
  | nil =>
    rw [denFields]
    exact ⟨fun _ => .noType, fun _ => ⟨_, rfl⟩⟩
  | cons kv fs =>
    obtain ⟨k, v⟩ := kv
    constructor
    · rintro ⟨d, h⟩
      obtain ⟨htm, rfl, x, rfl, hx, a, d1, h1, h2, h3⟩ := union_inv h
      obtain ⟨a', ai, alt, c1, c2, c3⟩ := (alternative hg (hs [] _ fs rfl)).1 ⟨a, d1, d, h1, h2, h3⟩
      exact .union htm hx c1 c2 c3
    · intro h
      cases h with
      | @union _ _ _ _ x _ a ai alt htm type choice rest chosen =>
        obtain ⟨a', d1, d2, h1, h2, h3⟩ := (alternative (fmt := fmt) hg (hs [] _ fs rfl)).2 ⟨a, ai, alt, choice, rest, chosen⟩
        refine ⟨d2, ?_⟩
        rw [denFields]
        simp only [if_neg htm, ne_eq, not_true, if_false, if_pos type, h1, h2, h3, bind, Except.bind]

theorem fields_claim {sh : Shape} (hg : SoundTree sh) {fs : List (String × Json)} (hv : ∀ kv ∈ fs, ∀ sh, SoundTree sh → ValClaim fmt sh kv.2)
    (hs : ∀ pre kv post, fs = pre ++ kv :: post → ∀ sh, SoundTree sh → FieldsClaim fmt sh post) : FieldsClaim fmt sh fs := by
  cases sh with
  | value ty =>
    cases fs with
    | nil => simp only [FieldsClaim, denFields]; exact ⟨⟨fun ⟨d, h⟩ => by simp at h, fun h => by cases h⟩, fun d h => by simp at h⟩
    | cons kv fs => simp only [FieldsClaim, denFields]; exact ⟨⟨fun ⟨d, h⟩ => by simp at h, fun h => by cases h⟩, fun d h => by simp at h⟩
  | ignore => have := hg.wf; simp [Shape.wf] at this
  | array st e =>
    cases fs with
    | nil => simp only [FieldsClaim, denFields]; exact ⟨⟨fun ⟨d, h⟩ => by simp at h, fun h => by cases h⟩, fun d h => by simp at h⟩
    | cons kv fs => simp only [FieldsClaim, denFields]; exact ⟨⟨fun ⟨d, h⟩ => by simp at h, fun h => by cases h⟩, fun d h => by simp at h⟩
  | object kd u ms => exact object_claim hg hv hs
  | union ty tm st ms => exact union_claim hg hs
  | map st e => exact ⟨map_iff hg hv hs, fun d h => by simpa [filledFields] using denFields_map_set h⟩

theorem sizeOf_post {α : Type} [SizeOf α] : ∀ (pre : List α) (x : α) (post : List α), sizeOf post < sizeOf (pre ++ x :: post)
  | [], x, post => by simp; omega
  | y :: pre, x, post => by have := sizeOf_post pre x post; simp at this ⊢; omega

mutual
theorem conform_val (fmt : Dbl → String) : ∀ (j : Json) (sh : Shape), SoundTree sh → ValClaim fmt sh j
  | .null, sh, hg => by
    rw [ValClaim, denote]
    exact ⟨⟨fun _ => .null, fun _ => ⟨_, rfl⟩⟩, fun d h => by injection h with h; subst h; rfl⟩
  | .sc x, sh, hg => by
    cases sh with
    | value ty =>
      simp only [ValClaim, denote]
      by_cases hx : x.ty = ty
      · simp only [if_pos hx]
        exact ⟨⟨fun _ => .scalar hx, fun _ => ⟨_, rfl⟩⟩, fun d h => by injection h with h; subst h; rfl⟩
      · simp only [if_neg hx]
        exact ⟨⟨fun ⟨d, h⟩ => by simp at h, fun h => by cases h; rename_i h; exact absurd h hx⟩, fun d h => by simp at h⟩
    | ignore => have := hg.wf; simp [Shape.wf] at this
    | _ => simp only [ValClaim, denote]; exact ⟨⟨fun ⟨d, h⟩ => by simp at h, fun h => by cases h⟩, fun d h => by simp at h⟩
  | .arr l, sh, hg => by
    cases sh with
    | array st e =>
      have hst : st = true → e.isStorage = true := by
        have := hg.wf
        simp only [Shape.wf, Bool.and_eq_true] at this
        intro h
        rw [h] at this
        simpa using this.2
      have h := denElems_iff (fmt := fmt) (st := st) (e := e) (l := l) (fun j hj => conform_val fmt j e hg.arrayElem) hst hg.arrayElem.wf
      simp only [ValClaim, denote]
      refine ⟨⟨?_, ?_⟩, ?_⟩
      · rintro ⟨d, hd⟩
        cases hv : denElems fmt st e l with
        | error x => rw [hv] at hd; simp [Except.map] at hd
        | ok vs => have := h.1 ⟨vs, hv⟩; exact .array this.1 this.2
      · intro hc
        cases hc with
        | array elems values =>
          obtain ⟨vs, hv⟩ := h.2 ⟨elems, values⟩
          rw [hv]
          exact ⟨_, rfl⟩
      · intro d hd
        cases hv : denElems fmt st e l with
        | error x => rw [hv] at hd; simp [Except.map] at hd
        | ok vs =>
          rw [hv] at hd
          simp only [Except.map, Except.ok.injEq] at hd
          subst hd
          cases st <;> rfl
    | ignore => have := hg.wf; simp [Shape.wf] at this
    | _ => simp only [ValClaim, denote]; exact ⟨⟨fun ⟨d, h⟩ => by simp at h, fun h => by cases h⟩, fun d h => by simp at h⟩
  | .obj fs, sh, hg => by
    have hf := conform_fields fmt fs sh hg
    by_cases hemb : ∃ ty st ms, sh = .union ty "" st ms
    · obtain ⟨ty, st, ms, rfl⟩ := hemb
      rw [ValClaim, denote]
      simp only [if_true]
      refine ⟨⟨fun ⟨d, h⟩ => by simp at h, fun h => ?_⟩, fun d h => by simp at h⟩
      cases h with
      | object own _ => exact absurd rfl (own ty st ms)
    · have hown : ∀ ty st ms, sh ≠ .union ty "" st ms := fun ty st ms h => hemb ⟨ty, st, ms, h⟩
      have heq : ∀ d, denote fmt sh (.obj fs) = .ok d ↔ denFields fmt sh (noSlots sh) [] false fs = .ok d := by
        intro d
        cases sh with
        | union ty tm st ms =>
          have : tm ≠ "" := fun e => hown ty st ms (by rw [e])
          simp only [denote, if_neg this]
        | object => simp only [denote]
        | map => simp only [denote]
        | ignore => have := hg.wf; simp [Shape.wf] at this
        | value => cases fs <;> simp [denote, denFields]
        | array => cases fs <;> simp [denote, denFields]
      refine ⟨⟨?_, ?_⟩, fun d h => hf.2 d ((heq d).1 h)⟩
      · rintro ⟨d, h⟩
        exact .object hown (hf.1.1 ⟨d, (heq d).1 h⟩)
      · intro h
        cases h with
        | object _ fields =>
          obtain ⟨d, h⟩ := hf.1.2 fields
          exact ⟨d, (heq d).2 h⟩
  termination_by j => sizeOf j
  decreasing_by
    all_goals simp_wf
    · have := List.sizeOf_lt_of_mem hj; omega
theorem conform_fields (fmt : Dbl → String) : ∀ (fs : List (String × Json)) (sh : Shape), SoundTree sh → FieldsClaim fmt sh fs
  | fs, sh, hg => fields_claim hg (fun kv hkv sh hg => conform_val fmt kv.2 sh hg) (fun pre kv post h sh hg => conform_fields fmt post sh hg)
  termination_by fs => sizeOf fs
  decreasing_by
    · have := List.sizeOf_lt_of_mem hkv
      obtain ⟨k, v⟩ := kv
      simp at this ⊢
      omega
    · subst h
      exact sizeOf_post pre kv post
end

/-! ## Conforming documents whose nulls are fine are outside the known defects -/

/-- `NullsFine` for the fields of an object. -/
def FieldNullsFine (sh : Shape) (fs : List (String × Json)) : Prop := noNullF fs = true ∨ (Strict sh ∧ noNullElemF fs = true)

theorem Strict.child {sh c : Shape} {st : Step} (hd : Strict sh) (h : sh.child st = some c) : Strict c := by
  intro p k u ms hx
  exact hd (p ++ [st]) k u ms (by rw [at_snoc h]; exact hx)

theorem FieldNullsFine.head {sh : Shape} {kv fs} (h : FieldNullsFine sh (kv :: fs)) {c st} (hc : sh.child st = some c) : NullsFine c kv.2 := by
  obtain ⟨k, v⟩ := kv
  rcases h with h | ⟨h1, h2⟩
  · simp only [noNullF, Bool.and_eq_true] at h; exact .inl h.1
  · simp only [noNullElemF, Bool.and_eq_true] at h2; exact .inr ⟨h1.child hc, h2.1⟩

theorem FieldNullsFine.tail {sh : Shape} {kv fs} (h : FieldNullsFine sh (kv :: fs)) : FieldNullsFine sh fs := by
  obtain ⟨k, v⟩ := kv
  rcases h with h | ⟨h1, h2⟩
  · simp only [noNullF, Bool.and_eq_true] at h; exact .inl h.2
  · simp only [noNullElemF, Bool.and_eq_true] at h2; exact .inr ⟨h1, h2.2⟩

theorem FieldNullsFine.down {sh : Shape} {fs} (h : FieldNullsFine sh fs) {c st} (hc : sh.child st = some c) : FieldNullsFine c fs :=
  h.imp id fun h => ⟨h.1.child hc, h.2⟩

theorem FieldNullsFine.drop {sh : Shape} : ∀ {pre fs}, FieldNullsFine sh (pre ++ fs) → FieldNullsFine sh fs
  | [], _, h => h
  | _ :: pre, _, h => FieldNullsFine.drop (pre := pre) h.tail

theorem FieldNullsFine.mem {sh : Shape} : ∀ {fs kv}, FieldNullsFine sh fs → kv ∈ fs → ∀ {c st}, sh.child st = some c → NullsFine c kv.2
  | x :: fs, kv, h, hm, c, st, hc => by
    rcases List.mem_cons.1 hm with rfl | hm
    · exact h.head hc
    · exact FieldNullsFine.mem h.tail hm hc

theorem Conforms.not_embedded {m : Shape} {v : Json} (h : Conforms m v) : embedded m v = none := by
  cases he : embedded m v with
  | none => rfl
  | some b =>
    obtain ⟨ty, st, ms, x⟩ := b
    obtain ⟨rfl, rfl, _⟩ := embedded_some he
    cases h

/-- Fields of an object up to one that selects an alternative. -/
theorem okFields_object {k u ms} (hg : SoundTree (.object k u ms)) {rest : List (String × Json)} (hrest : okFields (.object k u ms) rest = true) :
    ∀ {pre : List (String × Json)}, (u = true → ∀ kv ∈ pre, ∃ n i m, Named ms (.str kv.1) n i m) →
    (∀ kv ∈ pre, ∀ n i m, Named ms (.str kv.1) n i m → Conforms m kv.2 ∧ okVal m kv.2 = true) →
    (u = false → ∀ kv ∈ pre, kv.2.noNull = true) → okFields (.object k u ms) (pre ++ rest) = true
  | [], _, _, _ => hrest
  | (key, v) :: pre, hk, hf, hn => by
    have ih : okFields (.object k u ms) (pre ++ rest) = true := okFields_object hg hrest (pre := pre) (fun hu kv hkv => hk hu kv (by simp [hkv]))
      (fun kv hkv => hf kv (by simp [hkv])) (fun hu kv hkv => hn hu kv (by simp [hkv]))
    simp only [List.cons_append, okFields]
    cases hl : lookup (.str key) 0 ms with
    | none =>
      simp only
      cases u with
      | true => rfl
      | false =>
        have hv : v.noNull = true := hn rfl (key, v) (by simp)
        have : okVal .ignore v = true := by cases v <;> simp_all [okVal, Json.noNull]
        simp [this, ih]
    | some a =>
      obtain ⟨i, hi⟩ := Named.of_lookup (n := a.1) (m := a.2) hl
      obtain ⟨h1, h2⟩ := hf (key, v) (by simp) _ _ _ hi
      have hem : embedded a.2 v = none := h1.not_embedded
      have hu : a.2.isUser = true := wf_user (hg.objectMember hi.here).wf
      simp only [hem, hu, h2, ih, Bool.and_self]

theorem okFields_map {st e} (hg : SoundTree (.map st e)) {rest : List (String × Json)} (hrest : okFields (.map st e) rest = true) :
    ∀ {pre : List (String × Json)}, (∀ kv ∈ pre, Conforms e kv.2 ∧ okVal e kv.2 = true) → okFields (.map st e) (pre ++ rest) = true
  | [], _ => hrest
  | (key, v) :: pre, hf => by
    have ih : okFields (.map st e) (pre ++ rest) = true := okFields_map hg hrest (pre := pre) (fun kv hkv => hf kv (by simp [hkv]))
    obtain ⟨h1, h2⟩ := hf (key, v) (by simp)
    have hem : embedded e v = none := h1.not_embedded
    have hu : e.isUser = true := wf_user hg.mapElem.wf
    simp only [List.cons_append, okFields, hem, hu, h2, ih, Bool.and_self]

theorem noNullF_mem : ∀ {fs : List (String × Json)}, noNullF fs = true → ∀ kv ∈ fs, kv.2.noNull = true
  | [], _, kv, h => by simp at h
  | (k, v) :: fs, h, kv, hm => by
    simp only [noNullF, Bool.and_eq_true] at h
    rcases List.mem_cons.1 hm with rfl | hm
    · exact h.1
    · exact noNullF_mem h.2 kv hm

theorem FieldNullsFine.ignored {k u ms} {fs : List (String × Json)} (h : FieldNullsFine (.object k u ms) fs) (hu : u = false) : ∀ kv ∈ fs, kv.2.noNull = true := by
  rcases h with h | ⟨h, _⟩
  · exact noNullF_mem h
  · have := h [] k u ms rfl; rw [hu] at this; simp at this

theorem embedded_union {ty st ms x} (h : x.ty = ty) : embedded (.union ty "" st ms) (.sc x) = some (ty, st, ms, x) := by simp [embedded, h]

theorem sizeOf_snd {fs : List (String × Json)} {kv : String × Json} (h : kv ∈ fs) : sizeOf kv.2 < sizeOf fs := by
  have := List.sizeOf_lt_of_mem h
  obtain ⟨k, v⟩ := kv
  simp at this ⊢
  omega

mutual
theorem conforms_ok : ∀ {j : Json} {sh : Shape}, SoundTree sh → Conforms sh j → NullsFine sh j → okVal sh j = true
  | .null, sh, hg, h, hn => by simp [okVal]
  | .sc x, sh, hg, h, hn => by cases h; simp [okVal]
  | .arr l, sh, hg, h, hn => by
    cases h with
    | @array stored e _ elems values =>
      simp only [okVal]
      have hl : ∀ j ∈ l, j ≠ .null ∧ NullsFine e j := by
        rcases hn with hn | ⟨h1, hn⟩
        · simp only [Json.noNull] at hn
          intro j hj
          have : ∀ {l : List Json}, noNullL l = true → ∀ j ∈ l, j.noNull = true := by
            intro l
            induction l with
            | nil => simp
            | cons x l ih =>
              intro h j hj
              simp only [noNullL, Bool.and_eq_true] at h
              rcases List.mem_cons.1 hj with rfl | hj
              · exact h.1
              · exact ih h.2 j hj
          have := this hn j hj
          exact ⟨fun e => by rw [e] at this; simp [Json.noNull] at this, .inl this⟩
        · simp only [Json.noNullElem] at hn
          intro j hj
          have : ∀ {l : List Json}, noNullElemL l = true → ∀ j ∈ l, j ≠ .null ∧ j.noNullElem = true := by
            intro l
            induction l with
            | nil => simp
            | cons x l ih =>
              intro h j hj
              simp only [noNullElemL, Bool.and_eq_true] at h
              rcases List.mem_cons.1 hj with rfl | hj
              · exact ⟨fun e => by rw [e] at h; simp at h, h.1.2⟩
              · exact ih h.2 j hj
          have := this hn j hj
          exact ⟨this.1, .inr ⟨h1.child (st := .elem) rfl, this.2⟩⟩
      have hok : ∀ j ∈ l, okVal e j = true := fun j hj => conforms_ok hg.arrayElem (elems j hj) (hl j hj).2
      have hu : e.isUser = true := wf_user hg.arrayElem.wf
      replace hl : ∀ j ∈ l, j ≠ .null := fun j hj => (hl j hj).1
      clear hn elems values
      clear hg
      induction l with
      | nil => rfl
      | cons j l ih =>
        have h1 := hl j (by simp)
        have h2 := hok j (by simp)
        have h3 := ih (fun j hj => hok j (by simp [hj])) (fun j hj => hl j (by simp [hj]))
        cases j <;> simp_all [okElems]
  | .obj fs, sh, hg, h, hn => by
    cases h with
    | object own fields =>
      have hf : FieldNullsFine sh fs := hn
      have := conforms_okF hg fields hf
      cases sh with
      | value => simp [okVal]
      | ignore => have := hg.wf; simp [Shape.wf] at this
      | array => simp [okVal]
      | object => simpa [okVal] using this
      | map => simpa [okVal] using this
      | union ty tm st ms => simp only [okVal]; split <;> simp_all
  termination_by j => sizeOf j
  decreasing_by
    all_goals simp_wf
    · have := List.sizeOf_lt_of_mem hj; omega
theorem conforms_okF : ∀ {fs : List (String × Json)} {sh : Shape}, SoundTree sh → FieldsConform sh fs → FieldNullsFine sh fs → okFields sh fs = true
  | fs, sh, hg, h, hn => by
    cases h with
    | @object k u ms _ known fields complete =>
      have := okFields_object hg (rest := []) (by simp [okFields]) (pre := fs) known (fun kv hkv n i m hnm =>
        ⟨fields kv hkv n i m hnm, conforms_ok (hg.objectMember hnm.here) (fields kv hkv n i m hnm) (hn.mem hkv (st := .mem n) (by simp [Shape.child, hnm.here]))⟩)
        (fun hu => hn.ignored hu)
      simpa using this
    | @embedding k u ms pre key x post n i ty stored alts a ai alt known fields member type choice rest chosen complete =>
      have hgu : SoundTree (.union ty "" stored alts) := hg.objectMember member.here
      have hc : (Shape.object k u ms).child (.mem n) = some (.union ty "" stored alts) := by simp [Shape.child, member.here]
      have hca : (Shape.union ty "" stored alts).child (.mem a) = some alt := by simp [Shape.child, choice.here]
      have h1 : okFields alt post = true := conforms_okF (hgu.unionMember choice.here) rest (((hn.drop).tail.down hc).down hca)
      refine okFields_object hg ?_ known (fun kv hkv n i m hnm =>
        ⟨fields kv hkv n i m hnm, conforms_ok (hg.objectMember hnm.here) (fields kv hkv n i m hnm) (hn.mem (by simp [hkv]) (st := .mem n) (by simp [Shape.child, hnm.here]))⟩)
        (fun hu kv hkv => hn.ignored hu kv (by simp [hkv]))
      simp only [okFields, member.lookup hg.objectNames, embedded_union type, choice.lookup hgu.unionNames, h1]
    | @map stored e _ elems values =>
      have := okFields_map hg (rest := []) (by simp [okFields]) (pre := fs) (fun kv hkv =>
        ⟨elems kv hkv, conforms_ok hg.mapElem (elems kv hkv) (hn.mem hkv (st := .elem) rfl)⟩)
      simpa using this
    | @mapEmbedding stored pre key x post ty st alts a ai alt elems values type choice rest chosen =>
      have hca : (Shape.union ty "" st alts).child (.mem a) = some alt := by simp [Shape.child, choice.here]
      have h1 : okFields alt post = true := conforms_okF (hg.mapElem.unionMember choice.here) rest (((hn.drop).tail.down (st := .elem) rfl).down hca)
      refine okFields_map hg ?_ (fun kv hkv => ⟨elems kv hkv, conforms_ok hg.mapElem (elems kv hkv) (hn.mem (by simp [hkv]) (st := .elem) rfl)⟩)
      simp only [okFields, embedded_union type, choice.lookup hg.mapElem.unionNames, h1]
    | noType => simp [okFields]
    | @union ty tm stored alts x post a ai alt hasType type choice rest chosen =>
      have hca : (Shape.union ty tm stored alts).child (.mem a) = some alt := by simp [Shape.child, choice.here]
      have h1 : okFields alt post = true := conforms_okF (hg.unionMember choice.here) rest (hn.tail.down hca)
      simp only [okFields, if_neg hasType, ne_eq, not_true, if_false, if_pos type, choice.lookup hg.unionNames, h1]
  termination_by fs => sizeOf fs
  decreasing_by
    all_goals (try subst_vars)
    all_goals first
      | exact sizeOf_post _ _ _
      | exact sizeOf_snd (List.mem_append_left _ ‹_›)
      | exact sizeOf_snd ‹_›
      | (simp; omega)
end

end SJ
