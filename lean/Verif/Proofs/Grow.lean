/-
A grown parser accepts the documents of the old one (C48): by induction over the document, on `denote`.
-/
import Verif.SpecGrow
import Verif.Proofs.Typing

set_option linter.unusedVariables false

namespace SJ

variable {fmt : Dbl → String}

/-! ## Members -/

theorem ExtendsMs.get {ms ms' : List (MInfo × Shape)} (h : ExtendsMs ms ms') : ∀ {n : Nat} {i : MInfo} {sh : Shape}, ms[n]? = some (i, sh) →
    ∃ i' sh', ms'[n]? = some (i', sh') ∧ i'.name = i.name ∧ (i.optional = true → i'.optional = true) ∧
      (∀ v, i.dflt = some v → ∃ v', i'.dflt = some v' ∧ GrownV sh sh' v v') ∧ Extends sh sh' := by
  match h with
  | .nil => intro n i sh h; simp at h
  | .cons h1 h2 h3 h4 h5 =>
    intro n i sh h
    match n with
    | 0 =>
      simp at h
      obtain ⟨rfl, rfl⟩ := h
      exact ⟨_, _, rfl, h1, h2, h3, h4⟩
    | n + 1 => exact ExtendsMs.get h5 (n := n) (by simpa using h)

theorem ExtendsMs.append {ms ms' more : List (MInfo × Shape)} (h : ExtendsMs ms ms') {n : Nat} {x : MInfo × Shape} (hn : ms'[n]? = some x) : (ms' ++ more)[n]? = some x := by
  rw [List.getElem?_append_left (List.getElem?_eq_some_iff.1 hn).1]
  exact hn

theorem ExtendsMs.lookup {x : Scalar} : ∀ {ms ms' more : List (MInfo × Shape)} {k n : Nat} {m : Shape}, ExtendsMs ms ms' → SJ.lookup x k ms = some (n, m) →
    ∃ m', SJ.lookup x k (ms' ++ more) = some (n, m') ∧ Extends m m'
  | _, _, more, k, n, m, .nil, h => by simp [SJ.lookup] at h
  | (i, sh) :: ms, _ :: ms', more, k, n, m, .cons (i' := i') (sh' := sh') h1 h2 h3 h4 h5, h => by
    simp only [SJ.lookup, List.cons_append, h1] at h ⊢
    split at h
    · rename_i hc
      simp only [Option.some.injEq, Prod.mk.injEq] at h
      obtain ⟨rfl, rfl⟩ := h
      exact ⟨sh', by rw [if_pos hc], h4⟩
    · rename_i hc
      obtain ⟨m', h6, h7⟩ := ExtendsMs.lookup (more := more) h5 h
      exact ⟨m', by rw [if_neg hc]; exact h6, h7⟩

theorem ExtendsMs.lookup_none {x : Scalar} : ∀ {ms ms' : List (MInfo × Shape)} {k : Nat}, ExtendsMs ms ms' → SJ.lookup x k ms = none → SJ.lookup x k ms' = none
  | _, _, k, .nil, h => by simp [SJ.lookup]
  | (i, sh) :: ms, _ :: ms', k, .cons h1 h2 h3 h4 h5, h => by
    simp only [SJ.lookup, h1] at h ⊢
    split at h
    · simp at h
    · rename_i hc
      rw [if_neg hc]
      exact ExtendsMs.lookup_none h5 h

theorem Extends.user {a b : Shape} (h : Extends a b) (hu : a.isUser = true) : b.isUser = true := by cases h <;> simp [Shape.isUser]

/-! ## Values -/

theorem GrownD.set {a b : Shape} {d d' : D} (h : GrownD a b d d') : d'.isSet = d.isSet := by cases h <;> rfl

theorem GrownD.value {a b : Shape} {d d' : D} (h : GrownD a b d d') : (∀ v, d.value? = some v → ∃ v', d'.value? = some v' ∧ GrownV a b v v') ∧
    (d.value? = none → d'.value? = none) := by
  cases h with
  | val h => exact ⟨fun v hv => by simp only [D.value?, Option.some.injEq] at hv; subst hv; exact ⟨_, rfl, h⟩, fun h => by simp [D.value?] at h⟩
  | custom h => exact ⟨fun v hv => by simp only [D.value?, Option.some.injEq] at hv; subst hv; exact ⟨_, rfl, .custom⟩, fun h => by simp [D.value?] at h⟩
  | _ => exact ⟨fun v hv => by simp [D.value?] at hv, fun _ => rfl⟩

theorem grownDs_more : ∀ (more : List (MInfo × Shape)), GrownDs [] more [] (more.map fun _ => .unset)
  | [] => .nil
  | _ :: more => .extra (grownDs_more more)

theorem ExtendsMs.none {more : List (MInfo × Shape)} : ∀ {ms ms' : List (MInfo × Shape)}, ExtendsMs ms ms' →
    GrownDs ms (ms' ++ more) (ms.map fun _ => .unset) ((ms' ++ more).map fun _ => .unset)
  | _, _, .nil => by simpa using grownDs_more more
  | _, _, .cons h1 h2 h3 h4 h5 => .cons .unset (ExtendsMs.none h5)

/-- One more member has been read. -/
theorem GrownDs.put {d d' : D} {sh sh' : Shape} (hd : GrownD sh sh' d d') : ∀ {ms ms' : List (MInfo × Shape)} {ds ds' : List D}, GrownDs ms ms' ds ds' →
    ∀ {n : Nat} {i i' : MInfo}, ms[n]? = some (i, sh) → ms'[n]? = some (i', sh') → GrownDs ms ms' (ds.set n d) (ds'.set n d')
  | _, _, _, _, .nil, n, i, i', h1, h2 => by simp at h1
  | _, _, _, _, .extra t, n, i, i', h1, h2 => by simp at h1
  | _, _, _, _, .cons h t, 0, i, i', h1, h2 => by
    simp at h1 h2
    obtain ⟨rfl, rfl⟩ := h1
    obtain ⟨rfl, rfl⟩ := h2
    exact .cons hd t
  | _, _, _, _, .cons h t, n + 1, i, i', h1, h2 => .cons h (GrownDs.put hd t (by simpa using h1) (by simpa using h2))

theorem missing_more {more : List (MInfo × Shape)} (ho : ∀ x ∈ more, x.1.optional = true) : ∀ {ds : List D}, missing more ds = [] := by
  intro ds
  simp only [missing, List.map_eq_nil_iff, List.filter_eq_nil_iff]
  intro x hx
  have := (List.of_mem_zip hx).1
  simp [ho _ this]

theorem missing_cons {x : MInfo × Shape} {d : D} {ms : List (MInfo × Shape)} {ds : List D} :
    missing (x :: ms) (d :: ds) = if !x.1.optional && !d.isSet then x.1 :: missing ms ds else missing ms ds := by
  simp only [missing, List.zip_cons_cons, List.filter_cons]
  split <;> simp

theorem unfillable_cons {x : MInfo × Shape} {d : D} {ms : List (MInfo × Shape)} {ds : List D} :
    unfillable (x :: ms) (d :: ds) = if !d.isSet && (!x.1.optional || x.1.dflt.isNone) then x.1 :: unfillable ms ds else unfillable ms ds := by
  simp only [unfillable, List.zip_cons_cons, List.filter_cons]
  split <;> simp

theorem grown_missing {more : List (MInfo × Shape)} (ho : ∀ x ∈ more, x.1.optional = true) : ∀ {ms ms' : List (MInfo × Shape)}, ExtendsMs ms ms' →
    ∀ {ds ds' : List D}, GrownDs ms (ms' ++ more) ds ds' → missing ms ds = [] → missing (ms' ++ more) ds' = []
  | _, _, .nil, ds, ds', h, _ => by simpa using missing_more ho
  | _, _, .cons (i := i) (i' := i') h1 h2 h3 h4 h5, ds, ds', h, hm => by
    rw [List.cons_append] at h ⊢
    cases h with
    | @cons _ _ _ _ _ _ d d' ds ds' hd t =>
      rw [missing_cons] at hm
      split at hm
      · simp at hm
      · rename_i hc
        rw [missing_cons, if_neg, grown_missing ho h5 t hm]
        rw [hd.set]
        intro hc'
        apply hc
        cases hi : i.optional with
        | false => simp_all
        | true => rw [h2 hi] at hc'; simp at hc'

theorem unfillable_more {more : List (MInfo × Shape)} (ho : ∀ x ∈ more, x.1.optional = true) (hv : ∀ x ∈ more, ∃ v, x.1.dflt = some v) :
    ∀ {ds : List D}, unfillable more ds = [] := by
  intro ds
  simp only [unfillable, List.map_eq_nil_iff, List.filter_eq_nil_iff]
  intro x hx
  have := (List.of_mem_zip hx).1
  obtain ⟨v, hv⟩ := hv _ this
  simp [ho _ this, hv]

/-- The values of the tuple. -/
def tupleOf (ms : List (MInfo × Shape)) (ds : List D) : List Val := (ms.zip ds).map fun x => (x.2.value?.or x.1.1.dflt).getD .init

theorem tupleOf_cons {x : MInfo × Shape} {d : D} {ms : List (MInfo × Shape)} {ds : List D} :
    tupleOf (x :: ms) (d :: ds) = (d.value?.or x.1.dflt).getD .init :: tupleOf ms ds := rfl

theorem grown_tuple_more : ∀ {more : List (MInfo × Shape)} (hv : ∀ x ∈ more, ∃ v, x.1.dflt = some v) {ds : List D}, GrownDs [] more [] ds →
    GrownVs [] more [] (tupleOf more ds)
  | _, hv, _, .nil => .nil
  | (i, sh) :: more, hv, _, .extra t => by
    obtain ⟨v, hx⟩ := hv (i, sh) (by simp)
    rw [tupleOf_cons]
    simp only at hx
    simp only [D.value?, hx, Option.none_or, Option.getD_some]
    exact .extra hx (grown_tuple_more (fun x hx => hv x (by simp [hx])) t)

/-- A member of a set storage parser: it stores a value. -/
def AllStored (ms : List (MInfo × Shape)) (ds : List D) : Prop := ∀ x ∈ ms.zip ds, x.2.isSet = true → x.2.value?.isSome = true

theorem grown_auto {more : List (MInfo × Shape)} (ho : ∀ x ∈ more, x.1.optional = true) (hv : ∀ x ∈ more, ∃ v, x.1.dflt = some v) :
    ∀ {ms ms' : List (MInfo × Shape)}, ExtendsMs ms ms' → ∀ {ds ds' : List D}, GrownDs ms (ms' ++ more) ds ds' → AllStored ms ds → unfillable ms ds = [] →
    unfillable (ms' ++ more) ds' = [] ∧ GrownVs ms (ms' ++ more) (tupleOf ms ds) (tupleOf (ms' ++ more) ds')
  | _, _, .nil, ds, ds', h, _, _ => by
    rw [List.nil_append] at h ⊢
    cases ds with
    | nil => exact ⟨unfillable_more ho hv, grown_tuple_more hv h⟩
    | cons => cases h
  | _, _, .cons (i := i) (i' := i') (sh := sh) h1 h2 h3 h4 h5, ds, ds', h, ha, hm => by
    rw [List.cons_append] at h ⊢
    cases h with
    | @cons _ _ _ _ _ _ d d' ds ds' hd t =>
      rw [unfillable_cons] at hm
      split at hm
      · simp at hm
      · rename_i hc
        obtain ⟨i1, i2⟩ := grown_auto ho hv h5 t (fun x hx => ha x (by simp [hx])) hm
        have hs := hd.set
        obtain ⟨v1, v2⟩ := hd.value
        cases hset : d.isSet with
        | true =>
          have := ha ((i, sh), d) (by simp) hset
          simp only at this
          obtain ⟨v, hv⟩ := Option.isSome_iff_exists.1 this
          obtain ⟨v', hv', hg⟩ := v1 v hv
          rw [unfillable_cons, tupleOf_cons, tupleOf_cons, hs, hset]
          simp only [Bool.not_true, Bool.false_and, Bool.false_eq_true, if_false, hv, hv', Option.some_or, Option.getD_some]
          exact ⟨i1, .cons hg i2⟩
        | false =>
          have hd0 : d.value? = none := by cases d <;> simp_all [D.isSet, D.value?]
          rw [hset] at hc
          simp only [Bool.not_false, Bool.true_and, Bool.or_eq_true, Bool.not_eq_true', not_or, Bool.not_eq_false, Option.isNone_iff_eq_none] at hc
          obtain ⟨v, hv⟩ := Option.ne_none_iff_exists'.1 hc.2
          obtain ⟨v', hv', hg⟩ := h3 v hv
          rw [unfillable_cons, tupleOf_cons, tupleOf_cons, hs, hset]
          simp only [h2 hc.1, hv', hd0, v2 hd0, hv, Bool.not_false, Bool.not_true, Option.isNone_some, Bool.or_self, Bool.and_false, Bool.false_eq_true,
            if_false, Option.none_or, Option.getD_some]
          exact ⟨i1, .cons hg i2⟩

theorem getLast?_eq_nil {α} {l : List α} : l.getLast? = none ↔ l = [] := by cases l <;> simp [List.getLast?]

theorem grown_finishObject {kind : ObjKind} {u u' : Bool} {ms ms' more : List (MInfo × Shape)} (hm : ExtendsMs ms ms') (ho : ∀ x ∈ more, x.1.optional = true)
    (hv : kind = .auto → ∀ x ∈ more, ∃ v, x.1.dflt = some v) {ds ds' : List D} (h : GrownDs ms (ms' ++ more) ds ds') (hw : kind = .auto → AllStored ms ds)
    {ne : Bool} {d : D} (hf : finishObject kind ms ds ne = .ok d) :
    ∃ d', finishObject kind (ms' ++ more) ds' ne = .ok d' ∧ GrownD (.object kind u ms) (.object kind u' (ms' ++ more)) d d' := by
  cases ne with
  | false =>
    simp only [finishObject, Bool.not_false, if_true, Except.ok.injEq] at hf ⊢
    subst hf
    exact ⟨_, rfl, .unset⟩
  | true =>
    simp only [finishObject, Bool.not_true, Bool.false_eq_true, if_false] at hf ⊢
    cases kind with
    | auto =>
      simp only at hf ⊢
      cases hu : (unfillable ms ds).getLast? with
      | some i => rw [hu] at hf; simp at hf
      | none =>
        rw [hu] at hf
        simp only [Except.ok.injEq] at hf
        subst hf
        obtain ⟨h1, h2⟩ := grown_auto ho (hv rfl) hm h (hw rfl) (getLast?_eq_nil.1 hu)
        rw [h1]
        exact ⟨_, rfl, .val (.tup h2)⟩
    | plain =>
      simp only at hf ⊢
      cases hu : (missing ms ds).getLast? with
      | some i => rw [hu] at hf; simp at hf
      | none =>
        rw [hu] at hf
        simp only [reduceCtorEq, if_false, Except.ok.injEq] at hf
        subst hf
        rw [grown_missing ho hm h (getLast?_eq_nil.1 hu)]
        exact ⟨_, rfl, .obj h⟩
    | custom =>
      simp only at hf ⊢
      cases hu : (missing ms ds).getLast? with
      | some i => rw [hu] at hf; simp at hf
      | none =>
        rw [hu] at hf
        simp only [if_true, Except.ok.injEq] at hf
        subst hf
        rw [grown_missing ho hm h (getLast?_eq_nil.1 hu)]
        exact ⟨_, rfl, .custom h⟩

theorem grown_finishUnion {ty : ScalarTy} {tm : String} {stored : Bool} {ms ms' more : List (MInfo × Shape)} (hm : ExtendsMs ms ms') {a : Nat} {i i' : MInfo} {sh sh' : Shape}
    (h1 : ms[a]? = some (i, sh)) (h2 : (ms' ++ more)[a]? = some (i', sh')) (ho : i.optional = true → i'.optional = true)
    (hd : ∀ v, i.dflt = some v → ∃ v', i'.dflt = some v' ∧ GrownV sh sh' v v') {d d' : D} (h : GrownD sh sh' d d') {x : D} (hf : finishUnion stored ms a d = .ok x) :
    ∃ x', finishUnion stored (ms' ++ more) a d' = .ok x' ∧ GrownD (.union ty tm stored ms) (.union ty tm stored (ms' ++ more)) x x' := by
  simp only [finishUnion, h1, h2] at hf ⊢
  cases stored with
  | false =>
    simp only [Bool.not_false, if_true] at hf ⊢
    split at hf
    · simp at hf
    · rename_i hc
      simp only [Except.ok.injEq] at hf
      subst hf
      refine ⟨_, if_neg ?_, .alt h1 h2 h⟩
      rw [h.set]
      intro hc'
      apply hc
      cases hi : i.optional with
      | false => simp_all
      | true => rw [ho hi] at hc'; simp at hc'
  | true =>
    simp only [Bool.not_true, Bool.false_eq_true, if_false] at hf ⊢
    obtain ⟨v1, v2⟩ := h.value
    cases hv : d.value? with
    | some v =>
      obtain ⟨v', hv', hg⟩ := v1 v hv
      rw [hv] at hf
      simp only [Except.ok.injEq] at hf
      subst hf
      rw [hv']
      exact ⟨_, rfl, .val (.alt h1 h2 hg)⟩
    | none =>
      rw [hv] at hf
      rw [v2 hv]
      simp only at hf ⊢
      split at hf
      · rename_i hi
        rw [if_pos (ho hi)]
        cases hdf : i.dflt with
        | none => rw [hdf] at hf; simp at hf
        | some v =>
          rw [hdf] at hf
          simp only [Except.ok.injEq] at hf
          subst hf
          obtain ⟨v', hv', hg⟩ := hd v hdf
          rw [hv']
          exact ⟨_, rfl, .val (.alt h1 h2 hg)⟩
      · simp at hf

theorem GrownVe.insert {e e' : Shape} {k : String} {v v' : Val} (hv : GrownV e e' v v') : ∀ {es es' : List (String × Val)}, GrownVe e e' es es' →
    GrownVe e e' (mapInsert k v es) (mapInsert k v' es')
  | _, _, .nil => .cons hv .nil
  | (k', _) :: _, _ :: _, .cons h t => by
    simp only [mapInsert]
    split
    · exact .cons hv (.cons h t)
    · split
      · exact .cons h t
      · exact .cons h (GrownVe.insert hv t)

theorem grown_storeEntry {stored : Bool} {e e' : Shape} {k : String} {d d' : D} (h : GrownD e e' d d') {es es' x : List (String × Val)} (he : GrownVe e e' es es')
    (hf : storeEntry stored k d es = .ok x) : ∃ x', storeEntry stored k d' es' = .ok x' ∧ GrownVe e e' x x' := by
  cases stored with
  | false =>
    simp only [storeEntry, Bool.false_eq_true, if_false, Except.ok.injEq] at hf ⊢
    subst hf
    exact ⟨_, rfl, he⟩
  | true =>
    simp only [storeEntry, if_true] at hf ⊢
    cases hv : d.value? with
    | none => rw [hv] at hf; simp at hf
    | some v =>
      obtain ⟨v', hv', hg⟩ := h.value.1 v hv
      rw [hv] at hf
      simp only [Except.ok.injEq] at hf
      subst hf
      rw [hv']
      exact ⟨_, rfl, he.insert hg⟩

theorem grown_finishMap {stored : Bool} {e e' : Shape} {es es' : List (String × Val)} (h : GrownVe e e' es es') :
    GrownD (.map stored e) (.map stored e') (finishMap stored es) (finishMap stored es') := by
  cases stored with
  | false => exact .done
  | true => exact .val (.map h)

theorem Extends.embedded {a b : Shape} (h : Extends a b) {v : Json} : (SJ.embedded a v = none → SJ.embedded b v = none) ∧
    ∀ {ty st ms x}, SJ.embedded a v = some (ty, st, ms, x) → ∃ ms' more, b = .union ty "" st (ms' ++ more) ∧ ExtendsMs ms ms' ∧
      SJ.embedded b v = some (ty, st, ms' ++ more, x) := by
  cases h with
  | @union ty tm stored ms ms' more hm =>
    cases v with
    | sc y =>
      simp only [SJ.embedded]
      constructor
      · intro h; split at h <;> simp_all
      · intro ty' st' ms1 x h
        split at h
        · rename_i hc
          simp only [Option.some.injEq, Prod.mk.injEq] at h
          obtain ⟨rfl, rfl, rfl, rfl⟩ := h
          exact ⟨ms', more, by rw [hc.1], hm, by rw [if_pos hc]⟩
        · simp at h
    | _ => simp [SJ.embedded]
  | _ => simp [SJ.embedded]

theorem selectAlt_ok {ms : List (MInfo × Shape)} {x : Scalar} {a : Nat × Shape} (h : selectAlt fmt ms x = .ok a) : lookup x 0 ms = some a := by
  unfold selectAlt at h
  split at h
  · rename_i hl; injection h with h; subst h; exact hl
  · simp at h

theorem ExtendsMs.select {ms ms' more : List (MInfo × Shape)} (hm : ExtendsMs ms ms') {x : Scalar} {a : Nat × Shape} (h : selectAlt fmt ms x = .ok a) :
    ∃ sh' i i', selectAlt fmt (ms' ++ more) x = .ok (a.1, sh') ∧ Extends a.2 sh' ∧ ms[a.1]? = some (i, a.2) ∧ (ms' ++ more)[a.1]? = some (i', sh') ∧
      (i.optional = true → i'.optional = true) ∧ (∀ v, i.dflt = some v → ∃ v', i'.dflt = some v' ∧ GrownV a.2 sh' v v') ∧
      SJ.lookup x 0 ms = some a ∧ SJ.lookup x 0 (ms' ++ more) = some (a.1, sh') := by
  have hl := selectAlt_ok h
  obtain ⟨i, hi⟩ := lookup_mem (a := a.1) (sh := a.2) hl
  obtain ⟨i', sh', g1, g2, g3, g4, g5⟩ := hm.get hi
  obtain ⟨m', l1, l2⟩ := hm.lookup (more := more) (n := a.1) (m := a.2) hl
  have g1 : (ms' ++ more)[a.1]? = some (i', sh') := hm.append g1
  obtain ⟨i2, hi2⟩ := lookup_mem l1
  rw [g1] at hi2
  simp only [Option.some.injEq, Prod.mk.injEq] at hi2
  obtain ⟨rfl, rfl⟩ := hi2
  exact ⟨_, i, i', by simp only [selectAlt, l1], g5, hi, g1, g3, g4, hl, l1⟩

theorem fitsL_stored : ∀ {ms : List (MInfo × Shape)} {ds : List D}, (∀ x ∈ ms, x.2.isStorage = true) → fitsL ms ds = true → AllStored ms ds
  | [], ds, _, h => by intro x hx; simp at hx
  | (i, sh) :: ms, [], _, h => by simp [fitsL] at h
  | (i, sh) :: ms, d :: ds, hs, h => by
    simp only [fitsL, Bool.and_eq_true] at h
    intro x hx hset
    simp only [List.zip_cons_cons, List.mem_cons] at hx
    rcases hx with rfl | hx
    · obtain ⟨v, hv⟩ := fits_store h.1 (hs (i, sh) (by simp)) hset
      simp only at hv ⊢
      simp [hv]
    · exact fitsL_stored (fun x hx => hs x (by simp [hx])) h.2 x hx hset

theorem wf_stored {u ms} (hw : (Shape.object .auto u ms).wf = true) : ∀ x ∈ ms, x.2.isStorage = true := by
  intro x hx
  obtain ⟨n, hn⟩ := List.getElem?_of_mem hx
  obtain ⟨i, sh⟩ := x
  exact (wfMs_mem hw hn).2.2 rfl

/-- What was read so far by the old and by the grown parser. -/
def Grown (a b : Shape) (slots slots' : List D) (ents ents' : List (String × Val)) : Prop :=
  match a, b with
  | .object _ _ ms, .object _ _ ms' => GrownDs ms ms' slots slots'
  | .map _ e, .map _ e' => GrownVe e e' ents ents'
  | _, _ => True

theorem Grown.start {a b : Shape} (h : Extends a b) : Grown a b (noSlots a) (noSlots b) [] [] := by
  cases h with
  | object _ hm => exact hm.none
  | map => exact .nil
  | _ => trivial

mutual
theorem grow_val : ∀ (j : Json) {a b : Shape} {d : D}, Extends a b → a.wf = true → denote fmt a j = .ok d →
    (okVal a j = true → okVal b j = true) ∧ ∃ d', denote fmt b j = .ok d' ∧ GrownD a b d d'
  | .null, a, b, d, hg, hw, h => by
    unfold denote at h
    injection h with h
    subst h
    exact ⟨fun _ => by simp [okVal], _, by unfold denote; rfl, .unset⟩
  | .sc x, a, b, d, hg, hw, h => by
    cases hg with
    | @value ty =>
      simp only [denote] at h ⊢
      split at h
      · rename_i hx
        injection h with h
        subst h
        exact ⟨fun h => h, _, by rw [if_pos hx], .val .scalar⟩
      · simp at h
    | _ => simp [denote] at h
  | .arr l, a, b, d, hg, hw, h => by
    cases hg with
    | @array st e e' hg =>
      simp only [denote, okVal] at h ⊢
      cases hl : denElems fmt st e l with
      | error m => rw [hl] at h; simp [Except.map] at h
      | ok vs =>
        rw [hl] at h
        simp only [Except.map, Except.ok.injEq] at h
        subst h
        obtain ⟨h1, vs', h2, h3⟩ := grow_elems l hg (wf_array hw).1 hl
        refine ⟨h1, _, by rw [h2]; rfl, ?_⟩
        cases st with
        | false => exact .done
        | true => exact .val (.arr (h3 rfl))
    | _ => simp [denote] at h
  | .obj fs, a, b, d, hg, hw, h => by
    cases hg with
    | @object kind u u' ms ms' more h1 h2 h3 h4 h5 =>
      simp only [denote, okVal] at h ⊢
      exact grow_fields fs (.object h1 h2 h3 h4 h5) hw (AccFits.none _) (Grown.start (.object h1 h2 h3 h4 h5)) h
    | @map st e e' hg =>
      simp only [denote, okVal] at h ⊢
      exact grow_fields fs (.map hg) hw (AccFits.none _) (Grown.start (.map hg)) h
    | @union ty tm st ms ms' more hm =>
      simp only [denote, okVal] at h ⊢
      split at h
      · simp at h
      · rename_i htm
        simp only [if_neg htm]
        exact grow_fields fs (.union hm) hw (AccFits.none _) (Grown.start (.union hm)) h
    | _ => simp [denote] at h
theorem grow_fields : ∀ (fs : List (String × Json)) {a b : Shape} {slots slots' : List D} {ents ents' : List (String × Val)} {ne : Bool} {d : D}, Extends a b →
    a.wf = true → AccFits a slots ents → Grown a b slots slots' ents ents' → denFields fmt a slots ents ne fs = .ok d →
    (okFields a fs = true → okFields b fs = true) ∧ ∃ d', denFields fmt b slots' ents' ne fs = .ok d' ∧ GrownD a b d d'
  | [], a, b, slots, slots', ents, ents', ne, d, hg, hw, ha, hr, h => by
    cases hg with
    | @object kind u u' ms ms' more h1 h2 h3 h4 h5 =>
      simp only [denFields, okFields] at h ⊢
      exact ⟨fun h => h, grown_finishObject h2 h4 h5 hr (fun hk => by subst hk; exact fitsL_stored (wf_stored hw) ha) h⟩
    | @map st e e' hg =>
      simp only [denFields, okFields] at h ⊢
      injection h with h
      subst h
      exact ⟨fun h => h, _, rfl, grown_finishMap hr⟩
    | @union ty tm st ms ms' more hm =>
      simp only [denFields, okFields] at h ⊢
      injection h with h
      subst h
      exact ⟨fun h => h, _, rfl, .unset⟩
    | _ => simp [denFields] at h
  | (k, v) :: fs, a, b, slots, slots', ents, ents', ne, d, hg, hw, ha, hr, h => by
    cases hg with
    | @object kind u u' ms ms' more h1 h2 h3 h4 h5 =>
      have hg : Extends (.object kind u ms) (.object kind u' (ms' ++ more)) := .object h1 h2 h3 h4 h5
      simp only [denFields, okFields] at h ⊢
      cases hl : lookup (.str k) 0 ms with
      | none =>
        rw [hl] at h
        simp only at h
        split at h
        · simp at h
        · rename_i hu
          have hm : more = [] := Classical.byContradiction fun hm => hu (h3 hm)
          have hu' : u' ≠ true := fun hu' => hu (h1 hu')
          have hl' : lookup (.str k) 0 (ms' ++ more) = none := by rw [hm, List.append_nil]; exact h2.lookup_none hl
          obtain ⟨i1, i2⟩ := grow_fields fs (ents' := []) hg hw (show AccFits (.object kind u ms) slots [] from ha)
            (show GrownDs _ _ _ _ from hr) h
          simp only [hl', if_neg hu, if_neg hu', Bool.and_eq_true]
          exact ⟨fun h => ⟨h.1, i1 h.2⟩, i2⟩
      | some n =>
        obtain ⟨n, m⟩ := n
        rw [hl] at h
        simp only at h
        obtain ⟨i, hi⟩ := lookup_mem hl
        obtain ⟨i', m', g1, g2, g3, g4, g5⟩ := h2.get hi
        have g1 : (ms' ++ more)[n]? = some (i', m') := h2.append g1
        obtain ⟨m2, l1, l2⟩ := h2.lookup (more := more) hl
        have : m2 = m' := by
          obtain ⟨i2, hi2⟩ := lookup_mem l1
          rw [g1] at hi2
          simp at hi2
          exact hi2.2.symm
        subst this
        have hwm := wfMs_mem (wf_object hw) hi
        simp only [l1]
        obtain ⟨e1, e2⟩ := g5.embedded (v := v)
        cases he : embedded m v with
        | none =>
          rw [he] at h
          simp only at h
          obtain ⟨d1, hd1, h⟩ := except_bind_ok h
          obtain ⟨v1, d1', v2, v3⟩ := grow_val v g5 hwm.2.1 hd1
          obtain ⟨i1, i2⟩ := grow_fields fs (slots' := slots'.set n d1') hg hw (show AccFits (.object kind u ms) _ [] from fitsL_set ha hi (denote_fits v m d1 hwm.2.1 hd1))
            (show GrownDs _ _ _ _ from GrownDs.put v3 hr hi g1) h
          simp only [e1 he, v2, bind, Except.bind, Bool.and_eq_true]
          exact ⟨fun h => ⟨⟨g5.user h.1.1, v1 h.1.2⟩, i1 h.2⟩, i2⟩
        | some q =>
          obtain ⟨ty, st, ms1, x⟩ := q
          rw [he] at h
          simp only at h
          obtain ⟨rfl, rfl, hx⟩ := embedded_some he
          obtain ⟨ms1', more1, rfl, hm1, he'⟩ := e2 he
          obtain ⟨al, h6, h⟩ := except_bind_ok h
          obtain ⟨d1, h7, h⟩ := except_bind_ok h
          obtain ⟨d2, h8, h⟩ := except_bind_ok h
          obtain ⟨sh', ia, ia', s1, s2, s3, s4, s5, s6, s7, s8⟩ := hm1.select (more := more1) h6
          have hwa := wfMs_mem (wf_union hwm.2.1) s3
          obtain ⟨i1, d1', i2, i3⟩ := grow_fields fs s2 hwa.2.1 (AccFits.none _) (Grown.start s2) h7
          obtain ⟨d2', f1, f2⟩ := grown_finishUnion (ty := ty) (tm := "") hm1 s3 s4 s5 s6 i3 h8
          have hd1 := denFields_fits fs _ _ _ _ d1 hwa.2.1 (AccFits.none _) h7
          have hd2 := finishUnion_fits hwm.2.1 s3 hd1 h8
          obtain ⟨d', o1, o2⟩ := grown_finishObject (u := u) (u' := u') h2 h4 h5 (GrownDs.put f2 hr hi g1)
            (fun hk => by subst hk; exact fitsL_stored (wf_stored hw) (fitsL_set ha hi hd2)) h
          simp only [he', s1, i2, f1, o1, s7, s8, bind, Except.bind]
          exact ⟨i1, d', rfl, o2⟩
    | @union ty tm st ms ms' more hm =>
      by_cases htm : tm = ""
      · simp [denFields, htm] at h
      by_cases hk : k = tm
      · cases v with
        | sc x =>
          by_cases hx : x.ty = ty
          · simp only [denFields, okFields, if_neg htm, hk, ne_eq, not_true, if_false, if_pos hx] at h ⊢
            obtain ⟨al, h6, h⟩ := except_bind_ok h
            obtain ⟨d1, h7, h⟩ := except_bind_ok h
            obtain ⟨sh', ia, ia', s1, s2, s3, s4, s5, s6, s7, s8⟩ := hm.select (more := more) h6
            have hwa := wfMs_mem (wf_union hw) s3
            obtain ⟨i1, d1', i2, i3⟩ := grow_fields fs s2 hwa.2.1 (AccFits.none _) (Grown.start s2) h7
            obtain ⟨d2', f1, f2⟩ := grown_finishUnion (ty := ty) (tm := tm) hm s3 s4 s5 s6 i3 h
            simp only [s1, i2, f1, s7, s8, bind, Except.bind]
            exact ⟨i1, d2', rfl, f2⟩
          · simp [denFields, htm, hk, hx] at h
        | _ => simp [denFields, htm, hk] at h
      · cases v <;> simp [denFields, htm, hk] at h
    | @map st e e' hg =>
      have hwe := wf_map hw
      simp only [denFields, okFields] at h ⊢
      obtain ⟨e1, e2⟩ := hg.embedded (v := v)
      cases he : embedded e v with
      | none =>
        rw [he] at h
        simp only at h
        obtain ⟨d1, hd1, h⟩ := except_bind_ok h
        obtain ⟨en, h4, h⟩ := except_bind_ok h
        obtain ⟨v1, d1', v2, v3⟩ := grow_val v hg hwe.1 hd1
        obtain ⟨en', q1, q2⟩ := grown_storeEntry v3 hr h4
        obtain ⟨i1, i2⟩ := grow_fields fs (slots' := []) (ents' := en') (.map hg) hw
          (show AccFits (.map st e) [] en from storeEntry_types (denote_fits v e d1 hwe.1 hd1) ha h4) (show Grown (.map st e) (.map st e') _ _ _ _ from q2) h
        simp only [e1 he, v2, q1, bind, Except.bind, Bool.and_eq_true]
        exact ⟨fun h => ⟨⟨hg.user h.1.1, v1 h.1.2⟩, i1 h.2⟩, i2⟩
      | some q =>
        obtain ⟨ty, st1, ms1, x⟩ := q
        rw [he] at h
        simp only at h
        obtain ⟨rfl, rfl, hx⟩ := embedded_some he
        obtain ⟨ms1', more1, rfl, hm1, he'⟩ := e2 he
        obtain ⟨al, h6, h⟩ := except_bind_ok h
        obtain ⟨d1, h7, h⟩ := except_bind_ok h
        obtain ⟨d2, h8, h⟩ := except_bind_ok h
        obtain ⟨en, h9, h⟩ := except_bind_ok h
        obtain ⟨sh', ia, ia', s1, s2, s3, s4, s5, s6, s7, s8⟩ := hm1.select (more := more1) h6
        have hwa := wfMs_mem (wf_union hwe.1) s3
        obtain ⟨i1, d1', i2, i3⟩ := grow_fields fs s2 hwa.2.1 (AccFits.none _) (Grown.start s2) h7
        obtain ⟨d2', f1, f2⟩ := grown_finishUnion (ty := ty) (tm := "") hm1 s3 s4 s5 s6 i3 h8
        obtain ⟨en', q1, q2⟩ := grown_storeEntry f2 hr h9
        injection h with h
        subst h
        simp only [he', s1, i2, f1, q1, s7, s8, bind, Except.bind]
        exact ⟨i1, _, rfl, grown_finishMap q2⟩
    | _ => simp [denFields] at h
theorem grow_elems : ∀ (l : List Json) {st : Bool} {e e' : Shape} {vs : List Val}, Extends e e' → e.wf = true → denElems fmt st e l = .ok vs →
    (okElems e l = true → okElems e' l = true) ∧ ∃ vs', denElems fmt st e' l = .ok vs' ∧ (st = true → GrownVl e e' vs vs')
  | [], st, e, e', vs, hg, hw, h => by
    unfold denElems at h
    injection h with h
    subst h
    exact ⟨fun _ => by simp [okElems], [], by unfold denElems; rfl, fun _ => .nil⟩
  | j :: l, st, e, e', vs, hg, hw, h => by
    by_cases hj : j = .null
    · subst hj
      unfold denElems at h
      obtain ⟨h1, vs', h2, h3⟩ := grow_elems l hg hw h
      refine ⟨?_, vs', by unfold denElems; exact h2, h3⟩
      intro ho
      cases hg with
      | value => exact ho
      | _ => simp [okElems] at ho
    · have heq : ∀ e, denElems fmt st e (j :: l) = (denote fmt e j >>= fun d => if st then match d.value? with
          | some v => (denElems fmt st e l) >>= fun vs => pure (v :: vs)
          | none => .error notSet
        else denElems fmt st e l) := by
        intro e
        cases j <;> first | exact absurd rfl hj | (rw [denElems] <;> first | rfl | exact hj)
      rw [heq] at h ⊢
      obtain ⟨d, hd, h⟩ := except_bind_ok h
      obtain ⟨v1, d', v2, v3⟩ := grow_val j hg hw hd
      have hok : ∀ {r : Bool}, (okElems e l = true → okElems e' l = true) → okElems e (j :: l) = true → okElems e' (j :: l) = true := by
        intro r h1 h
        have : ∀ e, okElems e (j :: l) = (e.isUser && okVal e j && okElems e l) := by
          intro e
          cases j <;> first | exact absurd rfl hj | (simp [okElems])
        rw [this] at h ⊢
        simp only [Bool.and_eq_true] at h ⊢
        exact ⟨⟨hg.user h.1.1, v1 h.1.2⟩, h1 h.2⟩
      cases st with
      | false =>
        simp only [Bool.false_eq_true, if_false] at h ⊢
        obtain ⟨h1, vs', h2, h3⟩ := grow_elems l hg hw h
        refine ⟨hok (r := true) h1, vs', ?_, fun h => by simp at h⟩
        simp only [v2, bind, Except.bind, h2]
      | true =>
        simp only [if_true] at h ⊢
        cases hv : d.value? with
        | none => rw [hv] at h; simp at h
        | some v =>
          rw [hv] at h
          simp only at h
          obtain ⟨vs1, h4, h⟩ := except_bind_ok h
          injection h with h
          subst h
          obtain ⟨h1, vs', h2, h3⟩ := grow_elems l hg hw h4
          obtain ⟨v', hv', hgv⟩ := v3.value.1 v hv
          refine ⟨hok (r := true) h1, v' :: vs', ?_, fun _ => .cons hgv (h3 rfl)⟩
          simp only [v2, hv', bind, Except.bind, h2, pure, Except.pure]
end

end SJ
