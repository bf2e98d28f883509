/-
As long as there is no error the document can still be completed (C64).
-/
import Verif.SpecAhead
import Verif.Proofs.Timed
import Verif.Proofs.Conform

set_option linter.unusedVariables false

namespace SJ

variable {E : Env} {R : Shape}

/-! ## A value for every parser -/

def ScalarTy.some : ScalarTy → Scalar
  | .bool => .bool true
  | .int => .int 0
  | .dbl => .dbl ⟨0⟩
  | .str => .str ""

mutual
def sample : Shape → Json
  | .value ty => .sc ty.some
  | .ignore => .null
  | .object _ _ ms => .obj (sampleMs ms)
  | .union _ tm _ ms => .obj (match ms with
      | [] => []
      | (i, sh) :: _ => (tm, .sc i.name) :: sampleFields sh)
  | .array _ _ => .arr []
  | .map _ _ => .obj []
def sampleFields : Shape → List (String × Json)
  | .object _ _ ms => sampleMs ms
  | .union _ tm _ ms => match ms with
      | [] => []
      | (i, sh) :: _ => (tm, .sc i.name) :: sampleFields sh
  | _ => []
def sampleMs : List (MInfo × Shape) → List (String × Json)
  | [] => []
  | (i, sh) :: ms => (match i.name with
      | .str k => k
      | _ => "", sample sh) :: sampleMs ms
end

theorem sample_obj {sh : Shape} (h : sh.takesFields = true) : sample sh = .obj (sampleFields sh) := by
  cases sh with
  | object k u ms => simp [sample, sampleFields]
  | union ty tm st ms => cases ms with
    | nil => simp [sample, sampleFields]
    | cons x ms => simp [sample, sampleFields]
  | map => simp [sample, sampleFields]
  | _ => simp [Shape.takesFields] at h

theorem completableMs_mem : ∀ {ms : List (MInfo × Shape)}, completableMs ms = true → ∀ x ∈ ms, x.2.completable = true
  | [], _, x, hx => by simp at hx
  | (i, sh) :: ms, h, x, hx => by
    simp only [completableMs, Bool.and_eq_true] at h
    rcases List.mem_cons.1 hx with rfl | hx
    · exact h.1
    · exact completableMs_mem h.2 x hx

/-- One field, as the parser of an object or map takes it. -/
def FieldFine : Shape → String × Json → Prop
  | .object _ u ms, kv => match lookup (.str kv.1) 0 ms with
    | some (_, m) => Conforms m kv.2 ∧ okVal m kv.2 = true
    | none => u = false ∧ okVal .ignore kv.2 = true
  | .map st e, kv => Conforms e kv.2 ∧ okVal e kv.2 = true ∧ (st = true → filled e kv.2 = true)
  | _, _ => False

theorem okFields_append {k u ms} (hg : SoundTree (.object k u ms)) : ∀ {fs : List (String × Json)}, (∀ kv ∈ fs, FieldFine (.object k u ms) kv) →
    okFields (.object k u ms) fs = true
  | [], _ => by simp [okFields]
  | (key, v) :: fs, h => by
    have ih := okFields_append hg (fs := fs) fun kv hkv => h kv (by simp [hkv])
    have h1 := h (key, v) (by simp)
    simp only [FieldFine] at h1
    rw [okFields]
    cases hl : lookup (.str key) 0 ms with
    | none =>
      rw [hl] at h1
      simp only at h1
      obtain ⟨rfl, h2⟩ := h1
      simp [h2, ih]
    | some a =>
      rw [hl] at h1
      obtain ⟨i, hi⟩ := Named.of_lookup (n := a.1) (m := a.2) hl
      have hem : embedded a.2 v = none := h1.1.not_embedded
      have hu : a.2.isUser = true := wf_user (hg.objectMember hi.here).wf
      simp only [hem, hu, h1.2, ih, Bool.and_self]

theorem okFields_mapAll {st e} (hg : SoundTree (.map st e)) {fs : List (String × Json)} (h : ∀ kv ∈ fs, FieldFine (.map st e) kv) : okFields (.map st e) fs = true := by
  have := okFields_map hg (rest := []) (by simp [okFields]) (pre := fs) fun kv hkv => ⟨(h kv hkv).1, (h kv hkv).2.1⟩
  simpa using this

theorem lastField_append {k : String} : ∀ {fs fs' : List (String × Json)}, lastField k (fs ++ fs') = (lastField k fs').or (lastField k fs)
  | [], fs' => by simp [lastField]
  | (k', v) :: fs, fs' => by
    simp only [List.cons_append, lastField, lastField_append (fs := fs)]
    cases lastField k fs' <;> simp

theorem sampleMs_mem : ∀ {ms : List (MInfo × Shape)} {x}, x ∈ ms → ∀ {k}, x.1.name = .str k → (k, sample x.2) ∈ sampleMs ms
  | [], x, h, k, hk => by simp at h
  | (i, sh) :: ms, x, h, k, hk => by
    rw [sampleMs]
    rcases List.mem_cons.1 h with rfl | h
    · simp only at hk; simp [hk]
    · exact List.mem_cons_of_mem _ (sampleMs_mem h hk)

theorem mem_sampleMs : ∀ {ms : List (MInfo × Shape)} {st}, wfMs .str st ms = true → ∀ {kv}, kv ∈ sampleMs ms → ∃ (n : Nat) (i : MInfo) (sh : Shape), ms[n]? = some (i, sh) ∧ i.name = .str kv.1 ∧ kv.2 = sample sh
  | [], _, _, kv, h => by simp [sampleMs] at h
  | (i, sh) :: ms, st, hw, kv, h => by
    rw [sampleMs] at h
    rcases List.mem_cons.1 h with rfl | h
    · refine ⟨0, i, sh, rfl, ?_, rfl⟩
      simp only [wfMs, Bool.and_eq_true, beq_iff_eq] at hw
      have := hw.1.1.1.1
      cases hi : i.name <;> rw [hi] at this <;> simp [Scalar.ty] at this
    · have hw' : wfMs .str st ms = true := by simp only [wfMs, Bool.and_eq_true] at hw; exact hw.2
      obtain ⟨n, i', sh', h1, h2⟩ := mem_sampleMs hw' h
      exact ⟨n + 1, i', sh', by simpa using h1, h2⟩

theorem lastField_some {k : String} {v : Json} : ∀ {fs : List (String × Json)}, (k, v) ∈ fs → ∃ w, lastField k fs = some w
  | [], h => by simp at h
  | (k', w) :: fs, h => by
    rw [lastField]
    cases hl : lastField k fs with
    | some w' => exact ⟨w', by simp⟩
    | none =>
      rcases List.mem_cons.1 h with h | h
      · injection h with h1 h2; exact ⟨w, by simp [h1]⟩
      · obtain ⟨w', hw⟩ := lastField_some h
        rw [hl] at hw; cases hw

/-- The value of the member in the sample. -/
theorem sampleMs_last {ms : List (MInfo × Shape)} {st} (hw : wfMs .str st ms = true) (hd : DistinctNames ms) {x} (hx : x ∈ ms) {k} (hk : x.1.name = .str k) :
    lastField k (sampleMs ms) = some (sample x.2) := by
  obtain ⟨w, h⟩ := lastField_some (sampleMs_mem hx hk)
  obtain ⟨n, i, sh, h1, h2, h3⟩ := mem_sampleMs hw (lastField_mem h)
  obtain ⟨n', hn'⟩ := List.mem_iff_getElem?.1 hx
  have := hd n n' _ _ h1 hn' (by simp only at h2; rw [h2, hk]; simp [Scalar.cppEq])
  subst this
  rw [h1] at hn'; injection hn' with hn'; subst hn'
  rw [h]; exact congrArg some h3

/-- The fields `fs` and those of the sample are a whole object. -/
theorem object_finish {k u ms} (hg : SoundTree (.object k u ms)) (hc : (Shape.object k u ms).completable = true)
    (hs : ∀ x ∈ ms, okVal x.2 (sample x.2) = true ∧ Conforms x.2 (sample x.2) ∧ filled x.2 (sample x.2) = true)
    {fs : List (String × Json)} (h : ∀ kv ∈ fs, FieldFine (.object k u ms) kv) :
    okFields (.object k u ms) (fs ++ sampleMs ms) = true ∧ FieldsConform (.object k u ms) (fs ++ sampleMs ms) ∧
      filledFields (.object k u ms) (fs ++ sampleMs ms) = true := by
  have hw := wf_object hg.wf
  have hsm : ∀ kv ∈ sampleMs ms, FieldFine (.object k u ms) kv := by
    intro kv hkv
    obtain ⟨n, i, sh, h1, h2, h3⟩ := mem_sampleMs hw hkv
    have hl := Named.lookup hg.objectNames (x := .str kv.1) (n := n) (i := i) (m := sh) ⟨h1, by rw [h2]; simp [Scalar.cppEq]⟩
    simp only [FieldFine, hl]
    have := hs _ (List.mem_of_getElem? h1)
    rw [h3]
    exact ⟨this.2.1, this.1⟩
  have hall : ∀ kv ∈ fs ++ sampleMs ms, FieldFine (.object k u ms) kv := fun kv hkv => by
    rcases List.mem_append.1 hkv with hkv | hkv
    · exact h kv hkv
    · exact hsm kv hkv
  refine ⟨okFields_append hg hall, .object ?_ ?_ ?_, ?_⟩
  · intro hu kv hkv
    have := hall kv hkv
    simp only [FieldFine] at this
    cases hl : lookup (.str kv.1) 0 ms with
    | none => rw [hl] at this; rw [hu] at this; simp at this
    | some a =>
      obtain ⟨i, hi⟩ := Named.of_lookup (n := a.1) (m := a.2) hl
      exact ⟨_, _, _, hi⟩
  · intro kv hkv n i m hn
    have := hall kv hkv
    simp only [FieldFine, hn.lookup hg.objectNames] at this
    exact this.1
  · intro _ x hx
    refine .inl ?_
    have hnm := (wfMs_mem (i := x.1) (sh := x.2) hw (List.mem_iff_getElem?.1 hx).choose_spec).1
    unfold filledBy
    cases hn : x.1.name with
    | str key =>
      simp only
      rw [lastField_append, sampleMs_last hw hg.objectNames hx hn]
      exact (hs x hx).2.2
    | _ => rw [hn] at hnm; simp [Scalar.ty] at hnm
  · simp only [Shape.completable, Bool.and_eq_true, Bool.not_eq_true'] at hc
    cases ms with
    | nil => simp at hc
    | cons x ms => simp [filledFields, sampleMs]

theorem array_ok {st e} : okVal (.array st e) (.arr []) = true := by simp [okVal, okElems]

mutual
theorem sample_fine : ∀ (sh : Shape), SoundTree sh → sh.completable = true → okVal sh (sample sh) = true ∧ Conforms sh (sample sh) ∧ filled sh (sample sh) = true
  | .value ty, hg, hc => by
    refine ⟨by simp [sample, okVal], ?_, by simp [sample, filled]⟩
    rw [sample]; exact .scalar (by cases ty <;> rfl)
  | .ignore, hg, hc => by simp [Shape.completable] at hc
  | .array st e, hg, hc => ⟨by rw [sample]; exact array_ok, by rw [sample]; exact .array (by simp) (by simp), by simp [sample, filled]⟩
  | .map st e, hg, hc => ⟨by simp [sample, okVal, okFields], by rw [sample]; exact .object (by simp) (.map (by simp) (by simp)), by simp [sample, filled, filledFields]⟩
  | .object k u ms, hg, hc => by
    have h1 := sampleFields_fine (.object k u ms) hg hc rfl
    rw [sample_obj rfl]
    exact ⟨by simp only [okVal]; exact h1.1, .object (by simp) h1.2.1, h1.2.2⟩
  | .union ty tm st ms, hg, hc => by
    have h1 := sampleFields_fine (.union ty tm st ms) hg hc rfl
    rw [sample_obj rfl]
    have ht : tm ≠ "" := by simp only [Shape.completable, Bool.and_eq_true, bne_iff_ne] at hc; exact hc.1.1.1
    exact ⟨by simp only [okVal, if_neg ht]; exact h1.1, .object (by rintro ty' st' ms' h; injection h with _ h; exact ht h) h1.2.1, h1.2.2⟩
theorem sampleFields_fine : ∀ (sh : Shape), SoundTree sh → sh.completable = true → sh.takesFields = true →
    okFields sh (sampleFields sh) = true ∧ FieldsConform sh (sampleFields sh) ∧ filledFields sh (sampleFields sh) = true
  | .value ty, hg, hc, ht => by simp [Shape.takesFields] at ht
  | .ignore, hg, hc, ht => by simp [Shape.takesFields] at ht
  | .array st e, hg, hc, ht => by simp [Shape.takesFields] at ht
  | .map st e, hg, hc, ht => by
    rw [sampleFields.eq_def]
    exact ⟨by simp [okFields], .map (by simp) (by simp), by simp [filledFields]⟩
  | .object k u ms, hg, hc, _ => by
    have hms := sampleMs_fine ms (fun n i sh h => hg.objectMember h) (by simp only [Shape.completable, Bool.and_eq_true] at hc; exact hc.2)
    rw [sampleFields]
    simpa using object_finish hg hc hms (fs := []) (by simp)
  | .union ty tm st [], hg, hc, _ => by simp [Shape.completable] at hc
  | .union ty tm st ((i, sh) :: ms), hg, hc, _ => by
    simp only [Shape.completable, Bool.and_eq_true, bne_iff_ne, List.all_cons, completableMs] at hc
    obtain ⟨⟨⟨ht, hself⟩, htk, _⟩, hcs, _⟩ := hc
    have hgs := hg.unionMember (n := 0) (i := i) (m := sh) rfl
    have h1 := sampleFields_fine sh hgs hcs htk
    have hty : i.name.ty = ty := (wfMs_mem (n := 0) (i := i) (sh := sh) (wf_union hg.wf) rfl).1
    have hl : lookup i.name 0 ((i, sh) :: ms) = some (0, sh) := by simp [lookup, hself]
    rw [sampleFields]
    refine ⟨?_, FieldsConform.union (a := 0) (ai := i) (alt := sh) ht hty ⟨rfl, hself⟩ h1.2.1 (.inl h1.2.2), by simp [filledFields]⟩
    rw [okFields]
    simp only [if_neg ht, ne_eq, not_true_eq_false, if_false, if_pos hty, hl]
    exact h1.1
theorem sampleMs_fine : ∀ (ms : List (MInfo × Shape)), (∀ (n : Nat) i sh, ms[n]? = some (i, sh) → SoundTree sh) → completableMs ms = true →
    ∀ x ∈ ms, okVal x.2 (sample x.2) = true ∧ Conforms x.2 (sample x.2) ∧ filled x.2 (sample x.2) = true
  | [], _, _, x, hx => by simp at hx
  | (i, sh) :: ms, hg, hc, x, hx => by
    simp only [completableMs, Bool.and_eq_true] at hc
    rcases List.mem_cons.1 hx with rfl | hx
    · exact sample_fine sh (hg 0 i sh rfl) hc.1
    · exact sampleMs_fine ms (fun n i sh h => hg (n + 1) i sh (by simpa using h)) hc.2 x hx
end

/-! ## What has been read can be completed -/

theorem completable_not_embedded {m : Shape} (h : m.completable = true) (v : Json) : embedded m v = none := by
  cases hem : embedded m v with
  | none => rfl
  | some y =>
    obtain ⟨ty, st, ms, x⟩ := y
    obtain ⟨rfl, _, _⟩ := embedded_some hem
    simp [Shape.completable] at h

/-- A value that was read without an error conforms. -/
theorem evalVal_conforms (hE : Passive E) {j : Json} {sh : Shape} {p : Path} {s s1 : St} (hR : R.at p = some sh) (hg : SoundTree sh) (hok : okVal sh j = true)
    (h : evalVal E sh p j s = .ok () s1) : Conforms sh j ∧ (s1.heap p).set = filled sh j := by
  have hm := den_val (R := R) hE j sh p s hR hg.wf (okVal_uok _ _ hok)
  unfold Meets at hm
  rw [denoteT_result] at hm
  have hc := conform_val E.fmtDbl j sh hg
  cases hd : denote E.fmtDbl sh j with
  | error e =>
    rw [hd] at hm
    obtain ⟨s2, h2, _⟩ := hm
    rw [h] at h2; cases h2
  | ok d =>
    rw [hd] at hm
    obtain ⟨s2, h2, hh, _⟩ := hm
    rw [h] at h2; injection h2 with _ h2; subst h2
    exact ⟨hc.1.1 ⟨d, hd⟩, (Holds.set hh).trans (hc.2 d hd)⟩

/-- The element of a stored map is set if it was stored. -/
theorem mapChild_set (hE : Passive E) {st e p} {s s1 : St} (h : mapChild E st e p s = .ok () s1) : st = true → (s.heap (.elem :: p)).set = true := by
  rintro rfl
  simp only [mapChild, if_true] at h
  obtain ⟨_, s2, h1, h⟩ := bind_ok_inv h
  rw [hE.element] at h1
  injection h1 with _ h1; subst h1
  obtain ⟨_, s3, h2, _⟩ := bind_ok_inv h
  unfold popVal at h2
  by_cases hs : (s.heap (.elem :: p)).set = true
  · exact hs
  · simp [hs] at h2

/-- The element of a stored array is set if it was stored. -/
theorem arrChild_set {st p} {s s1 : St} (h : arrChild st p s = .ok () s1) : st = true → (s.heap (.elem :: p)).set = true := by
  rintro rfl
  simp only [arrChild, if_true] at h
  obtain ⟨_, s2, h1, h⟩ := bind_ok_inv h
  unfold popVal at h1
  by_cases hs : (s.heap (.elem :: p)).set = true
  · exact hs
  · simp [hs] at h1

/-- One element of an array that was read without an error. -/
theorem evalElem_conforms (hE : Passive E) {j : Json} {st : Bool} {e : Shape} {p : Path} {s s1 : St} (hR : R.at p = some (.array st e)) (hg : SoundTree e) (hok : okVal e j = true)
    (h : evalElems E st e p [j] s = .ok () s1) : Conforms e j ∧ (st = true → j ≠ .null → filled e j = true) := by
  have hRe := at_elem_array hR
  have comp : ∀ s, M.bind (setNotEmpty p) (fun _ => M.bind (modH (setDispH (.elem :: p) e)) fun _ => M.bind (pushParser (.elem :: p)) fun _ =>
      M.bind (evalVal E e (.elem :: p) j) fun _ => M.bind dropTop fun _ => M.bind (arrChild st p) fun _ => evalElems E st e p []) s = .ok () s1 →
      Conforms e j ∧ (st = true → j ≠ .null → filled e j = true) := by
    intro s h
    rw [setNotEmpty_def, bind_modC, bind_modH, bind_push] at h
    obtain ⟨_, s1, h1, h⟩ := bind_ok_inv h
    rw [bind_drop] at h
    obtain ⟨_, s2, h2, h⟩ := bind_ok_inv h
    have h3 := evalVal_conforms hE hRe hg hok h1
    exact ⟨h3.1, fun hst _ => h3.2.symm.trans (arrChild_set (s := { s1 with stack := s1.stack.tail }) h2 hst)⟩
  cases j with
  | null => exact ⟨.null, fun _ h => absurd rfl h⟩
  | sc x =>
    simp only [evalElems] at h
    obtain ⟨_, s1, h1, h⟩ := bind_ok_inv h
    rw [setNotEmpty_def, bind_modC] at h
    obtain ⟨_, s2, h2, h⟩ := bind_ok_inv h
    have h3 := evalVal_conforms hE hRe hg hok h1
    refine ⟨h3.1, fun hst _ => h3.2 ▸ ?_⟩
    have := arrChild_set h2 hst
    dsimp only at this
    rwa [upd_other (by simp)] at this
  | arr l => simp only [evalElems] at h comp; exact comp s h
  | obj l => simp only [evalElems] at h comp; exact comp s h

/-- What can be said of the fields so far. -/
def PartFine : Shape → List (String × Json) → Prop
  | .object k u ms, fs => ∀ kv ∈ fs, FieldFine (.object k u ms) kv
  | .map st e, fs => ∀ kv ∈ fs, FieldFine (.map st e) kv
  | .union ty tm st ms, fs => okFields (.union ty tm st ms) fs = true ∧ FieldsConform (.union ty tm st ms) fs ∧ filledFields (.union ty tm st ms) fs = true
  | _, _ => False

theorem fieldEvents_both : ∀ {fs fs' : List (String × Json)}, fieldEvents (fs ++ fs') = fieldEvents fs ++ fieldEvents fs'
  | [], fs' => rfl
  | (k, v) :: fs, fs' => by simp [fieldEvents, fieldEvents_both (fs := fs)]

theorem events_some (j : Json) : events j ≠ [] := by cases j <;> simp [events]

theorem partFine_finish {sh : Shape} (hg : SoundTree sh) (hc : sh.completable = true) {fs : List (String × Json)} (h : PartFine sh fs) :
    ∃ fs', okFields sh (fs ++ fs') = true ∧ FieldsConform sh (fs ++ fs') ∧ filledFields sh (fs ++ fs') = true := by
  cases sh with
  | object k u ms =>
    have hms := sampleMs_fine ms (fun n i sh h => hg.objectMember h) (by simp only [Shape.completable, Bool.and_eq_true] at hc; exact hc.2)
    exact ⟨_, object_finish hg hc hms h⟩
  | map st e => exact ⟨[], by simpa using okFields_mapAll hg h, .map (by simpa using fun k v hkv => (h (k, v) hkv).1) (by simpa using fun hst k v hkv => (h (k, v) hkv).2.2 hst), by simp [filledFields]⟩
  | union ty tm st ms => exact ⟨[], by rw [List.append_nil]; exact h⟩
  | _ => exact h.elim

mutual
theorem more_val (hE : Passive E) : ∀ (j : Json) (sh : Shape) (p : Path) (stk : List Path) (a b : List Token) (s s' : St),
    R.at p = some sh → s.stack = p :: stk → (s.heap p).disp = true → Sane R p s.heap → SoundTree sh → sh.completable = true →
    okVal sh j = true → events j = a ++ b → b ≠ [] → run E R a s = .ok () s' →
    ∃ j' b', b' ≠ [] ∧ events j' = a ++ b' ∧ okVal sh j' = true ∧ Conforms sh j' ∧ filled sh j' = true
  | j, sh, p, stk, [], b, s, s', hR, hs, hd, hsane, hg, hc, hok, he, hb, hr =>
    have := sample_fine sh hg hc
    ⟨sample sh, events (sample sh), events_some _, by simp, this.1, this.2.1, this.2.2⟩
  | .null, sh, p, stk, t :: a, b, s, s', hR, hs, hd, hsane, hg, hc, hok, he, hb, hr => by
    simp only [events, List.cons_append, List.cons.injEq] at he
    exact absurd (List.append_eq_nil_iff.1 he.2.symm).2 hb
  | .sc x, sh, p, stk, t :: a, b, s, s', hR, hs, hd, hsane, hg, hc, hok, he, hb, hr => by
    simp only [events, List.cons_append, List.cons.injEq] at he
    exact absurd (List.append_eq_nil_iff.1 he.2.symm).2 hb
  | .arr l, sh, p, stk, t :: a, b, s, s', hR, hs, hd, hsane, hg, hc, hok, he, hb, hr => by
    simp only [events, List.cons_append, List.cons.injEq] at he
    obtain ⟨rfl, he⟩ := he
    obtain ⟨b', h1⟩ := cut_last he hb
    rw [run_dispatch hR hs] at hr
    cases sh with
    | ignore => simp [Shape.completable] at hc
    | array st e =>
      simp only [onF, bind_assoc, bind_getC, hsane.started p (Below.refl _)] at hr
      simp only [Bool.not_false, if_true, bind_assoc, bind_modH, bind_modC] at hr
      have hk : Keep R p s.heap (resetH p (.array st e) s.heap) := Keep.reset _ _ _
      have hsane1 := hsane.keep hk
      obtain ⟨l', c, h2, h3, h4, h5⟩ := more_elems hE l st e p stk a b'
        { s with heap := (resetH p (.array st e) s.heap).upd p fun c => { c with started := true } } s' hR hs (by simp) (by simpa using hk.mono p hd)
        (by
          refine ⟨hsane1.closed.congr upd_started_disp, fun q hq => ?_, fun q st ty hq hRq => ?_⟩
          · simp only
            rw [upd_other (ne_of_below_step hq)]; exact hsane1.started q hq.step
          · simp only
            rw [upd_started_disp]; exact hsane1.velem q st ty hq.step hRq)
        (by
          rintro ty rfl
          simp only
          rw [upd_started_disp]; exact hsane1.velem p st ty (Below.refl _) hR)
        hg.arrayElem (by simpa [Shape.completable] using hc) (by simpa [okVal] using hok) h1 hr
      exact ⟨.arr l', c ++ [.arrEnd], by simp, by simp [events, h2], by simpa [okVal] using h3, .array h4 h5, by simp [filled]⟩
    | _ =>
      simp only [onF, bind_unexpected] at hr
      cases hr
  | .obj fs, sh, p, stk, t :: a, b, s, s', hR, hs, hd, hsane, hg, hc, hok, he, hb, hr => by
    simp only [events, List.cons_append, List.cons.injEq] at he
    obtain ⟨rfl, he⟩ := he
    obtain ⟨b', h1⟩ := cut_last he hb
    rw [run_dispatch hR hs] at hr
    have fields : okFields sh fs = true → sh.takesFields = true → (∀ fs', okFields sh fs' = true → okVal sh (.obj fs') = true) → (∀ ty st ms, sh ≠ .union ty "" st ms) →
        (M.bind (modH (resetH p sh)) fun _ => run E R a) s = .ok () s' →
        ∃ j' b', b' ≠ [] ∧ events j' = .mapStart :: a ++ b' ∧ okVal sh j' = true ∧ Conforms sh j' ∧ filled sh j' = true := by
      intro hokf hni hokv hown hr
      rw [bind_modH] at hr
      have hk : Keep R p s.heap (resetH p sh s.heap) := Keep.reset _ _ _
      obtain ⟨fs', c, h2, h3⟩ := more_fields hE fs sh p stk a b' { s with heap := resetH p sh s.heap } s' hR hs (hk.mono p hd) (hsane.keep hk) (resetH_ignOk _ _ _) hg hc hni hokf h1 hr
      obtain ⟨fs'', h4, h5, h6⟩ := partFine_finish hg hc h3
      refine ⟨.obj (fs' ++ fs''), c ++ fieldEvents fs'' ++ [.mapEnd], by simp, by simp [events, fieldEvents_both, h2], hokv _ h4, .object hown h5, h6⟩
    cases sh with
    | ignore => simp [Shape.completable] at hc
    | array st e =>
      simp only [onF, bind_assoc, bind_getC, hsane.started p (Below.refl _)] at hr
      cases hr
    | value ty =>
      simp only [onF, bind_unexpected] at hr
      cases hr
    | union ty tm st ms =>
      simp only [onF] at hr
      have ht : tm ≠ "" := by simp only [Shape.completable, Bool.and_eq_true, bne_iff_ne] at hc; exact hc.1.1.1
      simp only [if_neg ht] at hr
      exact fields (by simpa [okVal, ht] using hok) rfl (fun fs' h => by simpa [okVal, ht] using h) (by rintro ty' st' ms' h; injection h with _ h; exact ht h) hr
    | object k u ms =>
      simp only [onF] at hr
      exact fields (by simpa [okVal] using hok) rfl (fun fs' h => by simpa [okVal] using h) (by simp) hr
    | map st e =>
      simp only [onF] at hr
      exact fields (by simpa [okVal] using hok) rfl (fun fs' h => by simpa [okVal] using h) (by simp) hr
theorem more_fields (hE : Passive E) : ∀ (fs : List (String × Json)) (sh : Shape) (p : Path) (stk : List Path) (a b : List Token) (s s' : St),
    R.at p = some sh → s.stack = p :: stk → (s.heap p).disp = true → Sane R p s.heap →
    IgnOk sh p s.heap → SoundTree sh → sh.completable = true → sh.takesFields = true → okFields sh fs = true → fieldEvents fs = a ++ b → run E R a s = .ok () s' →
    ∃ fs' b', fieldEvents fs' = a ++ b' ∧ PartFine sh fs'
  | fs, sh, p, stk, [], b, s, s', hR, hs, hd, hsane, hig, hg, hc, ht, hok, he, hr => by
    have h := sampleFields_fine sh hg hc ht
    cases sh with
    | object k u ms => exact ⟨[], [], rfl, by simp [PartFine]⟩
    | map st e => exact ⟨[], [], rfl, by simp [PartFine]⟩
    | union ty tm st ms => exact ⟨_, _, (List.nil_append _).symm, h⟩
    | _ => simp [Shape.takesFields] at ht
  | [], sh, p, stk, t :: a, b, s, s', hR, hs, hd, hsane, hig, hg, hc, ht, hok, he, hr => by simp [fieldEvents] at he
  | (k, v) :: fs, sh, p, stk, t :: a, b, s, s', hR, hs, hd, hsane, hig, hg, hc, ht, hok, he, hr => by
    simp only [fieldEvents, List.cons_append, List.cons.injEq] at he
    obtain ⟨rfl, he⟩ := he
    rw [run_dispatch hR hs] at hr
    cases sh with
    | ignore => simp [Shape.takesFields] at ht
    | value => simp [Shape.takesFields] at ht
    | array => simp [Shape.takesFields] at ht
    | object kd u ms =>
      simp only [onF, onMember, bind_assoc, setNotEmpty_def, bind_modC, bind_getC] at hr
      have hq : Quiet p s.heap (s.heap.upd p fun c => { c with empty := false }) := by
        apply Quiet.upd; exact fun _ => ⟨rfl, rfl, rfl⟩
      have hd1 : ((s.heap.upd p fun c => { c with empty := false }) p).disp = true := by
        rw [(hq.ctl p).1]; exact hd
      have hsane1 := hsane.keep (p' := p) hq.keep
      have hig1 := hig.quiet hq
      generalize s.heap.upd p (fun c => { c with empty := false }) = h1 at *
      simp only [hd1, if_true] at hr
      cases hl : lookup (.str k) 0 ms with
      | none =>
        simp only [hl] at hr
        cases u with
        | true => simp only [if_true, bind_throw] at hr; cases hr
        | false =>
          simp only [Bool.false_eq_true, if_false, bind_assoc, bind_push, bind_pure_left] at hr
          simp only [okFields, hl, Bool.false_eq_true, if_false, Bool.and_eq_true] at hok
          have hf : FieldFine (.object kd false ms) (k, v) := by simp only [FieldFine, hl]; exact ⟨trivial, hok.1⟩
          rcases cut he with ⟨b', hb', h2⟩ | ⟨a', rfl, h2⟩
          · exact ⟨[(k, v)], b', by simp [fieldEvents, h2], by simpa [PartFine] using hf⟩
          · have hRi := at_ign_object hR
            have hs1 : (.ign :: p) :: s.stack = (.ign :: p) :: p :: stk := by rw [hs]
            have hdi := hsane1.closed p _ .ign .ignore hR hd1 (by simp) rfl
            rw [sim_val v .ignore (.ign :: p) (p :: stk) _ { heap := h1, stack := (.ign :: p) :: s.stack, log := s.log } hRi hs1 hdi (hsane1.down (Below.cons _ _)) (fun _ => hig1) hok.1] at hr
            obtain ⟨_, s2, h3, hr⟩ := bind_ok_inv hr
            have h2' := evalVal_ok hRi h3
            have hs2 : s2.stack = (.ign :: p) :: p :: stk := by rw [h2'.1]; simp [hs]
            rw [bind_congr (pop_to hs2) fun _ _ _ => rfl, bind_assoc, bind_drop, chP_object hR] at hr
            simp only [bind_pure_left] at hr
            obtain ⟨fs', c, h4, h5⟩ := more_fields hE fs _ p stk a' b { s2 with stack := s2.stack.tail } s' hR (by simp [hs2]) (h2'.2.mono p hd1) (hsane1.keep h2'.2) (by
              have : (s2.heap (.ign :: p)).struct = [] := by
                cases v with
                | null =>
                  simp only [evalVal] at h3; injection h3 with _ h3; subst h3; simp [resetH]
                | _ =>
                  simp only [evalVal] at h3
                  rw [((Loc.complete _ _).ok h3).2.struct]; exact hig1
              exact this) hg hc ht hok.2 h2 hr
            refine ⟨(k, v) :: fs', c, by simp [fieldEvents, h4], fun kv hkv => ?_⟩
            rcases List.mem_cons.1 hkv with rfl | hkv
            · exact hf
            · exact h5 kv hkv
      | some b0 =>
        obtain ⟨n, m⟩ := b0
        obtain ⟨i0, hi0⟩ := lookup_mem hl
        have hRm := at_mem_object hR hi0
        have hgm := hg.objectMember hi0
        have hcm : m.completable = true := by
          simp only [Shape.completable, Bool.and_eq_true] at hc
          exact completableMs_mem hc.2 _ (List.mem_of_getElem? hi0)
        have hdm : (h1 (.mem n :: p)).disp = true :=
          hsane1.closed p _ (.mem n) m hR hd1 (by simp) (by simp [Shape.child, hi0])
        simp only [hl, bind_assoc, bind_push, bind_pure_left] at hr
        have hs1 : (.mem n :: p) :: s.stack = (.mem n :: p) :: p :: stk := by rw [hs]
        have hem := completable_not_embedded hcm v
        simp only [okFields, hl, hem, Bool.and_eq_true] at hok
        have higm : m = .ignore → ((h1 (.mem n :: p)).struct = []) := by rintro rfl; simp [Shape.isUser] at hok
        rcases cut he with ⟨b', hb', h2⟩ | ⟨a', rfl, h2⟩
        · obtain ⟨v', c, _, h3, h4, h5, h6⟩ := more_val hE v m (.mem n :: p) (p :: stk) a b' { heap := h1, stack := (.mem n :: p) :: s.stack, log := s.log } s' hRm hs1 hdm
            (hsane1.down (Below.cons _ _)) hgm hcm hok.1.2 h2 hb' hr
          exact ⟨[(k, v')], c, by simp [fieldEvents, h3], by simp [PartFine, FieldFine, hl, h4, h5]⟩
        · rw [sim_val v m (.mem n :: p) (p :: stk) _ _ hRm hs1 hdm (hsane1.down (Below.cons _ _)) higm hok.1.2] at hr
          obtain ⟨_, s2, h3, hr⟩ := bind_ok_inv hr
          have h2' := evalVal_ok hRm h3
          have hs2 : s2.stack = (.mem n :: p) :: p :: stk := by rw [h2'.1]; simp [hs]
          rw [bind_congr (pop_to hs2) fun _ _ _ => rfl, bind_assoc, bind_drop, chP_object hR] at hr
          simp only [bind_pure_left] at hr
          obtain ⟨fs', c, h4, h5⟩ := more_fields hE fs _ p stk a' b { s2 with stack := s2.stack.tail } s' hR (by simp [hs2]) (h2'.2.mono p hd1) (hsane1.keep h2'.2)
            (hig1.frame h2'.2.frame) hg hc ht hok.2 h2 hr
          refine ⟨(k, v) :: fs', c, by simp [fieldEvents, h4], fun kv hkv => ?_⟩
          rcases List.mem_cons.1 hkv with rfl | hkv
          · simp only [FieldFine, hl]
            exact ⟨(evalVal_conforms hE hRm hgm hok.1.2 h3).1, hok.1.2⟩
          · exact h5 kv hkv
    | map st e =>
      simp only [onF, bind_assoc, setNotEmpty_def, bind_modC, bind_getC] at hr
      have hq : Quiet p s.heap (s.heap.upd p fun c => { c with empty := false }) := by
        apply Quiet.upd; exact fun _ => ⟨rfl, rfl, rfl⟩
      have hd1 : ((s.heap.upd p fun c => { c with empty := false }) p).disp = true := by
        rw [(hq.ctl p).1]; exact hd
      have hsane1 := hsane.keep (p' := p) hq.keep
      generalize s.heap.upd p (fun c => { c with empty := false }) = h1 at *
      simp only [hd1, if_true, bind_assoc, bind_push, bind_modC] at hr
      have hq2 : Quiet p h1 (h1.upd p fun c => { c with curKey := k }) := by
        apply Quiet.upd; exact fun _ => ⟨rfl, rfl, rfl⟩
      have hd2 : ((h1.upd p fun c => { c with curKey := k }) p).disp = true := by
        rw [(hq2.ctl p).1]; exact hd1
      have hsane2 := hsane1.keep (p' := p) hq2.keep
      generalize h1.upd p (fun c => { c with curKey := k }) = h2 at *
      have hRe := at_elem_map hR
      have hge := hg.mapElem
      have hce : e.completable = true := by simpa [Shape.completable] using hc
      have hde : (h2 (.elem :: p)).disp = true :=
        hsane2.closed p _ .elem e hR hd2 (by simp) (by simp [Shape.child])
      have hch : chP E R p = mapChild E st e p := by
        cases st
        · rw [chP_map hR]; rfl
        · rw [chP_smap hR]; rfl
      have hs1 : (.elem :: p) :: s.stack = (.elem :: p) :: p :: stk := by rw [hs]
      have hem := completable_not_embedded hce v
      simp only [okFields, hem, Bool.and_eq_true] at hok
      have hige : e = .ignore → ((h2 (.elem :: p)).struct = []) := by rintro rfl; simp [Shape.isUser] at hok
      rcases cut he with ⟨b', hb', h3⟩ | ⟨a', rfl, h3⟩
      · obtain ⟨v', c, _, h4, h5, h6, h7⟩ := more_val hE v e (.elem :: p) (p :: stk) a b' { heap := h2, stack := (.elem :: p) :: s.stack, log := s.log } s' hRe hs1 hde
          (hsane2.down (Below.cons _ _)) hge hce hok.1.2 h3 hb' hr
        exact ⟨[(k, v')], c, by simp [fieldEvents, h4], by simp [PartFine, FieldFine, h5, h6, h7]⟩
      · rw [sim_val v e (.elem :: p) (p :: stk) _ _ hRe hs1 hde (hsane2.down (Below.cons _ _)) hige hok.1.2] at hr
        obtain ⟨_, s2, h4, hr⟩ := bind_ok_inv hr
        have h2' := evalVal_ok hRe h4
        have hs2 : s2.stack = (.elem :: p) :: p :: stk := by rw [h2'.1]; simp [hs]
        rw [bind_congr (pop_to hs2) fun _ _ _ => rfl, bind_assoc, bind_drop, hch] at hr
        obtain ⟨_, s3, h5, hr⟩ := bind_ok_inv hr
        have h3' := (Loc.mapChild _ _ _).ok h5
        obtain ⟨fs', c, h6, h7⟩ := more_fields hE fs _ p stk a' b s3 s' hR (by rw [h3'.1]; simp [hs2]) ((h3'.2.keep (R := R)).mono p (h2'.2.mono p hd2))
          ((hsane2.keep h2'.2).keep (h3'.2.keep (R := R))) trivial hg hc ht hok.2 h3 hr
        refine ⟨(k, v) :: fs', c, by simp [fieldEvents, h6], fun kv hkv => ?_⟩
        rcases List.mem_cons.1 hkv with rfl | hkv
        · have h8 := evalVal_conforms hE hRe hge hok.1.2 h4
          exact ⟨h8.1, hok.1.2, fun hst => h8.2.symm.trans (mapChild_set hE (s := { s2 with stack := s2.stack.tail }) h5 hst)⟩
        · exact h7 kv hkv
    | union ty tm st ms =>
      simp only [onF] at hr
      have hc' := hc
      simp only [Shape.completable, Bool.and_eq_true, bne_iff_ne] at hc
      have htm := hc.1.1.1
      by_cases hk : k = tm
      · subst hk
        simp only [if_neg htm, ne_eq, not_true_eq_false, if_false, bind_pure_left] at hr
        simp only [okFields, if_neg htm, ne_eq, not_true_eq_false, if_false] at hok
        cases a with
        | nil =>
          have h := sampleFields_fine _ hg hc' ht
          cases ms with
          | nil => simp at hc
          | cons x ms => exact ⟨_, _, by rw [sampleFields]; simp only [fieldEvents, List.cons_append, List.nil_append]; rfl, h⟩
        | cons t a =>
        cases v with
        | null => simp at hok
        | obj => simp at hok
        | arr l =>
          simp only [events, List.cons_append, List.cons.injEq] at he
          obtain ⟨rfl, he⟩ := he
          rw [run_dispatch hR hs] at hr
          simp only [onF, bind_unexpected] at hr
          cases hr
        | sc x =>
          simp only [events, List.cons_append, List.nil_append, List.cons.injEq] at he
          obtain ⟨rfl, he⟩ := he
          rw [run_dispatch hR hs] at hr
          by_cases hty : x.ty = ty
          · simp only [if_pos hty] at hok
            rw [bind_congr (onF_select hty hd) fun _ _ _ => rfl, bind_assoc] at hr
            simp only [bind_assoc, bind_pure_left] at hr
            obtain ⟨a0, s2, h2, hr⟩ := bind_ok_inv hr
            obtain ⟨hla, hs2, hk2, hig2⟩ := select_ok (R := R) h2
            obtain ⟨a0, ash⟩ := a0
            simp only [hla] at hok
            obtain ⟨i', hi'⟩ := lookup_mem hla
            obtain ⟨ni, hni⟩ := Named.of_lookup hla
            have hRa := at_mem_union hR hi'
            have hga := hg.unionMember hi'
            have hca := completableMs_mem hc.2 _ (List.mem_of_getElem? hi')
            have hta : ash.takesFields = true := List.all_eq_true.1 hc.1.2 _ (List.mem_of_getElem? hi')
            have hsane3 := (hsane.keep hk2)
            have hd2 := hk2.mono _ hd
            obtain ⟨fs', c, h3, h4⟩ := more_fields hE fs ash _ s.stack a b s2 s' hRa (by rw [hs2])
              (hsane3.closed _ _ (.mem a0) ash hR hd2 (by simp) (by simp [Shape.child, hi'])) (hsane3.down (Below.cons _ _)) hig2 hga hca hta hok he hr
            obtain ⟨fs'', h5, h6, h7⟩ := partFine_finish hga hca h4
            refine ⟨(k, .sc x) :: (fs' ++ fs''), c ++ fieldEvents fs'', by simp [fieldEvents, fieldEvents_both, events, h3], ?_, ?_, by simp [filledFields]⟩
            · simp only [okFields, if_neg htm, ne_eq, not_true_eq_false, if_false, if_pos hty, hla]; exact h5
            · exact FieldsConform.union (a := a0) (ai := ni) (alt := ash) htm hty hni h6 (.inl h7)
          · simp only [onF, if_neg hty, bind_unexpected] at hr; cases hr
      · simp only [if_neg htm, ne_eq, hk, not_false_eq_true, if_true, bind_throw] at hr; cases hr
theorem more_elems (hE : Passive E) : ∀ (l : List Json) (st : Bool) (e : Shape) (p : Path) (stk : List Path) (a b : List Token)
    (s s' : St), R.at p = some (.array st e) → s.stack = p :: stk → (s.heap p).started = true →
    (s.heap p).disp = true → Sane R (.elem :: p) s.heap → (∀ ty, e = .value ty → (s.heap (.elem :: p)).disp = false) →
    SoundTree e → e.completable = true → okElems e l = true → elemEvents l = a ++ b → run E R a s = .ok () s' →
    ∃ l' b', elemEvents l' = a ++ b' ∧ okElems e l' = true ∧ (∀ j ∈ l', Conforms e j) ∧ (st = true → ∀ j ∈ l', j ≠ .null → filled e j = true)
  | l, st, e, p, stk, [], b, s, s', hR, hs, hst, hd, hsane, hv, hg, hc, hok, he, hr => ⟨[], [], rfl, by simp [okElems], by simp, by simp⟩
  | [], st, e, p, stk, t :: a, b, s, s', hR, hs, hst, hd, hsane, hv, hg, hc, hok, he, hr => by simp [elemEvents] at he
  | j :: l, st, e, p, stk, t :: a, b, s, s', hR, hs, hst, hd, hsane, hv, hg, hc, hok, he, hr => by
    have hRe := at_elem_array hR
    have hok0 := hok
    simp only [okElems, Bool.and_eq_true] at hok
    obtain ⟨⟨⟨hn, huser⟩, hokj⟩, hokl⟩ := hok
    simp only [elemEvents] at he
    rcases cut he with ⟨b', hb', h2⟩ | ⟨a', h1, h2⟩
    · -- inside the element
      have composite : (t = .arrStart ∨ t = .mapStart) →
          ∃ l' b', elemEvents l' = t :: a ++ b' ∧ okElems e l' = true ∧ (∀ j ∈ l', Conforms e j) ∧ (st = true → ∀ j ∈ l', j ≠ .null → filled e j = true) := by
        intro ht
        have hq : Quiet p s.heap (s.heap.upd p fun c => { c with empty := false }) := by
          apply Quiet.upd; exact fun _ => ⟨rfl, rfl, rfl⟩
        have start : run E R (t :: a) s = run E R (t :: a)
            { s with heap := setDispH (.elem :: p) e (s.heap.upd p fun c => { c with empty := false }),
                     stack := (.elem :: p) :: s.stack } := by
          rcases ht with rfl | rfl
          · rw [run_dispatch hR hs]
            refine Eq.trans ?_ (run_dispatch hRe rfl).symm
            simp only [onF, bind_assoc, bind_getC, hst, hd, Bool.not_true, Bool.false_eq_true, if_false,
              setNotEmpty_def, bind_modC, bind_modH, bind_push, if_true]
          · rw [run_dispatch hR hs]
            refine Eq.trans ?_ (run_dispatch hRe rfl).symm
            simp only [onF, bind_assoc, bind_getC, hst, hd, Bool.not_true, Bool.false_eq_true, if_false,
              setNotEmpty_def, bind_modC, bind_modH, bind_push, if_true]
        rw [start] at hr
        by_cases hev : ∃ ty, e = .value ty
        · obtain ⟨ty, rfl⟩ := hev
          rw [run_dispatch hRe rfl] at hr
          rcases ht with rfl | rfl
          · simp only [onF, bind_unexpected] at hr; cases hr
          · simp only [onF, bind_unexpected] at hr; cases hr
        · have hk : Keep R p s.heap (setDispH (.elem :: p) e (s.heap.upd p fun c => { c with empty := false })) :=
            hq.keep.trans (Keep.setDisp hR fun ty h => hev ⟨ty, h⟩)
          have hsane1 := hsane.keep hk
          have hde : (setDispH (.elem :: p) e (s.heap.upd p fun c => { c with empty := false }) (.elem :: p)).disp = true :=
            setDispH_self _ _ _
          obtain ⟨j', c, h3, h4, h5, h6, h7⟩ := more_val hE j e (.elem :: p) (p :: stk) (t :: a) b'
            { s with heap := setDispH (.elem :: p) e (s.heap.upd p fun c => { c with empty := false }),
                     stack := (.elem :: p) :: s.stack } s' hRe (by simp [hs]) hde hsane1 hg hc hokj h2 hb' hr
          have hj' : j' ≠ .null := by rintro rfl; simp [filled] at h7
          refine ⟨[j'], c, by simp [elemEvents, h4], ?_, by simpa using h6, by simpa using fun _ _ => h7⟩
          simp only [okElems, h5, huser, Bool.and_true]
      cases j with
      | null =>
        simp only [events, List.cons_append, List.cons.injEq] at h2
        exact absurd (List.append_eq_nil_iff.1 h2.2.symm).2 hb'
      | sc x =>
        simp only [events, List.cons_append, List.cons.injEq] at h2
        exact absurd (List.append_eq_nil_iff.1 h2.2.symm).2 hb'
      | arr l' =>
        simp only [events, List.cons_append, List.cons.injEq] at h2
        exact composite (.inl h2.1.symm)
      | obj l' =>
        simp only [events, List.cons_append, List.cons.injEq] at h2
        exact composite (.inr h2.1.symm)
    · -- the element is complete
      rw [h1] at hr ⊢
      have hw := sim_elems (E := E) [j] st e p stk a' s hR hs hst hd hsane hv (by
        simp only [okElems, Bool.and_eq_true]; exact ⟨⟨⟨hn, huser⟩, hokj⟩, trivial⟩)
      simp only [elemEvents, List.append_nil] at hw
      rw [hw] at hr
      obtain ⟨_, s2, h3, hr⟩ := bind_ok_inv hr
      have hk := evalElems_keep (E := E) (R := R) [j] st e p hR s _ s2 h3
      have h6 := evalElem_conforms hE hR hg hokj h3
      obtain ⟨l', c, h7, h8, h9, h10⟩ := more_elems hE l st e p stk a' b s2 s' hR (by rw [hk.1, hs]) (evalElems_started hR h3 hst) (hk.2.mono p hd) (hsane.keep hk.2)
        (by rintro ty rfl; rw [hk.2.velem p st ty hR]; exact hv ty rfl) hg hc hokl h2 hr
      refine ⟨j :: l', c, by simp [elemEvents, h7], ?_, ?_, ?_⟩
      · simp only [okElems, Bool.and_eq_true]; exact ⟨⟨⟨hn, huser⟩, hokj⟩, h8⟩
      · intro x hx
        rcases List.mem_cons.1 hx with rfl | hx
        · exact h6.1
        · exact h9 x hx
      · intro hs x hx hnn
        rcases List.mem_cons.1 hx with rfl | hx
        · exact h6.2 hs hnn
        · exact h10 hs x hx hnn
end

end SJ
