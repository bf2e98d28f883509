/-
Unions, standalone and embedded (C14, C15, C16), anywhere in a parser tree.
-/
import Verif.Props.Objects

set_option linter.unusedVariables false

namespace SJ

variable {E : Env} {R : Shape}

/-- The parser reads JSON objects: objects, maps, standalone unions. -/
def Shape.readsObjects : Shape → Bool
  | .object _ _ _ => true
  | .map _ _ => true
  | .union _ tm _ _ => tm != ""
  | _ => false

/-- Such a parser reads the fields of an object in the same way, whether it reads the braces itself or not. -/
theorem denote_readsObjects {fmt m fs} (h : m.readsObjects = true) : denote fmt m (.obj fs) = denFields fmt m (noSlots m) [] false fs := by
  cases m with
  | object => unfold denote; rfl
  | map => unfold denote; rfl
  | union ty tm st ms =>
    simp only [Shape.readsObjects, bne_iff_ne, ne_eq] at h
    unfold denote; simp only [if_neg h]
  | _ => simp [Shape.readsObjects] at h

theorem denoteT_readsObjects {fmt m p fs} (h : m.readsObjects = true) :
    denoteT fmt m p (.obj fs) = denFieldsT fmt m p (noSlots m) [] false fs := by
  cases m with
  | object => unfold denoteT; rfl
  | map => unfold denoteT; rfl
  | union ty tm st ms =>
    simp only [Shape.readsObjects, bne_iff_ne, ne_eq] at h
    unfold denoteT; simp only [if_neg h]
  | _ => simp [Shape.readsObjects] at h

/-! ### C14: standalone unions -/

/-- What a standalone union makes of an object whose first field selects its member `n`. -/
theorem denote_union {fmt ty tm st ms x n m fs} (htm : tm ≠ "") (hx : x.ty = ty) (hl : lookup x 0 ms = some (n, m))
    (hm : m.readsObjects = true) :
    denote fmt (.union ty tm st ms) (.obj ((tm, .sc x) :: fs)) = (denote fmt m (.obj fs)).bind (finishUnion st ms n) := by
  rw [denote_readsObjects (by simp [Shape.readsObjects, htm]), denFields, denote_readsObjects hm]
  simp [htm, hx, selectAlt, hl, bind, Except.bind]

/-- C14: a standalone `Union` whose first field is its type member and holds a declared type value reads the remaining fields with exactly the
member declared under this value: if this member accepts the object of the remaining fields and then holds `d` (set, or the
member is optional), the union is set, `currentMemberId()` is the member's index and the member holds `d`. -/
theorem C14_selected (hE : Passive E) {s : St} {p ty tm ms x} {n : Nat} {i m fs d} (hx : Expecting R s p (.union ty tm false ms))
    (hw : (Shape.union ty tm false ms).wf = true) (htm : tm ≠ "")
    (hok : okVal (.union ty tm false ms) (.obj ((tm, .sc x) :: fs)) = true)
    (hty : x.ty = ty) (hl : lookup x 0 ms = some (n, m)) (hi : ms[n]? = some (i, m)) (hm : m.readsObjects = true)
    (hd : denote E.fmtDbl m (.obj fs) = .ok d) (hset : d.isSet = true ∨ i.optional = true) :
    ∃ s1, Completes E R s p (.obj ((tm, .sc x) :: fs)) s1 ∧ isSet p s1 = true ∧ currentMemberId p s1 = .ok n s1 ∧
      Holds s1.heap (.mem n :: p) d := by
  have hden : denote E.fmtDbl (.union ty tm false ms) (.obj ((tm, .sc x) :: fs)) = .ok (.alt n d) := by
    rw [denote_union htm hty hl hm, hd]
    simp only [Except.bind, finishUnion, hi, Bool.not_false, if_true]
    rw [if_neg]
    rcases hset with h | h <;> simp [h]
  obtain ⟨s1, h1, h2, _⟩ := parse_at_ok hE hx hw hok hden
  exact ⟨s1, h1, h2.1, by simp [currentMemberId, h2.1, h2.2.1], h2.2.2⟩

/-- C14: a null or an empty object is accepted and leaves a `Union` unset; `currentMemberId()` then throws. -/
theorem C14_unset (hE : Passive E) {s : St} {p ty tm st ms} (hx : Expecting R s p (.union ty tm st ms)) (hw : (Shape.union ty tm st ms).wf = true)
    {j : Json} (hj : j = .null ∨ (j = .obj [] ∧ tm ≠ "")) :
    ∃ s1, Completes E R s p j s1 ∧ isSet p s1 = false ∧ currentMemberId p s1 = .throw (.std "Can't get value, parser is unset") s1 := by
  have hok : okVal (.union ty tm st ms) j = true := by
    rcases hj with rfl | ⟨rfl, h⟩ <;> simp [okVal, okFields]
  have hden : denote E.fmtDbl (.union ty tm st ms) j = .ok .unset := by
    rcases hj with rfl | ⟨rfl, h⟩
    · simp [denote]
    · simp [denote, denFields, h]
  obtain ⟨s1, h1, h2, _⟩ := parse_at_ok hE hx hw hok hden
  exact ⟨s1, h1, h2, by simp only [Holds] at h2; simp [currentMemberId, h2]⟩

/-- C14: if the selected member refuses the object of the remaining fields, the union fails with the member's error. -/
theorem C14_member_error (hE : Passive E) {s : St} {p ty tm st ms x n m fs e} (hx : Expecting R s p (.union ty tm st ms))
    (hw : (Shape.union ty tm st ms).wf = true) (htm : tm ≠ "")
    (hok : okVal (.union ty tm st ms) (.obj ((tm, .sc x) :: fs)) = true)
    (hty : x.ty = ty) (hl : lookup x 0 ms = some (n, m)) (hm : m.readsObjects = true)
    (hd : denote E.fmtDbl m (.obj fs) = .error e) :
    Fails E R s (.obj ((tm, .sc x) :: fs)) e := by
  refine parse_at_error hE hx hw hok ?_
  rw [denote_union htm hty hl hm, hd]; rfl

/-- C14: a mandatory member that holds nothing after the remaining fields makes the union fail. -/
theorem C14_member_unset (hE : Passive E) {s : St} {p ty tm ms x} {n : Nat} {i m fs} (hx : Expecting R s p (.union ty tm false ms))
    (hw : (Shape.union ty tm false ms).wf = true) (htm : tm ≠ "")
    (hok : okVal (.union ty tm false ms) (.obj ((tm, .sc x) :: fs)) = true)
    (hty : x.ty = ty) (hl : lookup x 0 ms = some (n, m)) (hi : ms[n]? = some (i, m)) (hm : m.readsObjects = true)
    (hd : denote E.fmtDbl m (.obj fs) = .ok .unset) (hman : i.optional = false) :
    Fails E R s (.obj ((tm, .sc x) :: fs)) ("Mandatory member #" ++ toString n ++ " is not present") := by
  refine parse_at_error hE hx hw hok ?_
  rw [denote_union htm hty hl hm, hd]
  simp [Except.bind, finishUnion, hi, hman, D.isSet]

/-- C14: any other first field than the type member's is refused. -/
theorem C14_first_field (hE : Passive E) {s : St} {p ty tm st ms k v fs} (hx : Expecting R s p (.union ty tm st ms))
    (hw : (Shape.union ty tm st ms).wf = true) (htm : tm ≠ "") (hk : k ≠ tm) :
    Fails E R s (.obj ((k, v) :: fs)) ("Unexpected member " ++ k) := by
  refine parse_at_error hE hx hw (by simp [okVal, okFields, htm, hk]) ?_
  rw [denote_readsObjects (by simp [Shape.readsObjects, htm])]
  unfold denFields
  simp [htm, hk]

/-- C14: a type value that is not declared is refused, naming it. -/
theorem C14_type_value (hE : Passive E) {s : St} {p ty tm st ms x fs} (hx : Expecting R s p (.union ty tm st ms))
    (hw : (Shape.union ty tm st ms).wf = true) (htm : tm ≠ "") (hty : x.ty = ty) (hun : ∀ y ∈ ms, y.1.name.cppEq x = false) :
    Fails E R s (.obj ((tm, .sc x) :: fs)) ("Unexpected member " ++ showName E.fmtDbl x) := by
  have hl : lookup x 0 ms = none := lookup_none.2 hun
  refine parse_at_error hE hx hw (by simp [okVal, okFields, htm, hty, hl]) ?_
  rw [denote_readsObjects (by simp [Shape.readsObjects, htm]), denFields]
  simp [htm, hty, selectAlt, hl, bind, Except.bind]

/-- C14: a type value of another scalar type is refused, naming the token. -/
theorem C14_type_value_type (hE : Passive E) {s : St} {p ty tm st ms x fs} (hx : Expecting R s p (.union ty tm st ms))
    (hw : (Shape.union ty tm st ms).wf = true) (htm : tm ≠ "") (hty : x.ty ≠ ty) :
    Fails E R s (.obj ((tm, .sc x) :: fs)) ("Unexpected token " ++ called (.scalar x)) := by
  rw [called_eq]
  refine parse_at_error hE hx hw (by simp [okVal, okFields, htm, hty]) ?_
  rw [denote_readsObjects (by simp [Shape.readsObjects, htm]), denFields]
  simp [htm, hty]

/-- C14: a union reads an object without failing only if it is `{}`, or its first field is the type member with a scalar of the union's type
that is declared, and the member declared so accepts the remaining fields. -/
theorem C14_only (hE : Passive E) {s : St} {p ty tm st ms fs} (hx : Expecting R s p (.union ty tm st ms))
    (hw : (Shape.union ty tm st ms).wf = true) (htm : tm ≠ "") (hok : okVal (.union ty tm st ms) (.obj fs) = true) :
    (∃ e, Fails E R s (.obj fs) e) ∨ fs = [] ∨
    ∃ (x : Scalar) (n : Nat) (i : MInfo) (m : Shape) (fs' : List (String × Json)), fs = (tm, .sc x) :: fs' ∧ x.ty = ty ∧ ms[n]? = some (i, m) ∧ i.name.cppEq x = true ∧
      ∃ d, denFields E.fmtDbl m (noSlots m) [] false fs' = .ok d := by
  cases fs with
  | nil => exact Or.inr (Or.inl rfl)
  | cons kv fs =>
    obtain ⟨k, v⟩ := kv
    by_cases hk : k = tm
    · subst hk
      cases v with
      | sc x =>
        by_cases hty : x.ty = ty
        · cases hl : lookup x 0 ms with
          | none => exact Or.inl ⟨_, C14_type_value hE hx hw htm hty (lookup_none.1 hl)⟩
          | some a =>
            obtain ⟨n, m⟩ := a
            obtain ⟨i, hi, hc⟩ : ∃ i, ms[n]? = some (i, m) ∧ i.name.cppEq x = true := by
              obtain ⟨i, _, h1, h2⟩ := lookup_get (n := 0) hl
              exact ⟨i, by simpa using h1, h2⟩
            cases hd : denFields E.fmtDbl m (noSlots m) [] false fs with
            | ok d => exact Or.inr (Or.inr ⟨x, n, i, m, fs, rfl, hty, hi, hc, d, hd⟩)
            | error e =>
              refine Or.inl ⟨e, parse_at_error hE hx hw hok ?_⟩
              rw [denote_readsObjects (by simp [Shape.readsObjects, htm]), denFields]
              simp [htm, hty, selectAlt, hl, bind, Except.bind, hd]
        · exact Or.inl ⟨_, C14_type_value_type hE hx hw htm hty⟩
      | arr l =>
        refine Or.inl ⟨_, parse_at_error (e := "Unexpected token " ++ Token.arrStart.kind) hE hx hw hok ?_⟩
        rw [denote_readsObjects (by simp [Shape.readsObjects, htm]), denFields]
        simp [htm]
      | null => simp [okVal, okFields, htm] at hok
      | obj l => simp [okVal, okFields, htm] at hok
    · exact Or.inl ⟨_, C14_first_field hE hx hw htm hk⟩

/-! ### C16: stored unions -/

theorem wfMs_opt : ∀ {ty st} {ms : List (MInfo × Shape)} {n : Nat} {i : MInfo} {sh : Shape} {v}, wfMs ty st ms = true →
    ms[n]? = some (i, sh) → i.dflt = some v → i.optional = true
  | ty, st, [], n, i, sh, v, hw, hm, hv => by simp at hm
  | ty, st, (i', sh') :: ms, 0, i, sh, v, hw, hm, hv => by
    simp at hm; obtain ⟨rfl, rfl⟩ := hm
    simp only [wfMs, hv, Bool.and_eq_true] at hw
    exact hw.1.2.1.1
  | ty, st, (i', sh') :: ms, n + 1, i, sh, v, hw, hm, hv => by
    simp only [wfMs, Bool.and_eq_true] at hw
    exact wfMs_opt hw.2 (by simpa using hm) hv

/-- `currentMemberId` at `p` is not changed. -/
def KeepsCur {α} (p : Path) (m : M α) : Prop := ∀ s a s', m s = .ok a s' → (s'.heap p).curId = (s.heap p).curId

theorem KeepsCur.bind {α β} {p} {m : M α} {f : α → M β} (h1 : KeepsCur p m) (h2 : ∀ a, KeepsCur p (f a)) : KeepsCur p (M.bind m f) := by
  intro s b s' h
  obtain ⟨a, s1, h3, h4⟩ := bind_ok_inv h
  rw [h2 a s1 b s' h4, h1 s a s1 h3]

theorem KeepsCur.pure {α} {p} (a : α) : KeepsCur p (M.pure a) := by
  intro s b s' h; injection h with _ h; subst h; rfl

theorem KeepsCur.popVal {p} (q : Path) : KeepsCur p (popVal q) := by
  intro s a s' h
  unfold SJ.popVal at h
  split at h
  · injection h with _ h; subst h
    by_cases e : p = q
    · subst e; simp
    · simp [upd_other e]
  · simp at h

theorem KeepsCur.getC {p} (q : Path) : KeepsCur p (getC q) := by
  intro s a s' h; injection h with _ h; subst h; rfl

theorem KeepsCur.throwStd {α} {p} (m : String) : KeepsCur p (throwStd m : M α) := by
  intro s a s' h; simp [SJ.throwStd] at h

theorem KeepsCur.cur {p} (q : Path) : KeepsCur p (currentMemberId q) := by
  intro s a s' h
  unfold currentMemberId at h
  split at h
  · injection h with _ h; subst h; rfl
  · simp at h

theorem KeepsCur.setAlt {p} (q : Path) : ∀ (ms : List (MInfo × Shape)) (n : Nat), KeepsCur p (setAlt q n ms)
  | [], n => .pure _
  | (i, sh) :: ms, n => by
    unfold SJ.setAlt
    refine (KeepsCur.setAlt q ms (n + 1)).bind fun r => (KeepsCur.cur q).bind fun id => ?_
    split
    · exact .pure _
    · refine (KeepsCur.getC _).bind fun c => ?_
      split
      · exact (KeepsCur.popVal _).bind fun _ => .pure _
      · split
        · split
          · exact .throwStd _
          · exact .pure _
        · exact .throwStd _

theorem complete_sunion_curId {p ty tm ms} : KeepsCur p (complete E (.union ty tm true ms) p) := by
  have hmod : ∀ f : Cell → Cell, (∀ c, (f c).curId = c.curId) → KeepsCur p (modC p f) := by
    intro f hf s a s' h; injection h with _ h; subst h; simp [hf]
  unfold complete
  refine KeepsCur.bind ?_ fun _ => ?_
  · apply hmod; exact fun _ => rfl
  simp only [finish]
  unfold unlessEmpty
  refine (KeepsCur.getC _).bind fun c => ?_
  split
  · unfold unset; apply hmod; exact fun _ => rfl
  · refine KeepsCur.bind ?_ fun r => KeepsCur.bind ?_ fun _ => ?_
    · intro s a s' h
      unfold wrapOnThrow at h
      split at h
      · simp at h
      · exact KeepsCur.setAlt p ms 0 s a s' h
    · cases r with
      | none => exact .pure _
      | some v => apply hmod; exact fun _ => rfl
    · intro s a s' h
      unfold finishCbVal at h
      split at h
      · injection h with _ h; subst h; rfl
      · rename_i cb _
        simp only [verdict] at h
        cases hv : (cb s.log (.val (s.heap p).val)).verdict <;> rw [hv] at h
        · injection h with _ h; subst h; rfl
        · simp [SJ.throwStd] at h
        · simp at h


/-- C16: `SUnion.get()` is the variant whose index is the selected member and whose content is the value of this member's parser or, if this
parser holds nothing, its default. -/
theorem C16_stores (hE : Passive E) {s : St} {p ty tm ms x} {n : Nat} {i m fs d v} (hx : Expecting R s p (.union ty tm true ms))
    (hw : (Shape.union ty tm true ms).wf = true) (htm : tm ≠ "")
    (hok : okVal (.union ty tm true ms) (.obj ((tm, .sc x) :: fs)) = true)
    (hty : x.ty = ty) (hl : lookup x 0 ms = some (n, m)) (hi : ms[n]? = some (i, m)) (hm : m.readsObjects = true)
    (hd : denote E.fmtDbl m (.obj fs) = .ok d)
    (hv : d.value? = some v ∨ (d = .unset ∧ i.dflt = some v)) :
    ∃ s1, Completes E R s p (.obj ((tm, .sc x) :: fs)) s1 ∧ isSet p s1 = true ∧ currentMemberId p s1 = .ok n s1 ∧
      get p s1 = .ok (.alt n v) s1 := by
  have hden : denote E.fmtDbl (.union ty tm true ms) (.obj ((tm, .sc x) :: fs)) = .ok (.val (.alt n v)) := by
    rw [denote_union htm hty hl hm, hd]
    simp only [Except.bind, finishUnion, hi]
    rcases hv with h | ⟨rfl, h⟩
    · simp [h]
    · have ho := wfMs_opt (wf_union hw) hi h
      simp [D.value?, h, ho]
  obtain ⟨s1, h1, h2, _, h3⟩ := parse_at_ok' hE hx hw hok hden
  refine ⟨s1, h1, h2.1, ?_, by simp [get, h2.1, h2.2]⟩
  have : (s1.heap p).curId = n := by
    simp only [evalVal, if_neg htm] at h3
    rw [bind_modH] at h3
    simp only [evalFields, if_neg htm, ne_eq, not_true_eq_false, if_false, if_pos hty] at h3
    obtain ⟨a, s2, h4, h5⟩ := bind_ok_inv h3
    obtain ⟨_, s3, h6, h7⟩ := bind_ok_inv h5
    obtain ⟨_, s4, h8, h9⟩ := bind_ok_inv h7
    have hla := (select_ok (R := R) h4).1
    rw [hl] at hla; injection hla with hla; subst hla
    have hRm := at_mem_union hx.shape hi
    have hk := (evalFields_keep fs m (.mem n :: p) hRm _ _ _ h6).2.frame p below_self_cons
    injection h8 with _ h8; subst h8
    rw [complete_sunion_curId _ _ _ h9]
    show (s3.heap p).curId = n
    rw [hk]
    unfold select at h4
    rw [bind_modH, setNotEmpty_def, bind_modC, hl] at h4
    simp only [bind_push, bind_modC] at h4
    injection h4 with _ h4; subst h4
    simp
  simp [currentMemberId, h2.1, this]


/-- C16: without a value and without a default the union fails; it is unset afterwards (C34). -/
theorem C16_refuses (hE : Passive E) {s : St} {p ty tm ms x} {n : Nat} {i m fs} (hx : Expecting R s p (.union ty tm true ms))
    (hw : (Shape.union ty tm true ms).wf = true) (htm : tm ≠ "")
    (hok : okVal (.union ty tm true ms) (.obj ((tm, .sc x) :: fs)) = true)
    (hty : x.ty = ty) (hl : lookup x 0 ms = some (n, m)) (hi : ms[n]? = some (i, m)) (hm : m.readsObjects = true)
    (hd : denote E.fmtDbl m (.obj fs) = .ok .unset) (hv : i.dflt = none) :
    Fails E R s (.obj ((tm, .sc x) :: fs)) (if i.optional
      then "Can not set value: " ++ ("Optional member #" ++ toString n ++ " does not have a default value")
      else "Can not set value: " ++ ("Mandatory member #" ++ toString n ++ " is not present")) := by
  refine parse_at_error hE hx hw hok ?_
  rw [denote_union htm hty hl hm, hd]
  simp only [Except.bind, finishUnion, hi, Bool.not_true, Bool.false_eq_true, if_false, D.value?, hv]
  cases i.optional <;> rfl

/-! ### C15: embedded unions -/

/-- The calls made by the members for the fields of an object at `p`. -/
def fieldCalls (fmt : Dbl → String) (ms : List (MInfo × Shape)) (p : Path) (fs : List (String × Json)) : List Ev :=
  fs.flatMap fun kv => match lookup (.str kv.1) 0 ms with
    | some (n, m) => (denoteT fmt m (.mem n :: p) kv.2).calls
    | none => []

theorem denFieldsT_prefix {fmt kd u ms p} (hd : DistinctNames ms) (rest : List (String × Json)) :
    ∀ (fs : List (String × Json)) (slots : List D) (ne : Bool), slots.length = ms.length → FieldsOk fmt u ms fs →
    (denFieldsT fmt (.object kd u ms) p slots [] ne (fs ++ rest)).calls = fieldCalls fmt ms p fs ++
      (denFieldsT fmt (.object kd u ms) p (slotsAfter fmt ms slots fs) [] (ne || !fs.isEmpty) rest).calls
  | [], slots, ne, hl, hok => by simp [slotsAfter_nil fmt ms slots hl, fieldCalls]
  | (k, v) :: fs, slots, ne, hl, hok => by
    rw [List.cons_append, denFieldsT]
    have h1 := hok (k, v) (by simp)
    have h2 : FieldsOk fmt u ms fs := fun kv h => hok kv (by simp [h])
    cases hk : lookup (.str k) 0 ms with
    | none =>
      simp only [hk] at h1
      subst h1
      simp only [Bool.false_eq_true, if_false]
      rw [denFieldsT_prefix hd rest fs slots true hl h2, slotsAfter_unknown fmt hk]; simp [fieldCalls, hk]
    | some a =>
      obtain ⟨n, m⟩ := a
      simp only [hk] at h1
      obtain ⟨d, h1⟩ := h1
      simp only [denote_ok_embedded h1]
      have h3 : (denoteT fmt m (.mem n :: p) v).result = .ok d := by rw [denoteT_result]; exact h1
      simp only [W.bind, h3]
      rw [denFieldsT_prefix hd rest fs _ true (by simpa using hl) h2, slotsAfter_set fmt hd hl hk h1]
      simp [fieldCalls, hk]

theorem missing_none' {ms : List (MInfo × Shape)} {slots : List D}
    (h : ∀ (n : Nat) x d, ms[n]? = some x → slots[n]? = some d → x.1.optional = false → d.isSet = true) : missing ms slots = [] := by
  unfold missing
  rw [List.map_eq_nil_iff, List.filter_eq_nil_iff]
  intro y hy
  obtain ⟨n, hn⟩ := List.getElem?_of_mem hy
  rw [List.getElem?_zip_eq_some] at hn
  cases ho : y.1.1.optional with
  | true => simp
  | false => rw [h n _ _ hn.1 hn.2 ho]; simp

/-- What an object makes of its fields when `(k, x)` selects an alternative of its embedded union `n`. -/
theorem denote_embedded {fmt kd u ms pre k n ty st ms' x a m' post} (hdist : DistinctNames ms) (hf : FieldsOk fmt u ms pre)
    (hk : lookup (.str k) 0 ms = some (n, .union ty "" st ms')) (hty : x.ty = ty) (hl : lookup x 0 ms' = some (a, m'))
    (hm : m'.readsObjects = true) :
    denote fmt (.object kd u ms) (.obj (pre ++ (k, .sc x) :: post)) =
      (denote fmt m' (.obj post)).bind fun d => (finishUnion st ms' a d).bind fun du =>
        finishObject kd ms ((ms.map (memberHolds fmt pre)).set n du) true := by
  rw [denote_readsObjects rfl, denFields_prefix hdist _ pre _ false (by simp [noSlots]) hf, slotsAfter_noSlots, denFields,
    denote_readsObjects hm]
  have he : embedded (.union ty "" st ms') (.sc x) = some (ty, st, ms', x) := by simp [embedded, hty]
  simp only [hk, he, selectAlt, hl]
  rfl

theorem denoteT_embedded {fmt kd u ms pre k n ty st ms' x a m' post d du D} {p : Path} (hdist : DistinctNames ms) (hf : FieldsOk fmt u ms pre)
    (hk : lookup (.str k) 0 ms = some (n, .union ty "" st ms')) (hty : x.ty = ty) (hl : lookup x 0 ms' = some (a, m'))
    (hm : m'.readsObjects = true) (hd : denote fmt m' (.obj post) = .ok d) (hdu : finishUnion st ms' a d = .ok du) (hset : du.isSet = true)
    (hD : finishObject kd ms ((ms.map (memberHolds fmt pre)).set n du) true = .ok D) (hDset : D.isSet = true) :
    (denoteT fmt (.object kd u ms) p (.obj (pre ++ (k, .sc x) :: post))).calls =
      fieldCalls fmt ms p pre ++ ((denoteT fmt m' (.mem a :: .mem n :: p) (.obj post)).calls ++
        [.finish (.mem n :: p) du, .finish p D]) := by
  rw [denoteT_readsObjects rfl, denFieldsT_prefix hdist _ pre _ false (by simp [noSlots]) hf, slotsAfter_noSlots, denFieldsT,
    denoteT_readsObjects hm]
  have he : embedded (.union ty "" st ms') (.sc x) = some (ty, st, ms', x) := by simp [embedded, hty]
  have hr : (denFieldsT fmt m' (.mem a :: .mem n :: p) (noSlots m') [] false post).result = .ok d := by
    rw [denFieldsT_result, ← denote_readsObjects hm]; exact hd
  simp only [hk, he, selectAlt, hl, W.bind, W.lift, hr, hdu, W.done, hset, if_true, hD, hDset]
  simp

/-- C15: an embedded union of an `Object` (or `SCustomObject`): after the accepted fields `pre`, the field `k` of the union holds a type value that
selects the alternative `a`; all later fields `post` are read by the alternative as one object. If it accepts them (and then holds `d`), and the other
mandatory members hold something after `pre`, the object is accepted; the union is set, `currentMemberId()` is `a`, the alternative holds
`d`, the other members hold what they held after `pre`. The callbacks called are those for `pre`, then those of the
alternative for `post` (the last of them its own finish callback), then the union's, then the object's. -/
theorem C15_union (hE : Passive E) {s : St} {p kd u ms pre k} {n : Nat} {ty ms' x} {a : Nat} {i m' post d}
    (hx : Expecting R s p (.object kd u ms)) (hkd : kd ≠ .auto) (hw : (Shape.object kd u ms).wf = true) (hdist : DistinctNames ms)
    (hok : okVal (.object kd u ms) (.obj (pre ++ (k, .sc x) :: post)) = true) (hf : FieldsOk E.fmtDbl u ms pre)
    (hk : lookup (.str k) 0 ms = some (n, .union ty "" false ms')) (hty : x.ty = ty) (hl : lookup x 0 ms' = some (a, m'))
    (hi : ms'[a]? = some (i, m')) (hm : m'.readsObjects = true) (hd : denote E.fmtDbl m' (.obj post) = .ok d)
    (hset : d.isSet = true ∨ i.optional = true)
    (hall : ∀ (c : Nat) y, ms[c]? = some y → c ≠ n → y.1.optional = false → (memberHolds E.fmtDbl pre y).isSet = true) :
    ∃ s1 D, Completes E R s p (.obj (pre ++ (k, .sc x) :: post)) s1 ∧ isSet p s1 = true ∧
      currentMemberId (.mem n :: p) s1 = .ok a s1 ∧ Holds s1.heap (.mem a :: .mem n :: p) d ∧
      (∀ (c : Nat) y, ms[c]? = some y → c ≠ n → Holds s1.heap (.mem c :: p) (memberHolds E.fmtDbl pre y)) ∧
      Logged E (fieldCalls E.fmtDbl ms p pre ++ ((denoteT E.fmtDbl m' (.mem a :: .mem n :: p) (.obj post)).calls ++
        [.finish (.mem n :: p) (.alt a d), .finish p D])) s.log s1.log := by
  have hdu : finishUnion false ms' a d = .ok (.alt a d) := by
    simp only [finishUnion, hi, Bool.not_false, if_true]
    rw [if_neg]
    rcases hset with h | h <;> simp [h]
  obtain ⟨iu, hiu⟩ := lookup_mem hk
  have hnl : n < ms.length := (List.getElem?_eq_some_iff.1 hiu).1
  have hmiss : missing ms ((ms.map (memberHolds E.fmtDbl pre)).set n (.alt a d)) = [] := by
    refine missing_none' fun c y dc h1 h2 h3 => ?_
    rw [List.getElem?_set] at h2
    split at h2
    · split at h2
      · injection h2 with h2; subst h2; rfl
      · simp at h2
    · rename_i hne
      rw [List.getElem?_map, h1] at h2
      injection h2 with h2; subst h2
      exact hall c y h1 (fun e => hne e.symm) h3
  let D0 : D := .obj (if kd = .custom then some .init else none) ((ms.map (memberHolds E.fmtDbl pre)).set n (.alt a d))
  have hD : finishObject kd ms ((ms.map (memberHolds E.fmtDbl pre)).set n (.alt a d)) true = .ok D0 := by
    cases kd with
    | auto => exact absurd rfl hkd
    | plain => simp [finishObject, hmiss, D0]
    | custom => simp [finishObject, hmiss, D0]
  have hden : denote E.fmtDbl (.object kd u ms) (.obj (pre ++ (k, .sc x) :: post)) = .ok D0 := by
    rw [denote_embedded hdist hf hk hty hl hm, hd]
    simp only [Except.bind, hdu, hD]
  obtain ⟨s1, h1, h2, h3⟩ := parse_at_ok hE hx hw hok hden
  rw [denoteT_embedded hdist hf hk hty hl hm hd hdu rfl hD rfl] at h3
  have hn := h2.2.2.get (m := n) (d := .alt a d) (by simp [hnl])
  rw [Nat.zero_add] at hn
  refine ⟨s1, D0, h1, h2.1, by simp [currentMemberId, hn.1, hn.2.1], hn.2.2, ?_, h3⟩
  intro c y hc hne
  have := h2.2.2.get (m := c) (d := memberHolds E.fmtDbl pre y) (by
    rw [List.getElem?_set, if_neg (fun e => hne e.symm), List.getElem?_map, hc]; rfl)
  rwa [Nat.zero_add] at this

/-- C15, C16: an embedded `SUnion` of an `Object`: its `get()` is the variant of the selected alternative. -/
theorem C15_sunion (hE : Passive E) {s : St} {p kd u ms pre k} {n : Nat} {ty ms' x} {a : Nat} {i m' post d v}
    (hx : Expecting R s p (.object kd u ms)) (hkd : kd ≠ .auto) (hw : (Shape.object kd u ms).wf = true) (hdist : DistinctNames ms)
    (hok : okVal (.object kd u ms) (.obj (pre ++ (k, .sc x) :: post)) = true) (hf : FieldsOk E.fmtDbl u ms pre)
    (hk : lookup (.str k) 0 ms = some (n, .union ty "" true ms')) (hty : x.ty = ty) (hl : lookup x 0 ms' = some (a, m'))
    (hi : ms'[a]? = some (i, m')) (hm : m'.readsObjects = true) (hd : denote E.fmtDbl m' (.obj post) = .ok d)
    (hv : d.value? = some v ∨ (d = .unset ∧ i.dflt = some v ∧ i.optional = true))
    (hall : ∀ (c : Nat) y, ms[c]? = some y → c ≠ n → y.1.optional = false → (memberHolds E.fmtDbl pre y).isSet = true) :
    ∃ s1 D, Completes E R s p (.obj (pre ++ (k, .sc x) :: post)) s1 ∧ isSet p s1 = true ∧
      get (.mem n :: p) s1 = .ok (.alt a v) s1 ∧
      (∀ (c : Nat) y, ms[c]? = some y → c ≠ n → Holds s1.heap (.mem c :: p) (memberHolds E.fmtDbl pre y)) ∧
      Logged E (fieldCalls E.fmtDbl ms p pre ++ ((denoteT E.fmtDbl m' (.mem a :: .mem n :: p) (.obj post)).calls ++
        [.finish (.mem n :: p) (.val (.alt a v)), .finish p D])) s.log s1.log := by
  have hdu : finishUnion true ms' a d = .ok (.val (.alt a v)) := by
    simp only [finishUnion, hi]
    rcases hv with h | ⟨rfl, h, ho⟩
    · simp [h]
    · simp [D.value?, h, ho]
  obtain ⟨iu, hiu⟩ := lookup_mem hk
  have hnl : n < ms.length := (List.getElem?_eq_some_iff.1 hiu).1
  have hmiss : missing ms ((ms.map (memberHolds E.fmtDbl pre)).set n (.val (.alt a v))) = [] := by
    refine missing_none' fun c y dc h1 h2 h3 => ?_
    rw [List.getElem?_set] at h2
    split at h2
    · split at h2
      · injection h2 with h2; subst h2; rfl
      · simp at h2
    · rename_i hne
      rw [List.getElem?_map, h1] at h2
      injection h2 with h2; subst h2
      exact hall c y h1 (fun e => hne e.symm) h3
  let D0 : D := .obj (if kd = .custom then some .init else none) ((ms.map (memberHolds E.fmtDbl pre)).set n (.val (.alt a v)))
  have hD : finishObject kd ms ((ms.map (memberHolds E.fmtDbl pre)).set n (.val (.alt a v))) true = .ok D0 := by
    cases kd with
    | auto => exact absurd rfl hkd
    | plain => simp [finishObject, hmiss, D0]
    | custom => simp [finishObject, hmiss, D0]
  have hden : denote E.fmtDbl (.object kd u ms) (.obj (pre ++ (k, .sc x) :: post)) = .ok D0 := by
    rw [denote_embedded hdist hf hk hty hl hm, hd]
    simp only [Except.bind, hdu, hD]
  obtain ⟨s1, h1, h2, h3⟩ := parse_at_ok hE hx hw hok hden
  rw [denoteT_embedded hdist hf hk hty hl hm hd hdu rfl hD rfl] at h3
  have hn := h2.2.2.get (m := n) (d := .val (.alt a v)) (by simp [hnl])
  rw [Nat.zero_add] at hn
  refine ⟨s1, D0, h1, h2.1, by simp [get, hn.1, hn.2], ?_, h3⟩
  intro c y hc hne
  have := h2.2.2.get (m := c) (d := memberHolds E.fmtDbl pre y) (by
    rw [List.getElem?_set, if_neg (fun e => hne e.symm), List.getElem?_map, hc]; rfl)
  rwa [Nat.zero_add] at this

/-- Null fields, as read by an embedded union that is the element of a map: each one only calls the element callback. -/
theorem denFields_nulls {fmt ty st' ms'} : ∀ (ks : List String) (fs : List (String × Json)) (ents : List (String × Val)) (ne : Bool),
    ∃ ne', denFields fmt (.map false (.union ty "" st' ms')) [] ents ne (ks.map (·, Json.null) ++ fs) =
      denFields fmt (.map false (.union ty "" st' ms')) [] ents ne' fs
  | [], fs, ents, ne => ⟨ne, rfl⟩
  | k :: ks, fs, ents, ne => by
    obtain ⟨ne', h⟩ := denFields_nulls (fmt := fmt) (ty := ty) (st' := st') (ms' := ms') ks fs ents true
    refine ⟨ne', ?_⟩
    rw [← h, List.map_cons, List.cons_append, denFields]
    simp [embedded, denote, storeEntry, bind, Except.bind]

theorem denFieldsT_nulls {fmt ty st' ms' p} : ∀ (ks : List String) (fs : List (String × Json)) (ents : List (String × Val)) (ne : Bool),
    ∃ ne', (denFieldsT fmt (.map false (.union ty "" st' ms')) p [] ents ne (ks.map (·, Json.null) ++ fs)).calls =
      ks.map (fun k => Ev.element p k .unset) ++ (denFieldsT fmt (.map false (.union ty "" st' ms')) p [] ents ne' fs).calls
  | [], fs, ents, ne => ⟨ne, rfl⟩
  | k :: ks, fs, ents, ne => by
    obtain ⟨ne', h⟩ := denFieldsT_nulls (fmt := fmt) (ty := ty) (st' := st') (ms' := ms') (p := p) ks fs ents true
    refine ⟨ne', ?_⟩
    rw [List.map_cons, List.cons_append, denFieldsT]
    simp [embedded, denoteT, storeEntry, W.bind, W.lift, W.elem, h]

/-- C15: an embedded union (`Union` or `SUnion`) as the element of a `Map`: after null entries, which each call the element callback with the
union unset, the entry `k` holds a type value that selects the alternative `a`; all later fields `post` of the same JSON object are read
by the alternative. If it accepts them the map is accepted, and the calls are those of the alternative for `post`, then the union's
finish callback, then the element callback with the key `k` and the union, then the map's finish callback. The union holds `du`: the
alternative `a` with what it holds after `post` (`Union`), or the value of it or its default (`SUnion`). -/
theorem C15_map (hE : Passive E) {s : St} {p} {nulls : List String} {k ty st' ms' x} {a : Nat} {i m' post d du}
    (hx : Expecting R s p (.map false (.union ty "" st' ms'))) (hw : (Shape.map false (.union ty "" st' ms')).wf = true)
    (hok : okVal m' (.obj post) = true)
    (hty : x.ty = ty) (hl : lookup x 0 ms' = some (a, m')) (hi : ms'[a]? = some (i, m')) (hm : m'.readsObjects = true)
    (hd : denote E.fmtDbl m' (.obj post) = .ok d)
    (hdu : st' = false ∧ du = .alt a d ∧ (d.isSet = true ∨ i.optional = true) ∨
      st' = true ∧ ∃ v, du = .val (.alt a v) ∧ (d.value? = some v ∨ d = .unset ∧ i.dflt = some v ∧ i.optional = true)) :
    ∃ s1, Completes E R s p (.obj (nulls.map (·, Json.null) ++ (k, .sc x) :: post)) s1 ∧ isSet p s1 = true ∧
      Logged E (nulls.map (fun k => Ev.element p k .unset) ++ ((denoteT E.fmtDbl m' (.mem a :: .elem :: p) (.obj post)).calls ++
        [.finish (.elem :: p) du, .element p k du, .finish p .done])) s.log s1.log := by
  have hfin : finishUnion st' ms' a d = .ok du ∧ du.isSet = true := by
    rcases hdu with ⟨rfl, rfl, h⟩ | ⟨rfl, v, rfl, h⟩
    · refine ⟨?_, rfl⟩
      simp only [finishUnion, hi, Bool.not_false, if_true]
      rw [if_neg]
      rcases h with h | h <;> simp [h]
    · refine ⟨?_, rfl⟩
      simp only [finishUnion, hi]
      rcases h with h | ⟨rfl, h, ho⟩
      · simp [h]
      · simp [D.value?, h, ho]
  have he : embedded (.union ty "" st' ms') (.sc x) = some (ty, st', ms', x) := by simp [embedded, hty]
  have hokf : okFields m' post = true := by
    cases m' with
    | object => simpa [okVal] using hok
    | map => simpa [okVal] using hok
    | union ty tm st ms =>
      simp only [Shape.readsObjects, bne_iff_ne, ne_eq] at hm
      simpa [okVal, hm] using hok
    | _ => simp [Shape.readsObjects] at hm
  have hok' : ∀ ks : List String, okFields (.map false (.union ty "" st' ms')) (ks.map (·, Json.null) ++ (k, .sc x) :: post) = true := by
    intro ks
    induction ks with
    | nil => rw [List.map_nil, List.nil_append, okFields]; simp [he, hl, hokf]
    | cons y ks ih => rw [List.map_cons, List.cons_append, okFields]; simp [embedded, ih, okVal, Shape.isUser]
  have hden : denote E.fmtDbl (.map false (.union ty "" st' ms')) (.obj (nulls.map (·, Json.null) ++ (k, .sc x) :: post)) = .ok .done := by
    rw [denote_readsObjects rfl]
    obtain ⟨ne', h⟩ := denFields_nulls (fmt := E.fmtDbl) (ty := ty) (st' := st') (ms' := ms') nulls ((k, .sc x) :: post) [] false
    simp only [noSlots]
    rw [h, denFields]
    rw [denote_readsObjects hm] at hd
    simp [he, selectAlt, hl, hd, hfin.1, storeEntry, bind, Except.bind, finishMap]
  obtain ⟨s1, h1, h2, h3⟩ := parse_at_ok hE hx hw (by simpa [okVal] using hok' nulls) hden
  refine ⟨s1, h1, h2, ?_⟩
  rw [denoteT_readsObjects rfl] at h3
  obtain ⟨ne', h⟩ := denFieldsT_nulls (fmt := E.fmtDbl) (ty := ty) (st' := st') (ms' := ms') (p := p) nulls ((k, .sc x) :: post) [] false
  simp only [noSlots] at h3
  rw [h, denFieldsT] at h3
  have hr : (denFieldsT E.fmtDbl m' (.mem a :: .elem :: p) (noSlots m') [] false post).result = .ok d := by
    rw [denFieldsT_result, ← denote_readsObjects hm]; exact hd
  rw [denoteT_readsObjects hm]
  have hdone : (D.done).isSet = true := rfl
  simpa [he, selectAlt, hl, W.bind, W.lift, hr, hfin.1, hfin.2, hdone, W.done, W.elem, storeEntry, finishMap] using h3

/-- C15: an embedded `SUnion` as the element of an `SMap`: the first entry `k` holds a type value that selects the alternative `a`, which
reads all later fields `post`. The map's value then has exactly one entry: `k` with the variant of the selected alternative. -/
theorem C15_smap (hE : Passive E) {s : St} {p k ty ms' x} {a : Nat} {i m' post d v}
    (hx : Expecting R s p (.map true (.union ty "" true ms'))) (hw : (Shape.map true (.union ty "" true ms')).wf = true)
    (hok : okVal m' (.obj post) = true)
    (hty : x.ty = ty) (hl : lookup x 0 ms' = some (a, m')) (hi : ms'[a]? = some (i, m')) (hm : m'.readsObjects = true)
    (hd : denote E.fmtDbl m' (.obj post) = .ok d)
    (hv : d.value? = some v ∨ (d = .unset ∧ i.dflt = some v ∧ i.optional = true)) :
    ∃ s1, Completes E R s p (.obj ((k, .sc x) :: post)) s1 ∧ isSet p s1 = true ∧ get p s1 = .ok (.map [(k, .alt a v)]) s1 ∧
      Logged E ((denoteT E.fmtDbl m' (.mem a :: .elem :: p) (.obj post)).calls ++
        [.finish (.elem :: p) (.val (.alt a v)), .element p k (.val (.alt a v)), .finish p (.val (.map [(k, .alt a v)]))]) s.log s1.log := by
  have hfin : finishUnion true ms' a d = .ok (.val (.alt a v)) := by
    simp only [finishUnion, hi]
    rcases hv with h | ⟨rfl, h, ho⟩
    · simp [h]
    · simp [D.value?, h, ho]
  have he : embedded (.union ty "" true ms') (.sc x) = some (ty, true, ms', x) := by simp [embedded, hty]
  have hokf : okFields m' post = true := by
    cases m' with
    | object => simpa [okVal] using hok
    | map => simpa [okVal] using hok
    | union ty tm st ms =>
      simp only [Shape.readsObjects, bne_iff_ne, ne_eq] at hm
      simpa [okVal, hm] using hok
    | _ => simp [Shape.readsObjects] at hm
  have hok' : okVal (.map true (.union ty "" true ms')) (.obj ((k, .sc x) :: post)) = true := by
    rw [okVal, okFields]; simp [he, hl, hokf]
  have hden : denote E.fmtDbl (.map true (.union ty "" true ms')) (.obj ((k, .sc x) :: post)) = .ok (.val (.map [(k, .alt a v)])) := by
    rw [denote_readsObjects rfl, denFields]
    rw [denote_readsObjects hm] at hd
    simp [he, selectAlt, hl, hd, hfin, storeEntry, D.value?, bind, Except.bind, finishMap, mapInsert]
  obtain ⟨s1, h1, h2, h3⟩ := parse_at_ok hE hx hw hok' hden
  refine ⟨s1, h1, h2.1, by simp [get, h2.1, h2.2], ?_⟩
  rw [denoteT_readsObjects rfl, denFieldsT] at h3
  have hr : (denFieldsT E.fmtDbl m' (.mem a :: .elem :: p) (noSlots m') [] false post).result = .ok d := by
    rw [denFieldsT_result, ← denote_readsObjects hm]; exact hd
  rw [denoteT_readsObjects hm]
  simpa [he, selectAlt, hl, W.bind, W.lift, hr, hfin, W.done, W.elem, storeEntry, finishMap, D.isSet, D.value?, mapInsert] using h3

/-- C15: an embedded `SUnion` as the n-th member of an `SAutoObject`: after the accepted fields `pre`, the field `k` selects the alternative
`a`, which reads the later fields `post`. The stored tuple has the variant of the alternative at `n`, and at every other index what the
member holds after `pre`, or its default. -/
theorem C15_auto (hE : Passive E) {s : St} {p u ms pre k} {n : Nat} {ty ms' x} {a : Nat} {i m' post d v}
    (hx : Expecting R s p (.object .auto u ms)) (hw : (Shape.object .auto u ms).wf = true) (hdist : DistinctNames ms)
    (hok : okVal (.object .auto u ms) (.obj (pre ++ (k, .sc x) :: post)) = true) (hf : FieldsOk E.fmtDbl u ms pre)
    (hk : lookup (.str k) 0 ms = some (n, .union ty "" true ms')) (hty : x.ty = ty) (hl : lookup x 0 ms' = some (a, m'))
    (hi : ms'[a]? = some (i, m')) (hm : m'.readsObjects = true) (hd : denote E.fmtDbl m' (.obj post) = .ok d)
    (hv : d.value? = some v ∨ (d = .unset ∧ i.dflt = some v ∧ i.optional = true))
    (hall : ∀ (c : Nat) y, ms[c]? = some y → c ≠ n → (y.1.optional = false ∨ y.1.dflt = none) → (memberHolds E.fmtDbl pre y).isSet = true) :
    ∃ s1 vs, Completes E R s p (.obj (pre ++ (k, .sc x) :: post)) s1 ∧ isSet p s1 = true ∧ get p s1 = .ok (.tup vs) s1 ∧
      vs.length = ms.length ∧ vs[n]? = some (.alt a v) ∧
      (∀ (c : Nat) y, ms[c]? = some y → c ≠ n → vs[c]? = (memberHolds E.fmtDbl pre y).value?.or y.1.dflt) ∧
      Logged E (fieldCalls E.fmtDbl ms p pre ++ ((denoteT E.fmtDbl m' (.mem a :: .mem n :: p) (.obj post)).calls ++
        [.finish (.mem n :: p) (.val (.alt a v)), .finish p (.val (.tup vs))])) s.log s1.log := by
  have hdu : finishUnion true ms' a d = .ok (.val (.alt a v)) := by
    simp only [finishUnion, hi]
    rcases hv with h | ⟨rfl, h, ho⟩
    · simp [h]
    · simp [D.value?, h, ho]
  obtain ⟨iu, hiu⟩ := lookup_mem hk
  have hnl : n < ms.length := (List.getElem?_eq_some_iff.1 hiu).1
  let ds := (ms.map (memberHolds E.fmtDbl pre)).set n (.val (.alt a v))
  let vs := (ms.zip ds).map fun x => (x.2.value?.or x.1.1.dflt).getD .init
  have hdn : ds[n]? = some (.val (.alt a v)) := by simp [ds, hnl]
  have hdc : ∀ (c : Nat) y, ms[c]? = some y → c ≠ n → ds[c]? = some (memberHolds E.fmtDbl pre y) := by
    intro c y hc hne
    rw [List.getElem?_set, if_neg (fun e => hne e.symm), List.getElem?_map, hc]; rfl
  have hun : unfillable ms ds = [] := by
    unfold unfillable
    rw [List.map_eq_nil_iff, List.filter_eq_nil_iff]
    intro y hy
    obtain ⟨c, hc⟩ := List.getElem?_of_mem hy
    rw [List.getElem?_zip_eq_some] at hc
    by_cases hcn : c = n
    · subst hcn
      rw [hdn] at hc
      have := hc.2; injection this with this
      rw [← this]; simp [D.isSet]
    · rw [hdc c _ hc.1 hcn] at hc
      have h2 := hc.2; injection h2 with h2
      have h3 := hall c _ hc.1 hcn
      rw [h2] at h3
      cases h4 : y.2.isSet with
      | true => simp
      | false =>
        rw [h4] at h3
        simp only [Bool.not_false, Bool.true_and]
        intro h5
        rw [Bool.or_eq_true] at h5
        refine absurd (h3 ?_) (by simp)
        rcases h5 with h5 | h5
        · left; simpa using h5
        · right; simpa using h5
  have hD : finishObject .auto ms ds true = .ok (.val (.tup vs)) := by simp [finishObject, hun, vs]
  have hden : denote E.fmtDbl (.object .auto u ms) (.obj (pre ++ (k, .sc x) :: post)) = .ok (.val (.tup vs)) := by
    rw [denote_embedded hdist hf hk hty hl hm, hd]
    simp only [Except.bind, hdu]
    exact hD
  obtain ⟨s1, h1, h2, h3⟩ := parse_at_ok hE hx hw hok hden
  rw [denoteT_embedded hdist hf hk hty hl hm hd hdu rfl hD rfl] at h3
  refine ⟨s1, vs, h1, h2.1, by simp [get, h2.1, h2.2], by simp [vs, ds], ?_, ?_, h3⟩
  · have : (ms.zip ds)[n]? = some ((iu, .union ty "" true ms'), .val (.alt a v)) := List.getElem?_zip_eq_some.2 ⟨hiu, hdn⟩
    simp [vs, this, D.value?]
  · intro c y hc hne
    have hz : (ms.zip ds)[c]? = some (y, memberHolds E.fmtDbl pre y) := List.getElem?_zip_eq_some.2 ⟨hc, hdc c y hc hne⟩
    simp only [vs, List.getElem?_map, hz, Option.map_some]
    have hfit : y.2.fits (memberHolds E.fmtDbl pre y) = true := by
      unfold memberHolds
      split
      · rename_i nm hname
        split
        · exact fits_unset _
        · rename_i j hj
          split
          · rename_i d hd; exact denote_fits j y.2 d (wfMs_mem (wf_object hw) hc).2.1 hd
          · exact fits_unset _
      · exact fits_unset _
    cases hset : (memberHolds E.fmtDbl pre y).isSet with
    | true =>
      obtain ⟨w, hw'⟩ := fits_store hfit ((wfMs_mem (wf_object hw) hc).2.2 rfl) hset
      simp [hw']
    | false =>
      have hnv : (memberHolds E.fmtDbl pre y).value? = none := by
        cases hh : memberHolds E.fmtDbl pre y <;> simp_all [D.isSet, D.value?]
      rw [hnv]
      cases hdf : y.1.dflt with
      | some w => simp
      | none => rw [hall c y hc hne (Or.inr hdf)] at hset; simp at hset

/-- C15: if the alternative refuses the later fields, the object fails with the alternative's error. -/
theorem C15_alternative_error (hE : Passive E) {s : St} {p kd u ms pre k n ty st ms' x a m' post e}
    (hx : Expecting R s p (.object kd u ms)) (hw : (Shape.object kd u ms).wf = true) (hdist : DistinctNames ms)
    (hok : okVal (.object kd u ms) (.obj (pre ++ (k, .sc x) :: post)) = true) (hf : FieldsOk E.fmtDbl u ms pre)
    (hk : lookup (.str k) 0 ms = some (n, .union ty "" st ms')) (hty : x.ty = ty) (hl : lookup x 0 ms' = some (a, m'))
    (hm : m'.readsObjects = true) (hd : denote E.fmtDbl m' (.obj post) = .error e) :
    Fails E R s (.obj (pre ++ (k, .sc x) :: post)) e := by
  refine parse_at_error hE hx hw hok ?_
  rw [denote_embedded hdist hf hk hty hl hm, hd]; rfl

/-- C15: a type value that is not declared fails, naming it. -/
theorem C15_type_value (hE : Passive E) {s : St} {p kd u ms pre k n ty st ms' x post}
    (hx : Expecting R s p (.object kd u ms)) (hw : (Shape.object kd u ms).wf = true) (hdist : DistinctNames ms)
    (hok : okVal (.object kd u ms) (.obj (pre ++ (k, .sc x) :: post)) = true) (hf : FieldsOk E.fmtDbl u ms pre)
    (hk : lookup (.str k) 0 ms = some (n, .union ty "" st ms')) (hty : x.ty = ty) (hun : ∀ y ∈ ms', y.1.name.cppEq x = false) :
    Fails E R s (.obj (pre ++ (k, .sc x) :: post)) ("Unexpected member " ++ showName E.fmtDbl x) := by
  refine parse_at_error hE hx hw hok ?_
  rw [denote_readsObjects rfl, denFields_prefix hdist _ pre _ false (by simp [noSlots]) hf, denFields]
  have he : embedded (.union ty "" st ms') (.sc x) = some (ty, st, ms', x) := by simp [embedded, hty]
  simp only [hk, he, selectAlt, lookup_none.2 hun]
  rfl

/-! ### The hypotheses are met -/

section Examples
open Demo

def choiceMs : List (MInfo × Shape) := match choice with | .union _ _ _ ms => ms | _ => []
def schoiceMs : List (MInfo × Shape) := match schoice with | .union _ _ _ ms => ms | _ => []
def taggedMs : List (MInfo × Shape) := match tagged with | .object _ _ ms => ms | _ => []
def staggedMs : List (MInfo × Shape) := match stagged with | .object _ _ ms => ms | _ => []

/-- C14_selected: `{"type": "circle", "r": 3}`. -/
example : ∃ s1, Completes accepting choice (St.init choice) [] (.obj [("type", .sc (.str "circle")), ("r", .sc (.int 3))]) s1 ∧
    currentMemberId [] s1 = .ok 0 s1 ∧ get [.mem 0, .mem 0] s1 = .ok (.sc (.int 3)) s1 := by
  obtain ⟨s1, h1, _, h2, h3⟩ := C14_selected (E := accepting) (R := choice) (tm := "type") (ms := choiceMs) (x := .str "circle") (n := 0)
    (fs := [("r", .sc (.int 3))]) (d := .obj none [.val (.sc (.int 3))]) accepting_passive (Ready.init choice).expecting
    (by decide +kernel) (by decide) (by decide +kernel) rfl rfl rfl rfl (sameR_eq (by decide +kernel)) (.inl rfl)
  refine ⟨s1, h1, h2, ?_⟩
  simp only [Holds, HoldsL] at h3
  simp [get, h3.2.2.1.1, h3.2.2.1.2]

/-- C14_unset -/
example : ∃ s1, Completes accepting choice (St.init choice) [] (.obj []) s1 ∧ isSet [] s1 = false ∧
    currentMemberId [] s1 = .throw (.std "Can't get value, parser is unset") s1 :=
  C14_unset (tm := "type") (ms := choiceMs) accepting_passive (Ready.init choice).expecting (by decide +kernel) (.inr ⟨rfl, by decide⟩)

/-- C14_member_error, C14_member_unset -/
example : Fails accepting choice (St.init choice) (.obj (("type", .sc (.str "circle")) :: [("x", .sc (.int 3))])) "Unexpected member x" :=
  C14_member_error (ms := choiceMs) (n := 0) accepting_passive (Ready.init choice).expecting (by decide +kernel) (by decide) (by decide +kernel) rfl rfl rfl
    (sameR_eq (by decide +kernel))
example : Fails accepting choice (St.init choice) (.obj (("type", .sc (.str "circle")) :: [])) ("Mandatory member #" ++ toString 0 ++ " is not present") :=
  C14_member_unset (ms := choiceMs) (n := 0) accepting_passive (Ready.init choice).expecting (by decide +kernel) (by decide) (by decide +kernel) rfl rfl rfl rfl
    (sameR_eq (by decide +kernel)) rfl

/-- C14_first_field, C14_type_value, C14_type_value_type, C14_only -/
example : Fails accepting choice (St.init choice) (.obj (("r", .sc (.int 3)) :: [("type", .sc (.str "circle"))])) ("Unexpected member " ++ "r") :=
  C14_first_field (ms := choiceMs) accepting_passive (Ready.init choice).expecting (by decide +kernel) (by decide) (by decide)
example : Fails accepting choice (St.init choice) (.obj (("type", .sc (.str "square")) :: [])) "Unexpected member square" :=
  C14_type_value (ms := choiceMs) accepting_passive (Ready.init choice).expecting (by decide +kernel) (by decide) rfl (by
    intro x hx; simp [choiceMs, choice] at hx; rcases hx with rfl | rfl <;> decide)
example : Fails accepting choice (St.init choice) (.obj (("type", .sc (.int 3)) :: [])) "Unexpected token integer" :=
  C14_type_value_type (ms := choiceMs) accepting_passive (Ready.init choice).expecting (by decide +kernel) (by decide) (by decide)
example : okVal choice (.obj [("type", .sc (.str "circle")), ("r", .sc (.int 3))]) = true := by decide +kernel

/-- C16_stores: `{"type": "pair", "id": 1}`, and `{"type": "point"}` with the default. -/
example : ∃ s1, Completes accepting schoice (St.init schoice) [] (.obj (("type", .sc (.str "pair")) :: [("id", .sc (.int 1))])) s1 ∧
    get [] s1 = .ok (.alt 0 (.tup [.sc (.int 1), .arr []])) s1 := by
  obtain ⟨s1, h1, _, _, h2⟩ := C16_stores (E := accepting) (R := schoice) (tm := "type") (ms := schoiceMs) (x := .str "pair") (n := 0)
    (fs := [("id", .sc (.int 1))]) (d := .val (.tup [.sc (.int 1), .arr []])) (v := .tup [.sc (.int 1), .arr []]) accepting_passive (Ready.init schoice).expecting
    (by decide +kernel) (by decide) (by decide +kernel) rfl rfl rfl rfl (sameR_eq (by decide +kernel)) (.inl rfl)
  exact ⟨s1, h1, h2⟩
example : ∃ s1, Completes accepting schoice (St.init schoice) [] (.obj (("type", .sc (.str "point")) :: [])) s1 ∧
    get [] s1 = .ok (.alt 1 (.tup [.sc (.int 5)])) s1 := by
  obtain ⟨s1, h1, _, _, h2⟩ := C16_stores (E := accepting) (R := schoice) (tm := "type") (ms := schoiceMs) (x := .str "point") (n := 1)
    (fs := []) (d := .unset) (v := .tup [.sc (.int 5)]) accepting_passive (Ready.init schoice).expecting
    (by decide +kernel) (by decide) (by decide +kernel) rfl rfl rfl rfl (sameR_eq (by decide +kernel)) (.inr ⟨rfl, rfl⟩)
  exact ⟨s1, h1, h2⟩
/-- C16_refuses -/
example : Fails accepting schoice (St.init schoice) (.obj (("type", .sc (.str "pair")) :: [])) "Can not set value: Mandatory member #0 is not present" :=
  C16_refuses (ms := schoiceMs) (n := 0) accepting_passive (Ready.init schoice).expecting (by decide +kernel) (by decide) (by decide +kernel) rfl rfl rfl rfl
    (sameR_eq (by decide +kernel)) rfl

/-- C15_union: `{"id": 1, "kind": "circle", "r": 3}`. -/
example : ∃ s1, Completes accepting tagged (St.init tagged) [] (.obj ([("id", .sc (.int 1))] ++ ("kind", .sc (.str "circle")) :: [("r", .sc (.int 3))])) s1 ∧
    isSet [] s1 = true ∧ currentMemberId [.mem 1] s1 = .ok 0 s1 ∧ get [.mem 0, .mem 0, .mem 1] s1 = .ok (.sc (.int 3)) s1 := by
  obtain ⟨s1, D, h1, h2, h3, h4, _⟩ := C15_union (E := accepting) (R := tagged) (ms := taggedMs) (pre := [("id", .sc (.int 1))]) (k := "kind") (n := 1)
    (x := .str "circle") (a := 0) (post := [("r", .sc (.int 3))]) (d := .obj none [.val (.sc (.int 3))]) accepting_passive (Ready.init tagged).expecting (by decide)
    (by decide +kernel) (distinctB_sound (by decide +kernel)) (by decide +kernel) (fieldsOkB_sound (by decide +kernel)) rfl rfl rfl rfl rfl
    (sameR_eq (by decide +kernel)) (.inl rfl) (by
      intro c y hc hne ho
      match c, hc with
      | 0, hc => simp [taggedMs, tagged] at hc; subst hc; decide +kernel
      | 1, hc => exact absurd rfl hne)
  refine ⟨s1, h1, h2, h3, ?_⟩
  simp only [Holds, HoldsL] at h4
  simp [get, h4.2.2.1.1, h4.2.2.1.2]

/-- C15_sunion: `{"id": 1, "kind": "point", "x": 7}`. -/
example : ∃ s1, Completes accepting stagged (St.init stagged) [] (.obj ([("id", .sc (.int 1))] ++ ("kind", .sc (.str "point")) :: [("x", .sc (.int 7))])) s1 ∧
    isSet [] s1 = true ∧ get [.mem 1] s1 = .ok (.alt 1 (.tup [.sc (.int 7)])) s1 := by
  obtain ⟨s1, D, h1, h2, h3, _⟩ := C15_sunion (E := accepting) (R := stagged) (ms := staggedMs) (pre := [("id", .sc (.int 1))]) (k := "kind") (n := 1)
    (x := .str "point") (a := 1) (post := [("x", .sc (.int 7))]) (d := .val (.tup [.sc (.int 7)])) (v := .tup [.sc (.int 7)]) accepting_passive
    (Ready.init stagged).expecting (by decide)
    (by decide +kernel) (distinctB_sound (by decide +kernel)) (by decide +kernel) (fieldsOkB_sound (by decide +kernel)) rfl rfl rfl rfl rfl
    (sameR_eq (by decide +kernel)) (.inl rfl) (by
      intro c y hc hne ho
      match c, hc with
      | 0, hc => simp [staggedMs, stagged] at hc; subst hc; decide +kernel
      | 1, hc => exact absurd rfl hne)
  exact ⟨s1, h1, h2, h3⟩

/-- C15_alternative_error, C15_type_value: a later field `id` goes to the alternative, which does not know it; an undeclared alternative. -/
example : Fails accepting tagged (St.init tagged) (.obj ([] ++ ("kind", .sc (.str "circle")) :: [("id", .sc (.int 1))])) "Unexpected member id" :=
  C15_alternative_error (ms := taggedMs) (n := 1) (a := 0) accepting_passive (Ready.init tagged).expecting (by decide +kernel) (distinctB_sound (by decide +kernel))
    (by decide +kernel) (fieldsOkB_sound (by decide +kernel)) rfl rfl rfl rfl (sameR_eq (by decide +kernel))
example : Fails accepting tagged (St.init tagged) (.obj ([("id", .sc (.int 1))] ++ ("kind", .sc (.str "square")) :: [])) "Unexpected member square" :=
  C15_type_value (ms := taggedMs) (n := 1) accepting_passive (Ready.init tagged).expecting (by decide +kernel) (distinctB_sound (by decide +kernel))
    (by decide +kernel) (fieldsOkB_sound (by decide +kernel)) rfl rfl (by
      intro x hx; simp at hx; rcases hx with rfl | rfl <;> decide)

/-- C15_map, C15_smap, C15_auto: `{"n": null, "k": "circle", "r": 3}` as a `Map`, `{"k": "point", "x": 7}` as an `SMap`, and
`{"id": 1, "kind": "point", "x": 7}` as an `SAutoObject`. -/
example : ∃ s1, Completes accepting (.map false (.union .str "" false choiceMs)) (St.init (.map false (.union .str "" false choiceMs))) []
    (.obj ([("n", Json.null)] ++ ("k", .sc (.str "circle")) :: [("r", .sc (.int 3))])) s1 ∧ isSet [] s1 = true := by
  obtain ⟨s1, h1, h2, _⟩ := C15_map (E := accepting) (R := .map false (.union .str "" false choiceMs)) (nulls := ["n"]) (k := "k") (ty := .str)
    (st' := false) (ms' := choiceMs) (x := .str "circle") (a := 0) (post := [("r", .sc (.int 3))]) (d := .obj none [.val (.sc (.int 3))])
    accepting_passive (Ready.init _).expecting (by decide +kernel) (by decide +kernel) rfl rfl rfl rfl (sameR_eq (by decide +kernel))
    (.inl ⟨rfl, rfl, .inl rfl⟩)
  exact ⟨s1, h1, h2⟩
example : ∃ s1, Completes accepting (.map true (.union .str "" true schoiceMs)) (St.init (.map true (.union .str "" true schoiceMs))) []
    (.obj (("k", .sc (.str "point")) :: [("x", .sc (.int 7))])) s1 ∧
    get [] s1 = .ok (.map [("k", .alt 1 (.tup [.sc (.int 7)]))]) s1 := by
  obtain ⟨s1, h1, _, h2, _⟩ := C15_smap (E := accepting) (R := .map true (.union .str "" true schoiceMs)) (k := "k") (ty := .str) (ms' := schoiceMs)
    (x := .str "point") (a := 1) (post := [("x", .sc (.int 7))]) (d := .val (.tup [.sc (.int 7)])) (v := .tup [.sc (.int 7)]) accepting_passive
    (Ready.init _).expecting (by decide +kernel) (by decide +kernel) rfl rfl rfl rfl (sameR_eq (by decide +kernel)) (.inl rfl)
  exact ⟨s1, h1, h2⟩
example : ∃ s1 vs, Completes accepting (.object .auto true staggedMs) (St.init (.object .auto true staggedMs)) []
    (.obj ([("id", .sc (.int 1))] ++ ("kind", .sc (.str "point")) :: [("x", .sc (.int 7))])) s1 ∧
    get [] s1 = .ok (.tup vs) s1 ∧ vs[1]? = some (.alt 1 (.tup [.sc (.int 7)])) := by
  obtain ⟨s1, vs, h1, _, h2, _, h3, _⟩ := C15_auto (E := accepting) (R := .object .auto true staggedMs) (ms := staggedMs) (pre := [("id", .sc (.int 1))]) (k := "kind") (n := 1)
    (x := .str "point") (a := 1) (post := [("x", .sc (.int 7))]) (d := .val (.tup [.sc (.int 7)])) (v := .tup [.sc (.int 7)]) accepting_passive
    (Ready.init _).expecting
    (by decide +kernel) (distinctB_sound (by decide +kernel)) (by decide +kernel) (fieldsOkB_sound (by decide +kernel)) rfl rfl rfl rfl rfl
    (sameR_eq (by decide +kernel)) (.inl rfl) (by
      intro c y hc hne ho
      match c, hc with
      | 0, hc => simp [staggedMs, stagged] at hc; subst hc; decide +kernel
      | 1, hc => exact absurd rfl hne)
  exact ⟨s1, vs, h1, h2, h3⟩

end Examples

end SJ
