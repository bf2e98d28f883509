/-
Properties of single tokens, for every state of the parser tree (C01, C02, C03, C04, C07, C12, C13, C14, C35).

`s.stack = p :: rest` says that the parser at `p` is the dispatcher's current parser, `R.at p = some sh` that it
is a parser of the shape `sh`.
-/
import Verif.Proofs.Step
import Verif.Demo

set_option linter.unusedVariables false

namespace SJ

variable {E : Env} {R : Shape}

/-- Nobody below the current parser reacts when it is removed from the stack: it is the root, or a member of an
object. -/
def Unobserved (R : Shape) (rest : List Path) : Prop :=
  rest = [] ∨ ∃ q r k u ms, rest = q :: r ∧ R.at q = some (.object k u ms)

/-- The finish callback of the parser at `p`, if any, would accept the argument `a`. -/
def Accepts (E : Env) (p : Path) (l : Log) (a : Arg) : Prop :=
  ∀ cb, E.onFinish p = some cb → (cb l a).verdict = .accept

/-- The log after the finish callback of `p`, if any, was called with `a`. -/
def logged (E : Env) (p : Path) (a : Arg) (l : Log) : Log := if (E.onFinish p).isSome then .finish p a :: l else l

theorem finishCbVal_accepts {p} {s : St} (h : Accepts E p s.log (.val (s.heap p).val)) :
    finishCbVal E p s = .ok () { s with log := logged E p (.val (s.heap p).val) s.log } := by
  unfold finishCbVal logged
  cases hc : E.onFinish p with
  | none => simp
  | some cb => simp only [h cb hc, verdict]; rfl

/-! ### C01 -/

/-- C01: a token that is neither null nor a scalar of type T is refused by a current `Value<T>`, by name of the
token's kind, and nothing at all changes. -/
theorem C01_value_refuses {s : St} {p rest ty t} (hs : s.stack = p :: rest) (hR : R.at p = some (.value ty))
    (hn : t ≠ .null) (ht : ∀ v, t = .scalar v → v.ty ≠ ty) :
    dispatch E R t s = .throw (.std ("Unexpected token " ++ called t)) s := by
  rw [called_eq]
  rw [dispatch_cons hs hR]
  cases t with
  | null => exact absurd rfl hn
  | scalar v => simp [onF, ht v rfl, unexpected, throwStd]
  | _ => rfl

/-- C01: a scalar of type T is accepted by a current `Value<T>`: it is stored, the parser is set and not empty, its
finish callback sees the value, no other parser changes and the parser is no longer current. -/
theorem C01_value_accepts {s : St} {p rest ty v} (hs : s.stack = p :: rest) (hR : R.at p = some (.value ty))
    (hd : (s.heap p).disp = true) (hv : v.ty = ty) (hq : Unobserved R rest) (ha : Accepts E p s.log (.val (.sc v))) :
    ∃ s', dispatch E R (.scalar v) s = .ok () s' ∧ get p s' = .ok (.sc v) s' ∧ isSet p s' = true ∧
      isEmpty p s' = false ∧ s'.stack = rest ∧ (∀ q, q ≠ p → s'.heap q = s.heap q) ∧
      s'.log = logged E p (.val (.sc v)) s.log := by
  let s1 : St := { s with heap := s.heap.upd p fun c => { c with set := true, empty := false, val := .sc v } }
  have h1 : dispatch E R (.scalar v) s = M.bind (finishCbVal E p) (fun _ => pop E R) s1 := by
    rw [dispatch_cons hs hR]
    simp only [onF, if_pos hv]
    rw [setNotEmpty_def, bind_modC, bind_modC, endP_pop (by simp [hd])]
    simp only [upd_upd]
    unfold M.bind
    rw [complete_unfold]
    simp only [finish, upd_upd, s1]
  have hval : (s1.heap p).val = .sc v := by simp [s1]
  have h2 := finishCbVal_accepts (E := E) (p := p) (s := s1) (by rw [hval]; exact ha)
  rw [h1, bind_ok h2, hval]
  refine ⟨_, (pop_silent (p := p) (rest := rest) (by exact hs) hq), ?_, ?_, ?_, rfl, ?_, rfl⟩
  · simp [get, s1]
  · simp [isSet, s1]
  · simp [isEmpty, s1]
  · intro q hq; simp only [s1]; exact upd_other hq

/-! ### C02 -/

/-- C02: null is accepted by the current parser of any kind (an array in the middle of its elements aside): it becomes
unset and empty, no callback is called and no parser outside of it changes. Then the dispatcher
removes it from the stack (`pop`), telling the parser below. -/
theorem C02_null {s : St} {p rest sh} (hs : s.stack = p :: rest) (hR : R.at p = some sh)
    (hd : (s.heap p).disp = true) (ha : ∀ st e, sh = .array st e → (s.heap p).started = false) :
    ∃ s1, dispatch E R .null s = pop E R s1 ∧ isSet p s1 = false ∧ isEmpty p s1 = true ∧ s1.stack = s.stack ∧
      s1.log = s.log ∧ ∀ q, ¬ Below p q → s1.heap q = s.heap q := by
  have key : onF E R sh p .null s = nullBase E R sh p s := by
    cases sh with
    | array st e => simp only [onF, bind_getC, ha st e rfl]; rfl
    | _ => rfl
  rw [dispatch_cons hs hR, key, nullBase_pop hd, bind_modH]
  exact ⟨_, rfl, (resetH_self _ _ _).1, (resetH_self _ _ _).2, rfl, rfl, resetH_frame sh p s.heap⟩

/-- C02, where nobody reacts to the removal: null succeeds, the parser is unset and empty and no longer current. -/
theorem C02_null_member {s : St} {p rest sh} (hs : s.stack = p :: rest) (hR : R.at p = some sh)
    (hd : (s.heap p).disp = true) (ha : ∀ st e, sh = .array st e → (s.heap p).started = false)
    (hq : Unobserved R rest) :
    ∃ s', dispatch E R .null s = .ok () s' ∧ isSet p s' = false ∧ isEmpty p s' = true ∧ s'.stack = rest ∧
      s'.log = s.log ∧ ∀ q, ¬ Below p q → s'.heap q = s.heap q := by
  obtain ⟨s1, h1, h2, h3, h4, h5, h6⟩ := C02_null (E := E) hs hR hd ha
  rw [h1, pop_silent (h4.trans hs) hq]
  exact ⟨_, rfl, h2, h3, rfl, h5, h6⟩

/-! ### C03, C07: the end of an object -/

/-- C03: at the end of a non-empty JSON object an `Object` or `SCustomObject` with unset mandatory members fails, naming
the one declared last; it is unset, its callback is not called and no other parser changes. -/
theorem C03_mandatory_missing {s : St} {p rest k u ms n i m nm} (hs : s.stack = p :: rest)
    (hR : R.at p = some (.object k u ms)) (hk : k ≠ .auto) (he : isEmpty p s = false)
    (hn : ms[n]? = some (i, m)) (hnm : i.name = .str nm) (hman : i.optional = false)
    (hun : isSet (.mem n :: p) s = false)
    (hlast : ∀ n' i' m', n < n' → ms[n']? = some (i', m') → i'.optional = false → isSet (.mem n' :: p) s = true) :
    ∃ s', dispatch E R .mapEnd s = .throw (.std ("Mandatory member " ++ nm ++ " is not present")) s' ∧
      isSet p s' = false ∧ s'.log = s.log ∧ s'.stack = s.stack ∧ ∀ q, q ≠ p → s'.heap q = s.heap q := by
  rw [dispatch_cons hs hR]
  simp only [onF]
  rw [endP_eq]
  have hsl : slotsOf (s.heap.upd p fun c => { c with set := true }) p 0 ms = slotsOf s.heap p 0 ms :=
    slotsOf_congr 0 ms fun m => upd_other (by simp)
  have hck := checkMembers_spec ms 0 (slotsOf (s.heap.upd p fun c => { c with set := true }) p 0 ms)
    (slotsOf_length _ _ _ _) (slotsOf_holds _ p 0 ms)
  rw [hsl, missing_last hn hman hun hlast] at hck
  simp only [Option.map_some, hnm, showName] at hck
  have he' : ((s.heap.upd p fun c => { c with set := true }) p).empty = false := by simpa [isEmpty] using he
  have hfin : complete E (.object k u ms) p s = .throw (.std ("Mandatory member " ++ nm ++ " is not present"))
      { s with heap := s.heap.upd p fun c => { c with set := false } } := by
    rw [complete_unfold]
    have : ∀ c, M.bind (unsetOnThrow p fun s => match checkMembers s.heap p 0 ms with
            | some e => .throw (.std e) s
            | none => .ok () s) (fun _ => finishCbParser E (.object k u ms) c p)
          { s with heap := s.heap.upd p fun c => { c with set := true } } =
        .throw (.std ("Mandatory member " ++ nm ++ " is not present"))
          { s with heap := s.heap.upd p fun c => { c with set := false } } := by
      intro c; unfold M.bind unsetOnThrow; simp only [hck, upd_upd]
    cases k with
    | auto => exact absurd rfl hk
    | plain => simp only [finish]; rw [unlessEmpty_false he']; exact this _
    | custom => simp only [finish]; rw [unlessEmpty_false he']; exact this _
  refine ⟨{ s with heap := s.heap.upd p fun c => { c with set := false } },
    bind_throws hfin, ?_, rfl, rfl, fun q hq => by simp [upd_other hq]⟩
  simp [isSet]

/-- C03: at the end of a non-empty JSON object an `Object` or `SCustomObject` whose mandatory members are all set
succeeds. Its callback, if any, is called exactly now and is shown the set parser with its members. -/
theorem C03_complete {s : St} {p rest k u ms} (hs : s.stack = p :: rest) (hR : R.at p = some (.object k u ms))
    (hk : k ≠ .auto) (hd : (s.heap p).disp = true) (he : isEmpty p s = false) (hq : Unobserved R rest)
    (hall : ∀ n i m, ms[n]? = some (i, m) → i.optional = false → isSet (.mem n :: p) s = true)
    (hcb : ∀ cb, E.onFinish p = some cb → ∀ l a, (cb l a).verdict = .accept ∧ (cb l a).pops = [] ∧ (cb l a).newVal = none) :
    ∃ s', dispatch E R .mapEnd s = .ok () s' ∧ isSet p s' = true ∧ s'.stack = rest ∧
      s'.heap = s.heap.upd p (fun c => { c with set := true }) ∧
      s'.log = logged E p (.parser (snap s'.heap p (.object k u ms))) s.log := by
  rw [dispatch_cons hs hR]
  simp only [onF]
  rw [endP_pop hd]
  have hsl : slotsOf (s.heap.upd p fun c => { c with set := true }) p 0 ms = slotsOf s.heap p 0 ms :=
    slotsOf_congr 0 ms fun m => upd_other (by simp)
  have hck := checkMembers_spec ms 0 (slotsOf (s.heap.upd p fun c => { c with set := true }) p 0 ms)
    (slotsOf_length _ _ _ _) (slotsOf_holds _ p 0 ms)
  rw [hsl, missing_none hall] at hck
  simp only [List.getLast?_nil, Option.map_none] at hck
  have he' : ((s.heap.upd p fun c => { c with set := true }) p).empty = false := by simpa [isEmpty] using he
  generalize hh : s.heap.upd p (fun c => { c with set := true }) = h1 at *
  have hfin : complete E (.object k u ms) p s = .ok ()
      { s with heap := h1, log := logged E p (.parser (snap h1 p (.object k u ms))) s.log } := by
    rw [complete_unfold]
    have : ∀ c, M.bind (unsetOnThrow p fun s => match checkMembers s.heap p 0 ms with
            | some e => .throw (.std e) s
            | none => .ok () s) (fun _ => finishCbParser E (.object k u ms) c p) { s with heap := h1 } =
        .ok () { s with heap := h1, log := logged E p (.parser (snap h1 p (.object k u ms))) s.log } := by
      intro c
      have h2 : unsetOnThrow p (fun s => match checkMembers s.heap p 0 ms with
            | some e => .throw (.std e) s
            | none => .ok () s) { s with heap := h1 } = .ok () { s with heap := h1 } := by
        unfold unsetOnThrow; simp only [hck]
      rw [bind_ok h2]
      unfold finishCbParser logged
      cases hc : E.onFinish p with
      | none => rfl
      | some cb =>
        obtain ⟨a1, a2, a3⟩ := hcb cb hc s.log (.parser (snap h1 p (.object k u ms)))
        simp only [a1, a2, a3, cbPops, verdict]; rfl
    rw [hh]
    cases k with
    | auto => exact absurd rfl hk
    | plain => simp only [finish]; rw [unlessEmpty_false he']; exact this _
    | custom => simp only [finish]; rw [unlessEmpty_false he']; exact this _
  rw [bind_ok hfin, pop_silent (p := p) (rest := rest) (by exact hs) hq]
  refine ⟨_, rfl, ?_, rfl, rfl, rfl⟩
  simp [isSet, ← hh]

/-- C07: the end of an empty JSON object leaves the current `Object`, `SCustomObject`, `SAutoObject`, `Union` or `SUnion`
unset, without any check of its members and without calling its callback. -/
theorem C07_empty_object {s : St} {p rest sh} (hs : s.stack = p :: rest) (hR : R.at p = some sh)
    (hsh : (∃ k u ms, sh = .object k u ms) ∨ ∃ ty tm st ms, sh = .union ty tm st ms)
    (hd : (s.heap p).disp = true) (he : isEmpty p s = true) (hq : Unobserved R rest) :
    ∃ s', dispatch E R .mapEnd s = .ok () s' ∧ isSet p s' = false ∧ s'.stack = rest ∧ s'.log = s.log ∧
      ∀ q, q ≠ p → s'.heap q = s.heap q := by
  have he' : ((s.heap.upd p fun c => { c with set := true }) p).empty = true := by simpa [isEmpty] using he
  have key : onF E R sh p .mapEnd s = endP E R sh p s := by
    rcases hsh with ⟨k, u, ms, rfl⟩ | ⟨ty, tm, st, ms, rfl⟩ <;> rfl
  have hfin : complete E sh p s = .ok () { s with heap := s.heap.upd p fun c => { c with set := false } } := by
    have h3 : ∀ m : M Unit, unlessEmpty p m { s with heap := s.heap.upd p fun c => { c with set := true } } =
        .ok () { s with heap := s.heap.upd p fun c => { c with set := false } } := by
      intro m; rw [unlessEmpty_true he', upd_upd]
    rw [complete_unfold]
    rcases hsh with ⟨k, u, ms, rfl⟩ | ⟨ty, tm, st, ms, rfl⟩
    · cases k <;> simp only [finish] <;> exact h3 _
    · cases st <;> simp only [finish] <;> exact h3 _
  rw [dispatch_cons hs hR, key, endP_pop hd, bind_ok hfin, pop_silent (p := p) (rest := rest) (by exact hs) hq]
  refine ⟨_, rfl, ?_, rfl, rfl, fun q hq => by simp [upd_other hq]⟩
  simp [isSet]

/-! ### C12, C13: the end of an object for `SAutoObject` -/

/-- What `SAutoObject` reports about the member `i` with name `nm`. -/
def autoMessage (i : MInfo) (nm : String) : String :=
  "Can not set value: " ++ cText (if i.optional then "Optional member " ++ nm ++ " does not have a default value"
    else "Mandatory member " ++ nm ++ " is not present")

/-- C13: at the end of a non-empty JSON object an `SAutoObject` with members that are unset and mandatory, or
optional without a default, fails; the last of them is named; the object is unset, its callback not called. -/
theorem C13_unfillable {s : St} {p rest u ms n i m nm} (hs : s.stack = p :: rest)
    (hR : R.at p = some (.object .auto u ms)) (he : isEmpty p s = false)
    (hn : ms[n]? = some (i, m)) (hnm : i.name = .str nm) (hbad : i.optional = false ∨ i.dflt = none)
    (hun : isSet (.mem n :: p) s = false)
    (hlast : ∀ n' i' m', n < n' → ms[n']? = some (i', m') → (i'.optional = false ∨ i'.dflt = none) →
      isSet (.mem n' :: p) s = true) :
    ∃ s', dispatch E R .mapEnd s = .throw (.std (autoMessage i nm)) s' ∧
      isSet p s' = false ∧ s'.log = s.log ∧ s'.stack = s.stack := by
  rw [dispatch_cons hs hR]
  simp only [onF]
  rw [endP_eq]
  have hsl : slotsOf (s.heap.upd p fun c => { c with set := true }) p 0 ms = slotsOf s.heap p 0 ms :=
    slotsOf_congr 0 ms fun m => upd_other (by simp)
  have hsv := setValues_spec ms 0 (slotsOf (s.heap.upd p fun c => { c with set := true }) p 0 ms)
    { s with heap := s.heap.upd p fun c => { c with set := true } }
    (slotsOf_length _ _ _ _) (slotsOf_holds _ p 0 ms) slotsOf_value
  have he' : ((s.heap.upd p fun c => { c with set := true }) p).empty = false := by simpa [isEmpty] using he
  rw [hsl, unfillable_last hn hbad hun hlast] at hsv
  obtain ⟨s', h, hlog⟩ := hsv
  have hstk := Calm.setValues p ms 0 { s with heap := s.heap.upd p fun c => { c with set := true } }
  rw [h] at hstk
  have hfin : complete E (.object .auto u ms) p s = .throw (.std (autoMessage i nm))
      { s' with heap := s'.heap.upd p fun c => { c with set := false } } := by
    rw [complete_unfold]
    simp only [finish]
    rw [unlessEmpty_false he']
    have hmsg : autoMessage i nm = "Can not set value: " ++ cText (autoErr i) := by
      unfold autoMessage autoErr; rw [hnm]; unfold showName; rfl
    have hw : wrapOnThrow p (setValues p 0 ms) { s with heap := s.heap.upd p fun c => { c with set := true } } =
        .throw (.std (autoMessage i nm)) { s' with heap := s'.heap.upd p fun c => { c with set := false } } := by
      unfold wrapOnThrow
      rw [h, hmsg]
    exact bind_throws hw
  refine ⟨_, bind_throws hfin, ?_, hlog, hstk⟩
  simp [isSet]

/-- C12: at the end of a non-empty JSON object an `SAutoObject` whose unset members all are optional with a default
succeeds with the tuple of the members' values, the default standing for an unset member; the members are unset
afterwards and the callback is given the tuple. -/
theorem C12_tuple {s : St} {p rest u ms} (hs : s.stack = p :: rest)
    (hR : R.at p = some (.object .auto u ms)) (he : isEmpty p s = false) (hd : (s.heap p).disp = true)
    (hq : Unobserved R rest)
    (hall : ∀ n i m, ms[n]? = some (i, m) → (i.optional = false ∨ i.dflt = none) → isSet (.mem n :: p) s = true)
    (hcb : ∀ a, Accepts E p s.log a) :
    ∃ s' vs, dispatch E R .mapEnd s = .ok () s' ∧ get p s' = .ok (.tup vs) s' ∧ s'.stack = rest ∧
      vs.length = ms.length ∧
      (∀ n i m, ms[n]? = some (i, m) → isSet (.mem n :: p) s' = false ∧
        (isSet (.mem n :: p) s = true → get (.mem n :: p) s = .ok (vs[n]?.getD .init) s) ∧
        (isSet (.mem n :: p) s = false → vs[n]? = i.dflt)) ∧
      s'.log = logged E p (.val (.tup vs)) s.log := by
  rw [dispatch_cons hs hR]
  simp only [onF]
  rw [endP_pop hd]
  have hsl : slotsOf (s.heap.upd p fun c => { c with set := true }) p 0 ms = slotsOf s.heap p 0 ms :=
    slotsOf_congr 0 ms fun m => upd_other (by simp)
  have hsv := setValues_spec ms 0 (slotsOf (s.heap.upd p fun c => { c with set := true }) p 0 ms)
    { s with heap := s.heap.upd p fun c => { c with set := true } }
    (slotsOf_length _ _ _ _) (slotsOf_holds _ p 0 ms) slotsOf_value
  have he' : ((s.heap.upd p fun c => { c with set := true }) p).empty = false := by simpa [isEmpty] using he
  rw [hsl, unfillable_none hall] at hsv
  simp only [List.getLast?_nil] at hsv
  obtain ⟨s1, h, hlog, hp, _, hmem⟩ := hsv
  have hstk := Calm.setValues p ms 0 { s with heap := s.heap.upd p fun c => { c with set := true } }
  rw [h] at hstk
  let vs := tupVals ms (slotsOf s.heap p 0 ms)
  let s2 : St := { s1 with heap := s1.heap.upd p fun c => { c with val := .tup vs } }
  have hv : (s2.heap p).val = .tup vs := by simp [s2]
  have hl2 : s2.log = s.log := hlog
  have hfin : complete E (.object .auto u ms) p s = .ok () { s2 with log := logged E p (.val (.tup vs)) s.log } := by
    rw [complete_unfold]
    simp only [finish]
    rw [unlessEmpty_false he']
    have : wrapOnThrow p (setValues p 0 ms) { s with heap := s.heap.upd p fun c => { c with set := true } } = .ok vs s1 := by
      unfold wrapOnThrow; rw [h]
    rw [bind_ok this, bind_modC]
    have h4 := finishCbVal_accepts (E := E) (p := p) (s := s2) (by rw [hl2]; exact hcb _)
    rw [hv, hl2] at h4
    exact h4
  rw [bind_ok hfin, pop_silent (p := p) (rest := rest) (by exact hstk.trans hs) hq]
  have hget : ∀ (n : Nat) i m, ms[n]? = some (i, m) → vs[n]? = some (if (s.heap (.mem n :: p)).set then (s.heap (.mem n :: p)).val
      else i.dflt.getD .init) := by
    intro n i m hn
    simp only [vs, tupVals, List.getElem?_map, zip_slots' hn, Option.map_some]
    split <;> simp [D.value?]
  refine ⟨_, vs, rfl, ?_, rfl, ?_, ?_, rfl⟩
  · simp [get, s2, hp]
  · simp [vs, tupVals, slotsOf_length]
  · intro n i m hn
    have hnl : n < ms.length := (List.getElem?_eq_some_iff.1 hn).1
    refine ⟨?_, ?_, ?_⟩
    · simp only [isSet, s2]; rw [upd_other (by simp)]; exact hmem n (by omega) (by omega)
    · intro hset
      simp only [isSet] at hset
      simp [get, hset, hget n i m hn]
    · intro hset
      simp only [isSet] at hset
      rw [hget n i m hn, hset]
      have := hall n i m hn
      cases hdf : i.dflt with
      | some v => simp
      | none => have := this (Or.inr hdf); simp [isSet, hset] at this

/-! ### C04 -/

/-- C04: a field name that is not declared makes an object with the default options fail at once, in every state; no
callback is called. -/
theorem C04_unknown_member {s : St} {p rest k ms key} (hs : s.stack = p :: rest)
    (hR : R.at p = some (.object k true ms)) (hun : ∀ x ∈ ms, x.1.name ≠ .str key) :
    ∃ s', dispatch E R (.mapKey key) s = .throw (.std ("Unexpected member " ++ key)) s' ∧ s'.log = s.log ∧
      s'.stack = s.stack := by
  have hl : ∀ n, lookup (.str key) n ms = none := by
    clear hR
    induction ms with
    | nil => intro n; rfl
    | cons x ms ih =>
      intro n
      obtain ⟨i, m⟩ := x
      have h1 := hun (i, m) (by simp)
      have : i.name.cppEq (.str key) = false := by
        cases hi : i.name <;> simp_all [Scalar.cppEq]
      simp only [lookup, this, Bool.false_eq_true, if_false]
      exact ih (fun x hx => hun x (by simp [hx])) (n + 1)
  rw [dispatch_cons hs hR]
  simp only [onF, onMember, hl 0, if_true]
  exact ⟨_, rfl, rfl, rfl⟩

/-! ### C35 -/

/-- The token starts a value that a parser of this shape never accepts. Standalone and embedded unions accept a
scalar of their type value (see C14, C15), an embedded union refuses an object by another message. -/
def Wrong : Shape → Token → Prop
  | .value ty, .scalar v => v.ty ≠ ty
  | .value _, .mapStart => True
  | .value _, .arrStart => True
  | .object _ _ _, .scalar _ => True
  | .object _ _ _, .arrStart => True
  | .map _ _, .scalar _ => True
  | .map _ _, .arrStart => True
  | .union ty _ _ _, .scalar v => v.ty ≠ ty
  | .union _ _ _ _, .arrStart => True
  | .array _ _, .scalar _ => True
  | .array _ _, .mapStart => True
  | _, _ => False

/-- C35: a value of a kind the current parser never accepts fails with the kind of its first token, and nothing
changes. (An array in the middle of its elements passes tokens on to its element parser.) -/
theorem C35_wrong_kind {s : St} {p rest sh t} (hs : s.stack = p :: rest) (hR : R.at p = some sh) (hw : Wrong sh t)
    (ha : ∀ st e, sh = .array st e → (s.heap p).started = false) :
    dispatch E R t s = .throw (.std ("Unexpected token " ++ called t)) s := by
  rw [called_eq]
  rw [dispatch_cons hs hR]
  cases sh with
  | value ty => cases t <;> simp [Wrong] at hw <;> simp [onF, hw, unexpected, throwStd]
  | object k u ms => cases t <;> simp [Wrong] at hw <;> rfl
  | map st e => cases t <;> simp [Wrong] at hw <;> rfl
  | union ty tm st ms => cases t <;> simp [Wrong] at hw <;> simp [onF, hw, unexpected, throwStd]
  | array st e =>
    have h0 := ha st e rfl
    cases t <;> simp [Wrong] at hw <;> simp [onF, bind_getC, h0] <;> rfl
  | ignore => cases t <;> simp [Wrong] at hw

/-! ### C14: selection in a union -/

/-- C14: a standalone union refuses any field name but its type member's, in every state. -/
theorem C14_wrong_type_member {s : St} {p rest ty tm st ms key} (hs : s.stack = p :: rest)
    (hR : R.at p = some (.union ty tm st ms)) (htm : tm ≠ "") (hk : key ≠ tm) :
    dispatch E R (.mapKey key) s = .throw (.std ("Unexpected member " ++ key)) s := by
  rw [dispatch_cons hs hR]
  simp [onF, htm, hk, throwStd]

/-- C14, C15: a type value that is not declared makes a union fail, naming the value. -/
theorem C14_unknown_type_value {s : St} {p rest ty tm st ms x} (hs : s.stack = p :: rest)
    (hR : R.at p = some (.union ty tm st ms)) (hx : x.ty = ty) (hun : ∀ m ∈ ms, m.1.name.cppEq x = false) :
    ∃ s', dispatch E R (.scalar x) s = .throw (.std ("Unexpected member " ++ showName E.fmtDbl x)) s' ∧
      s'.log = s.log ∧ isSet p s' = false := by
  have hl : ∀ n, lookup x n ms = none := by
    clear hR
    induction ms with
    | nil => intro n; rfl
    | cons m ms ih =>
      intro n
      obtain ⟨i, sh⟩ := m
      have h1 := hun (i, sh) (by simp)
      simp only at h1
      simp only [lookup, h1, Bool.false_eq_true, if_false]
      exact ih (fun x hx => hun x (by simp [hx])) (n + 1)
  rw [dispatch_cons hs hR]
  simp only [onF, if_pos hx, bind_modH, onMember, hl 0, if_true, setNotEmpty_def, bind_assoc]
  rw [bind_modC, bind_getC]
  rw [nameText_show, bind_throw]
  refine ⟨_, rfl, rfl, ?_⟩
  simp [isSet, (resetH_self (.union ty tm st ms) p s.heap).1]

/-- C14, C15: a declared type value makes exactly the alternative with this name the current parser and the only
one selected; the union and all its members are unset at this moment. -/
theorem C14_selects {s : St} {p rest ty tm st ms x n m} (hs : s.stack = p :: rest)
    (hR : R.at p = some (.union ty tm st ms)) (hx : x.ty = ty) (hd : (s.heap p).disp = true)
    (hl : lookup x 0 ms = some (n, m)) :
    ∃ s', dispatch E R (.scalar x) s = .ok () s' ∧ s'.stack = (.mem n :: p) :: s.stack ∧ (s'.heap p).curId = n ∧
      s'.log = s.log ∧ isSet p s' = false ∧ isEmpty p s' = false ∧
      (∀ (k : Nat), k < ms.length → isSet (.mem k :: p) s' = false) ∧ ∀ q, ¬ Below p q → s'.heap q = s.heap q := by
  rw [dispatch_cons hs hR]
  simp only [onF, if_pos hx, bind_modH, onMember, hl, setNotEmpty_def, bind_assoc]
  rw [bind_modC, bind_getC]
  have hd' : (resetH p (.union ty tm st ms) s.heap p).disp = true := by rw [(resetH_ctl _ _ _ _).1]; exact hd
  simp only [upd_same, hd', if_true]
  simp only [bind_assoc, bind_push]
  refine ⟨_, rfl, rfl, ?_, rfl, ?_, ?_, ?_, ?_⟩
  · simp
  · simp [isSet, (resetH_self (.union ty tm st ms) p s.heap).1]
  · simp [isEmpty]
  · intro k hk
    obtain ⟨⟨i, sh⟩, hi⟩ : ∃ a, ms[k]? = some a := ⟨ms[k], List.getElem?_eq_getElem hk⟩
    simp only [isSet]
    rw [upd_other (by simp), upd_other (by simp), resetH_union_member s.heap hi (Below.refl _)]
    exact (resetH_self sh _ _).1
  · intro q hq
    have hne : q ≠ p := by rintro rfl; exact hq (Below.refl _)
    simp only
    rw [upd_other hne, upd_other hne]
    exact resetH_frame _ _ _ _ hq

/-! ### The hypotheses are met: states inside a document -/

section Examples
open Demo

/-- `{"name":` has been read by `Demo.outer`: the `Value<std::string>` is current. -/
def sName : St := after noCb outer [.mapStart, .mapKey "name"] (St.init outer)
/-- The same with callbacks everywhere. -/
def sNameCb : St := after accepting outer [.mapStart, .mapKey "name"] (St.init outer)

theorem unobserved_root : Unobserved outer [[]] := .inr ⟨[], [], .plain, false, _, rfl, rfl⟩

/-- C01_value_refuses -/
example : dispatch noCb outer (.scalar (.int 1)) sName = .throw (.std "Unexpected token integer") sName :=
  C01_value_refuses (p := [.mem 0]) (rest := [[]]) (ty := .str) (by decide +kernel) rfl (by simp) (by intro v hv; cases hv; decide)

/-- C01_value_accepts, also with a callback. -/
example : ∃ s', dispatch accepting outer (.scalar (.str "x")) sNameCb = .ok () s' ∧ get [.mem 0] s' = .ok (.sc (.str "x")) s' ∧ s'.log.length = 1 := by
  obtain ⟨s', h1, h2, _, _, _, _, h3⟩ := C01_value_accepts (E := accepting) (R := outer) (s := sNameCb) (p := [.mem 0]) (rest := [[]]) (ty := .str)
    (v := .str "x") (by decide +kernel) rfl (by decide +kernel) rfl unobserved_root (by intro cb hcb; cases hcb; rfl)
  exact ⟨s', h1, h2, by rw [h3]; decide +kernel⟩

/-- C02_null, C02_null_member: `{"name": "x", "part": {"id": 1}, "part":` and then null; the object parser inside has been set before. -/
def sPartAgain : St := after noCb outer ([.mapStart, .mapKey "part"] ++ events (.obj [("id", .sc (.int 1))]) ++ [.mapKey "part"]) (St.init outer)

example : isSet [.mem 1] sPartAgain = true ∧ ∃ s', dispatch noCb outer .null sPartAgain = .ok () s' ∧ isSet [.mem 1] s' = false ∧ s'.stack = [[]] := by
  obtain ⟨s', h1, h2, _, h3, _⟩ := C02_null_member (E := noCb) (R := outer) (s := sPartAgain) (p := [.mem 1]) (rest := [[]]) (by decide +kernel) rfl
    (by decide +kernel) (by intro st e h; cases h) unobserved_root
  exact ⟨by decide +kernel, s', h1, h2, h3⟩

/-- C03_mandatory_missing: `{"limits": {}` and then the end, without the mandatory `name`. -/
def sNoName : St := after noCb outer ([.mapStart, .mapKey "limits"] ++ events (.obj [])) (St.init outer)

example : ∃ s', dispatch noCb outer .mapEnd sNoName = .throw (.std "Mandatory member name is not present") s' ∧ isSet [] s' = false := by
  obtain ⟨s', h1, h2, _⟩ := C03_mandatory_missing (E := noCb) (R := outer) (s := sNoName) (p := []) (rest := []) (n := 0) (nm := "name") (by decide +kernel) rfl
    (by decide) (by decide +kernel) rfl rfl rfl (by decide +kernel) (by
      intro n' i' m' hlt hn hopt
      match n', hn with
      | 1, hn => simp at hn; rw [← hn.1] at hopt; cases hopt
      | 2, hn => simp at hn; rw [← hn.1] at hopt; cases hopt)
  exact ⟨s', h1, h2⟩

/-- C03_complete: `{"name": "x"` and then the end, with callbacks. -/
def sNamed : St := after accepting outer [.mapStart, .mapKey "name", .scalar (.str "x")] (St.init outer)

example : ∃ s', dispatch accepting outer .mapEnd sNamed = .ok () s' ∧ isSet [] s' = true ∧ s'.stack = [] := by
  obtain ⟨s', h1, h2, h3, _⟩ := C03_complete (E := accepting) (R := outer) (s := sNamed) (p := []) (rest := []) (by decide +kernel) rfl
    (by decide) (by decide +kernel) (by decide +kernel) (.inl rfl) (by
      intro n i m hn hopt
      match n, hn with
      | 0, hn => decide +kernel
      | 1, hn => simp at hn; rw [← hn.1] at hopt; cases hopt
      | 2, hn => simp at hn; rw [← hn.1] at hopt; cases hopt) (accepting_passive.fin _)
  exact ⟨s', h1, h2, h3⟩

/-- C07_empty_object: `{"part": {` and then the end, although `id` is mandatory. -/
def sPart : St := after noCb outer [.mapStart, .mapKey "part", .mapStart] (St.init outer)

example : ∃ s', dispatch noCb outer .mapEnd sPart = .ok () s' ∧ isSet [.mem 1] s' = false ∧ s'.stack = [[]] := by
  obtain ⟨s', h1, h2, h3, _⟩ := C07_empty_object (E := noCb) (R := outer) (s := sPart) (p := [.mem 1]) (rest := [[]]) (by decide +kernel) rfl
    (.inl ⟨_, _, _, rfl⟩) (by decide +kernel) (by decide +kernel) unobserved_root
  exact ⟨s', h1, h2, h3⟩

/-- C13_unfillable: `{"part": {"tags": []` and then the end, without the mandatory `id`. -/
def sNoId : St := after noCb outer ([.mapStart, .mapKey "part", .mapStart, .mapKey "tags"] ++ events (.arr [])) (St.init outer)

example : ∃ s', dispatch noCb outer .mapEnd sNoId = .throw (.std "Can not set value: Mandatory member id is not present") s' ∧ isSet [.mem 1] s' = false := by
  obtain ⟨s', h1, h2, _⟩ := C13_unfillable (E := noCb) (R := outer) (s := sNoId) (p := [.mem 1]) (rest := [[]]) (n := 0) (nm := "id") (by decide +kernel) rfl
    (by decide +kernel) rfl rfl (.inl rfl) (by decide +kernel) (by
      intro n' i' m' hlt hn hopt
      match n', hn with
      | 1, hn => simp at hn; rw [← hn.1] at hopt; simp at hopt)
  exact ⟨s', h1, h2⟩

/-- C12_tuple: `{"part": {"id": 7` and then the end; `tags` has a default. -/
def sId : St := after noCb outer ([.mapStart, .mapKey "part", .mapStart, .mapKey "id"] ++ events (.sc (.int 7))) (St.init outer)

example : ∃ s' vs, dispatch noCb outer .mapEnd sId = .ok () s' ∧ get [.mem 1] s' = .ok (.tup vs) s' ∧ vs[1]? = some (.arr []) := by
  obtain ⟨s', vs, h1, h2, _, _, h3, _⟩ := C12_tuple (E := noCb) (R := outer) (s := sId) (p := [.mem 1]) (rest := [[]]) (by decide +kernel) rfl
    (by decide +kernel) (by decide +kernel) unobserved_root (by
      intro n i m hn hopt
      match n, hn with
      | 0, hn => decide +kernel
      | 1, hn => simp at hn; rw [← hn.1] at hopt; simp at hopt) (by intro a cb hcb; cases hcb)
  exact ⟨s', vs, h1, h2, (h3 1 _ _ rfl).2.2 (by decide +kernel)⟩

/-- C04_unknown_member: `{"part": {` and then a name `part` does not declare. -/
example : ∃ s', dispatch noCb outer (.mapKey "name") sPart = .throw (.std "Unexpected member name") s' := by
  obtain ⟨s', h, _⟩ := C04_unknown_member (E := noCb) (R := outer) (s := sPart) (p := [.mem 1]) (rest := [[]]) (key := "name") (by decide +kernel) rfl (by
    intro x hx; simp at hx; rcases hx with rfl | rfl <;> decide)
  exact ⟨s', h⟩

/-- C35_wrong_kind: `{"part":` and then an array. -/
example : dispatch noCb outer .arrStart sPartAgain = .throw (.std "Unexpected token array start") sPartAgain :=
  C35_wrong_kind (E := noCb) (R := outer) (p := [.mem 1]) (rest := [[]]) (by decide +kernel) rfl trivial (by intro st e h; cases h)

/-- C14_wrong_type_member, C14_unknown_type_value, C14_selects: a standalone union after its opening brace. -/
def sUnion : St := after noCb choice [.mapStart] (St.init choice)
def sUnionKey : St := after noCb choice [.mapStart, .mapKey "type"] (St.init choice)

example : dispatch noCb choice (.mapKey "x") sUnion = .throw (.std "Unexpected member x") sUnion :=
  C14_wrong_type_member (p := []) (rest := []) (by decide +kernel) rfl (by decide) (by decide)

example : ∃ s', dispatch noCb choice (.scalar (.str "square")) sUnionKey = .throw (.std "Unexpected member square") s' := by
  obtain ⟨s', h, _⟩ := C14_unknown_type_value (E := noCb) (R := choice) (s := sUnionKey) (p := []) (rest := []) (x := .str "square") (by decide +kernel) rfl rfl (by
    intro x hx; simp at hx; rcases hx with rfl | rfl <;> decide)
  exact ⟨s', h⟩

example : ∃ s', dispatch noCb choice (.scalar (.str "point")) sUnionKey = .ok () s' ∧ s'.stack = [[.mem 1], []] ∧ (s'.heap []).curId = 1 := by
  obtain ⟨s', h1, h2, h3, _⟩ := C14_selects (E := noCb) (R := choice) (s := sUnionKey) (p := []) (rest := []) (x := .str "point") (by decide +kernel) rfl rfl
    (by decide +kernel) rfl
  exact ⟨s', h1, h2, h3⟩

end Examples

end SJ
