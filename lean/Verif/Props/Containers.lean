/-
Arrays and maps (C09, C10, C11), anywhere in a parser tree.
-/
import Verif.Proofs.Context
import Verif.Demo

set_option linter.unusedVariables false

namespace SJ

variable {E : Env} {R : Shape}

/-- The parser `e` accepts `j` and then its `get()` is `v`. -/
def Yields (fmt : Dbl → String) (e : Shape) (j : Json) (v : Val) : Prop := ∃ d, denote fmt e j = .ok d ∧ d.value? = some v

/-! ### C09 -/

/-- C09: an `SArray` that reads an array whose elements (nulls aside) yield the values `vs`, one by one and in this order, is set and its
`get()` is exactly the vector of these values. -/
theorem C09_stores (hE : Passive E) {s : St} {p e l vs} (hx : Expecting R s p (.array true e)) (hw : (Shape.array true e).wf = true)
    (hok : okVal (.array true e) (.arr l) = true) (hl : Each (Yields E.fmtDbl e) (l.filter fun j => !j.isNull) vs) :
    ∃ s1, Completes E R s p (.arr l) s1 ∧ isSet p s1 = true ∧ get p s1 = .ok (.arr vs) s1 := by
  have hden : denote E.fmtDbl (.array true e) (.arr l) = .ok (.val (.arr vs)) := by
    unfold denote
    simp only [denElems_of hl, Except.map, if_true]
  obtain ⟨s1, h1, h2, _⟩ := parse_at_ok hE hx hw hok hden
  exact ⟨s1, h1, h2.1, by simp [get, h2.1, h2.2]⟩

/-- C09: and only then does reading not fail: whenever an `SArray` reads an array to its end, `get()` is the vector of the values its element
parser yields for the elements (nulls aside), in document order. -/
theorem C09_only (hE : Passive E) {s : St} {p e l} (hx : Expecting R s p (.array true e)) (hw : (Shape.array true e).wf = true)
    (hok : okVal (.array true e) (.arr l) = true) :
    (∃ msg, Fails E R s (.arr l) msg) ∨
    ∃ s1 vs, Completes E R s p (.arr l) s1 ∧ get p s1 = .ok (.arr vs) s1 ∧ Each (Yields E.fmtDbl e) (l.filter fun j => !j.isNull) vs := by
  cases hd : denElems E.fmtDbl true e l with
  | error msg =>
    refine Or.inl ⟨msg, parse_at_error hE hx hw hok ?_⟩
    unfold denote; simp only [hd, Except.map]
  | ok vs =>
    obtain ⟨s1, h1, h2, h3⟩ := C09_stores hE hx hw hok (denElems_stored hd)
    exact Or.inr ⟨s1, vs, h1, h3, denElems_stored hd⟩

/-- C09: in particular the length: as many values as elements that are not null. -/
theorem Each.length {α β} {P : α → β → Prop} : ∀ {l : List α} {l' : List β}, Each P l l' → l.length = l'.length
  | _, _, .nil => rfl
  | _, _, .cons _ h => by simp [h.length]

/-- What `denElems` does with a value of an element. -/
def elemK (fmt : Dbl → String) (st : Bool) (e : Shape) (post : List Json) (d : D) : Except String (List Val) :=
  if st then
    match d.value? with
    | some v => (denElems fmt st e post).map (v :: ·)
    | none => .error notSet
  else denElems fmt st e post

theorem denElems_cons {fmt st e j post} (hj : j.isNull = false) :
    denElems fmt st e (j :: post) = (denote fmt e j).bind (elemK fmt st e post) := by
  have key : ∀ r : Except String D, (r >>= fun d => if st then
        match d.value? with
        | some v => do return v :: (← denElems fmt st e post)
        | none => .error notSet
      else denElems fmt st e post) = r.bind (elemK fmt st e post) := by
    intro r
    cases r with
    | error e => rfl
    | ok d =>
      show (if st then _ else _) = elemK _ _ _ _ _
      unfold elemK
      cases st with
      | false => rfl
      | true =>
        simp only [if_true]
        cases d.value? with
        | none => rfl
        | some v => show (denElems fmt true e post >>= _) = _; cases denElems fmt true e post <;> rfl
  cases j with
  | null => simp [Json.isNull] at hj
  | _ => unfold denElems; exact key _

theorem denElems_error {fmt st e j msg post} (hj : j.isNull = false)
    (hbad : denote fmt e j = .error msg ∨ (st = true ∧ msg = notSet ∧ ∃ d, denote fmt e j = .ok d ∧ d.value? = none)) :
    ∀ (pre : List Json), (∀ x ∈ pre, x.isNull = true ∨ ∃ d, denote fmt e x = .ok d ∧ (st = true → d.value?.isSome = true)) →
    denElems fmt st e (pre ++ j :: post) = .error msg
  | [], _ => by
    rw [List.nil_append, denElems_cons hj]
    rcases hbad with h | ⟨h1, h2, d, h3, h4⟩
    · rw [h]; rfl
    · rw [h3, h2]; subst h1; simp only [Except.bind, elemK, h4, if_true]
  | x :: pre, hpre => by
    rw [List.cons_append]
    have ih := denElems_error (post := post) hj hbad pre fun y hy => hpre y (by simp [hy])
    cases hx : x.isNull with
    | true =>
      cases x <;> simp [Json.isNull] at hx
      unfold denElems; exact ih
    | false =>
      rcases hpre x (by simp) with h | ⟨d, h1, h2⟩
      · rw [h] at hx; simp at hx
      rw [denElems_cons hx, h1]
      simp only [Except.bind, elemK, ih]
      cases st with
      | false => rfl
      | true =>
        obtain ⟨v, hv⟩ := Option.isSome_iff_exists.1 (h2 rfl)
        simp only [if_true, hv]; rfl

/-- C09: an array fails at the first element that its element parser refuses, with the element's error, whatever follows. -/
theorem C09_element_refused (hE : Passive E) {s : St} {p st e pre j msg post} (hx : Expecting R s p (.array st e))
    (hw : (Shape.array st e).wf = true) (hok : okVal (.array st e) (.arr (pre ++ j :: post)) = true) (hj : j.isNull = false)
    (hbad : denote E.fmtDbl e j = .error msg)
    (hpre : ∀ x ∈ pre, x.isNull = true ∨ ∃ d, denote E.fmtDbl e x = .ok d ∧ (st = true → d.value?.isSome = true)) :
    Fails E R s (.arr (pre ++ j :: post)) msg := by
  refine parse_at_error hE hx hw hok ?_
  unfold denote
  simp only [denElems_error hj (Or.inl hbad) pre hpre, Except.map]

/-- An `SArray` refuses an element that leaves its element parser unset (`{}` for an object). -/
theorem C09_element_unset (hE : Passive E) {s : St} {p e pre j post} (hx : Expecting R s p (.array true e))
    (hw : (Shape.array true e).wf = true) (hok : okVal (.array true e) (.arr (pre ++ j :: post)) = true) (hj : j.isNull = false)
    (hbad : denote E.fmtDbl e j = .ok .unset)
    (hpre : ∀ x ∈ pre, x.isNull = true ∨ ∃ v, Yields E.fmtDbl e x v) :
    Fails E R s (.arr (pre ++ j :: post)) "Can't get value, parser is unset" := by
  refine parse_at_error hE hx hw hok ?_
  unfold denote
  simp only [denElems_error (st := true) (msg := notSet) hj (Or.inr ⟨rfl, rfl, _, hbad, rfl⟩) pre
    (fun x hx => (hpre x hx).imp id fun ⟨v, d, h1, h2⟩ => ⟨d, h1, fun _ => by simp [h2]⟩), Except.map]
  rfl

/-! ### C10 -/

theorem embedded_of_ne {e : Shape} (h : ∀ ty st ms, e ≠ .union ty "" st ms) (v : Json) : embedded e v = none := by
  cases e with
  | union ty tm st ms =>
    cases v with
    | sc x =>
      show (if tm = "" ∧ x.ty = ty then some (ty, st, ms, x) else none) = none
      rw [if_neg]
      rintro ⟨rfl, _⟩; exact h _ _ _ rfl
    | _ => rfl
  | _ => cases v <;> rfl

theorem denFields_smap_ok {fmt e} (hne : ∀ v, embedded e v = none) : ∀ (fs : List (String × Json)) (ents ne),
    (∀ kv ∈ fs, ∃ v, Yields fmt e kv.2 v) → ∃ d, denFields fmt (.map true e) [] ents ne fs = .ok d
  | [], ents, ne, _ => by rw [denFields]; exact ⟨_, rfl⟩
  | (k, v) :: fs, ents, ne, h => by
    rw [denFields]
    simp only [hne v]
    obtain ⟨w, d, h1, h2⟩ := h (k, v) (by simp)
    simp only at h1
    rw [h1]
    simp only [bind, Except.bind, storeEntry, if_true, h2]
    exact denFields_smap_ok hne fs _ true fun kv hkv => h kv (by simp [hkv])

/-- C10: an `SMap` that reads an object all of whose values its element parser accepts and stores is set; the keys of `get()` are strictly
increasing, and every key is mapped to the value of its FIRST field; keys that do not occur are absent. -/
theorem C10_first_wins (hE : Passive E) {s : St} {p e fs} (hx : Expecting R s p (.map true e)) (hw : (Shape.map true e).wf = true)
    (hne : ∀ ty st ms, e ≠ .union ty "" st ms)
    (hok : okVal (.map true e) (.obj fs) = true) (hall : ∀ kv ∈ fs, ∃ v, Yields E.fmtDbl e kv.2 v) :
    ∃ s1 out, Completes E R s p (.obj fs) s1 ∧ isSet p s1 = true ∧ get p s1 = .ok (.map out) s1 ∧ SortedKeys out ∧
      ∀ k, (∀ j v, firstField k fs = some j → Yields E.fmtDbl e j v → entry k out = some v) ∧
        (firstField k fs = none → entry k out = none) := by
  obtain ⟨d, hd⟩ := denFields_smap_ok (embedded_of_ne hne) fs [] false hall
  obtain ⟨_, out, rfl, hs, hent⟩ := denFields_smap (embedded_of_ne hne) fs [] false d (by simp [SortedKeys]) hd
  have hden : denote E.fmtDbl (.map true e) (.obj fs) = .ok (.val (.map out)) := by
    unfold denote; simpa [noSlots] using hd
  obtain ⟨s1, h1, h2, _⟩ := parse_at_ok hE hx hw hok hden
  refine ⟨s1, out, h1, h2.1, by simp [get, h2.1, h2.2], hs, fun k => ⟨fun j v hj hy => ?_, fun hn => ?_⟩⟩
  · obtain ⟨d, h3, h4⟩ := hy
    rw [hent k, hj]; simp [entry, h3, h4, Except.toOption]
  · rw [hent k, hn]; simp [entry]

/-- C10: and only then does reading not fail. -/
theorem C10_only (hE : Passive E) {s : St} {p e fs} (hx : Expecting R s p (.map true e)) (hw : (Shape.map true e).wf = true)
    (hne : ∀ ty st ms, e ≠ .union ty "" st ms) (hok : okVal (.map true e) (.obj fs) = true) :
    (∃ msg, Fails E R s (.obj fs) msg) ∨ ∀ kv ∈ fs, ∃ v, Yields E.fmtDbl e kv.2 v := by
  cases hd : denFields E.fmtDbl (.map true e) [] [] false fs with
  | error msg =>
    refine Or.inl ⟨msg, parse_at_error hE hx hw hok ?_⟩
    unfold denote; simpa [noSlots] using hd
  | ok d =>
    obtain ⟨h, _⟩ := denFields_smap (embedded_of_ne hne) fs [] false d (by simp [SortedKeys]) hd
    exact Or.inr fun kv hkv => by
      obtain ⟨dv, v, h1, h2⟩ := h kv hkv
      exact ⟨v, dv, h1, h2⟩

/-! ### C11 -/

/-- C11: an `SMap` fails at the first value that leaves its element parser unset (null; `{}` for an object or a union), whatever follows. -/
theorem C11_smap_refuses_unset (hE : Passive E) {s : St} {p e pre k j post} (hx : Expecting R s p (.map true e))
    (hw : (Shape.map true e).wf = true) (hne : ∀ ty st ms, e ≠ .union ty "" st ms)
    (hok : okVal (.map true e) (.obj (pre ++ (k, j) :: post)) = true)
    (hj : denote E.fmtDbl e j = .ok .unset) (hpre : ∀ kv ∈ pre, ∃ v, Yields E.fmtDbl e kv.2 v) :
    Fails E R s (.obj (pre ++ (k, j) :: post)) "Can't get value, parser is unset" := by
  refine parse_at_error hE hx hw hok ?_
  unfold denote
  simp only [noSlots]
  rw [denFields_map_error (msg := notSet) (embedded_of_ne hne) (Or.inr ⟨rfl, rfl, _, hj, rfl⟩) pre [] false]
  · rfl
  · intro kv hkv
    obtain ⟨v, d, h1, h2⟩ := hpre kv hkv
    exact ⟨d, h1, fun _ => by simp [h2]⟩

/-- C11: null in particular. -/
theorem C11_smap_refuses_null (hE : Passive E) {s : St} {p e pre k post} (hx : Expecting R s p (.map true e))
    (hw : (Shape.map true e).wf = true) (hne : ∀ ty st ms, e ≠ .union ty "" st ms)
    (hok : okVal (.map true e) (.obj (pre ++ (k, .null) :: post)) = true)
    (hpre : ∀ kv ∈ pre, ∃ v, Yields E.fmtDbl e kv.2 v) :
    Fails E R s (.obj (pre ++ (k, .null) :: post)) "Can't get value, parser is unset" :=
  C11_smap_refuses_unset hE hx hw hne hok (by unfold denote; rfl) hpre

/-- The calls made for the fields of a `Map` with element parser `e` at `p`: for every field those made by the element parser, then the
element callback with the key and what the element parser holds. -/
def mapCalls (fmt : Dbl → String) (e : Shape) (p : Path) (fs : List (String × Json)) : List Ev :=
  fs.flatMap fun kv => (denoteT fmt e (.elem :: p) kv.2).calls ++
    match denote fmt e kv.2 with
    | .ok d => [.element p kv.1 d]
    | .error _ => []

theorem denFieldsT_map {fmt e p} (hne : ∀ v, embedded e v = none) : ∀ (fs : List (String × Json)) (ents ne),
    (∀ kv ∈ fs, ∃ d, denote fmt e kv.2 = .ok d) →
    (denFieldsT fmt (.map false e) p [] ents ne fs).calls = mapCalls fmt e p fs ++ [.finish p .done]
  | [], ents, ne, _ => by rw [denFieldsT]; simp [W.done, finishMap, D.isSet, mapCalls]
  | (k, v) :: fs, ents, ne, h => by
    rw [denFieldsT]
    simp only [hne v]
    obtain ⟨d, h1⟩ := h (k, v) (by simp)
    simp only at h1
    have h2 : (denoteT fmt e (.elem :: p) v).result = .ok d := by rw [denoteT_result]; exact h1
    have ih := fun ents => denFieldsT_map (p := p) hne fs ents true fun kv hkv => h kv (by simp [hkv])
    simp only [W.bind, h2, W.elem, W.lift, storeEntry, Bool.false_eq_true, if_false, ih]
    simp [mapCalls, h1]

/-- C11: a `Map` (which stores nothing) accepts every value its element parser accepts, null included, and for each field its element callback
is called, in document order, with the key and the element parser, which shows what it holds: nothing (unset) for a null. -/
theorem C11_map_accepts (hE : Passive E) {s : St} {p e fs} (hx : Expecting R s p (.map false e)) (hw : (Shape.map false e).wf = true)
    (hne : ∀ ty st ms, e ≠ .union ty "" st ms) (hok : okVal (.map false e) (.obj fs) = true)
    (hall : ∀ kv ∈ fs, ∃ d, denote E.fmtDbl e kv.2 = .ok d) :
    ∃ s1, Completes E R s p (.obj fs) s1 ∧ isSet p s1 = true ∧
      Logged E (mapCalls E.fmtDbl e p fs ++ [.finish p .done]) s.log s1.log := by
  have hden : denote E.fmtDbl (.map false e) (.obj fs) = .ok .done := by
    unfold denote; simp only [noSlots]; exact denFields_map_ok (embedded_of_ne hne) fs [] false hall
  obtain ⟨s1, h1, h2, h3⟩ := parse_at_ok hE hx hw hok hden
  refine ⟨s1, h1, h2, ?_⟩
  have h4 : (denoteT E.fmtDbl (.map false e) p (.obj fs)).calls = mapCalls E.fmtDbl e p fs ++ [.finish p .done] := by
    unfold denoteT; simp only [noSlots]; exact denFieldsT_map (embedded_of_ne hne) fs [] false hall
  rw [h4] at h3
  exact h3

/-- C11: a null value of a `Map` makes exactly one call: the element callback, with the element parser unset. -/
theorem C11_map_null_call (fmt : Dbl → String) (e : Shape) (p : Path) (k : String) :
    mapCalls fmt e p [(k, .null)] = [.element p k .unset] := by
  simp [mapCalls, denoteT, denote, W.lift]

/-! ### The hypotheses are met -/

section Examples
open Demo

/-- `[{"id": int, "tags": ...}, ...]` as an `SArray`, `{*: [string]}` as an `SMap`, `{*: {...}}` as a `Map`. -/
def pairs : Shape := .array true inner
def named : Shape := .map true (.array true (.value .str))
def parts : Shape := .map false inner

/-- C09_stores: nulls of an array of scalars contribute nothing. -/
example : ∃ s1, Completes accepting (.array true (.value .int)) (St.init (.array true (.value .int))) [] (.arr [.sc (.int 1), .null, .sc (.int 1), .sc (.int 5)]) s1 ∧
    get [] s1 = .ok (.arr [.sc (.int 1), .sc (.int 1), .sc (.int 5)]) s1 := by
  obtain ⟨s1, h1, _, h2⟩ := C09_stores (E := accepting) (R := .array true (.value .int)) (l := [.sc (.int 1), .null, .sc (.int 1), .sc (.int 5)])
    (vs := [.sc (.int 1), .sc (.int 1), .sc (.int 5)]) accepting_passive (Ready.init _).expecting (by decide +kernel) (by decide +kernel)
    (.cons ⟨_, rfl, rfl⟩ (.cons ⟨_, rfl, rfl⟩ (.cons ⟨_, rfl, rfl⟩ .nil)))
  exact ⟨s1, h1, h2⟩

/-- C09_stores, C09_only: an array of objects. -/
def pairDoc : List Json := [.obj [("id", .sc (.int 1))], .obj [("id", .sc (.int 2)), ("tags", .arr [.sc (.str "a")])]]
example : ∃ s1, Completes accepting pairs (St.init pairs) [] (.arr pairDoc) s1 ∧
    get [] s1 = .ok (.arr [.tup [.sc (.int 1), .arr []], .tup [.sc (.int 2), .arr [.sc (.str "a")]]]) s1 := by
  obtain ⟨s1, h1, _, h2⟩ := C09_stores (E := accepting) (R := pairs) (l := pairDoc)
    (vs := [.tup [.sc (.int 1), .arr []], .tup [.sc (.int 2), .arr [.sc (.str "a")]]]) accepting_passive (Ready.init _).expecting (by decide +kernel) (by decide +kernel)
    (.cons ⟨.val (.tup [.sc (.int 1), .arr []]), sameR_eq (by decide +kernel), rfl⟩
      (.cons ⟨.val (.tup [.sc (.int 2), .arr [.sc (.str "a")]]), sameR_eq (by decide +kernel), rfl⟩ .nil))
  exact ⟨s1, h1, h2⟩
example : (∃ msg, Fails accepting pairs (St.init pairs) (.arr pairDoc) msg) ∨
    ∃ s1 vs, Completes accepting pairs (St.init pairs) [] (.arr pairDoc) s1 ∧ get [] s1 = .ok (.arr vs) s1 ∧
      Each (Yields accepting.fmtDbl inner) (pairDoc.filter fun j => !j.isNull) vs :=
  C09_only accepting_passive (Ready.init pairs).expecting (by decide +kernel) (by decide +kernel)

/-- C09_element_refused, C09_element_unset -/
example : Fails accepting pairs (St.init pairs) (.arr (pairDoc ++ .obj [("id", .sc (.str "x"))] :: [])) "Unexpected token string" :=
  C09_element_refused accepting_passive (Ready.init pairs).expecting (by decide +kernel) (by decide +kernel) rfl (sameR_eq (by decide +kernel)) (by
    intro x hx
    simp [pairDoc] at hx
    rcases hx with rfl | rfl
    · exact .inr ⟨.val (.tup [.sc (.int 1), .arr []]), sameR_eq (by decide +kernel), fun _ => rfl⟩
    · exact .inr ⟨.val (.tup [.sc (.int 2), .arr [.sc (.str "a")]]), sameR_eq (by decide +kernel), fun _ => rfl⟩)
example : Fails accepting pairs (St.init pairs) (.arr ([.obj [("id", .sc (.int 1))]] ++ .obj [] :: pairDoc)) "Can't get value, parser is unset" :=
  C09_element_unset accepting_passive (Ready.init pairs).expecting (by decide +kernel) (by decide +kernel) rfl (sameR_eq (by decide +kernel)) (by
    intro x hx
    simp at hx
    subst hx
    exact .inr ⟨.tup [.sc (.int 1), .arr []], .val (.tup [.sc (.int 1), .arr []]), sameR_eq (by decide +kernel), rfl⟩)

/-- C10_first_wins: `{"b": ["x"], "a": [], "b": ["y", "z"]}`. -/
def namedDoc : List (String × Json) := [("b", .arr [.sc (.str "x")]), ("a", .arr []), ("b", .arr [.sc (.str "y"), .sc (.str "z")])]
example : ∃ s1 out, Completes accepting named (St.init named) [] (.obj namedDoc) s1 ∧ get [] s1 = .ok (.map out) s1 ∧ SortedKeys out ∧
    entry "b" out = some (.arr [.sc (.str "x")]) ∧ entry "a" out = some (.arr []) ∧ entry "c" out = none := by
  have y : ∀ kv ∈ namedDoc, ∃ v, Yields accepting.fmtDbl (.array true (.value .str)) kv.2 v := by
    intro kv hkv
    simp [namedDoc] at hkv
    rcases hkv with rfl | rfl | rfl
    · exact ⟨.arr [.sc (.str "x")], .val (.arr [.sc (.str "x")]), sameR_eq (by decide +kernel), rfl⟩
    · exact ⟨.arr [], .val (.arr []), sameR_eq (by decide +kernel), rfl⟩
    · exact ⟨.arr [.sc (.str "y"), .sc (.str "z")], .val (.arr [.sc (.str "y"), .sc (.str "z")]), sameR_eq (by decide +kernel), rfl⟩
  obtain ⟨s1, out, h1, _, h2, h3, h4⟩ := C10_first_wins (E := accepting) (R := named) (fs := namedDoc) accepting_passive (Ready.init _).expecting (by decide +kernel)
    (by intro ty st ms h; cases h) (by decide +kernel) y
  refine ⟨s1, out, h1, h2, h3, ?_, ?_, ?_⟩
  · exact (h4 "b").1 _ _ rfl ⟨.val (.arr [.sc (.str "x")]), sameR_eq (by decide +kernel), rfl⟩
  · exact (h4 "a").1 _ _ rfl ⟨.val (.arr []), sameR_eq (by decide +kernel), rfl⟩
  · exact (h4 "c").2 rfl

/-- C10_only, C11_smap_refuses_unset, C11_smap_refuses_null -/
example : (∃ msg, Fails accepting named (St.init named) (.obj namedDoc) msg) ∨ ∀ kv ∈ namedDoc, ∃ v, Yields accepting.fmtDbl (.array true (.value .str)) kv.2 v :=
  C10_only accepting_passive (Ready.init named).expecting (by decide +kernel) (by intro ty st ms h; cases h) (by decide +kernel)
example : Fails accepting named (St.init named) (.obj ([("a", .arr [])] ++ ("x", .null) :: [])) "Can't get value, parser is unset" :=
  C11_smap_refuses_null accepting_passive (Ready.init named).expecting (by decide +kernel) (by intro ty st ms h; cases h) (by decide +kernel) (by
    intro kv hkv; simp at hkv; subst hkv; exact ⟨.arr [], .val (.arr []), sameR_eq (by decide +kernel), rfl⟩)
example : Fails accepting (.map true inner) (St.init (.map true inner)) (.obj ([("a", .obj [("id", .sc (.int 1))])] ++ ("x", .obj []) :: [])) "Can't get value, parser is unset" :=
  C11_smap_refuses_unset accepting_passive (Ready.init (.map true inner)).expecting (by decide +kernel) (by intro ty st ms h; cases h) (by decide +kernel)
    (sameR_eq (by decide +kernel)) (by
      intro kv hkv; simp at hkv; subst hkv; exact ⟨.tup [.sc (.int 1), .arr []], .val (.tup [.sc (.int 1), .arr []]), sameR_eq (by decide +kernel), rfl⟩)

/-- C11_map_accepts: null and `{}` as values of a `Map`. -/
example : ∃ s1, Completes accepting parts (St.init parts) [] (.obj [("a", .null), ("b", .obj []), ("c", .obj [("id", .sc (.int 1))])]) s1 ∧ isSet [] s1 = true := by
  obtain ⟨s1, h1, h2, _⟩ := C11_map_accepts (E := accepting) (R := parts) (fs := [("a", .null), ("b", .obj []), ("c", .obj [("id", .sc (.int 1))])]) accepting_passive
    (Ready.init _).expecting (by decide +kernel) (by intro ty st ms h; cases h) (by decide +kernel) (by
      intro kv hkv
      simp at hkv
      rcases hkv with rfl | rfl | rfl
      · exact ⟨.unset, rfl⟩
      · exact ⟨.unset, sameR_eq (by decide +kernel)⟩
      · exact ⟨.val (.tup [.sc (.int 1), .arr []]), sameR_eq (by decide +kernel)⟩)
  exact ⟨s1, h1, h2⟩

end Examples

end SJ
