/-
C08, in depth: the order of fields does not matter anywhere in a document.
-/
import Verif.Proofs.Order
import Verif.Props.Round

set_option linter.unusedVariables false

namespace SJ

variable {E : Env} {R : Shape} {Y : Yajl}

/-- C08. Let `j'` be the value `j` with the fields of the objects in it - at any depth, also those read by maps, by alternatives of unions, and those
in ignored values - in another order. (Fields of the same name keep their order; the type fields of unions, and the members that are embedded
unions, keep their place; the elements of maps are not embedded unions.) Then any parser, expecting a value anywhere in a document, either refuses
both or accepts both and then holds the same. -/
theorem C08_deep (hE : Passive E) {s : St} {p sh} (hx : Expecting R s p sh) (hw : sh.wf = true) (hm : sh.plainMaps = true) {j j' : Json}
    (hr : Reordered sh.typeNames j j') (hok : okVal sh j = true) (hok' : okVal sh j' = true) :
    (∃ e e', Fails E R s j e ∧ Fails E R s j' e') ∨
    ∃ s1 s2 d, Completes E R s p j s1 ∧ Completes E R s p j' s2 ∧ Holds s1.heap p d ∧ Holds s2.heap p d := by
  have hf : Fit sh.typeNames sh := ⟨hm, fun _ h => h⟩
  cases h1 : denote E.fmtDbl sh j with
  | error e =>
    cases h2 : denote E.fmtDbl sh j' with
    | error e' => exact Or.inl ⟨e, e', parse_at_error hE hx hw hok h1, parse_at_error hE hx hw hok' h2⟩
    | ok d => have := (hr.symm.same sh hf d hok' h2).2; rw [h1] at this; simp at this
  | ok d =>
    obtain ⟨s1, a1, a2, _⟩ := parse_at_ok hE hx hw hok h1
    obtain ⟨s2, b1, b2, _⟩ := parse_at_ok hE hx hw hok' (hr.same sh hf d hok h1).2
    exact Or.inr ⟨s1, s2, d, a1, b1, a2, b2⟩

/-- C08. If a document is accepted, every reordering of it is, with the same result: what `isSet()` and `get()` return is the same. Only the first
document has to be free of the constructs the library mistreats. -/
theorem C08_accepted (hE : Passive E) (hw : R.wf = true) (hm : R.plainMaps = true) {s s1 : St} (h : Served R s) {j j' : Json}
    (hr : Reordered R.typeNames j j') (hok : okVal R j = true) (hrun : run E R (events j) s = .ok () s1) :
    ∃ s2 d, run E R (events j') s = .ok () s2 ∧ s2.stack = [] ∧ Holds s1.heap [] d ∧ Holds s2.heap [] d ∧ isSet [] s2 = isSet [] s1 ∧
      (R.isStorage = true → ∀ v, get [] s1 = .ok v s1 → get [] s2 = .ok v s2) := by
  have hf : Fit R.typeNames R := ⟨hm, fun _ h => h⟩
  have h1 := parse_denote hE (h.ready (wf_user hw)) hw hok
  cases hd : denote E.fmtDbl R j with
  | error e => rw [hd] at h1; obtain ⟨_, h1⟩ := h1; rw [hrun] at h1; simp at h1
  | ok d =>
    rw [hd] at h1
    obtain ⟨s', h1, h2, h3, h4⟩ := h1
    rw [hrun] at h1; injection h1 with _ h1; subst h1
    obtain ⟨hok', hd'⟩ := hr.same R hf d hok hd
    have h5 := parse_denote hE (h.ready (wf_user hw)) hw hok'
    rw [hd'] at h5
    obtain ⟨s2, h5, h6, h7, _⟩ := h5
    refine ⟨s2, d, h5, h6, h3, h7, ?_, ?_⟩
    · unfold isSet; rw [h3.set, h7.set]
    · intro hst v hg
      have hset : d.isSet = true := by
        rw [← h3.set]
        rw [C18_get] at hg
        cases hs : (s1.heap []).set with
        | true => rfl
        | false => simp [isSet, hs] at hg
      have hfit := denote_fits j R d hw hd
      have hv : ∃ w, d.value? = some w := by
        cases d with
        | unset => simp [D.isSet] at hset
        | val w => exact ⟨w, rfl⟩
        | obj w ds =>
          cases R with
          | object k u ms => cases k <;> cases w <;> simp_all [Shape.fits, Shape.isStorage, D.value?]
          | _ => simp_all [Shape.fits]
        | alt n d => cases R <;> simp_all [Shape.fits, Shape.isStorage]
        | done => cases R <;> simp_all [Shape.fits, Shape.isStorage]
      obtain ⟨w, hv⟩ := hv
      obtain ⟨a1, a2⟩ := h3.value hv
      obtain ⟨b1, b2⟩ := h7.value hv
      rw [C18_get] at hg ⊢
      simp only [isSet, a1, a2, b1, b2, if_true] at hg ⊢
      injection hg with hg; rw [hg]

/-- C08, as the user sees it: any texts of the two documents, each in any chunks. -/
theorem C08_document (hE : Passive E) (hw : R.wf = true) (hm : R.plainMaps = true) {s s1 : PSt Y} (h : ServedDocs Y R s) {j j' : Json}
    (hr : Reordered R.typeNames j j') (hok : okVal R j = true)
    {cs cs' : List Chunk} (hne : cs ≠ []) (hne' : cs' ≠ []) {bs bs' : List UInt8} (hc : chunkBytes cs = some bs) (hc' : chunkBytes cs' = some bs')
    (hd : Y.Document bs (events j)) (hd' : Y.Document bs' (events j')) {m m' : Mem}
    (hm' : ∀ c, cs'.getLast? = some c → (m'.read c.ptr c.len).isSome) (hrun : parseDocument Y E R cs m s = .ok () s1) :
    ∃ s2 d, parseDocument Y E R cs' m' s = .ok () s2 ∧ Holds s1.st.heap [] d ∧ Holds s2.st.heap [] d ∧ isSet [] s2.st = isSet [] s1.st ∧
      (R.isStorage = true → ∀ v, get [] s1.st = .ok v s1.st → get [] s2.st = .ok v s2.st) := by
  obtain ⟨hb, hs⟩ := h.facts
  obtain ⟨hrun1, _⟩ := parseDocument_ok hb hne hc hd hrun
  obtain ⟨st, d, h1, h2, h3, h4, h5, h6⟩ := C08_accepted hE hw hm hs hr hok hrun1
  have h7 := parseDocument_run (E := E) (R := R) hb hne' hc' hd' hm'
  rw [h1] at h7
  simp only [if_pos h2] at h7
  obtain ⟨s', h7, rfl⟩ := h7
  exact ⟨s', d, h7, h3, h4, h5, h6⟩

/-- Every permutation of fields with different names, none of them fixed, is a reordering. -/
theorem Reordered.perm {fixed : List String} {fs fs' : List (String × Json)} (hp : fs.Perm fs') : ∀ (pre : List (String × Json)),
    (fs.map (·.1)).Nodup → (∀ k ∈ fs.map (·.1), k ∉ fixed) → Reordered fixed (.obj (pre ++ fs)) (.obj (pre ++ fs')) := by
  induction hp with
  | nil => intro pre _ _; exact .refl _
  | @cons x l l' hp ih =>
    intro pre hd hn
    have := ih (pre ++ [x]) (List.nodup_cons.1 hd).2 (fun k hk => hn k (by simp only [List.map_cons, List.mem_cons]; exact Or.inr hk))
    simpa using this
  | swap x y l =>
    intro pre hd hn
    exact .swap (fun h => (List.nodup_cons.1 hd).1 (by simp [h])) (hn _ (by simp)) (hn _ (by simp))
  | trans h1 h2 i1 i2 =>
    intro pre hd hn
    exact .trans (i1 pre hd hn) (i2 pre ((h1.map _).nodup_iff.1 hd) (fun k hk => hn k ((h1.map _).mem_iff.2 hk)))

/-! ### The hypotheses are met -/

section Examples
open Demo

/-- Fields of the object, of the map in it, of the alternatives of both unions, and in an array of objects, trade places. -/
def shuffled : Json := .obj [("id", .sc (.int 1)), ("table", .obj [("k", .arr [.null]), ("l", .arr []), ("l", .arr [.sc (.int 2)])]), ("tags", .null),
  ("var", .obj [("t", .sc (.int 1)), ("a", .sc (.bool true))]), ("kind", .sc (.str "point")), ("x", .sc (.int 3)), ("id", .sc (.int 2))]

theorem recordDoc_shuffled : Reordered record.typeNames recordDoc shuffled := by
  have e : record.typeNames = ["t", "kind"] := by decide +kernel
  rw [e]
  refine .trans (.field (pre := [("var", .obj [("t", .sc (.int 1)), ("a", .sc (.bool true))]), ("tags", .null)]) (.swap (pre := []) (by decide) (by decide) (by decide))) ?_
  refine .trans (.swap (pre := [("var", .obj [("t", .sc (.int 1)), ("a", .sc (.bool true))]), ("tags", .null),
    ("table", .obj [("k", .arr [.null]), ("l", .arr []), ("l", .arr [.sc (.int 2)])]), ("id", .sc (.int 1)), ("kind", .sc (.str "point"))])
    (by decide) (by decide) (by decide)) ?_
  refine .trans (.swap (pre := []) (by decide) (by decide) (by decide)) ?_
  refine .trans (.swap (pre := [("tags", .null)]) (by decide) (by decide) (by decide)) ?_
  refine .trans (.swap (pre := []) (by decide) (by decide) (by decide)) ?_
  refine .trans (.swap (pre := [("table", .obj [("k", .arr [.null]), ("l", .arr []), ("l", .arr [.sc (.int 2)])]), ("tags", .null)]) (by decide) (by decide) (by decide)) ?_
  refine .trans (.swap (pre := [("table", .obj [("k", .arr [.null]), ("l", .arr []), ("l", .arr [.sc (.int 2)])])]) (by decide) (by decide) (by decide)) ?_
  exact .swap (pre := []) (by decide) (by decide) (by decide)

/-- C08_accepted -/
example : ∃ s2, run noCb record (events shuffled) (St.init record) = .ok () s2 ∧ s2.stack = [] ∧ get [] s2 = .ok recordRead s2 := by
  have hr : run noCb record (events recordDoc) (St.init record) = .ok () (after noCb record (events recordDoc) (St.init record)) := after_ok (by decide +kernel)
  have hg : get [] (after noCb record (events recordDoc) (St.init record)) = .ok recordRead (after noCb record (events recordDoc) (St.init record)) := by
    have hv : ((after noCb record (events recordDoc) (St.init record)).heap []).val = recordRead := sameV_eq (by decide +kernel)
    rw [C18_get, if_pos (by decide +kernel), hv]
  obtain ⟨s2, d, h1, h2, _, _, _, h3⟩ := C08_accepted noCb_passive (R := record) (by decide +kernel) (by decide +kernel) .init (j := recordDoc)
    recordDoc_shuffled (by decide +kernel) hr
  exact ⟨s2, h1, h2, h3 (by decide +kernel) _ hg⟩

/-- C08_deep: the same reordering, with callbacks; both orders of a value with a wrong type in it are refused. -/
example : (∃ s1 s2 d, Completes accepting record (St.init record) [] recordDoc s1 ∧ Completes accepting record (St.init record) [] shuffled s2 ∧
    Holds s1.heap [] d ∧ Holds s2.heap [] d) ∨ (∃ e e', Fails accepting record (St.init record) recordDoc e ∧ Fails accepting record (St.init record) shuffled e') :=
  (C08_deep accepting_passive (R := record) (Ready.init record).expecting (by decide +kernel) (by decide +kernel) recordDoc_shuffled (by decide +kernel) (by decide +kernel)).symm

example : ∃ e e', Fails accepting outer (St.init outer) (.obj [("name", .sc (.int 1)), ("part", .arr [])]) e ∧
    Fails accepting outer (St.init outer) (.obj [("part", .arr []), ("name", .sc (.int 1))]) e' := by
  rcases C08_deep accepting_passive (R := outer) (Ready.init outer).expecting (by decide +kernel) (by decide +kernel)
    (j := .obj [("name", .sc (.int 1)), ("part", .arr [])]) (j' := .obj [("part", .arr []), ("name", .sc (.int 1))])
    (.swap (pre := []) (by decide +kernel) (by decide +kernel) (by decide +kernel)) (by decide +kernel) (by decide +kernel) with h | ⟨s1, s2, d, h1, h2, h3, h4⟩
  · exact h
  · have h5 := h1.root rfl
    have : fine accepting outer (events (.obj [("name", .sc (.int 1)), ("part", .arr [])])) (St.init outer) = false := by decide +kernel
    unfold fine at this
    rw [h5] at this
    simp at this

/-- C08_document: two texts of a map, in different chunks. -/
def numbersText' : String := "{\"l\": [], \"k\": [1,-2]}"

example {s1} (h : parseDocument yajl noCb numbers [chunk numbersText] (buffer numbersText) (PSt.init yajl numbers) = .ok () s1) :
    ∃ s2 d, parseDocument yajl noCb numbers [chunk numbersText'] (buffer numbersText') (PSt.init yajl numbers) = .ok () s2 ∧
      Holds s1.st.heap [] d ∧ Holds s2.st.heap [] d ∧ isSet [] s2.st = isSet [] s1.st ∧
      (numbers.isStorage = true → ∀ v, get [] s1.st = .ok v s1.st → get [] s2.st = .ok v s2.st) :=
  C08_document noCb_passive (by decide +kernel) (by decide +kernel) .init
    (j := .obj [("k", .arr [.sc (.int 1), .sc (.int (-2))]), ("l", .arr [])]) (j' := .obj [("l", .arr []), ("k", .arr [.sc (.int 1), .sc (.int (-2))])])
    (.swap (pre := []) (by decide +kernel) (by decide +kernel) (by decide +kernel)) (by decide +kernel) (by simp) (by simp) (chunk_bytes numbersText) (chunk_bytes numbersText')
    (document_of (by decide +kernel) (by decide +kernel) (by decide +kernel)) (document_of (by decide +kernel) (by decide +kernel) (by decide +kernel))
    (chunk_last numbersText') h

/-- Why the type field keeps its place: after another field it is refused. -/
example : fine noCb choice (events (.obj [("type", .sc (.str "circle")), ("r", .sc (.int 1))])) (St.init choice) = true ∧
    failure noCb choice (events (.obj [("r", .sc (.int 1)), ("type", .sc (.str "circle"))])) (St.init choice) = some (.std "Unexpected member r") := by decide +kernel

/-- Why fields of the same name keep their order: the last one counts. -/
example : fine noCb outer (events (.obj [("name", .null), ("name", .sc (.str "x"))])) (St.init outer) = true ∧
    fine noCb outer (events (.obj [("name", .sc (.str "x")), ("name", .null)])) (St.init outer) = false := by decide +kernel

end Examples

end SJ
