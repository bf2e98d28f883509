/-
C42: every value of a storage parser's type can be read: written as JSON in the obvious way (`toJson`) and parsed, it is the same value again.
-/
import Verif.Proofs.Round
import Verif.Props.Session
import Verif.Props.Whole
import Verif.Props.Api

set_option linter.unusedVariables false

namespace SJ

variable {E : Env} {R : Shape} {Y : Yajl}

/-- C42. Let `v` be any value of the type that the parser `R` stores (its maps have increasing keys). Reading the JSON document `toJson R v`, with a new
parser or one that has read other documents, succeeds, and `get()` returns `v`. The parser tree consists of `Value`, `SArray`, `SMap`, `SAutoObject` and
`SUnion` (`writable`), and is not an embedded union. -/
theorem C42_roundtrip (hE : Passive E) (hw : R.wf = true) (hwr : writable R = true) (hemb : R.isEmbedded = false) {v : Val} (hv : hasType R v = true)
    (ho : v.ordered = true) {s : St} (h : Served R s) :
    ∃ s', run E R (events (toJson R v)) s = .ok () s' ∧ s'.stack = [] ∧ get [] s' = .ok v s' := by
  obtain ⟨h1, h2, _⟩ := (back E.fmtDbl R).restored hwr hw hemb hv ho
  have h3 := parse_denote hE (h.ready (wf_user hw)) hw h2
  rw [h1] at h3
  obtain ⟨s', h3, h4, h5, _⟩ := h3
  refine ⟨s', h3, h4, ?_⟩
  obtain ⟨h6, h7⟩ := h5.value (v := v) rfl
  rw [C18_get]
  simp only [isSet, h6, h7, if_true]

/-- C42, as the user sees it: for any text of this document, in any chunks. -/
theorem C42_document (hE : Passive E) (hw : R.wf = true) (hwr : writable R = true) (hemb : R.isEmbedded = false) {v : Val} (hv : hasType R v = true)
    (ho : v.ordered = true) {s : PSt Y} (h : ServedDocs Y R s) {cs : List Chunk} (hne : cs ≠ []) {bs : List UInt8} (hc : chunkBytes cs = some bs)
    (hd : Y.Document bs (events (toJson R v))) {m : Mem} (hm : ∀ c, cs.getLast? = some c → (m.read c.ptr c.len).isSome) :
    ∃ s', parseDocument Y E R cs m s = .ok () s' ∧ get [] s'.st = .ok v s'.st := by
  obtain ⟨hb, hs⟩ := h.facts
  obtain ⟨st, h1, h2, h3⟩ := C42_roundtrip hE hw hwr hemb hv ho hs
  have h4 := parseDocument_run (E := E) (R := R) hb hne hc hd hm
  rw [h1] at h4
  simp only [if_pos h2] at h4
  obtain ⟨s', h4, rfl⟩ := h4
  exact ⟨s', h4, h3⟩

/-- C42. A value that was read from any document (of those that `okVal` allows), written and read again, is the same value. -/
theorem C42_reread (hE : Passive E) (hw : R.wf = true) (hwr : writable R = true) (hemb : R.isEmbedded = false) (hdf : orderedDefaults R = true)
    {s s' : St} (h : Served R s) {j : Json} (hok : okVal R j = true) (hr : run E R (events j) s = .ok () s')
    {v : Val} (hg : get [] s' = .ok v s') :
    ∃ s2, run E R (events (toJson R v)) s'.restart = .ok () s2 ∧ s2.stack = [] ∧ get [] s2 = .ok v s2 := by
  have h1 := parse_denote hE (h.ready (wf_user hw)) hw hok
  cases hd : denote E.fmtDbl R j with
  | error e => rw [hd] at h1; obtain ⟨_, h1⟩ := h1; rw [hr] at h1; simp at h1
  | ok d =>
    rw [hd] at h1
    obtain ⟨s1, h1, h2, h3, h4⟩ := h1
    rw [hr] at h1; injection h1 with _ h1; subst h1
    have hst : R.isStorage = true := by
      cases R with
      | object k u ms => simp only [writable, Bool.and_eq_true, beq_iff_eq] at hwr; simp [Shape.isStorage, hwr.1.1.1]
      | _ => simp_all [writable, Shape.isStorage]
    have hfit := denote_fits j R d hw hd
    have hset : d.isSet = true := by
      rw [C18_get] at hg
      rw [← h3.set]
      cases hx : (s'.heap []).set with
      | true => rfl
      | false => simp [isSet, hx] at hg
    obtain ⟨w, hw'⟩ := fits_store hfit hst hset
    have hvw : w = v := by
      obtain ⟨h6, h7⟩ := h3.value hw'
      rw [C18_get] at hg
      simp only [isSet, h6, h7, if_true] at hg
      injection hg
    subst hvw
    have hb := (back E.fmtDbl R).restored hwr hw hemb (fits_value hfit hw') (denote_ordered j R d hdf hd w hw')
    have h5 := parse_denote hE h4 hw hb.2.1
    rw [hb.1] at h5
    obtain ⟨s2, h5, h6, h7, _⟩ := h5
    refine ⟨s2, h5, h6, ?_⟩
    obtain ⟨h8, h9⟩ := h7.value (v := w) rfl
    rw [C18_get]
    simp only [isSet, h8, h9, if_true]

section Examples
open Demo

/-- An `SAutoObject` with an array of numbers, a map of arrays, a standalone union and, as its last member, an embedded one. -/
def record : Shape := .object .auto true
  [({ name := .str "id" }, .value .int),
   ({ name := .str "tags", optional := true, dflt := some (.arr []) }, .array true (.value .str)),
   ({ name := .str "table", optional := true, dflt := some (.map [("x", .arr [])]) }, .map true (.array true (.value .int))),
   ({ name := .str "var" }, .union .int "t" true [({ name := .int 1 }, .object .auto true [({ name := .str "a" }, .value .bool)]), ({ name := .int 2 }, .map true (.value .int))]),
   ({ name := .str "kind" }, .union .str "" true [({ name := .str "point" }, .object .auto true [({ name := .str "x" }, .value .int), ({ name := .str "id" }, .value .int)])])]

def recordValue : Val := .tup [.sc (.int 7), .arr [.sc (.str "u")], .map [("k", .arr [.sc (.int 1)]), ("l", .arr [])], .alt 1 (.map [("m", .sc (.int 4))]),
  .alt 0 (.tup [.sc (.int 3), .sc (.int 9)])]

/-- C42_roundtrip: the document is `{"id": 7, "tags": ["u"], "table": {"k": [1], "l": []}, "var": {"t": 2, "m": 4}, "kind": "point", "x": 3, "id": 9}`. -/
example : record.wf = true ∧ writable record = true ∧ record.isEmbedded = false ∧ hasType record recordValue = true ∧ recordValue.ordered = true ∧
    orderedDefaults record = true ∧
    events (toJson record recordValue) = events (.obj [("id", .sc (.int 7)), ("tags", .arr [.sc (.str "u")]), ("table", .obj [("k", .arr [.sc (.int 1)]), ("l", .arr [])]),
      ("var", .obj [("t", .sc (.int 2)), ("m", .sc (.int 4))]), ("kind", .sc (.str "point")), ("x", .sc (.int 3)), ("id", .sc (.int 9))]) := by decide +kernel

example : ∃ s', run accepting record (events (toJson record recordValue)) (St.init record) = .ok () s' ∧ s'.stack = [] ∧ get [] s' = .ok recordValue s' :=
  C42_roundtrip accepting_passive (by decide +kernel) (by decide +kernel) (by decide +kernel) (by decide +kernel) (by decide +kernel) .init

/-- C42_reread: `{"table": {"l": [], "k": [], "l": [2]}, "kind": ..., }` is not the document that is written for its value. -/
def recordDoc : Json := .obj [("var", .obj [("t", .sc (.int 1)), ("a", .sc (.bool true))]), ("tags", .null), ("table", .obj [("l", .arr []), ("k", .arr [.null]), ("l", .arr [.sc (.int 2)])]),
  ("id", .sc (.int 1)), ("kind", .sc (.str "point")), ("id", .sc (.int 2)), ("x", .sc (.int 3))]
def recordRead : Val := .tup [.sc (.int 1), .arr [], .map [("k", .arr []), ("l", .arr [])], .alt 0 (.tup [.sc (.bool true)]), .alt 0 (.tup [.sc (.int 3), .sc (.int 2)])]

example : ∃ s', run noCb record (events recordDoc) (St.init record) = .ok () s' ∧ get [] s' = .ok recordRead s' ∧
    ∃ s2, run noCb record (events (toJson record recordRead)) s'.restart = .ok () s2 ∧ s2.stack = [] ∧ get [] s2 = .ok recordRead s2 := by
  have hr : run noCb record (events recordDoc) (St.init record) = .ok () (after noCb record (events recordDoc) (St.init record)) := after_ok (by decide +kernel)
  have hg : get [] (after noCb record (events recordDoc) (St.init record)) = .ok recordRead (after noCb record (events recordDoc) (St.init record)) := by
    have hv : ((after noCb record (events recordDoc) (St.init record)).heap []).val = recordRead := sameV_eq (by decide +kernel)
    rw [C18_get, if_pos (by decide +kernel), hv]
  exact ⟨_, hr, hg, C42_reread noCb_passive (by decide +kernel) (by decide +kernel) (by decide +kernel) (by decide +kernel) .init (j := recordDoc)
    (by decide +kernel) hr hg⟩

/-- C42_document -/
def numbers : Shape := .map true (.array true (.value .int))
def numbersValue : Val := .map [("k", .arr [.sc (.int 1), .sc (.int (-2))]), ("l", .arr [])]
def numbersText : String := "{\"k\": [1,-2], \"l\": []}"

example : ∃ s', parseDocument yajl noCb numbers [chunk numbersText] (buffer numbersText) (PSt.init yajl numbers) = .ok () s' ∧ get [] s'.st = .ok numbersValue s'.st :=
  C42_document noCb_passive (by decide +kernel) (by decide +kernel) (by decide +kernel) (by decide +kernel) (by decide +kernel) .init (by simp) (chunk_bytes numbersText)
    (document_of (by decide +kernel) (by decide +kernel) (by decide +kernel)) (chunk_last numbersText)

/-- Why an embedded union must be the last member: its alternative takes the fields after it. With the members in the other order
`{"kind": "point", "x": 3, "id": 9}` is refused, so no document in the order of the members gives the value. -/
def kindFirst : Shape := .object .auto true
  [({ name := .str "kind" }, .union .str "" true [({ name := .str "point" }, .object .auto true [({ name := .str "x" }, .value .int)])]), ({ name := .str "id" }, .value .int)]

example : writable kindFirst = false ∧ hasType kindFirst (.tup [.alt 0 (.tup [.sc (.int 3)]), .sc (.int 9)]) = true ∧
    failure noCb kindFirst (events (.obj [("kind", .sc (.str "point")), ("x", .sc (.int 3)), ("id", .sc (.int 9))])) (St.init kindFirst) = some (.std "Unexpected member id") := by
  decide +kernel

end Examples

end SJ
