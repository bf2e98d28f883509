/-
C53: texts. What the other properties say of documents whose tokens YAJL reports, said of the bytes, by the grammar of JSON.
-/
import Verif.Proofs.TextFacts
import Verif.Props.Conform
import Verif.Props.Round

namespace SJ

variable {Y : Yajl} {E : Env} {R : Shape} {dbl : List UInt8 → Option Dbl}

/-- C53. If the underlying parser accepts JSON only, then so does every parser tree: bytes (in any chunks) for which `parse()` and `finish()` return are a JSON
text, and its tree is unique. -/
theorem C53_only_json (hY : Y.OnlyJson dbl) {s s' : PSt Y} (h : Between Y R s) {cs : List Chunk} (hne : cs ≠ []) {bs : List UInt8} (hc : chunkBytes cs = some bs)
    {m : Mem} (hm : ∀ c, cs.getLast? = some c → (m.read c.ptr c.len).isSome) (hp : parseDocument Y E R cs m s = .ok () s') :
    ∃ j, JsonText dbl j bs ∧ ∀ j', JsonText dbl j' bs → j' = j := by
  obtain ⟨bs', ts, hc', hd, _⟩ := (C25_document h hne hm _).1 ⟨s', hp, rfl⟩
  rw [hc] at hc'; cases hc'
  obtain ⟨j, hj, _⟩ := hY _ _ hd
  exact ⟨j, hj, fun j' hj' => JsonText_unique hj' hj⟩

/-- C53. Bytes that are no JSON text are refused with `ParsingError`, by any parser tree (without an array of unions), whatever the callbacks do. -/
theorem C53_not_json (hY : Y.OnlyJson dbl) (hu : ¬ HasUnionArray R) {s : PSt Y} (h : Between Y R s) {cs : List Chunk} (hne : cs ≠ []) {bs : List UInt8}
    (hc : chunkBytes cs = some bs) {m : Mem} (hm : ∀ c, cs.getLast? = some c → (m.read c.ptr c.len).isSome) (hj : ∀ j, ¬ JsonText dbl j bs) :
    ∃ sj y s', parseDocument Y E R cs m s = .throw (.parsing sj y) s' := by
  rcases parseDocument_total (E := E) hu hne h.facts.1 hc hm with ⟨s', hp⟩ | hp
  · obtain ⟨j, h1, _⟩ := C53_only_json hY h hne hc hm hp
    exact absurd h1 (hj j)
  · exact hp

/-- C53. If the underlying parser reads JSON texts, then a text of the tree `j` gives what the parser tree makes of `j` (outside the known defects). -/
theorem C53_value (hY : Y.ReadsJson dbl) (hE : Passive E) (hw : R.wf = true) {s : PSt Y} (h : ServedDocs Y R s) {cs : List Chunk} (hne : cs ≠ []) {bs : List UInt8}
    {j : Json} (hc : chunkBytes cs = some bs) (hj : JsonText dbl j bs) (hok : okVal R j = true) {m : Mem}
    (hm : ∀ c, cs.getLast? = some c → (m.read c.ptr c.len).isSome) :
    match denote E.fmtDbl R j with
    | .ok d => ∃ s', parseDocument Y E R cs m s = .ok () s' ∧ Holds s'.st.heap [] d
    | .error e => ∃ y s', parseDocument Y E R cs m s = .throw (.parsing (cText e) y) s' := by
  obtain ⟨hb, hs⟩ := h.facts
  have h1 := parseDocument_run (E := E) (R := R) hb hne hc (hY j bs hj) hm
  have h2 := parse_denote hE (hs.ready (wf_user hw)) hw hok
  cases hd : denote E.fmtDbl R j with
  | ok d =>
    rw [hd] at h2
    obtain ⟨t, h2, h3, h4, _⟩ := h2
    rw [h2] at h1
    simp only [if_pos h3] at h1
    obtain ⟨s', h1, rfl⟩ := h1
    exact ⟨s', h1, h4⟩
  | error e =>
    rw [hd] at h2
    obtain ⟨t, h2⟩ := h2
    rw [h2] at h1
    obtain ⟨y, s', h1, _⟩ := h1
    exact ⟨y, s', h1⟩

/-- C53. Whatever the bytes: if they are accepted by a `watertight` tree, they are a JSON text of a conforming tree, and the parsers hold its value. -/
theorem C53_accepted (hY : Y.OnlyJson dbl) (hE : Passive E) (ht : R.watertight = true) (hw : R.wf = true) (hd : AllDistinct R) {s s' : PSt Y}
    (h : AcceptedDocs Y R s) {cs : List Chunk} (hne : cs ≠ []) {bs : List UInt8} (hc : chunkBytes cs = some bs)
    {m : Mem} (hm : ∀ c, cs.getLast? = some c → (m.read c.ptr c.len).isSome) (hp : parseDocument Y E R cs m s = .ok () s') :
    ∃ j d, JsonText dbl j bs ∧ Conforms R j ∧ denote E.fmtDbl R j = .ok d ∧ Holds s'.st.heap [] d := by
  obtain ⟨bs', ts, hc', hdoc, _⟩ := (C25_document h.facts.1 hne hm _).1 ⟨s', hp, rfl⟩
  rw [hc] at hc'; cases hc'
  obtain ⟨j, hj, rfl⟩ := hY _ _ hdoc
  obtain ⟨d, h1, h2⟩ := C40_document hE ht hw h hne hc hdoc hp
  exact ⟨j, d, hj, (C47_document_conforms hE ht hw hd h hne hc hdoc hp).1, h1, h2⟩

/-- C53. The accepted texts, exactly: for trees that ignore no unknown members and have none of the parsers excluded by C40, and bytes in which no array has a
null as an element, `parse()` and `finish()` return if and only if the bytes are a JSON text of a conforming tree; otherwise one of them throws
`ParsingError`. -/
theorem C53_exactly (hY : Y.OnlyJson dbl) (hY' : Y.ReadsJson dbl) (hE : Passive E) (ht : R.watertight = true) (hw : R.wf = true) (hd : AllDistinct R) (hst : Strict R)
    {s : PSt Y} (h : ServedDocs Y R s) (h' : AcceptedDocs Y R s) {cs : List Chunk} (hne : cs ≠ []) {bs : List UInt8} (hc : chunkBytes cs = some bs)
    {m : Mem} (hm : ∀ c, cs.getLast? = some c → (m.read c.ptr c.len).isSome) (hn : ∀ j, JsonText dbl j bs → j.noNullElem = true) :
    ((∃ s', parseDocument Y E R cs m s = .ok () s') ↔ ∃ j, JsonText dbl j bs ∧ Conforms R j) ∧
    ((∀ s', parseDocument Y E R cs m s ≠ .ok () s') → ∃ sj y s', parseDocument Y E R cs m s = .throw (.parsing sj y) s') := by
  refine ⟨⟨fun ⟨s', hp⟩ => ?_, fun ⟨j, hj, hcf⟩ => ?_⟩, fun hno => ?_⟩
  · obtain ⟨j, d, h1, h2, _⟩ := C53_accepted hY hE ht hw hd h' hne hc hm hp
    exact ⟨j, h1, h2⟩
  · obtain ⟨s', hp, _⟩ := C47_document_accepted hE hw hd h hne hc (hY' j bs hj) hcf (.inr ⟨hst, hn j hj⟩) hm
    exact ⟨s', hp⟩
  · rcases parseDocument_total (E := E) (watertight_noUnionArray ht) hne h.facts.1.facts.1 hc hm with ⟨s', hp⟩ | hp
    · exact absurd hp (hno s')
    · exact hp

/-- C53, C42. A value `v` of the type that the tree stores, written as text: `parse()` and `finish()` return, and `get()` returns `v`. -/
theorem C53_roundtrip {w : Dbl → List UInt8} (hY : Y.ReadsJson dbl) (hE : Passive E) (hw : R.wf = true) (hwr : writable R = true) (hemb : R.isEmbedded = false)
    {v : Val} (hv : hasType R v = true) (ho : v.ordered = true) (hpr : Printable dbl w (toJson R v)) {s : PSt Y} (h : ServedDocs Y R s) {cs : List Chunk} (hne : cs ≠ [])
    (hc : chunkBytes cs = some (write w (toJson R v))) {m : Mem} (hm : ∀ c, cs.getLast? = some c → (m.read c.ptr c.len).isSome) :
    ∃ s', parseDocument Y E R cs m s = .ok () s' ∧ get [] s'.st = .ok v s'.st :=
  C42_document hE hw hwr hemb hv ho h hne hc (hY _ _ (write_text hpr)) hm

/-- C53. Every tree has a text, if its numbers have one. -/
theorem C53_text_exists {w : Dbl → List UInt8} {j : Json} (h : Printable dbl w j) : JsonText dbl j (write w j) := write_text h

/-- C53. Texts are unambiguous. -/
theorem C53_unambiguous {j j' : Json} {bs : List UInt8} (h : JsonText dbl j bs) (h' : JsonText dbl j' bs) : j = j' := JsonText_unique h h'

/-- C53. What is assumed of the underlying parser can be met: there is a machine that reads byte by byte, reports the tokens of every JSON text and accepts
nothing else. -/
theorem C53_possible (dbl : List UInt8 → Option Dbl) : ∃ Y : Yajl, Y.ReadsJson dbl ∧ Y.OnlyJson dbl :=
  ⟨Read.reader dbl, Read.reader_reads dbl, Read.reader_only dbl⟩

section Examples
open Demo

/-- No number with a fraction or an exponent can be converted. -/
def noDbl (_ : List UInt8) : Option Dbl := none

def exact : Yajl := Read.reader noDbl

theorem document_by {Y : Yajl} {bs : List UInt8} {ts : List Token} (h1 : (Y.scan Y.alloc bs).2.2 = true)
    (h2 : (Y.complete (Y.scan Y.alloc bs).1).2.2 = true)
    (h3 : ts = (Y.scan Y.alloc bs).2.1 ++ (Y.complete (Y.scan Y.alloc bs).1).2.1) : Y.Document bs ts :=
  ⟨_, _, _, _, Prod.ext rfl (Prod.ext rfl h1), Prod.ext rfl (Prod.ext rfl h2), h3⟩

/-- To see that bytes are a text of a tree, let the reader read them. -/
theorem text_by {bs : List UInt8} {j : Json} (h : (Read.reader dbl).Document bs (events j)) : JsonText dbl j bs := by
  obtain ⟨j', h1, h2⟩ := Read.reader_only dbl _ _ h
  rwa [events_inj h2]

/-- To see that they are no text at all, too. -/
theorem no_text_by {bs : List UInt8} (h : ((Read.reader dbl).scan (Read.reader dbl).alloc bs).2.2 = false ∨
    ((Read.reader dbl).complete ((Read.reader dbl).scan (Read.reader dbl).alloc bs).1).2.2 = false) : ∀ j, ¬ JsonText dbl j bs := by
  intro j hj
  obtain ⟨a, b, c, d, h1, h2, _⟩ := Read.reader_reads dbl j bs hj
  rw [h1] at h
  obtain h | h := h
  · simp at h
  · simp only at h; rw [h2] at h; simp at h

/-- With blanks, escapes, a surrogate pair and a negative number. -/
def docEscaped : Json := .obj [("name", .sc (.str "é\n𝄞")), ("limits", .obj [("a", .sc (.int (-20)))])]
def textEscaped : String := " {\"na\\u006de\" : \"\\u00e9\\n\\uD834\\udd1E\",\"limits\":{\"a\":-20 } }\n"

theorem textEscaped_text : JsonText noDbl docEscaped (bytes textEscaped) :=
  text_by (document_by (by decide +kernel) (by decide +kernel) (by decide +kernel))

/-- C53_value: and its value -/
example : ∃ s', parseDocument exact noCb outer [chunk textEscaped] (buffer textEscaped) (PSt.init exact outer) = .ok () s' ∧
    Holds s'.st.heap [] (.obj none [.val (.sc (.str "é\n𝄞")), .unset, .val (.map [("a", .sc (.int (-20)))])]) :=
  C53_value (Y := exact) (E := noCb) (R := outer) (j := docEscaped) (Read.reader_reads noDbl) noCb_passive (by decide +kernel) .init (by simp) (chunk_bytes textEscaped) textEscaped_text (by decide +kernel)
    (chunk_last textEscaped)

/-- C53_accepted, C53_only_json: what the text of `tagged` above is, is known from its being accepted. -/
example : ∃ j, JsonText noDbl j (bytes textTagged) ∧ Conforms tagged j := by
  have hp : parseDocument exact noCb tagged [chunk textTagged] (buffer textTagged) (PSt.init exact tagged) = .ok () _ :=
    left_ok (d := PSt.init exact tagged) (by decide +kernel)
  obtain ⟨j, d, h1, h2, _⟩ := C53_accepted (Read.reader_only noDbl) noCb_passive (by decide +kernel) (by decide +kernel) (allDistinct_of (by decide +kernel)) .init
    (by simp) (chunk_bytes textTagged) (chunk_last textTagged) hp
  exact ⟨j, h1, h2⟩

/-- C53_exactly: the same text, and one that is no text of a conforming tree. -/
def textOrder : String := "{\"id\": 2, \"r\": 7, \"kind\": \"circle\"}"
def docOrder : Json := .obj [("id", .sc (.int 2)), ("r", .sc (.int 7)), ("kind", .sc (.str "circle"))]

theorem textTagged_text : JsonText noDbl docTagged (bytes textTagged) :=
  text_by (document_by (by decide +kernel) (by decide +kernel) (by decide +kernel))
theorem textOrder_text : JsonText noDbl docOrder (bytes textOrder) :=
  text_by (document_by (by decide +kernel) (by decide +kernel) (by decide +kernel))

example : (∃ s', parseDocument exact noCb tagged [chunk textTagged] (buffer textTagged) (PSt.init exact tagged) = .ok () s') := by
  refine (C53_exactly (Read.reader_only noDbl) (Read.reader_reads noDbl) noCb_passive (by decide +kernel) (by decide +kernel) (allDistinct_of (by decide +kernel))
    (strict_of (by decide +kernel)) .init .init (by simp) (chunk_bytes textTagged) (chunk_last textTagged) ?_).1.2 ⟨docTagged, textTagged_text, docTagged_conforms⟩
  intro j hj
  rw [C53_unambiguous hj textTagged_text]; decide +kernel

example : ¬ ∃ j, JsonText noDbl j (bytes textOrder) ∧ Conforms tagged j := by
  intro h
  obtain ⟨s', hp⟩ := (C53_exactly (Read.reader_only noDbl) (Read.reader_reads noDbl) noCb_passive (by decide +kernel) (by decide +kernel) (allDistinct_of (by decide +kernel))
    (strict_of (by decide +kernel)) .init .init (by simp) (chunk_bytes textOrder) (chunk_last textOrder) (by
      intro j hj
      rw [C53_unambiguous hj textOrder_text]; decide +kernel)).1.2 h
  have : returned (parseDocument exact noCb tagged [chunk textOrder] (buffer textOrder) (PSt.init exact tagged)) = false := by decide +kernel
  rw [show parseDocument exact noCb tagged [chunk textOrder] (buffer textOrder) (PSt.init exact tagged) = .ok () s' from hp] at this
  simp [returned] at this

/-- C53_not_json: a comma too much; a number with a leading zero; half of a surrogate pair. -/
example : ∀ t ∈ ["{\"id\": 2,}", "[01]", "\"\\ud834\"", "[1", ""], ∀ j, ¬ JsonText noDbl j (bytes t) := by
  intro t ht
  simp only [List.mem_cons, List.not_mem_nil, or_false] at ht
  obtain rfl | rfl | rfl | rfl | rfl := ht
  · exact no_text_by (by decide +kernel)
  · exact no_text_by (by decide +kernel)
  · exact no_text_by (by decide +kernel)
  · exact no_text_by (by decide +kernel)
  · exact no_text_by (by decide +kernel)

def badText : String := "{\"id\": 2,}"
example : ∃ sj y s', parseDocument exact noCb tagged [chunk badText] (buffer badText) (PSt.init exact tagged) = .throw (.parsing sj y) s' :=
  C53_not_json (Read.reader_only noDbl) (noUnionArray_sound (by decide +kernel)) .init (by simp) (chunk_bytes badText) (chunk_last badText) (no_text_by (by decide +kernel))

/-- C53_roundtrip: `recordValue`, written and read. -/
def recordText : String := "{\"id\":7,\"tags\":[\"u\"],\"table\":{\"k\":[1],\"l\":[]},\"var\":{\"t\":2,\"m\":4},\"kind\":\"point\",\"x\":3,\"id\":9}"

example : ∃ s', parseDocument exact accepting record [chunk recordText] (buffer recordText) (PSt.init exact record) = .ok () s' ∧ get [] s'.st = .ok recordValue s'.st :=
  C53_roundtrip (dbl := noDbl) (w := fun _ => []) (Read.reader_reads noDbl) accepting_passive (by decide +kernel) (by decide +kernel) (by decide +kernel) (by decide +kernel)
    (by decide +kernel) (by simp [toJson, record, recordValue, toFields, toAlt, fieldsFor, Shape.isEmbedded, Json.fields, Printable, PrintableF, PrintableL, PrintableScalar, fits64])
    .init (by simp) ((chunk_bytes recordText).trans (congrArg some (by decide +kernel))) (chunk_last recordText)

/-- Control characters, quotation marks and the smallest integer: `["\u0001\"\\", -9223372036854775808]`. -/
example : write (fun _ => []) (.arr [.sc (.str "\u0001\"\\"), .sc (.int (-9223372036854775808))]) = bytes "[\"\\u0001\\\"\\\\\",-9223372036854775808]" := by decide +kernel

end Examples

end SJ
