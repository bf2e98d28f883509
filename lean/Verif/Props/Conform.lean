/-
C47: the parser accepts exactly the documents that conform to it, where `Conforms` (SpecConform.lean) is a set of rules that mention neither the
order of events nor errors, values or callbacks.
-/
import Verif.Proofs.Conform
import Verif.Props.Accept
import Verif.Props.Whole

set_option linter.unusedVariables false

namespace SJ

variable {E : Env} {R : Shape} {Y : Yajl}

/-- `okVal` documents: accepted means conforms. -/
theorem C47_exact_ready (hE : Passive E) (hw : R.wf = true) (hd : AllDistinct R) {s : St} (h : Ready R s) {j : Json} (hok : okVal R j = true) :
    (Conforms R j ∧ ∃ s', run E R (events j) s = .ok () s' ∧ s'.stack = [] ∧ isSet [] s' = filled R j) ∨
    (¬ Conforms R j ∧ ∃ e s', run E R (events j) s = .throw (.std e) s') := by
  obtain ⟨h1, h2⟩ := conform_val E.fmtDbl j R ⟨hw, hd⟩
  have hp := parse_denote hE h hw hok
  cases hj : denote E.fmtDbl R j with
  | ok d =>
    rw [hj] at hp
    obtain ⟨s', hr, hs, hh, _⟩ := hp
    exact .inl ⟨h1.1 ⟨d, hj⟩, s', hr, hs, by rw [← h2 d hj]; exact hh.set⟩
  | error e =>
    rw [hj] at hp
    obtain ⟨s', hr⟩ := hp
    refine .inr ⟨fun hc => ?_, e, s', hr⟩
    obtain ⟨d, hd⟩ := h1.2 hc
    rw [hj] at hd
    simp at hd

/-- C47. A parser that is new or has been used (`Survived`) reads a document outside the known defects without exception if and only if the document
conforms to the parser tree. After that the root parser holds a value unless the document was null (or `{}` for an object or union). -/
theorem C47_exact (hE : Passive E) (hw : R.wf = true) (hd : AllDistinct R) {s : St} (h : Survived R s) {j : Json} (hok : okVal R j = true) :
    ((∃ s', run E R (events j) s = .ok () s') ↔ Conforms R j) ∧
    ∀ s', run E R (events j) s = .ok () s' → s'.stack = [] ∧ isSet [] s' = filled R j := by
  rcases C47_exact_ready hE hw hd (h.ready hw) hok with ⟨hc, t, hr, h1, h2⟩ | ⟨hc, e, t, hr⟩
  · refine ⟨⟨fun _ => hc, fun _ => ⟨t, hr⟩⟩, fun s' hs => ?_⟩
    rw [hr] at hs; injection hs with _ hs; subst hs; exact ⟨h1, h2⟩
  · refine ⟨⟨fun ⟨s', hs⟩ => ?_, fun h => absurd h hc⟩, fun s' hs => ?_⟩ <;> (rw [hr] at hs; simp at hs)

/-- C47, completeness. Every conforming document without null (or, for parsers that ignore no unknown members, without null as an array element) is
accepted. -/
theorem C47_conforming_accepted (hE : Passive E) (hw : R.wf = true) (hd : AllDistinct R) {s : St} (h : Survived R s) {j : Json}
    (hc : Conforms R j) (hn : NullsFine R j) : ∃ s', run E R (events j) s = .ok () s' ∧ s'.stack = [] ∧ isSet [] s' = filled R j := by
  rcases C47_exact_ready hE hw hd (h.ready hw) (conforms_ok ⟨hw, hd⟩ hc hn) with ⟨_, h⟩ | ⟨hc', _⟩
  · exact h
  · exact absurd hc hc'

/-- C47, soundness. For `watertight` trees only conforming documents are accepted, with nulls wherever they may have them. -/
theorem C47_accepted_conforms (hE : Passive E) (ht : R.watertight = true) (hw : R.wf = true) (hd : AllDistinct R) {s s' : St} (h : Accepted R s)
    {j : Json} (hr : run E R (events j) s = .ok () s') : Conforms R j ∧ isSet [] s' = filled R j := by
  obtain ⟨d, h1, _, h3, _⟩ := C40_accepted hE ht hw h hr
  obtain ⟨h4, h5⟩ := conform_val E.fmtDbl j R ⟨hw, hd⟩
  exact ⟨h4.1 ⟨d, h1⟩, by rw [← h5 d h1]; exact h3.set⟩

/-- C47, as the user sees it. `parse()` of all chunks of a JSON text and `finish()` return normally exactly if the document conforms to the parser
tree; otherwise one of them throws `ParsingError`. -/
theorem C47_document (hE : Passive E) (hw : R.wf = true) (hd : AllDistinct R) {s : PSt Y} (h : ServedDocs Y R s) {cs : List Chunk} (hne : cs ≠ [])
    {bs : List UInt8} {j : Json} (hc : chunkBytes cs = some bs) (hdoc : Y.Document bs (events j)) (hok : okVal R j = true) {m : Mem}
    (hm : ∀ c, cs.getLast? = some c → (m.read c.ptr c.len).isSome) :
    (Conforms R j ∧ ∃ s', parseDocument Y E R cs m s = .ok () s' ∧ isSet [] s'.st = filled R j) ∨
    (¬ Conforms R j ∧ ∃ sj y s', parseDocument Y E R cs m s = .throw (.parsing sj y) s') := by
  obtain ⟨hb, hs⟩ := h.facts
  have h1 := parseDocument_run (E := E) (R := R) hb hne hc hdoc hm
  rcases C47_exact_ready hE hw hd (hs.ready (wf_user hw)) hok with ⟨hc, t, hr, h2, h3⟩ | ⟨hc, e, t, hr⟩
  · rw [hr] at h1
    simp only at h1
    rw [if_pos h2] at h1
    obtain ⟨s2, hp, rfl⟩ := h1
    exact .inl ⟨hc, s2, hp, h3⟩
  · rw [hr] at h1
    obtain ⟨y, s', h1, _⟩ := h1
    exact .inr ⟨hc, _, y, s', h1⟩

/-- C47, as the user sees it: conforming documents without null are accepted. -/
theorem C47_document_accepted (hE : Passive E) (hw : R.wf = true) (hd : AllDistinct R) {s : PSt Y} (h : ServedDocs Y R s) {cs : List Chunk} (hne : cs ≠ [])
    {bs : List UInt8} {j : Json} (hc : chunkBytes cs = some bs) (hdoc : Y.Document bs (events j)) (hj : Conforms R j) (hn : NullsFine R j) {m : Mem}
    (hm : ∀ c, cs.getLast? = some c → (m.read c.ptr c.len).isSome) :
    ∃ s', parseDocument Y E R cs m s = .ok () s' ∧ isSet [] s'.st = filled R j := by
  rcases C47_document hE hw hd h hne hc hdoc (conforms_ok ⟨hw, hd⟩ hj hn) hm with h | h
  · exact h.2
  · exact absurd hj h.1

/-- C47, as the user sees it, `watertight` trees: what is accepted conforms. -/
theorem C47_document_conforms (hE : Passive E) (ht : R.watertight = true) (hw : R.wf = true) (hd : AllDistinct R) {s s' : PSt Y} (h : AcceptedDocs Y R s)
    {cs : List Chunk} (hne : cs ≠ []) {bs : List UInt8} {j : Json} (hc : chunkBytes cs = some bs) (hdoc : Y.Document bs (events j)) {m : Mem}
    (hp : parseDocument Y E R cs m s = .ok () s') : Conforms R j ∧ isSet [] s'.st = filled R j := by
  obtain ⟨d, h1, h3⟩ := C40_document hE ht hw h hne hc hdoc hp
  obtain ⟨h4, h5⟩ := conform_val E.fmtDbl j R ⟨hw, hd⟩
  exact ⟨h4.1 ⟨d, h1⟩, by rw [← h5 d h1]; exact h3.set⟩

section Examples
open Demo

/-- `AllDistinct`, checked. -/
theorem allDistinct_of {R : Shape} (h : everyB (fun sh => match sh with | .object _ _ ms => distinctB ms | .union _ _ _ ms => distinctB ms | _ => true) R = true) :
    AllDistinct R := by
  intro p sh hs
  have := everyB_sound rfl h p sh hs
  cases sh with
  | object => exact distinctB_sound this
  | union => exact distinctB_sound this
  | _ => trivial

theorem strict_of {R : Shape} (h : everyB (fun sh => match sh with | .object _ u _ => u | _ => true) R = true) : Strict R := by
  intro p k u ms hs
  exact everyB_sound rfl h p _ hs

/-- `{"id": 2, "kind": "circle", "r": 7}` conforms to an object with an embedded union. -/
def docTagged : Json := .obj [("id", .sc (.int 2)), ("kind", .sc (.str "circle")), ("r", .sc (.int 7))]

theorem docTagged_conforms : Conforms tagged docTagged := by
  refine .object (by simp [tagged]) ?_
  refine .embedding (before := [("id", .sc (.int 2))]) (key := "kind") (x := .str "circle") (after := [("r", .sc (.int 7))]) (n := 1) (a := 0) (alt := circle)
    ?_ ?_ ⟨rfl, rfl⟩ rfl ⟨rfl, rfl⟩ ?_ (.inl rfl) ?_
  · intro _ kv hkv
    simp only [List.mem_singleton] at hkv
    subst hkv
    exact ⟨0, _, _, rfl, rfl⟩
  · intro kv hkv n i m hn
    simp only [List.mem_singleton] at hkv
    subst hkv
    obtain ⟨h1, h2⟩ := hn
    match n, h1 with
    | 0, h1 => simp at h1; obtain ⟨rfl, rfl⟩ := h1; exact .scalar rfl
    | 1, h1 => simp at h1; obtain ⟨rfl, rfl⟩ := h1; simp [Scalar.cppEq] at h2
    | n + 2, h1 => simp at h1
  · refine .object ?_ ?_ ?_
    · intro _ kv hkv
      simp only [List.mem_singleton] at hkv
      subst hkv
      exact ⟨0, _, _, rfl, rfl⟩
    · intro kv hkv n i m hn
      simp only [List.mem_singleton] at hkv
      subst hkv
      obtain ⟨h1, h2⟩ := hn
      match n, h1 with
      | 0, h1 => simp at h1; obtain ⟨rfl, rfl⟩ := h1; exact .scalar rfl
      | n + 1, h1 => simp at h1
    · intro _ x hx
      simp only [List.mem_singleton] at hx
      subst hx
      exact .inl (by decide +kernel)
  · intro n y hn hy
    match n, hy with
    | 0, hy => simp at hy; subst hy; exact .inl (by decide +kernel)
    | 1, hy => exact absurd rfl hn
    | n + 2, hy => simp at hy

/-- C47_conforming_accepted, with the document above. -/
example : ∃ s', run noCb tagged (events docTagged) (St.init tagged) = .ok () s' ∧ s'.stack = [] ∧ isSet [] s' = true :=
  C47_conforming_accepted noCb_passive (by decide +kernel) (allDistinct_of (by decide +kernel)) (Survived.init) docTagged_conforms
    (.inr ⟨strict_of (by decide +kernel), by decide +kernel⟩)

/-- C47_exact: `{"id": 2, "r": 7, "kind": "circle"}` does not conform, as the type member must come before the members of the alternative. -/
example : ¬ Conforms tagged (.obj [("id", .sc (.int 2)), ("r", .sc (.int 7)), ("kind", .sc (.str "circle"))]) := by
  intro h
  obtain ⟨s', hs⟩ := (C47_exact noCb_passive (by decide +kernel) (allDistinct_of (by decide +kernel)) (Survived.init) (by decide +kernel)).1.2 h
  have : fine noCb tagged (events (.obj [("id", .sc (.int 2)), ("r", .sc (.int 7)), ("kind", .sc (.str "circle"))])) (St.init tagged) = false := by decide +kernel
  simp only [fine, hs] at this
  simp at this

/-- C47_accepted_conforms, with a null where it is allowed: `{"name": "x", "part": null, "limits": {}}` -/
example : Conforms outer (.obj [("name", .sc (.str "x")), ("part", .null), ("limits", .obj [])]) :=
  (C47_accepted_conforms noCb_passive (by decide +kernel) (by decide +kernel) (allDistinct_of (by decide +kernel)) (Accepted.init)
    (after_ok (by decide +kernel))).1

/-- C47, why nulls must be fine: `{"name": "x", "more": [null]}` conforms to `outer`, which ignores unknown members, but is refused: the null ends the
skipping (C05). -/
theorem C47_needs_nulls : Conforms outer (.obj [("name", .sc (.str "x")), ("more", .arr [.null])]) ∧
    failure noCb outer (events (.obj [("name", .sc (.str "x")), ("more", .arr [.null])])) (St.init outer) = some (.std "Unexpected token array end") := by
  refine ⟨.object (by simp [outer]) (.object (by simp) ?_ ?_), by decide +kernel⟩
  · intro kv hkv n i m hn
    obtain ⟨h1, h2⟩ := hn
    simp only [List.mem_cons, List.not_mem_nil, or_false] at hkv
    rcases hkv with rfl | rfl
    · match n, h1 with
      | 0, h1 => simp at h1; obtain ⟨rfl, rfl⟩ := h1; exact .scalar rfl
      | 1, h1 => simp at h1; obtain ⟨rfl, rfl⟩ := h1; simp [Scalar.cppEq] at h2
      | 2, h1 => simp at h1; obtain ⟨rfl, rfl⟩ := h1; simp [Scalar.cppEq] at h2
      | n + 3, h1 => simp at h1
    · match n, h1 with
      | 0, h1 => simp at h1; obtain ⟨rfl, rfl⟩ := h1; simp [Scalar.cppEq] at h2
      | 1, h1 => simp at h1; obtain ⟨rfl, rfl⟩ := h1; simp [Scalar.cppEq] at h2
      | 2, h1 => simp at h1; obtain ⟨rfl, rfl⟩ := h1; simp [Scalar.cppEq] at h2
      | n + 3, h1 => simp at h1
  · intro _ x hx
    simp only [List.mem_cons, List.not_mem_nil, or_false] at hx
    rcases hx with rfl | rfl | rfl
    · exact .inl (by decide +kernel)
    · exact .inr ⟨rfl, by simp⟩
    · exact .inr ⟨rfl, by simp⟩

def textTagged : String := "{\"id\": 2, \"kind\": \"circle\", \"r\": 7}"

/-- C47_document_accepted: the same as text. -/
example : ∃ s', parseDocument yajl noCb tagged [chunk textTagged] (buffer textTagged) (PSt.init yajl tagged) = .ok () s' ∧ isSet [] s'.st = true :=
  C47_document_accepted noCb_passive (by decide +kernel) (allDistinct_of (by decide +kernel)) .init (by simp) (chunk_bytes _)
    (document_of (by decide +kernel) (by decide +kernel) (by decide +kernel)) docTagged_conforms (.inl (by decide +kernel)) (chunk_last _)

/-- C47_document_conforms: `text` conforms to `outer`. -/
example : Conforms outer doc :=
  (C47_document_conforms noCb_passive (by decide +kernel) (by decide +kernel) (allDistinct_of (by decide +kernel)) (AcceptedDocs.init (Y := yajl))
    (by simp) (chunk_bytes text) (document_of (by decide +kernel) (by decide +kernel) (by decide +kernel))
    (left_ok (r := parseDocument yajl noCb outer [chunk text] (buffer text) (PSt.init yajl outer)) (d := PSt.init yajl outer) (by decide +kernel))).1

end Examples

end SJ
