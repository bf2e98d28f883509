/-
C67: members that are ignored make no difference, wherever they are.
-/
import Verif.Proofs.Skip
import Verif.Props.Active

set_option linter.unusedVariables false

namespace SJ

variable {F : Handlers} {R : Shape} {Y : Yajl}

/-- C67, tokens. Two documents differ only in fields that the parsers they are given to do not know and ignore, at all depths. Whatever the callbacks do: both
documents are read, with the same result, or both are rejected with the same exception; and the same callbacks are called in the same order with the same
arguments. -/
theorem C67_tokens (hw : R.wf = true) {j j' : Json} (hj : SameButSkipped R j j') (hok : okVal R j = true) (hok' : okVal R j' = true)
    {s s' : St} (h : Survived R s) (h' : Survived R s') (hl : seenLog R s.log = seenLog R s'.log) :
    (∃ t t' d, run (F.env R) R (events j) s = .ok () t ∧ run (F.env R) R (events j') s' = .ok () t' ∧ t.stack = [] ∧ t'.stack = [] ∧
      Holds t.heap [] d ∧ Holds t'.heap [] d ∧ seenLog R t.log = seenLog R t'.log) ∨
    (∃ t t' e, run (F.env R) R (events j) s = .throw e t ∧ run (F.env R) R (events j') s' = .throw e t' ∧ seenLog R t.log = seenLog R t'.log) := by
  have h1 := C49_tokens (F := F) hw h hok
  have h2 := C49_tokens (F := F) hw h' hok'
  rw [denoteA_skipped hj [], hl] at h1
  cases hd : denoteA F R [] j' (seenLog R s'.log) with
  | mk l o =>
    rw [hd] at h1 h2
    cases o with
    | ok d =>
      obtain ⟨t, a1, a2, a3, a4⟩ := h1
      obtain ⟨t', b1, b2, b3, b4⟩ := h2
      exact .inl ⟨t, t', d, a1, b1, a2, b2, a3, b3, a4.trans b4.symm⟩
    | error x =>
      obtain ⟨t, a1, a2⟩ := h1
      obtain ⟨t', b1, b2⟩ := h2
      exact .inr ⟨t, t', x, a1, b1, a2.trans b2.symm⟩

/-- C67, text: two texts of such documents, cut into chunks in whatever way. The two parsing errors have the same message of the library (what YAJL says depends
on the text and the position). -/
theorem C67_document (hw : R.wf = true) {j j' : Json} (hj : SameButSkipped R j j') (hok : okVal R j = true) (hok' : okVal R j' = true)
    {s s' : PSt Y} (h : ServedDocs Y R s) (h' : ServedDocs Y R s') (hl : seenLog R s.st.log = seenLog R s'.st.log)
    {cs cs' : List Chunk} (hne : cs ≠ []) (hne' : cs' ≠ []) {bs bs' : List UInt8} (hc : chunkBytes cs = some bs) (hc' : chunkBytes cs' = some bs')
    (hdoc : Y.Document bs (events j)) (hdoc' : Y.Document bs' (events j')) {m m' : Mem}
    (hm : ∀ c, cs.getLast? = some c → (m.read c.ptr c.len).isSome) (hm' : ∀ c, cs'.getLast? = some c → (m'.read c.ptr c.len).isSome) :
    (∃ t t' d, parseDocument Y (F.env R) R cs m s = .ok () t ∧ parseDocument Y (F.env R) R cs' m' s' = .ok () t' ∧
      Holds t.st.heap [] d ∧ Holds t'.st.heap [] d ∧ seenLog R t.st.log = seenLog R t'.st.log) ∨
    (∃ t t' sj y y', parseDocument Y (F.env R) R cs m s = .throw (.parsing sj y) t ∧ parseDocument Y (F.env R) R cs' m' s' = .throw (.parsing sj y') t' ∧
      seenLog R t.st.log = seenLog R t'.st.log) := by
  have h1 := C49_document (F := F) hw h hne hc hdoc hok hm
  have h2 := C49_document (F := F) hw h' hne' hc' hdoc' hok' hm'
  rw [denoteA_skipped hj [], hl] at h1
  cases hd : denoteA F R [] j' (seenLog R s'.st.log) with
  | mk l o =>
    rw [hd] at h1 h2
    cases o with
    | ok d =>
      obtain ⟨t, a1, a2, a3⟩ := h1
      obtain ⟨t', b1, b2, b3⟩ := h2
      exact .inl ⟨t, t', d, a1, b1, a2, b2, a3.trans b3.symm⟩
    | error x =>
      obtain ⟨y, t, a1, a2⟩ := h1
      obtain ⟨y', t', b1, b2⟩ := h2
      exact .inr ⟨t, t', x.text, y, y', a1, b1, a2.trans b2.symm⟩

section Examples
open Demo

/-- Objects that ignore what they do not know: in an array, with a union in them, the alternatives of which ignore unknown fields too. -/
def lenient : Shape := .array false (.object .auto false
  [({ name := .str "id" }, .value .int),
   ({ name := .str "what" }, .union .str "kind" true
     [({ name := .str "c" }, .object .auto false [({ name := .str "r" }, .value .int)]),
      ({ name := .str "p" }, .object .auto false [({ name := .str "x" }, .value .int), ({ name := .str "y", optional := true }, .value .int)])])])

def lenientDoc : Json := .arr [.obj [("id", .sc (.int 1)), ("what", .obj [("kind", .sc (.str "c")), ("r", .sc (.int 5))])],
  .obj [("what", .obj [("kind", .sc (.str "p")), ("y", .sc (.int 7)), ("x", .sc (.int 6))]), ("id", .sc (.int 2))]]

/-- The same with fields added before, between and after, among them objects and arrays. -/
def lenientDoc' : Json := .arr [
  .obj [("new", .arr [.sc (.int 9), .obj [("id", .sc (.str "z"))]]), ("id", .sc (.int 1)),
        ("what", .obj [("kind", .sc (.str "c")), ("colour", .sc (.str "red")), ("r", .sc (.int 5)), ("kind", .sc (.int 0))]), ("r", .sc (.bool true))],
  .obj [("what", .obj [("kind", .sc (.str "p")), ("y", .sc (.int 7)), ("x", .sc (.int 6))]), ("id", .sc (.int 2)), ("more", .obj [])]]

theorem lenient_skipped : SameButSkipped lenient lenientDoc lenientDoc' := by
  refine .array _ (.cons ?_ (.cons ?_ (.nil _)))
  · refine .object (.missing rfl (.member (n := 0) rfl rfl (.same _ _) (.member (n := 1) rfl rfl ?_ (.missing rfl (.same _ _ _)))))
    exact .object (.type (x := .str "c") (a := 0) rfl (.missing rfl (.member (n := 0) rfl rfl (.same _ _) (.missing rfl (.same _ _ _)))))
  · exact .object (.member (n := 1) rfl rfl (.same _ _) (.member (n := 0) rfl rfl (.same _ _) (.missing rfl (.same _ _ _))))

/-- The hypotheses of `C67_tokens`; both documents are read. -/
example : lenient.wf = true ∧ okVal lenient lenientDoc = true ∧ okVal lenient lenientDoc' = true ∧
    fine (watchers.env lenient) lenient (events lenientDoc) (St.init lenient) = true ∧
    fine (watchers.env lenient) lenient (events lenientDoc') (St.init lenient) = true := by decide +kernel

example : ∃ t t' d, run (watchers.env lenient) lenient (events lenientDoc) (St.init lenient) = .ok () t ∧
    run (watchers.env lenient) lenient (events lenientDoc') (St.init lenient) = .ok () t' ∧ Holds t.heap [] d ∧ Holds t'.heap [] d ∧
    seenLog lenient t.log = seenLog lenient t'.log := by
  rcases C67_tokens (F := watchers) (R := lenient) (by decide +kernel) lenient_skipped (by decide +kernel) (by decide +kernel) Survived.init Survived.init rfl with
    ⟨t, t', d, h1, h2, _, _, h3, h4, h5⟩ | ⟨t, t', e, h1, _⟩
  · exact ⟨t, t', d, h1, h2, h3, h4, h5⟩
  · have := after_ok (E := watchers.env lenient) (R := lenient) (ts := events lenientDoc) (s := St.init lenient) (by decide +kernel)
    rw [h1] at this; simp at this

/-- The callbacks were called (twelve times), so that the last part says something. -/
example : (seenLog lenient (after (watchers.env lenient) lenient (events lenientDoc) (St.init lenient)).log).length = 12 := by decide +kernel

/-- Why an empty object must remain empty: an object without fields is not set, and an optional member so is missing; an object that has only fields that it
ignores has been there, and its members are missing. -/
def lenientInner : Shape := .object .plain true [({ name := .str "o", optional := true }, .object .plain false [({ name := .str "n" }, .value .int)])]
example : fine noCb lenientInner (events (.obj [("o", .obj [])])) (St.init lenientInner) = true ∧
    failure noCb lenientInner (events (.obj [("o", .obj [("x", .sc (.int 1))])])) (St.init lenientInner) =
      some (.std "Mandatory member n is not present") := by
  decide +kernel

end Examples

end SJ
