/-
C68: a null member is a missing one, and a null element is none, wherever they are.
-/
import Verif.Proofs.Nulls
import Verif.Props.Active

set_option linter.unusedVariables false

namespace SJ

variable {F : Handlers} {R : Shape} {Y : Yajl}

/-- C68, tokens. Two documents differ only in fields of members that are null in one and missing in the other, and in null elements of arrays, at all depths. Whatever the callbacks
do: both documents are read, with the same result, or both are rejected with the same exception; and the same callbacks are called in the same order with the same
arguments. -/
theorem C68_tokens (hw : R.wf = true) {j j' : Json} (hj : SameButNulls R j j') (hok : okVal R j = true) (hok' : okVal R j' = true)
    {s s' : St} (h : Survived R s) (h' : Survived R s') (hl : seenLog R s.log = seenLog R s'.log) :
    (∃ t t' d, run (F.env R) R (events j) s = .ok () t ∧ run (F.env R) R (events j') s' = .ok () t' ∧ t.stack = [] ∧ t'.stack = [] ∧
      Holds t.heap [] d ∧ Holds t'.heap [] d ∧ seenLog R t.log = seenLog R t'.log) ∨
    (∃ t t' e, run (F.env R) R (events j) s = .throw e t ∧ run (F.env R) R (events j') s' = .throw e t' ∧ seenLog R t.log = seenLog R t'.log) := by
  have h1 := C49_tokens (F := F) hw h hok
  have h2 := C49_tokens (F := F) hw h' hok'
  rw [denoteA_nulled hj [], hl] at h1
  cases hd : denoteA F R [] j' (seenLog R s'.log) with
  | mk l o =>
    rw [hd] at h1 h2
    cases o with
    | ok d =>
      obtain ⟨t, a1, a2, a3, a4⟩ := h1
      obtain ⟨t', b1, b2, b3, b4⟩ := h2
      exact .inl ⟨t, t', d, a1, b1, a2, b2, a3, b3, a4.trans b4.symm⟩
    | error x =>
      obtain ⟨t, a1, a2⟩ := h1
      obtain ⟨t', b1, b2⟩ := h2
      exact .inr ⟨t, t', x, a1, b1, a2.trans b2.symm⟩

/-- C68, text: two texts of such documents, cut into chunks in whatever way. The two parsing errors have the same message of the library (what YAJL says depends
on the text and the position). -/
theorem C68_document (hw : R.wf = true) {j j' : Json} (hj : SameButNulls R j j') (hok : okVal R j = true) (hok' : okVal R j' = true)
    {s s' : PSt Y} (h : ServedDocs Y R s) (h' : ServedDocs Y R s') (hl : seenLog R s.st.log = seenLog R s'.st.log)
    {cs cs' : List Chunk} (hne : cs ≠ []) (hne' : cs' ≠ []) {bs bs' : List UInt8} (hc : chunkBytes cs = some bs) (hc' : chunkBytes cs' = some bs')
    (hdoc : Y.Document bs (events j)) (hdoc' : Y.Document bs' (events j')) {m m' : Mem}
    (hm : ∀ c, cs.getLast? = some c → (m.read c.ptr c.len).isSome) (hm' : ∀ c, cs'.getLast? = some c → (m'.read c.ptr c.len).isSome) :
    (∃ t t' d, parseDocument Y (F.env R) R cs m s = .ok () t ∧ parseDocument Y (F.env R) R cs' m' s' = .ok () t' ∧
      Holds t.st.heap [] d ∧ Holds t'.st.heap [] d ∧ seenLog R t.st.log = seenLog R t'.st.log) ∨
    (∃ t t' sj y y', parseDocument Y (F.env R) R cs m s = .throw (.parsing sj y) t ∧ parseDocument Y (F.env R) R cs' m' s' = .throw (.parsing sj y') t' ∧
      seenLog R t.st.log = seenLog R t'.st.log) := by
  have h1 := C49_document (F := F) hw h hne hc hdoc hok hm
  have h2 := C49_document (F := F) hw h' hne' hc' hdoc' hok' hm'
  rw [denoteA_nulled hj [], hl] at h1
  cases hd : denoteA F R [] j' (seenLog R s'.st.log) with
  | mk l o =>
    rw [hd] at h1 h2
    cases o with
    | ok d =>
      obtain ⟨t, a1, a2, a3⟩ := h1
      obtain ⟨t', b1, b2, b3⟩ := h2
      exact .inl ⟨t, t', d, a1, b1, a2, b2, a3.trans b3.symm⟩
    | error x =>
      obtain ⟨y, t, a1, a2⟩ := h1
      obtain ⟨y', t', b1, b2⟩ := h2
      exact .inr ⟨t, t', x.text, y, y', a1, b1, a2.trans b2.symm⟩

section Examples
open Demo

/-- Objects with optional members, in an array in a member, and numbers in an array. -/
def sparse : Shape := .object .plain true
  [({ name := .str "rows" }, .array false (.object .plain true
      [({ name := .str "id" }, .value .int), ({ name := .str "note", optional := true }, .value .str),
       ({ name := .str "sub", optional := true }, .object .plain false [({ name := .str "n", optional := true }, .value .int)])])),
   ({ name := .str "nums", optional := true }, .array true (.value .int)),
   ({ name := .str "what", optional := true }, .union .str "kind" false [({ name := .str "c" }, .object .plain true [({ name := .str "r", optional := true }, .value .int), ({ name := .str "s" }, .value .int)])])]

def sparseDoc : Json := .obj
  [("rows", .arr [.obj [("id", .sc (.int 1)), ("sub", .obj [("x", .sc (.int 0))])], .obj [("note", .sc (.str "b")), ("id", .sc (.int 2))]]),
   ("nums", .arr [.sc (.int 1), .sc (.int 2)]),
   ("what", .obj [("kind", .sc (.str "c")), ("s", .sc (.int 3))])]

def sparseDoc' : Json := .obj
  [("nums", .null),
   ("rows", .arr [.obj [("id", .sc (.int 1)), ("note", .null), ("sub", .obj [("x", .sc (.int 0)), ("n", .null)])], .obj [("note", .sc (.str "b")), ("sub", .null), ("id", .sc (.int 2))]]),
   ("nums", .arr [.null, .sc (.int 1), .null, .null, .sc (.int 2)]),
   ("what", .obj [("kind", .sc (.str "c")), ("r", .null), ("s", .sc (.int 3))])]

theorem sparse_nulls : SameButNulls sparse sparseDoc sparseDoc' := by
  refine .object (.missing (n := 1) rfl (by simp) (.member (n := 0) rfl rfl (.array _ (.cons ?_ (.cons ?_ (.nil _)))) (.member (n := 1) rfl rfl (.array _ ?_)
    (.member (n := 2) rfl rfl ?_ (.same _ _ _ _)))))
  · exact .object (.member (n := 0) rfl rfl (.same _ _) (.missing (n := 1) rfl (by simp)
      (.member (n := 2) rfl rfl (.object (.other rfl (.missing (n := 0) rfl (by simp) (.same _ _ _ _)))) (.same _ _ _ _))))
  · exact .object (.member (n := 1) rfl rfl (.same _ _) (.missing (n := 2) rfl (by simp) (.member (n := 0) rfl rfl (.same _ _) (.same _ _ _ _))))
  · exact .missing (.cons (.same _ _) (.missing (.missing (.cons (.same _ _) (.nil _)))))
  · exact .object (.type (x := .str "c") (a := 0) rfl (.missing (n := 0) rfl (by simp) (.member (n := 1) rfl rfl (.same _ _) (.same _ _ _ _))))

/-- The hypotheses of `C68_tokens`; both documents are read. -/
example : sparse.wf = true ∧ okVal sparse sparseDoc = true ∧ okVal sparse sparseDoc' = true ∧
    fine (watchers.env sparse) sparse (events sparseDoc) (St.init sparse) = true ∧
    fine (watchers.env sparse) sparse (events sparseDoc') (St.init sparse) = true := by decide +kernel

example : ∃ t t' d, run (watchers.env sparse) sparse (events sparseDoc) (St.init sparse) = .ok () t ∧
    run (watchers.env sparse) sparse (events sparseDoc') (St.init sparse) = .ok () t' ∧ Holds t.heap [] d ∧ Holds t'.heap [] d ∧
    seenLog sparse t.log = seenLog sparse t'.log := by
  rcases C68_tokens (F := watchers) (R := sparse) (by decide +kernel) sparse_nulls (by decide +kernel) (by decide +kernel) Survived.init Survived.init rfl with
    ⟨t, t', d, h1, h2, _, _, h3, h4, h5⟩ | ⟨t, t', e, h1, _⟩
  · exact ⟨t, t', d, h1, h2, h3, h4, h5⟩
  · have := after_ok (E := watchers.env sparse) (R := sparse) (ts := events sparseDoc) (s := St.init sparse) (by decide +kernel)
    rw [h1] at this; simp at this

/-- Why the member must not have had a field before: the null takes its value away. -/
example : isSet [.mem 1] (after noCb sparse (events (.obj [("nums", .arr []), ("rows", .arr [])])) (St.init sparse)) = true ∧
    isSet [.mem 1] (after noCb sparse (events (.obj [("nums", .arr []), ("nums", .null), ("rows", .arr [])])) (St.init sparse)) = false := by decide +kernel

/-- It is not so of the entries of a map: a null entry of an `SMap` is an error. -/
example : fine noCb (.map true (.value .int)) (events (.obj [("a", .sc (.int 1))])) (St.init (.map true (.value .int))) = true ∧
    fine noCb (.map true (.value .int)) (events (.obj [("a", .sc (.int 1)), ("b", .null)])) (St.init (.map true (.value .int))) = false := by decide +kernel

end Examples

end SJ
