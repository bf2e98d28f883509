/-
C52: what `isEmpty()` tells.
-/
import Verif.Proofs.NonEmpty
import Verif.Props.Session
import Verif.Props.Reuse
import Verif.Props.Whole
import Verif.DemoYajl

set_option linter.unusedVariables false

namespace SJ

variable {E : Env} {R : Shape} {Y : Yajl}

/-- C52: every parser of a new `Parser` is empty and not set. -/
theorem C52_new (p : Path) : isEmpty p (PSt.init Y R).st = true ∧ isSet p (PSt.init Y R).st = false := by
  show ((attach R Heap.fresh) p).empty = true ∧ ((attach R Heap.fresh) p).set = false
  unfold attach
  rcases setDispH_only R [] Heap.fresh p with e | e <;> rw [e] <;> exact ⟨rfl, rfl⟩

/-- C52, anywhere in the tree, for any callbacks: if a parser that is expected to read a value reads `j` and the last token of `j` is accepted, then
it and the parsers inside it are empty or not as their last values say. -/
theorem C52_value {s s' : St} {p sh j} (hx : Expecting R s p sh) (hw : sh.wf = true) (hok : okVal sh j = true) (h : run E R (events j) s = .ok () s')
    {steps : List Step} {b : Bool} (hb : emptyAfter sh j steps = some b) : isEmpty (steps.reverse ++ p) s' = b := by
  rw [parse_eval_at hx (user_of_wf hw) hok] at h
  obtain ⟨u, s1, h1, h2⟩ := bind_ok_inv h
  have hl := evalVal_leaves j sh p s s1 hx.shape hw h1 steps b hb
  have hm := Mute.pop (E := E) (R := R) _ _ _ h2 (steps.reverse ++ p)
  show (s'.heap _).empty = b
  rw [hm]; exact hl

/-- C52 for whole documents: after any successfully read documents (and values taken out, and callbacks replaced) in between, if `parse()` and
`finish()` of a text, in any chunks, return normally, `isEmpty()` of every parser is what the document says. -/
theorem C52_document (hw : R.wf = true) {s s' : PSt Y} (h : ServedDocs Y R s) {cs : List Chunk} (hne : cs ≠ []) {bs : List UInt8} {j : Json}
    (hc : chunkBytes cs = some bs) (hdoc : Y.Document bs (events j)) (hok : okVal R j = true) {m : Mem}
    (hp : parseDocument Y E R cs m s = .ok () s') {steps : List Step} {b : Bool} (hb : emptyAfter R j steps = some b) : isEmpty steps.reverse s'.st = b := by
  obtain ⟨hbt, hv⟩ := h.facts
  have hr := (parseDocument_ok hbt hne hc hdoc hp).1
  have := C52_value (hv.ready (wf_user hw)).expecting hw hok hr hb
  rwa [List.append_nil] at this

/-- C52: in particular the parser that was given to the constructor of `Parser` is empty iff the document is null, `{}` or an array of nothing but nulls. -/
theorem C52_root (hw : R.wf = true) {s s' : PSt Y} (h : ServedDocs Y R s) {cs : List Chunk} (hne : cs ≠ []) {bs : List UInt8} {j : Json}
    (hc : chunkBytes cs = some bs) (hdoc : Y.Document bs (events j)) (hok : okVal R j = true) {m : Mem}
    (hp : parseDocument Y E R cs m s = .ok () s') :
    isEmpty [] s'.st = true ↔ j = .null ∨ j = .obj [] ∨ ∃ l, j = .arr l ∧ ∀ x ∈ l, x = .null := by
  have := C52_document hw h hne hc hdoc hok hp (steps := []) rfl
  rw [List.reverse_nil] at this
  rw [this]
  cases j with
  | null => simp [Json.blank]
  | sc x => simp [Json.blank]
  | arr l =>
    simp only [Json.blank, List.all_eq_true, reduceCtorEq, false_or]
    constructor
    · intro h
      refine ⟨l, rfl, fun x hx => ?_⟩
      have := h x hx
      cases x <;> first | rfl | simp [Json.isNull] at this
    · rintro ⟨l', hl, h⟩ x hx
      injection hl with hl
      rw [h x (hl ▸ hx)]; rfl
  | obj fs => simp [Json.blank]

/-- C52: at every moment, whatever was done before and whatever came of it, a value, object or union that is set is not empty. -/
theorem C52_set {s : PSt Y} (h : Used Y R s) {p sh} (hp : R.at p = some sh) (hf : sh.fillable = true) (hs : isSet p s.st = true) :
    isEmpty p s.st = false :=
  h.facts.2.filled p sh hp hf hs

/-- C52_set within a document: after any tokens. -/
theorem C52_set_tokens {s : St} (h : History R s) {p sh} (hp : R.at p = some sh) (hf : sh.fillable = true) (hs : isSet p s = true) :
    isEmpty p s = false :=
  h.filled p sh hp hf hs

section Examples
open Demo

/-- `{"name": "x", "part": {"tags": [null], "id": 1}, "part": {"id": 2}, "limits": {}}`: after that `part` and `id` are not empty, while `tags`, which was
read in the first `part`, and `limits` are. -/
def docTwice : Json := .obj [("name", .sc (.str "x")), ("part", .obj [("tags", .arr [.null]), ("id", .sc (.int 1))]), ("part", .obj [("id", .sc (.int 2))]), ("limits", .obj [])]

example : [[], [.mem 0], [.mem 1], [.mem 1, .mem 0], [.mem 1, .mem 1], [.mem 1, .mem 1, .elem], [.mem 2]].map (emptyAfter outer docTwice) =
    [some false, some false, some false, some false, some true, some true, some true] ∧ emptyAfter outer docTwice [.mem 2, .elem] = none := by decide +kernel

/-- C52_value -/
example : isEmpty [.mem 1, .mem 1] (after accepting outer (events docTwice) (St.init outer)) = true ∧
    isEmpty [.mem 0, .mem 1] (after accepting outer (events docTwice) (St.init outer)) = false := by
  have hx : Expecting outer (St.init outer) [] outer := (Ready.init outer).expecting
  have hr : run accepting outer (events docTwice) (St.init outer) = .ok () (after accepting outer (events docTwice) (St.init outer)) := after_ok (by decide +kernel)
  exact ⟨C52_value hx (by decide +kernel) (by decide +kernel) hr (steps := [.mem 1, .mem 1]) (by decide +kernel),
    C52_value hx (by decide +kernel) (by decide +kernel) hr (steps := [.mem 1, .mem 0]) (by decide +kernel)⟩

/-- Why nothing is said about the element parser of a map that got no elements: the map was read before, with an element. -/
example : isEmpty [.elem] (after noCb (.map false (.value .int)) (events (.obj []))
      (after noCb (.map false (.value .int)) (events (.obj [("a", .sc (.int 1))])) (St.init (.map false (.value .int)))).restart) = false ∧
    isEmpty [.elem] (after noCb (.map false (.value .int)) (events (.obj [])) (St.init (.map false (.value .int)))) = true := by decide +kernel

/-- C52_document and C52_root: `{"id": 2, "kind": "point"}` leaves the alternative `point` of the embedded union empty, the union not. -/
def pointText : String := "{\"id\": 2, \"kind\": \"point\"}"
def pointDoc : Json := .obj [("id", .sc (.int 2)), ("kind", .sc (.str "point"))]
def afterPoint : PSt yajl :=
  left (parseDocument yajl accepting tagged [chunk pointText] (buffer pointText) (PSt.init yajl tagged)) (PSt.init yajl tagged)
example : isEmpty [.mem 1] afterPoint.st = false ∧ isEmpty [.mem 1, .mem 1] afterPoint.st = true ∧ isEmpty [] afterPoint.st = false := by
  have hd : yajl.Document (bytes pointText) (events pointDoc) := document_of (by decide +kernel) (by decide +kernel) (by decide +kernel)
  have hp : parseDocument yajl accepting tagged [chunk pointText] (buffer pointText) (PSt.init yajl tagged) = .ok () afterPoint := left_ok (by decide +kernel)
  refine ⟨C52_document (Y := yajl) (E := accepting) (R := tagged) (by decide +kernel) .init (cs := [chunk pointText]) (by simp) (chunk_bytes _) hd (by decide +kernel) hp (steps := [.mem 1]) (by decide +kernel),
    C52_document (Y := yajl) (E := accepting) (R := tagged) (by decide +kernel) .init (cs := [chunk pointText]) (by simp) (chunk_bytes _) hd (by decide +kernel) hp (steps := [.mem 1, .mem 1]) (by decide +kernel), ?_⟩
  have := C52_root (Y := yajl) (E := accepting) (R := tagged) (by decide +kernel) .init (cs := [chunk pointText]) (by simp) (chunk_bytes _) hd (by decide +kernel) hp
  cases h : isEmpty [] afterPoint.st with
  | false => rfl
  | true => have := this.1 h; simp [pointDoc] at this

/-- C52_set_tokens: in the middle of a document, after the value of `name`. -/
example : isSet [.mem 0] (after accepting outer [.mapStart, .mapKey "name", .scalar (.str "x")] (St.init outer)) = true ∧
    isEmpty [.mem 0] (after accepting outer [.mapStart, .mapKey "name", .scalar (.str "x")] (St.init outer)) = false :=
  ⟨by decide +kernel, C52_set_tokens (R := outer) (p := [.mem 0]) (sh := .value .str) (.tokens (E := accepting) _ .init (after_ok (by decide +kernel))) rfl rfl (by decide +kernel)⟩

/-- C52_set: after a refused document. -/
example : isEmpty [.mem 0] (left (feedText noCb outer "{\"name\": \"x\", \"part\": 1}" (PSt.init yajl outer)) (PSt.init yajl outer)).st = false :=
  C52_set (Y := yajl) (R := outer) (p := [.mem 0]) (sh := .value .str)
    (.refused .init (left_throw (x := .parsing "Unexpected token integer" "parse error near {\"name\": \"x\", \"part\": 1}") (by decide +kernel))) rfl rfl (by decide +kernel)

/-- An array that was given `[]` is set and empty. -/
example : isSet [] (after noCb (.array true (.value .int)) (events (.arr [])) (St.init (.array true (.value .int)))) = true ∧
    isEmpty [] (after noCb (.array true (.value .int)) (events (.arr [])) (St.init (.array true (.value .int)))) = true := by decide +kernel

end Examples

end SJ
