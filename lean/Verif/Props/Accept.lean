/-
C40: nothing is accepted silently. This version of the library mishandles some nulls (inside a skipped value; as an element of an
array of objects) and some unions. For the parser trees of `Shape.watertight` such a document is always refused in the end: if a document is
accepted, with nulls wherever it may have them, then it is what the description of the tree says, with the values and the callbacks it says.
-/
import Verif.Proofs.Sure
import Verif.Props.Reuse
import Verif.Props.Session

set_option linter.unusedVariables false

namespace SJ

variable {E : Env} {R : Shape} {Y : Yajl}

/-- Between documents: the parser was constructed, then it accepted documents (any), refused some (or they were truncated) while
no array was being read (`refused`, `truncated`: as in `Survived`), and the user took values out of storage parsers. -/
inductive Accepted (R : Shape) : St → Prop
  | init : Accepted R (St.init R)
  | doc {E : Env} {s s' : St} (j : Json) : Accepted R s → run E R (events j) s = .ok () s' → Accepted R s'.restart
  | refused {E : Env} {s s' : St} (ts : List Token) (e : Exn) : Accepted R s → ¬ Arrives E R (NullElement R) ts s → run E R ts s = .throw e s' →
      (∀ q ∈ s'.stack, (s'.heap q).started = false) → Accepted R s'.restart
  | truncated {E : Env} {s s' : St} (ts : List Token) : Accepted R s → ¬ Arrives E R (NullElement R) ts s → run E R ts s = .ok () s' →
      (∀ q ∈ s'.stack, (s'.heap q).started = false) → Accepted R s'.restart
  | pop {s s' : St} {p : Path} {sh : Shape} {v : Val} : Accepted R s → R.at p = some sh → sh.isStorage = true → pop' p s = .ok v s' → Accepted R s'
  | reset {s : St} {p : Path} {sh : Shape} : Accepted R s → R.at p = some sh → Accepted R (reset' p sh s)

theorem Accepted.ready (ht : R.watertight = true) (hw : R.wf = true) {s : St} (h : Accepted R s) : Ready R s := by
  induction h with
  | init => exact Ready.init R
  | doc j _ hrun ih =>
    obtain ⟨s1, h1, rfl⟩ := accepted_eval ht hw ih hrun
    have hk := evalVal_keep j R [] rfl _ () s1 h1
    exact ⟨rfl, hk.2.mono _ ih.disp, ih.sane.keep hk.2⟩
  | @refused E _ _ ts e _ ht' hrun hn ih =>
    have := run_open (E := E) (noIgnoreElem hw) ts ht' ih.opened
    rw [hrun] at this
    exact OpenedX.ready this hn
  | @truncated E _ _ ts _ ht' hrun hn ih =>
    have := run_open (E := E) (noIgnoreElem hw) ts ht' ih.opened
    rw [hrun] at this
    exact OpenedX.ready this.x hn
  | pop _ _ _ hp ih => exact ih.pop hp
  | reset _ _ ih => exact ih.reset

/-- C40. Any document `j` whose tokens are all accepted (by a parser that is new or has read other documents, under whatever
callbacks) is one that the tree describes: nothing is left on the stack, the parsers hold what `denote` says and the callbacks were called as
`denoteT` says. -/
theorem C40_accepted (hE : Passive E) (ht : R.watertight = true) (hw : R.wf = true) {s s' : St} (h : Accepted R s) {j : Json}
    (hr : run E R (events j) s = .ok () s') :
    ∃ d, denote E.fmtDbl R j = .ok d ∧ s'.stack = [] ∧ Holds s'.heap [] d ∧ Logged E (denoteT E.fmtDbl R [] j).calls s.log s'.log := by
  obtain ⟨d, h1, h2, h3, _, h5⟩ := accepted_denote hE ht hw (h.ready ht hw) hr
  exact ⟨d, h1, h2, h3, h5⟩

theorem watertight_noUnionArray (ht : R.watertight = true) : ¬ HasUnionArray R := by
  simp only [Shape.watertight, Bool.and_eq_true] at ht
  rintro ⟨q, st, ty, tm, b, ms, hq⟩
  have := tight_at ht.1.1 hq
  simp [Shape.tight, Shape.isUnion] at this

theorem Accepted.history {s : St} (h : Accepted R s) : History R s := by
  induction h with
  | init => exact .init
  | doc j _ hrun ih => exact .restart (.tokens _ ih hrun)
  | refused ts e _ _ hrun _ ih => exact .restart (.failed _ _ ih hrun)
  | truncated ts _ _ hrun _ ih => exact .restart (.tokens _ ih hrun)
  | pop _ hR hs hp ih => exact .pop ih hR hs hp
  | reset _ hR ih => exact .reset ih hR

/-- C40. A document that the tree does not describe is refused, whatever it is: reading it ends with an exception. -/
theorem C40_refused (hE : Passive E) (ht : R.watertight = true) (hw : R.wf = true) {s : St} (h : Accepted R s) {j : Json} {e : String}
    (hd : denote E.fmtDbl R j = .error e) : ∃ x s', run E R (events j) s = .throw x s' := by
  have hub := run_ctl (E := E) (events j) h.history.ctl
  cases hr : run E R (events j) s with
  | ok a s' =>
    obtain ⟨d, h1, _⟩ := C40_accepted hE ht hw h hr
    rw [hd] at h1; cases h1
  | throw x s' => exact ⟨x, s', rfl⟩
  | ub => rw [hr] at hub; exact absurd hub (watertight_noUnionArray ht)
  | fuel => exact absurd hr (C28_run _ _)

/-- C40, C24. If two parsers of the same tree, each new or after any accepted documents, accept the same document then it has the same outcome
in both: the same root value, the same callbacks. (One of them may refuse it, see `C24_null_element`; but neither accepts it with another
result.) -/
theorem C24_same_if_accepted_partial (hE : Passive E) (ht : R.watertight = true) (hw : R.wf = true) {s s' t t' : St} (h : Accepted R s)
    (h' : Accepted R s') {j : Json} (hr : run E R (events j) s = .ok () t) (hr' : run E R (events j) s' = .ok () t') : SameOutcome E R j s s' := by
  obtain ⟨d, h1, h2, h3, h4⟩ := C40_accepted hE ht hw h hr
  obtain ⟨d', h1', h2', h3', h4'⟩ := C40_accepted hE ht hw h' hr'
  rw [h1] at h1'; injection h1' with h1'; subst h1'
  refine Or.inr ⟨t, t', d, hr, hr', h2, h2', h3.set.trans h3'.set.symm, fun hs => ?_, h1, h3, h3', h4, h4'⟩
  exact value_of_fits (denote_fits j R d hw h1) hs h3 h3'

/-- Like `Accepted`, but with `parse()` and `finish()`: every document so far, given in chunks, was accepted. -/
inductive AcceptedDocs (Y : Yajl) (R : Shape) : PSt Y → Prop
  | init : AcceptedDocs Y R (PSt.init Y R)
  | doc {E : Env} {s s' : PSt Y} {cs : List Chunk} {bs : List UInt8} {m : Mem} (j : Json) : AcceptedDocs Y R s → cs ≠ [] → chunkBytes cs = some bs →
      Y.Document bs (events j) → parseDocument Y E R cs m s = .ok () s' → AcceptedDocs Y R s'
  | pop {s : PSt Y} {st : St} {p : Path} {sh : Shape} {v : Val} : AcceptedDocs Y R s → R.at p = some sh → sh.isStorage = true →
      pop' p s.st = .ok v st → AcceptedDocs Y R { s with st := st }
  | reset {s : PSt Y} {p : Path} {sh : Shape} : AcceptedDocs Y R s → R.at p = some sh → AcceptedDocs Y R { s with st := reset' p sh s.st }

theorem AcceptedDocs.facts {s : PSt Y} (h : AcceptedDocs Y R s) : Between Y R s ∧ Accepted R s.st.restart := by
  induction h with
  | init => exact ⟨.init, .init⟩
  | @doc E s s' cs bs m j hs hne hc hd hp ih =>
    obtain ⟨hb, hv⟩ := ih
    exact ⟨Between.doc hb.facts.1 hp, .doc j hv (parseDocument_ok hb hne hc hd hp).1⟩
  | @pop s st p sh v hs hR hst hp ih =>
    refine ⟨.pop ih.1 hR hst hp, ?_⟩
    refine Accepted.pop ih.2 (p := p) (v := v) hR hst ?_
    unfold pop' popVal at hp ⊢
    show (if (s.st.heap p).set then _ else _) = _
    by_cases hset : (s.st.heap p).set = true
    · rw [if_pos hset] at hp ⊢
      injection hp with h1 h2
      subst h1 h2; rfl
    · rw [if_neg hset] at hp; simp at hp
  | reset hs hR ih => exact ⟨.reset ih.1 hR, .reset ih.2 hR⟩

/-- C40, as the user sees it. If `parse()` of all chunks of a JSON text and `finish()` return normally then the document is as the parser tree
describes, and the parsers hold what it says. -/
theorem C40_document (hE : Passive E) (ht : R.watertight = true) (hw : R.wf = true) {s s' : PSt Y} (h : AcceptedDocs Y R s) {cs : List Chunk} (hne : cs ≠ [])
    {bs : List UInt8} {j : Json} (hc : chunkBytes cs = some bs) (hd : Y.Document bs (events j)) {m : Mem} (hp : parseDocument Y E R cs m s = .ok () s') :
    ∃ d, denote E.fmtDbl R j = .ok d ∧ Holds s'.st.heap [] d := by
  obtain ⟨hb, ha⟩ := h.facts
  obtain ⟨hr, _⟩ := parseDocument_ok hb hne hc hd hp
  obtain ⟨d, h1, _, h3, _⟩ := C40_accepted hE ht hw ha hr
  exact ⟨d, h1, h3⟩

/-- C40, as the user sees it. For a JSON text that the parser tree does not describe `parse()` or `finish()` throws `ParsingError`. -/
theorem C40_document_refused (hE : Passive E) (ht : R.watertight = true) (hw : R.wf = true) {s : PSt Y} (h : AcceptedDocs Y R s) {cs : List Chunk} (hne : cs ≠ [])
    {bs : List UInt8} {j : Json} (hc : chunkBytes cs = some bs) (hd : Y.Document bs (events j)) {e : String} (he : denote E.fmtDbl R j = .error e) {m : Mem}
    (hm : ∀ c, cs.getLast? = some c → (m.read c.ptr c.len).isSome) :
    ∃ sj y s', parseDocument Y E R cs m s = .throw (.parsing sj y) s' := by
  obtain ⟨hb, ha⟩ := h.facts
  obtain ⟨x, st, hr⟩ := C40_refused hE ht hw ha he
  have h1 := parseDocument_run (E := E) (R := R) hb hne hc hd hm
  rw [hr] at h1
  obtain ⟨y, s', h1, _⟩ := h1
  exact ⟨_, y, s', h1⟩

/-- C40, trees without arrays. The history of the parser does not matter at all: documents refused at any token, truncated documents, callbacks that
throw. -/
theorem C40_any_history (hE : Passive E) (ht : R.watertight = true) (ha : ArrFree R) (hw : R.wf = true) {s s' : St} (h : History R s) {j : Json}
    (hr : run E R (events j) s.restart = .ok () s') :
    ∃ d, denote E.fmtDbl R j = .ok d ∧ s'.stack = [] ∧ Holds s'.heap [] d ∧ Logged E (denoteT E.fmtDbl R [] j).calls s.log s'.log := by
  have hrd : Ready R s.restart := by
    refine ⟨rfl, h.ctl.root, h.ctl.closed, fun q _ => h.ctl.idle ha q, ?_⟩
    intro q st ty _ hR; exact absurd hR (ha q st _)
  obtain ⟨d, h1, h2, h3, _, h5⟩ := accepted_denote hE ht hw hrd hr
  exact ⟨d, h1, h2, h3, h5⟩

/-- C40, as the user sees it, for trees without arrays: whatever was done with the parser before, as long as it is between documents. -/
theorem C40_document_any_history (hE : Passive E) (ht : R.watertight = true) (ha : ArrFree R) (hw : R.wf = true) {s s' : PSt Y} (h : Between Y R s)
    {cs : List Chunk} (hne : cs ≠ []) {bs : List UInt8} {j : Json} (hc : chunkBytes cs = some bs) (hd : Y.Document bs (events j)) {m : Mem}
    (hp : parseDocument Y E R cs m s = .ok () s') : ∃ d, denote E.fmtDbl R j = .ok d ∧ Holds s'.st.heap [] d := by
  obtain ⟨hr, _⟩ := parseDocument_ok h hne hc hd hp
  obtain ⟨d, h1, _, h3, _⟩ := C40_any_history hE ht ha hw h.facts.1.facts.2 hr
  exact ⟨d, h1, h3⟩

section Examples
open Demo

/-- C40_any_history: `{"id": 1, "kind": "circle", "r": "x"` was refused, then `{"id": 2, "kind": "circle", "r": 7}` is read. -/
example : tagged.watertight = true ∧ fine noCb tagged (events (.obj [("id", .sc (.int 2)), ("kind", .sc (.str "circle")), ("r", .sc (.int 7))])) sFailed.restart = true := by
  decide +kernel

example : ∃ d, denote noCb.fmtDbl tagged (.obj [("id", .sc (.int 2)), ("kind", .sc (.str "circle")), ("r", .sc (.int 7))]) = .ok d ∧
    Holds (after noCb tagged (events (.obj [("id", .sc (.int 2)), ("kind", .sc (.str "circle")), ("r", .sc (.int 7))])) sFailed.restart).heap [] d := by
  obtain ⟨d, h1, _, h3, _⟩ := C40_any_history noCb_passive (R := tagged) (by decide +kernel) tagged_arrFree (by decide +kernel)
    (.failed badTagged (.std "Unexpected token string") .init (after_throw (by decide +kernel))) (after_ok (E := noCb) (R := tagged)
      (ts := events (.obj [("id", .sc (.int 2)), ("kind", .sc (.str "circle")), ("r", .sc (.int 7))])) (s := sFailed.restart) (by decide +kernel))
  exact ⟨d, h1, h3⟩

/-- With arrays the history matters: after `{"l": [[` was refused by an object with an optional array `l` of integers, `{"l": 5}` is accepted and
nothing tells the user that it is not as described. -/
def listed : Shape := .object .plain true [({ name := .str "l", optional := true }, .array true (.value .int))]
def badListed : List Token := [.mapStart, .mapKey "l", .arrStart, .arrStart]

theorem C40_needs_no_array_open : listed.watertight = true ∧ listed.wf = true ∧
    failure noCb listed badListed (St.init listed) = some (.std "Unexpected token array start") ∧
    denote noCb.fmtDbl listed (.obj [("l", .sc (.int 5))]) = .error "Unexpected token integer" ∧
    fine noCb listed (events (.obj [("l", .sc (.int 5))])) (after noCb listed badListed (St.init listed)).restart = true ∧
    (after noCb listed (events (.obj [("l", .sc (.int 5))])) (after noCb listed badListed (St.init listed)).restart).stack = [] :=
  ⟨by decide +kernel, by decide +kernel, by decide +kernel, rfl, by decide +kernel, by decide +kernel⟩

/-- `{"items": [{"r": int}] (Array), "rows": [[int]] (SArray of SArray), "kind": ...}` with an embedded union, unknown members ignored. -/
def crate : Shape := .object .plain false
  [({ name := .str "items", optional := true }, .array false circle),
   ({ name := .str "rows", optional := true }, .array true (.array true (.value .int))),
   ({ name := .str "kind", optional := true }, .union .str "" false [({ name := .str "circle" }, circle), ({ name := .str "point", optional := true }, point)])]

/-- `{"items": [null, {"r": 1}], "rows": [[1,null],[2]], "more": null, "kind": "circle", "r": 1}` -/
def docCrate : Json := .obj [("items", .arr [.null, .obj [("r", .sc (.int 1))]]), ("rows", .arr [.arr [.sc (.int 1), .null], .arr [.sc (.int 2)]]),
  ("more", .null), ("kind", .sc (.str "circle")), ("r", .sc (.int 1))]

/-- `{"more": [{"a": null}]}`, which a conforming parser would accept. -/
def docLost : Json := .obj [("more", .arr [.obj [("a", .null)]]), ("rows", .arr [])]

/-- `{"items": [{"r": 1}, null]}`, and with something after it. -/
def docNull : Json := .obj [("items", .arr [.obj [("r", .sc (.int 1))], .null])]

/-- C40_accepted: a document with nulls in many places, in an array of objects too (`okVal` does not hold), is accepted, and as described. -/
example : crate.watertight = true ∧ crate.wf = true ∧ okVal crate docCrate = false ∧ fine accepting crate (events docCrate) (St.init crate) = true := by
  decide +kernel

example : ∃ d, denote accepting.fmtDbl crate docCrate = .ok d ∧ Holds (after accepting crate (events docCrate) (St.init crate)).heap [] d := by
  obtain ⟨d, h1, _, h3, _⟩ := C40_accepted accepting_passive (R := crate) (by decide +kernel) (by decide +kernel) .init
    (after_ok (E := accepting) (R := crate) (ts := events docCrate) (s := St.init crate) (by decide +kernel))
  exact ⟨d, h1, h3⟩

/-- The nulls that are mishandled lead to an exception. -/
example : fine accepting crate (events docLost) (St.init crate) = false ∧ fine accepting crate (events docNull) (St.init crate) = false := by decide +kernel

/-- C40_refused: an item without the mandatory `r`, after a null. -/
example : ∃ x s', run accepting crate (events (.obj [("items", .arr [.null, .obj [("q", .null)]])])) (St.init crate) = .throw x s' := by
  have h : ∃ e, denote accepting.fmtDbl crate (.obj [("items", .arr [.null, .obj [("q", .null)]])]) = .error e := ⟨"Unexpected member q", rfl⟩
  obtain ⟨e, h⟩ := h
  exact C40_refused accepting_passive (R := crate) (by decide +kernel) (by decide +kernel) .init h

/-- C24_same_if_accepted_partial: a new parser and one that has read `docCrate` both accept `{"rows": [[null,3]], "items": [null]}`... -/
def docAgain : Json := .obj [("rows", .arr [.arr [.null, .sc (.int 3)]]), ("more", .sc (.int 1)), ("items", .null)]

def sCrate : St := (after accepting crate (events docCrate) (St.init crate)).restart
theorem accepted_crate : Accepted crate sCrate := .doc docCrate .init (after_ok (by decide +kernel))

example : SameOutcome noCb crate docAgain sCrate (St.init crate) :=
  C24_same_if_accepted_partial noCb_passive (by decide +kernel) (by decide +kernel) accepted_crate .init (after_ok (by decide +kernel)) (after_ok (by decide +kernel))

/-- C40_document, C40_document_refused: a text in three pieces. -/
def rowsText : String := "{\"rows\": [[1,null],[2]], \"items\": [null], \"more\": null}"
def rowsDoc : Json := .obj [("rows", .arr [.arr [.sc (.int 1), .null], .arr [.sc (.int 2)]]), ("items", .arr [.null]), ("more", .null)]

example : yajl.Document (bytes rowsText) (events rowsDoc) ∧ returned (parseDocument yajl accepting crate [chunk rowsText] (buffer rowsText) (PSt.init yajl crate)) = true :=
  ⟨document_of (by decide +kernel) (by decide +kernel) (by decide +kernel), by decide +kernel⟩

/-- Why the elements of an `Array` must not be arrays: `[[[{"r":1},null],[{"r":2}]]]` is accepted by an `Array` of `Array`s of `Array`s of objects, but the
callback of the innermost arrays is called once, not twice, and that of the array around them twice, not once. -/
def deep : Shape := .array false (.array false (.array false circle))
def docDeep : Json := .arr [.arr [.arr [.obj [("r", .sc (.int 1))], .null], .arr [.obj [("r", .sc (.int 2))]]]]

def finishes (p : Path) (l : Log) : Nat := (l.filter fun c => match c with | .finish q _ => q == p | _ => false).length

theorem C40_needs_no_array_of_arrays : deep.wf = true ∧ fine accepting deep (events docDeep) (St.init deep) = true ∧
    (after accepting deep (events docDeep) (St.init deep)).stack = [] ∧
    finishes [.elem, .elem] (after accepting deep (events docDeep) (St.init deep)).log = 1 ∧
    finishes [.elem] (after accepting deep (events docDeep) (St.init deep)).log = 2 := by decide +kernel

/-- Why unions must not be standalone: `{"c": {"t": 1, "c": {"a": null, "t": {"b": null}, "c": 0}, "a": 1}}`, one entry, is accepted by a `Map` of unions
(with the type member "t", the type values 0 and 1, optional, and objects without known members) but reported as the three entries "c", "c" and "a". -/
def anything : Shape := .object .plain false []
def unions : Shape := .map false (.union .int "t" false [({ name := .int 0, optional := true }, anything), ({ name := .int 1, optional := true }, anything)])
def docUnions : Json := .obj [("c", .obj [("t", .sc (.int 1)), ("c", .obj [("a", .null), ("t", .obj [("b", .null)]), ("c", .sc (.int 0))]), ("a", .sc (.int 1))])]

def entries (p : Path) (l : Log) : List String := l.filterMap fun c => match c with | .element q k _ => if q == p then some k else none | _ => none

theorem C40_needs_no_standalone_union : unions.wf = true ∧ fine accepting unions (events docUnions) (St.init unions) = true ∧
    (after accepting unions (events docUnions) (St.init unions)).stack = [] ∧
    entries [] (after accepting unions (events docUnions) (St.init unions)).log = ["a", "c", "c"] := by decide +kernel

end Examples

end SJ
