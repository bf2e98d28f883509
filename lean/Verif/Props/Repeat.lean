/-
C70: repeated fields that make no difference can be left out, wherever they are.
-/
import Verif.Proofs.Repeat
import Verif.Props.Order

set_option linter.unusedVariables false

namespace SJ

variable {E : Env} {R : Shape} {Y : Yajl}

/-- Two trees that hold the same give the same with `get()`. -/
theorem get_of_holds {s1 s2 : St} {d : D} (hfit : R.fits d = true) (h1 : Holds s1.heap [] d) (h2 : Holds s2.heap [] d) (hst : R.isStorage = true)
    {v : Val} (hg : get [] s1 = .ok v s1) : get [] s2 = .ok v s2 := by
  have hset : d.isSet = true := by
    rw [← h1.set]
    rw [C18_get] at hg
    cases hs : (s1.heap []).set with
    | true => rfl
    | false => simp [isSet, hs] at hg
  have hv : ∃ w, d.value? = some w := by
    cases d with
    | unset => simp [D.isSet] at hset
    | val w => exact ⟨w, rfl⟩
    | obj w ds =>
      cases R with
      | object k u ms => cases k <;> cases w <;> simp_all [Shape.fits, Shape.isStorage, D.value?]
      | _ => simp_all [Shape.fits]
    | alt n d => cases R <;> simp_all [Shape.fits, Shape.isStorage]
    | done => cases R <;> simp_all [Shape.fits, Shape.isStorage]
  obtain ⟨w, hv⟩ := hv
  obtain ⟨a1, a2⟩ := h1.value hv
  obtain ⟨b1, b2⟩ := h2.value hv
  rw [C18_get] at hg ⊢
  simp only [isSet, a1, a2, b1, b2, if_true] at hg ⊢
  injection hg with hg; rw [hg]

/-- C70, tokens. `j'` is the document `j` without some of the fields, at all depths, that are repeated: fields of an object's member that has another field later,
and entries of an `SMap` with a key that was there before. If `j` is accepted, `j'` is accepted by the parser, whatever both read before, and what `isSet()`
and `get()` return then is the same. -/
theorem C70_tokens (hE : Passive E) (hw : R.wf = true) {j j' : Json} (hj : FewerRepeats R j j') (hok : okVal R j = true)
    {s s' s1 : St} (h : Served R s) (h' : Served R s') (hrun : run E R (events j) s = .ok () s1) :
    ∃ s2 d, run E R (events j') s' = .ok () s2 ∧ s2.stack = [] ∧ Holds s1.heap [] d ∧ Holds s2.heap [] d ∧ isSet [] s2 = isSet [] s1 ∧
      (R.isStorage = true → ∀ v, get [] s1 = .ok v s1 → get [] s2 = .ok v s2) := by
  have h1 := parse_denote hE (h.ready (wf_user hw)) hw hok
  cases hd : denote E.fmtDbl R j with
  | error e => rw [hd] at h1; obtain ⟨_, h1⟩ := h1; rw [hrun] at h1; simp at h1
  | ok d =>
    rw [hd] at h1
    obtain ⟨t, h1, h2, h3, h4⟩ := h1
    rw [hrun] at h1; injection h1 with _ h1; subst h1
    have h5 := parse_denote hE (h'.ready (wf_user hw)) hw (okVal_fewer hj hok)
    rw [denote_fewer hj hd] at h5
    obtain ⟨s2, h5, h6, h7, _⟩ := h5
    refine ⟨s2, d, h5, h6, h3, h7, ?_, ?_⟩
    · unfold isSet; rw [h3.set, h7.set]
    · intro hst v hg
      exact get_of_holds (denote_fits j R d hw hd) h3 h7 hst hg

/-- C70, as the user sees it: any texts of the two documents, each in any chunks, given to parsers that read any documents before. -/
theorem C70_document (hE : Passive E) (hw : R.wf = true) {j j' : Json} (hj : FewerRepeats R j j') (hok : okVal R j = true)
    {s s' s1 : PSt Y} (h : ServedDocs Y R s) (h' : ServedDocs Y R s')
    {cs cs' : List Chunk} (hne : cs ≠ []) (hne' : cs' ≠ []) {bs bs' : List UInt8} (hc : chunkBytes cs = some bs) (hc' : chunkBytes cs' = some bs')
    (hd : Y.Document bs (events j)) (hd' : Y.Document bs' (events j')) {m m' : Mem}
    (hm' : ∀ c, cs'.getLast? = some c → (m'.read c.ptr c.len).isSome) (hrun : parseDocument Y E R cs m s = .ok () s1) :
    ∃ s2 d, parseDocument Y E R cs' m' s' = .ok () s2 ∧ Holds s1.st.heap [] d ∧ Holds s2.st.heap [] d ∧ isSet [] s2.st = isSet [] s1.st ∧
      (R.isStorage = true → ∀ v, get [] s1.st = .ok v s1.st → get [] s2.st = .ok v s2.st) := by
  obtain ⟨hb, hs⟩ := h.facts
  obtain ⟨hb', hs'⟩ := h'.facts
  obtain ⟨hrun1, _⟩ := parseDocument_ok hb hne hc hd hrun
  obtain ⟨st, d, h1, h2, h3, h4, h5, h6⟩ := C70_tokens hE hw hj hok hs hs' hrun1
  have h7 := parseDocument_run (E := E) (R := R) hb' hne' hc' hd' hm'
  rw [h1] at h7
  simp only [if_pos h2] at h7
  obtain ⟨t, h7, rfl⟩ := h7
  exact ⟨t, d, h7, h3, h4, h5, h6⟩

/-! ### The hypotheses are met -/

section Examples
open Demo

/-- Members of the object, of both unions' alternatives, and keys of the map are repeated. -/
def repeating : Json := .obj [("id", .sc (.int 1)), ("table", .obj [("k", .arr [.sc (.int 1)]), ("l", .arr []), ("k", .arr [.sc (.int 2)])]), ("id", .sc (.int 5)),
  ("var", .obj [("t", .sc (.int 1)), ("a", .sc (.bool false)), ("a", .sc (.bool true))]), ("tags", .arr [.sc (.str "x")]), ("tags", .null),
  ("kind", .sc (.str "point")), ("x", .sc (.int 1)), ("id", .sc (.int 2)), ("x", .sc (.int 3))]
def onceEach : Json := .obj [("table", .obj [("k", .arr [.sc (.int 1)]), ("l", .arr [])]), ("id", .sc (.int 5)),
  ("var", .obj [("t", .sc (.int 1)), ("a", .sc (.bool true))]), ("tags", .null), ("kind", .sc (.str "point")), ("id", .sc (.int 2)), ("x", .sc (.int 3))]

theorem repeating_once : FewerRepeats record repeating onceEach := by
  refine .object (.overridden (n := 0) rfl rfl rfl (.member (n := 2) rfl rfl (.object (.entry rfl (.same _ _) (.entry rfl (.same _ _) (.repeated rfl (by decide) (.same _ _ _))))) ?_))
  refine .member (n := 0) rfl rfl (.same _ _) (.member (n := 3) rfl rfl (.object (.type (x := .int 1) (tm := "t") (a := 0) rfl (.overridden (n := 0) rfl rfl rfl (.same _ _ _)))) ?_)
  refine .overridden (n := 1) rfl rfl rfl (.member (n := 1) rfl rfl (.same _ _) ?_)
  exact .embedded (n := 4) (a := 0) (x := .str "point") (st := true) rfl rfl (.overridden (n := 0) rfl rfl rfl (.same _ _ _))

def repeatingRead : Val := .tup [.sc (.int 5), .arr [], .map [("k", .arr [.sc (.int 1)]), ("l", .arr [])], .alt 0 (.tup [.sc (.bool true)]), .alt 0 (.tup [.sc (.int 3), .sc (.int 2)])]

/-- C70_tokens -/
example : ∃ s2, run noCb record (events onceEach) (St.init record) = .ok () s2 ∧ s2.stack = [] ∧ get [] s2 = .ok repeatingRead s2 := by
  have hr : run noCb record (events repeating) (St.init record) = .ok () (after noCb record (events repeating) (St.init record)) := after_ok (by decide +kernel)
  have hg : get [] (after noCb record (events repeating) (St.init record)) = .ok repeatingRead (after noCb record (events repeating) (St.init record)) := by
    have hv : ((after noCb record (events repeating) (St.init record)).heap []).val = repeatingRead := sameV_eq (by decide +kernel)
    rw [C18_get, if_pos (by decide +kernel), hv]
  obtain ⟨s2, d, h1, h2, _, _, _, h3⟩ := C70_tokens noCb_passive (R := record) (by decide +kernel) repeating_once (by decide +kernel) .init .init hr
  exact ⟨s2, h1, h2, h3 (by decide +kernel) _ hg⟩

/-- C70_document: two texts of a map with different chunks; in the first one the key `k` is repeated. -/
def keyTwice : String := "{\"k\": [1,-2], \"l\": [], \"k\": [3]}"
def keyOnce : String := "{\"k\": [1,-2], \"l\": []}"

example {s1} (h : parseDocument yajl noCb numbers [chunk keyTwice] (buffer keyTwice) (PSt.init yajl numbers) = .ok () s1) :
    ∃ s2 d, parseDocument yajl noCb numbers [chunk keyOnce] (buffer keyOnce) (PSt.init yajl numbers) = .ok () s2 ∧
      Holds s1.st.heap [] d ∧ Holds s2.st.heap [] d ∧ isSet [] s2.st = isSet [] s1.st ∧
      (numbers.isStorage = true → ∀ v, get [] s1.st = .ok v s1.st → get [] s2.st = .ok v s2.st) :=
  C70_document noCb_passive (by decide +kernel)
    (j := .obj [("k", .arr [.sc (.int 1), .sc (.int (-2))]), ("l", .arr []), ("k", .arr [.sc (.int 3)])]) (j' := .obj [("k", .arr [.sc (.int 1), .sc (.int (-2))]), ("l", .arr [])])
    (.object (.entry rfl (.same _ _) (.entry rfl (.same _ _) (.repeated rfl (by decide) (.same _ _ _))))) (by decide +kernel) .init .init (by simp) (by simp)
    (chunk_bytes keyTwice) (chunk_bytes keyOnce)
    (document_of (by decide +kernel) (by decide +kernel) (by decide +kernel)) (document_of (by decide +kernel) (by decide +kernel) (by decide +kernel))
    (chunk_last keyOnce) h

/-- Only in this direction: a field that is overridden is still checked, so the document without it may be accepted although the one with it is not. -/
example : FewerRepeats inner (.obj [("id", .sc (.str "no")), ("id", .sc (.int 1))]) (.obj [("id", .sc (.int 1))]) ∧
    fine noCb inner (events (.obj [("id", .sc (.str "no")), ("id", .sc (.int 1))])) (St.init inner) = false ∧
    fine noCb inner (events (.obj [("id", .sc (.int 1))])) (St.init inner) = true :=
  ⟨.object (.overridden (n := 0) rfl rfl rfl (.same _ _ _)), by decide +kernel, by decide +kernel⟩

/-- The other field of an object's member, or of the map, cannot be left out: for objects the last one counts, for maps the first one. -/
example : ((after noCb inner (events (.obj [("id", .sc (.int 1)), ("id", .sc (.int 2))])) (St.init inner)).heap []).val = .tup [.sc (.int 2), .arr []] ∧
    ((after noCb numbers (events (.obj [("k", .arr []), ("k", .arr [.sc (.int 2)])])) (St.init numbers)).heap []).val = .map [("k", .arr [])] :=
  ⟨sameV_eq (by decide +kernel), sameV_eq (by decide +kernel)⟩

end Examples

end SJ
