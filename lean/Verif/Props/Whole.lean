/-
C41: a parse takes exactly one value: it is complete with the last token of the value and not before, and everything after it is refused.
-/
import Verif.Props.Session
import Verif.Props.Reuse

set_option linter.unusedVariables false

namespace SJ

variable {E : Env} {R : Shape} {Y : Yajl}

/-- C41. When the value is complete (no current parser is left) then any further token is refused with "Parsers stack is empty", whatever
it is, and neither a parser nor a callback notices: the state is the same as before. -/
theorem C41_trailing {ts ts' : List Token} {t : Token} {s s' : St} (h : run E R ts s = .ok () s') (hs : s'.stack = []) :
    run E R (ts ++ t :: ts') s = .throw (.std "Parsers stack is empty") s' := by
  rw [run_append', M.bind, h]
  simp only
  rw [run_cons, M.bind, dispatch_nil hs]

/-- C41. If some tokens are all accepted then the value is not complete after any smaller number of them. -/
theorem C41_incomplete {ts ts' : List Token} {t : Token} {s s' : St} (h : run E R (ts ++ t :: ts') s = .ok () s') :
    ∃ s1, run E R ts s = .ok () s1 ∧ s1.stack ≠ [] := by
  cases h1 : run E R ts s with
  | ok a s1 =>
    refine ⟨s1, rfl, fun hs => ?_⟩
    rw [C41_trailing (t := t) (ts' := ts') h1 hs] at h
    simp at h
  | throw e s1 => rw [run_append', M.bind, h1] at h; simp at h
  | ub => rw [run_append', M.bind, h1] at h; simp at h
  | fuel => rw [run_append', M.bind, h1] at h; simp at h

/-- C41. Every proper initial part of a document that the parser tree describes is read without an error, but is not a complete value. -/
theorem C41_described (hE : Passive E) {s : St} (hr : Ready R s) (hw : R.wf = true) {j : Json} (hok : okVal R j = true) {d} (hd : denote E.fmtDbl R j = .ok d)
    {ts ts' : List Token} {t : Token} (hts : events j = ts ++ t :: ts') : ∃ s1, run E R ts s = .ok () s1 ∧ s1.stack ≠ [] := by
  have h := parse_denoteT hE hr hw hok
  rw [hd] at h
  obtain ⟨s', h1, _⟩ := h
  rw [hts] at h1
  exact C41_incomplete h1

/-- C41, as the user sees it. If YAJL reports a second value (or anything else) after one that the parser takes, `parse()` or `finish()` throws a
`ParsingError`; the parsers are left as the first value left them. -/
theorem C41_second_value {s : PSt Y} (h : Between Y R s) {cs : List Chunk} (hne : cs ≠ []) {bs : List UInt8} (hc : chunkBytes cs = some bs)
    {ts ts' : List Token} {t : Token} (hd : Y.Document bs (ts ++ t :: ts')) {st : St} (hr : run E R ts s.st.restart = .ok () st) (hs : st.stack = [])
    {m : Mem} (hm : ∀ c, cs.getLast? = some c → (m.read c.ptr c.len).isSome) :
    ∃ y s', parseDocument Y E R cs m s = .throw (.parsing "Parsers stack is empty" y) s' ∧ s'.st = st := by
  have h1 := parseDocument_run (E := E) (R := R) h hne hc hd hm
  rw [C41_trailing hr hs] at h1
  exact h1

/-- C41, as the user sees it. If YAJL reports (and takes for complete) only a part of the tokens that the parser would take, `finish()` throws a
`ParsingError`. -/
theorem C41_truncated {s : PSt Y} (h : Between Y R s) {cs : List Chunk} (hne : cs ≠ []) {bs : List UInt8} (hc : chunkBytes cs = some bs)
    {ts ts' : List Token} {t : Token} (hd : Y.Document bs ts) {st : St} (hr : run E R (ts ++ t :: ts') s.st.restart = .ok () st)
    {m : Mem} (hm : ∀ c, cs.getLast? = some c → (m.read c.ptr c.len).isSome) :
    ∃ y s', parseDocument Y E R cs m s = .throw (.parsing "Dispatcher parsers stack is not empty in the end" y) s' := by
  obtain ⟨s1, h1, h2⟩ := C41_incomplete hr
  have h3 := parseDocument_run (E := E) (R := R) h hne hc hd hm
  rw [h1] at h3
  simp only [if_neg h2] at h3
  obtain ⟨y, s', h3, _⟩ := h3
  exact ⟨y, s', h3⟩

section Examples
open Demo

theorem chunk_readable (t : String) : (chunk t).mem.read (chunk t).ptr (chunk t).len = some (bytes t) := by
  unfold chunk Mem.read
  by_cases h : (bytes t).length = 0
  · rw [if_pos h, List.length_eq_zero_iff.1 h]
  · simp [h, buffer]

theorem chunk_bytes (t : String) : chunkBytes [chunk t] = some (bytes t) := by simp [chunkBytes, chunk_readable]

theorem chunk_last (t : String) : ∀ c, [chunk t].getLast? = some c → ((buffer t).read c.ptr c.len).isSome := by
  intro c hc
  injection hc with hc; subst hc
  exact (congrArg Option.isSome (chunk_readable t) : _ = true)

/-- C41_trailing, C41_second_value: `{"name": ...}` twice. -/
example : fine accepting outer (events doc) (St.init outer) = true ∧ (after accepting outer (events doc) (St.init outer)).stack = [] ∧
    failure accepting outer (events doc ++ events doc) (St.init outer) = some (.std "Parsers stack is empty") := by decide +kernel

/-- C41_described, C41_incomplete: the hypotheses hold for every proper initial part of the 20 or so tokens of `doc`. -/
example : okVal outer doc = true ∧ outer.wf = true ∧ (events doc).length > 10 ∧
    ∀ n < (events doc).length, fine accepting outer ((events doc).take n) (St.init outer) = true ∧
      (after accepting outer ((events doc).take n) (St.init outer)).stack ≠ [] := by decide +kernel

example : ∃ s1, run accepting outer ((events doc).take 8) (St.init outer) = .ok () s1 ∧ s1.stack ≠ [] := by
  have hd : ∃ d, denote accepting.fmtDbl outer doc = .ok d := ⟨_, rfl⟩
  obtain ⟨d, hd⟩ := hd
  refine C41_described accepting_passive (Ready.init outer) (by decide +kernel) (j := doc) (by decide +kernel) hd (ts' := (events doc).drop 9) (t := (events doc)[8]'(by decide +kernel)) ?_
  simp

/-- C41_second_value: an array that was ended too early by a null element (see `C24_null_element`); its closing bracket is left over. -/
example :
    let ts : List Token := [.arrStart, .mapStart, .mapKey "r", .scalar (.int 1), .mapEnd, .null]
    ∃ st y s', run noCb circles ts (St.init circles) = .ok () st ∧ st.stack = [] ∧
      parseDocument yajl noCb circles [chunk "[{\"r\": 1}, null]"] (buffer "[{\"r\": 1}, null]") (PSt.init yajl circles) = .throw (.parsing "Parsers stack is empty" y) s' ∧ s'.st = st := by
  intro ts
  have hr : run noCb circles ts (St.init circles) = .ok () (after noCb circles ts (St.init circles)) := after_ok (by decide +kernel)
  have hs : (after noCb circles ts (St.init circles)).stack = [] := by decide +kernel
  obtain ⟨y, s', h⟩ := C41_second_value (Y := yajl) (E := noCb) (R := circles) (s := PSt.init yajl circles) .init (cs := [chunk "[{\"r\": 1}, null]"]) (by simp)
    (chunk_bytes _) (ts := ts) (t := .arrEnd) (ts' := []) (document_of (by decide +kernel) (by decide +kernel) (by decide +kernel)) hr hs
    (m := buffer "[{\"r\": 1}, null]") (chunk_last _)
  exact ⟨_, y, s', hr, hs, h⟩

/-- C41_truncated: a standalone union takes a bare type value and waits for the rest. -/
def variantOuter : Shape := .union .str "t" false [({ name := .str "a" }, outer)]
def longTokens : List Token := [.scalar (.str "a")] ++ .mapStart :: (events doc).drop 1

example : ∃ y s', parseDocument yajl noCb variantOuter [chunk "\"a\""] (buffer "\"a\"") (PSt.init yajl variantOuter) =
      .throw (.parsing "Dispatcher parsers stack is not empty in the end" y) s' := by
  have hr : run noCb variantOuter longTokens (St.init variantOuter) = .ok () (after noCb variantOuter longTokens (St.init variantOuter)) := after_ok (by decide +kernel)
  exact C41_truncated (Y := yajl) (E := noCb) (R := variantOuter) (s := PSt.init yajl variantOuter) .init (cs := [chunk "\"a\""]) (by simp)
    (chunk_bytes _) (ts := [.scalar (.str "a")]) (t := .mapStart) (ts' := (events doc).drop 1) (document_of (by decide +kernel) (by decide +kernel) (by decide +kernel))
    hr (m := buffer "\"a\"") (chunk_last _)

end Examples

end SJ
