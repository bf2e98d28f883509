/-
C45: callbacks are called as soon as the value they belong to is complete, while the rest of the document is still to come.
-/
import Verif.Proofs.Timed
import Verif.Props.Whole
import Verif.DemoYajl

set_option linter.unusedVariables false

namespace SJ

variable {Y : Yajl} {E : Env} {R : Shape}

/-- The beginning of a document, in any outcome. -/
theorem streaming {s : St} (hr : Ready R s) (hw : R.wf = true) {j : Json} (hok : okVal R j = true) {a b : List Token} (hj : events j = a ++ b) :
    TracesR E (dueBefore a.length (timed R [] 0 j)) s.log (run E R a s) := by
  by_cases hb : b = []
  · subst hb
    have h2 : dueBefore a.length (timed R [] 0 j) = ends R [] j := by
      rw [dueBefore_all (timed_span j R [] 0) (by rw [hj]; simp), timed_ends]
    rw [List.append_nil] at hj
    have h1 := evalVal_traces (E := E) (R := R) j R [] s rfl
    rw [h2, ← hj, run_eval hr (wf_user hw) hok]
    have := TracesR.bind (es' := []) h1 (f := fun _ => pop E R) (fun _ s1 h => by
      have hk := evalVal_keep j R [] rfl s () s1 h
      rw [Ready.pop_done (hk.1.trans hr.stack)]
      exact Called.refl _)
    simpa using this
  · have := cut_val (E := E) (R := R) j R [] [] a b 0 s rfl hr.stack hr.disp hr.sane (by rintro rfl; simp [Shape.wf] at hw) hok hj hb
    simpa using this

/-- C45. `timed` is the list of callbacks of C20, with positions added ... -/
theorem C45_all (j : Json) : (timed R [] 0 j).map (·.2) = ends R [] j := timed_ends j R [] 0

/-- C45. ... which are positions in the document and do not decrease. -/
theorem C45_positions (j : Json) : (∀ x ∈ timed R [] 0 j, x.1 < (events j).length) ∧ (timed R [] 0 j).Pairwise fun x y => x.1 ≤ y.1 :=
  ⟨fun x hx => by have := (timed_span j R [] 0 x hx).2; omega, timed_sorted j R [] 0⟩

/-- C45. When the first tokens `a` of a document have been read, exactly the callbacks of the values that end within `a` have been called, in the
order of these ends - whatever comes afterwards, and whether the document will be accepted or not. -/
theorem C45_so_far {s s' : St} (h0 : Survived R s) (hw : R.wf = true) {j : Json} (hok : okVal R j = true) {a b : List Token} (hj : events j = a ++ b)
    (h : run E R a s = .ok () s') : Called (withCallback E (dueBefore a.length (timed R [] 0 j))) s.log s'.log := by
  have := streaming (E := E) (h0.ready hw) hw hok hj
  rw [h] at this
  exact this

/-- C45. A token causes exactly the callbacks of the values that it ends. -/
theorem C45_token {s s1 s2 : St} (h0 : Survived R s) (hw : R.wf = true) {j : Json} (hok : okVal R j = true) {a b : List Token} {t : Token}
    (hj : events j = a ++ t :: b) (h1 : run E R a s = .ok () s1) (h2 : dispatch E R t s1 = .ok () s2) :
    Called (withCallback E (dueAt a.length (timed R [] 0 j))) s1.log s2.log := by
  have e1 := C45_so_far h0 hw hok hj h1
  have h3 : run E R (a ++ [t]) s = .ok () s2 := by
    rw [run_append' a [t] s, M.bind, h1]
    simp only [run, M.bind, h2, M.pure]
  have e2 := C45_so_far h0 hw hok (a := a ++ [t]) (b := b) (by rw [hj]; simp) h3
  rw [List.length_append, List.length_singleton, dueBefore_succ _ (timed_sorted j R [] 0), withCallback_append] at e2
  have hg := C21_success (E := E) (R := R) (ts := [t]) (s := s1) (s' := s2) (by simp only [run, M.bind, h2, M.pure])
  obtain ⟨new, hn, _⟩ := hg.split
  obtain ⟨n1, f1, f2⟩ := e1
  obtain ⟨n2, g1, g2⟩ := e2
  refine ⟨new, hn, ?_⟩
  have : n2 = new ++ n1 := by
    have : n2 ++ s.log = (new ++ n1) ++ s.log := by rw [← g1, hn, f1, List.append_assoc]
    exact List.append_cancel_right this
  rw [this, List.reverse_append, List.map_append, f2] at g2
  exact List.append_cancel_left g2

/-- C45. If a token is refused, the callbacks called by then are those due before it, and possibly the first ones of those due at it. -/
theorem C45_refused {s s1 s2 : St} (h0 : Survived R s) (hw : R.wf = true) {j : Json} (hok : okVal R j = true) {a b : List Token} {t : Token} {e : Exn}
    (hj : events j = a ++ t :: b) (h1 : run E R a s = .ok () s1) (h2 : dispatch E R t s1 = .throw e s2) :
    ∃ calls, calls <+: withCallback E (dueAt a.length (timed R [] 0 j)) ∧ Called calls s1.log s2.log := by
  have e1 := C45_so_far h0 hw hok hj h1
  have h3 : run E R (a ++ [t]) s = .throw e s2 := by
    rw [run_append' a [t] s, M.bind, h1]
    simp only [run, M.bind, h2]
  have e2 := streaming (E := E) (h0.ready hw) hw hok (a := a ++ [t]) (b := b) (by rw [hj]; simp)
  rw [h3] at e2
  obtain ⟨pre, hp, e2⟩ := e2
  rw [List.length_append, List.length_singleton, dueBefore_succ _ (timed_sorted j R [] 0), withCallback_append] at hp
  have hg : ∃ new, s2.log = new ++ s1.log := by
    rcases C21_failure (E := E) (R := R) (ts := [t]) (s := s1) (s' := s2) (e := e) (by simp only [run, M.bind, h2]) with hg | ⟨c, l, v, g1, g2, g3, g4⟩
    · obtain ⟨new, hn, _⟩ := hg.split; exact ⟨new, hn⟩
    · obtain ⟨new, hn, _⟩ := g2.split; exact ⟨c :: new, by rw [g1, hn]; rfl⟩
  obtain ⟨new, hn⟩ := hg
  obtain ⟨n1, f1, f2⟩ := e1
  obtain ⟨n2, g1, g2⟩ := e2
  refine ⟨new.reverse.map Call.name, ?_, new, hn, rfl⟩
  have : n2 = new ++ n1 := by
    have : n2 ++ s.log = (new ++ n1) ++ s.log := by rw [← g1, hn, f1, List.append_assoc]
    exact List.append_cancel_right this
  rw [this, List.reverse_append, List.map_append, f2] at g2
  rw [← g2] at hp
  exact (List.prefix_append_right_inj _).1 hp

/-- C45, as the user sees it. A document comes in two parts, each of them in any number of pieces. When `parse()` has returned for the pieces of the first
part, exactly the callbacks of those values have been called that end within the tokens YAJL has reported for it. -/
theorem C45_text (hw : R.wf = true) {s s' : PSt Y} (h : ServedDocs Y R s) {cs : List Chunk} (hne : cs ≠ []) {bs rest : List UInt8} {j : Json}
    (hc : chunkBytes cs = some bs) (hd : Y.Document (bs ++ rest) (events j)) (hok : okVal R j = true) (hp : parseAll Y E R cs s = .ok () s') :
    Called (withCallback E (dueBefore (Y.scan Y.alloc bs).2.1.length (timed R [] 0 j))) s.st.log s'.st.log := by
  obtain ⟨f1, f2⟩ := h.facts
  have hrun := parseAll_run (E := E) (R := R) f1.facts.1.facts.1 hne hc
  rw [f1.facts.2.1, f1.facts.2.2] at hrun
  obtain ⟨hh, hh', ts1, ts2, d1, d2, d3⟩ := hd
  rw [scan_append] at d1
  have hpre : ∃ b, events j = (Y.scan Y.alloc bs).2.1 ++ b := by
    split at d1
    · simp only [Prod.mk.injEq] at d1
      exact ⟨(Y.scan (Y.scan Y.alloc bs).1 rest).2.1 ++ ts2, by rw [d3, ← d1.2.1, List.append_assoc]⟩
    · exact ⟨ts2, by rw [d3, d1]⟩
  obtain ⟨b, hb⟩ := hpre
  have hst := streaming (E := E) (s := s.st.restart) (f2.ready (wf_user hw)) hw hok hb
  cases hr : run E R (Y.scan Y.alloc bs).2.1 s.st.restart with
  | ok u st =>
    rw [hr] at hrun hst
    simp only at hrun
    split at hrun
    · obtain ⟨s1, g1, g2⟩ := hrun
      rw [hp] at g1; injection g1 with _ g1; subst g1
      have : s'.st = st := by
        have := congrArg PSt.st g2
        simpa [PSt.unbuffered, PSt.opened] using this
      rw [this]; exact hst
    · obtain ⟨y, s1, g1, _⟩ := hrun
      rw [hp] at g1; simp at g1
  | throw e st =>
    rw [hr] at hrun
    obtain ⟨y, s1, g1, _⟩ := hrun
    rw [hp] at g1; simp at g1
  | ub => rw [hr] at hrun; simp only at hrun; rw [hp] at hrun; simp at hrun
  | fuel => rw [hr] at hrun; simp only at hrun; rw [hp] at hrun; simp at hrun

/-! ### Examples -/

section Examples
open Demo

/-- The beginning of `Demo.doc`: `{"name": "x", "part": {"tags": ["a", "b"`, nine tokens ... -/
def opening : List Token := [.mapStart, .mapKey "name", .scalar (.str "x"), .mapKey "part", .mapStart, .mapKey "tags", .arrStart, .scalar (.str "a"), .scalar (.str "b")]
def remainder : List Token := (events doc).drop 9

/-- ... which cause three calls: `name` and two elements of `tags` are complete. (C45_so_far) -/
example : ∃ s', run accepting outer opening (St.init outer) = .ok () s' ∧
    Called [.finish [.mem 0], .finish [.elem, .mem 1, .mem 1], .finish [.elem, .mem 1, .mem 1]] [] s'.log := by
  have h : run accepting outer opening (St.init outer) = .ok () (after accepting outer opening (St.init outer)) := after_ok (by decide +kernel)
  refine ⟨_, h, ?_⟩
  have h1 := C45_so_far .init (by decide +kernel) (j := doc) (by decide +kernel) (a := opening) (b := remainder) (by decide +kernel) h
  have h2 : withCallback accepting (dueBefore opening.length (timed outer [] 0 doc)) =
    [.finish [.mem 0], .finish [.elem, .mem 1, .mem 1], .finish [.elem, .mem 1, .mem 1]] := by decide +kernel
  rw [h2] at h1
  exact h1

/-- C45_token: the closing bracket then causes the call of `tags`. -/
example : ∃ s1 s2, run accepting outer opening (St.init outer) = .ok () s1 ∧ dispatch accepting outer .arrEnd s1 = .ok () s2 ∧
    Called [.finish [.mem 1, .mem 1]] s1.log s2.log := by
  have h : run accepting outer opening (St.init outer) = .ok () (after accepting outer opening (St.init outer)) := after_ok (by decide +kernel)
  have h' : dispatch accepting outer .arrEnd (after accepting outer opening (St.init outer)) =
      .ok () (after accepting outer [.arrEnd] (after accepting outer opening (St.init outer))) := after_token (by decide +kernel)
  refine ⟨_, _, h, h', ?_⟩
  have h1 := C45_token .init (by decide +kernel) (j := doc) (by decide +kernel) (a := opening) (b := remainder.tail) (t := .arrEnd) (by decide +kernel) h h'
  have h2 : withCallback accepting (dueAt opening.length (timed outer [] 0 doc)) = [.finish [.mem 1, .mem 1]] := by decide +kernel
  rw [h2] at h1
  exact h1

/-- `{"id": 2, "kind": "circle", "r": 7}` -/
def circleDoc : Json := .obj [("id", .sc (.int 2)), ("kind", .sc (.str "circle")), ("r", .sc (.int 7))]

/-- C45_token, when the closing brace ends three values: the alternative `circle`, the embedded union and the object. -/
example : ∃ s1 s2, run accepting tagged (events circleDoc).dropLast (St.init tagged) = .ok () s1 ∧ dispatch accepting tagged .mapEnd s1 = .ok () s2 ∧
    Called [.finish [.mem 0, .mem 1], .finish [.mem 1], .finish []] s1.log s2.log := by
  have h : run accepting tagged (events circleDoc).dropLast (St.init tagged) = .ok () (after accepting tagged (events circleDoc).dropLast (St.init tagged)) := after_ok (by decide +kernel)
  have h' : dispatch accepting tagged .mapEnd (after accepting tagged (events circleDoc).dropLast (St.init tagged)) =
      .ok () (after accepting tagged [.mapEnd] (after accepting tagged (events circleDoc).dropLast (St.init tagged))) := after_token (by decide +kernel)
  refine ⟨_, _, h, h', ?_⟩
  have h1 := C45_token .init (by decide +kernel) (j := circleDoc) (by decide +kernel) (a := (events circleDoc).dropLast) (b := []) (t := .mapEnd) (by decide +kernel) h h'
  have h2 : withCallback accepting (dueAt (events circleDoc).dropLast.length (timed tagged [] 0 circleDoc)) = [.finish [.mem 0, .mem 1], .finish [.mem 1], .finish []] := by decide +kernel
  rw [h2] at h1
  exact h1

/-- The callback of the embedded union says no. -/
def pickyUnion : Env := { accepting with onFinish := fun p => some fun _ _ => { verdict := if p = [.mem 1] then .reject else .accept } }

/-- C45_refused: then the first two of these three are called. -/
example : ∃ s1 s2 e, run pickyUnion tagged (events circleDoc).dropLast (St.init tagged) = .ok () s1 ∧ dispatch pickyUnion tagged .mapEnd s1 = .throw e s2 ∧
    (s2.log.take 2).map Call.name = [.finish [.mem 1], .finish [.mem 0, .mem 1]] ∧
    ∃ calls, calls <+: [.finish [.mem 0, .mem 1], .finish [.mem 1], .finish []] ∧ Called calls s1.log s2.log := by
  have h : run pickyUnion tagged (events circleDoc).dropLast (St.init tagged) = .ok () (after pickyUnion tagged (events circleDoc).dropLast (St.init tagged)) := after_ok (by decide +kernel)
  have h' : dispatch pickyUnion tagged .mapEnd (after pickyUnion tagged (events circleDoc).dropLast (St.init tagged)) =
      .throw (.std "Callback returned false") (after pickyUnion tagged [.mapEnd] (after pickyUnion tagged (events circleDoc).dropLast (St.init tagged))) := after_token_throw (by decide +kernel)
  refine ⟨_, _, _, h, h', by decide +kernel, ?_⟩
  have h1 := C45_refused .init (by decide +kernel) (j := circleDoc) (by decide +kernel) (a := (events circleDoc).dropLast) (b := []) (t := .mapEnd) (by decide +kernel) h h'
  have h2 : withCallback pickyUnion (dueAt (events circleDoc).dropLast.length (timed tagged [] 0 circleDoc)) = [.finish [.mem 0, .mem 1], .finish [.mem 1], .finish []] := by decide +kernel
  rw [h2] at h1
  exact h1

/-- C45_text: `{"name": "x", "part": {"tags": ["a","b"` has been fed. -/
def firstPart : String := "{\"name\": \"x\", \"part\": {\"tags\": [\"a\",\"b\""
def secondPart : String := "], \"id\": 7}, \"limits\": {\"b\": 2, \"a\": 1}, \"more\": [1]}"
def started : PSt yajl := left (parseAll yajl accepting outer [chunk firstPart] (PSt.init yajl outer)) (PSt.init yajl outer)
example : Called [.finish [.mem 0], .finish [.elem, .mem 1, .mem 1], .finish [.elem, .mem 1, .mem 1]] [] started.st.log := by
  have h1 := C45_text (E := accepting) (Y := yajl) (R := outer) (s' := started) (by decide +kernel) .init (cs := [chunk firstPart]) (by simp) (bs := bytes firstPart) (rest := bytes secondPart)
    (j := doc) (chunk_bytes _) (document_of (by decide +kernel) (by decide +kernel) (by decide +kernel)) (by decide +kernel) (left_ok (by decide +kernel))
  have h2 : withCallback accepting (dueBefore (yajl.scan yajl.alloc (bytes firstPart)).2.1.length (timed outer [] 0 doc)) =
    [.finish [.mem 0], .finish [.elem, .mem 1, .mem 1], .finish [.elem, .mem 1, .mem 1]] := by decide +kernel
  rw [h2] at h1
  exact h1

end Examples

end SJ
