/-
C50: callbacks that only watch can be added, removed and replaced at any time.
-/
import Verif.Proofs.Watch
import Verif.Demo
import Verif.DemoYajl

namespace SJ

variable {E E' : Env} {R : Shape}

/-- C50. Whatever callbacks a parser has, effects and all: if callbacks that only watch are added in places where there were none, then for every sequence of
tokens, well-formed or not, from every state, the outcome is the same (the same exception, if any), all stored values, flags and current parsers are the same, and
the callbacks that were there before are called with the same arguments in the same order. -/
theorem C50_added (h : AddsWatchers E E') (hi : Independent E) (ts : List Token) {s s' : St} (hs : SameBesides (CallsOf E) s s') :
    SameEnd (CallsOf E) (run E R ts s) (run E' R ts s') := Par.run (h.parallel hi) ts s s' hs

/-- C50, for a text in any number of chunks with `finish()` in the end: additionally the `ParsingError`, if any, is the same. -/
theorem C50_added_document {Y : Yajl} (h : AddsWatchers E E') (hi : Independent E) (cs : List Chunk) (m : Mem) {s s' : PSt Y}
    (hs : SameBesidesP (CallsOf E) s s') : SameEndP (CallsOf E) (parseDocument Y E R cs m s) (parseDocument Y E' R cs m s') :=
  ParP.parseDocument (h.parallel hi) cs m s s' hs

/-- C50. Any two sets of watching callbacks, from any state: the same outcome and the same state, and the new calls of the two are the same sequence of reports,
restricted to the callbacks that each of them has. -/
theorem C50_watching (h : Passive E) (h' : Passive E') (ht : E'.fmtDbl = E.fmtDbl) (ts : List Token) {s s' : St} (hh : s'.heap = s.heap)
    (hst : s'.stack = s.stack) : SameEnd (SameReports E E' s.log s'.log) (run E R ts s) (run E' R ts s') :=
  Par.run (h.parallel h' ht _ _) ts s s' ⟨hh, hst, [], rfl, rfl⟩

/-- C50, the same for one `parse()`. -/
theorem C50_watching_parse {Y : Yajl} (h : Passive E) (h' : Passive E') (ht : E'.fmtDbl = E.fmtDbl) (m : Mem) (p : Ptr) (len : Nat) (s : PSt Y) :
    SameEndP (SameReports E E' s.st.log s.st.log) (parse Y E R m p len s) (parse Y E' R m p len s) :=
  ParP.parse (h.parallel h' ht _ _) m p len s s (.refl s ⟨[], rfl, rfl⟩)

/-- C50, the same for a whole document. -/
theorem C50_watching_document {Y : Yajl} (h : Passive E) (h' : Passive E') (ht : E'.fmtDbl = E.fmtDbl) (cs : List Chunk) (m : Mem) (s : PSt Y) :
    SameEndP (SameReports E E' s.st.log s.st.log) (parseDocument Y E R cs m s) (parseDocument Y E' R cs m s) :=
  ParP.parseDocument (h.parallel h' ht _ _) cs m s s (.refl s ⟨[], rfl, rfl⟩)

/-- C50. Watching callbacks are added, removed and replaced in the middle of a document, any number of times: the outcome and the state are the same as if all of
them had been there all the time, and the calls are some of the calls that are made then, with the same arguments and in the same order. -/
theorem C50_replaced (hE : Passive E) (parts : List (Env × List Token)) (h : ∀ x ∈ parts, WatchesLess x.1 E) (s : St) :
    SameEnd List.Sublist (runParts R parts s) (run E R (parts.flatMap (·.2)) s) :=
  runParts_parallel hE parts h s s ⟨rfl, rfl, .refl _⟩

/-- C50, the same for `parse()`, the callbacks being replaced between the chunks. -/
theorem C50_replaced_parse {Y : Yajl} (hE : Passive E) (parts : List (Env × Chunk)) (h : ∀ x ∈ parts, WatchesLess x.1 E) (s : PSt Y) :
    SameEndP List.Sublist (parseParts Y R parts s) (parseAll Y E R (parts.map (·.2)) s) :=
  parseParts_parallel hE parts h s s (.refl s (.refl _))

section Examples
open Demo
attribute [local irreducible] SameEnd SameEndP

/-- The finish callback at `p` does `out` whatever happened; there are no others. -/
def only (p : Path) (out : CbOut) : Env := { onFinish := fun q => if q = p then some fun _ _ => out else none, onElement := fun _ => none, fmtDbl := fun _ => "" }

theorem only_independent (p : Path) (out : CbOut) : Independent (only p out) :=
  ⟨fun q cb h l a => by simp only [only] at h; split at h <;> simp at h; subst h; rfl, fun q cb h => by simp [only] at h⟩

/-- The same and watchers everywhere else. -/
def onlyAnd (p : Path) (out : CbOut) : Env :=
  { onFinish := fun q => if q = p then some fun _ _ => out else some fun _ _ => {}, onElement := fun _ => some fun _ _ _ => {}, fmtDbl := fun _ => "" }

theorem only_adds (p : Path) (out : CbOut) : AddsWatchers (only p out) (onlyAnd p out) where
  finish q cb h := by
    simp only [only] at h
    split at h
    · next hq => simp only [onlyAnd, if_pos hq]; exact h
    · simp at h
  element q cb h := by simp [only] at h
  newFinish q cb h h' := by
    simp only [only] at h
    split at h
    · simp at h
    · next hq => simp only [onlyAnd, if_neg hq] at h'; injection h' with h'; subst h'; exact fun _ _ => ⟨rfl, rfl, rfl⟩
  newElement q cb _ h' := by simp only [onlyAnd] at h'; injection h' with h'; subst h'; exact fun _ _ _ => ⟨rfl, rfl⟩
  text := rfl

/-- C50_added: a callback that rejects the map of limits; with and without watchers. -/
example : (∃ s, run (only [.mem 2] { verdict := .reject }) outer (events doc) (St.init outer) = .throw (.std "Callback returned false") s ∧ s.log.length = 1) ∧
    ∃ s', run (onlyAnd [.mem 2] { verdict := .reject }) outer (events doc) (St.init outer) = .throw (.std "Callback returned false") s' ∧ s'.log.length = 11 := by
  have h1 := after_throw (E := only [.mem 2] { verdict := .reject }) (R := outer) (ts := events doc) (s := St.init outer) (e := .std "Callback returned false") (by decide +kernel)
  have h3 := after_throw (E := onlyAnd [.mem 2] { verdict := .reject }) (R := outer) (ts := events doc) (s := St.init outer) (e := .std "Callback returned false") (by decide +kernel)
  obtain ⟨s', h2, _⟩ := (C50_added (R := outer) (only_adds [.mem 2] { verdict := .reject }) (only_independent _ _) (events doc) (s := St.init outer)
    (s' := St.init outer) ⟨rfl, rfl, rfl⟩).throw_left h1
  refine ⟨⟨_, h1, by decide +kernel⟩, s', h2, ?_⟩
  have h4 : ∀ {r : Res Unit} {e : Exn} {s t : St}, r = .throw e s → r = .throw e t → s = t := fun h h' => by subst h; injection h'
  rw [← h4 h3 h2]
  decide +kernel

/-- C50_watching: no callbacks and all callbacks. -/
example : SameEnd (SameReports noCb accepting (St.init outer).log (St.init outer).log) (run noCb outer (events doc) (St.init outer))
      (run accepting outer (events doc) (St.init outer)) ∧
    (after noCb outer (events doc) (St.init outer)).log.length = 0 ∧ (after accepting outer (events doc) (St.init outer)).log.length = 12 :=
  ⟨C50_watching noCb_passive accepting_passive rfl _ rfl rfl, by decide +kernel, by decide +kernel⟩

/-- C50_replaced: the callbacks are removed after the seventh token and set again after the eleventh. -/
def inParts : List (Env × List Token) := [(accepting, (events doc).take 7), (noCb, ((events doc).drop 7).take 4), (accepting, (events doc).drop 11)]

theorem inParts_watch : ∀ x ∈ inParts, WatchesLess x.1 accepting := by
  intro x hx
  simp only [inParts, List.mem_cons, List.not_mem_nil, or_false] at hx
  rcases hx with rfl | rfl | rfl
  · exact ⟨accepting_passive, fun _ h => h, rfl⟩
  · exact ⟨noCb_passive, fun c h => by cases c <;> simp [Call.isOf, noCb] at h, rfl⟩
  · exact ⟨accepting_passive, fun _ h => h, rfl⟩

example : ∃ s, runParts outer inParts (St.init outer) = .ok () s ∧ get [.mem 1] s = .ok (.tup [.sc (.int 7), .arr [.sc (.str "a"), .sc (.str "b")]]) s := by
  have h := C50_replaced (R := outer) accepting_passive inParts inParts_watch (St.init outer)
  have e : inParts.flatMap (·.2) = events doc := by decide +kernel
  rw [e] at h
  obtain ⟨s, h3, h4⟩ := h.ok_right (after_ok (by decide +kernel))
  refine ⟨s, h3, ?_⟩
  have h1 : ((after accepting outer (events doc) (St.init outer)).heap [.mem 1]).set = true := by decide +kernel
  have h2 : ((after accepting outer (events doc) (St.init outer)).heap [.mem 1]).val = .tup [.sc (.int 7), .arr [.sc (.str "a"), .sc (.str "b")]] :=
    sameV_eq (by decide +kernel)
  rw [h4.heap] at h1 h2
  simp [get, h1, h2]

/-- C50_watching_document, C50_replaced_parse: a text in one chunk. -/
example : SameEndP (SameReports noCb accepting (PSt.init yajl outer).st.log (PSt.init yajl outer).st.log) (parseDocument yajl noCb outer [chunk text] (buffer text) (PSt.init yajl outer))
    (parseDocument yajl accepting outer [chunk text] (buffer text) (PSt.init yajl outer)) :=
  C50_watching_document noCb_passive accepting_passive rfl _ _ _

end Examples

end SJ
