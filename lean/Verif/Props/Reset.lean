/-
C61: `reset()` called by the user. That it may be called at any time is part of the definition of all histories (`History`, `Used`, `Feeding`, ...).
-/
import Verif.Proofs.Access
import Verif.Proofs.Alike
import Verif.Props.Reuse
import Verif.Props.Api
import Verif.Props.Session

set_option linter.unusedVariables false

namespace SJ

variable {E : Env} {R : Shape} {Y : Yajl}

/-- The parser at `q` is the one at `p` or inside it, and there is no map on the way (`Map` and `SMap` do not pass `reset()` on to their element parser). -/
def ResetWith (R : Shape) (p q : Path) : Prop := p <:+ q ∧ ∀ r, p <:+ r → r <:+ q → r ≠ q → ∀ b e, R.at r ≠ some (.map b e)

theorem ResetWith.clear {p : Path} : ∀ {q : Path}, ResetWith R p q → Clear R p q
  | q, h => by
    by_cases hq : p = q
    · subst hq; exact .refl
    · match q, h with
      | [], h => exact absurd (List.suffix_nil.1 h.1) hq
      | st :: q, h =>
        rcases List.suffix_cons_iff.1 h.1 with h1 | h1
        · exact absurd h1 hq
        · have hne : q ≠ st :: q := fun e => by have := congrArg List.length e; simp at this
          exact .step (ResetWith.clear ⟨h1, fun r h2 h3 h4 => h.2 r h2 (h3.trans (List.suffix_cons _ _))
            fun e => by subst e; have := h3.length_le; simp at this; omega⟩) (h.2 q h1 (List.suffix_cons _ _) hne)

theorem resetWith_of : ∀ {p q : Path}, Clear R p q → ResetWith R p q := by
  intro p q h
  induction h with
  | refl => exact ⟨List.suffix_refl _, fun r h1 h2 h3 => absurd (h2.eq_of_length_le h1.length_le) h3⟩
  | @step q st h hm ih =>
    refine ⟨ih.1.trans (List.suffix_cons _ _), fun r h1 h2 h3 => ?_⟩
    rcases List.suffix_cons_iff.1 h2 with h4 | h4
    · exact absurd h4 h3
    · by_cases h5 : r = q
      · subst h5; exact hm
      · exact ih.2 r h1 h4 h5

/-- C61: after `reset()` the parser and all inside it (but those inside maps) are unset and empty; `get()` throws. -/
theorem C61_cleared {p q : Path} {sh shq : Shape} (hp : R.at p = some sh) (hq : R.at q = some shq) (h : ResetWith R p q) (s : St) :
    isSet q (reset' p sh s) = false ∧ isEmpty q (reset' p sh s) = true ∧
      get q (reset' p sh s) = .throw (.std "Can't get value, parser is unset") (reset' p sh s) := by
  have h1 := (resetH_clear s.heap hq q.length p sh (by omega) hp h.1).1 h.clear
  have h2 : (resetH p sh s.heap q).set = false ∧ (resetH p sh s.heap q).empty = true := by
    rw [h1]
    cases shq with
    | object k u ms => cases k <;> exact ⟨rfl, rfl⟩
    | _ => exact ⟨rfl, rfl⟩
  exact ⟨h2.1, h2.2, by rw [C18_get]; simp only [isSet, reset', h2.1, Bool.false_eq_true, if_false]⟩

/-- C61: every other parser, and the current ones, are as before; no callback is called. -/
theorem C61_kept {p q : Path} {sh shq : Shape} (hp : R.at p = some sh) (hq : R.at q = some shq) (h : ¬ ResetWith R p q) (s : St) :
    (reset' p sh s).heap q = s.heap q ∧ (reset' p sh s).stack = s.stack ∧ (reset' p sh s).log = s.log := by
  refine ⟨?_, rfl, rfl⟩
  by_cases hb : p <:+ q
  · exact (resetH_clear s.heap hq q.length p sh (by omega) hp hb).2 fun hc => h (resetWith_of hc)
  · exact resetH_frame sh p s.heap q hb

/-- C61: a second `reset()` changes nothing. -/
theorem C61_twice {p q : Path} {sh shq : Shape} (hp : R.at p = some sh) (hq : R.at q = some shq) (s : St) :
    (reset' p sh (reset' p sh s)).heap q = (reset' p sh s).heap q := by
  by_cases h : ResetWith R p q
  · have h1 := fun h' => (resetH_clear h' hq q.length p sh (by omega) hp h.1).1 h.clear
    simp only [reset']
    rw [h1, h1, resetCell_idem]
  · rw [(C61_kept hp hq h _).1]

/-- C61: between documents `reset()` of any parser makes no difference to the next document. -/
theorem C61_between (hE : Passive E) (hw : R.wf = true) {s : St} (h : Survived R s) {p : Path} {sh : Shape} (hp : R.at p = some sh) {j : Json}
    (hok : okVal R j = true) : SameOutcome E R j (reset' p sh s) s :=
  Ready.same hE ((h.ready hw).reset) (h.ready hw) hw hok

/-- C61: while an object, a map or a standalone union is the only current parser, `reset()` of it does exactly what the opening brace does. -/
theorem C61_brace (hk : R.keyed = true) {s : St} (hs : s.stack = [[]]) (ts : List Token) : run E R ts (reset' [] R s) = run E R (.mapStart :: ts) s := by
  rw [run_cons, M.bind, dispatch_cons hs rfl, onF_mapStart hk]
  rfl

theorem ready_midway (hw : R.wf = true) (hk : R.keyed = true) {E0 : Env} {s s1 : St} (h : Survived R s) {ts : List Token}
    (ht : ¬ Arrives E0 R (NullElement R) ts s) (hr : run E0 R ts s = .ok () s1) (hs : s1.stack = [[]]) : Ready R s1 := by
  have h1 := run_open (E := E0) (noIgnoreElem hw) ts ht (h.ready hw).opened
  rw [hr] at h1
  have h2 := OpenedX.ready h1.x fun q hq => by
    rw [hs] at hq
    simp at hq; subst hq
    cases hd : (s1.heap []).started with
    | false => rfl
    | true =>
      obtain ⟨st, e, h3⟩ := h1.x.ctl.arr [] hd
      simp only [Shape.at] at h3
      injection h3 with h3; subst h3
      simp [Shape.keyed] at hk
  have : s1.restart = s1 := by unfold St.restart; rw [← hs]
  rwa [this] at h2

/-- C61: `reset()` of the root in the middle of a document makes it forget what it has read: if the root is the only current parser after some tokens `ts`, and
the user calls `reset()` and then the fields of the object `fs` and the closing brace arrive, the result is that of the document `{fs}`: the same as
with a parser just constructed. -/
theorem C61_midway (hE : Passive E) (hw : R.wf = true) (hk : R.keyed = true) {E0 : Env} {s s1 : St} (h : Survived R s) {ts : List Token}
    (ht : ¬ Arrives E0 R (NullElement R) ts s) (hr : run E0 R ts s = .ok () s1) (hs : s1.stack = [[]]) {fs : List (String × Json)} (hok : okVal R (.obj fs) = true) :
    ∃ rest, events (.obj fs) = .mapStart :: rest ∧ run E R rest (reset' [] R s1) = run E R (events (.obj fs)) s1 ∧
      SameOutcome E R (.obj fs) s1 (St.init R) := by
  refine ⟨(events (.obj fs)).tail, by simp [events], ?_, Ready.same hE (ready_midway hw hk h ht hr hs) (Ready.init R) hw hok⟩
  rw [C61_brace hk hs]
  simp [events]

section Examples
open Demo

/-- `{a: int, list: [int], table: {string: int}}` -/
def resetDemo : Shape := .object .plain true
  [({ name := .str "a" }, .value .int), ({ name := .str "list", optional := true }, .array true (.value .int)),
   ({ name := .str "table", optional := true }, .map false (.value .int))]

/-- `{"a": 1, "list": [2], "table": {"k": 3}}` -/
def resetDoc : Json := .obj [("a", .sc (.int 1)), ("list", .arr [.sc (.int 2)]), ("table", .obj [("k", .sc (.int 3))])]
def resetRead : St := after noCb resetDemo (events resetDoc) (St.init resetDemo)

/-- C61_cleared, C61_kept: after the document everything is set; after `reset()` of the root only the element parser of the map is, which is not reached. -/
example : isSet [] resetRead = true ∧ isSet [.mem 1] resetRead = true ∧ isSet [.elem, .mem 2] resetRead = true := by decide +kernel
example : ResetWith resetDemo [] [.elem, .mem 1] := resetWith_of (.step (.step .refl (by simp [resetDemo, Shape.at])) (by simp [resetDemo, Shape.at, Shape.child]))
example : ¬ ResetWith resetDemo [] [.elem, .mem 2] := fun h => h.2 [.mem 2] (by simp) (by simp) (by simp) false (.value .int) rfl
example : isSet [.mem 1] (reset' [] resetDemo resetRead) = false :=
  (C61_cleared (R := resetDemo) (shq := .array true (.value .int)) rfl rfl (resetWith_of (.step .refl (by simp [resetDemo, Shape.at]))) resetRead).1
example : (reset' [] resetDemo resetRead).heap [.elem, .mem 2] = resetRead.heap [.elem, .mem 2] :=
  (C61_kept (R := resetDemo) (shq := .value .int) rfl rfl
    (fun h => h.2 [.mem 2] (by simp) (by simp) (by simp) false (.value .int) rfl) resetRead).1

/-- C61_between: the parser has read a document, the array in it was reset. -/
example : SameOutcome accepting resetDemo resetDoc (reset' [.mem 1] (.array true (.value .int)) resetRead.restart) resetRead.restart :=
  C61_between accepting_passive (by decide +kernel) (.doc (E := noCb) resetDoc .init (by decide +kernel) (after_ok (by decide +kernel))) rfl (by decide +kernel)

/-- C61_midway: `{"a": 1, "list": [2]`, then `reset()`, then `"table": {"k": 3}}`: without the reset the document is accepted, with it the mandatory member is missing
(`get<0>()` throws), as for `{"table": {"k": 3}}`. -/
def beforeReset : List Token := [.mapStart, .mapKey "a", .scalar (.int 1), .mapKey "list", .arrStart, .scalar (.int 2), .arrEnd]
def afterReset : List Token := [.mapKey "table", .mapStart, .mapKey "k", .scalar (.int 3), .mapEnd, .mapEnd]
def midway : St := after noCb resetDemo beforeReset (St.init resetDemo)

example : midway.stack = [[]] ∧ isSet [.mem 0] (after noCb resetDemo afterReset midway) = true ∧
    isSet [.mem 0] (after noCb resetDemo afterReset (reset' [] resetDemo midway)) = false ∧
    isSet [.mem 2] (after noCb resetDemo afterReset (reset' [] resetDemo midway)) = true := by decide +kernel

theorem resetDemo_nulls {ts : List Token} (h : Token.null ∉ ts) {s : St} : ¬ Arrives noCb resetDemo (NullElement resetDemo) ts s := by
  rintro ⟨a, x, b, s', rfl, _, ⟨p, rest, st, e, _, _, _, rfl, _⟩⟩
  simp at h

example : SameOutcome accepting resetDemo (.obj [("table", .obj [("k", .sc (.int 3))])]) midway (St.init resetDemo) := by
  obtain ⟨rest, h1, h2, h3⟩ := C61_midway accepting_passive (R := resetDemo) (by decide +kernel) (by decide +kernel) (E0 := noCb) .init (ts := beforeReset)
    (resetDemo_nulls (by simp [beforeReset])) (s1 := midway) (after_ok (by decide +kernel)) (by decide +kernel) (fs := [("table", .obj [("k", .sc (.int 3))])]) (by decide +kernel)
  exact h3

end Examples

end SJ
