/-
C23: exactly when a parser can be used again after a failure.
-/
import Verif.Proofs.Access
import Verif.Props.Alike
import Verif.Props.Conform

set_option linter.unusedVariables false

namespace SJ

variable {E : Env} {R : Shape}

/-- C23, the converse. Whatever has happened to the parser before (`History`: any tokens, any callbacks, any exceptions): if an array of the tree has been left in the middle
of its elements, then there is a document whose first tokens `a` a new parser accepts, and this one does not: the call throws, or is undefined behaviour. This is so for
all callbacks. -/
theorem C23_stuck (hw : R.wf = true) (hd : AllDistinct R) (hp : Placed R) {s : St} (h : History R s) {q b e} (hR : R.at q = some (.array b e))
    (hst : (s.heap q).started = true) :
    ∃ (j : Json) (a z : List Token), okVal R j = true ∧ events j = a ++ z ∧ ∀ E : Env,
      (∃ t, run E R a (St.init R) = .ok () t) ∧ ¬ ∃ t, run E R a s.restart = .ok () t := by
  obtain ⟨j, a, z, h1, h2, _, h3⟩ := stuck_differs hw hd hp (s := s.restart) rfl h.ctl.root h.ctl.closed hR hst
  refine ⟨j, a, z, h1, h2, fun E => ⟨(h3 E).1 _ (Ready.init R), fun ⟨t, ht⟩ => ?_⟩⟩
  rcases (h3 E).2 with ⟨e, s', h4⟩ | h4 <;> rw [ht] at h4 <;> simp at h4

/-- C23, exactly. A parser that was as good as new has read the tokens `ts` and this has failed (or the document was given up). It is as good as new again **if and only if** none
of the current parsers was an array that had got its opening bracket and not the closing one. As good as new: every JSON value, also if it is cut off somewhere, has the
same outcome as with a new parser, for all callbacks that do not look at the element parsers of maps.
Partial: no null has arrived as an element of an array of other parsers than `Value`s (see `C23_null_element`); the compared documents satisfy `okVal`. -/
theorem C23_exactly_partial (hw : R.wf = true) (hd : AllDistinct R) (hp : Placed R) {s s' : St} (h : Survived R s) (ts : List Token)
    (hn : ¬ Arrives E R (NullElement R) ts s) (hr : (∃ e, run E R ts s = .throw e s') ∨ run E R ts s = .ok () s') :
    (∀ E', Blind R E' → ∀ (j : Json) (a z : List Token), okVal R j = true → events j = a ++ z → a ≠ [] →
        SameRun R (run E' R a s'.restart) (run E' R a { St.init R with log := s'.log })) ↔
      ∀ q ∈ s'.stack, (s'.heap q).started = false := by
  have hx : OpenedX R s' := by
    have := run_open (E := E) (noIgnoreElem hw) ts hn (h.ready hw).opened
    rcases hr with ⟨e, hr⟩ | hr <;> rw [hr] at this
    · exact this
    · exact this.x
  constructor
  · intro hall q hq
    cases hst : (s'.heap q).started with
    | false => rfl
    | true =>
      exfalso
      obtain ⟨b, e, hR⟩ := hx.arr q hst
      obtain ⟨j, a, z, h1, h2, h3, h4⟩ := stuck_differs hw hd hp (s := s'.restart) rfl hx.ctl.root hx.ctl.closed hR hst
      have hb : Blind R Demo.noCb := ⟨fun p cb hcb => by simp [Demo.noCb] at hcb, fun p cb hcb => by simp [Demo.noCb] at hcb⟩
      obtain ⟨t, ht⟩ := (h4 Demo.noCb).1 _ ((Ready.init R).log s'.log)
      have hbad := (h4 Demo.noCb).2
      have hsame := hall Demo.noCb hb j a z h1 h2 h3
      rw [ht] at hsame
      rcases hbad with ⟨e, s2, h5⟩ | h5 <;> rw [h5] at hsame <;> cases hsame
  · intro hall E' hb j a z h1 h2 h3
    have hs : Survived R s'.restart := by
      rcases hr with ⟨e, hr⟩ | hr
      · exact .refused ts e h hn hr hall
      · exact .truncated ts h hn hr hall
    exact C23_any_callbacks_partial hb hw hs h1 h2 h3

/-- For every state with the invariants of the control state. -/
theorem as_good_as_new (hw : R.wf = true) (hd : AllDistinct R) (hp : Placed R) {s : St} (h : Ctl R s.restart) :
    (∀ E', Blind R E' → ∀ (j : Json) (a z : List Token), okVal R j = true → events j = a ++ z → a ≠ [] →
        SameRun R (run E' R a s.restart) (run E' R a { St.init R with log := s.log })) ↔
      (∀ q, (s.heap q).started = false) ∧ ∀ q b ty, R.at q = some (.array b (.value ty)) → (s.heap (.elem :: q)).disp = false := by
  have hb : Blind R Demo.noCb := ⟨fun p cb hcb => by simp [Demo.noCb] at hcb, fun p cb hcb => by simp [Demo.noCb] at hcb⟩
  constructor
  · intro hall
    have hidle : ∀ q, (s.heap q).started = false := by
      intro q
      cases hst : (s.heap q).started with
      | false => rfl
      | true =>
        exfalso
        obtain ⟨b, e, hR⟩ := h.arr q hst
        obtain ⟨j, a, z, h1, h2, h3, h4⟩ := stuck_differs hw hd hp (s := s.restart) rfl h.root h.closed hR hst
        obtain ⟨t, ht⟩ := (h4 Demo.noCb).1 _ ((Ready.init R).log s.log)
        have hsame := hall Demo.noCb hb j a z h1 h2 h3
        rw [ht] at hsame
        rcases (h4 Demo.noCb).2 with ⟨e, s2, h5⟩ | h5 <;> rw [h5] at hsame <;> cases hsame
    refine ⟨hidle, fun q b ty hR => ?_⟩
    cases hv : (s.heap (.elem :: q)).disp with
    | false => rfl
    | true =>
      exfalso
      obtain ⟨j, a, z, h1, h2, h3, h4⟩ := velem_differs hw hd hp (s := s.restart) rfl h.root h.closed hidle hR hv
      obtain ⟨t, ht, hne⟩ := h4 Demo.noCb _ ((Ready.init R).log s.log)
      have hsame := hall Demo.noCb hb j a z h1 h2 h3
      rw [ht] at hsame
      generalize hr : run Demo.noCb R a s.restart = r at hsame
      cases hsame with
      | ok hs _ _ => exact hne _ hr hs
  · rintro ⟨h1, h2⟩ E' hb j a z h3 h4 h5
    have hr : Ready R s.restart := ⟨rfl, h.root, h.closed, fun q _ => h1 q, fun q b ty _ hR => h2 q b ty hR⟩
    exact hr.sameRun ((Ready.init R).log s.log) hw hb rfl h5 (sequenced_prefix h4) (ok_prefix hw h3 h4)

/-- C23, exactly, after any history whatsoever (also with nulls in arrays): the parser is as good as new **if and only if** no array of the tree has been left in the middle of
its elements and no `Value` that is the element parser of an array has got a dispatcher (it gets one when an object or array arrives where its value is expected). -/
theorem C23_characterised (hw : R.wf = true) (hd : AllDistinct R) (hp : Placed R) {s : St} (h : History R s) :
    (∀ E', Blind R E' → ∀ (j : Json) (a z : List Token), okVal R j = true → events j = a ++ z → a ≠ [] →
        SameRun R (run E' R a s.restart) (run E' R a { St.init R with log := s.log })) ↔
      (∀ q, (s.heap q).started = false) ∧ ∀ q b ty, R.at q = some (.array b (.value ty)) → (s.heap (.elem :: q)).disp = false := 
  as_good_as_new hw hd hp (History.restart h).ctl

/-! ### The hypotheses are met -/

section Examples
open Demo

/-- `Placed`, checked. -/
theorem placed_of {R : Shape} (h0 : R.isEmbedded = false) (h : everyB (fun sh => match sh with
    | .array _ e => !e.isEmbedded
    | .union _ _ _ ms => ms.all fun x => !x.2.isEmbedded && (match x.2 with | .array _ _ => false | _ => true) && x.1.name.cppEq x.1.name
    | _ => true) R = true) : Placed R := by
  refine ⟨h0, fun p b e hR => ?_, fun p ty tm b ms hR x hx => ?_⟩
  · have := everyB_sound rfl h p _ hR
    simpa using this
  · have := everyB_sound rfl h p _ hR
    simp only [List.all_eq_true] at this
    have := this x hx
    simp only [Bool.and_eq_true, Bool.not_eq_true'] at this
    refine ⟨this.1.1, fun b e hxe => ?_, this.2⟩
    rw [hxe] at this; simp at this

/-- An object with an embedded union, one of whose alternatives has an array of arrays in it: `{"kind": "grid", "rows": [[int]]}` or `{"kind": "circle", "r": int}`. -/
def figure : Shape := .object .plain true
  [({ name := .str "kind" }, .union .str "" false [({ name := .str "circle" }, circle), ({ name := .str "grid" }, .object .plain true [({ name := .str "rows" }, matrix)])])]

theorem figure_distinct : AllDistinct figure := allDistinct_of (by decide +kernel)
theorem figure_placed : Placed figure := placed_of (by decide +kernel) (by decide +kernel)

/-- `{"kind": "grid", "rows": [[1, "x"`: refused inside of two arrays. -/
def badGrid : List Token := [.mapStart, .mapKey "kind", .scalar (.str "grid"), .mapKey "rows", .arrStart, .arrStart, .scalar (.int 1), .scalar (.str "x")]
def sGrid : St := after accepting figure badGrid (St.init figure)

/-- C23_stuck. -/
example : ∃ (j : Json) (a z : List Token), okVal figure j = true ∧ events j = a ++ z ∧ ∀ E : Env,
    (∃ t, run E figure a (St.init figure) = .ok () t) ∧ ¬ ∃ t, run E figure a sGrid.restart = .ok () t :=
  C23_stuck (by decide +kernel) figure_distinct figure_placed (.failed badGrid (.std "Unexpected token string") .init (after_throw (by decide +kernel)))
    (q := [.mem 0, .mem 1, .mem 0]) (b := true) (e := .array true (.value .int)) (by rfl) (by decide +kernel)

/-- C23_exactly_partial, both ways: after `{"kind": "grid", "rows": [[1, "x"` the parser is not as good as new; after `{"kind": "grid", "rows": [[1]], "r"` it is. -/
example : ¬ ∀ E', Blind figure E' → ∀ (j : Json) (a z : List Token), okVal figure j = true → events j = a ++ z → a ≠ [] →
    SameRun figure (run E' figure a sGrid.restart) (run E' figure a { St.init figure with log := sGrid.log }) := by
  intro hall
  have := (C23_exactly_partial (E := accepting) (s := St.init figure) (s' := sGrid) (by decide +kernel) figure_distinct figure_placed .init badGrid
    (no_null_element (.inl (by decide)) _) (.inl ⟨.std "Unexpected token string", after_throw (by decide +kernel)⟩)).1 hall
  have hs : sGrid.stack = [[.elem, .mem 0, .mem 1, .mem 0], [.mem 0, .mem 1, .mem 0], [.mem 1, .mem 0], [.mem 0], []] := by decide +kernel
  have h1 := this [.mem 0, .mem 1, .mem 0] (by rw [hs]; simp)
  have h2 : (sGrid.heap [.mem 0, .mem 1, .mem 0]).started = true := by decide +kernel
  rw [h1] at h2; simp at h2

def closedGrid : List Token := [.mapStart, .mapKey "kind", .scalar (.str "grid"), .mapKey "rows", .arrStart, .arrStart, .scalar (.int 1), .arrEnd, .arrEnd, .mapKey "r"]
def sClosed : St := after accepting figure closedGrid (St.init figure)

example : ∀ E', Blind figure E' → ∀ (j : Json) (a z : List Token), okVal figure j = true → events j = a ++ z → a ≠ [] →
    SameRun figure (run E' figure a sClosed.restart) (run E' figure a { St.init figure with log := sClosed.log }) := by
  refine (C23_exactly_partial (E := accepting) (s := St.init figure) (s' := sClosed) (by decide +kernel) figure_distinct figure_placed .init closedGrid
    (no_null_element (.inl (by decide)) _) (.inl ⟨.std "Unexpected member r", after_throw (by decide +kernel)⟩)).2 ?_
  have hs : sClosed.stack = [[.mem 1, .mem 0], [.mem 0], []] := by decide +kernel
  intro q hq
  rw [hs] at hq
  simp at hq
  rcases hq with rfl | rfl | rfl <;> decide +kernel

/-- C23_characterised: `[[{"r": 1}, null]`, refused by `[[{"r": int}]]` (a null after an element). Nothing is left on the stack, but the inner array is stuck. -/
def nested : Shape := .array false circles
def badNested : List Token := [.arrStart, .arrStart, .mapStart, .mapKey "r", .scalar (.int 1), .mapEnd, .null, .arrEnd]
def sNested : St := after accepting nested badNested (St.init nested)

example : sNested.stack = [] ∧ ¬ ∀ E', Blind nested E' → ∀ (j : Json) (a z : List Token), okVal nested j = true → events j = a ++ z → a ≠ [] →
    SameRun nested (run E' nested a sNested.restart) (run E' nested a { St.init nested with log := sNested.log }) := by
  refine ⟨by decide +kernel, fun hall => ?_⟩
  have := ((C23_characterised (s := sNested) (by decide +kernel) (allDistinct_of (by decide +kernel)) (placed_of (by decide +kernel) (by decide +kernel))
    (.tokens (E := accepting) badNested .init (after_ok (by decide +kernel)))).1 hall).1 [.elem]
  have h2 : (sNested.heap [.elem]).started = true := by decide +kernel
  rw [this] at h2; simp at h2

end Examples

end SJ
