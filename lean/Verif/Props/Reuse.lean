/-
C23, C24: a parser can be used again.
-/
import Verif.Proofs.Open
import Verif.Props.Control
import Verif.Demo

set_option linter.unusedVariables false

namespace SJ

variable {E : Env} {R : Shape}

theorem value_of_fits {s s' : St} {d} (hf : R.fits d = true) (hs : R.isStorage = true) (h : Holds s.heap [] d) (h' : Holds s'.heap [] d) :
    (get [] s).value? = (get [] s').value? := by
  unfold get
  rw [h.set, h'.set]
  cases hd : d.isSet with
  | false => simp [Res.value?]
  | true =>
    obtain ⟨v, hv⟩ := fits_store hf hs hd
    simp [Res.value?, (h.value hv).2, (h'.value hv).2]

theorem Ready.same (hE : Passive E) {s s' : St} (hr : Ready R s) (hr' : Ready R s') (hw : R.wf = true) {j} (hok : okVal R j = true) :
    SameOutcome E R j s s' := by
  have h1 := parse_denoteT hE hr hw hok
  have h2 := parse_denoteT hE hr' hw hok
  cases hd : denote E.fmtDbl R j with
  | error e =>
    rw [hd] at h1 h2
    obtain ⟨t, a1, a2⟩ := h1
    obtain ⟨t', b1, b2⟩ := h2
    exact Or.inl ⟨_, t, t', a1, b1, a2, b2⟩
  | ok d =>
    rw [hd] at h1 h2
    obtain ⟨t, a1, a2, a3, _, a5⟩ := h1
    obtain ⟨t', b1, b2, b3, _, b5⟩ := h2
    refine Or.inr ⟨t, t', d, a1, b1, a2, b2, ?_, fun hs => ?_, hd, a3, b3, a5, b5⟩
    · exact a3.set.trans b3.set.symm
    · exact value_of_fits (denote_fits j R d hw hd) hs a3 b3

/-! ### C24 -/

/-- Between documents: the parser was constructed, then it read documents (each of them successfully), and the user
took values out of storage parsers and called `reset()` of any parsers. -/
inductive Served (R : Shape) : St → Prop
  | init : Served R (St.init R)
  | doc {E : Env} {s s' : St} (j : Json) : Served R s → okVal R j = true → run E R (events j) s = .ok () s' → Served R s'.restart
  | pop {s s' : St} {p : Path} {v : Val} : Served R s → pop' p s = .ok v s' → Served R s'
  | reset {s : St} {p : Path} {sh : Shape} : Served R s → R.at p = some sh → Served R (reset' p sh s)

theorem Ready.pop {s s' : St} {p v} (hr : Ready R s) (h : pop' p s = .ok v s') : Ready R s' := by
  obtain ⟨h1, h2⟩ := (Loc.popVal p).ok h
  exact ⟨h1.trans hr.stack, by rw [(h2.ctl []).1]; exact hr.disp, hr.sane.keep h2.keep⟩

theorem Ready.reset {s : St} {p sh} (hr : Ready R s) : Ready R (reset' p sh s) :=
  ⟨hr.stack, by unfold reset'; rw [(resetH_ctl sh p s.heap []).1]; exact hr.disp, hr.sane.keep (Keep.reset sh p s.heap)⟩

theorem Served.ready (hu : R.isUser = true) {s : St} (h : Served R s) : Ready R s := by
  induction h with
  | init => exact Ready.init R
  | doc j _ hok hrun ih => exact (Ready.after ih hu hok hrun).2
  | pop _ hp ih => exact ih.pop hp
  | reset _ _ ih => exact ih.reset

/-- C24. After any number of successfully read documents (and `pop()`s by the user) the next document has the same
outcome and gives the same root value as with a freshly constructed parser, also for parsers with arrays. The callbacks that
were called for the earlier documents are arbitrary. Partial: the documents satisfy `okVal`; see `C24_null_element` for one
that does not and that a used parser refuses. -/
theorem C24_reusable_partial (hE : Passive E) {s : St} (h : Served R s) (hw : R.wf = true) {j} (hok : okVal R j = true) :
    SameOutcome E R j s (St.init R) := Ready.same hE (h.ready (wf_user hw)) (Ready.init R) hw hok

/-- C24, for any callbacks: after a successful document nothing is left over that could disturb the next one: every parser
is off the stack, no array is in the middle of its elements. (The callbacks themselves may behave differently.) -/
theorem C24_idle {s : St} (h : Served R s) (hw : R.wf = true) : s.stack = [[]] ∧ ∀ q, (s.heap q).started = false :=
  ⟨(h.ready (wf_user hw)).stack, fun q => (h.ready (wf_user hw)).sane.started q (List.nil_suffix)⟩

/-! ### C23 -/

/-- C23, trees without arrays. After any history whatsoever - documents refused at any token, truncated documents,
callbacks (any, replaced at any time) that throw or reject - a new document has the same outcome and value as with a freshly constructed parser. -/
theorem C23_array_free_partial (hE : Passive E) (ha : ArrFree R) {s : St} (h : History R s) (hw : R.wf = true) {j} (hok : okVal R j = true) :
    SameOutcome E R j s.restart (St.init R) := by
  refine Ready.same hE (s := s.restart) ⟨rfl, h.ctl.root, h.ctl.closed, fun q _ => h.ctl.idle ha q, ?_⟩ (Ready.init R) hw hok
  intro q st ty _ hR; exact absurd hR (ha q st _)

/-- Between documents, some of which were refused (or truncated): but when this happened none of the current parsers was an array that had got
its opening bracket and not the closing one; and no null element had arrived at an array of other parsers than `Value`s. -/
inductive Survived (R : Shape) : St → Prop
  | init : Survived R (St.init R)
  | doc {E : Env} {s s' : St} (j : Json) : Survived R s → okVal R j = true → run E R (events j) s = .ok () s' → Survived R s'.restart
  | refused {E : Env} {s s' : St} (ts : List Token) (e : Exn) : Survived R s → ¬ Arrives E R (NullElement R) ts s → run E R ts s = .throw e s' →
      (∀ q ∈ s'.stack, (s'.heap q).started = false) → Survived R s'.restart
  | truncated {E : Env} {s s' : St} (ts : List Token) : Survived R s → ¬ Arrives E R (NullElement R) ts s → run E R ts s = .ok () s' →
      (∀ q ∈ s'.stack, (s'.heap q).started = false) → Survived R s'.restart
  | pop {s s' : St} {p : Path} {v : Val} : Survived R s → pop' p s = .ok v s' → Survived R s'
  | reset {s : St} {p : Path} {sh : Shape} : Survived R s → R.at p = some sh → Survived R (reset' p sh s)

theorem noIgnoreElem (hw : R.wf = true) : NoIgnoreElem R := by
  intro q st h
  rcases wf_at hw q _ h with h1 | h1
  · have := (wf_array h1).1; simp [Shape.wf] at this
  · simp at h1

theorem OpenedX.ready {s : St} (h : OpenedX R s) (hn : ∀ q ∈ s.stack, (s.heap q).started = false) : Ready R s.restart := by
  have hidle : ∀ q, (s.heap q).started = false := fun q => by
    cases hd : (s.heap q).started with
    | false => rfl
    | true => rw [← hd]; exact hn q (h.started q hd)
  refine ⟨rfl, h.ctl.root, h.ctl.closed, fun q _ => hidle q, fun q st ty _ hR => ?_⟩
  cases hd : (s.heap (.elem :: q)).disp with
  | false => exact hd
  | true =>
    have := h.velem q st ty hR hd
    rw [hidle q] at this; simp at this

theorem Survived.ready (hw : R.wf = true) {s : St} (h : Survived R s) : Ready R s := by
  induction h with
  | init => exact Ready.init R
  | doc j _ hok hrun ih => exact (Ready.after ih (wf_user hw) hok hrun).2
  | @refused E _ _ ts e _ ht hrun hn ih =>
    have := run_open (E := E) (noIgnoreElem hw) ts ht ih.opened
    rw [hrun] at this
    exact OpenedX.ready this hn
  | @truncated E _ _ ts _ ht hrun hn ih =>
    have := run_open (E := E) (noIgnoreElem hw) ts ht ih.opened
    rw [hrun] at this
    exact OpenedX.ready this.x hn
  | pop _ hp ih => exact ih.pop hp
  | reset _ _ ih => exact ih.reset

/-- C23, all trees. After documents that were refused or truncated while no array was being read, a new document has the
same outcome and value as with a freshly constructed parser. The tokens are arbitrary, except that no null arrived as an element of an array
of other parsers than `Value`s (a null in such an array may remove the array from the stack in the middle
of its elements, see `C23_null_element`). -/
theorem C23_outside_arrays_partial (hE : Passive E) {s : St} (h : Survived R s) (hw : R.wf = true) {j} (hok : okVal R j = true) :
    SameOutcome E R j s (St.init R) := Ready.same hE (h.ready hw) (Ready.init R) hw hok

/-! ### The hypotheses are met; and the negations of the full properties -/

section Examples
open Demo

/-- `[{"r": int}]` -/
def circles : Shape := .array false circle
/-- `[[int]]` as an `SArray` of `SArray`s. -/
def matrix : Shape := .array true (.array true (.value .int))
/-- `{"l": [int]}` -/
def holder : Shape := .object .plain true [({ name := .str "l" }, .array true (.value .int)), ({ name := .str "n", optional := true }, .value .int)]

def docMatrix : Json := .arr [.arr [.sc (.int 1), .null], .arr [], .arr [.sc (.int 2)]]

/-- The parser `matrix` after `[[1,null],[],[2]]`, and then after the user took the value. -/
def sServed : St := (after accepting matrix (events docMatrix) (St.init matrix)).restart
theorem served_matrix : Served matrix sServed := .doc docMatrix .init (by decide +kernel) (after_ok (by decide +kernel))

example : ∃ v s', pop' [] sServed = .ok v s' ∧ Served matrix s' := by
  have h : ∃ v s', pop' [] sServed = .ok v s' := by
    unfold pop' popVal
    have h1 : (sServed.heap []).set = true := by decide +kernel
    simp only [h1, if_true]
    exact ⟨_, _, rfl⟩
  obtain ⟨v, s', h⟩ := h
  exact ⟨v, s', h, .pop served_matrix h⟩

/-- C24_reusable_partial: the second document is read by the used parser as by a new one. -/
example : SameOutcome noCb matrix docMatrix sServed (St.init matrix) :=
  C24_reusable_partial noCb_passive served_matrix (by decide +kernel) (by decide +kernel)

/-- C24_idle -/
example : sServed.stack = [[]] ∧ ∀ q, (sServed.heap q).started = false := C24_idle served_matrix (by decide +kernel)

/-- The full C24 is false of this code: a parser that has read `[{"r": 1}]` refuses `[null]`, which a new parser accepts. -/
theorem C24_null_element :
    let s := after noCb circles (events (.arr [.obj [("r", .sc (.int 1))]])) (St.init circles)
    run noCb circles (events (.arr [.obj [("r", .sc (.int 1))]])) (St.init circles) = .ok () s ∧ s.stack = [] ∧
    failure noCb circles (events (.arr [.null])) s.restart = some (.std "Parsers stack is empty") ∧
    fine noCb circles (events (.arr [.null])) (St.init circles) = true :=
  ⟨after_ok (by decide +kernel), by decide +kernel, by decide +kernel, by decide +kernel⟩

/-- C23_array_free_partial: `outer` has an array, `tagged` has none. `{"id": 1, "kind": "circle", "r": "x"` has been refused. -/
theorem tagged_arrFree : ArrFree tagged := by
  have h : ∀ (p : Path) sh, tagged.at p = some sh → sh = tagged ∨ sh = .value .int ∨ sh = circle ∨ sh = point ∨ sh = .ignore ∨
      sh = .union .str "" false [({ name := .str "circle" }, circle), ({ name := .str "point", optional := true }, point)] := by
    have mem2 : ∀ {a b : MInfo × Shape} {n : Nat} {c : Shape}, ([a, b][n]?).map (·.2) = some c → c = a.2 ∨ c = b.2 := by
      intro a b n c h
      match n with
      | 0 => simp at h; exact Or.inl h.symm
      | 1 => simp at h; exact Or.inr h.symm
      | n + 2 => simp at h
    have mem1 : ∀ {a : MInfo × Shape} {n : Nat} {c : Shape}, ([a][n]?).map (·.2) = some c → c = a.2 := by
      intro a n c h
      match n with
      | 0 => simp at h; exact h.symm
      | n + 1 => simp at h
    intro p
    induction p with
    | nil => intro sh h; simp [Shape.at] at h; exact Or.inl h.symm
    | cons st p ih =>
      intro sh h
      simp only [Shape.at, Option.bind_eq_some_iff] at h
      obtain ⟨sh', h1, h2⟩ := h
      rcases ih sh' h1 with rfl | rfl | rfl | rfl | rfl | rfl
      all_goals cases st <;> simp only [Shape.child, tagged, circle, point] at h2
      all_goals first
        | (injection h2 with h2; subst h2; simp)
        | (rcases mem2 h2 with rfl | rfl <;> simp [tagged, circle, point])
        | (rw [mem1 h2]; simp)
        | simp at h2
  intro q st e hq
  rcases h q _ hq with h | h | h | h | h | h <;> simp [tagged, circle, point] at h

def badTagged : List Token := [.mapStart, .mapKey "id", .scalar (.int 1), .mapKey "kind", .scalar (.str "circle"), .mapKey "r", .scalar (.str "x")]
def sFailed : St := after accepting tagged badTagged (St.init tagged)
example : SameOutcome noCb tagged (.obj [("id", .sc (.int 2)), ("kind", .sc (.str "circle")), ("r", .sc (.int 7))]) sFailed.restart (St.init tagged) :=
  C23_array_free_partial noCb_passive tagged_arrFree
    (.failed badTagged (.std "Unexpected token string") .init (after_throw (by decide +kernel))) (by decide +kernel) (by decide +kernel)

/-- C23_outside_arrays_partial: `{"l": [1], "zz"` has been refused by `holder`. -/
def badHolder : List Token := [.mapStart, .mapKey "l", .arrStart, .scalar (.int 1), .arrEnd, .mapKey "zz"]
example : SameOutcome noCb holder (.obj [("l", .arr [.sc (.int 2), .null])]) (after accepting holder badHolder (St.init holder)).restart (St.init holder) := by
  refine C23_outside_arrays_partial noCb_passive (.refused badHolder (.std "Unexpected member zz") .init (no_null_element (.inl (by decide)) _) (after_throw (by decide +kernel)) ?_)
    (by decide +kernel) (by decide +kernel)
  have h : (after accepting holder badHolder (St.init holder)).stack = [[]] := by decide +kernel
  intro q hq
  rw [h] at hq
  simp at hq; subst hq
  decide +kernel

/-- The full C23 is false of this code: after `[1, "x"` was refused by an array of integers, the same parser refuses `[1]`: it takes the
opening bracket for an element of the array that was not finished. -/
theorem C23_inside_array :
    let R := Shape.array true (.value .int)
    let s := after noCb R [.arrStart, .scalar (.int 1), .scalar (.str "x")] (St.init R)
    run noCb R [.arrStart, .scalar (.int 1), .scalar (.str "x")] (St.init R) = .throw (.std "Unexpected token string") s ∧
    failure noCb R (events (.arr [.sc (.int 1)])) s.restart = some (.std "Unexpected token array start") ∧
    fine noCb R (events (.arr [.sc (.int 1)])) (St.init R) = true :=
  ⟨after_throw (by decide +kernel), by decide +kernel, by decide +kernel⟩

/-- ... and also after `{"c": [{"r": 1}, null], "r"`, refused by an object with an array `c` of objects: no array was among the current parsers
then, but the null element has removed this one from their stack in the middle of its elements. Therefore the restriction
on nulls in `C23_outside_arrays_partial`. -/
theorem C23_null_element :
    let R := Shape.object .plain true [({ name := .str "c" }, circles)]
    let ts : List Token := [.mapStart, .mapKey "c", .arrStart, .mapStart, .mapKey "r", .scalar (.int 1), .mapEnd, .null, .mapKey "r"]
    let s := after noCb R ts (St.init R)
    run noCb R ts (St.init R) = .throw (.std "Unexpected member r") s ∧ s.stack = [[]] ∧
    failure noCb R (events (.obj [("c", .arr [])])) s.restart = some (.std "Unexpected token array start") ∧
    fine noCb R (events (.obj [("c", .arr [])])) (St.init R) = true :=
  ⟨after_throw (by decide +kernel), by decide +kernel, by decide +kernel, by decide +kernel⟩

end Examples

end SJ
