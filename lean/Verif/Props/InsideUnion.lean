/-
C71 for unions: a union reads the fields after its type member as the alternative reads a document.
-/
import Verif.Props.Inside
import Verif.Props.Unions
import Verif.Proofs.Conform
import Verif.Proofs.Schema

set_option linter.unusedVariables false

namespace SJ

variable {F : Handlers} {R : Shape} {Y : Yajl}

theorem denoteA_fields {m : Shape} (hm : m.readsObjects = true) (p : Path) (fs : List (String × Json)) :
    denoteA F m p (.obj fs) = denFieldsA F m p (noSlots m) [] false fs := by
  cases m <;> simp_all [Shape.readsObjects, denoteA]

theorem okVal_fields {m : Shape} (hm : m.readsObjects = true) {fs : List (String × Json)} (h : okVal m (.obj fs) = true) : okFields m fs = true := by
  cases m <;> simp_all [Shape.readsObjects, okVal]

/-- C71, unions (without a finish callback of their own): the document `{type: x, ...}` is to a union what the document with the fields that follow is to the alternative
`x` alone: if the alternative reads it and is set, so does and is the union; both hold the same and the same callbacks are called. `SUnion` holds what the alternative's `get()` returns. -/
theorem C71_union {ty : ScalarTy} {tm : String} {st : Bool} {ms : List (MInfo × Shape)} (hw : (Shape.union ty tm st ms).wf = true) (hd : DistinctNames ms) (htm : tm ≠ "")
    {x : Scalar} {n : Nat} {i : MInfo} {m : Shape} (hx : x.ty = ty) (hn : Named ms x n i m) (hm : m.readsObjects = true) {fs : List (String × Json)} (hok : okVal m (.obj fs) = true)
    (hf : F.onFinish [] = none) {s s0 : St} (h : Survived (.union ty tm st ms) s) (h0 : Survived m s0)
    {before : List Ev} (hl : seenLog (.union ty tm st ms) s.log = (seenLog m s0.log).map (Ev.under [.mem n]) ++ before)
    {t : St} (hr : run ((F.part [.mem n] before).env m) m (events (.obj fs)) s0 = .ok () t) (hset : isSet [] t = true) :
    ∃ s1, run (F.env (.union ty tm st ms)) (.union ty tm st ms) (events (.obj ((tm, .sc x) :: fs))) s = .ok () s1 ∧ s1.stack = [] ∧ isSet [] s1 = true ∧
      (st = false → ∃ d, Holds s1.heap [] (.alt n d) ∧ Holds t.heap [] d) ∧
      (st = true → ∀ v, get [] t = .ok v t → get [] s1 = .ok (.alt n v) s1) ∧
      seenLog (.union ty tm st ms) s1.log = (seenLog m t.log).map (Ev.under [.mem n]) ++ before := by
  have hmw := wfMs_mem (wf_union hw) hn.1
  have hlk := Named.lookup hd hn
  have hR : okVal (.union ty tm st ms) (.obj ((tm, .sc x) :: fs)) = true := by
    simp only [okVal, okFields, htm, hx, hlk, okVal_fields hm hok, if_true, if_false, ne_eq, not_true_eq_false]
  have h1 := C49_tokens (F := F) hw h hR
  have h2 := parse_denoteA (F := F.part [.mem n] before) (h0.ready hmw.2.1) hmw.2.1 hok
  have h3 := denoteA_mirrors (F := F) (p := [.mem n]) (B := before) (.obj fs) m [] (seenLog m s0.log)
  rw [List.nil_append, ← hl, denoteA_fields hm] at h3
  have hu : (Shape.union ty tm st ms).readsObjects = true := by simp [Shape.readsObjects, htm]
  simp only [denoteA_fields hu, denFieldsA, htm, hx, if_true, if_false, ne_eq, not_true_eq_false, selectAlt, hlk, Eff.bind, Eff.lift, h3] at h1
  cases hdd : denoteA (F.part [.mem n] before) m [] (.obj fs) (seenLog m s0.log) with
  | mk l o =>
    rw [hdd] at h2 h1
    cases o with
    | error e => obtain ⟨t', b1, b2⟩ := h2; rw [hr] at b1; simp at b1
    | ok d =>
      obtain ⟨t', b1, b2, b3, b4, _, b5⟩ := h2
      rw [hr] at b1; injection b1 with _ b1; subst b1
      subst b5
      have hds : d.isSet = true := by rw [← b3.set]; exact hset
      cases st with
      | false =>
        have hfin : finishUnion false ms n d = .ok (.alt n d) := by simp [finishUnion, hn.1, hds]
        simp only [hfin, Eff.done, D.isSet, hf, if_true] at h1
        obtain ⟨s1, a1, a2, a3, a4⟩ := h1
        exact ⟨s1, a1, a2, a3.set, fun _ => ⟨d, a3, b3⟩, by simp, a4⟩
      | true =>
        obtain ⟨v, hv⟩ : ∃ v, d.value? = some v := by
          have hst := hmw.2.2 rfl
          cases hv : d.value? with
          | some v => exact ⟨v, rfl⟩
          | none => have := value_of_get b4 b3 hst (v := (t.heap []).val) (by rw [C18_get, if_pos hset]); rw [hv] at this; simp at this
        simp only [finishUnion, hn.1, Bool.not_true, Bool.false_eq_true, if_false, hv, Eff.done, D.isSet, if_true, hf] at h1
        obtain ⟨s1, a1, a2, a3, a4⟩ := h1
        obtain ⟨c1, c2⟩ := a3.value rfl
        refine ⟨s1, a1, a2, a3.set, by simp, fun _ w hw => ?_, a4⟩
        have := value_of_get b4 b3 (hmw.2.2 rfl) hw
        rw [hv] at this; injection this with this; subst this
        rw [C18_get]; simp only [isSet, c1, c2, if_true]

/-- C71, unions: and if the alternative alone refuses the document, so does the union, with the same exception and after the same calls. -/
theorem C71_union_fails {ty : ScalarTy} {tm : String} {st : Bool} {ms : List (MInfo × Shape)} (hw : (Shape.union ty tm st ms).wf = true) (hd : DistinctNames ms) (htm : tm ≠ "")
    {x : Scalar} {n : Nat} {i : MInfo} {m : Shape} (hx : x.ty = ty) (hn : Named ms x n i m) (hm : m.readsObjects = true) {fs : List (String × Json)} (hok : okVal m (.obj fs) = true)
    {s s0 : St} (h : Survived (.union ty tm st ms) s) (h0 : Survived m s0)
    {before : List Ev} (hl : seenLog (.union ty tm st ms) s.log = (seenLog m s0.log).map (Ev.under [.mem n]) ++ before)
    {e : Exn} {t : St} (hr : run ((F.part [.mem n] before).env m) m (events (.obj fs)) s0 = .throw e t) :
    ∃ s1, run (F.env (.union ty tm st ms)) (.union ty tm st ms) (events (.obj ((tm, .sc x) :: fs))) s = .throw e s1 ∧
      seenLog (.union ty tm st ms) s1.log = (seenLog m t.log).map (Ev.under [.mem n]) ++ before := by
  have hmw := wfMs_mem (wf_union hw) hn.1
  have hlk := Named.lookup hd hn
  have hR : okVal (.union ty tm st ms) (.obj ((tm, .sc x) :: fs)) = true := by
    simp only [okVal, okFields, htm, hx, hlk, okVal_fields hm hok, if_true, if_false, ne_eq, not_true_eq_false]
  have h1 := C49_tokens (F := F) hw h hR
  have h2 := parse_denoteA (F := F.part [.mem n] before) (h0.ready hmw.2.1) hmw.2.1 hok
  have h3 := denoteA_mirrors (F := F) (p := [.mem n]) (B := before) (.obj fs) m [] (seenLog m s0.log)
  rw [List.nil_append, ← hl, denoteA_fields hm] at h3
  have hu : (Shape.union ty tm st ms).readsObjects = true := by simp [Shape.readsObjects, htm]
  simp only [denoteA_fields hu, denFieldsA, htm, hx, if_true, if_false, ne_eq, not_true_eq_false, selectAlt, hlk, Eff.bind, Eff.lift, h3] at h1
  cases hdd : denoteA (F.part [.mem n] before) m [] (.obj fs) (seenLog m s0.log) with
  | mk l o =>
    rw [hdd] at h2 h1
    cases o with
    | ok d => obtain ⟨t', b1, b2⟩ := h2; rw [hr] at b1; simp at b1
    | error x =>
      obtain ⟨t', b1, b2⟩ := h2
      rw [hr] at b1; injection b1 with b1 b3; subst b1 b3
      rw [b2]
      exact h1

/-! ### The hypotheses are met -/

section Examples
open Demo

/-- The callbacks watch, and the alternatives' ones refuse if there were too many calls before. -/
def strictAlone : Handlers :=
  { onFinish := fun p => if p = [] then none else some fun l _ => { verdict := if l.length < 4 then .accept else .reject }
    onElement := fun _ => none
    fmtDbl := fun _ => "" }

def strictAlpairDocA : Env := (strictAlone.part [.mem 0] []).env inner
def pairDocA : List (String × Json) := [("tags", .arr [.sc (.str "a")]), ("id", .sc (.int 2))]
def pairDocB : List (String × Json) := [("tags", .arr [.sc (.str "a"), .sc (.str "b")]), ("id", .sc (.int 2))]

/-- C71_union: an `SUnion` with the alternative "pair". -/
example : ∃ s1, run (strictAlone.env schoice) schoice (events (.obj (("type", .sc (.str "pair")) :: pairDocA))) (St.init schoice) = .ok () s1 ∧
    get [] s1 = .ok (.alt 0 (.tup [.sc (.int 2), .arr [.sc (.str "a")]])) s1 := by
  obtain ⟨s1, h1, _, _, _, h2, _⟩ := C71_union (F := strictAlone) (ty := .str) (tm := "type") (st := true)
    (ms := [({ name := .str "pair" }, inner), ({ name := .str "point", optional := true, dflt := some (.tup [.sc (.int 5)]) }, point)]) (by decide +kernel)
    (distinctB_sound (by decide +kernel)) (by simp) (x := .str "pair") (n := 0) rfl ⟨rfl, rfl⟩ rfl (fs := pairDocA) (by decide +kernel) rfl .init .init (before := []) rfl
    (after_ok (E := strictAlpairDocA) (R := inner) (ts := events (.obj pairDocA)) (s := St.init inner) (by decide +kernel)) (by decide +kernel)
  refine ⟨s1, h1, h2 rfl _ ?_⟩
  have v : ((after strictAlpairDocA inner (events (.obj pairDocA)) (St.init inner)).heap []).val = .tup [.sc (.int 2), .arr [.sc (.str "a")]] := sameV_eq (by decide +kernel)
  rw [C18_get, if_pos (by decide +kernel), v]

/-- C71_union_fails: the fifth call is refused. -/
example : ∃ s1, run (strictAlone.env schoice) schoice (events (.obj (("type", .sc (.str "pair")) :: pairDocB))) (St.init schoice) = .throw (.std "Callback returned false") s1 := by
  obtain ⟨s1, h1, _⟩ := C71_union_fails (F := strictAlone) (ty := .str) (tm := "type") (st := true)
    (ms := [({ name := .str "pair" }, inner), ({ name := .str "point", optional := true, dflt := some (.tup [.sc (.int 5)]) }, point)]) (by decide +kernel)
    (distinctB_sound (by decide +kernel)) (by simp) (x := .str "pair") (n := 0) rfl ⟨rfl, rfl⟩ rfl (fs := pairDocB) (by decide +kernel) .init .init (before := []) rfl
    (after_throw (E := strictAlpairDocA) (R := inner) (ts := events (.obj pairDocB)) (s := St.init inner) (e := .std "Callback returned false") (by decide +kernel))
  exact ⟨s1, h1⟩

end Examples

end SJ
