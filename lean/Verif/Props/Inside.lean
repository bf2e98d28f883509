/-
C71: a parser does inside of any other one what it does alone.
-/
import Verif.Proofs.Inside
import Verif.Props.Active
import Verif.Props.Api

set_option linter.unusedVariables false

namespace SJ

variable {F : Handlers} {R : Shape} {Y : Yajl}

/-- C71. The parser `sh` is at `p` in the tree `R`, and a value is expected of it (wherever in a document). The same parser is also used alone, with the same callbacks;
it may have read any documents before. Both are given the value `j`. Then both read it, hold the same, and the same callbacks were called in the same order with the
same arguments; or both fail with the same exception, after the same calls. -/
theorem C71_anywhere {s : St} {p sh} (hx : Expecting R s p sh) (hw : sh.wf = true) {j : Json} (hok : okVal sh j = true)
    {s0 : St} (h0 : Survived sh s0) {before : List Ev} (hl : seenLog R s.log = (seenLog sh s0.log).map (Ev.under p) ++ before) :
    (∃ s1 t d, Completes (F.env R) R s p j s1 ∧ run ((F.part p before).env sh) sh (events j) s0 = .ok () t ∧ t.stack = [] ∧
      Holds s1.heap p d ∧ Holds t.heap [] d ∧ seenLog R s1.log = (seenLog sh t.log).map (Ev.under p) ++ before) ∨
    (∃ s1 t e, run (F.env R) R (events j) s = .throw e s1 ∧ run ((F.part p before).env sh) sh (events j) s0 = .throw e t ∧
      seenLog R s1.log = (seenLog sh t.log).map (Ev.under p) ++ before) := by
  have h1 := parse_atA (F := F) hx hw hok
  have h2 := C49_tokens (F := F.part p before) hw h0 hok
  have h3 := denoteA_mirrors (F := F) (p := p) (B := before) j sh [] (seenLog sh s0.log)
  rw [List.nil_append, ← hl] at h3
  cases hd : denoteA (F.part p before) sh [] j (seenLog sh s0.log) with
  | mk l o =>
    rw [hd] at h2 h3
    rw [h3] at h1
    cases o with
    | ok d =>
      obtain ⟨s1, a1, a2, a3⟩ := h1
      obtain ⟨t, b1, b2, b3, b4⟩ := h2
      exact .inl ⟨s1, t, d, a1, b1, b2, a2, b3, by rw [a3, b4]⟩
    | error e =>
      obtain ⟨s1, a1, a2⟩ := h1
      obtain ⟨t, b1, b2⟩ := h2
      exact .inr ⟨s1, t, e, a1, b1, by rw [a2, b2]⟩

/-- A value that is fit for a parser used alone does not select an alternative of an embedded union. -/
theorem embedded_of_ok {m : Shape} {j : Json} (h : okVal m j = true) : embedded m j = none := by
  cases j with
  | null | arr | obj => cases m <;> simp [embedded]
  | sc x =>
    cases m with
    | union ty tm st ms =>
      simp only [okVal, bne_iff_ne, ne_eq] at h
      unfold embedded
      simp only
      split
      · rename_i hx; exact absurd hx.2 h
      · rfl
    | _ => rfl

/-- C71, an object with one member (and without a finish callback of its own): the document `{"k": j}` is to it what `j` is to the member's parser alone. -/
theorem C71_member {u : Bool} {i : MInfo} {m : Shape} {k : String} (hk : i.name = .str k) (hw : (Shape.object .plain u [(i, m)]).wf = true) {j : Json}
    (hok : okVal m j = true) (hf : F.onFinish [] = none) {s s0 : St} (h : Survived (.object .plain u [(i, m)]) s) (h0 : Survived m s0)
    {before : List Ev} (hl : seenLog (.object .plain u [(i, m)]) s.log = (seenLog m s0.log).map (Ev.under [.mem 0]) ++ before)
    {t : St} (hr : run ((F.part [.mem 0] before).env m) m (events j) s0 = .ok () t) (hset : isSet [] t = true) :
    ∃ s1 d, run (F.env (.object .plain u [(i, m)])) (.object .plain u [(i, m)]) (events (.obj [(k, j)])) s = .ok () s1 ∧ s1.stack = [] ∧ isSet [] s1 = true ∧
      Holds s1.heap [.mem 0] d ∧ Holds t.heap [] d ∧
      seenLog (.object .plain u [(i, m)]) s1.log = (seenLog m t.log).map (Ev.under [.mem 0]) ++ before := by
  have hm := wfMs_mem (n := 0) (wf_object hw) (i := i) (sh := m) rfl
  have hlk : lookup (.str k) 0 [(i, m)] = some (0, m) := by simp [lookup, hk, Scalar.cppEq]
  have hR : okVal (.object .plain u [(i, m)]) (.obj [(k, j)]) = true := by
    simp only [okVal, okFields, hlk, embedded_of_ok hok, wf_user hm.2.1, hok, Bool.and_self]
  have h1 := C49_tokens (F := F) hw h hR
  have h2 := C49_tokens (F := F.part [.mem 0] before) hm.2.1 h0 hok
  have h3 := denoteA_mirrors (F := F) (p := [.mem 0]) (B := before) j m [] (seenLog m s0.log)
  rw [List.nil_append, ← hl] at h3
  simp only [denoteA, denFieldsA, hlk, embedded_of_ok hok, Eff.bind, h3] at h1
  cases hd : denoteA (F.part [.mem 0] before) m [] j (seenLog m s0.log) with
  | mk l o =>
    rw [hd] at h2 h1
    cases o with
    | error e => obtain ⟨t', b1, b2⟩ := h2; rw [hr] at b1; simp at b1
    | ok d =>
      obtain ⟨t', b1, b2, b3, b4⟩ := h2
      rw [hr] at b1; injection b1 with _ b1; subst b1
      have hds : d.isSet = true := by rw [← b3.set]; exact hset
      have hfin : finishObject .plain [(i, m)] [d] true = .ok (.obj none [d]) := by
        simp [finishObject, missing, hds]
      simp only [noSlots, List.map_cons, List.map_nil, List.set_cons_zero, hfin, Eff.lift, Eff.done, hf, D.isSet, if_true] at h1
      obtain ⟨s1, a1, a2, a3, a4⟩ := h1
      refine ⟨s1, d, a1, a2, a3.set, ?_, b3, by rw [a4, b4]⟩
      exact a3.2.2.1

/-- What `get()` returns is what the parser holds. -/
theorem value_of_get {t : St} {d : D} {v : Val} (hfit : R.fits d = true) (h : Holds t.heap [] d) (hst : R.isStorage = true) (hg : get [] t = .ok v t) :
    d.value? = some v := by
  have hset : d.isSet = true := by
    rw [← h.set]
    rw [C18_get] at hg
    cases hs : (t.heap []).set with
    | true => rfl
    | false => simp [isSet, hs] at hg
  have hv : ∃ w, d.value? = some w := by
    cases d with
    | unset => simp [D.isSet] at hset
    | val w => exact ⟨w, rfl⟩
    | obj w ds =>
      cases R with
      | object k u ms => cases k <;> cases w <;> simp_all [Shape.fits, Shape.isStorage, D.value?]
      | _ => simp_all [Shape.fits]
    | alt n d => cases R <;> simp_all [Shape.fits, Shape.isStorage]
    | done => cases R <;> simp_all [Shape.fits, Shape.isStorage]
  obtain ⟨w, hv⟩ := hv
  obtain ⟨a1, a2⟩ := h.value hv
  rw [C18_get] at hg
  simp only [isSet, a1, a2, if_true] at hg
  injection hg with hg; rw [hv, hg]

theorem denElemsA_cons {st : Bool} {e : Shape} {p : Path} {j : Json} {l : List Json} (h : j ≠ .null) : denElemsA F st e p (j :: l) =
    ((denoteA F e (.elem :: p) j).bind fun d =>
    if st then
      match d.value? with
      | some v => (denElemsA F st e p l).bind fun vs => .lift (.ok (v :: vs))
      | none => .error notSet
    else denElemsA F st e p l) := by
  cases j <;> first | exact absurd rfl h | rfl

/-- The elements of an array, read by their parser alone as documents. -/
theorem reads_elems {e : Shape} (hw : e.wf = true) {before : List Ev} {js : List Json} {s0 t : St} {ts : List St}
    (h : ReadsEach ((F.part [.elem] before).env e) e js s0 ts t) : Survived e s0 → okElems e js = true → (∀ j ∈ js, j ≠ .null) →
    denElemsA F false e [] js ((seenLog e s0.log).map (Ev.under [.elem]) ++ before) = ((seenLog e t.log).map (Ev.under [.elem]) ++ before, .ok []) ∧
    (e.isStorage = true → ∀ vs, Each (fun t v => get [] t = .ok v t) ts vs →
      denElemsA F true e [] js ((seenLog e s0.log).map (Ev.under [.elem]) ++ before) = ((seenLog e t.log).map (Ev.under [.elem]) ++ before, .ok vs)) := by
  induction h with
  | nil s => intro h0 hok hn; refine ⟨rfl, fun _ vs hv => ?_⟩; cases hv; rfl
  | @cons j js s0 s1 t ts hr hrest ih =>
    intro h0 hok hn
    simp only [okElems, Bool.and_eq_true] at hok
    have hs1 : Survived e s1.restart := .doc j h0 hok.1.2 hr
    have h2 := parse_denoteA (F := F.part [.elem] before) (h0.ready hw) hw hok.1.2
    have h3 := denoteA_mirrors (F := F) (p := [.elem]) (B := before) j e [] (seenLog e s0.log)
    rw [List.nil_append] at h3
    have ih := ih hs1 hok.2 fun j hj => hn j (List.mem_cons_of_mem _ hj)
    have hlog : s1.restart.log = s1.log := rfl
    rw [hlog] at ih
    cases hd : denoteA (F.part [.elem] before) e [] j (seenLog e s0.log) with
    | mk l o =>
      rw [hd] at h2 h3
      cases o with
      | error x => obtain ⟨t', b1, b2⟩ := h2; rw [hr] at b1; simp at b1
      | ok d =>
        obtain ⟨t', b1, b2, b3, b4, _, b5⟩ := h2
        rw [hr] at b1; injection b1 with _ b1; subst b1
        subst b5
        rw [denElemsA_cons (hn j (by simp)), denElemsA_cons (hn j (by simp))]
        simp only [Eff.bind, h3, Bool.false_eq_true, if_false, if_true]
        refine ⟨ih.1, fun hst vs hv => ?_⟩
        cases hv with
        | cons hv hvs =>
          rename_i v vs
          simp only [value_of_get b4 b3 hst hv, Eff.bind, ih.2 hst vs hvs]
          rfl

theorem fails_elems {e : Shape} (hw : e.wf = true) {before : List Ev} {js : List Json} {s0 t : St} {ts : List St} {st : Bool} {j : Json} {post : List Json} {x : Exn} {t' : St}
    (h : ReadsEach ((F.part [.elem] before).env e) e js s0 ts t) : Survived e s0 → okElems e (js ++ j :: post) = true → (∀ j ∈ js, j ≠ .null) → j ≠ .null →
    run ((F.part [.elem] before).env e) e (events j) t = .throw x t' → (st = true → e.isStorage = true) →
    ∀ {vs}, (st = true → Each (fun t v => get [] t = .ok v t) ts vs) →
    denElemsA F st e [] (js ++ j :: post) ((seenLog e s0.log).map (Ev.under [.elem]) ++ before) = ((seenLog e t'.log).map (Ev.under [.elem]) ++ before, .error x) := by
  induction h with
  | nil s =>
    intro h0 hok hn hj hx hst vs hv
    simp only [List.nil_append, okElems, Bool.and_eq_true] at hok
    have h2 := parse_denoteA (F := F.part [.elem] before) (h0.ready hw) hw hok.1.2
    have h3 := denoteA_mirrors (F := F) (p := [.elem]) (B := before) j e [] (seenLog e s.log)
    rw [List.nil_append] at h3
    rw [List.nil_append, denElemsA_cons hj]
    cases hd : denoteA (F.part [.elem] before) e [] j (seenLog e s.log) with
    | mk l o =>
      rw [hd] at h2 h3
      cases o with
      | ok d => obtain ⟨t', b1, _⟩ := h2; rw [hx] at b1; simp at b1
      | error x =>
        obtain ⟨t', b1, b2⟩ := h2
        rw [hx] at b1; injection b1 with b1 b3; subst b1 b3
        simp only [Eff.bind, h3, b2]
  | @cons j0 js s0 s1 t ts hr hrest ih =>
    intro h0 hok hn hj hx hst vs hv
    simp only [List.cons_append, okElems, Bool.and_eq_true] at hok
    have hs1 : Survived e s1.restart := .doc j0 h0 hok.1.2 hr
    have h2 := parse_denoteA (F := F.part [.elem] before) (h0.ready hw) hw hok.1.2
    have h3 := denoteA_mirrors (F := F) (p := [.elem]) (B := before) j0 e [] (seenLog e s0.log)
    rw [List.nil_append] at h3
    have ih := @ih hs1 hok.2 (fun j hj => hn j (List.mem_cons_of_mem _ hj)) hj hx hst
    have hlog : s1.restart.log = s1.log := rfl
    rw [hlog] at ih
    cases hd : denoteA (F.part [.elem] before) e [] j0 (seenLog e s0.log) with
    | mk l o =>
      rw [hd] at h2 h3
      cases o with
      | error x => obtain ⟨t', b1, b2⟩ := h2; rw [hr] at b1; simp at b1
      | ok d =>
        obtain ⟨t', b1, b2, b3, b4, _, b5⟩ := h2
        rw [hr] at b1; injection b1 with _ b1; subst b1
        subst b5
        rw [List.cons_append, denElemsA_cons (hn j0 (by simp))]
        cases st with
        | false =>
          simp only [Eff.bind, h3, Bool.false_eq_true, if_false]
          exact ih (vs := []) (by simp)
        | true =>
          have hv := hv rfl
          cases hv with
          | cons ha hvs =>
            simp only [Eff.bind, h3, if_true, value_of_get b4 b3 (hst rfl) ha, ih fun _ => hvs]

/-- C71, arrays (without a finish callback of their own): reading an array is reading its elements as documents, one after another, with the element parser alone: if
all of them are read, so is the array, and the same callbacks are called in the same order; and `SArray` holds what `get()` returned after each of them. -/
theorem C71_array {st : Bool} {e : Shape} (hw : (Shape.array st e).wf = true) {js : List Json} (hok : okVal (.array st e) (.arr js) = true) (hn : ∀ j ∈ js, j ≠ .null)
    (hf : F.onFinish [] = none) {s s0 : St} (h : Survived (.array st e) s) (h0 : Survived e s0)
    {before : List Ev} (hl : seenLog (.array st e) s.log = (seenLog e s0.log).map (Ev.under [.elem]) ++ before)
    {ts : List St} {t : St} (hr : ReadsEach ((F.part [.elem] before).env e) e js s0 ts t) {vs : List Val} (hv : st = true → Each (fun t v => get [] t = .ok v t) ts vs) :
    ∃ s1, run (F.env (.array st e)) (.array st e) (events (.arr js)) s = .ok () s1 ∧ s1.stack = [] ∧ isSet [] s1 = true ∧
      (st = true → get [] s1 = .ok (.arr vs) s1) ∧
      seenLog (.array st e) s1.log = (seenLog e t.log).map (Ev.under [.elem]) ++ before := by
  have he := wf_array hw
  have h1 := C49_tokens (F := F) hw h hok
  have h2 := reads_elems (F := F) he.1 hr h0 (by simpa only [okVal] using hok) hn
  rw [← hl] at h2
  cases st with
  | false =>
    simp only [denoteA, Eff.bind, h2.1, Eff.done, hf, D.isSet, Bool.false_eq_true, if_false, if_true] at h1
    obtain ⟨s1, a1, a2, a3, a4⟩ := h1
    exact ⟨s1, a1, a2, a3.set, by simp, a4⟩
  | true =>
    simp only [denoteA, Eff.bind, h2.2 (he.2 rfl) vs (hv rfl), Eff.done, hf, D.isSet, if_true] at h1
    obtain ⟨s1, a1, a2, a3, a4⟩ := h1
    obtain ⟨b1, b2⟩ := a3.value rfl
    exact ⟨s1, a1, a2, a3.set, fun _ => by rw [C18_get]; simp only [isSet, b1, b2, if_true], a4⟩

/-- C71, arrays: if after some documents the element parser refuses one, the array that begins with these elements is refused with the same exception, whatever follows;
the same callbacks have been called. (For `SArray`, if each of the elements before left the parser set.) -/
theorem C71_array_fails {st : Bool} {e : Shape} (hw : (Shape.array st e).wf = true) {js post : List Json} {j : Json}
    (hok : okVal (.array st e) (.arr (js ++ j :: post)) = true) (hn : ∀ x ∈ js, x ≠ .null) (hj : j ≠ .null)
    {s s0 : St} (h : Survived (.array st e) s) (h0 : Survived e s0)
    {before : List Ev} (hl : seenLog (.array st e) s.log = (seenLog e s0.log).map (Ev.under [.elem]) ++ before)
    {ts : List St} {t : St} (hr : ReadsEach ((F.part [.elem] before).env e) e js s0 ts t) {vs : List Val} (hv : st = true → Each (fun t v => get [] t = .ok v t) ts vs)
    {x : Exn} {t' : St} (hx : run ((F.part [.elem] before).env e) e (events j) t = .throw x t') :
    ∃ s1, run (F.env (.array st e)) (.array st e) (events (.arr (js ++ j :: post))) s = .throw x s1 ∧
      seenLog (.array st e) s1.log = (seenLog e t'.log).map (Ev.under [.elem]) ++ before := by
  have he := wf_array hw
  have h1 := C49_tokens (F := F) hw h hok
  have hoks : okElems e (js ++ j :: post) = true := by simpa only [okVal] using hok
  have h2 := fails_elems (F := F) he.1 (st := st) (post := post) hr h0 hoks hn hj hx he.2 hv
  rw [← hl] at h2
  simp only [denoteA, Eff.bind, h2] at h1
  exact h1

/-! ### The hypotheses are met -/

section Examples
open Demo

/-- Callbacks that take part: that of the elements of an array refuses if there were too many calls before (it counts all of them, also those of other parsers);
those of all others watch. -/
def counting : Handlers :=
  { onFinish := fun p => if p = [] then none else if p = [.elem] then some fun l _ => { verdict := if l.length < 6 then .accept else .reject } else some fun _ _ => {}
    onElement := fun _ => none
    fmtDbl := fun _ => "" }

def row1 : Json := .obj [("id", .sc (.int 1))]
def row2 : Json := .obj [("tags", .arr [.sc (.str "a")]), ("id", .sc (.int 2))]
def row3 : Json := .obj [("id", .sc (.int 3)), ("tags", .null)]

theorem restart_log (s : St) : s.restart.log = s.log := rfl

/-- The element parser alone, with the callbacks it has in the array. -/
def alone : Env := (counting.part [.elem] []).env inner
def alone1 : St := after alone inner (events row1) (St.init inner)
def alone2 : St := after alone inner (events row2) alone1.restart

theorem alone_reads : ReadsEach alone inner [row1, row2] (St.init inner) [alone1, alone2] alone2.restart :=
  .cons (after_ok (by decide +kernel)) (.cons (after_ok (by decide +kernel)) (.nil _))

/-- C71_array: an `SArray` of two objects. The values and the calls (six of them) are those of the element parser alone. -/
example : ∃ s1, run (counting.env (.array true inner)) (.array true inner) (events (.arr [row1, row2])) (St.init (.array true inner)) = .ok () s1 ∧
    get [] s1 = .ok (.arr [.tup [.sc (.int 1), .arr []], .tup [.sc (.int 2), .arr [.sc (.str "a")]]]) s1 ∧
    seenLog (.array true inner) s1.log = (seenLog inner alone2.log).map (Ev.under [.elem]) := by
  obtain ⟨s1, h1, _, _, h2, h3⟩ := C71_array (F := counting) (st := true) (e := inner) (by decide +kernel) (js := [row1, row2]) (by decide +kernel)
    (by simp [row1, row2]) rfl .init .init (before := []) rfl alone_reads
    (vs := [.tup [.sc (.int 1), .arr []], .tup [.sc (.int 2), .arr [.sc (.str "a")]]]) (fun _ => by
      have v1 : (alone1.heap []).val = .tup [.sc (.int 1), .arr []] := sameV_eq (by decide +kernel)
      have v2 : (alone2.heap []).val = .tup [.sc (.int 2), .arr [.sc (.str "a")]] := sameV_eq (by decide +kernel)
      refine .cons ?_ (.cons ?_ .nil)
      · rw [C18_get, if_pos (by decide +kernel), v1]
      · rw [C18_get, if_pos (by decide +kernel), v2])
  exact ⟨s1, h1, h2 rfl, by rw [h3, List.append_nil, restart_log]⟩

example : (seenLog inner alone2.log).length = 6 := by decide +kernel

/-- C71_array_fails: the third element is refused by the callback, which counts the calls; so is the third document of the element parser alone. -/
example : ∃ s1, run (counting.env (.array false inner)) (.array false inner) (events (.arr ([row1, row2] ++ row3 :: [row1]))) (St.init (.array false inner)) =
    .throw (.std "Callback returned false") s1 := by
  obtain ⟨s1, h1, _⟩ := C71_array_fails (F := counting) (st := false) (e := inner) (by decide +kernel) (js := [row1, row2]) (j := row3) (post := [row1]) (by decide +kernel)
    (by simp [row1, row2]) (by simp [row3]) .init .init (before := []) rfl alone_reads (vs := []) (by simp)
    (after_throw (E := alone) (R := inner) (ts := events row3) (s := alone2.restart) (e := .std "Callback returned false") (by decide +kernel))
  exact ⟨s1, h1⟩

/-- C71_member: an object in another one. -/
example : ∃ s1 d, run (counting.env (.object .plain true [({ name := .str "in" }, inner)])) (.object .plain true [({ name := .str "in" }, inner)])
      (events (.obj [("in", row2)])) (St.init (.object .plain true [({ name := .str "in" }, inner)])) = .ok () s1 ∧ Holds s1.heap [.mem 0] d ∧
    Holds (after ((counting.part [.mem 0] []).env inner) inner (events row2) (St.init inner)).heap [] d := by
  obtain ⟨s1, d, h1, _, _, h2, h3, _⟩ := C71_member (F := counting) (u := true) (i := { name := .str "in" }) (m := inner) (k := "in") rfl (by decide +kernel) (j := row2)
    (by decide +kernel) rfl .init .init (before := []) rfl
    (after_ok (E := (counting.part [.mem 0] []).env inner) (R := inner) (ts := events row2) (s := St.init inner) (by decide +kernel)) (by decide +kernel)
  exact ⟨s1, d, h1, h2, h3⟩

/-- C71_anywhere: in the middle of a document, after the key of an object's member. -/
example : ∃ s, run (counting.env outer) outer [.mapStart, .mapKey "part"] (St.init outer) = .ok () s ∧
    ((∃ s1 t d, Completes (counting.env outer) outer s [.mem 1] row2 s1 ∧
      run ((counting.part [.mem 1] (seenLog outer s.log)).env inner) inner (events row2) (St.init inner) = .ok () t ∧
      Holds s1.heap [.mem 1] d ∧ Holds t.heap [] d ∧ seenLog outer s1.log = (seenLog inner t.log).map (Ev.under [.mem 1]) ++ seenLog outer s.log) ∨
    ∃ s1 e, run (counting.env outer) outer (events row2) s = .throw e s1) := by
  obtain ⟨s, h, hx⟩ := Expecting.member (E := counting.env outer) (key := "part") (n := 1) (m := inner) (Ready.init outer).expecting rfl
  refine ⟨s, h, ?_⟩
  rcases C71_anywhere (F := counting) hx (by decide +kernel) (j := row2) (by decide +kernel) (s0 := St.init inner) .init (before := seenLog outer s.log)
    rfl with ⟨s1, t, d, h1, h2, _, h3, h4, h5⟩ | ⟨s1, t, e, h1, _⟩
  · exact .inl ⟨s1, t, d, h1, h2, h3, h4, h5⟩
  · exact .inr ⟨s1, e, h1⟩

end Examples

end SJ
