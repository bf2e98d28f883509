/-
C48: a parser can be extended by optional members and by union members without losing any document it could read before.
-/
import Verif.Proofs.Grow
import Verif.Props.Whole
import Verif.Props.Reuse

set_option linter.unusedVariables false

namespace SJ

variable {E E' : Env} {R R' : Shape} {Y : Yajl}

theorem grow_ready (hE : Passive E) (hE' : Passive E') (hf : E'.fmtDbl = E.fmtDbl) (hw : R.wf = true) (hw' : R'.wf = true) (hg : Extends R R') {s s' t : St}
    (h : Ready R s) (h' : Ready R' s') {j : Json} (hok : okVal R j = true) (hr : run E R (events j) s = .ok () t) :
    ∃ t' d d', run E' R' (events j) s' = .ok () t' ∧ t'.stack = [] ∧ Holds t.heap [] d ∧ Holds t'.heap [] d' ∧ GrownD R R' d d' := by
  have h1 := parse_denote hE h hw hok
  cases hd : denote E.fmtDbl R j with
  | error e =>
    rw [hd] at h1
    obtain ⟨s1, h1⟩ := h1
    rw [hr] at h1
    simp at h1
  | ok d =>
    rw [hd] at h1
    obtain ⟨t1, h1, _, h3, _⟩ := h1
    rw [hr] at h1
    injection h1 with _ h1
    subst h1
    obtain ⟨g1, d', g2, g3⟩ := grow_val j hg hw hd
    have h2 := parse_denote hE' h' hw' (g1 hok)
    rw [hf, g2] at h2
    obtain ⟨t', h4, h5, h6, _⟩ := h2
    exact ⟨t', d, d', h4, h5, h3, h6, g3⟩

/-- C48. What the old parser reads without exception the grown one reads, too, whatever both have read before. They hold the same afterwards, up to the new members, which
hold nothing (in tuples: their default values). -/
theorem C48_accepted (hE : Passive E) (hE' : Passive E') (hf : E'.fmtDbl = E.fmtDbl) (hw : R.wf = true) (hw' : R'.wf = true) (hg : Extends R R') {s s' t : St}
    (h : Survived R s) (h' : Survived R' s') {j : Json} (hok : okVal R j = true) (hr : run E R (events j) s = .ok () t) :
    ∃ t' d d', run E' R' (events j) s' = .ok () t' ∧ t'.stack = [] ∧ Holds t.heap [] d ∧ Holds t'.heap [] d' ∧ GrownD R R' d d' :=
  grow_ready hE hE' hf hw hw' hg (h.ready hw) (h'.ready hw') hok hr

/-- C48, the root: `isSet()` is the same, and if `get()` gave `v` it gives `v` with the new defaults now. -/
theorem C48_value (hE : Passive E) (hE' : Passive E') (hf : E'.fmtDbl = E.fmtDbl) (hw : R.wf = true) (hw' : R'.wf = true) (hg : Extends R R') {s s' t : St}
    (h : Survived R s) (h' : Survived R' s') {j : Json} (hok : okVal R j = true) (hr : run E R (events j) s = .ok () t) :
    ∃ t', run E' R' (events j) s' = .ok () t' ∧ isSet [] t' = isSet [] t ∧
      (R.isStorage = true → ∀ v, (get [] t).value? = some v → ∃ v', (get [] t').value? = some v' ∧ GrownV R R' v v') := by
  have h1 := parse_denote hE (h.ready hw) hw hok
  cases hd : denote E.fmtDbl R j with
  | error e =>
    rw [hd] at h1
    obtain ⟨s1, h1⟩ := h1
    rw [hr] at h1
    simp at h1
  | ok d =>
    rw [hd] at h1
    obtain ⟨t1, h1, _, h3, _⟩ := h1
    rw [hr] at h1
    injection h1 with _ h1
    subst h1
    obtain ⟨g1, d', g2, g3⟩ := grow_val j hg hw hd
    have h2 := parse_denote hE' (h'.ready hw') hw' (g1 hok)
    rw [hf, g2] at h2
    obtain ⟨t', h4, h5, h6, _⟩ := h2
    refine ⟨t', h4, ?_, fun hst v hv => ?_⟩
    · show (t'.heap []).set = (t.heap []).set
      rw [h3.set, h6.set, g3.set]
    · have hset : (t.heap []).set = true := by
        cases hs : (t.heap []).set with
        | true => rfl
        | false => simp [get, hs, Res.value?] at hv
      have hds : d.isSet = true := by rw [← h3.set]; exact hset
      obtain ⟨w, hw1⟩ := fits_store (denote_fits j R d hw hd) hst hds
      obtain ⟨w', hw2, hw3⟩ := g3.value.1 w hw1
      have e1 := (h3.value hw1).2
      have e2 := (h6.value hw2).2
      have hset' : (t'.heap []).set = true := by rw [h6.set, g3.set]; exact hds
      simp only [get, hset, if_true, Res.value?, e1, Option.some.injEq] at hv
      subst hv
      exact ⟨w', by simp only [get, hset', if_true, Res.value?, e2], hw3⟩

/-- C48, as the user sees it: `parse()` and `finish()` of a text that the old parser accepts. -/
theorem C48_document (hE : Passive E) (hE' : Passive E') (hf : E'.fmtDbl = E.fmtDbl) (hw : R.wf = true) (hw' : R'.wf = true) (hg : Extends R R') {s t : PSt Y} {s' : PSt Y}
    (h : ServedDocs Y R s) (h' : ServedDocs Y R' s') {cs : List Chunk} (hne : cs ≠ []) {bs : List UInt8} {j : Json} (hc : chunkBytes cs = some bs)
    (hdoc : Y.Document bs (events j)) (hok : okVal R j = true) {m : Mem} (hm : ∀ c, cs.getLast? = some c → (m.read c.ptr c.len).isSome)
    (hp : parseDocument Y E R cs m s = .ok () t) :
    ∃ t' d d', parseDocument Y E' R' cs m s' = .ok () t' ∧ Holds t.st.heap [] d ∧ Holds t'.st.heap [] d' ∧ GrownD R R' d d' := by
  obtain ⟨hb, hs⟩ := h.facts
  obtain ⟨hb', hs'⟩ := h'.facts
  obtain ⟨hr, hh⟩ := parseDocument_ok hb hne hc hdoc hp
  obtain ⟨t', d, d', r1, r2, r3, r4, r5⟩ := grow_ready hE hE' hf hw hw' hg (hs.ready (wf_user hw)) (hs'.ready (wf_user hw')) hok hr
  have h1 := parseDocument_run (E := E') (R := R') hb' hne hc hdoc hm
  rw [r1] at h1
  simp only at h1
  rw [if_pos r2] at h1
  obtain ⟨s2, h2, rfl⟩ := h1
  exact ⟨s2, d, d', h2, r3, r4, r5⟩

section Examples
open Demo

/-- `inner` with one more member, `note` (text, default "-"). -/
def innerNote : Shape := .object .auto true
  [({ name := .str "id" }, .value .int), ({ name := .str "tags", optional := true, dflt := some (.arr []) }, .array true (.value .str)),
   ({ name := .str "note", optional := true, dflt := some (.sc (.str "-")) }, .value .str)]

theorem inner_grows : Extends inner innerNote := by
  refine .object (ms' := [_, _]) (more := [_]) (fun h => h) (.cons rfl (fun h => h) (by simp) .value
    (.cons rfl (fun h => h) (fun v hv => ?_) (.array .value) .nil)) (fun _ => rfl) (by simp) (fun _ => by simp)
  simp only [Option.some.injEq] at hv
  subst hv
  exact ⟨_, rfl, .arr .nil⟩

/-- `schoice`, the `pair` of which is grown and which has one more member. -/
def schoiceMore : Shape := .union .str "type" true
  [({ name := .str "pair" }, innerNote), ({ name := .str "point", optional := true, dflt := some (.tup [.sc (.int 5)]) }, point),
   ({ name := .str "list" }, .object .auto true [({ name := .str "l" }, .array true (.value .int))])]

theorem point_grows : Extends point point :=
  .object (ms' := [_]) (more := []) (fun h => h) (.cons rfl (fun h => h) (fun v hv => by
    simp only [Option.some.injEq] at hv
    subst hv
    exact ⟨_, rfl, .scalar⟩) .value .nil) (by simp) (by simp) (by simp)

theorem schoice_grows : Extends schoice schoiceMore := by
  refine .union (ms' := [_, _]) (more := [_]) (.cons rfl (fun h => h) (by simp) inner_grows (.cons rfl (fun h => h) (fun v hv => ?_) point_grows .nil))
  simp only [Option.some.injEq] at hv
  subst hv
  exact ⟨_, rfl, .tup (.cons .scalar .nil)⟩

/-- `{"type": "pair", "id": 7, "tags": ["a"]}` -/
def docPair : Json := .obj [("type", .sc (.str "pair")), ("id", .sc (.int 7)), ("tags", .arr [.sc (.str "a")])]

/-- Whether the value is there and is `w`. -/
def hasV : Option Val → Val → Bool
  | some v, w => sameV v w
  | none, _ => false

theorem hasV_eq {o : Option Val} {w : Val} (h : hasV o w = true) : o = some w := by
  cases o with
  | none => cases h
  | some v => rw [sameV_eq h]

/-- C48_value: the value is now (7, ["a"], "-") instead of (7, ["a"]). -/
example : ∃ t', run accepting schoiceMore (events docPair) (St.init schoiceMore) = .ok () t' ∧
    (get [] t').value? = some (.alt 0 (.tup [.sc (.int 7), .arr [.sc (.str "a")], .sc (.str "-")])) := by
  obtain ⟨t', h1, _, h3⟩ := C48_value noCb_passive accepting_passive rfl (R := schoice) (by decide +kernel) (by decide +kernel) schoice_grows
    (Survived.init) (Survived.init) (j := docPair) (by decide +kernel) (after_ok (by decide +kernel))
  refine ⟨t', h1, ?_⟩
  obtain ⟨v', h4, h5⟩ := h3 (by decide +kernel) (.alt 0 (.tup [.sc (.int 7), .arr [.sc (.str "a")]])) (hasV_eq (by decide +kernel))
  rw [h4]
  cases h5 with
  | alt old new h =>
    simp only [List.getElem?_cons_zero, Option.some.injEq, Prod.mk.injEq] at old new
    obtain ⟨rfl, rfl⟩ := old
    obtain ⟨rfl, rfl⟩ := new
    cases h with
    | tup h =>
      cases h with
      | cons a t => cases a; cases t with
        | cons b t => cases b with
          | arr b => cases b with
            | cons b1 b2 => cases b1; cases b2; cases t with
              | extra hd t => cases t; simp only [Option.some.injEq] at hd; subst hd; rfl

def textPair : String := "{\"type\": \"pair\", \"id\": 7, \"tags\": [\"a\"]}"

/-- C48_document: the same as text. -/
example : ∃ t' d d', parseDocument yajl accepting schoiceMore [chunk textPair] (buffer textPair) (PSt.init yajl schoiceMore) = .ok () t' ∧
    Holds (left (parseDocument yajl noCb schoice [chunk textPair] (buffer textPair) (PSt.init yajl schoice)) (PSt.init yajl schoice)).st.heap [] d ∧
    Holds t'.st.heap [] d' ∧ GrownD schoice schoiceMore d d' :=
  C48_document noCb_passive accepting_passive rfl (by decide +kernel) (by decide +kernel) schoice_grows .init .init (by simp) (chunk_bytes _)
    (j := docPair) (document_of (by decide +kernel) (by decide +kernel) (by decide +kernel)) (by decide +kernel) (chunk_last _) (left_ok (by decide +kernel))

/-- C48, why the object must refuse unknown members: `{"name": "x", "more": "y"}` is accepted by an object with the member `name` that ignores others, but not
after the optional member `more`, an integer, was added. -/
theorem C48_needs_refusal :
    fine noCb (.object .plain false [({ name := .str "name" }, .value .str)]) (events (.obj [("name", .sc (.str "x")), ("more", .sc (.str "y"))]))
      (St.init (.object .plain false [({ name := .str "name" }, .value .str)])) = true ∧
    failure noCb (.object .plain false [({ name := .str "name" }, .value .str), ({ name := .str "more", optional := true }, .value .int)])
      (events (.obj [("name", .sc (.str "x")), ("more", .sc (.str "y"))]))
      (St.init (.object .plain false [({ name := .str "name" }, .value .str), ({ name := .str "more", optional := true }, .value .int)])) =
      some (.std "Unexpected token string") := by decide +kernel

end Examples

end SJ
