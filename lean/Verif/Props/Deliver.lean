/-
C62: streaming and storing agree.
-/
import Verif.Proofs.Deliver
import Verif.Props.Containers
import Verif.Props.Custom

set_option linter.unusedVariables false

namespace SJ

variable {E E' : Env} {R R' : Shape} {Y : Yajl}

theorem okFields_maps {e : Shape} {st st'} : ∀ (fs : List (String × Json)), okFields (.map st e) fs = okFields (.map st' e) fs
  | [] => by simp [okFields]
  | (k, v) :: fs => by simp only [okFields, okFields_maps (st := st) (st' := st') fs]

theorem wf_unstored_array {e : Shape} (h : (Shape.array true e).wf = true) : (Shape.array false e).wf = true ∧ e.wf = true ∧ e.isStorage = true := by
  simp only [Shape.wf, Bool.and_eq_true, Bool.or_eq_true, Bool.not_true, Bool.false_eq_true, false_or, Bool.not_false, true_or, and_true] at h ⊢; exact ⟨h.1, h.1, h.2⟩
theorem wf_unstored_map {e : Shape} (h : (Shape.map true e).wf = true) : (Shape.map false e).wf = true ∧ e.wf = true ∧ e.isStorage = true := by
  simp only [Shape.wf, Bool.and_eq_true, Bool.or_eq_true, Bool.not_true, Bool.false_eq_true, false_or, Bool.not_false, true_or, and_true] at h ⊢; exact ⟨h.1, h.1, h.2⟩

theorem each_values {os : List (Option Val)} {ds : List D} {vs : List Val} (h : Each (fun (o : Option Val) d => ∀ v, d.value? = some v → o = some v) os ds)
    (hv : ds.map D.value? = vs.map some) : os = vs.map some := by
  induction h generalizing vs with
  | nil => cases vs <;> simp at hv ⊢
  | cons h1 _ ih =>
    cases vs with
    | nil => simp at hv
    | cons v vs =>
      simp only [List.map_cons, List.cons.injEq] at hv ⊢
      exact ⟨h1 v hv.1, ih hv.2⟩

theorem each_pairs {os : List (String × Option Val)} {ds : List (String × D)} {ps : List (String × Val)}
    (h : Each (fun (o : String × Option Val) (kd : String × D) => o.1 = kd.1 ∧ (∀ v, kd.2.value? = some v → o.2 = some v) ∧ (kd.2 = .unset → o.2 = none)) os ds)
    (hv : ds.map seenPair = ps.map fun kv => (kv.1, some kv.2)) : os = ps.map fun kv => (kv.1, some kv.2) := by
  induction h generalizing ps with
  | nil => cases ps <;> simp at hv ⊢
  | cons h1 _ ih =>
    cases ps with
    | nil => simp at hv
    | cons v vs =>
      simp only [List.map_cons, List.cons.injEq, seenPair, Prod.mk.injEq] at hv ⊢
      exact ⟨Prod.ext (h1.1.trans hv.1.1) (h1.2.1 _ hv.1.2), ih hv.2⟩

theorem each_unset {os : List (String × Option Val)} {ds : List (String × D)} {k : String}
    (h : Each (fun (o : String × Option Val) (kd : String × D) => o.1 = kd.1 ∧ (∀ v, kd.2.value? = some v → o.2 = some v) ∧ (kd.2 = .unset → o.2 = none)) os ds)
    (hk : (k, D.unset) ∈ ds) : (k, none) ∈ os := by
  induction h with
  | nil => simp at hk
  | @cons a b l l' h1 _ ih =>
    rcases List.mem_cons.1 hk with rfl | hk
    · have : a = (k, none) := Prod.ext h1.1 (h1.2.2 rfl)
      rw [this]; simp
    · exact List.mem_cons_of_mem _ (ih hk)

theorem insertAll_entry : ∀ (ps : List (String × Val)) {ents}, SortedKeys ents →
    SortedKeys (insertAll ents ps) ∧ ∀ k, entry k (insertAll ents ps) = (entry k ents).or (entry k ps)
  | [], ents, h => ⟨h, fun k => by simp [insertAll, entry]⟩
  | (k', v) :: ps, ents, h => by
    have ih := insertAll_entry ps (mapInsert_sorted (k := k') (v := v) h)
    refine ⟨ih.1, fun k => ?_⟩
    show entry k (insertAll (mapInsert k' v ents) ps) = _
    rw [ih.2, entry_mapInsert h]
    by_cases hk : k' = k <;> simp [entry, hk]

/-! ### Arrays -/

/-- C62, arrays. An `SArray` anywhere in one tree and an `Array` with the same kind of elements anywhere in another (or the same) tree, which has a finish
callback at its element parser, read the same array. Then:
* both read it, and the values given to the callback are, in order, exactly the elements of the stored vector; or
* the `Array` reads it, and the `SArray` does not, because an element that is not null left its parser unset (for such an element the callback is not called); or
* neither reads it, and unless the `SArray` has failed earlier, at an element left unset, with the same message. -/
theorem C62_array (hE : Passive E) (hE' : Passive E') (hf : E'.fmtDbl = E.fmtDbl) {s t : St} {p q : Path} {e : Shape} {l : List Json}
    (hx : Expecting R s p (.array true e)) (hx' : Expecting R' t q (.array false e)) (hw : (Shape.array true e).wf = true)
    (hok : okVal (.array true e) (.arr l) = true) (hcb : (E'.onFinish (.elem :: q)).isSome = true) :
    (∃ s1 t1 vs new, Completes E R s p (.arr l) s1 ∧ get p s1 = .ok (.arr vs) s1 ∧ Completes E' R' t q (.arr l) t1 ∧ isSet q t1 = true ∧
      t1.log = new ++ t.log ∧ delivered (.elem :: q) new = vs.map some) ∨
    (∃ t1 new, Fails E R s (.arr l) "Can't get value, parser is unset" ∧ Completes E' R' t q (.arr l) t1 ∧ isSet q t1 = true ∧
      t1.log = new ++ t.log ∧ (delivered (.elem :: q) new).length < present l) ∨
    (∃ msg msg', Fails E R s (.arr l) msg ∧ Fails E' R' t (.arr l) msg' ∧ (msg' = msg ∨ msg = "Can't get value, parser is unset")) := by
  obtain ⟨hw', hwe, hse⟩ := wf_unstored_array hw
  have hok' : okVal (.array false e) (.arr l) = true := by simpa [okVal] using hok
  have h1 := parse_at hE hx hw hok
  have h2 := parse_at hE' hx' hw' hok'
  have ha := elems_agree (fmt := E.fmtDbl) (p := p) (q := q) hwe hse l
  rw [hf] at h2
  have r1 := denoteT_result E.fmtDbl (.arr l) (.array true e) p
  have r2 := denoteT_result E.fmtDbl (.arr l) (.array false e) q
  have fin : ∀ {vs}, (denElemsT E.fmtDbl false e q l).result = .ok vs →
      (denoteT E.fmtDbl (.array false e) q (.arr l)).calls.filterMap (finAt (.elem :: q)) = (denElemsT E.fmtDbl false e q l).calls.filterMap (finAt (.elem :: q)) := by
    intro vs hr
    rw [denoteT]
    simp [W.bind, hr, W.done, D.isSet, finAt]
  rw [← r1] at h1
  rw [← r2] at h2
  rw [denoteT] at h1
  have h2' : (denoteT E.fmtDbl (.array false e) q (.arr l)).result = ((denElemsT E.fmtDbl false e q l).bind fun _ => W.done q .done).result := by rw [denoteT]; rfl
  rw [h2'] at h2
  cases hr : (denElemsT E.fmtDbl true e p l).result with
  | ok vs =>
    rw [hr] at ha
    obtain ⟨g1, g2, g3⟩ := ha
    simp only [W.result_bind, hr, g1, bind, Except.bind, W.result_done, if_true] at h1 h2
    obtain ⟨s1, c1, v1, _⟩ := h1
    obtain ⟨t1, c2, v2, l2⟩ := h2
    obtain ⟨new, n1, n2⟩ := l2.delivered hcb
    rw [fin g1] at n2
    exact .inl ⟨s1, t1, vs, new, c1, by simp [get, v1.1, v1.2], c2, v2, n1, each_values n2 g3⟩
  | error msg =>
    rw [hr] at ha
    simp only [W.result_bind, hr, bind, Except.bind] at h1
    rcases ha with ha | ⟨rfl, ⟨m, ha⟩ | ⟨g1, g2⟩⟩
    · simp only [W.result_bind, ha, bind, Except.bind] at h2
      exact .inr (.inr ⟨_, _, h1, h2, .inl rfl⟩)
    · simp only [W.result_bind, ha, bind, Except.bind] at h2
      exact .inr (.inr ⟨_, _, h1, h2, .inr rfl⟩)
    · simp only [W.result_bind, g1, bind, Except.bind, W.result_done] at h2
      obtain ⟨t1, c2, v2, l2⟩ := h2
      obtain ⟨new, n1, n2⟩ := l2.delivered hcb
      rw [fin g1] at n2
      exact .inr (.inl ⟨t1, new, h1, c2, v2, n1, by rw [n2.length]; exact g2⟩)

/-! ### Maps -/

/-- C62, maps. An `SMap` and a `Map` with the same kind of elements, which has an element callback, read the same object. Then:
* both read it, and the stored map is the one that keeps, of the pairs given to the callback, the first of each key, sorted by key; or
* the `Map` reads it, and the `SMap` does not, because a value left its parser unset: the callback was given that key without a value; or
* neither reads it, and unless the `SMap` has failed earlier, at a value left unset, with the same message. -/
theorem C62_map (hE : Passive E) (hE' : Passive E') (hf : E'.fmtDbl = E.fmtDbl) {s t : St} {p q : Path} {e : Shape} {fs : List (String × Json)}
    (hx : Expecting R s p (.map true e)) (hx' : Expecting R' t q (.map false e)) (hw : (Shape.map true e).wf = true)
    (hok : okVal (.map true e) (.obj fs) = true) (hcb : (E'.onElement q).isSome = true) :
    (∃ s1 t1 out ps new, Completes E R s p (.obj fs) s1 ∧ get p s1 = .ok (.map out) s1 ∧ Completes E' R' t q (.obj fs) t1 ∧ isSet q t1 = true ∧
      t1.log = new ++ t.log ∧ deliveredPairs q new = ps.map (fun kv => (kv.1, some kv.2)) ∧ SortedKeys out ∧ ∀ k, entry k out = entry k ps) ∨
    (∃ t1 new k, Fails E R s (.obj fs) "Can't get value, parser is unset" ∧ Completes E' R' t q (.obj fs) t1 ∧ isSet q t1 = true ∧
      t1.log = new ++ t.log ∧ (k, none) ∈ deliveredPairs q new) ∨
    (∃ msg msg', Fails E R s (.obj fs) msg ∧ Fails E' R' t (.obj fs) msg' ∧ (msg' = msg ∨ msg = "Can't get value, parser is unset")) := by
  obtain ⟨hw', hwe, hse⟩ := wf_unstored_map hw
  have hok' : okVal (.map false e) (.obj fs) = true := by
    simp only [okVal] at hok ⊢; rw [okFields_maps (st' := true)]; exact hok
  have h1 := parse_at hE hx hw hok
  have h2 := parse_at hE' hx' hw' hok'
  have ha := maps_agree (fmt := E.fmtDbl) (p := p) (q := q) hwe hse fs [] [] false
  rw [hf] at h2
  rw [← denoteT_result E.fmtDbl (.obj fs) (.map true e) p] at h1
  rw [← denoteT_result E.fmtDbl (.obj fs) (.map false e) q] at h2
  rw [denoteT] at h1 h2
  simp only [noSlots] at h1 h2
  cases hr : (denFieldsT E.fmtDbl (.map true e) p [] [] false fs).result with
  | ok d =>
    rw [hr] at ha h1
    obtain ⟨g1, ps, rfl, g3⟩ := ha
    rw [g1] at h2
    obtain ⟨s1, c1, v1, _⟩ := h1
    obtain ⟨t1, c2, v2, l2⟩ := h2
    obtain ⟨new, n1, n2⟩ := l2.deliveredPairs hcb
    have hs := insertAll_entry ps (ents := []) (by simp [SortedKeys])
    exact .inl ⟨s1, t1, _, ps, new, c1, by simp [get, v1.1, v1.2], c2, v2, n1, each_pairs n2 g3, hs.1, fun k => by rw [hs.2]; simp [entry]⟩
  | error msg =>
    rw [hr] at ha h1
    rcases ha with ha | ⟨rfl, ⟨m, ha⟩ | ⟨g1, k, g2⟩⟩
    · rw [ha] at h2
      exact .inr (.inr ⟨_, _, h1, h2, .inl rfl⟩)
    · rw [ha] at h2
      exact .inr (.inr ⟨_, _, h1, h2, .inr rfl⟩)
    · rw [g1] at h2
      obtain ⟨t1, c2, v2, l2⟩ := h2
      obtain ⟨new, n1, n2⟩ := l2.deliveredPairs hcb
      exact .inr (.inl ⟨t1, new, k, h1, c2, v2, n1, each_unset n2 g2⟩)

/-! ### Documents -/

/-- What a parser that stores and one that streams show after the same document: the vector is what was delivered, in order; the map is what was delivered,
the first of each key. -/
def SameContents : Val → List Call → Prop
  | .arr vs, new => delivered [.elem] new = vs.map some
  | .map out, new => ∃ ps, deliveredPairs [] new = ps.map (fun kv => (kv.1, some kv.2)) ∧ SortedKeys out ∧ ∀ k, entry k out = entry k ps
  | _, _ => False

/-- Something was left unset: an element that is not null was not delivered; a key was delivered without a value. -/
def SomethingUnset : Json → List Call → Prop
  | .arr l, new => (delivered [.elem] new).length < present l
  | .obj _, new => ∃ k, (k, none) ∈ deliveredPairs [] new
  | _, _ => False

/-- A parser that stores arrays or maps, and the one with the same elements that streams them. -/
inductive Streams : Shape → Shape → Json → Prop
  | array (e l) : Streams (.array true e) (.array false e) (.arr l)
  | map (e fs) : Streams (.map true e) (.map false e) (.obj fs)

/-- The callback a streaming parser delivers its elements to is set. -/
def Delivers (E : Env) : Shape → Prop
  | .array _ _ => (E.onFinish [.elem]).isSome = true
  | .map _ _ => (E.onElement []).isSome = true
  | _ => False

/-- The three outcomes, for trees that are ready for a document. -/
theorem streams_outcome (hE : Passive E) (hE' : Passive E') (hf : E'.fmtDbl = E.fmtDbl) {j : Json} (hj : Streams R R' j) (hw : R.wf = true)
    (hok : okVal R j = true) (hcb : Delivers E' R') {s t : St} (hs : Ready R s) (ht : Ready R' t) :
    (∃ s1 t1 v new, run E R (events j) s = .ok () s1 ∧ s1.stack = [] ∧ get [] s1 = .ok v s1 ∧ run E' R' (events j) t = .ok () t1 ∧ t1.stack = [] ∧
      t1.log = new ++ t.log ∧ SameContents v new) ∨
    (∃ s1 t1 new, run E R (events j) s = .throw (.std "Can't get value, parser is unset") s1 ∧ run E' R' (events j) t = .ok () t1 ∧ t1.stack = [] ∧
      t1.log = new ++ t.log ∧ SomethingUnset j new) ∨
    (∃ s1 t1 msg msg', run E R (events j) s = .throw (.std msg) s1 ∧ run E' R' (events j) t = .throw (.std msg') t1 ∧
      (msg' = msg ∨ msg = "Can't get value, parser is unset")) := by
  have getst : ∀ {s1 : St} {v}, get [] s1 = .ok v s1 → get [] { s1 with stack := [] } = .ok v { s1 with stack := [] } := by
    intro s1 v h
    rw [C18_get] at h ⊢
    show (if (s1.heap []).set = true then _ else _) = _
    change (if (s1.heap []).set = true then _ else _) = _ at h
    split at h
    · rename_i hx; rw [if_pos hx]; injection h with h _; rw [h]
    · simp at h
  cases hj with
  | array e l =>
    rcases C62_array hE hE' hf hs.expecting ht.expecting hw hok hcb with
      ⟨s1, t1, vs, new, c1, g1, c2, _, n1, n2⟩ | ⟨t1, new, ⟨s1, f1⟩, c2, _, n1, n2⟩ | ⟨msg, msg', ⟨s1, f1⟩, ⟨t1, f2⟩, h⟩
    · exact .inl ⟨_, _, _, new, c1.root hs.stack, rfl, getst g1, c2.root ht.stack, rfl, n1, n2⟩
    · exact .inr (.inl ⟨_, _, new, f1, c2.root ht.stack, rfl, n1, n2⟩)
    · exact .inr (.inr ⟨_, _, _, _, f1, f2, h⟩)
  | map e fs =>
    rcases C62_map hE hE' hf hs.expecting ht.expecting hw hok hcb with
      ⟨s1, t1, out, ps, new, c1, g1, c2, _, n1, n2, n3, n4⟩ | ⟨t1, new, k, ⟨s1, f1⟩, c2, _, n1, n2⟩ | ⟨msg, msg', ⟨s1, f1⟩, ⟨t1, f2⟩, h⟩
    · exact .inl ⟨_, _, _, new, c1.root hs.stack, rfl, getst g1, c2.root ht.stack, rfl, n1, ps, n2, n3, n4⟩
    · exact .inr (.inl ⟨_, _, new, f1, c2.root ht.stack, rfl, n1, k, n2⟩)
    · exact .inr (.inr ⟨_, _, _, _, f1, f2, h⟩)

theorem streams_wf {j : Json} (hj : Streams R R' j) (hw : R.wf = true) : R'.wf = true := by
  cases hj with
  | array e l => exact (wf_unstored_array hw).1
  | map e fs => exact (wf_unstored_map hw).1

/-- C62, text: the same text, in any pieces, given to a parser that stores an array or a map and to one that streams it, whatever both have been used for
before. The text may be cut differently for the two. -/
theorem C62_document (hE : Passive E) (hE' : Passive E') (hf : E'.fmtDbl = E.fmtDbl) {j : Json} (hj : Streams R R' j) (hw : R.wf = true)
    (hok : okVal R j = true) (hcb : Delivers E' R') {s t : PSt Y} (hs : ServedDocs Y R s) (ht : ServedDocs Y R' t) {cs cs' : List Chunk}
    (hne : cs ≠ []) (hne' : cs' ≠ []) {bs : List UInt8} (hc : chunkBytes cs = some bs) (hc' : chunkBytes cs' = some bs)
    (hdoc : Y.Document bs (events j)) {m m' : Mem}
    (hm : ∀ c, cs.getLast? = some c → (m.read c.ptr c.len).isSome) (hm' : ∀ c, cs'.getLast? = some c → (m'.read c.ptr c.len).isSome) :
    (∃ s1 t1 v new, parseDocument Y E R cs m s = .ok () s1 ∧ get [] s1.st = .ok v s1.st ∧ parseDocument Y E' R' cs' m' t = .ok () t1 ∧
      t1.st.log = new ++ t.st.log ∧ SameContents v new) ∨
    (∃ s1 t1 new y, parseDocument Y E R cs m s = .throw (.parsing "Can't get value, parser is unset" y) s1 ∧ parseDocument Y E' R' cs' m' t = .ok () t1 ∧
      t1.st.log = new ++ t.st.log ∧ SomethingUnset j new) ∨
    (∃ s1 t1 msg msg' y y', parseDocument Y E R cs m s = .throw (.parsing msg y) s1 ∧ parseDocument Y E' R' cs' m' t = .throw (.parsing msg' y') t1) := by
  obtain ⟨hb0, hs0⟩ := hs.facts
  obtain ⟨hb, hs1⟩ := ht.facts
  have hw' := streams_wf hj hw
  have g1 := parseDocument_run_of (E := E) (R := R) hb0.facts.1.facts.1 hb0.facts.2.1 hb0.facts.2.2 hne hc hdoc hm
  have g2 := parseDocument_run_of (E := E') (R := R') hb.facts.1.facts.1 hb.facts.2.1 hb.facts.2.2 hne' hc' hdoc hm'
  rcases streams_outcome hE hE' hf hj hw hok hcb (hs0.ready (wf_user hw)) (hs1.ready (wf_user hw')) with
    ⟨s1, t1, v, new, c1, k1, v1, c2, k2, n1, n2⟩ | ⟨s1, t1, new, c1, c2, k2, n1, n2⟩ | ⟨s1, t1, msg, msg', c1, c2, _⟩
  · rw [c1] at g1; rw [c2] at g2
    simp only at g1 g2
    rw [if_pos k1] at g1; rw [if_pos k2] at g2
    obtain ⟨z1, g1, rfl⟩ := g1
    obtain ⟨z2, g2, rfl⟩ := g2
    exact .inl ⟨z1, z2, v, new, g1, v1, g2, n1, n2⟩
  · rw [c1] at g1; rw [c2] at g2
    simp only at g1 g2
    rw [if_pos k2] at g2
    obtain ⟨y, z1, g1, _⟩ := g1
    obtain ⟨z2, g2, rfl⟩ := g2
    exact .inr (.inl ⟨z1, z2, new, y, g1, g2, n1, n2⟩)
  · rw [c1] at g1; rw [c2] at g2
    obtain ⟨y, z1, g1, _⟩ := g1
    obtain ⟨y', z2, g2, _⟩ := g2
    exact .inr (.inr ⟨_, _, _, _, _, _, g1, g2⟩)

section Examples
open Demo

def sameOs : List (Option Val) → List (Option Val) → Bool
  | [], [] => true
  | some a :: l, some b :: l' => sameV a b && sameOs l l'
  | none :: l, none :: l' => sameOs l l'
  | _, _ => false
theorem sameOs_eq : ∀ {a b : List (Option Val)}, sameOs a b = true → a = b
  | [], [], _ => rfl
  | some a :: l, some b :: l', h => by
    simp only [sameOs, Bool.and_eq_true] at h
    rw [sameV_eq h.1, sameOs_eq h.2]
  | none :: l, none :: l', h => by
    simp only [sameOs] at h
    rw [sameOs_eq h]
  | [], _ :: _, h => by simp [sameOs] at h
  | _ :: _, [], h => by simp [sameOs] at h
  | some _ :: _, none :: _, h => by simp [sameOs] at h
  | none :: _, some _ :: _, h => by simp [sameOs] at h

/-- `[1, null, 2]` -/
def numbersDoc : Json := .arr [.sc (.int 1), .null, .sc (.int 2)]

/-- The hypotheses of `C62_array` and `C62_document`; the first outcome. -/
example : (Shape.array true (.value .int)).wf = true ∧ okVal (.array true (.value .int)) numbersDoc = true ∧ Delivers accepting (.array false (.value .int)) ∧
    Streams (.array true (.value .int)) (.array false (.value .int)) numbersDoc := ⟨by decide, by decide +kernel, rfl, .array _ _⟩
example : fine noCb (.array true (.value .int)) (events numbersDoc) (St.init (.array true (.value .int))) = true ∧
    fine accepting (.array false (.value .int)) (events numbersDoc) (St.init (.array false (.value .int))) = true := by decide +kernel
example : ((after noCb (.array true (.value .int)) (events numbersDoc) (St.init (.array true (.value .int)))).heap []).val = .arr [.sc (.int 1), .sc (.int 2)] ∧
    delivered [.elem] (after accepting (.array false (.value .int)) (events numbersDoc) (St.init (.array false (.value .int)))).log =
      [some (.sc (.int 1)), some (.sc (.int 2))] := ⟨sameV_eq (by decide +kernel), sameOs_eq (by decide +kernel)⟩

/-- The theorem, for these parsers. -/
example : ∃ s1 t1 v new, run noCb (.array true (.value .int)) (events numbersDoc) (St.init (.array true (.value .int))) = .ok () s1 ∧ get [] s1 = .ok v s1 ∧
    run accepting (.array false (.value .int)) (events numbersDoc) (St.init (.array false (.value .int))) = .ok () t1 ∧
    t1.log = new ++ [] ∧ SameContents v new := by
  rcases streams_outcome noCb_passive accepting_passive rfl (.array (.value .int) [.sc (.int 1), .null, .sc (.int 2)]) (by decide) (by decide +kernel) rfl
    (Ready.init _) (Ready.init _) with ⟨s1, t1, v, new, h1, _, h2, h3, _, h4, h5⟩ | ⟨s1, t1, new, h1, _⟩ | ⟨s1, t1, m, m', h1, _⟩
  · exact ⟨s1, t1, v, new, h1, h2, h3, h4, h5⟩
  all_goals
    have := after_ok (E := noCb) (R := .array true (.value .int)) (ts := events numbersDoc) (s := St.init (.array true (.value .int))) (by decide +kernel)
    rw [numbersDoc, h1] at this; simp at this

/-- The second outcome: `[{}, {"x": 1}]` for an array of `SAutoObject`s: one element is delivered, two are not null. -/
def pointsDoc : Json := .arr [.obj [], .obj [("x", .sc (.int 1))]]
example : failure noCb (.array true point) (events pointsDoc) (St.init (.array true point)) = some (.std "Can't get value, parser is unset") ∧
    fine accepting (.array false point) (events pointsDoc) (St.init (.array false point)) = true ∧
    (delivered [.elem] (after accepting (.array false point) (events pointsDoc) (St.init (.array false point))).log).length = 1 := by decide +kernel
/-- The third: `[{}, {"y": 1}]`: the messages differ, since the `SArray` fails earlier. -/
example : failure noCb (.array true point) (events (.arr [.obj [], .obj [("y", .sc (.int 1))]])) (St.init (.array true point)) =
      some (.std "Can't get value, parser is unset") ∧
    failure accepting (.array false point) (events (.arr [.obj [], .obj [("y", .sc (.int 1))]])) (St.init (.array false point)) =
      some (.std "Unexpected member y") := by decide +kernel

/-- Maps: `{"b": 1, "a": 2, "b": 3}`: three pairs are delivered; the first of each key is stored, sorted by key. -/
def pairsDoc : Json := .obj [("b", .sc (.int 1)), ("a", .sc (.int 2)), ("b", .sc (.int 3))]
example : (Shape.map true (.value .int)).wf = true ∧ okVal (.map true (.value .int)) pairsDoc = true ∧ Delivers accepting (.map false (.value .int)) ∧
    Streams (.map true (.value .int)) (.map false (.value .int)) pairsDoc := ⟨by decide, by decide +kernel, rfl, .map _ _⟩
example : fine noCb (.map true (.value .int)) (events pairsDoc) (St.init (.map true (.value .int))) = true ∧
    fine accepting (.map false (.value .int)) (events pairsDoc) (St.init (.map false (.value .int))) = true := by decide +kernel
example : ((after noCb (.map true (.value .int)) (events pairsDoc) (St.init (.map true (.value .int)))).heap []).val = .map [("a", .sc (.int 2)), ("b", .sc (.int 1))] ∧
    (deliveredPairs [] (after accepting (.map false (.value .int)) (events pairsDoc) (St.init (.map false (.value .int)))).log).map (·.1) = ["b", "a", "b"] ∧
    (deliveredPairs [] (after accepting (.map false (.value .int)) (events pairsDoc) (St.init (.map false (.value .int)))).log).map (·.2) =
      [some (.sc (.int 1)), some (.sc (.int 2)), some (.sc (.int 3))] := ⟨sameV_eq (by decide +kernel), by decide +kernel, sameOs_eq (by decide +kernel)⟩
/-- The second outcome: `{"a": null}`. -/
example : failure noCb (.map true (.value .int)) (events (.obj [("a", .null)])) (St.init (.map true (.value .int))) = some (.std "Can't get value, parser is unset") ∧
    fine accepting (.map false (.value .int)) (events (.obj [("a", .null)])) (St.init (.map false (.value .int))) = true := by decide +kernel
example : (deliveredPairs [] (after accepting (.map false (.value .int)) (events (.obj [("a", .null)])) (St.init (.map false (.value .int)))).log).map
    (fun kv => (kv.1, kv.2.isSome)) = [("a", false)] := by decide +kernel

/-- The text, in different pieces. -/
example : yajl.Document (bytes "[1, null, 2]") (events numbersDoc) ∧
    chunkBytes [chunk "[1, nu", chunk "ll, 2]"] = some (bytes "[1, null, 2]") ∧ chunkBytes [chunk "[1, null, 2]"] = some (bytes "[1, null, 2]") :=
  ⟨document_of (by decide +kernel) (by decide +kernel) (by decide +kernel), by decide +kernel, by decide +kernel⟩

end Examples

end SJ
