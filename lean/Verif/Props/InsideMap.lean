/-
C71 for maps: a map reads its values as its element parser reads documents.
-/
import Verif.Props.Inside
import Verif.Props.Containers

set_option linter.unusedVariables false

namespace SJ

variable {F : Handlers} {R : Shape} {Y : Yajl}

/-- What was inserted before stays, and of what is inserted the first one of each key counts. -/
theorem entry_insertAll : ∀ (ps ents : List (String × Val)), SortedKeys ents →
    SortedKeys (ps.foldl (fun m kv => mapInsert kv.1 kv.2 m) ents) ∧
    ∀ k, entry k (ps.foldl (fun m kv => mapInsert kv.1 kv.2 m) ents) = (entry k ents).or (entry k ps)
  | [], ents, hs => ⟨hs, fun k => by simp [entry]⟩
  | (k', v) :: ps, ents, hs => by
    obtain ⟨h1, h2⟩ := entry_insertAll ps (mapInsert k' v ents) (mapInsert_sorted hs)
    refine ⟨h1, fun k => ?_⟩
    simp only [List.foldl_cons]
    rw [h2 k, entry_mapInsert hs k]
    cases he : entry k ents <;> by_cases hk : k' = k <;> simp_all [entry]

theorem denFieldsA_map {st : Bool} {e : Shape} {p : Path} {k : String} {v : Json} {fs : List (String × Json)} {slots : List D} {ents : List (String × Val)} {ne : Bool}
    (h : embedded e v = none) (hel : F.onElement p = none) : denFieldsA F (.map st e) p slots ents ne ((k, v) :: fs) =
    ((denoteA F e (.elem :: p) v).bind fun d =>
      (Eff.lift (storeEntry st k d ents)).bind fun ents => denFieldsA F (.map st e) p [] ents true fs) := by
  have : ∀ d, Eff.elem F p k d = fun l => (l, .ok d) := fun d => by funext l; simp [Eff.elem, hel]
  simp only [denFieldsA, h, this]
  funext l
  simp only [Eff.bind]

/-- The values of a map, read by their parser alone as documents. -/
theorem reads_entries {e : Shape} (hw : e.wf = true) (hel : F.onElement [] = none) {before : List Ev} {st : Bool} (hst : st = true → e.isStorage = true) :
    ∀ (fs : List (String × Json)) {s0 t : St} {ts : List St} {slots : List D} {ents : List (String × Val)} {ne : Bool} {vs : List Val},
    ReadsEach ((F.part [.elem] before).env e) e (fs.map (·.2)) s0 ts t → Survived e s0 → (∀ kv ∈ fs, okVal e kv.2 = true) →
    (st = true → Each (fun t v => get [] t = .ok v t) ts vs) → ∀ {rest : List (String × Json)}, ∃ slots' ne',
    denFieldsA F (.map st e) [] slots ents ne (fs ++ rest) ((seenLog e s0.log).map (Ev.under [.elem]) ++ before) =
      denFieldsA F (.map st e) [] slots' (if st then ((fs.map (·.1)).zip vs).foldl (fun m kv => mapInsert kv.1 kv.2 m) ents else ents) ne' rest
        ((seenLog e t.log).map (Ev.under [.elem]) ++ before) ∧ Survived e t
  | [], s0, t, ts, slots, ents, ne, vs, h, h0, hok, hv, rest => by
    cases h
    exact ⟨slots, ne, by simp, h0⟩
  | (k, j) :: fs, s0, t, ts, slots, ents, ne, vs, h, h0, hok, hv, rest => by
    have hj := hok (k, j) (by simp)
    simp only [List.map_cons] at h
    cases h with
    | @cons _ _ _ s1 _ ts hr hrest =>
      have hs1 : Survived e s1.restart := .doc j h0 hj hr
      have h2 := parse_denoteA (F := F.part [.elem] before) (h0.ready hw) hw hj
      have h3 := denoteA_mirrors (F := F) (p := [.elem]) (B := before) j e [] (seenLog e s0.log)
      rw [List.nil_append] at h3
      rw [List.cons_append, denFieldsA_map (embedded_of_ok hj) hel]
      cases hd : denoteA (F.part [.elem] before) e [] j (seenLog e s0.log) with
      | mk l o =>
        rw [hd] at h2 h3
        cases o with
        | error x => obtain ⟨t', b1, b2⟩ := h2; rw [hr] at b1; simp at b1
        | ok d =>
          obtain ⟨t', b1, b2, b3, b4, _, b5⟩ := h2
          rw [hr] at b1; injection b1 with _ b1; subst b1
          subst b5
          cases st with
          | false =>
            obtain ⟨slots', ne', h4, h5⟩ := reads_entries hw hel hst fs (slots := []) (ents := ents) (ne := true) (vs := []) hrest hs1
              (fun kv hkv => hok kv (by simp [hkv])) (by simp) (rest := rest)
            refine ⟨slots', ne', ?_, h5⟩
            simp only [Eff.bind, h3, storeEntry, Eff.lift, Bool.false_eq_true, if_false] at h4 ⊢
            exact h4
          | true =>
            have hv := hv rfl
            cases hv with
            | @cons _ v _ vs ha hvs =>
              obtain ⟨slots', ne', h4, h5⟩ := reads_entries hw hel hst fs (slots := []) (ents := mapInsert k v ents) (ne := true) (vs := vs) hrest hs1
                (fun kv hkv => hok kv (by simp [hkv])) (fun _ => hvs) (rest := rest)
              refine ⟨slots', ne', ?_, h5⟩
              simp only [Eff.bind, h3, storeEntry, value_of_get b4 b3 (hst rfl) ha, Eff.lift, if_true, List.map_cons, List.zip_cons_cons, List.foldl_cons] at h4 ⊢
              exact h4

/-- The documents of a map, none of whose values selects an alternative of an embedded union. -/
theorem okFields_entries {st : Bool} {e : Shape} (hw : e.wf = true) : ∀ (fs : List (String × Json)), (∀ kv ∈ fs, okVal e kv.2 = true) → okFields (.map st e) fs = true
  | [], _ => rfl
  | (k, v) :: fs, h => by
    have h1 := h (k, v) (by simp)
    simp only [okFields, embedded_of_ok h1, wf_user hw, h1, okFields_entries hw fs fun kv hkv => h kv (by simp [hkv]), Bool.and_self]

/-- C71, maps (without callbacks of their own): reading a map is reading its values as documents, one after another, with the element parser alone: if all of them are
read, so is the map, and the same callbacks are called in the same order; and `SMap` holds, sorted by key, for each key what `get()` returned after the first value with it. -/
theorem C71_map {st : Bool} {e : Shape} (hw : (Shape.map st e).wf = true) {fs : List (String × Json)} (hok : ∀ kv ∈ fs, okVal e kv.2 = true)
    (hf : F.onFinish [] = none) (hel : F.onElement [] = none) {s s0 : St} (h : Survived (.map st e) s) (h0 : Survived e s0)
    {before : List Ev} (hl : seenLog (.map st e) s.log = (seenLog e s0.log).map (Ev.under [.elem]) ++ before)
    {ts : List St} {t : St} (hr : ReadsEach ((F.part [.elem] before).env e) e (fs.map (·.2)) s0 ts t) {vs : List Val}
    (hv : st = true → Each (fun t v => get [] t = .ok v t) ts vs) :
    ∃ s1, run (F.env (.map st e)) (.map st e) (events (.obj fs)) s = .ok () s1 ∧ s1.stack = [] ∧ isSet [] s1 = true ∧
      (st = true → ∃ out, get [] s1 = .ok (.map out) s1 ∧ SortedKeys out ∧ ∀ k, entry k out = entry k ((fs.map (·.1)).zip vs)) ∧
      seenLog (.map st e) s1.log = (seenLog e t.log).map (Ev.under [.elem]) ++ before := by
  have he := wf_map hw
  have hR : okVal (.map st e) (.obj fs) = true := by simp only [okVal, okFields_entries he.1 fs hok]
  have h1 := C49_tokens (F := F) hw h hR
  obtain ⟨slots', ne', h2, _⟩ := reads_entries (F := F) he.1 hel he.2 fs (slots := noSlots (.map st e)) (ents := []) (ne := false) hr h0 hok hv (rest := [])
  rw [List.append_nil, ← hl] at h2
  simp only [denoteA, h2, denFieldsA] at h1
  cases st with
  | false =>
    simp only [finishMap, Eff.done, hf, D.isSet, Bool.false_eq_true, if_false, if_true] at h1
    obtain ⟨s1, a1, a2, a3, a4⟩ := h1
    exact ⟨s1, a1, a2, a3.set, by simp, a4⟩
  | true =>
    simp only [finishMap, Eff.done, hf, D.isSet, if_true] at h1
    obtain ⟨s1, a1, a2, a3, a4⟩ := h1
    obtain ⟨b1, b2⟩ := a3.value rfl
    obtain ⟨c1, c2⟩ := entry_insertAll ((fs.map (·.1)).zip vs) [] (by simp [SortedKeys])
    exact ⟨s1, a1, a2, a3.set, fun _ => ⟨_, by rw [C18_get]; simp only [isSet, b1, b2, if_true], c1, fun k => by rw [c2 k]; simp [entry]⟩, a4⟩

/-- C71, maps: if after some documents the element parser refuses one, the map that begins with these values is refused with the same exception, whatever follows;
the same callbacks have been called. (For `SMap`, if each of the values before left the parser set.) -/
theorem C71_map_fails {st : Bool} {e : Shape} (hw : (Shape.map st e).wf = true) {fs post : List (String × Json)} {k : String} {j : Json}
    (hok : ∀ kv ∈ fs ++ (k, j) :: post, okVal e kv.2 = true) (hel : F.onElement [] = none) {s s0 : St} (h : Survived (.map st e) s) (h0 : Survived e s0)
    {before : List Ev} (hl : seenLog (.map st e) s.log = (seenLog e s0.log).map (Ev.under [.elem]) ++ before)
    {ts : List St} {t : St} (hr : ReadsEach ((F.part [.elem] before).env e) e (fs.map (·.2)) s0 ts t) {vs : List Val}
    (hv : st = true → Each (fun t v => get [] t = .ok v t) ts vs) {x : Exn} {t' : St} (hx : run ((F.part [.elem] before).env e) e (events j) t = .throw x t') :
    ∃ s1, run (F.env (.map st e)) (.map st e) (events (.obj (fs ++ (k, j) :: post))) s = .throw x s1 ∧
      seenLog (.map st e) s1.log = (seenLog e t'.log).map (Ev.under [.elem]) ++ before := by
  have he := wf_map hw
  have hj := hok (k, j) (by simp)
  have hR : okVal (.map st e) (.obj (fs ++ (k, j) :: post)) = true := by simp only [okVal, okFields_entries he.1 _ hok]
  have h1 := C49_tokens (F := F) hw h hR
  obtain ⟨slots', ne', h2, ht⟩ := reads_entries (F := F) he.1 hel he.2 fs (slots := noSlots (.map st e)) (ents := []) (ne := false) hr h0
    (fun kv hkv => hok kv (by simp [hkv])) hv (rest := (k, j) :: post)
  rw [← hl] at h2
  simp only [denoteA, h2] at h1
  rw [denFieldsA_map (embedded_of_ok hj) hel] at h1
  have h4 := parse_denoteA (F := F.part [.elem] before) (ht.ready he.1) he.1 hj
  have h3 := denoteA_mirrors (F := F) (p := [.elem]) (B := before) j e [] (seenLog e t.log)
  rw [List.nil_append] at h3
  cases hd : denoteA (F.part [.elem] before) e [] j (seenLog e t.log) with
  | mk l o =>
    rw [hd] at h4 h3
    cases o with
    | ok d => obtain ⟨t', b1, _⟩ := h4; rw [hx] at b1; simp at b1
    | error x =>
      obtain ⟨t', b1, b2⟩ := h4
      rw [hx] at b1; injection b1 with b1 b3; subst b1 b3
      simp only [Eff.bind, h3] at h1
      rw [b2]
      exact h1

/-! ### The hypotheses are met -/

section Examples
open Demo

theorem watched_reads : ReadsEach alone inner ([("b", row1), ("a", row2)].map (·.2)) (St.init inner) [alone1, alone2] alone2.restart := alone_reads

/-- C71_map: an `SMap` of objects. The values and the calls (six of them) are those of the element parser alone; they are sorted by key. -/
example : ∃ s1 out, run (counting.env (.map true inner)) (.map true inner) (events (.obj [("b", row1), ("a", row2)])) (St.init (.map true inner)) = .ok () s1 ∧
    get [] s1 = .ok (.map out) s1 ∧ SortedKeys out ∧ entry "a" out = some (.tup [.sc (.int 2), .arr [.sc (.str "a")]]) ∧ entry "b" out = some (.tup [.sc (.int 1), .arr []]) ∧
    seenLog (.map true inner) s1.log = (seenLog inner alone2.log).map (Ev.under [.elem]) := by
  obtain ⟨s1, h1, _, _, h2, h3⟩ := C71_map (F := counting) (st := true) (e := inner) (by decide +kernel) (fs := [("b", row1), ("a", row2)])
    (by simp only [List.mem_cons, List.not_mem_nil, or_false]; rintro kv (rfl | rfl) <;> decide +kernel) rfl rfl .init .init (before := []) rfl watched_reads
    (vs := [.tup [.sc (.int 1), .arr []], .tup [.sc (.int 2), .arr [.sc (.str "a")]]]) (fun _ => by
      have v1 : (alone1.heap []).val = .tup [.sc (.int 1), .arr []] := sameV_eq (by decide +kernel)
      have v2 : (alone2.heap []).val = .tup [.sc (.int 2), .arr [.sc (.str "a")]] := sameV_eq (by decide +kernel)
      refine .cons ?_ (.cons ?_ .nil)
      · rw [C18_get, if_pos (by decide +kernel), v1]
      · rw [C18_get, if_pos (by decide +kernel), v2])
  obtain ⟨out, h4, h5, h6⟩ := h2 rfl
  exact ⟨s1, out, h1, h4, h5, by rw [h6]; simp [entry], by rw [h6]; simp [entry], by rw [h3, List.append_nil, restart_log]⟩

/-- C71_map_fails: the third value is refused by the callback, which counts the calls. -/
example : ∃ s1, run (counting.env (.map false inner)) (.map false inner) (events (.obj ([("b", row1), ("a", row2)] ++ ("c", row3) :: [("d", row1)]))) (St.init (.map false inner)) =
    .throw (.std "Callback returned false") s1 := by
  obtain ⟨s1, h1, _⟩ := C71_map_fails (F := counting) (st := false) (e := inner) (by decide +kernel) (fs := [("b", row1), ("a", row2)]) (k := "c") (j := row3)
    (post := [("d", row1)]) (by simp only [List.cons_append, List.nil_append, List.mem_cons, List.not_mem_nil, or_false]; rintro kv (rfl | rfl | rfl | rfl) <;> decide +kernel)
    rfl .init .init (before := []) rfl watched_reads (vs := []) (by simp)
    (after_throw (E := alone) (R := inner) (ts := events row3) (s := alone2.restart) (e := .std "Callback returned false") (by decide +kernel))
  exact ⟨s1, h1⟩

end Examples

end SJ
