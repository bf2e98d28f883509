/-
C66: taking streamed values out of their parsers changes nothing else.
-/
import Verif.Proofs.Take
import Verif.Props.Active
import Verif.Props.Deliver

set_option linter.unusedVariables false

namespace SJ

variable {E : Env} {F F' : Handlers} {R R' : Shape} {Y : Yajl}

/-- C66, tokens. Two parsers with the same tree, and with callbacks that differ only in what those of streamed elements take out of the parsers they are given
(nothing, the value, members, everything, depending on whatever they like): both read the document, and hold the same in the end, or both fail with the same
exception; and the same callbacks are called in the same order with the same arguments. -/
theorem C66_tokens (hw : R.wf = true) (hF : SameButTaken R F F') {s s' : St} (h : Survived R s) (h' : Survived R s')
    (hl : seenLog R s.log = seenLog R s'.log) {j : Json} (hok : okVal R j = true) :
    (∃ t t' d, run (F.env R) R (events j) s = .ok () t ∧ run (F'.env R) R (events j) s' = .ok () t' ∧ t.stack = [] ∧ t'.stack = [] ∧
      Holds t.heap [] d ∧ Holds t'.heap [] d ∧ seenLog R t.log = seenLog R t'.log) ∨
    (∃ t t' e, run (F.env R) R (events j) s = .throw e t ∧ run (F'.env R) R (events j) s' = .throw e t' ∧ seenLog R t.log = seenLog R t'.log) := by
  have h1 := C49_tokens (F := F) hw h hok
  have h2 := C49_tokens (F := F') hw h' hok
  have e := Tk.denoteA_taken (R := R) j R [] hF (Tk.same hF (by rintro ⟨q, e, h, _⟩; simp at h)) rfl hw
  rw [e, hl] at h1
  cases hd : denoteA F' R [] j (seenLog R s'.log) with
  | mk l o =>
    rw [hd] at h1 h2
    cases o with
    | ok d =>
      obtain ⟨t, a1, a2, a3, a4⟩ := h1
      obtain ⟨t', b1, b2, b3, b4⟩ := h2
      exact .inl ⟨t, t', d, a1, b1, a2, b2, a3, b3, a4.trans b4.symm⟩
    | error x =>
      obtain ⟨t, a1, a2⟩ := h1
      obtain ⟨t', b1, b2⟩ := h2
      exact .inr ⟨t, t', x, a1, b1, a2.trans b2.symm⟩

/-- C66, text. -/
theorem C66_document (hw : R.wf = true) (hF : SameButTaken R F F') {s s' : PSt Y} (h : ServedDocs Y R s) (h' : ServedDocs Y R s')
    (hl : seenLog R s.st.log = seenLog R s'.st.log) {cs cs' : List Chunk} (hne : cs ≠ []) (hne' : cs' ≠ []) {bs : List UInt8}
    (hc : chunkBytes cs = some bs) (hc' : chunkBytes cs' = some bs) {j : Json} (hdoc : Y.Document bs (events j)) (hok : okVal R j = true) {m m' : Mem}
    (hm : ∀ c, cs.getLast? = some c → (m.read c.ptr c.len).isSome) (hm' : ∀ c, cs'.getLast? = some c → (m'.read c.ptr c.len).isSome) :
    (∃ t t' d, parseDocument Y (F.env R) R cs m s = .ok () t ∧ parseDocument Y (F'.env R) R cs' m' s' = .ok () t' ∧
      Holds t.st.heap [] d ∧ Holds t'.st.heap [] d ∧ seenLog R t.st.log = seenLog R t'.st.log) ∨
    (∃ t t' sj y y', parseDocument Y (F.env R) R cs m s = .throw (.parsing sj y) t ∧ parseDocument Y (F'.env R) R cs' m' s' = .throw (.parsing sj y') t' ∧
      seenLog R t.st.log = seenLog R t'.st.log) := by
  have h1 := C49_document (F := F) hw h hne hc hdoc hok hm
  have h2 := C49_document (F := F') hw h' hne' hc' hdoc hok hm'
  have e := Tk.denoteA_taken (R := R) j R [] hF (Tk.same hF (by rintro ⟨q, e, h, _⟩; simp at h)) rfl hw
  rw [e, hl] at h1
  cases hd : denoteA F' R [] j (seenLog R s'.st.log) with
  | mk l o =>
    rw [hd] at h1 h2
    cases o with
    | ok d =>
      obtain ⟨t, a1, a2, a3⟩ := h1
      obtain ⟨t', b1, b2, b3⟩ := h2
      exact .inl ⟨t, t', d, a1, b1, a2, b2, a3.trans b3.symm⟩
    | error x =>
      obtain ⟨y, t, a1, a2⟩ := h1
      obtain ⟨y', t', b1, b2⟩ := h2
      exact .inr ⟨t, t', x.text, y, y', a1, b1, a2.trans b2.symm⟩

/-! ### Collecting the elements by hand -/

/-- The callbacks of `F`, only observing. -/
def Handlers.idle (F : Handlers) : Handlers where
  onFinish p := (F.onFinish p).map fun _ _ _ => {}
  onElement p := (F.onElement p).map fun _ _ _ _ => {}
  fmtDbl := F.fmtDbl

theorem idle_watching (F : Handlers) (p : Path) : Watching F.idle p := fun q _ =>
  ⟨fun f hf => by
    simp only [Handlers.idle, Option.map_eq_some_iff] at hf
    obtain ⟨_, _, rfl⟩ := hf
    exact fun _ _ => ⟨rfl, rfl, rfl⟩,
   fun f hf => by
    simp only [Handlers.idle, Option.map_eq_some_iff] at hf
    obtain ⟨_, _, rfl⟩ := hf
    exact fun _ _ _ => ⟨rfl, rfl⟩⟩

theorem idle_called (F : Handlers) : F.idle.called = F.called := by
  funext e
  cases e <;> simp [Handlers.called, Handlers.idle]

theorem OnlyStreamedTaken.idle (h : OnlyStreamedTaken R F) : SameButTaken R F F.idle where
  fmt := rfl
  finish p := by
    cases hf : F.onFinish p with
    | none => left; simp [Handlers.idle, hf]
    | some f =>
      by_cases hp : StreamedElement R p
      · exact .inr ⟨hp, f, fun _ _ => {}, rfl, by simp only [Handlers.idle, hf, Option.map_some], fun l d => (h.finish p f hf l d).1⟩
      · left
        simp only [Handlers.idle, hf, Option.map_some, Option.some.injEq]
        funext l d
        obtain ⟨a, b⟩ := h.finish p f hf l d
        obtain ⟨b, c⟩ := b hp
        cases hx : f l d; rw [hx] at a b c; simp only at a b c; rw [a, b, c]
  element p := by
    cases hf : F.onElement p with
    | none => left; simp [Handlers.idle, hf]
    | some f =>
      by_cases hp : StreamedEntries R p
      · exact .inr ⟨hp, f, fun _ _ _ => {}, rfl, by simp only [Handlers.idle, hf, Option.map_some], fun l k d => (h.element p f hf l k d).1⟩
      · left
        simp only [Handlers.idle, hf, Option.map_some, Option.some.injEq]
        funext l k d
        obtain ⟨a, b⟩ := h.element p f hf l k d
        obtain ⟨b, c⟩ := b hp
        cases hx : f l k d; rw [hx] at a b c; simp only at a b c; rw [a, b, c]

theorem taken_append (q : Path) : ∀ (a b : List Ev), taken q (a ++ b) = taken q b ++ taken q a
  | [], b => by simp [taken]
  | .finish p d :: a, b => by
    simp only [List.cons_append, taken]
    split <;> simp [taken_append q a b]
  | .element _ _ _ :: a, b => by simp only [List.cons_append, taken, taken_append q a b]

theorem takenPairs_append (q : Path) : ∀ (a b : List Ev), takenPairs q (a ++ b) = takenPairs q b ++ takenPairs q a
  | [], b => by simp [takenPairs]
  | .element p k d :: a, b => by
    simp only [List.cons_append, takenPairs]
    split <;> simp [takenPairs_append q a b]
  | .finish _ _ :: a, b => by simp only [List.cons_append, takenPairs, takenPairs_append q a b]

theorem taken_calls {q : Path} (hq : (F.onFinish q).isSome = true) : ∀ calls : List Ev,
    taken q (calls.filter F.called).reverse = (calls.filterMap (finAt q)).map D.value?
  | [] => by simp [taken]
  | .finish p d :: l => by
    have ih := taken_calls hq l
    by_cases hp : p = q
    · subst hp
      have hc : F.called (.finish p d) = true := hq
      simp only [List.filter_cons, hc, if_true, List.reverse_cons, taken_append, taken, ih, finAt, List.filterMap_cons]
      simp
    · have hf : finAt q (.finish p d) = none := by simp [finAt, hp]
      rw [List.filterMap_cons, hf]
      simp only
      rw [← ih, List.filter_cons]
      split
      · rw [List.reverse_cons, taken_append]; simp [taken, hp]
      · rfl
  | .element p k d :: l => by
    have ih := taken_calls hq l
    have hf : finAt q (.element p k d) = none := rfl
    rw [List.filterMap_cons, hf]
    simp only
    rw [← ih, List.filter_cons]
    split
    · rw [List.reverse_cons, taken_append]; simp [taken]
    · rfl

theorem takenPairs_calls {q : Path} (hq : (F.onElement q).isSome = true) : ∀ calls : List Ev,
    takenPairs q (calls.filter F.called).reverse = (calls.filterMap (elAt q)).map seenPair
  | [] => by simp [takenPairs]
  | .element p k d :: l => by
    have ih := takenPairs_calls hq l
    by_cases hp : p = q
    · subst hp
      have hc : F.called (.element p k d) = true := hq
      simp only [List.filter_cons, hc, if_true, List.reverse_cons, takenPairs_append, takenPairs, ih, elAt, List.filterMap_cons]
      simp [seenPair]
    · have hf : elAt q (.element p k d) = none := by simp [elAt, hp]
      rw [List.filterMap_cons, hf]
      simp only
      rw [← ih, List.filter_cons]
      split
      · rw [List.reverse_cons, takenPairs_append]; simp [takenPairs, hp]
      · rfl
  | .finish p d :: l => by
    have ih := takenPairs_calls hq l
    have hf : elAt q (.finish p d) = none := rfl
    rw [List.filterMap_cons, hf]
    simp only
    rw [← ih, List.filter_cons]
    split
    · rw [List.reverse_cons, takenPairs_append]; simp [takenPairs]
    · rfl

/-- What was taken is what the storing parser holds: the elements of the vector, in order; of the entries of an object the first of each key, sorted. -/
def SameTaken : Val → List Ev → Prop
  | .arr vs, new => taken [.elem] new = vs.map some
  | .map out, new => ∃ ps, takenPairs [] new = ps.map (fun kv => (kv.1, some kv.2)) ∧ SortedKeys out ∧ ∀ k, entry k out = entry k ps
  | _, _ => False

/-- The handler to which a streaming parser gives its elements. -/
def Collects (F : Handlers) : Shape → Prop
  | .array _ _ => (F.onFinish [.elem]).isSome = true
  | .map _ _ => (F.onElement []).isSome = true
  | _ => False

/-- C66, taking the elements out is as good as storing them: the same array (object) is given to an `SArray` (`SMap`) and to an `Array` (a `Map`) with the same
kind of elements, the callback of which takes each value out of its parser (or members of it, or nothing: whatever it does). If the storing parser reads it, so
does the other, and the values that the callback found in the parser it was given are exactly those that the storing parser holds. -/
theorem C66_storing (hE : Passive E) (hf : F.fmtDbl = E.fmtDbl) {j : Json} (hj : Streams R R' j) (hw : R.wf = true) (hok : okVal R j = true)
    (hF : OnlyStreamedTaken R' F) (hcb : Collects F R') {s s1 t : St} (hs : Survived R s) (ht : Survived R' t) {v : Val}
    (hr : run E R (events j) s = .ok () s1) (hg : get [] s1 = .ok v s1) :
    ∃ t1 new, run (F.env R') R' (events j) t = .ok () t1 ∧ t1.stack = [] ∧ isSet [] t1 = true ∧ seenLog R' t1.log = new ++ seenLog R' t.log ∧ SameTaken v new := by
  have hw' := streams_wf hj hw
  have hok' : okVal R' j = true := by
    cases hj with
    | array e l => simpa [okVal] using hok
    | map e fs => simp only [okVal] at hok ⊢; rw [okFields_maps (st' := true)]; exact hok
  have h1 := parse_at hE (hs.ready hw).expecting hw hok
  have h2 := C49_tokens (F := F) hw' ht hok'
  rw [Tk.denoteA_taken (R := R') j R' [] hF.idle (Tk.same hF.idle (by rintro ⟨q, e, h, _⟩; simp at h)) rfl hw',
    C49_watching (idle_watching F []) R' j] at h2
  have hfm : F.idle.fmtDbl = E.fmtDbl := hf
  rw [hfm, idle_called] at h2
  cases hd : denote E.fmtDbl R j with
  | error e =>
    rw [hd] at h1
    obtain ⟨x, h1⟩ := h1
    rw [hr] at h1; simp at h1
  | ok d =>
    rw [hd] at h1
    obtain ⟨s2, c1, v1, _⟩ := h1
    have hroot := c1.root (hs.ready hw).stack
    rw [hr] at hroot
    injection hroot with _ hroot
    have hg' : d = .val v := by
      have hh : s1.heap = s2.heap := by rw [hroot]
      cases hj with
      | array e l =>
        have r1 := denoteT_result E.fmtDbl (.arr l) (.array true e) []
        rw [hd, denoteT, W.result_bind] at r1
        cases hq : (denElemsT E.fmtDbl true e [] l).result with
        | error e => rw [hq] at r1; simp [bind, Except.bind] at r1
        | ok vs =>
          rw [hq] at r1
          simp only [bind, Except.bind, W.result_done, if_true, Except.ok.injEq] at r1
          subst r1
          rw [C18_get] at hg
          simp only [isSet, hh, v1.1, if_true, v1.2] at hg
          injection hg with hg _; rw [hg]
      | map e fs =>
        have r1 := denoteT_result E.fmtDbl (.obj fs) (.map true e) []
        rw [hd, denoteT] at r1
        simp only [noSlots] at r1
        have ha := maps_agree (fmt := E.fmtDbl) (p := []) (q := []) (wf_unstored_map hw).2.1 (wf_unstored_map hw).2.2 fs [] [] false
        rw [r1] at ha
        obtain ⟨_, ps, rfl, _⟩ := ha
        rw [C18_get] at hg
        simp only [isSet, hh, v1.1, if_true, v1.2] at hg
        injection hg with hg _; rw [hg]
    subst hg'
    cases hj with
    | array e l =>
      have r1 := denoteT_result E.fmtDbl (.arr l) (.array true e) []
      have r2 := denoteT_result E.fmtDbl (.arr l) (.array false e) []
      have ha := elems_agree (fmt := E.fmtDbl) (p := []) (q := []) (wf_unstored_array hw).2.1 (wf_unstored_array hw).2.2 l
      rw [hd, denoteT, W.result_bind] at r1
      cases hq : (denElemsT E.fmtDbl true e [] l).result with
      | error e => rw [hq] at r1; simp [bind, Except.bind] at r1
      | ok vs =>
        rw [hq] at r1 ha
        simp only [bind, Except.bind, W.result_done, if_true, Except.ok.injEq, D.val.injEq] at r1
        subst r1
        obtain ⟨g1, g2, g3⟩ := ha
        have hx : denote E.fmtDbl (.array false e) (.arr l) = .ok .done := by
          rw [← r2, denoteT, W.result_bind, g1]; rfl
        rw [hx] at h2
        obtain ⟨t1, a1, a2, a3, a4⟩ := h2
        refine ⟨t1, _, a1, a2, a3, a4, ?_⟩
        show taken [.elem] _ = _
        rw [taken_calls hcb, ← g3]
        congr 1
        rw [denoteT]
        simp [W.bind, g1, W.done, D.isSet, finAt]
    | map e fs =>
      have r1 := denoteT_result E.fmtDbl (.obj fs) (.map true e) []
      have r2 := denoteT_result E.fmtDbl (.obj fs) (.map false e) []
      have ha := maps_agree (fmt := E.fmtDbl) (p := []) (q := []) (wf_unstored_map hw).2.1 (wf_unstored_map hw).2.2 fs [] [] false
      rw [hd, denoteT] at r1
      simp only [noSlots] at r1
      rw [r1] at ha
      obtain ⟨g1, ps, g2, g3⟩ := ha
      simp only [D.val.injEq] at g2
      subst g2
      have hx : denote E.fmtDbl (.map false e) (.obj fs) = .ok .done := by
        rw [← r2, denoteT]; exact g1
      rw [hx] at h2
      obtain ⟨t1, a1, a2, a3, a4⟩ := h2
      have hs := insertAll_entry ps (ents := []) (by simp [SortedKeys])
      refine ⟨t1, _, a1, a2, a3, a4, ps, ?_, hs.1, fun k => by rw [hs.2]; simp [entry]⟩
      rw [takenPairs_calls hcb, ← g3]
      rw [denoteT]; rfl

section Examples
open Demo

/-- `{"books": [{"title": ..., "pages": ...}, ...], "by": {...}}`, nothing of it stored but the titles and page numbers, one at a time. -/
def library : Shape := .object .plain true
  [({ name := .str "books" }, .array false (.object .plain true [({ name := .str "title" }, .value .str), ({ name := .str "pages", optional := true }, .value .int)])),
   ({ name := .str "by", optional := true }, .map false (.map true (.value .int)))]

def libraryDoc : Json := .obj [("books", .arr [.obj [("title", .sc (.str "A")), ("pages", .sc (.int 7))], .obj [("title", .sc (.str "B"))]]),
  ("by", .obj [("x", .obj [("n", .sc (.int 1))]), ("y", .obj [])])]

/-- The callback of a book takes the title, and the page number if it was called before; the callback of the map takes the whole entry. -/
def taker : Handlers :=
  { watchers with
    onFinish := fun q => if q = [.elem, .mem 0] then some fun l _ => { pops := if l.length < 3 then [[.mem 0]] else [[.mem 0], [.mem 1]] } else some fun _ _ => {}
    onElement := fun q => if q = [.mem 1] then some fun _ _ _ => { pops := [[]] } else some fun _ _ _ => {} }

/-- The hypotheses of `C66_tokens` and `C66_document`; the document is read. -/
theorem taker_alike : SameButTaken library taker watchers where
  fmt := rfl
  finish p := by
    by_cases hp : p = [.elem, .mem 0]
    · subst hp
      exact .inr ⟨⟨_, _, rfl, rfl⟩, _, _, rfl, rfl, fun _ _ => rfl⟩
    · exact .inl (by simp [taker, watchers, hp])
  element q := by
    by_cases hq : q = [.mem 1]
    · subst hq
      exact .inr ⟨⟨_, rfl⟩, _, _, rfl, rfl, fun _ _ _ => rfl⟩
    · exact .inl (by simp [taker, watchers, hq])

example : library.wf = true ∧ okVal library libraryDoc = true ∧ fine (taker.env library) library (events libraryDoc) (St.init library) = true := by decide +kernel

/-- The title of the last book is gone in one, and is still there in the other; otherwise everything is the same. -/
example : isSet [.mem 0, .elem, .mem 0] (after (taker.env library) library (events libraryDoc) (St.init library)) = false ∧
    isSet [.mem 0, .elem, .mem 0] (after (watchers.env library) library (events libraryDoc) (St.init library)) = true := by decide +kernel

example : ∃ t t' d, run (taker.env library) library (events libraryDoc) (St.init library) = .ok () t ∧
    run (watchers.env library) library (events libraryDoc) (St.init library) = .ok () t' ∧ Holds t.heap [] d ∧ Holds t'.heap [] d ∧
    seenLog library t.log = seenLog library t'.log := by
  rcases C66_tokens (R := library) (by decide +kernel) taker_alike Survived.init Survived.init rfl (j := libraryDoc) (by decide +kernel) with
    ⟨t, t', d, h1, h2, _, _, h3, h4, h5⟩ | ⟨t, t', e, h1, _⟩
  · exact ⟨t, t', d, h1, h2, h3, h4, h5⟩
  · have := after_ok (E := taker.env library) (R := library) (ts := events libraryDoc) (s := St.init library) (by decide +kernel)
    rw [h1] at this; simp at this

/-- It is false of callbacks elsewhere: the callback of a member takes its value, and the member is missing. (`C49_tokens` says what happens.) -/
def memberTaker : Handlers :=
  { watchers with onFinish := fun q => if q = [.mem 0] then some fun _ _ => { pops := [[]] } else some fun _ _ => {} }
def mapHolder : Shape := .object .plain true [({ name := .str "m" }, .map true (.value .int))]
example : fine (watchers.env mapHolder) mapHolder (events (.obj [("m", .obj [("n", .sc (.int 1))])])) (St.init mapHolder) = true ∧
    failure (memberTaker.env mapHolder) mapHolder (events (.obj [("m", .obj [("n", .sc (.int 1))])])) (St.init mapHolder) = some (.std "Mandatory member m is not present") := by
  decide +kernel

/-- `C66_storing`: the maps of a list, taken one by one. -/
def mapTaker : Handlers :=
  { watchers with onFinish := fun q => if q = [.elem] then some fun _ _ => { pops := [[]] } else some fun _ _ => {} }
def mapsDoc : Json := .arr [.obj [("n", .sc (.int 1))], .obj [("b", .sc (.int 2)), ("a", .sc (.int 3))]]
def maps : Shape := .array true (.map true (.value .int))
def mapsStream : Shape := .array false (.map true (.value .int))

theorem mapTaker_only : OnlyStreamedTaken mapsStream mapTaker where
  finish p f hf l d := by
    simp only [mapTaker] at hf
    split at hf
    · rename_i hp
      subst hp
      injection hf with hf; subst hf
      exact ⟨rfl, fun h => absurd ⟨_, _, rfl, rfl⟩ h⟩
    · injection hf with hf; subst hf
      exact ⟨rfl, fun _ => ⟨rfl, rfl⟩⟩
  element q f hf l k d := by
    simp only [mapTaker, watchers] at hf
    injection hf with hf; subst hf
    exact ⟨rfl, fun _ => ⟨rfl, rfl⟩⟩

example : ∃ t1 new, run (mapTaker.env mapsStream) mapsStream (events mapsDoc) (St.init mapsStream) = .ok () t1 ∧ seenLog mapsStream t1.log = new ++ [] ∧
    taken [.elem] new = [some (.map [("n", .sc (.int 1))]), some (.map [("a", .sc (.int 3)), ("b", .sc (.int 2))])] := by
  have hr := after_ok (E := noCb) (R := maps) (ts := events mapsDoc) (s := St.init maps) (by decide +kernel)
  have hg : get [] (after noCb maps (events mapsDoc) (St.init maps)) =
      .ok (.arr [.map [("n", .sc (.int 1))], .map [("a", .sc (.int 3)), ("b", .sc (.int 2))]]) (after noCb maps (events mapsDoc) (St.init maps)) := by
    have h1 : isSet [] (after noCb maps (events mapsDoc) (St.init maps)) = true := by decide +kernel
    have h2 : ((after noCb maps (events mapsDoc) (St.init maps)).heap []).val =
      .arr [.map [("n", .sc (.int 1))], .map [("a", .sc (.int 3)), ("b", .sc (.int 2))]] := sameV_eq (by decide +kernel)
    rw [C18_get, if_pos h1, h2]
  obtain ⟨t1, new, h1, _, _, h2, h3⟩ := C66_storing (E := noCb) (F := mapTaker) noCb_passive rfl (.array (.map true (.value .int)) _) (by decide +kernel)
    (by decide +kernel) mapTaker_only rfl Survived.init Survived.init hr hg
  exact ⟨t1, new, h1, h2, h3⟩

end Examples

end SJ
