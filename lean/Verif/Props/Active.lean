/-
C49: documents with callbacks that take part.
-/
import Verif.Proofs.ActiveFacts
import Verif.Props.Whole
import Verif.Props.Reuse
import Verif.Props.Grow

set_option linter.unusedVariables false

namespace SJ

variable {F : Handlers} {R : Shape} {Y : Yajl}

/-- C49, tokens. The callbacks may reject, throw, take values out of the parsers they are given and assign the value of an `SCustomObject`, depending on
everything that was called before and on what the parser holds. A document gives what `denoteA` says: the same result in the root, or the same
exception, and the same calls. -/
theorem C49_tokens (hw : R.wf = true) {s : St} (h : Survived R s) {j : Json} (hok : okVal R j = true) :
    match denoteA F R [] j (seenLog R s.log) with
    | (l, .ok d) => ∃ s', run (F.env R) R (events j) s = .ok () s' ∧ s'.stack = [] ∧ Holds s'.heap [] d ∧ seenLog R s'.log = l
    | (l, .error e) => ∃ s', run (F.env R) R (events j) s = .throw e s' ∧ seenLog R s'.log = l := by
  have := parse_denoteA (F := F) (h.ready hw) hw hok
  cases hd : denoteA F R [] j (seenLog R s.log) with
  | mk l o =>
    rw [hd] at this
    cases o with
    | error e => exact this
    | ok d =>
      obtain ⟨s', h1, h2, h3, _, _, h4⟩ := this
      exact ⟨s', h1, h2, h3, h4⟩

/-- C49, text: `parse()` of the pieces and `finish()`, by a parser that has read any number of documents before. -/
theorem C49_document (hw : R.wf = true) {s : PSt Y} (h : ServedDocs Y R s) {cs : List Chunk} (hne : cs ≠ []) {bs : List UInt8} {j : Json}
    (hc : chunkBytes cs = some bs) (hdoc : Y.Document bs (events j)) (hok : okVal R j = true)
    {m : Mem} (hm : ∀ c, cs.getLast? = some c → (m.read c.ptr c.len).isSome) :
    match denoteA F R [] j (seenLog R s.st.log) with
    | (l, .ok d) => ∃ s', parseDocument Y (F.env R) R cs m s = .ok () s' ∧ Holds s'.st.heap [] d ∧ seenLog R s'.st.log = l
    | (l, .error e) => ∃ y s', parseDocument Y (F.env R) R cs m s = .throw (.parsing e.text y) s' ∧ seenLog R s'.st.log = l := by
  obtain ⟨hb, hs⟩ := h.facts
  have h1 := parseDocument_run_of (E := F.env R) (R := R) hb.facts.1.facts.1 hb.facts.2.1 hb.facts.2.2 hne hc hdoc hm
  have h2 := parse_denoteA (F := F) (hs.ready (wf_user hw)) hw hok
  have hl : (s.st.restart).log = s.st.log := rfl
  rw [hl] at h2
  cases hd : denoteA F R [] j (seenLog R s.st.log) with
  | mk l o =>
    rw [hd] at h2
    cases o with
    | error e =>
      obtain ⟨s', h3, h4⟩ := h2
      rw [h3] at h1
      obtain ⟨y, s2, h5, rfl⟩ := h1
      exact ⟨y, s2, h5, h4⟩
    | ok d =>
      obtain ⟨s', h3, h4, h5, _, _, h6⟩ := h2
      rw [h3] at h1
      simp only at h1
      rw [if_pos h4] at h1
      obtain ⟨s2, h7, rfl⟩ := h1
      exact ⟨s2, h7, h5, h6⟩

/-- C49, the description agrees with that of C39 and C20 when all callbacks only observe: the result is `denote`'s, and the calls are those of `denoteT`. -/
theorem C49_watching (h : Watching F []) (R : Shape) (j : Json) (l : List Ev) :
    denoteA F R [] j l = (((denoteT F.fmtDbl R [] j).calls.filter F.called).reverse ++ l,
      match denote F.fmtDbl R j with
      | .error e => .error (.std e)
      | .ok d => .ok d) := by
  rw [denoteA_watching j R [] h]
  unfold W.act
  rw [denoteT_result]
  cases denote F.fmtDbl R j <;> rfl

/-- The calls, latest first, after which the finish callback of the root is called. -/
def inside (F : Handlers) (R : Shape) (j : Json) (l : List Ev) : List Ev :=
  ((denoteT F.fmtDbl R [] j).calls.filter (F.without []).called).reverse ++ l

theorem denoteA_root {f} (hf : F.onFinish [] = some f) (ho : Watching (F.without []) []) (hu : R.isUser = true) {j d} (hd : denote F.fmtDbl R j = .ok d)
    (hset : d.isSet = true) (l : List Ev) :
    denoteA F R [] j l = (.finish [] d :: inside F R j l,
      answerOf (f (inside F R j l) d).verdict "Callback returned false" (afterFinish R (f (inside F R j l) d) d)) := by
  have h1 := denoteA_last (F := F) j R [] hu
  rw [denoteA_watching j R [] ho] at h1
  rw [h1]
  have hfm : (F.without []).fmtDbl = F.fmtDbl := rfl
  unfold Eff.bind W.act
  rw [hfm, denoteT_result, hd]
  simp only
  unfold Eff.done
  rw [if_pos hset, hf]
  rfl

/-- C49, the finish callback of the root, when all others only observe: it is called last, with the value or the parser that holds what the document says;
if it refuses, this is the outcome; otherwise the root holds what the callback has left. -/
theorem C49_root (hw : R.wf = true) {s : St} (h : Survived R s) {j : Json} (hok : okVal R j = true) {f} (hf : F.onFinish [] = some f)
    (ho : Watching (F.without []) []) {d : D} (hd : denote F.fmtDbl R j = .ok d) (hset : d.isSet = true) :
    match (f (inside F R j (seenLog R s.log)) d).verdict with
    | .accept => ∃ s', run (F.env R) R (events j) s = .ok () s' ∧ s'.stack = [] ∧
        Holds s'.heap [] (afterFinish R (f (inside F R j (seenLog R s.log)) d) d) ∧ seenLog R s'.log = .finish [] d :: inside F R j (seenLog R s.log)
    | .reject => ∃ s', run (F.env R) R (events j) s = .throw (.std "Callback returned false") s' ∧
        seenLog R s'.log = .finish [] d :: inside F R j (seenLog R s.log)
    | .throws e => ∃ s', run (F.env R) R (events j) s = .throw e s' ∧ seenLog R s'.log = .finish [] d :: inside F R j (seenLog R s.log) := by
  have h1 := C49_tokens (F := F) hw h hok
  rw [denoteA_root hf ho (wf_user hw) hd hset] at h1
  cases hv : (f (inside F R j (seenLog R s.log)) d).verdict with
  | accept => rw [hv] at h1; exact h1
  | reject => rw [hv] at h1; exact h1
  | throws e => rw [hv] at h1; exact h1

/-- C49, `SCustomObject`: its callback computes the value from the members; `get()` returns this value, and the members hold what they did. -/
theorem C49_custom {u ms} (hw : (Shape.object .custom u ms).wf = true) {s : St} (h : Survived (.object .custom u ms) s) {j : Json}
    (hok : okVal (.object .custom u ms) j = true) {g : D → Val}
    (hf : F.onFinish [] = some fun _ d => { newVal := some (g d) }) (ho : Watching (F.without []) [])
    {v : Option Val} {ds : List D} (hd : denote F.fmtDbl (.object .custom u ms) j = .ok (.obj v ds)) :
    ∃ s', run (F.env (.object .custom u ms)) (.object .custom u ms) (events j) s = .ok () s' ∧ s'.stack = [] ∧
      get [] s' = .ok (g (.obj v ds)) s' ∧ (∀ n d, ds[n]? = some d → Holds s'.heap [.mem n] d) := by
  have h1 := C49_root (F := F) hw h hok hf ho hd rfl
  obtain ⟨s', h2, h3, h4, _⟩ := h1
  have hfits := denote_fits j _ _ hw hd
  cases v with
  | none => simp [Shape.fits] at hfits
  | some v =>
    simp only [afterFinish, Shape.byValue, popAll, List.foldl_nil, D.assign, show (ObjKind.custom == ObjKind.auto) = false from rfl, Bool.false_eq_true,
      if_false, Holds] at h4
    refine ⟨s', h2, h3, ?_, fun n d hn => ?_⟩
    · simp [get, h4.1, h4.2.1 _ rfl]
    · have := h4.2.2.get hn
      rwa [Nat.zero_add] at this

theorem denElemsA_custom {u ms} {g : D → Val} (hf : F.onFinish [.elem] = some fun _ d => { newVal := some (g d) })
    (ho : Watching (F.without [.elem]) []) (hw : (Shape.object .custom u ms).wf = true) :
    ∀ {js : List Json} {vs : List Val}, Each (fun j v => ∃ d, denote F.fmtDbl (.object .custom u ms) j = .ok d ∧ d.isSet = true ∧ v = g d)
      (js.filter fun j => !j.isNull) vs → ∀ l, ∃ l', denElemsA F true (.object .custom u ms) [] js l = (l', .ok vs) := by
  have ho' : Watching (F.without [.elem]) [.elem] := ho.down .elem
  have hfm : (F.without [.elem]).fmtDbl = F.fmtDbl := rfl
  have one : ∀ j d, denote F.fmtDbl (.object .custom u ms) j = .ok d → d.isSet = true → ∀ l, ∃ l' d', denoteA F (.object .custom u ms) [.elem] j l = (l', .ok d') ∧
      d'.value? = some (g d) := by
    intro j d hd hset l
    have hfits := denote_fits j _ _ hw hd
    rw [denoteA_last (F := F) j _ [.elem] rfl, denoteA_watching j _ [.elem] ho']
    unfold Eff.bind W.act
    rw [hfm, denoteT_result, hd]
    simp only
    unfold Eff.done
    rw [if_pos hset, hf]
    refine ⟨_, _, rfl, ?_⟩
    cases d with
    | obj w ds =>
      cases w with
      | none => simp [Shape.fits] at hfits
      | some w => simp [afterFinish, Shape.byValue, popAll, D.assign, D.value?, show (ObjKind.custom == ObjKind.auto) = false from rfl]
    | unset => simp [D.isSet] at hset
    | _ => simp [Shape.fits] at hfits
  intro js
  induction js with
  | nil =>
    intro vs h l
    simp only [List.filter_nil] at h
    cases h
    exact ⟨l, by simp only [denElemsA, Eff.lift]⟩
  | cons j js ih =>
    intro vs h l
    cases hj : j.isNull with
    | true =>
      cases j <;> simp [Json.isNull] at hj
      simp only [List.filter_cons, Json.isNull, Bool.not_true, Bool.false_eq_true, if_false] at h
      simp only [denElemsA]
      exact ih h l
    | false =>
      simp only [List.filter_cons, hj, Bool.not_false, if_true] at h
      cases h with
      | @cons _ v _ vs h1 h2 =>
      obtain ⟨d, h3, h4, rfl⟩ := h1
      obtain ⟨l1, d', h5, h6⟩ := one j d h3 h4 l
      obtain ⟨l2, h7⟩ := ih h2 l1
      refine ⟨l2, ?_⟩
      cases j with
      | null => simp [Json.isNull] at hj
      | _ => simp only [denElemsA]; unfold Eff.bind; rw [h5]; simp only [if_true, h6, h7, Eff.lift]

/-- C49, an `SArray` of `SCustomObject`s: the stored list is that of the values that the callback of the element computes from the members, in the order
of the document. -/
theorem C49_list {u ms} (hw : (Shape.array true (.object .custom u ms)).wf = true) {s : St} (h : Survived (.array true (.object .custom u ms)) s)
    {js : List Json} (hok : okVal (.array true (.object .custom u ms)) (.arr js) = true) {g : D → Val}
    (hf : F.onFinish [.elem] = some fun _ d => { newVal := some (g d) }) (ho : Watching (F.without [.elem]) []) {vs : List Val}
    (hj : Each (fun j v => ∃ d, denote F.fmtDbl (.object .custom u ms) j = .ok d ∧ d.isSet = true ∧ v = g d) (js.filter fun j => !j.isNull) vs) :
    ∃ s', run (F.env (.array true (.object .custom u ms))) (.array true (.object .custom u ms)) (events (.arr js)) s = .ok () s' ∧ s'.stack = [] ∧
      get [] s' = .ok (.arr vs) s' := by
  have h1 := C49_tokens (F := F) hw h hok
  obtain ⟨l, h2⟩ := denElemsA_custom hf ho (wf_array hw).1 hj (seenLog (.array true (.object .custom u ms)) s.log)
  have h3 : ∃ l', denoteA F (.array true (.object .custom u ms)) [] (.arr js) (seenLog (.array true (.object .custom u ms)) s.log) = (l', .ok (.val (.arr vs))) := by
    simp only [denoteA]
    unfold Eff.bind
    rw [h2]
    simp only [if_true]
    unfold Eff.done
    simp only [D.isSet, if_true]
    cases hF : F.onFinish [] with
    | none => exact ⟨l, rfl⟩
    | some f =>
      have := (ho [] (List.suffix_refl _)).1 f (by simpa [Handlers.without] using hF) l (.val (.arr vs))
      simp only
      rw [this.1]
      exact ⟨_, rfl⟩
  obtain ⟨l', h3⟩ := h3
  rw [h3] at h1
  obtain ⟨s', h4, h5, h6, _⟩ := h1
  exact ⟨s', h4, h5, by simp [get, h6.1, h6.2]⟩

section Examples
open Demo

/-- `{name: string, age: int (optional)}` as an `SCustomObject`. -/
def personMs : List (MInfo × Shape) := [({ name := .str "name" }, .value .str), ({ name := .str "age", optional := true }, .value .int)]
def person : Shape := .object .custom true personMs

/-- What the user's callback makes of it. -/
def toPerson : D → Val
  | .obj _ [.val n, .val a] => .user "person" [n, a]
  | .obj _ [.val n, _] => .user "person" [n]
  | _ => .user "?" []

/-- All callbacks are set; they only observe. -/
def watchers : Handlers := { onFinish := fun _ => some fun _ _ => {}, onElement := fun _ => some fun _ _ _ => {}, fmtDbl := fun _ => "" }

/-- The callback at `p` assigns the value, the others only observe. -/
def assignAt (p : Path) (g : D → Val) : Handlers :=
  { watchers with onFinish := fun q => if q = p then some fun _ d => { newVal := some (g d) } else some fun _ _ => {} }

theorem watchers_watching (p : Path) : Watching watchers p := fun q _ =>
  ⟨fun f hf => by simp [watchers] at hf; subst hf; exact fun _ _ => ⟨rfl, rfl, rfl⟩,
   fun f hf => by simp [watchers] at hf; subst hf; exact fun _ _ _ => ⟨rfl, rfl⟩⟩

theorem assignAt_watching (p q : Path) (g : D → Val) : Watching ((assignAt p g).without p) q := fun r _ =>
  ⟨fun f hf => by
    simp only [Handlers.without, assignAt] at hf
    split at hf
    · simp at hf
    · injection hf with hf; subst hf; exact fun _ _ => ⟨rfl, rfl, rfl⟩,
   fun f hf => by simp [Handlers.without, assignAt, watchers] at hf; subst hf; exact fun _ _ _ => ⟨rfl, rfl⟩⟩

/-- `{"age": 3, "name": "Al"}` -/
def docAl : Json := .obj [("age", .sc (.int 3)), ("name", .sc (.str "Al"))]

/-- C49_custom: `get()` returns what the callback made of the members. -/
example : ∃ s', run ((assignAt [] toPerson).env person) person (events docAl) (St.init person) = .ok () s' ∧
    get [] s' = .ok (.user "person" [.sc (.str "Al"), .sc (.int 3)]) s' := by
  obtain ⟨s', h1, _, h2, _⟩ := C49_custom (F := assignAt [] toPerson) (u := true) (ms := personMs) (by decide +kernel) Survived.init (j := docAl) (by decide +kernel)
    (g := toPerson) rfl (assignAt_watching [] [] toPerson) (v := some .init) (ds := [.val (.sc (.str "Al")), .val (.sc (.int 3))]) rfl
  exact ⟨s', h1, h2⟩

/-- C49_list: `[{"age": 3, "name": "Al"}, {"name": "Bo"}]`. -/
example : ∃ s', run ((assignAt [.elem] toPerson).env (.array true person)) (.array true person)
      (events (.arr [docAl, .obj [("name", .sc (.str "Bo"))]])) (St.init (.array true person)) = .ok () s' ∧
    get [] s' = .ok (.arr [.user "person" [.sc (.str "Al"), .sc (.int 3)], .user "person" [.sc (.str "Bo")]]) s' := by
  have hj : Each (fun j v => ∃ d, denote (fun _ => "") person j = .ok d ∧ d.isSet = true ∧ v = toPerson d)
      [docAl, .obj [("name", .sc (.str "Bo"))]] [.user "person" [.sc (.str "Al"), .sc (.int 3)], .user "person" [.sc (.str "Bo")]] :=
    .cons ⟨.obj (some .init) [.val (.sc (.str "Al")), .val (.sc (.int 3))], rfl, rfl, rfl⟩
      (.cons ⟨.obj (some .init) [.val (.sc (.str "Bo")), .unset], rfl, rfl, rfl⟩ .nil)
  obtain ⟨s', h1, _, h2⟩ := C49_list (F := assignAt [.elem] toPerson) (u := true) (ms := personMs) (by decide +kernel) Survived.init
    (js := [docAl, .obj [("name", .sc (.str "Bo"))]]) (by decide +kernel) (g := toPerson) rfl (assignAt_watching [.elem] [] toPerson) hj
  exact ⟨s', h1, h2⟩

/-- The callback of the root rejects if the last call before it was that of the member `name`. -/
def fussy : Handlers :=
  { watchers with onFinish := fun q => if q = [] then some fun l _ => { verdict := match l with | .finish [.mem 0] _ :: _ => .reject | _ => .accept }
                                       else some fun _ _ => {} }

theorem fussy_watching : Watching (fussy.without []) [] := fun r _ =>
  ⟨fun f hf => by
    simp only [Handlers.without, fussy] at hf
    split at hf
    · simp at hf
    · injection hf with hf; subst hf; exact fun _ _ => ⟨rfl, rfl, rfl⟩,
   fun f hf => by simp [Handlers.without, fussy, watchers] at hf; subst hf; exact fun _ _ _ => ⟨rfl, rfl⟩⟩

/-- C49_root: the same members in another order, and the document is refused or accepted. -/
example : (∃ s', run (fussy.env person) person (events docAl) (St.init person) = .throw (.std "Callback returned false") s') ∧
    ∃ s', run (fussy.env person) person (events (.obj [("name", .sc (.str "Al")), ("age", .sc (.int 3))])) (St.init person) = .ok () s' := by
  have h1 := C49_root (F := fussy) (R := person) (by decide +kernel) Survived.init (j := docAl) (by decide +kernel) rfl fussy_watching
    (d := .obj (some .init) [.val (.sc (.str "Al")), .val (.sc (.int 3))]) rfl rfl
  have h2 := C49_root (F := fussy) (R := person) (by decide +kernel) Survived.init (j := .obj [("name", .sc (.str "Al")), ("age", .sc (.int 3))])
    (by decide +kernel) rfl fussy_watching (d := .obj (some .init) [.val (.sc (.str "Al")), .val (.sc (.int 3))]) rfl rfl
  obtain ⟨s1, h1, _⟩ := h1
  obtain ⟨s2, h2, _⟩ := h2
  exact ⟨⟨s1, h1⟩, s2, h2⟩

/-- The callback of the map of limits takes the map out of its parser. -/
def taking : Handlers := { watchers with onFinish := fun q => if q = [.mem 2] then some fun _ _ => { pops := [[]] } else some fun _ _ => {} }

/-- C49_tokens: a callback that takes the value of its own parser. The object is read, but its member `limits` is unset. -/
example : ∃ s', run (taking.env outer) outer (events doc) (St.init outer) = .ok () s' ∧ isSet [] s' = true ∧ isSet [.mem 1] s' = true ∧ isSet [.mem 2] s' = false := by
  have h := C49_tokens (F := taking) (R := outer) (by decide +kernel) Survived.init (j := doc) (by decide +kernel)
  have hd : (denoteA taking outer [] doc (seenLog outer (St.init outer).log)).2 = .ok (.obj none [.val (.sc (.str "x")),
    .val (.tup [.sc (.int 7), .arr [.sc (.str "a"), .sc (.str "b")]]), .unset]) := rfl
  generalize denoteA taking outer [] doc (seenLog outer (St.init outer).log) = r at h hd
  obtain ⟨l, r⟩ := r
  simp only at hd
  subst hd
  obtain ⟨s', h1, _, h2, _⟩ := h
  simp only [Holds, HoldsL] at h2
  exact ⟨s', h1, h2.1, h2.2.2.2.1.1, h2.2.2.2.2.1⟩

/-- The same with `limits` mandatory: the object misses the member, as if it were not there. -/
def strictOuter : Shape := .object .plain false
  [({ name := .str "name" }, .value .str), ({ name := .str "part", optional := true }, SJ.Demo.inner), ({ name := .str "limits" }, .map true (.value .int))]

example : ∃ y s', parseDocument yajl (taking.env strictOuter) strictOuter [chunk text] (buffer text)
    (PSt.init yajl strictOuter) = .throw (.parsing "Mandatory member limits is not present" y) s' := by
  have h := C49_document (F := taking) (R := strictOuter) (by decide +kernel) (ServedDocs.init (Y := yajl)) (cs := [chunk text]) (by simp)
    (j := doc) (chunk_bytes _) (document_of (by decide +kernel) (by decide +kernel) (by decide +kernel)) (by decide +kernel)
    (chunk_last _)
  have hd : (denoteA taking strictOuter [] doc (seenLog strictOuter (PSt.init yajl strictOuter).st.log)).2 =
    .error (.std "Mandatory member limits is not present") := rfl
  generalize denoteA taking strictOuter [] doc (seenLog strictOuter (PSt.init yajl strictOuter).st.log) = r at h hd
  obtain ⟨l, r⟩ := r
  simp only at hd
  subst hd
  obtain ⟨y, s', h1, _⟩ := h
  exact ⟨y, s', h1⟩

/-- C49_watching. -/
example (R : Shape) (j : Json) : (denoteA watchers R [] j []).2 = match denote watchers.fmtDbl R j with
    | .error e => .error (.std e)
    | .ok d => .ok d := by rw [C49_watching (watchers_watching []) R j []]

end Examples

end SJ
