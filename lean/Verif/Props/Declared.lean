/-
C63: the order in which members are declared makes no difference.
-/
import Verif.SpecDeclared
import Verif.Proofs.Declared
import Verif.Props.Custom

set_option linter.unusedVariables false

namespace SJ

variable {E E' : Env} {R R' : Shape} {Y : Yajl} {ms ms' : List (MInfo × Shape)}

theorem show_same {s t : St} {p q : Path} {sh : Shape} {d : D} (hf : sh.fits d = true) (h : Holds s.heap p d) (h' : Holds t.heap q d) : ShowSame sh s p t q := by
  have hset : isSet p s = isSet q t := by simp only [isSet]; rw [h.set, h'.set]
  refine ⟨hset, fun hs => ?_, d, h, h'⟩
  rw [C18_get, C18_get, hset]
  split
  · rename_i hq
    simp only [isSet] at hq
    rw [h'.set] at hq
    obtain ⟨v, hv⟩ := fits_store hf hs hq
    rw [(h.value hv).2, (h'.value hv).2]; rfl
  · rfl

theorem str_refl {x : Scalar} (h : x.ty = .str) : x.cppEq x = true := by
  cases x <;> simp [Scalar.ty] at h
  simp [Scalar.cppEq]

theorem wfMs_name {ty st} {y : MInfo × Shape} (h : wfMs ty st ms = true) (hy : y ∈ ms) : y.1.name.ty = ty := by
  have := wfMs_iff.1 h y hy
  obtain ⟨i, sh⟩ := y
  simp only [wfMs, Bool.and_eq_true, beq_iff_eq] at this
  exact this.1.1.1.1

theorem objects_agree {k u} {s t : St} {p q : Path} {d d' : D} (hd' : DistinctNames ms') (hw : (Shape.object k u ms).wf = true) (hf : (Shape.object k u ms).fits d = true)
    (h : Holds s.heap p d) (h' : Holds t.heap q d') (hs : SameMembers ms ms' d d') : ObjectsAgree k ms ms' s p t q := by
  simp only [Shape.wf] at hw
  cases hs with
  | unset =>
    have h1 := h.set
    have h2 := h'.set
    simp only [D.isSet] at h1 h2
    refine ⟨by simp only [isSet]; rw [h1, h2], fun hx => ?_⟩
    simp only [isSet] at hx
    rw [h1] at hx; simp at hx
  | @tuple vs vs' hss =>
    have h1 := h.value (v := .tup vs) rfl
    have h2 := h'.value (v := .tup vs') rfl
    have hk : k = .auto := by
      cases k with
      | auto => rfl
      | plain => simp [Shape.fits] at hf
      | custom => simp [Shape.fits] at hf
    refine ⟨by simp only [isSet]; rw [h1.1, h2.1], fun _ => ?_⟩
    rw [if_pos hk]
    refine ⟨vs, vs', by simp [get, h1.1, h1.2], by simp [get, h2.1, h2.2], hss.1, hss.2.1, fun n n' y hn hn' => ?_⟩
    exact hss.get hd' (str_refl (wfMs_name hw (List.mem_of_getElem? hn))) hn hn'
  | @object v ds ds' hss =>
    have h1 := h.set
    have h2 := h'.set
    simp only [D.isSet] at h1 h2
    have hk : k ≠ .auto := by rintro rfl; simp [Shape.fits] at hf
    refine ⟨by simp only [isSet]; rw [h1, h2], fun _ => ?_⟩
    rw [if_neg hk]
    intro n n' y hn hn'
    have he := hss.get hd' (str_refl (wfMs_name hw (List.mem_of_getElem? hn))) hn hn'
    have hlt : n < ds.length := by
      rw [hss.1]; exact (List.getElem?_eq_some_iff.1 hn).1
    rw [List.getElem?_eq_getElem hlt] at he
    have g1 := HoldsL.get (n := 0) h.2.2 (List.getElem?_eq_getElem hlt)
    have g2 := HoldsL.get (n := 0) h'.2.2 he.symm
    rw [Nat.zero_add] at g1 g2
    have hfl : fitsL ms ds = true := by
      cases k <;> simp only [Shape.fits, Bool.and_eq_true] at hf <;> first | exact hf.2 | exact absurd rfl hk
    exact show_same (fitsL_get (i := y.1) hfl hn (List.getElem?_eq_getElem hlt)) g1 g2

theorem unions_agree {ty tm st} {s t : St} {p q : Path} {d d' : D} (hf : (Shape.union ty tm st ms).fits d = true)
    (h : Holds s.heap p d) (h' : Holds t.heap q d') (hs : SameChoice ms ms' d d') : UnionsAgree st ms ms' s p t q := by
  cases hs with
  | unset =>
    have h1 := h.set
    have h2 := h'.set
    simp only [D.isSet] at h1 h2
    refine ⟨by simp only [isSet]; rw [h1, h2], fun hx => ?_⟩
    simp only [isSet] at hx
    rw [h1] at hx; simp at hx
  | @alt n n' y e hn hn' =>
    have hst : st = false ∧ fitsAlt ms n e = true := by simpa [Shape.fits] using hf
    refine ⟨by simp only [isSet]; rw [h.1, h'.1], fun _ => ⟨n, n', y, hn, hn', ?_⟩⟩
    rw [if_neg (by simp [hst.1])]
    refine ⟨by simp [currentMemberId, h.1, h.2.1], by simp [currentMemberId, h'.1, h'.2.1], ?_⟩
    exact show_same (by rw [← fitsAlt_get (i := y.1) hn]; exact hst.2) h.2.2 h'.2.2
  | @value n n' y v hn hn' =>
    have hst : st = true := by
      cases st with
      | true => rfl
      | false => simp [Shape.fits, hasType] at hf
    refine ⟨by simp only [isSet]; rw [h.1, h'.1], fun _ => ⟨n, n', y, hn, hn', ?_⟩⟩
    rw [if_pos hst]
    exact ⟨v, by simp [get, h.1, h.2], by simp [get, h'.1, h'.2]⟩

theorem wf_object_declared {k u} (hp : ms.Perm ms') (hw : (Shape.object k u ms).wf = true) : (Shape.object k u ms').wf = true := by
  simp only [Shape.wf] at hw ⊢; exact wfMs_declared hp hw
theorem wf_union_declared {ty tm st} (hp : ms.Perm ms') (hw : (Shape.union ty tm st ms).wf = true) : (Shape.union ty tm st ms').wf = true := by
  simp only [Shape.wf] at hw ⊢; exact wfMs_declared hp hw

/-- C63, objects. Two object parsers, anywhere in the same tree or in two trees, declare the same members in different orders and read the same value `j`
(anything outside of the known defects). Both read it and show the same, or both fail. -/
theorem C63_object (hE : Passive E) (hE' : Passive E') (hfm : E'.fmtDbl = E.fmtDbl) {s t : St} {p q : Path} {k u} {j : Json} (hp : ms.Perm ms')
    (hd : DistinctNames ms) (hx : Expecting R s p (.object k u ms)) (hx' : Expecting R' t q (.object k u ms')) (hw : (Shape.object k u ms).wf = true)
    (hok : okVal (.object k u ms) j = true) :
    (∃ s1 t1, Completes E R s p j s1 ∧ Completes E' R' t q j t1 ∧ ObjectsAgree k ms ms' s1 p t1 q) ∨
    (∃ e e', Fails E R s j e ∧ Fails E' R' t j e') := by
  have hd' := hd.perm hp
  have h1 := parse_at hE hx hw hok
  have h2 := parse_at hE' hx' (wf_object_declared hp hw) (by rw [← okVal_object_declared hp hd hd']; exact hok)
  rw [hfm] at h2
  have h3 := object_declared (fmt := E.fmtDbl) (k := k) (u := u) hp hd hd' j
  cases g1 : denote E.fmtDbl (.object k u ms) j with
  | error e =>
    rw [g1] at h1 h3
    cases g2 : denote E.fmtDbl (.object k u ms') j with
    | error e' => rw [g2] at h2; exact .inr ⟨e, e', h1, h2⟩
    | ok d' => rw [g2] at h3; exact h3.elim
  | ok d =>
    rw [g1] at h1 h3
    cases g2 : denote E.fmtDbl (.object k u ms') j with
    | error e' => rw [g2] at h3; exact h3.elim
    | ok d' =>
      rw [g2] at h2 h3
      obtain ⟨s1, c1, v1, _⟩ := h1
      obtain ⟨t1, c2, v2, _⟩ := h2
      exact .inl ⟨s1, t1, c1, c2, objects_agree hd' hw (denote_fits _ _ _ hw g1) v1 v2 h3⟩

theorem union_declared_all {fmt ty tm st} (hp : ms.Perm ms') (hd : DistinctNames ms) (hd' : DistinctNames ms') (j : Json) :
    BothWays (SameChoice ms ms') (denote fmt (.union ty tm st ms) j) (denote fmt (.union ty tm st ms') j) := by
  cases j with
  | null => rw [denote, denote]; exact .unset
  | sc x => unfold denote; trivial
  | arr l => unfold denote; trivial
  | obj fs => exact union_declared hp hd hd' fs

/-- C63, unions: the same for two unions with a type member that declare the same alternatives in different orders. -/
theorem C63_union (hE : Passive E) (hE' : Passive E') (hfm : E'.fmtDbl = E.fmtDbl) {s t : St} {p q : Path} {ty tm st} {j : Json} (hp : ms.Perm ms')
    (hd : DistinctNames ms) (hx : Expecting R s p (.union ty tm st ms)) (hx' : Expecting R' t q (.union ty tm st ms')) (hw : (Shape.union ty tm st ms).wf = true)
    (hok : okVal (.union ty tm st ms) j = true) :
    (∃ s1 t1, Completes E R s p j s1 ∧ Completes E' R' t q j t1 ∧ UnionsAgree st ms ms' s1 p t1 q) ∨
    (∃ e e', Fails E R s j e ∧ Fails E' R' t j e') := by
  have hd' := hd.perm hp
  have h1 := parse_at hE hx hw hok
  have h2 := parse_at hE' hx' (wf_union_declared hp hw) (by rw [← okVal_union_declared hp hd hd']; exact hok)
  rw [hfm] at h2
  have h3 := union_declared_all (fmt := E.fmtDbl) (ty := ty) (tm := tm) (st := st) hp hd hd' j
  cases g1 : denote E.fmtDbl (.union ty tm st ms) j with
  | error e =>
    rw [g1] at h1 h3
    cases g2 : denote E.fmtDbl (.union ty tm st ms') j with
    | error e' => rw [g2] at h2; exact .inr ⟨e, e', h1, h2⟩
    | ok d' => rw [g2] at h3; exact h3.elim
  | ok d =>
    rw [g1] at h1 h3
    cases g2 : denote E.fmtDbl (.union ty tm st ms') j with
    | error e' => rw [g2] at h3; exact h3.elim
    | ok d' =>
      rw [g2] at h2 h3
      obtain ⟨s1, c1, v1, _⟩ := h1
      obtain ⟨t1, c2, v2, _⟩ := h2
      exact .inl ⟨s1, t1, c1, c2, unions_agree (denote_fits _ _ _ hw g1) v1 v2 h3⟩

/-- Two root parsers with the same members or alternatives in different orders, and what their results have in common. -/
inductive Redeclared : Shape → Shape → (St → St → Prop) → Prop
  | object {k u ms ms'} : ms.Perm ms' → DistinctNames ms → Redeclared (.object k u ms) (.object k u ms') (fun s t => ObjectsAgree k ms ms' s [] t [])
  | union {ty tm st ms ms'} : ms.Perm ms' → DistinctNames ms → Redeclared (.union ty tm st ms) (.union ty tm st ms') (fun s t => UnionsAgree st ms ms' s [] t [])

theorem redeclared_outcome (hE : Passive E) (hE' : Passive E') (hfm : E'.fmtDbl = E.fmtDbl) {P : St → St → Prop} (hr : Redeclared R R' P) (hw : R.wf = true) {j : Json}
    (hok : okVal R j = true) {s t : St} (hs : Ready R s) (ht : Ready R' t) :
    (∃ s1 t1, run E R (events j) s = .ok () s1 ∧ s1.stack = [] ∧ run E' R' (events j) t = .ok () t1 ∧ t1.stack = [] ∧ P s1 t1) ∨
    ∃ e e' s1 t1, run E R (events j) s = .throw (.std e) s1 ∧ run E' R' (events j) t = .throw (.std e') t1 := by
  cases hr with
  | @object k u ms ms' hp hd =>
    have hd' := hd.perm hp
    have h1 := parse_denote hE hs hw hok
    have h2 := parse_denote hE' ht (wf_object_declared hp hw) (j := j) (by rw [← okVal_object_declared hp hd hd']; exact hok)
    rw [hfm] at h2
    have h3 := object_declared (fmt := E.fmtDbl) (k := k) (u := u) hp hd hd' j
    cases g1 : denote E.fmtDbl (.object k u ms) j with
    | error e =>
      rw [g1] at h1 h3
      cases g2 : denote E.fmtDbl (.object k u ms') j with
      | error e' => rw [g2] at h2; exact .inr ⟨_, _, _, _, h1.choose_spec, h2.choose_spec⟩
      | ok d' => rw [g2] at h3; exact h3.elim
    | ok d =>
      rw [g1] at h1 h3
      cases g2 : denote E.fmtDbl (.object k u ms') j with
      | error e' => rw [g2] at h3; exact h3.elim
      | ok d' =>
        rw [g2] at h2 h3
        obtain ⟨s1, c1, k1, v1, _⟩ := h1
        obtain ⟨t1, c2, k2, v2, _⟩ := h2
        exact .inl ⟨s1, t1, c1, k1, c2, k2, objects_agree hd' hw (denote_fits _ _ _ hw g1) v1 v2 h3⟩
  | @union ty tm st ms ms' hp hd =>
    have hd' := hd.perm hp
    have h1 := parse_denote hE hs hw hok
    have h2 := parse_denote hE' ht (wf_union_declared hp hw) (j := j) (by rw [← okVal_union_declared hp hd hd']; exact hok)
    rw [hfm] at h2
    have h3 := union_declared_all (fmt := E.fmtDbl) (ty := ty) (tm := tm) (st := st) hp hd hd' j
    cases g1 : denote E.fmtDbl (.union ty tm st ms) j with
    | error e =>
      rw [g1] at h1 h3
      cases g2 : denote E.fmtDbl (.union ty tm st ms') j with
      | error e' => rw [g2] at h2; exact .inr ⟨_, _, _, _, h1.choose_spec, h2.choose_spec⟩
      | ok d' => rw [g2] at h3; exact h3.elim
    | ok d =>
      rw [g1] at h1 h3
      cases g2 : denote E.fmtDbl (.union ty tm st ms') j with
      | error e' => rw [g2] at h3; exact h3.elim
      | ok d' =>
        rw [g2] at h2 h3
        obtain ⟨s1, c1, k1, v1, _⟩ := h1
        obtain ⟨t1, c2, k2, v2, _⟩ := h2
        exact .inl ⟨s1, t1, c1, k1, c2, k2, unions_agree (denote_fits _ _ _ hw g1) v1 v2 h3⟩

theorem redeclared_wf {P} (hr : Redeclared R R' P) (hw : R.wf = true) : R'.wf = true := by
  cases hr with
  | object hp _ => exact wf_object_declared hp hw
  | union hp _ => exact wf_union_declared hp hw

/-- C63, text: the same text, in any pieces, given to two parsers whose root declares the same members (alternatives) in different orders, whatever both have
been used for before. Both accept it and show the same, or both report an error. -/
theorem C63_document (hE : Passive E) (hE' : Passive E') (hfm : E'.fmtDbl = E.fmtDbl) {P : St → St → Prop} (hr : Redeclared R R' P) (hw : R.wf = true) {j : Json}
    (hok : okVal R j = true) {s t : PSt Y} (hs : ServedDocs Y R s) (ht : ServedDocs Y R' t) {cs cs' : List Chunk}
    (hne : cs ≠ []) (hne' : cs' ≠ []) {bs : List UInt8} (hc : chunkBytes cs = some bs) (hc' : chunkBytes cs' = some bs)
    (hdoc : Y.Document bs (events j)) {m m' : Mem}
    (hm : ∀ c, cs.getLast? = some c → (m.read c.ptr c.len).isSome) (hm' : ∀ c, cs'.getLast? = some c → (m'.read c.ptr c.len).isSome) :
    (∃ s1 t1, parseDocument Y E R cs m s = .ok () s1 ∧ parseDocument Y E' R' cs' m' t = .ok () t1 ∧ P s1.st t1.st) ∨
    ∃ e e' y y' s1 t1, parseDocument Y E R cs m s = .throw (.parsing e y) s1 ∧ parseDocument Y E' R' cs' m' t = .throw (.parsing e' y') t1 := by
  obtain ⟨hb0, hs0⟩ := hs.facts
  obtain ⟨hb, hs1⟩ := ht.facts
  have hw' := redeclared_wf hr hw
  have g1 := parseDocument_run_of (E := E) (R := R) hb0.facts.1.facts.1 hb0.facts.2.1 hb0.facts.2.2 hne hc hdoc hm
  have g2 := parseDocument_run_of (E := E') (R := R') hb.facts.1.facts.1 hb.facts.2.1 hb.facts.2.2 hne' hc' hdoc hm'
  rcases redeclared_outcome hE hE' hfm hr hw hok (hs0.ready (wf_user hw)) (hs1.ready (wf_user hw')) with
    ⟨s1, t1, c1, k1, c2, k2, hP⟩ | ⟨e, e', s1, t1, c1, c2⟩
  · rw [c1] at g1; rw [c2] at g2
    simp only at g1 g2
    rw [if_pos k1] at g1; rw [if_pos k2] at g2
    obtain ⟨z1, g1, rfl⟩ := g1
    obtain ⟨z2, g2, rfl⟩ := g2
    exact .inl ⟨z1, z2, g1, g2, hP⟩
  · rw [c1] at g1; rw [c2] at g2
    obtain ⟨y, z1, g1, _⟩ := g1
    obtain ⟨y', z2, g2, _⟩ := g2
    exact .inr ⟨_, _, _, _, _, _, g1, g2⟩

section Examples
open Demo

/-- Three members in two orders. -/
def abcMs : List (MInfo × Shape) := [({ name := .str "a" }, .value .int), ({ name := .str "b", optional := true, dflt := some (.sc (.str "x")) }, .value .str),
  ({ name := .str "c" }, .array true (.value .bool))]
def cabMs : List (MInfo × Shape) := [({ name := .str "c" }, .array true (.value .bool)), ({ name := .str "a" }, .value .int),
  ({ name := .str "b", optional := true, dflt := some (.sc (.str "x")) }, .value .str)]
/-- `{"c": [true], "a": 5}` -/
def caDoc : Json := .obj [("c", .arr [.sc (.bool true)]), ("a", .sc (.int 5))]

theorem abc_cab : abcMs.Perm cabMs := List.perm_append_comm (l₁ := [_, _]) (l₂ := [_])

/-- The hypotheses of `C63_object` and `C63_document`, for all three kinds of objects. -/
example (k) (hk : k = .auto ∨ k = .plain ∨ k = .custom) : Redeclared (.object k true abcMs) (.object k true cabMs) (fun s t => ObjectsAgree k abcMs cabMs s [] t []) ∧
    (Shape.object k true abcMs).wf = true ∧ okVal (.object k true abcMs) caDoc = true ∧ Expecting (.object k true abcMs) (St.init (.object k true abcMs)) [] (.object k true abcMs) :=
  ⟨.object abc_cab (distinctB_sound (by decide)), by rcases hk with rfl | rfl | rfl <;> decide, by rcases hk with rfl | rfl | rfl <;> decide +kernel, (Ready.init _).expecting⟩

/-- The two tuples. -/
example : ((after noCb (.object .auto true abcMs) (events caDoc) (St.init (.object .auto true abcMs))).heap []).val =
      .tup [.sc (.int 5), .sc (.str "x"), .arr [.sc (.bool true)]] ∧
    ((after noCb (.object .auto true cabMs) (events caDoc) (St.init (.object .auto true cabMs))).heap []).val =
      .tup [.arr [.sc (.bool true)], .sc (.int 5), .sc (.str "x")] := ⟨sameV_eq (by decide +kernel), sameV_eq (by decide +kernel)⟩

/-- Both fail, but the texts may differ: the member that is declared last is reported. -/
example : failure noCb (.object .plain true abcMs) (events (.obj [("b", .null)])) (St.init (.object .plain true abcMs)) = some (.std "Mandatory member c is not present") ∧
    failure noCb (.object .plain true cabMs) (events (.obj [("b", .null)])) (St.init (.object .plain true cabMs)) = some (.std "Mandatory member a is not present") := by
  decide +kernel

/-- Without distinct names (which no constructor allows, C32) the order would matter. -/
example : fine noCb (.object .plain true [({ name := .str "a" }, .value .int), ({ name := .str "a", optional := true }, .value .str)]) (events (.obj [("a", .sc (.int 1))]))
      (St.init (.object .plain true [({ name := .str "a" }, .value .int), ({ name := .str "a", optional := true }, .value .str)])) = true ∧
    failure noCb (.object .plain true [({ name := .str "a", optional := true }, .value .str), ({ name := .str "a" }, .value .int)]) (events (.obj [("a", .sc (.int 1))]))
      (St.init (.object .plain true [({ name := .str "a", optional := true }, .value .str), ({ name := .str "a" }, .value .int)])) =
      some (.std "Unexpected token integer") := by decide +kernel

/-- Alternatives in two orders. -/
def altsAB : List (MInfo × Shape) := [({ name := .str "circle" }, circle), ({ name := .str "point", optional := true }, point)]
def altsBA : List (MInfo × Shape) := [({ name := .str "point", optional := true }, point), ({ name := .str "circle" }, circle)]
def circle3Doc : Json := .obj [("type", .sc (.str "circle")), ("r", .sc (.int 3))]
example : Redeclared (.union .str "type" false altsAB) (.union .str "type" false altsBA) (fun s t => UnionsAgree false altsAB altsBA s [] t []) ∧
    (Shape.union .str "type" false altsAB).wf = true ∧ okVal (.union .str "type" false altsAB) circle3Doc = true :=
  ⟨.union (List.Perm.swap _ _ _) (distinctB_sound (by decide)), by decide, by decide +kernel⟩
example : currentMemberId [] (after noCb (.union .str "type" false altsAB) (events circle3Doc) (St.init (.union .str "type" false altsAB))) =
      .ok 0 (after noCb (.union .str "type" false altsAB) (events circle3Doc) (St.init (.union .str "type" false altsAB))) ∧
    currentMemberId [] (after noCb (.union .str "type" false altsBA) (events circle3Doc) (St.init (.union .str "type" false altsBA))) =
      .ok 1 (after noCb (.union .str "type" false altsBA) (events circle3Doc) (St.init (.union .str "type" false altsBA))) := by
  have h1 : ((after noCb (.union .str "type" false altsAB) (events circle3Doc) (St.init (.union .str "type" false altsAB))).heap []).set = true ∧
    ((after noCb (.union .str "type" false altsAB) (events circle3Doc) (St.init (.union .str "type" false altsAB))).heap []).curId = 0 := by decide +kernel
  have h2 : ((after noCb (.union .str "type" false altsBA) (events circle3Doc) (St.init (.union .str "type" false altsBA))).heap []).set = true ∧
    ((after noCb (.union .str "type" false altsBA) (events circle3Doc) (St.init (.union .str "type" false altsBA))).heap []).curId = 1 := by decide +kernel
  simp only [currentMemberId, h1.1, h1.2, h2.1, h2.2, if_true, and_self]

/-- The theorem, for this document. -/
example : ∃ s1 t1, run noCb (.union .str "type" false altsAB) (events circle3Doc) (St.init (.union .str "type" false altsAB)) = .ok () s1 ∧
    run noCb (.union .str "type" false altsBA) (events circle3Doc) (St.init (.union .str "type" false altsBA)) = .ok () t1 ∧ UnionsAgree false altsAB altsBA s1 [] t1 [] := by
  rcases redeclared_outcome noCb_passive noCb_passive rfl (.union (ty := .str) (tm := "type") (st := false) (ms := altsAB) (ms' := altsBA) (List.Perm.swap _ _ _)
    (distinctB_sound (by decide))) (by decide) (j := circle3Doc) (by decide +kernel) (Ready.init _) (Ready.init _) with ⟨s1, t1, h1, _, h2, _, h3⟩ | ⟨e, e', s1, t1, h1, _⟩
  · exact ⟨s1, t1, h1, h2, h3⟩
  · have := after_ok (E := noCb) (R := .union .str "type" false altsAB) (ts := events circle3Doc) (s := St.init (.union .str "type" false altsAB)) (by decide +kernel)
    rw [h1] at this; simp at this

end Examples

end SJ
