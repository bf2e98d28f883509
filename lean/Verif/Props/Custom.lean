/-
C60: user's types.
-/
import Verif.Proofs.Custom
import Verif.Props.Active
import Verif.Props.Round

set_option linter.unusedVariables false

namespace SJ

variable {E : Env} {F : Handlers} {B : Builders} {R : Shape} {Y : Yajl}

/-- What the user sees of the two trees after the same document: neither or both have a value, and the value of the user's tree is the converted one. -/
def Converted (B : Builders) (R : Shape) (t0 t : St) : Prop :=
  isSet [] t = isSet [] t0 ∧ ∀ v, get [] t0 = .ok v t0 → get [] t = .ok (convert B [] R v) t

theorem converted_of {t0 t : St} {d0 d : D} (h0 : Holds t0.heap [] d0) (h : Holds t.heap [] d) (hd : Turned B [] R d0 d) : Converted B R t0 t := by
  have hset : isSet [] t = isSet [] t0 := by simp only [isSet]; rw [h.set, h0.set, hd.set]
  refine ⟨hset, fun v hv => ?_⟩
  rw [C18_get] at hv ⊢
  rw [hset]
  split at hv
  · rename_i hs
    injection hv with hv _
    rw [if_pos hs]
    rcases hd with ⟨rfl, rfl⟩ | ⟨w, rfl, hd⟩
    · have := h0.set
      simp only [isSet] at hs
      rw [hs] at this
      simp [D.isSet] at this
    · have h1 := (h0.value (v := w) rfl).2
      rw [(h.value hd).2, ← hv, h1]
  · simp at hv

/-- C60, tokens. `R` is a tree of `SAutoObject`s, `customize B [] R` the tree with the user's types. Whatever both trees have been used for before, a
document is accepted by both or by neither; the value that the user's tree gives is the converted value of the other. -/
theorem C60_tokens (hE : Passive E) (hfm : E.fmtDbl = F.fmtDbl) (hF : Builds F B R) (hw : R.wf = true) (hst : allStored R = true) {s0 s : St} (h0 : Survived R s0)
    (h : Survived (customize B [] R) s) {j : Json} (hok : okVal R j = true) :
    (∃ t0 t, run E R (events j) s0 = .ok () t0 ∧ run (F.env (customize B [] R)) (customize B [] R) (events j) s = .ok () t ∧ t0.stack = [] ∧ t.stack = [] ∧
      Converted B R t0 t) ∨
    ∃ e0 e t0 t, run E R (events j) s0 = .throw e0 t0 ∧ run (F.env (customize B [] R)) (customize B [] R) (events j) s = .throw e t := by
  have hcw := customize_wf (B := B) R [] hst hw
  have h1 := parse_denote hE (h0.ready hw) hw hok
  have h2 := parse_denoteA (F := F) (h.ready hcw) hcw (j := j) (by rw [customize_okVal]; exact hok)
  have h3 := turns_value hF j R [] rfl hst (seenLog (customize B [] R) s.log)
  rw [hfm] at h1
  cases hd : denote F.fmtDbl R j with
  | error e =>
    rw [hd] at h1 h3
    obtain ⟨t0, h1⟩ := h1
    obtain ⟨l, e', h3⟩ := h3
    rw [h3] at h2
    obtain ⟨t, h2, _⟩ := h2
    exact .inr ⟨_, _, _, _, h1, h2⟩
  | ok d =>
    rw [hd] at h1 h3
    obtain ⟨t0, h1, h4, h5, _⟩ := h1
    obtain ⟨l, d', h3, h6⟩ := h3
    rw [h3] at h2
    obtain ⟨t, h2, h7, h8, _⟩ := h2
    exact .inl ⟨_, _, h1, h2, h4, h7, converted_of h5 h8 h6⟩

/-- C60, text: the same text, in any pieces, given to the two trees. -/
theorem C60_document (hE : Passive E) (hfm : E.fmtDbl = F.fmtDbl) (hF : Builds F B R) (hw : R.wf = true) (hst : allStored R = true) {s0 s : PSt Y}
    (h0 : ServedDocs Y R s0) (h : ServedDocs Y (customize B [] R) s) {cs cs' : List Chunk} (hne : cs ≠ []) (hne' : cs' ≠ []) {bs : List UInt8}
    (hc : chunkBytes cs = some bs) (hc' : chunkBytes cs' = some bs) {j : Json} (hdoc : Y.Document bs (events j)) (hok : okVal R j = true) {m m' : Mem}
    (hm : ∀ c, cs.getLast? = some c → (m.read c.ptr c.len).isSome) (hm' : ∀ c, cs'.getLast? = some c → (m'.read c.ptr c.len).isSome) :
    (∃ t0 t, parseDocument Y E R cs m s0 = .ok () t0 ∧ parseDocument Y (F.env (customize B [] R)) (customize B [] R) cs' m' s = .ok () t ∧
      Converted B R t0.st t.st) ∨
    ∃ e0 e y0 y t0 t, parseDocument Y E R cs m s0 = .throw (.parsing e0 y0) t0 ∧
      parseDocument Y (F.env (customize B [] R)) (customize B [] R) cs' m' s = .throw (.parsing e y) t := by
  obtain ⟨hb0, hs0⟩ := h0.facts
  obtain ⟨hb, hs⟩ := h.facts
  have hcw := customize_wf (B := B) R [] hst hw
  have g1 := parseDocument_run_of (E := E) (R := R) hb0.facts.1.facts.1 hb0.facts.2.1 hb0.facts.2.2 hne hc hdoc hm
  have g2 := parseDocument_run_of (E := F.env (customize B [] R)) (R := customize B [] R) hb.facts.1.facts.1 hb.facts.2.1 hb.facts.2.2 hne' hc' hdoc hm'
  have h1 := parse_denote hE (hs0.ready (wf_user hw)) hw hok
  have h2 := parse_denoteA (F := F) (hs.ready (wf_user hcw)) hcw (j := j) (by rw [customize_okVal]; exact hok)
  have h3 := turns_value hF j R [] rfl hst (seenLog (customize B [] R) s.st.restart.log)
  rw [hfm] at h1
  cases hd : denote F.fmtDbl R j with
  | error e =>
    rw [hd] at h1 h3
    obtain ⟨t0, h1⟩ := h1
    obtain ⟨l, e', h3⟩ := h3
    rw [h3] at h2
    obtain ⟨t, h2, _⟩ := h2
    rw [h1] at g1
    rw [h2] at g2
    obtain ⟨y1, z1, g1, _⟩ := g1
    obtain ⟨y2, z2, g2, _⟩ := g2
    exact .inr ⟨_, _, _, _, _, _, g1, g2⟩
  | ok d =>
    rw [hd] at h1 h3
    obtain ⟨t0, h1, h4, h5, _⟩ := h1
    obtain ⟨l, d', h3, h6⟩ := h3
    rw [h3] at h2
    obtain ⟨t, h2, h7, h8, _⟩ := h2
    rw [h1] at g1
    rw [h2] at g2
    simp only at g1 g2
    rw [if_pos h4] at g1
    rw [if_pos h7] at g2
    obtain ⟨z1, g1, rfl⟩ := g1
    obtain ⟨z2, g2, rfl⟩ := g2
    exact .inl ⟨z1, z2, g1, g2, converted_of h5 h8 h6⟩

/-- C60: a value of the tree of `SAutoObject`s, written down, is read by the user's tree as its conversion. -/
theorem C60_roundtrip (hF : Builds F B R) (hw : R.wf = true) (hst : allStored R = true) (hwr : writable R = true) (hemb : R.isEmbedded = false) {v : Val}
    (hv : hasType R v = true) (ho : v.ordered = true) {s : St} (h : Survived (customize B [] R) s) :
    ∃ t, run (F.env (customize B [] R)) (customize B [] R) (events (toJson R v)) s = .ok () t ∧ t.stack = [] ∧ get [] t = .ok (convert B [] R v) t := by
  have hcw := customize_wf (B := B) R [] hst hw
  obtain ⟨h1, hok, _⟩ := (back F.fmtDbl R).restored hwr hw hemb hv ho
  have h2 := parse_denoteA (F := F) (h.ready hcw) hcw (j := toJson R v) (by rw [customize_okVal]; exact hok)
  have h3 := turns_value hF (toJson R v) R [] rfl hst (seenLog (customize B [] R) s.log)
  rw [h1] at h3
  obtain ⟨l, d', h3, h6⟩ := h3
  rw [h3] at h2
  obtain ⟨t, h2, h7, h8, _⟩ := h2
  refine ⟨t, h2, h7, ?_⟩
  rcases h6 with ⟨h6, _⟩ | ⟨w, h6, h9⟩
  · simp at h6
  · injection h6 with h6; subst h6
    obtain ⟨h10, h11⟩ := h8.value h9
    rw [C18_get]
    simp only [isSet, h10, h11, if_true]

/-- C60: the user's tree is a tree that the library accepts, and the converted default values and results have the types of its parsers. -/
theorem C60_tree (hw : R.wf = true) (hst : allStored R = true) : (customize B [] R).wf = true ∧
    ∀ v, hasType R v = true → hasType (customize B [] R) (convert B [] R v) = true :=
  ⟨customize_wf R [] hst hw, fun v hv => convert_type R [] v hst hv⟩

section Examples
open Demo

/-- `{title: string, leads: [{name: string, age: int (optional, 18)}]}`, as `SAutoObject`s. -/
def leadMs : List (MInfo × Shape) :=
  [({ name := .str "name" }, .value .str), ({ name := .str "age", optional := true, dflt := some (.sc (.int 18)) }, .value .int)]
def teamMs : List (MInfo × Shape) := [({ name := .str "title" }, .value .str), ({ name := .str "leads" }, .array true (.object .auto true leadMs))]
def team : Shape := .object .auto true teamMs

/-- The user's types `Team` and `Lead`. -/
def toTeam : Builders := fun q =>
  if q = [] then some (.user "Team") else if q = [.elem, .mem 1] then some (fun vs => .user "Lead" vs.reverse) else none

/-- The callbacks: each pops the members and assigns the value. -/
def building (B : Builders) (R : Shape) : Handlers where
  onFinish q := match B q, R.at q with
    | some b, some (.object _ _ ms) => some fun _ d => match d with
      | .obj _ ds => { newVal := some (b (memberValues (customizeMs B q 0 ms) ds)), pops := [[.mem 0], [.mem 1]] }
      | _ => {}
    | _, _ => none
  onElement _ := none
  fmtDbl _ := ""

theorem team_builds : Builds (building toTeam team) toTeam team where
  building q b hb := by
    unfold toTeam at hb
    split at hb
    · rename_i hq; subst hq
      injection hb with hb; subst hb
      exact ⟨true, teamMs, _, rfl, by simp [teamMs], rfl, fun l ds => ⟨rfl, rfl, by simp⟩⟩
    · split at hb
      · rename_i hq; subst hq
        injection hb with hb; subst hb
        exact ⟨true, leadMs, _, rfl, by simp [leadMs], rfl, fun l ds => ⟨rfl, rfl, by simp⟩⟩
      · simp at hb
  others q f hb hf := by simp [building, hb] at hf
  elements q f hf := by simp [building] at hf

/-- `{"title": "T", "leads": [{"age": 40, "name": "Al"}, {"name": "Bo"}]}` -/
def teamDoc : Json := .obj [("title", .sc (.str "T")),
  ("leads", .arr [.obj [("age", .sc (.int 40)), ("name", .sc (.str "Al"))], .obj [("name", .sc (.str "Bo"))]])]
def teamValue : Val := .tup [.sc (.str "T"), .arr [.tup [.sc (.str "Al"), .sc (.int 40)], .tup [.sc (.str "Bo"), .sc (.int 18)]]]

/-- The hypotheses of all of the theorems; what the conversion is. -/
example : team.wf = true ∧ allStored team = true ∧ okVal team teamDoc = true ∧ writable team = true ∧ team.isEmbedded = false ∧
    hasType team teamValue = true ∧ teamValue.ordered = true := by decide +kernel
example : convert toTeam [] team teamValue =
    .user "Team" [.sc (.str "T"), .arr [.user "Lead" [.sc (.int 40), .sc (.str "Al")], .user "Lead" [.sc (.int 18), .sc (.str "Bo")]]] := rfl
example : customize toTeam [] team = .object .custom true [({ name := .str "title" }, .value .str), ({ name := .str "leads" }, .array true (.object .custom true leadMs))] := rfl

/-- C60_tokens: the outcome is the first one, with this value. -/
example : ∃ t, run ((building toTeam team).env (customize toTeam [] team)) (customize toTeam [] team) (events teamDoc) (St.init (customize toTeam [] team)) = .ok () t ∧
    get [] t = .ok (.user "Team" [.sc (.str "T"), .arr [.user "Lead" [.sc (.int 40), .sc (.str "Al")], .user "Lead" [.sc (.int 18), .sc (.str "Bo")]]]) t := by
  have hr : run noCb team (events teamDoc) (St.init team) = .ok () (after noCb team (events teamDoc) (St.init team)) := after_ok (by decide +kernel)
  have hg : get [] (after noCb team (events teamDoc) (St.init team)) = .ok teamValue (after noCb team (events teamDoc) (St.init team)) := by
    have hv : ((after noCb team (events teamDoc) (St.init team)).heap []).val = teamValue := sameV_eq (by decide +kernel)
    rw [C18_get, if_pos (by decide +kernel), hv]
  rcases C60_tokens noCb_passive (F := building toTeam team) (by rfl) team_builds (by decide +kernel) (by decide +kernel) .init .init (j := teamDoc)
    (by decide +kernel) with ⟨t0, t, h1, h2, _, _, _, h3⟩ | ⟨_, _, _, _, h1, _⟩
  · rw [hr] at h1; injection h1 with _ h1; subst h1
    exact ⟨t, h2, h3 _ hg⟩
  · rw [hr] at h1; simp at h1

/-- C60_tokens, the other outcome: without the name of a lead. -/
example : ∃ e t, run ((building toTeam team).env (customize toTeam [] team)) (customize toTeam [] team)
    (events (.obj [("leads", .arr [.obj [("age", .sc (.int 40))]])])) (St.init (customize toTeam [] team)) = .throw e t := by
  have hr := after_throw (E := noCb) (R := team) (ts := events (.obj [("leads", .arr [.obj [("age", .sc (.int 40))]])])) (s := St.init team)
    (e := .std "Can not set value: Mandatory member name is not present") (by decide +kernel)
  rcases C60_tokens noCb_passive (F := building toTeam team) (by rfl) team_builds (by decide +kernel) (by decide +kernel) .init .init
    (j := .obj [("leads", .arr [.obj [("age", .sc (.int 40))]])]) (by decide +kernel) with ⟨t0, t, h1, h2, _, _, _, h3⟩ | ⟨_, e, _, t, h1, h2⟩
  · rw [hr] at h1; simp at h1
  · exact ⟨e, t, h2⟩

/-- C60_roundtrip -/
example : ∃ t, run ((building toTeam team).env (customize toTeam [] team)) (customize toTeam [] team) (events (toJson team teamValue)) (St.init (customize toTeam [] team)) = .ok () t ∧
    t.stack = [] ∧ get [] t = .ok (convert toTeam [] team teamValue) t :=
  C60_roundtrip team_builds (by decide +kernel) (by decide +kernel) (by decide +kernel) (by decide +kernel) (by decide +kernel) (by decide +kernel) .init

/-- Why every optional member needs a default value: without one, the `SAutoObject` refuses `{"name": "Bo"}`, and the `SCustomObject` accepts it. -/
example : failure noCb (.object .auto true personMs) (events (.obj [("name", .sc (.str "Bo"))])) (St.init (.object .auto true personMs)) =
      some (.std "Can not set value: Optional member age does not have a default value") ∧
    failure noCb person (events (.obj [("name", .sc (.str "Bo"))])) (St.init person) = none := by decide +kernel

end Examples

end SJ
