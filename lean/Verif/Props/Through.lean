/-
C65: values pass through the library untouched and unseen.
-/
import Verif.Proofs.Through
import Verif.Props.Session
import Verif.Props.Conform
import Verif.Demo
import Verif.DemoYajl

set_option linter.unusedVariables false

namespace SJ

variable {r : Scalar → Scalar → Prop} {E E' : Env} {R : Shape} {Y : Yajl}

/-- C65, tokens. Two parsers of the same structure, in states that differ in the scalars they hold only (`StateAlike`), are given tokens that differ in the scalars
only, and `R` cannot tell these apart. Then the outcomes differ in the scalars only: both succeed, with states that are alike - the values related as the scalars
are -, or both throw, in such states, the same exception; in between the same callbacks were called in the same order, with arguments that are alike.
This holds for all sequences of tokens, complete or not, accepted or not. -/
theorem C65_tokens (hE : EnvAlike r E E') (hU : Unseen r R) {s s' : St} (hs : StateAlike r s s') {ts ts' : List Token} (ht : TokensAlike r ts ts') :
    ResultAlike r (ErrorAlike r E'.fmtDbl) (fun _ _ => True) (run E R ts s) (run E' R ts' s') := Thr.Both.run hE hU ht s s' hs

/-- C65. Newly constructed parsers are alike; what the user does between tokens or documents keeps them alike: taking a value (which gives values that
are alike), resetting a parser, and the next `parse()` after an error or after `finish()`. -/
theorem C65_uses : StateAlike r (St.init R) (St.init R) ∧ ∀ s s' : St, StateAlike r s s' →
    StateAlike r s.restart s'.restart ∧ (∀ p sh, StateAlike r (reset' p sh s) (reset' p sh s')) ∧ (∀ p, isSet p s = isSet p s' ∧ isEmpty p s = isEmpty p s') ∧
    (∀ p, ResultAlike r (· = ·) (ValAlike r) (pop' p s) (pop' p s')) ∧ ∀ p, ResultAlike r (· = ·) (ValAlike r) (get p s) (get p s') :=
  ⟨Thr.init_alike, fun s s' h => ⟨Thr.restart_alike h, fun p sh => ⟨h.stack, Thr.cells_resetH sh p h.cells, h.calls⟩,
    fun p => ⟨(h.cells p).set, (h.cells p).empty⟩, fun p => Thr.Both.popVal (fun _ => rfl) p s s' h, fun p => Thr.Both.get (fun _ => rfl) p s s' h⟩⟩

/-- C65, text. The same for two texts, in any pieces, whose tokens differ in the scalars only, given to two parsers between documents. -/
theorem C65_document (hE : EnvAlike r E E') (hU : Unseen r R) {s s' : PSt Y} (h : Between Y R s) (h' : Between Y R s') (hs : StateAlike r s.st s'.st)
    {cs cs' : List Chunk} (hne : cs ≠ []) (hne' : cs' ≠ []) {bs bs' : List UInt8} (hc : chunkBytes cs = some bs) (hc' : chunkBytes cs' = some bs') {ts ts' : List Token}
    (hd : Y.Document bs ts) (hd' : Y.Document bs' ts') (ht : TokensAlike r ts ts') {m m' : Mem}
    (hm : ∀ c, cs.getLast? = some c → (m.read c.ptr c.len).isSome) (hm' : ∀ c, cs'.getLast? = some c → (m'.read c.ptr c.len).isSome) :
    (∃ t t', parseDocument Y E R cs m s = .ok () t ∧ parseDocument Y E' R cs' m' s' = .ok () t' ∧ StateAlike r t.st t'.st) ∨
    (∃ e e' y y' t t', parseDocument Y E R cs m s = .throw (.parsing e.text y) t ∧ parseDocument Y E' R cs' m' s' = .throw (.parsing e'.text y') t' ∧
      ErrorAlike r E'.fmtDbl e e' ∧ StateAlike r t.st t'.st) ∨
    (parseDocument Y E R cs m s = .ub ∧ parseDocument Y E' R cs' m' s' = .ub) ∨
    (parseDocument Y E R cs m s = .fuel ∧ parseDocument Y E' R cs' m' s' = .fuel) := by
  have g := parseDocument_run (E := E) h hne hc hd hm
  have g' := parseDocument_run (E := E') h' hne' hc' hd' hm'
  have hr := C65_tokens hE hU (Thr.restart_alike hs) ht
  revert hr g g'
  generalize run E R ts s.st.restart = x
  generalize run E' R ts' s'.st.restart = x'
  intro g g' hr
  cases hr with
  | ok _ h2 =>
    simp only [h2.stack] at g g'
    split at g
    · rename_i hst
      rw [if_pos hst] at g'
      obtain ⟨t, g, rfl⟩ := g
      obtain ⟨t', g', rfl⟩ := g'
      exact .inl ⟨t, t', g, g', h2⟩
    · rename_i hst
      rw [if_neg hst] at g'
      obtain ⟨y, t, g, rfl⟩ := g
      obtain ⟨y', t', g', rfl⟩ := g'
      have hx : (Exn.std "Dispatcher parsers stack is not empty in the end").text = "Dispatcher parsers stack is not empty in the end" := by decide +kernel
      exact .inr (.inl ⟨.std "Dispatcher parsers stack is not empty in the end", .std "Dispatcher parsers stack is not empty in the end", y, y', t, t',
        by rw [hx]; exact g, by rw [hx]; exact g', .same, h2⟩)
  | throw he h2 =>
    simp only at g g'
    obtain ⟨y, t, g, rfl⟩ := g
    obtain ⟨y', t', g', rfl⟩ := g'
    exact .inr (.inl ⟨_, _, y, y', t, t', g, g', he, h2⟩)
  | ub => exact .inr (.inr (.inl ⟨g, g'⟩))
  | fuel => exact .inr (.inr (.inr ⟨g, g'⟩))

/-- C65: replacing the scalars of a document replaces those of the values got, in every parser of the tree, and has no other effect. -/
theorem C65_replace {g : Scalar → Scalar} (hE : EnvAlike (fun x y => y = g x) E E') (hU : Unseen (fun x y => y = g x) R) {j : Json} {t : St}
    (h : run E R (events j) (St.init R) = .ok () t) :
    ∃ t', run E' R (events (j.replace g)) (St.init R) = .ok () t' ∧ t.stack = t'.stack ∧
      ∀ p, isSet p t = isSet p t' ∧ ∀ v, get p t = .ok v t → get p t' = .ok (v.replace g) t' := by
  have hr := C65_tokens hE hU (Thr.init_alike (R := R)) (Thr.events_alike j _ (Thr.replaced_alike (g := g) j))
  rw [h] at hr
  revert hr
  generalize hx : run E' R (events (j.replace g)) (St.init R) = x'
  intro hr
  cases hr with
  | @ok _ _ _ t' _ h2 =>
    refine ⟨t', rfl, h2.stack, fun p => ⟨(h2.cells p).set, fun v hv => ?_⟩⟩
    unfold get at hv ⊢
    rw [← (h2.cells p).set]
    split at hv
    · rename_i hset
      injection hv with hv _
      subst hv
      rw [if_pos hset, ← Thr.alike_replaced _ _ (h2.cells p).val]
    · simp at hv

/-- C65: whether a document is accepted depends on the types of its scalars and on the choices of the unions only, unless a callback looks at the values. -/
theorem C65_accept (hE : EnvAlike (Indistinguishable R) E E') {s s' : St} (hs : StateAlike (Indistinguishable R) s s') {j j' : Json}
    (hj : JsonAlike (Indistinguishable R) j j') :
    ResultAlike (Indistinguishable R) (ErrorAlike (Indistinguishable R) E'.fmtDbl) (fun _ _ => True) (run E R (events j) s) (run E' R (events j') s') :=
  C65_tokens hE Thr.unseen_types hs (Thr.events_alike j j' hj)

section Examples
open Demo

/-- Texts are replaced by "other", but for the names of the alternatives of `schoice`; numbers from 10 on grow. -/
def alter : Scalar → Scalar
  | .str s => if s = "pair" ∨ s = "point" then .str s else .str "other"
  | .int n => if n < 10 then .int n else .int (n + 1000)
  | x => x

/-- What `Unseen` asks of the defaults and names, checked. -/
theorem unseen_alter {R : Shape} (h : everyB (fun sh => (match sh with
      | .union _ _ _ ms => ms.all fun x => x.1.name == .str "pair" || x.1.name == .str "point"
      | _ => true) && sh.declared.all fun x => match x.1.dflt with
      | some v => sameV v (v.replace alter)
      | none => true) R = true) : Unseen (fun x y => y = alter x) R where
  type x y h := by
    subst h
    cases x <;> simp only [alter] <;> first | rfl | (split <;> rfl)
  choice p ty tm st ms hp i sh hm x y hxy := by
    subst hxy
    have := everyB_sound rfl h p _ hp
    simp only [Bool.and_eq_true, List.all_eq_true] at this
    have h1 := this.1 _ hm
    simp only [Bool.or_eq_true, beq_iff_eq] at h1
    cases x with
    | str a =>
      simp only [alter]
      split
      · rfl
      · rename_i hn
        simp only [not_or] at hn
        rcases h1 with h1 | h1 <;> rw [h1] <;> simp only [Scalar.cppEq]
        · rw [beq_eq_false_iff_ne.2 (Ne.symm hn.1), beq_eq_false_iff_ne.2 (by decide)]
        · rw [beq_eq_false_iff_ne.2 (Ne.symm hn.2), beq_eq_false_iff_ne.2 (by decide)]
    | int n => rcases h1 with h1 | h1 <;> rw [h1] <;> simp only [alter] <;> split <;> rfl
    | bool b => rfl
    | dbl d => rfl
  default p sh hp i m v hm hv := by
    have := everyB_sound rfl h p _ hp
    simp only [Bool.and_eq_true, List.all_eq_true] at this
    have h2 := this.2 _ hm
    simp only [hv] at h2
    have h3 := Thr.val_replaced (g := alter) v
    rw [← sameV_eq h2] at h3
    exact h3

theorem noCb_alike {r : Scalar → Scalar → Prop} : EnvAlike r noCb noCb := ⟨fun _ => .inl ⟨rfl, rfl⟩, fun _ => .inl ⟨rfl, rfl⟩, rfl⟩

/-- `{"type": "pair", "id": 70, "tags": ["a", "point"]}` -/
def pairJson : Json := .obj [("type", .sc (.str "pair")), ("id", .sc (.int 70)), ("tags", .arr [.sc (.str "a"), .sc (.str "point")])]

theorem schoice_unseen : Unseen (fun x y => y = alter x) schoice := unseen_alter (by decide +kernel)

/-- C65_replace: `{"type": "pair", "id": 1070, "tags": ["other", "point"]}`. -/
example : ∃ t', run noCb schoice (events (.obj [("type", .sc (.str "pair")), ("id", .sc (.int 1070)), ("tags", .arr [.sc (.str "other"), .sc (.str "point")])])) (St.init schoice) =
      .ok () t' ∧ get [] t' = .ok (.alt 0 (.tup [.sc (.int 1070), .arr [.sc (.str "other"), .sc (.str "point")]])) t' := by
  have hr : run noCb schoice (events pairJson) (St.init schoice) = .ok () (after noCb schoice (events pairJson) (St.init schoice)) := after_ok (by decide +kernel)
  obtain ⟨t', h1, _, h2⟩ := C65_replace noCb_alike schoice_unseen hr
  refine ⟨t', h1, (h2 []).2 (.alt 0 (.tup [.sc (.int 70), .arr [.sc (.str "a"), .sc (.str "point")]])) ?_⟩
  have hv : ((after noCb schoice (events pairJson) (St.init schoice)).heap []).val = .alt 0 (.tup [.sc (.int 70), .arr [.sc (.str "a"), .sc (.str "point")]]) := sameV_eq (by decide +kernel)
  unfold get
  rw [if_pos (by decide +kernel), hv]

/-- C65_document: the two texts, the second one in two pieces. -/
def pairText : String := "{\"type\": \"pair\", \"id\": 70, \"tags\": [\"a\", \"point\"]}"
def pairText' : String := "{\"type\": \"pair\", \"id\": 1070, \"tags\": [\"other\", \"point\"]}"
example : ∃ t t', parseDocument yajl noCb schoice [chunk pairText] (buffer pairText) (PSt.init yajl schoice) = .ok () t ∧
    parseDocument yajl noCb schoice [chunk pairText'] (buffer pairText') (PSt.init yajl schoice) = .ok () t' ∧ StateAlike (fun x y => y = alter x) t.st t'.st := by
  have hp : returned (parseDocument yajl noCb schoice [chunk pairText] (buffer pairText) (PSt.init yajl schoice)) = true := by decide +kernel
  rcases C65_document (Y := yajl) (s := PSt.init yajl schoice) (s' := PSt.init yajl schoice) noCb_alike schoice_unseen .init .init Thr.init_alike
    (cs := [chunk pairText]) (cs' := [chunk pairText']) (by simp) (by simp) (chunk_bytes _) (chunk_bytes _)
    (document_of (ts := events pairJson) (by decide +kernel) (by decide +kernel) (by decide +kernel))
    (document_of (ts := events (pairJson.replace alter)) (by decide +kernel) (by decide +kernel) (by decide +kernel)) (Thr.events_alike _ _ (Thr.replaced_alike (g := alter) _))
    (chunk_last pairText) (chunk_last pairText') with h | ⟨_, _, _, _, _, _, h, _⟩ | ⟨h, _⟩ | ⟨h, _⟩
  · exact h
  all_goals rw [h] at hp; simp [returned] at hp

/-- C65_accept, C65_tokens: the types of the scalars decide. Both texts are refused, with the same message. -/
example : ∃ t t', run noCb outer (events (.obj [("name", .sc (.int 7))])) (St.init outer) = .throw (.std "Unexpected token integer") t ∧
    run noCb outer (events (.obj [("name", .sc (.int 8))])) (St.init outer) = .throw (.std "Unexpected token integer") t' := by
  have hr := after_throw (E := noCb) (R := outer) (ts := events (.obj [("name", .sc (.int 7))])) (s := St.init outer) (e := .std "Unexpected token integer") (by decide +kernel)
  have hu : ∀ p ty tm st ms, outer.at p = some (.union ty tm st ms) → False := by
    intro p ty tm st ms hp
    have := everyB_sound (f := fun sh => match sh with | .union _ _ _ _ => false | _ => true) rfl (R := outer) (by decide +kernel) p _ hp
    simp at this
  have h := C65_accept (R := outer) noCb_alike (Thr.init_alike (R := outer)) (j := .obj [("name", .sc (.int 7))]) (j' := .obj [("name", .sc (.int 8))])
    (.obj (.cons (.sc ⟨rfl, fun p ty tm st ms hp => (hu p ty tm st ms hp).elim⟩) .nil))
  rw [hr] at h
  revert h
  generalize run noCb outer (events (.obj [("name", .sc (.int 8))])) (St.init outer) = x
  intro h
  cases h with
  | throw he _ =>
    generalize hx : Exn.std "Unexpected token integer" = a at he
    cases he with
    | same => subst hx; exact ⟨_, _, hr, rfl⟩
    | unknown h =>
      injection hx with hx
      have := congrArg (fun s => s.toList.take 17) hx
      simp [String.toList_append] at this
      

/-- A callback that builds the user's value of what it is given does the same whatever the values are. -/
def keeping : Env where
  onFinish p := if p = [] then some fun _ a => match a with
    | .parser (.node _ _ _ _ (.node _ _ (some v) _ _ :: _)) => { newVal := some (.user "T" [v]), pops := [[.mem 0]] }
    | _ => {} else none
  onElement _ := none
  fmtDbl _ := ""
theorem keeping_alike {r : Scalar → Scalar → Prop} : EnvAlike r keeping keeping where
  finish p := by
    by_cases hp : p = []
    · refine .inr ⟨_, _, if_pos hp, if_pos hp, fun l l' a a' _ ha => ?_⟩
      cases ha with
      | val _ => exact ⟨rfl, rfl, .none⟩
      | parser h =>
        cases h with
        | node _ hk =>
          cases hk with
          | nil => exact ⟨rfl, rfl, .none⟩
          | cons h _ =>
            cases h with
            | node hv _ =>
              cases hv with
              | none => exact ⟨rfl, rfl, .none⟩
              | some hv => exact ⟨rfl, rfl, .some (.user (.cons hv .nil))⟩
    · exact .inl ⟨if_neg hp, if_neg hp⟩
  element p := .inl ⟨rfl, rfl⟩
  fmt := rfl
def keptObj : Shape := .object .custom true [({ name := .str "id" }, .value .int)]
example : ∃ t', run keeping keptObj (events (.obj [("id", .sc (.int 1070))])) (St.init keptObj) = .ok () t' ∧ get [] t' = .ok (.user "T" [.sc (.int 1070)]) t' := by
  have hr : run keeping keptObj (events (.obj [("id", .sc (.int 70))])) (St.init keptObj) = .ok () (after keeping keptObj (events (.obj [("id", .sc (.int 70))])) (St.init keptObj)) :=
    after_ok (by decide +kernel)
  obtain ⟨t', h1, _, h2⟩ := C65_replace (g := alter) keeping_alike (unseen_alter (by decide +kernel)) hr
  refine ⟨t', h1, (h2 []).2 (.user "T" [.sc (.int 70)]) ?_⟩
  have hv : ((after keeping keptObj (events (.obj [("id", .sc (.int 70))])) (St.init keptObj)).heap []).val = .user "T" [.sc (.int 70)] := sameV_eq (by decide +kernel)
  unfold get
  rw [if_pos (by decide +kernel), hv]

/-- Why `choice` is asked for: the type value of a union is looked at. -/
example : failure noCb schoice (events pairJson) (St.init schoice) = none ∧
    failure noCb schoice (events (.obj [("type", .sc (.str "other")), ("id", .sc (.int 70)), ("tags", .arr [.sc (.str "a"), .sc (.str "point")])])) (St.init schoice) =
      some (.std "Unexpected member other") := by decide +kernel

end Examples

end SJ
