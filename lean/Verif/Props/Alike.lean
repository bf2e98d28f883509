/-
C44 (and C23, C24): a parser that has read other documents, successfully or not, cannot be told from a new one, whatever the callbacks
do and whatever tokens come next.
-/
import Verif.Proofs.AlikeRun
import Verif.Proofs.Guard
import Verif.Props.Reuse
import Verif.Props.Whole

set_option linter.unusedVariables false

namespace SJ

variable {Y : Yajl} {E : Env} {R : Shape}

/-! ### Which callbacks are covered -/

mutual
theorem cut_id (hm : MapFree R) : ∀ (sh : Shape) (p : Path), R.at p = some sh → ∀ s : Snap, s.cut sh = s
  | .value _, p, hR, s => by cases s; rfl
  | .ignore, p, hR, s => by cases s; rfl
  | .map st e, p, hR, s => absurd hR (hm p st e)
  | .array st e, p, hR, .node a b c d ks => by
    simp only [Snap.cut]
    have : ks.map (Snap.cut e) = ks := by
      conv => rhs; rw [← List.map_id ks]
      exact List.map_congr_left fun k _ => cut_id hm e (.elem :: p) (at_elem_array hR) k
    rw [this]
  | .object k u ms, p, hR, .node a b c d ks => by
    simp only [Snap.cut]
    rw [cutMs_id hm ms ks p 0 fun m i sh h => by simpa using at_mem_object hR h]
  | .union ty tm st ms, p, hR, .node a b c d ks => by
    simp only [Snap.cut]
    rw [cutMs_id hm ms ks p 0 fun m i sh h => by simpa using at_mem_union hR h]
theorem cutMs_id (hm : MapFree R) : ∀ (ms : List (MInfo × Shape)) (ks : List Snap) (p : Path) (n : Nat),
    (∀ (m : Nat) i sh, ms[m]? = some (i, sh) → R.at (.mem (n + m) :: p) = some sh) → cutMs ms ks = ks
  | [], ks, p, n, _ => by simp [cutMs]
  | (i, sh) :: ms, [], p, n, _ => by simp [cutMs]
  | (i, sh) :: ms, k :: ks, p, n, h => by
    simp only [cutMs]
    rw [cut_id hm sh (.mem n :: p) (h 0 i sh rfl) k, cutMs_id hm ms ks p (n + 1) fun m i' sh' h' => by
      have := h (m + 1) i' sh' (by simpa using h'); rw [Nat.add_assoc, Nat.add_comm 1 m]; exact this]
end

theorem cut_call_id (hm : MapFree R) : ∀ c : Call, c.cut R = c
  | .finish p (.val v) => rfl
  | .finish p (.parser s) => by
    simp only [Call.cut]
    cases h : R.at p with
    | none => rfl
    | some sh => simp only [cut_id hm sh p h s]
  | .element p k s => by
    simp only [Call.cut]
    cases h : R.at (.elem :: p) with
    | none => rfl
    | some sh => simp only [cut_id hm sh _ h s]

theorem cut_log_id (hm : MapFree R) (l : Log) : Log.cut R l = l := by
  unfold Log.cut
  conv => rhs; rw [← List.map_id l]
  exact List.map_congr_left fun c _ => cut_call_id hm c

/-- If there are no maps in the tree every callback is covered. -/
theorem mapFree_blind (hm : MapFree R) (E : Env) : Blind R E := by
  refine ⟨fun p cb _ l l' a a' h1 h2 => ?_, fun p cb _ l l' k a a' h1 h2 => ?_⟩
  · rw [cut_log_id hm, cut_log_id hm] at h1
    rw [cut_call_id hm, cut_call_id hm] at h2
    injection h2 with _ h2
    rw [h1, h2]
  · rw [cut_log_id hm, cut_log_id hm] at h1
    rw [cut_call_id hm, cut_call_id hm] at h2
    injection h2 with _ _ h2
    rw [h1, h2]

/-! ### Which sequences of tokens are covered -/

mutual
theorem sequenced_events : ∀ (j : Json) (exp : Bool) (ts : List Token), Sequenced false ts → Sequenced exp (events j ++ ts)
  | .null, exp, ts, h => ⟨fun _ => rfl, h⟩
  | .sc x, exp, ts, h => ⟨fun _ => rfl, h⟩
  | .arr js, exp, ts, h => by
    simp only [events, List.cons_append, List.append_assoc]
    exact ⟨fun _ => rfl, sequenced_arr js _ ⟨by simp, h⟩⟩
  | .obj fs, exp, ts, h => by
    simp only [events, List.cons_append, List.append_assoc]
    exact ⟨fun _ => rfl, sequenced_fields fs _ ⟨by simp, h⟩⟩
theorem sequenced_arr : ∀ (js : List Json) (ts : List Token), Sequenced false ts → Sequenced false (elemEvents js ++ ts)
  | [], ts, h => h
  | j :: js, ts, h => by
    simp only [elemEvents, List.append_assoc]
    exact sequenced_events j false _ (sequenced_arr js ts h)
theorem sequenced_fields : ∀ (fs : List (String × Json)) (ts : List Token), Sequenced false ts → Sequenced false (fieldEvents fs ++ ts)
  | [], ts, h => h
  | (k, j) :: fs, ts, h => by
    simp only [fieldEvents, List.cons_append, List.append_assoc]
    exact ⟨by simp, sequenced_events j true _ (sequenced_fields fs ts h)⟩
end

theorem Sequenced.prefix : ∀ {a b : List Token} {exp}, Sequenced exp (a ++ b) → Sequenced exp a
  | [], b, exp, h => by cases exp <;> trivial
  | x :: a, b, exp, h => ⟨h.1, Sequenced.prefix h.2⟩

/-- The tokens of every JSON value, cut anywhere, follow the two rules. -/
theorem sequenced_prefix {j : Json} {a b : List Token} (h : events j = a ++ b) : Sequenced true a := by
  have := sequenced_events j true [] trivial
  rw [List.append_nil, h] at this
  exact this.prefix

/-! ### Parsers in use -/

theorem SameRun.symm {r r' : Res Unit} (h : SameRun R r r') : SameRun R r' r := by
  cases h with
  | ok h1 h2 h3 => exact .ok h1.symm h2.symm h3.symm
  | throw h1 h2 => exact .throw h1.symm h2.symm
  | ub => exact .ub

theorem Ready.log {s : St} (h : Ready R s) (l : Log) : Ready R { s with log := l } := ⟨h.stack, h.disp, h.sane⟩

theorem Ready.sameRun {s t : St} (hs : Ready R s) (ht : Ready R t) (hw : R.wf = true) (hb : Blind R E) (hl : Log.cut R s.log = Log.cut R t.log) {ts : List Token}
    (hne : ts ≠ []) (hq : Sequenced true ts) (hz : ¬ Arrives E R (Hazard R) ts t) : SameRun R (run E R ts s) (run E R ts t) :=
  (start_alike hw (noIgnoreElem hw) hb ht.stack hs.stack (fun q => ht.sane.started q List.nil_suffix) (fun q => hs.sane.started q List.nil_suffix) hl.symm
    ht.opened hs.opened hne hq hz).symm

/-- C44. A parser that has read documents, successfully or not (`Survived`: but none was given up inside an array), with any callbacks, replaced at any time; the callbacks `E` may
do anything from now on, provided they do not look at what the element parser of a map held before (`Blind`). For every sequence of tokens that may come
next, of a well-formed document or of one that is not (`Sequenced`: it only has to begin with a value, and so have the values of keys), the outcome
is that of a parser just constructed: the same exception or none, the same callbacks invoked with the same arguments, the same current parsers,
and the same root parser with everything in it. Except that a null or scalar may arrive as an element of an array of other parsers than `Value`s
(`Hazard`), see `C24_null_element`. -/
theorem C44_like_new (hb : Blind R E) (hw : R.wf = true) {s : St} (h : Survived R s) {ts : List Token} (hne : ts ≠ []) (hq : Sequenced true ts)
    (hz : ¬ Arrives E R (Hazard R) ts { St.init R with log := s.log }) :
    SameRun R (run E R ts s) (run E R ts { St.init R with log := s.log }) :=
  (h.ready hw).sameRun ((Ready.init R).log s.log) hw hb rfl hne hq hz

/-- C44, for trees whose arrays are arrays of `Value`s: there is no exception. -/
theorem C44_value_arrays (hb : Blind R E) (hw : R.wf = true) (ha : ScalarArrays R) {s : St} (h : Survived R s) {ts : List Token} (hne : ts ≠ [])
    (hq : Sequenced true ts) : SameRun R (run E R ts s) (run E R ts { St.init R with log := s.log }) := by
  refine C44_like_new hb hw h hne hq ?_
  rintro ⟨a, x, b, s', _, _, ⟨p, _, st, e, _, hR, _, _, he⟩ | ⟨p, _, st, ty, tm, b', ms, v, _, hR, _⟩⟩
  · obtain ⟨ty, h⟩ := ha p st e hR; exact he ty h
  · obtain ⟨ty, h⟩ := ha p _ _ hR; simp at h

/-- C44, for trees without arrays: after anything whatsoever. -/
theorem C44_array_free (hb : Blind R E) (hw : R.wf = true) (ha : ArrFree R) {s : St} (h : History R s) {ts : List Token} (hne : ts ≠ [])
    (hq : Sequenced true ts) : SameRun R (run E R ts s.restart) (run E R ts { St.init R with log := s.log }) := by
  have hr : Ready R s.restart := by
    refine ⟨rfl, h.ctl.root, h.ctl.closed, fun q _ => h.ctl.idle ha q, ?_⟩
    intro q st ty _ hR; exact absurd hR (ha q st _)
  refine hr.sameRun ((Ready.init R).log s.log) hw hb rfl hne hq ?_
  rintro ⟨a, x, b, s', _, _, ⟨p, _, st, e, _, hR, _, _, he⟩ | ⟨p, _, st, ty, tm, b', ms, v, _, hR, _⟩⟩
  · exact ha p st e hR
  · exact ha p _ _ hR

/-- C44, for trees without maps: any callbacks, and everything is the same. -/
theorem C44_map_free (hm : MapFree R) (hw : R.wf = true) {s : St} (h : Survived R s) {ts : List Token} (hne : ts ≠ []) (hq : Sequenced true ts)
    (hz : ¬ Arrives E R (Hazard R) ts { St.init R with log := s.log }) :
    EqualRun R (run E R ts s) (run E R ts { St.init R with log := s.log }) := by
  have := C44_like_new (mapFree_blind hm E) hw h hne hq hz
  generalize run E R ts s = r at this ⊢
  generalize run E R ts { St.init R with log := s.log } = r' at this ⊢
  cases this with
  | ok t1 t2 t3 =>
    rw [cut_log_id hm, cut_log_id hm] at t2
    rw [cut_id hm R [] rfl, cut_id hm R [] rfl] at t3
    exact .ok t1 t2 t3
  | throw t1 t2 =>
    rw [cut_log_id hm, cut_log_id hm] at t2
    exact .throw t1 t2
  | ub => exact .ub

theorem ok_prefix {E : Env} {s : St} (hw : R.wf = true) {j : Json} (hok : okVal R j = true) {a b : List Token} (hj : events j = a ++ b) :
    ¬ Arrives E R (Hazard R) a { St.init R with log := s.log } := fun h =>
  ok_no_hazard (E := E) ((Ready.init R).log s.log) (wf_user hw) hok (hj ▸ h.append)

/-- C24, any callbacks: they may reject, throw, pop and assign. After documents that were read successfully, a JSON value, also if it is cut off somewhere (`a`),
has the same outcome as with a new parser: the same exception or none, the same callbacks invoked with the same arguments, the same root parser.
Partial: the document satisfies `okVal`; see `C24_null_element`. -/
theorem C24_any_callbacks_partial (hb : Blind R E) (hw : R.wf = true) {s : St} (h : Served R s) {j : Json} (hok : okVal R j = true) {a b : List Token}
    (hj : events j = a ++ b) (hne : a ≠ []) : SameRun R (run E R a s) (run E R a { St.init R with log := s.log }) :=
  (h.ready (wf_user hw)).sameRun ((Ready.init R).log s.log) hw hb rfl hne (sequenced_prefix hj) (ok_prefix hw hok hj)

/-- C23, any callbacks. After refused or truncated documents (none of them given up inside an array) a JSON value, also if it is cut off somewhere, has the same
outcome as with a new parser. Partial: as for `C24_any_callbacks_partial`. -/
theorem C23_any_callbacks_partial (hb : Blind R E) (hw : R.wf = true) {s : St} (h : Survived R s) {j : Json} (hok : okVal R j = true) {a b : List Token}
    (hj : events j = a ++ b) (hne : a ≠ []) : SameRun R (run E R a s) (run E R a { St.init R with log := s.log }) :=
  C44_like_new hb hw h hne (sequenced_prefix hj) (ok_prefix hw hok hj)

/-! ### The same for whole documents -/

theorem SameRun.reading {s t : PSt Y} (h1 : Intact s) (h2 : s.reader = Y.alloc) (h3 : s.tree = s.st.restart) (g1 : Intact t) (g2 : t.reader = Y.alloc) (g3 : t.tree = t.st.restart)
    {cs : List Chunk} (hne : cs ≠ []) {bs ts} (hc : chunkBytes cs = some bs) (hd : Y.Document bs ts) {m : Mem} (hm : ∀ c, cs.getLast? = some c → (m.read c.ptr c.len).isSome)
    (h : SameRun R (run E R ts s.st.restart) (run E R ts t.st.restart)) : SameReading R (parseDocument Y E R cs m s) (parseDocument Y E R cs m t) := by
  have r1 := parseDocument_run_of (E := E) (R := R) h1 h2 h3 hne hc hd hm
  have r2 := parseDocument_run_of (E := E) (R := R) g1 g2 g3 hne hc hd hm
  generalize hs : run E R ts s.st.restart = r at h r1
  generalize ht : run E R ts t.st.restart = r' at h r2
  cases h with
  | @ok s' t' e1 e2 e3 =>
    simp only at r1 r2
    by_cases hk : s'.stack = []
    · rw [if_pos hk] at r1; rw [if_pos (e1 ▸ hk)] at r2
      obtain ⟨s2, r1, rfl⟩ := r1
      obtain ⟨t2, r2, rfl⟩ := r2
      rw [r1, r2]; exact .ok e2 e3
    · rw [if_neg hk] at r1; rw [if_neg (e1 ▸ hk)] at r2
      obtain ⟨y, s2, r1, rfl⟩ := r1
      obtain ⟨y', t2, r2, rfl⟩ := r2
      rw [r1, r2]; exact .throw e2
  | throw e2 e3 =>
    obtain ⟨y, s2, r1, rfl⟩ := r1
    obtain ⟨y', t2, r2, rfl⟩ := r2
    rw [r1, r2]; exact .throw e3
  | ub =>
    simp only at r1 r2
    rw [r1, r2]; exact .ub

theorem PSt.new_facts (l : Log) : Intact (PSt.new Y R l) ∧ (PSt.new Y R l).reader = Y.alloc ∧ (PSt.new Y R l).tree = (PSt.new Y R l).st.restart ∧
    (PSt.new Y R l).st.restart = { St.init R with log := l } :=
  ⟨⟨fun h => by simp [PSt.new, PSt.init] at h, fun h => by simp [PSt.new, PSt.init] at h⟩, rfl, rfl, rfl⟩

/-- C24, any callbacks, as the user sees it: after any number of documents, all read successfully, the next document has the same outcome as with a parser just
constructed, also if the callbacks were replaced in between and if they reject, throw, pop and assign. Partial: as for `C24_any_callbacks_partial`. -/
theorem C24_any_callbacks_documents_partial (hb : Blind R E) (hw : R.wf = true) {s : PSt Y} (h : ServedDocs Y R s) {cs : List Chunk} (hne : cs ≠ [])
    {bs : List UInt8} {j : Json} (hc : chunkBytes cs = some bs) (hd : Y.Document bs (events j)) (hok : okVal R j = true) {m : Mem}
    (hm : ∀ c, cs.getLast? = some c → (m.read c.ptr c.len).isSome) :
    SameReading R (parseDocument Y E R cs m s) (parseDocument Y E R cs m (PSt.new Y R s.st.log)) := by
  obtain ⟨f1, f2⟩ := h.facts
  obtain ⟨g1, g2, g3, g4⟩ := PSt.new_facts (Y := Y) (R := R) s.st.log
  refine SameRun.reading f1.facts.1.facts.1 f1.facts.2.1 f1.facts.2.2 g1 g2 g3 hne hc hd hm ?_
  rw [g4]
  have hne' : events j ≠ [] := by cases j <;> simp [events]
  exact C24_any_callbacks_partial (s := s.st.restart) hb hw f2 hok (List.append_nil _).symm hne'

/-- C44, as the user sees it, for parser trees without arrays: after anything whatsoever (documents that failed or were never finished included), every text
that YAJL accepts has the same outcome as with a parser just constructed. -/
theorem C44_documents (hb : Blind R E) (hw : R.wf = true) (ha : ArrFree R) {s : PSt Y} (h : Between Y R s) {cs : List Chunk} (hne : cs ≠ [])
    {bs : List UInt8} {j : Json} (hc : chunkBytes cs = some bs) (hd : Y.Document bs (events j)) {m : Mem}
    (hm : ∀ c, cs.getLast? = some c → (m.read c.ptr c.len).isSome) :
    SameReading R (parseDocument Y E R cs m s) (parseDocument Y E R cs m (PSt.new Y R s.st.log)) := by
  obtain ⟨g1, g2, g3, g4⟩ := PSt.new_facts (Y := Y) (R := R) s.st.log
  refine SameRun.reading h.facts.1.facts.1 h.facts.2.1 h.facts.2.2 g1 g2 g3 hne hc hd hm ?_
  rw [g4]
  have hne' : events j ≠ [] := by cases j <;> simp [events]
  exact C44_array_free hb hw ha h.facts.1.facts.2 hne' (sequenced_prefix (List.append_nil _).symm)

/-! ### Examples -/

section Examples
open Demo

def notMap : Shape → Bool
  | .map _ _ => false
  | _ => true

def valueArray : Shape → Bool
  | .array _ (.value _) => true
  | .array _ _ => false
  | _ => true

theorem mapFree_of {R : Shape} (h : everyB notMap R = true) : MapFree R := fun q st e hq => by
  have := everyB_sound rfl h q _ hq
  simp [notMap] at this

theorem scalarArrays_of {R : Shape} (h : everyB valueArray R = true) : ScalarArrays R := fun q st e hq => by
  have := everyB_sound rfl h q _ hq
  cases e <;> simp [valueArray] at this
  exact ⟨_, rfl⟩

/-- Without nulls, in a tree whose arrays have objects as elements. -/
theorem no_hazard_circles {E : Env} {ts : List Token} (hn : .null ∉ ts) (s : St) : ¬ Arrives E circles (Hazard circles) ts s := by
  rintro ⟨a, x, b, s', rfl, _, ⟨p, _, st, e, _, _, _, rfl, _⟩ | ⟨p, _, st, ty, tm, b', ms, v, _, hR, _⟩⟩
  · exact hn (by simp)
  · have := everyB_sound (f := fun sh => match sh with | .array _ (.union _ _ _ _) => false | _ => true) rfl (R := circles) (by decide) p _ hR
    simp at this

/-- The member `n` (number 1) must be below 5, or its callback throws; the callback of an object takes the array out of its member `l`
after an even number of callbacks; other callbacks reject what comes after five callbacks. -/
def picky : Env :=
  { onFinish := fun p => if p = [.mem 1] then some fun _ a => { verdict := match a with | .val (.sc (.int n)) => if n < 5 then .accept else .throws (.std "too much") | _ => .accept }
      else if p = [] then some fun l _ => { pops := if l.length % 2 = 0 then [[.mem 0]] else [] }
      else some fun l _ => { verdict := if l.length < 5 then .accept else .reject }
    onElement := fun _ => some fun l k _ => { verdict := if l.length < 5 ∨ k = "a" then .accept else .reject }
    fmtDbl := fun _ => "" }

/-- These callbacks do not look at any parser that they get. -/
theorem picky_blind (R : Shape) : Blind R picky := by
  have len : ∀ l l', Log.cut R l = Log.cut R l' → l.length = l'.length := fun l l' h => by
    have := congrArg List.length h
    simpa [Log.cut] using this
  refine ⟨fun p cb h l l' a a' hl ha => ?_, fun p cb h l l' k a a' hl ha => ?_⟩
  · simp only [picky] at h
    split at h
    · simp only [Option.some.injEq] at h; subst h
      cases a <;> cases a' <;> simp only [Call.cut] at ha
      · injection ha with _ ha; injection ha with ha; subst ha; rfl
      · simp at ha
      · simp at ha
      · rfl
    · split at h <;> (simp only [Option.some.injEq] at h; subst h; simp only [len l l' hl])
  · simp only [picky, Option.some.injEq] at h; subst h
    simp only [len l l' hl]

/-- C44_like_new, for an array of objects that has read `[{"r": 1}]`, and `[{"r": 2}]]`, which is not JSON. -/
example :
    let s := (after accepting circles (events (.arr [.obj [("r", .sc (.int 1))]])) (St.init circles)).restart
    let ts : List Token := [.arrStart, .mapStart, .mapKey "r", .scalar (.int 2), .mapEnd, .arrEnd, .arrEnd]
    SameRun circles (run picky circles ts s) (run picky circles ts { St.init circles with log := s.log }) ∧
    failure picky circles ts s = some (.std "Parsers stack is empty") := by
  refine ⟨?_, by decide +kernel⟩
  exact C44_like_new (picky_blind _) (by decide +kernel) (.doc _ .init (by decide +kernel) (after_ok (by decide +kernel))) (by decide)
    (by simp [Sequenced, Token.opens]) (no_hazard_circles (by decide) _)

/-- `holder` after `{"l": [1], "zz"` was refused. -/
theorem survived_holder : Survived holder (after accepting holder badHolder (St.init holder)).restart := by
  refine .refused badHolder (.std "Unexpected member zz") .init (no_null_element (.inl (by decide)) _) (after_throw (by decide +kernel)) ?_
  have h : (after accepting holder badHolder (St.init holder)).stack = [[]] := by decide +kernel
  intro q hq
  rw [h] at hq
  simp at hq; subst hq
  decide +kernel

/-- C44_value_arrays: `{"l": [2, null], "n": 7}` is now refused by the callback of `n`. -/
example :
    let s := (after accepting holder badHolder (St.init holder)).restart
    let j : Json := .obj [("l", .arr [.sc (.int 2), .null]), ("n", .sc (.int 7))]
    SameRun holder (run picky holder (events j) s) (run picky holder (events j) { St.init holder with log := s.log }) ∧
    failure picky holder (events j) s = some (.std "too much") :=
  ⟨C44_value_arrays (picky_blind _) (by decide +kernel) (scalarArrays_of (by decide +kernel)) survived_holder (by simp [events])
    (sequenced_prefix (List.append_nil _).symm), by decide +kernel⟩

/-- C44_map_free: a callback that looks at everything (it rejects a second object whose member `l` is set, and takes the first one). -/
def looking : Env :=
  { noCb with onFinish := fun p => if p = [] then some fun l a => match a with
        | .parser (.node _ _ _ _ (.node true _ (some (.arr [.sc (.int _)])) _ _ :: _)) => if l.length = 0 then { pops := [[.mem 0]] } else { verdict := .reject }
        | _ => {}
      else none }
example :
    let s := (after accepting holder badHolder (St.init holder)).restart
    let j : Json := .obj [("l", .arr [.sc (.int 2)])]
    EqualRun holder (run looking holder (events j) s) (run looking holder (events j) { St.init holder with log := s.log }) ∧ failure looking holder (events j) s = some (.std "Callback returned false") := by
  refine ⟨C44_map_free (mapFree_of (by decide +kernel)) (by decide +kernel) survived_holder (by simp [events]) (sequenced_prefix (List.append_nil _).symm) ?_, by decide +kernel⟩
  exact ok_no_hazard ((Ready.init holder).log _) (wf_user (sh := holder) (by decide +kernel)) (by decide +kernel)

/-- C44_array_free: `tagged` after it refused `{"id": 1, "kind": "circle", "r": "x"`. -/
example :
    let j : Json := .obj [("id", .sc (.int 2)), ("kind", .sc (.str "circle")), ("r", .sc (.int 7))]
    SameRun tagged (run picky tagged (events j) sFailed.restart) (run picky tagged (events j) { St.init tagged with log := sFailed.log }) ∧
    fine picky tagged (events j) sFailed.restart = true :=
  ⟨C44_array_free (picky_blind _) (by decide +kernel) tagged_arrFree (.failed badTagged (.std "Unexpected token string") .init (after_throw (by decide +kernel)))
    (by simp [events]) (sequenced_prefix (List.append_nil _).symm), by decide +kernel⟩

/-- C24_any_callbacks_partial, C23_any_callbacks_partial: `[[1,null]`, cut off. -/
example : SameRun matrix (run picky matrix [.arrStart, .arrStart, .scalar (.int 1), .null, .arrEnd] sServed)
    (run picky matrix [.arrStart, .arrStart, .scalar (.int 1), .null, .arrEnd] { St.init matrix with log := sServed.log }) :=
  C24_any_callbacks_partial (j := docMatrix) (picky_blind _) (by decide +kernel) served_matrix (by decide +kernel) (a := [.arrStart, .arrStart, .scalar (.int 1), .null, .arrEnd])
    (b := [.arrStart, .arrEnd, .arrStart, .scalar (.int 2), .arrEnd, .arrEnd]) (by decide +kernel) (by simp)
example : SameRun matrix (run picky matrix (events docMatrix) sServed) (run picky matrix (events docMatrix) { St.init matrix with log := sServed.log }) :=
  C23_any_callbacks_partial (j := docMatrix) (picky_blind _) (by decide +kernel) (.doc docMatrix .init (by decide +kernel) (after_ok (by decide +kernel))) (by decide +kernel)
    (List.append_nil _).symm (by simp [events, docMatrix])

/-- Without `Blind` C44 is false of this code: a map that has read `{"a": 1}` still shows the 1 in its element parser to its finish callback when it
reads `{}`. -/
theorem C44_stale_element :
    let R := Shape.map false (.value .int)
    let E : Env := { noCb with onFinish := fun p => if p = [] then some fun _ a => match a with
        | .parser (.node _ _ _ _ [.node true _ _ _ _]) => { verdict := .reject }
        | _ => {} else none }
    let s := after noCb R (events (.obj [("a", .sc (.int 1))])) (St.init R)
    run noCb R (events (.obj [("a", .sc (.int 1))])) (St.init R) = .ok () s ∧ s.stack = [] ∧
    failure E R (events (.obj [])) s.restart = some (.std "Callback returned false") ∧ fine E R (events (.obj [])) { St.init R with log := s.log } = true :=
  ⟨after_ok (by decide +kernel), by decide +kernel, by decide +kernel, by decide +kernel⟩

/-- C24_any_callbacks_documents_partial: a document in three pieces, read twice. -/
example :
    let s := left (parseDocument yajl noCb outer pieces nowhere (PSt.init yajl outer)) (PSt.init yajl outer)
    SameReading outer (parseDocument yajl picky outer [chunk text] (buffer text) s) (parseDocument yajl picky outer [chunk text] (buffer text) (PSt.new yajl outer s.st.log)) := by
  intro s
  refine C24_any_callbacks_documents_partial (j := doc) (bs := bytes text) (picky_blind _) (by decide +kernel) ?_ (by simp) (chunk_bytes _)
    (document_of (by decide +kernel) (by decide +kernel) (by decide +kernel)) (by decide +kernel) (chunk_last _)
  exact .doc doc .init (cs := pieces) (m := nowhere) (bs := bytes text) (by decide) (by decide +kernel)
    (document_of (by decide +kernel) (by decide +kernel) (by decide +kernel)) (by decide +kernel) (left_ok (by decide +kernel))

/-- C44_documents: `{"id": 1, "kind": "circle", "r": "x"}` was refused. -/
def taggedText : String := "{\"id\": 2, \"kind\": \"circle\", \"r\": 7}"
example :
    let s := left (feedText accepting tagged "{\"id\": 1, \"kind\": \"circle\", \"r\": \"x\"}" (PSt.init yajl tagged)) (PSt.init yajl tagged)
    SameReading tagged (parseDocument yajl picky tagged [chunk taggedText] (buffer taggedText) s)
      (parseDocument yajl picky tagged [chunk taggedText] (buffer taggedText) (PSt.new yajl tagged s.st.log)) := by
  intro s
  refine C44_documents (j := .obj [("id", .sc (.int 2)), ("kind", .sc (.str "circle")), ("r", .sc (.int 7))]) (bs := bytes taggedText) (picky_blind _)
    (by decide +kernel) tagged_arrFree ?_ (by simp) (chunk_bytes _) (document_of (by decide +kernel) (by decide +kernel) (by decide +kernel)) (chunk_last _)
  exact .refused .init (left_throw (x := .parsing "Unexpected token string" "parse error near {\"id\": 1, \"kind\": \"circle\", \"r\": \"x\"}") (by decide +kernel))

end Examples

end SJ
