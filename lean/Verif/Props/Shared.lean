/-
C55: a parser object may stand at several places of a tree, and callbacks may pop or reset any parser they have captured: the dispatcher, its stack and the errors stay in order.
-/
import Verif.Proofs.SharedId
import Verif.Proofs.Rename
import Verif.Props.Control
import Verif.DemoYajl

set_option linter.unusedVariables false

namespace SJ

namespace Shd

variable {ob : Path → Path} {E : FarEnv} {R : Shape} {Y : Yajl}

/-- C55. Whichever places share parser objects, whatever the callbacks look at, pop and answer, after any history any tokens are handled in finitely many steps, and without undefined
behaviour unless an array of the tree has a union as its element parser (C29). -/
theorem C55_run (pl : Places R ob) {s : St} (h : History ob R s) (ts : List Token) :
    run ob E R ts s ≠ .fuel ∧ (¬ HasUnionArray R → run ob E R ts s ≠ .ub) := by
  have := run_ctl (E := E) pl ts (h.ctl pl)
  constructor
  · intro hc; rw [hc] at this; exact this
  · intro hu hc; rw [hc] at this; exact hu this

/-- C55. The lowest current parser is the root, every other one is inside the one under it, all are in the tree, and there are never more than the tree is deep plus one. -/
theorem C55_stack (pl : Places R ob) {s : St} (h : History ob R s) :
    Stacked InsideOf s.stack ∧ (∀ p ∈ s.stack, InTree R p) ∧ s.stack.length ≤ R.height + 1 := by
  have hc : Ctl R (seen ob s) := h.ctl pl
  have h1 : Stacked InsideOf s.stack := hc.linked.mono fun _ _ => Link.inside
  refine ⟨h1, fun p hp => (hc.valid p hp).1, ?_⟩
  match hs : s.stack with
  | [] => simp
  | p :: r =>
    have h2 := Stacked.length (hs ▸ h1) rfl
    obtain ⟨sh, hR⟩ := (hc.valid p (show p ∈ s.stack by simp [hs])).1
    have := height_at p sh hR
    omega

/-- C55. No parser object is among the current parsers twice. -/
theorem C55_current_once (pl : Places R ob) {s : St} (h : History ob R s) : (s.stack.map ob).Nodup := by
  have hst := C55_stack pl h
  suffices ∀ l : List Path, Stacked InsideOf l → (∀ p ∈ l, InTree R p) → (l.map ob).Nodup from this _ hst.1 hst.2.1
  intro l
  induction l with
  | nil => intro _ _; exact List.nodup_nil
  | cons p l ih =>
    intro hs ht
    have hl : Stacked InsideOf l := by
      cases l with
      | nil => trivial
      | cons q r => exact hs.2
    rw [List.map_cons, List.nodup_cons]
    refine ⟨?_, ih hl fun q hq => ht q (by simp [hq])⟩
    intro hm
    obtain ⟨q, hq, he⟩ := List.mem_map.1 hm
    have hin := inside_all hs q hq
    obtain ⟨sh, hR⟩ := ht q (by simp [hq])
    have h1 := pl.same q p he
    obtain ⟨rel, rfl⟩ := hin.1
    have h2 := at_append R q rel
    rw [← h1, hR] at h2
    have h3 := height_at rel sh h2.symm
    have : rel.length = 0 := by omega
    have : rel = [] := List.length_eq_zero_iff.1 this
    subst this
    exact hin.2 rfl
where
  inside_all {p : Path} {l : List Path} (h : Stacked InsideOf (p :: l)) : ∀ q ∈ l, InsideOf p q := by
    induction l generalizing p with
    | nil => intro q hq; simp at hq
    | cons r l ih =>
      intro q hq
      rcases List.mem_cons.1 hq with rfl | hq
      · exact h.1
      · have h1 := ih h.2 q hq
        refine ⟨h1.1.trans h.1.1, ?_⟩
        rintro rfl
        exact h.1.2 (h.1.1.eq_of_length_le h1.1.length_le).symm

/-- C55. `parse()` of a readable buffer returns or throws a `ParsingError`; nothing else can happen, whatever happened before (for trees without arrays of unions). -/
theorem C55_parse (pl : Places R ob) {s : PSt Y} (h : Used Y ob R s) (hu : ¬ HasUnionArray R) {m : Mem} {p : Ptr} {len : Nat} (hm : (m.read p len).isSome = true) :
    (∃ s', parse ob E R Y m p len s = .ok () s') ∨ (∃ sj y s', parse ob E R Y m p len s = .throw (.parsing sj y) s') := by
  have hg := parse_good (E := E) (m := m) (p := p) (len := len) pl (h.ctl pl)
  cases hp : parse ob E R Y m p len s with
  | ok a s' => exact Or.inl ⟨s', rfl⟩
  | throw x s' =>
    rw [hp] at hg
    obtain ⟨_, sj, y, rfl⟩ := hg
    exact Or.inr ⟨sj, y, s', rfl⟩
  | ub =>
    rw [hp] at hg
    rcases hg with hg | hg
    · exact absurd hg hu
    · rw [hg] at hm; simp at hm
  | fuel => rw [hp] at hg; exact hg.elim

/-- C55. The same for `finish()`, as long as the buffer of the last `parse()` call exists. -/
theorem C55_finish (pl : Places R ob) {s : PSt Y} (h : Used Y ob R s) (hu : ¬ HasUnionArray R) {m : Mem} (hm : (m.read s.data s.len).isSome = true) :
    (∃ s', finishDoc ob E R Y m s = .ok () s' ∧ s'.st.stack = []) ∨ (∃ sj y s', finishDoc ob E R Y m s = .throw (.parsing sj y) s') := by
  have hg := finishDoc_good (E := E) (m := m) pl (h.ctl pl)
  cases hp : finishDoc ob E R Y m s with
  | ok a s' =>
    refine Or.inl ⟨s', rfl, ?_⟩
    unfold finishDoc P.bind at hp
    cases hc : yajlComplete ob E R Y { s with resetNeeded := true } with
    | ok good s1 =>
      rw [hc] at hp; simp only at hp
      split at hp
      · unfold checkDispatcherStack at hp
        split at hp
        · rename_i hst; injection hp with _ hp; subst hp; exact hst
        · simp at hp
      · unfold throwParsingError at hp
        split at hp <;> simp at hp
    | throw x s1 => rw [hc] at hp; simp at hp
    | ub => rw [hc] at hp; simp at hp
    | fuel => rw [hc] at hp; simp at hp
  | throw x s' =>
    rw [hp] at hg
    obtain ⟨_, sj, y, rfl⟩ := hg
    exact Or.inr ⟨sj, y, s', rfl⟩
  | ub =>
    rw [hp] at hg
    rcases hg with hg | hg
    · exact absurd hg hu
    · rw [hg] at hm; simp at hm
  | fuel => rw [hp] at hg; exact hg.elim

/-- C55. If every place has an object of its own and the callbacks keep to their arguments, `parse()`, `finish()` and the constructor do exactly what they do in the model of all the other claims. -/
theorem C55_unshared (E : Env) (m : Mem) (p : Ptr) (len : Nat) :
    parse id (far E) R Y m p len = SJ.parse Y E R m p len ∧ finishDoc id (far E) R Y m = SJ.finishDoc Y E R m ∧ start id R Y = PSt.init Y R :=
  ⟨parse_id m p len, finishDoc_id m, start_id⟩

/-- C55. A parser object has no identity beyond the places it stands at: however the objects are named, as long as the same places share an object, `parse()`, `finish()`, `pop()` and the constructor
have the same outcomes, the same callbacks are called and the objects at all places are left in the same states. -/
theorem C55_names {ob' : Path → Path} {E' : FarEnv} (hN : SameSharing ob ob') (hE : SameCallbacks ob ob' E E') {s s' : PSt Y} (h : SameParser ob ob' s s') :
    (∀ m p len, SameCallEnd ob ob' (parse ob E R Y m p len s) (parse ob' E' R Y m p len s')) ∧
    (∀ m, SameCallEnd ob ob' (finishDoc ob E R Y m s) (finishDoc ob' E' R Y m s')) ∧
    (∀ p, SameFate ob ob' (pop' (ob p) s.st) (pop' (ob' p) s'.st)) ∧
    SameParser ob ob' (start ob R Y) (start ob' R Y) := by
  refine ⟨fun m p len => BothP.parse hN hE m p len s s' h, fun m => BothP.finishDoc hN hE m s s' h, fun p => ?_, SameParser.start hN⟩
  exact Both.popVal hN p _ _ h.st

/-- C55. Therefore `C55_unshared` holds whenever no two places have the same object, whatever the objects are. -/
theorem C55_own_objects (hob : ∀ p q, ob p = ob q → p = q) {E : Env} {E' : FarEnv} (hE : SameCallbacks id ob (far E) E') {s s' : PSt Y} (h : SameParser id ob s s') :
    (∀ m p len, SameCallEnd id ob (SJ.parse Y E R m p len s) (parse ob E' R Y m p len s')) ∧
    (∀ m, SameCallEnd id ob (SJ.finishDoc Y E R m s) (finishDoc ob E' R Y m s')) ∧
    SameParser id ob (PSt.init Y R) (start ob R Y) := by
  have hN : SameSharing id ob := fun p q => ⟨fun h => by rw [show p = q from h], fun h => hob p q h⟩
  obtain ⟨h1, h2, _, h3⟩ := C55_names (R := R) hN hE h
  refine ⟨fun m p len => ?_, fun m => ?_, ?_⟩
  · have := h1 m p len; rw [parse_id] at this; exact this
  · have := h2 m; rw [finishDoc_id] at this; exact this
  · have := h3; rw [start_id] at this; exact this

theorem memberId_last (p : Path) (n : Nat) : ∀ k, n < k →
    memberId ob p (ob (.mem n :: p)) k < k ∧ ob (.mem (memberId ob p (ob (.mem n :: p)) k) :: p) = ob (.mem n :: p) ∧
    ∀ j, memberId ob p (ob (.mem n :: p)) k < j → j < k → ob (.mem j :: p) ≠ ob (.mem n :: p)
  | 0, h => by omega
  | k + 1, h => by
    unfold memberId
    split
    · rename_i he
      exact ⟨by omega, he, fun j h1 h2 => by omega⟩
    · rename_i he
      have hk : n ≠ k := by rintro rfl; exact he rfl
      obtain ⟨h1, h2, h3⟩ := memberId_last p n k (by omega)
      refine ⟨by omega, h2, fun j h4 h5 => ?_⟩
      by_cases hj : j = k
      · subst hj; exact he
      · exact h3 j h4 (by omega)

/-- C55. Which alternative a union reports: when a union that is the current parser gets the value that selects its alternative number `n`, the parser of this alternative becomes the current one, and
`currentMemberId()` will be the greatest number of an alternative that has the same parser object - `n` itself if no later alternative shares it. -/
theorem C55_alternative {s : St} {p : Path} {rest : List Path} {ty tm st ms v n sh} (hs : s.stack = p :: rest) (hR : R.at p = some (.union ty tm st ms))
    (hd : (s.heap (ob p)).disp = true) (hv : v.ty = ty) (hl : lookup v 0 ms = some (n, sh)) :
    ∃ s', dispatch ob E R (.scalar v) s = .ok () s' ∧ s'.stack = (.mem n :: p) :: s.stack ∧
      (s'.heap (ob p)).curId < ms.length ∧ ob (.mem (s'.heap (ob p)).curId :: p) = ob (.mem n :: p) ∧
      ∀ k, (s'.heap (ob p)).curId < k → k < ms.length → ob (.mem k :: p) ≠ ob (.mem n :: p) := by
  obtain ⟨i, hi⟩ := lookup_mem hl
  have hn : n < ms.length := (List.getElem?_eq_some_iff.1 hi).1
  have hdd : (resetH ob p (.union ty tm st ms) s.heap (ob p)).disp = true := by
    rw [(resetH_ctl (.union ty tm st ms) p s.heap (ob p)).1]; exact hd
  have hm := memberId_last (ob := ob) p n ms.length hn
  unfold Shd.dispatch
  simp only [hs, hR, Shd.on, hv, if_true, bind_modH]
  unfold Shd.onMember
  simp only [setNotEmpty_def, M.bind, modC, getC, hl, upd_same, hdd, if_true, pushParser, M.pure]
  refine ⟨_, rfl, by simp, ?_⟩
  simp only [upd_same]
  exact hm

/-! ### The hypotheses are met -/

section Examples
open Demo

theorem suffix_split {p d : Path} (h : d.isSuffixOf p = true) : p = p.take (p.length - d.length) ++ d := by
  obtain ⟨t, rfl⟩ := List.isSuffixOf_iff_suffix.1 h
  simp

theorem alsoAt_inside (src dst rel : Path) : alsoAt src dst id (rel ++ dst) = rel ++ src := by
  unfold alsoAt
  rw [if_pos (List.isSuffixOf_iff_suffix.2 ⟨rel, rfl⟩)]
  simp

theorem alsoAt_outside {src dst p : Path} (h : ¬ dst <:+ p) : alsoAt src dst id p = p := by
  unfold alsoAt
  rw [if_neg (fun h' => h (List.isSuffixOf_iff_suffix.1 h'))]; rfl

/-- One parser given by reference to two places of the same type, none of which is inside the other. -/
theorem alsoAt_places {R : Shape} {src dst : Path} (hR : R.at src = R.at dst) (h1 : ¬ src <:+ dst) (h2 : ¬ dst <:+ src) : Places R (alsoAt src dst id) := by
  have apart : ∀ rel : Path, ¬ dst <:+ rel ++ src := by
    intro rel h
    rcases List.suffix_or_suffix_of_suffix h (List.suffix_append rel src) with h | h
    · exact h2 h
    · exact h1 h
  have shape : ∀ p, R.at (alsoAt src dst id p) = R.at p := by
    intro p
    by_cases h : dst <:+ p
    · obtain ⟨rel, rfl⟩ := h
      rw [alsoAt_inside, at_append, at_append, hR]
    · rw [alsoAt_outside h]
  have name : ∀ p, alsoAt src dst id (alsoAt src dst id p) = alsoAt src dst id p := by
    intro p
    by_cases h : dst <:+ p
    · obtain ⟨rel, rfl⟩ := h
      rw [alsoAt_inside, alsoAt_outside (apart rel)]
    · rw [alsoAt_outside h, alsoAt_outside h]
  have down : ∀ p st, (dst <:+ p ∨ ¬ dst <:+ st :: p) → alsoAt src dst id (st :: p) = st :: alsoAt src dst id p := by
    intro p st h
    rcases h with ⟨rel, rfl⟩ | h
    · rw [alsoAt_inside, ← List.cons_append, alsoAt_inside, List.cons_append]
    · rw [alsoAt_outside h, alsoAt_outside fun h' => h (h'.trans (List.suffix_cons _ _))]
  refine ⟨fun p q h => ?_, fun p q st h => ?_, name⟩
  · rw [← shape p, ← shape q, h]
  · by_cases hp : dst <:+ p ∨ ¬ dst <:+ st :: p
    · by_cases hq : dst <:+ q ∨ ¬ dst <:+ st :: q
      · rw [down p st hp, down q st hq, h]
      · have hq' := not_or.1 hq
        obtain ⟨hq1, hq2⟩ := hq'
        have hq2 : st :: q = dst := by
          rcases List.suffix_cons_iff.1 (Classical.not_not.1 hq2) with e | e
          · exact e.symm
          · exact absurd e hq1
        rw [alsoAt_outside hq1] at h
        rcases hp with ⟨rel, rfl⟩ | hp
        · rw [alsoAt_inside] at h
          exact absurd (by rw [← hq2, ← h]; exact (List.suffix_append rel src).trans (List.suffix_cons _ _)) h1
        · rw [alsoAt_outside fun h' => hp (h'.trans (List.suffix_cons _ _))] at h
          subst h; rfl
    · have hp' := not_or.1 hp
      obtain ⟨hp1, hp2⟩ := hp'
      have hp2 : st :: p = dst := by
        rcases List.suffix_cons_iff.1 (Classical.not_not.1 hp2) with e | e
        · exact e.symm
        · exact absurd e hp1
      rw [alsoAt_outside hp1] at h
      by_cases hq : dst <:+ q
      · obtain ⟨rel, rfl⟩ := hq
        rw [alsoAt_inside] at h
        exact absurd (by rw [← hp2, h]; exact (List.suffix_append rel src).trans (List.suffix_cons _ _)) h1
      · rw [alsoAt_outside hq] at h
        subst h; rfl

/-- Two mandatory members with the same parser, and a third one: `Value<std::string> name; Object{tuple{Member{"first", name}, Member{"last", name}, Member{"list", SArray{name}}}}`. -/
def names : Shape := .object .plain true
  [({ name := .str "first" }, .value .str), ({ name := .str "last" }, .value .str), ({ name := .str "list", optional := true }, .array true (.value .str))]

def oneName : Path → Path := alsoAt [.mem 0] [.mem 1] id

theorem oneName_places : Places names oneName := alsoAt_places rfl (by decide) (by decide)

/-- A callback of the list (which gets the list) that takes away the value of the name. -/
def thief : FarEnv := { onFinish := fun p => if p = [.mem 2] then some fun _ _ _ => { acts := [.pop [.mem 1]] } else none, onElement := fun _ => none, fmtDbl := fun _ => "" }

def quiet : FarEnv := { onFinish := fun _ => none, onElement := fun _ => none, fmtDbl := fun _ => "" }

def afterS (ob : Path → Path) (E : FarEnv) (R : Shape) (ts : List Token) (s : St) : St :=
  match run ob E R ts s with
  | .ok _ s' => s'
  | .throw _ s' => s'
  | _ => s

def fineS (ob : Path → Path) (E : FarEnv) (R : Shape) (ts : List Token) (s : St) : Bool :=
  match run ob E R ts s with
  | .ok _ _ => true
  | _ => false

def failureS (ob : Path → Path) (E : FarEnv) (R : Shape) (ts : List Token) (s : St) : Option Exn :=
  match run ob E R ts s with
  | .throw e _ => some e
  | _ => none

theorem afterS_ok {ob E R ts s} (h : fineS ob E R ts s = true) : run ob E R ts s = .ok () (afterS ob E R ts s) := by
  unfold fineS at h; unfold afterS
  cases hr : run ob E R ts s with
  | ok a s' => rfl
  | throw e s' => rw [hr] at h; simp at h
  | ub => rw [hr] at h; simp at h
  | fuel => rw [hr] at h; simp at h

theorem afterS_throw {ob E R ts s e} (h : failureS ob E R ts s = some e) : run ob E R ts s = .throw e (afterS ob E R ts s) := by
  unfold failureS at h; unfold afterS
  cases hr : run ob E R ts s with
  | ok a s' => rw [hr] at h; simp at h
  | throw e s' => rw [hr] at h; simp at h; subst h; rfl
  | ub => rw [hr] at h; simp at h
  | fuel => rw [hr] at h; simp at h

def docFirst : List Token := events (.obj [("first", .sc (.str "x"))])
def docThief : List Token := events (.obj [("first", .sc (.str "x")), ("list", .arr [.sc (.str "y")])])

/-- A document, one whose name is taken away, the middle of one. -/
def sShared : St := afterS oneName thief names [.mapStart, .mapKey "list", .arrStart]
  (afterS oneName thief names docThief (afterS oneName quiet names docFirst (init oneName names)).restart).restart

theorem sShared_history : History oneName names sShared := by
  refine .tokens (E := thief) [.mapStart, .mapKey "list", .arrStart] (.restart (.failed (E := thief) docThief (.std "Mandatory member last is not present")
    (.restart (.tokens (E := quiet) docFirst .init (afterS_ok ?_))) (afterS_throw ?_))) (afterS_ok ?_) <;> decide +kernel

example : sShared.stack = [[.mem 2], []] ∧ run oneName thief names [.scalar (.str "z"), .arrEnd, .mapEnd, .mapEnd] sShared ≠ .ub :=
  ⟨by decide +kernel, (C55_run oneName_places sShared_history _).2 (noUnionArray_sound (by decide +kernel))⟩

example : sShared.stack.length ≤ names.height + 1 := (C55_stack oneName_places sShared_history).2.2

example : Used yajl oneName names (start oneName names yajl) := .init

example : (∃ s', parse oneName thief names yajl (buffer "{\"first\": 7}") (some 0) 12 (start oneName names yajl) = .ok () s') ∨
    (∃ sj y s', parse oneName thief names yajl (buffer "{\"first\": 7}") (some 0) 12 (start oneName names yajl) = .throw (.parsing sj y) s') :=
  C55_parse oneName_places .init (noUnionArray_sound (by decide +kernel)) (by decide +kernel)

/-- What sharing does to the values: one of two mandatory members that share a parser is enough, where two parsers of their own would not be; and both show the same value. -/
theorem shared_members_witness :
    fineS oneName quiet names docFirst (init oneName names) = true ∧
    failureS id quiet names docFirst (init id names) = some (.std "Mandatory member last is not present") ∧
    ((afterS oneName quiet names docFirst (init oneName names)).heap (oneName [.mem 1])).val = .sc (.str "x") :=
  ⟨by decide +kernel, by decide +kernel, rfl⟩

/-- A callback of a name that resets the whole tree while it is in the middle of an object: the name is lost, and the object counts as empty. -/
def eraser (place : Path) : FarEnv :=
  { onFinish := fun p => if p = place then some fun _ _ _ => { acts := [.reset []] } else none, onElement := fun _ => none, fmtDbl := fun _ => "" }

example : fineS oneName (eraser [.mem 0]) names docFirst (init oneName names) = true ∧
    ((afterS oneName (eraser [.mem 0]) names docFirst (init oneName names)).heap []).set = false := by decide +kernel

example : run oneName (eraser [.elem, .mem 2]) names docThief (init oneName names) ≠ .ub :=
  (C55_run oneName_places .init _).2 (noUnionArray_sound (by decide +kernel))

/-- Two alternatives with the same parser: `Union<std::string>{"type", tuple{Member{"a", body}, Member{"b", body}}}`. -/
def either : Shape := .union .str "type" false [({ name := .str "a" }, circle), ({ name := .str "b" }, circle)]
def oneBody : Path → Path := alsoAt [.mem 0] [.mem 1] id

/-- A union two of whose alternatives share a parser reports the last of them, whichever was selected. -/
theorem shared_alternatives_witness :
    Places either oneBody ∧
    fineS oneBody quiet either (events (.obj [("type", .sc (.str "a")), ("r", .sc (.int 1))])) (init oneBody either) = true ∧
    ((afterS oneBody quiet either (events (.obj [("type", .sc (.str "a")), ("r", .sc (.int 1))])) (init oneBody either)).heap []).curId = 1 ∧
    ((afterS id quiet either (events (.obj [("type", .sc (.str "a")), ("r", .sc (.int 1))])) (init id either)).heap []).curId = 0 :=
  ⟨alsoAt_places rfl (by decide) (by decide), by decide +kernel, by decide +kernel, by decide +kernel⟩

example : ∃ s', dispatch oneBody quiet either (.scalar (.str "a")) (afterS oneBody quiet either [.mapStart, .mapKey "type"] (init oneBody either)) = .ok () s' ∧
    s'.stack = [[.mem 0], []] := by
  obtain ⟨s', h1, h2, _⟩ := C55_alternative (ob := oneBody) (E := quiet) (R := either) (v := .str "a") (n := 0) (sh := circle)
    (s := afterS oneBody quiet either [.mapStart, .mapKey "type"] (init oneBody either)) (p := []) (rest := []) (by decide +kernel) rfl (by decide +kernel) rfl rfl
  exact ⟨s', h1, by rw [h2]; decide +kernel⟩

/-- Either place can give the shared object its name. -/
theorem alsoAt_either {src dst : Path} (h1 : ¬ src <:+ dst) (h2 : ¬ dst <:+ src) : SameSharing (alsoAt src dst id) (alsoAt dst src id) := by
  have comp : ∀ {a b : Path}, ¬ a <:+ b → ¬ b <:+ a → ∀ p, alsoAt b a id (alsoAt a b id p) = alsoAt b a id p := by
    intro a b h1 h2 p
    by_cases h : b <:+ p
    · obtain ⟨rel, rfl⟩ := h
      rw [alsoAt_inside, alsoAt_inside, alsoAt_outside]
      intro h
      rcases List.suffix_or_suffix_of_suffix h (List.suffix_append rel b) with h | h
      · exact h1 h
      · exact h2 h
    · rw [alsoAt_outside h]
  intro p q
  constructor
  · intro h; rw [← comp h1 h2 p, ← comp h1 h2 q, h]
  · intro h; rw [← comp h2 h1 p, ← comp h2 h1 q, h]

def oneName' : Path → Path := alsoAt [.mem 1] [.mem 0] id

example : oneName ≠ oneName' ∧ SameSharing oneName oneName' ∧ SameCallbacks oneName oneName' thief thief :=
  ⟨fun h => absurd (congrFun h [.mem 0]) (by decide +kernel), alsoAt_either (by decide) (by decide),
   { finish := fun p => by
      have : oneName p = [.mem 2] ↔ oneName' p = [.mem 2] := by
        have := alsoAt_either (src := [.mem 0]) (dst := [.mem 1]) (by decide) (by decide) p [.mem 2]
        rwa [show alsoAt [.mem 0] [.mem 1] id [.mem 2] = [.mem 2] from by decide +kernel, show alsoAt [.mem 1] [.mem 0] id [.mem 2] = [.mem 2] from by decide +kernel] at this
      by_cases h : oneName p = [.mem 2]
      · right
        exact ⟨fun _ _ _ => { acts := [.pop [.mem 1]] }, fun _ _ _ => { acts := [.pop [.mem 1]] }, by simp only [thief, h, if_true], by simp only [thief, this.1 h, if_true], fun _ _ _ _ _ _ _ => rfl⟩
      · left
        exact ⟨by simp [thief, h], by simp [thief, mt this.2 h]⟩
     element := fun p => Or.inl ⟨rfl, rfl⟩
     fmt := rfl }⟩

/-- A `Value` given by reference to a member and to an array: the member's dispatcher makes it pop the array when the array's first element is parsed; the second element is then unexpected. With a
parser of its own the array reads both. -/
def inList : Path → Path := alsoAt [.mem 0] [.elem, .mem 2] id
def docList : List Token := events (.obj [("first", .sc (.str "x")), ("last", .sc (.str "y")), ("list", .arr [.sc (.str "a"), .sc (.str "b")])])

theorem shared_array_witness :
    Places names inList ∧ failureS inList quiet names docList (init inList names) = some (.std "Unexpected token string") ∧ fineS id quiet names docList (init id names) = true :=
  ⟨alsoAt_places rfl (by decide) (by decide), by decide +kernel, by decide +kernel⟩

end Examples

end Shd

end SJ
