/-
Getting to a parser of the tree with the tokens of a document.
-/
import Verif.SpecAccess
import Verif.Proofs.Open
import Verif.Proofs.AlikeRun
import Verif.Proofs.Conform

set_option linter.unusedVariables false

namespace SJ

variable {E : Env} {R : Shape}

theorem setDispH_array_elem {p st e h} (hR : R.at p = some (.array st e)) {q st' e'} (hq : R.at q = some (.array st' e')) (hne : q ≠ p) :
    (setDispH (.elem :: p) e h (.elem :: q)).disp = (h (.elem :: q)).disp := by
  have hRe := at_elem_array hR
  rcases Bool.eq_false_or_eq_true (h (.elem :: q)).disp with hd | hd
  · rw [hd]; exact (setDispH_only _ _ _).mono hd
  · rw [hd]
    rcases Bool.eq_false_or_eq_true (setDispH (.elem :: p) e h (.elem :: q)).disp with hd' | hd'
    · exfalso
      rcases setDispH_disp e _ h _ hd' with hx | hx
      · rw [hd] at hx; simp at hx
      · rcases hx.not_elem hRe with hy | ⟨s, q', sh', h1, h2, h3⟩
        · simp at hy; exact hne hy
        · simp at h1; obtain ⟨rfl, rfl⟩ := h1
          rw [hq] at h2; simp at h2
          exact h3 _ _ h2.symm
    · exact hd'

/-- The stack `stk` when a value of `p` is expected: `p` is on top, or the array it is the element of. -/
inductive Position (R : Shape) (p : Path) : List Path → Bool → Prop
  | direct {rest} : Position R p (p :: rest) false
  | element {q rest st e} : p = .elem :: q → R.at q = some (.array st e) → Position R p (q :: rest) true

/-- The state `s1` after getting to `p` from `s`. -/
structure Got (R : Shape) (p : Path) (s s1 : St) (stk : List Path) (via : Bool) : Prop where
  stack : s1.stack = stk
  closed : DClosed R s1.heap
  keep : ∀ q, Below p q → (s1.heap q).started = (s.heap q).started
  velem : ∀ q st e, Below p q → R.at q = some (.array st e) → (s1.heap (.elem :: q)).disp = (s.heap (.elem :: q)).disp
  log : s1.log = s.log
  direct : via = false → (s1.heap p).disp = true
  array : via = true → ∀ q, p = .elem :: q → (s1.heap q).disp = true ∧ (s1.heap q).started = true

/-- Between documents; the arrays above `p` are not in the middle of their elements. -/
structure Sets (R : Shape) (p : Path) (s : St) : Prop where
  stack : s.stack = [[]]
  disp : (s.heap []).disp = true
  closed : DClosed R s.heap
  idle : ∀ q b e, R.at q = some (.array b e) → Below q p → q ≠ p → (s.heap q).started = false

/-- The tokens `a` get to `p`. -/
def Gets (E : Env) (R : Shape) (p : Path) (a : List Token) (stk : List Path) (via : Bool) : Prop :=
  Position R p stk via ∧ ∀ s, Sets R p s → ∃ s1, run E R a s = .ok () s1 ∧ Got R p s s1 stk via

theorem below_up {q p : Path} {st} (h : Below q p) : Below q (st :: p) := h.trans (Below.cons _ _)

theorem Sets.up {p s st} (h : Sets R (st :: p) s) : Sets R p s :=
  ⟨h.stack, h.disp, h.closed, fun q b e hR hq hne => h.idle q b e hR (below_up hq) (fun e => by
    subst e; exact below_self_cons hq)⟩

theorem Sets.parent {p s st b e} (h : Sets R (st :: p) s) (hR : R.at p = some (.array b e)) : (s.heap p).started = false :=
  h.idle p b e hR (Below.cons _ _) (by intro e; have := congrArg List.length e; simp at this)

/-- One more token on the way. -/
theorem run_snoc {a : List Token} {t : Token} {s s1 s2 : St} (h : run E R a s = .ok () s1) (h' : dispatch E R t s1 = .ok () s2) :
    run E R (a ++ [t]) s = .ok () s2 := by
  rw [run_append, bind_ok h, run_cons, bind_ok h']; rfl

/-- A change of the heap that matters to nobody below. -/
theorem Got.change {p s s1 s2 stk via} (g : Got R p s s1 stk via) {stk' via'} (hs : s2.stack = stk') (hc : SameCtl s1.heap s2.heap) (hl : s2.log = s1.log)
    (hv : via' = false → (s1.heap p).disp = true) (ha : via' = true → ∀ q, p = .elem :: q → (s1.heap q).disp = true ∧ (s1.heap q).started = true) :
    Got R p s s2 stk' via' :=
  ⟨hs, g.closed.ctl hc, fun q hq => by rw [(hc q).2]; exact g.keep q hq, fun q st e hq hR => by rw [(hc _).1]; exact g.velem q st e hq hR,
    hl.trans g.log, fun h => by rw [(hc _).1]; exact hv h, fun h q e => by rw [(hc _).1, (hc _).2]; exact ha h q e⟩

/-- The parsers that read fields. -/
def Shape.keyed : Shape → Bool
  | .object _ _ _ => true
  | .map _ _ => true
  | .union _ tm _ _ => tm ≠ ""
  | _ => false

theorem onF_mapStart {sh p} (h : sh.keyed = true) (s : St) : onF E R sh p .mapStart s = .ok () { s with heap := resetH p sh s.heap } := by
  cases sh with
  | object k u ms => rfl
  | map b e => rfl
  | union ty tm st ms =>
    simp [Shape.keyed] at h
    simp only [onF, if_neg h]; rfl
  | _ => simp [Shape.keyed] at h

/-- The stack after the opening token. -/
def openedStack (p : Path) (stk : List Path) : Bool → List Path
  | true => p :: stk
  | false => stk

theorem Position.opened {p stk via} (h : Position R p stk via) : ∃ rest, openedStack p stk via = p :: rest := by
  cases h with
  | direct => exact ⟨_, rfl⟩
  | element _ _ => exact ⟨_, rfl⟩

/-- Entering the element of an array. -/
theorem enter_got {p s s1 stk e} (g : Got R p s s1 stk true) (hp : Position R p stk true) (hR : R.at p = some e) {t} (ht : t = .mapStart ∨ t = .arrStart) :
    ∃ s2, dispatch E R t s1 = onF E R e p t s2 ∧ Got R p s s2 (p :: stk) false := by
  cases hp with
  | @element q rest st e' hpq hRq =>
    subst hpq
    obtain ⟨hd, hst⟩ := g.array rfl q rfl
    have he : e' = e := by rw [at_elem_array hRq] at hR; injection hR
    subst he
    refine ⟨{ s1 with heap := setDispH (.elem :: q) e' (s1.heap.upd q fun c => { c with empty := false }), stack := (.elem :: q) :: s1.stack }, ?_, ?_⟩
    · rw [dispatch_cons g.stack hRq]
      rcases ht with rfl | rfl <;>
      · simp only [onF, bind_getC, hst, hd, Bool.not_true, Bool.false_eq_true, if_false]
        rfl
    · have hup : SameCtl s1.heap (s1.heap.upd q fun c => { c with empty := false }) := SameCtl.upd fun _ => ⟨rfl, rfl⟩
      refine ⟨by dsimp only; rw [g.stack], ?_, fun r hr => ?_, fun r st' e'' hr hRr => ?_, g.log, fun _ => setDispH_self _ _ _, by simp⟩
      · exact (g.closed.ctl hup).setDispH hR
      · dsimp only; rw [(setDispH_only _ _ _).started, (hup r).2]; exact g.keep r hr
      · dsimp only
        rw [setDispH_array_elem hRq hRr (by rintro rfl; exact below_self_cons hr), (hup _).1]
        exact g.velem r st' e'' hr hRr

/-- Opening an object. -/
theorem open_got {p s s1 stk via sh} (g : Got R p s s1 stk via) (hp : Position R p stk via) (hR : R.at p = some sh) (hk : sh.keyed = true) :
    ∃ s2, dispatch E R .mapStart s1 = .ok () s2 ∧ Got R p s s2 (openedStack p stk via) false := by
  cases via with
  | false =>
    cases hp with
    | @direct rest =>
      refine ⟨{ s1 with heap := resetH p sh s1.heap }, by rw [dispatch_cons g.stack hR, onF_mapStart hk], ?_⟩
      exact g.change g.stack (resetH_ctl _ _ _) rfl (fun _ => g.direct rfl) (by simp)
  | true =>
    obtain ⟨s2, h1, g2⟩ := enter_got (E := E) g hp hR (t := .mapStart) (.inl rfl)
    refine ⟨{ s2 with heap := resetH p sh s2.heap }, by rw [h1, onF_mapStart hk], ?_⟩
    exact g2.change g2.stack (resetH_ctl _ _ _) rfl (fun _ => g2.direct rfl) (by simp)

/-- Opening it if it is not yet. -/
def opener : Bool → List Token
  | false => [.mapStart]
  | true => []

/-- The way to the fields of `p`: `p` is on top. -/
structure In (E : Env) (R : Shape) (p : Path) (a : List Token) (rest : List Path) : Prop where
  gets : ∀ s, Sets R p s → ∃ s1, run E R a s = .ok () s1 ∧ Got R p s s1 (p :: rest) false
  fields : ∀ sh fs, R.at p = some sh → okFields sh fs = true → ∃ j z, okVal R j = true ∧ events j = a ++ fieldEvents fs ++ z

/-- What is known of an accessible parser. `a`: the tokens of the way. -/
structure Way (E : Env) (R : Shape) (p : Path) (a : List Token) (stk : List Path) (via : Bool) : Prop where
  gets : Gets E R p a stk via
  value : ∀ sh v, R.at p = some sh → okVal sh v = true → v.composite = true → ∃ j z, okVal R j = true ∧ events j = a ++ events v ++ z

theorem Way.enter {p a stk via sh rest} (h : Way E R p a stk via) (hR : R.at p = some sh) (hk : sh.keyed = true)
    (hrest : openedStack p stk via = p :: rest) : In E R p (a ++ [.mapStart]) rest := by
  refine ⟨fun s hs => ?_, fun sh' fs hR' hf => ?_⟩
  · obtain ⟨s1, h1, g1⟩ := h.gets.2 s hs
    obtain ⟨s2, h2, g2⟩ := open_got (E := E) g1 h.gets.1 hR hk
    exact ⟨s2, run_snoc h1 h2, hrest ▸ g2⟩
  · rw [hR] at hR'; injection hR' with hR'; subst hR'
    obtain ⟨j, z, h1, h2⟩ := h.value sh (.obj fs) hR (by cases sh <;> simp_all [Shape.keyed, okVal]) rfl
    exact ⟨j, .mapEnd :: z, h1, by rw [h2]; simp [events]⟩

theorem child_user (hw : R.wf = true) {p sh st m} (hR : R.at p = some sh) (hi : sh.isUser = true) (hm : sh.child st = some m) (hst : st ≠ .ign) : m.isUser = true := by
  rcases wf_at hw p sh hR with h | rfl
  · rcases wf_child h hm with h' | h'
    · exact wf_user h'
    · exact absurd h' hst
  · simp [Shape.isUser] at hi

theorem embedded_composite {m : Shape} {v : Json} (h : v.composite = true) : embedded m v = none := by
  cases v <;> first | (simp [Json.composite] at h; done) | (cases m <;> rfl)

theorem Got.below {p s s1 stk via st} (g : Got R p s s1 stk via) : (∀ q, Below (st :: p) q → (s1.heap q).started = (s.heap q).started) ∧
    (∀ q st' e, Below (st :: p) q → R.at q = some (.array st' e) → (s1.heap (.elem :: q)).disp = (s.heap (.elem :: q)).disp) :=
  ⟨fun q hq => g.keep q ((Below.cons _ _).trans hq), fun q st' e hq => g.velem q st' e ((Below.cons _ _).trans hq)⟩

theorem ctl_upd2 {h h' : Heap} (hc : SameCtl h h') {p q : Path} {f g : Cell → Cell} (hf : ∀ c, (f c).disp = c.disp ∧ (f c).started = c.started)
    (hg : ∀ c, (g c).disp = c.disp ∧ (g c).started = c.started) : SameCtl h ((h'.upd p f).upd q g) :=
  (hc.trans (SameCtl.upd hf)).trans (SameCtl.upd hg)

/-- Pushing a child. -/
theorem Got.push {p s s1 stk via st sh m} (g : Got R p s s1 stk via) (hd : (s1.heap p).disp = true) (hR : R.at p = some sh)
    (hm : sh.child st = some m) (ha : ∀ b e, sh ≠ .array b e) {s2 : St} {rest} (hs : s2.stack = (st :: p) :: rest) (hc : SameCtl s1.heap s2.heap)
    (hl : s2.log = s1.log) : Got R (st :: p) s s2 ((st :: p) :: rest) false := by
  refine ⟨hs, g.closed.ctl hc, fun q hq => by rw [(hc q).2]; exact g.below.1 q hq, fun q st e hq hRq => by rw [(hc _).1]; exact g.below.2 q st e hq hRq,
    hl.trans g.log, fun _ => ?_, by simp⟩
  rw [(hc _).1]
  exact g.closed p sh st m hR hd ha hm

/-- A member of an object. -/
theorem member_got {p s s1 rest k u ms key n m} (g : Got R p s s1 (p :: rest) false) (hR : R.at p = some (.object k u ms))
    (hl : lookup (.str key) 0 ms = some (n, m)) :
    ∃ s2, dispatch E R (.mapKey key) s1 = .ok () s2 ∧ Got R (.mem n :: p) s s2 ((.mem n :: p) :: p :: rest) false := by
  obtain ⟨i, hi⟩ := lookup_mem hl
  have hd := g.direct rfl
  refine ⟨{ s1 with heap := s1.heap.upd p fun c => { c with empty := false }, stack := (.mem n :: p) :: s1.stack }, ?_, ?_⟩
  · rw [dispatch_cons g.stack hR]
    simp only [onF, onMember, hl, setNotEmpty_def, bind_assoc]
    rw [bind_modC, bind_getC]
    simp only [upd_same, hd, if_true, bind_assoc, bind_push]
    rfl
  · exact g.push hd hR (st := .mem n) (m := m) (by simp [Shape.child, hi]) (by intros; simp) (by dsimp only; rw [g.stack]) (SameCtl.upd fun _ => ⟨rfl, rfl⟩) rfl

/-- The element of a map. -/
theorem entry_got {p s s1 rest b e} (key : String) (g : Got R p s s1 (p :: rest) false) (hR : R.at p = some (.map b e)) :
    ∃ s2, dispatch E R (.mapKey key) s1 = .ok () s2 ∧ Got R (.elem :: p) s s2 ((.elem :: p) :: p :: rest) false := by
  have hd := g.direct rfl
  refine ⟨{ s1 with heap := (s1.heap.upd p fun c => { c with empty := false }).upd p fun c => { c with curKey := key }, stack := (.elem :: p) :: s1.stack }, ?_, ?_⟩
  · rw [dispatch_cons g.stack hR]
    simp only [onF, setNotEmpty_def]
    rw [bind_modC, bind_getC]
    simp only [upd_same, hd, if_true, bind_push]
    rfl
  · exact g.push hd hR (st := .elem) (m := e) rfl (by intros; simp) (by dsimp only; rw [g.stack])
      (ctl_upd2 (SameCtl.refl _) (fun _ => ⟨rfl, rfl⟩) (fun _ => ⟨rfl, rfl⟩)) rfl

/-- The type value of a union. -/
theorem type_got {p s s1 rest ty tm st ms x n m} (g : Got R p s s1 (p :: rest) false) (hR : R.at p = some (.union ty tm st ms)) (hx : x.ty = ty)
    (hl : lookup x 0 ms = some (n, m)) :
    ∃ s2, dispatch E R (.scalar x) s1 = .ok () s2 ∧ Got R (.mem n :: p) s s2 ((.mem n :: p) :: p :: rest) false := by
  obtain ⟨i, hi⟩ := lookup_mem hl
  have hd := g.direct rfl
  have hd0 : (resetH p (.union ty tm st ms) s1.heap p).disp = true := by rw [(resetH_ctl _ _ _ _).1]; exact hd
  refine ⟨{ s1 with heap := ((resetH p (.union ty tm st ms) s1.heap).upd p fun c => { c with empty := false }).upd p fun c => { c with curId := n },
                    stack := (.mem n :: p) :: s1.stack }, ?_, ?_⟩
  · rw [dispatch_cons g.stack hR]
    simp only [onF, hx, if_true, onMember, hl, setNotEmpty_def, bind_assoc, bind_modH]
    rw [bind_modC, bind_getC]
    simp only [upd_same, hd0, if_true, bind_assoc, bind_push]
    rfl
  · exact g.push hd hR (st := .mem n) (m := m) (by simp [Shape.child, hi]) (by intros; simp) (by dsimp only; rw [g.stack])
      (ctl_upd2 (resetH_ctl _ _ _) (fun _ => ⟨rfl, rfl⟩) (fun _ => ⟨rfl, rfl⟩)) rfl

/-- The name of the type member of a union. -/
theorem typeName_got {p s s1 rest ty tm st ms} (g : Got R p s s1 (p :: rest) false) (hR : R.at p = some (.union ty tm st ms)) (ht : tm ≠ "") :
    dispatch E R (.mapKey tm) s1 = .ok () s1 := by
  rw [dispatch_cons g.stack hR]
  simp only [onF, if_neg ht, ne_eq, not_true_eq_false, if_false]
  rfl

/-- The opening bracket of an idle array. -/
theorem onF_arrStart {p b e} (s : St) (h : (s.heap p).started = false) :
    onF E R (.array b e) p .arrStart s = .ok () { s with heap := (resetH p (.array b e) s.heap).upd p fun c => { c with started := true } } := by
  simp only [onF, bind_getC, h, Bool.not_false, if_true, bind_modH]
  rfl

/-- Into an array. -/
theorem array_got {p s s1 stk via b e} (g : Got R p s s1 stk via) (hp : Position R p stk via) (hR : R.at p = some (.array b e))
    (hi : (s.heap p).started = false) :
    ∃ s2, dispatch E R .arrStart s1 = .ok () s2 ∧ Got R (.elem :: p) s s2 (openedStack p stk via) true ∧
      (s2.heap (.elem :: p)).disp = (s.heap (.elem :: p)).disp := by
  have key : ∀ s2 stk', Got R p s s2 stk' false →
      Got R (.elem :: p) s { s2 with heap := (resetH p (.array b e) s2.heap).upd p fun c => { c with started := true } } stk' true ∧
      (((resetH p (.array b e) s2.heap).upd p fun c => { c with started := true }) (.elem :: p)).disp = (s.heap (.elem :: p)).disp := by
    intro s2 stk' g2
    have hr := resetH_ctl (.array b e) p s2.heap
    have hu : ∀ q, (((resetH p (.array b e) s2.heap).upd p fun c => { c with started := true }) q).disp = (s2.heap q).disp := by
      intro q
      by_cases hq : q = p
      · subst hq; rw [upd_same]; exact (hr q).1
      · rw [upd_other hq]; exact (hr q).1
    refine ⟨⟨g2.stack, g2.closed.congr hu, fun q hq => ?_, fun q st e hq hRq => ?_, g2.log, by simp, fun _ q hq => ?_⟩, (hu _).trans (g2.velem p b e (Below.refl _) hR)⟩
    · have hne : q ≠ p := by rintro rfl; exact below_self_cons hq
      dsimp only
      rw [upd_other hne, (hr q).2]
      exact g2.below.1 q hq
    · dsimp only
      rw [hu]; exact g2.below.2 q st e hq hRq
    · simp at hq; subst hq
      refine ⟨by dsimp only; rw [hu]; exact g2.direct rfl, by dsimp only; rw [upd_same]⟩
  cases via with
  | false =>
    cases hp with
    | @direct rest =>
      refine ⟨_, ?_, key s1 _ g⟩
      rw [dispatch_cons g.stack hR]
      exact onF_arrStart s1 (by rw [g.keep p (Below.refl _), hi])
  | true =>
    obtain ⟨s2, h1, g2⟩ := enter_got (E := E) g hp hR (t := .arrStart) (.inr rfl)
    exact ⟨_, by rw [h1]; exact onF_arrStart s2 (by rw [g2.keep p (Below.refl _), hi]), key s2 _ g2⟩

/-! ### The ways -/

theorem way_root : Way E R [] [] [[]] false :=
  ⟨⟨.direct, fun s hs => ⟨s, rfl, hs.stack, hs.closed, fun _ _ => rfl, fun _ _ _ _ _ => rfl, rfl, fun _ => hs.disp, by simp⟩⟩,
    fun sh v hR hv _ => ⟨v, [], by simp [Shape.at] at hR; subst hR; exact hv, by simp⟩⟩

theorem In.member (hw : R.wf = true) {p a rest k u ms key n m} (h : In E R p a rest) (hR : R.at p = some (.object k u ms))
    (hl : lookup (.str key) 0 ms = some (n, m)) : Way E R (.mem n :: p) (a ++ [.mapKey key]) ((.mem n :: p) :: p :: rest) false := by
  obtain ⟨i, hi⟩ := lookup_mem hl
  refine ⟨⟨.direct, fun s hs => ?_⟩, fun sh v hR' hv hc => ?_⟩
  · obtain ⟨s1, h1, g1⟩ := h.gets s hs.up
    obtain ⟨s2, h2, g2⟩ := member_got (E := E) g1 hR hl
    exact ⟨s2, run_snoc h1 h2, g2⟩
  · have hm : (Shape.object k u ms).child (.mem n) = some m := by simp [Shape.child, hi]
    rw [at_mem_object hR hi] at hR'; injection hR' with hR'; subst hR'
    obtain ⟨j, z, h1, h2⟩ := h.fields _ [(key, v)] hR (by
      simp only [okFields, hl, embedded_composite hc, hv, child_user hw hR rfl hm (by simp), Bool.and_self])
    exact ⟨j, z, h1, by rw [h2]; simp [fieldEvents]⟩

theorem In.entry (hw : R.wf = true) {p a rest b e} (key : String) (h : In E R p a rest) (hR : R.at p = some (.map b e)) :
    Way E R (.elem :: p) (a ++ [.mapKey key]) ((.elem :: p) :: p :: rest) false := by
  refine ⟨⟨.direct, fun s hs => ?_⟩, fun sh v hR' hv hc => ?_⟩
  · obtain ⟨s1, h1, g1⟩ := h.gets s hs.up
    obtain ⟨s2, h2, g2⟩ := entry_got (E := E) key g1 hR
    exact ⟨s2, run_snoc h1 h2, g2⟩
  · rw [at_elem_map hR] at hR'; injection hR' with hR'; subst hR'
    obtain ⟨j, z, h1, h2⟩ := h.fields _ [(key, v)] hR (by
      simp only [okFields, embedded_composite hc, hv, child_user hw hR rfl (st := .elem) rfl (by simp), Bool.and_self])
    exact ⟨j, z, h1, by rw [h2]; simp [fieldEvents]⟩

theorem Way.element (hw : R.wf = true) {p a stk via b e} (h : Way E R p a stk via) (hR : R.at p = some (.array b e)) :
    Way E R (.elem :: p) (a ++ [.arrStart]) (openedStack p stk via) true := by
  obtain ⟨rest, hrest⟩ := h.gets.1.opened
  refine ⟨⟨hrest ▸ .element rfl hR, fun s hs => ?_⟩, fun sh v hR' hv hc => ?_⟩
  · obtain ⟨s1, h1, g1⟩ := h.gets.2 s hs.up
    obtain ⟨s2, h2, g2, _⟩ := array_got (E := E) g1 h.gets.1 hR (hs.parent hR)
    exact ⟨s2, run_snoc h1 h2, g2⟩
  · rw [at_elem_array hR] at hR'; injection hR' with hR'; subst hR'
    obtain ⟨j, z, h1, h2⟩ := h.value _ (.arr [v]) hR (by
      simp only [okVal, okElems, hv, child_user hw hR rfl (st := .elem) rfl (by simp), Bool.and_true]
      cases v <;> simp [Json.composite] at hc ⊢) rfl
    exact ⟨j, .arrEnd :: z, h1, by rw [h2]; simp [events, elemEvents]⟩

theorem In.alternative {p a rest ty tm st ms x n m} (h : In E R p a rest) (hR : R.at p = some (.union ty tm st ms)) (ht : tm ≠ "") (hx : x.ty = ty)
    (hl : lookup x 0 ms = some (n, m)) : In E R (.mem n :: p) (a ++ [.mapKey tm] ++ [.scalar x]) (p :: rest) := by
  obtain ⟨i, hi⟩ := lookup_mem hl
  refine ⟨fun s hs => ?_, fun sh fs hR' hf => ?_⟩
  · obtain ⟨s1, h1, g1⟩ := h.gets s hs.up
    obtain ⟨s2, h2, g2⟩ := type_got (E := E) g1 hR hx hl
    exact ⟨s2, run_snoc (run_snoc h1 (typeName_got g1 hR ht)) h2, g2⟩
  · rw [at_mem_union hR hi] at hR'; injection hR' with hR'; subst hR'
    obtain ⟨j, z, h1, h2⟩ := h.fields _ ((tm, .sc x) :: fs) hR (by
      simp only [okFields, if_neg ht, ne_eq, not_true_eq_false, if_false, hx, if_true, hl, hf])
    exact ⟨j, z, h1, by rw [h2]; simp [fieldEvents, events]⟩

theorem In.embedded {p a rest k u ms key n ty st ms' x n' m} (h : In E R p a rest) (hR : R.at p = some (.object k u ms))
    (hl : lookup (.str key) 0 ms = some (n, .union ty "" st ms')) (hx : x.ty = ty) (hl' : lookup x 0 ms' = some (n', m)) :
    In E R (.mem n' :: .mem n :: p) (a ++ [.mapKey key] ++ [.scalar x]) ((.mem n :: p) :: p :: rest) := by
  obtain ⟨i, hi⟩ := lookup_mem hl
  obtain ⟨i', hi'⟩ := lookup_mem hl'
  have hRu := at_mem_object hR hi
  refine ⟨fun s hs => ?_, fun sh fs hR' hf => ?_⟩
  · obtain ⟨s1, h1, g1⟩ := h.gets s hs.up.up
    obtain ⟨s2, h2, g2⟩ := member_got (E := E) g1 hR hl
    obtain ⟨s3, h3, g3⟩ := type_got (E := E) g2 hRu hx hl'
    exact ⟨s3, run_snoc (run_snoc h1 h2) h3, g3⟩
  · rw [at_mem_union hRu hi'] at hR'; injection hR' with hR'; subst hR'
    obtain ⟨j, z, h1, h2⟩ := h.fields _ ((key, .sc x) :: fs) hR (by
      simp only [okFields, hl, SJ.embedded, hx, and_self, if_true, hl', hf])
    exact ⟨j, z, h1, by rw [h2]; simp [fieldEvents, events]⟩

theorem In.embeddedEntry {p a rest b ty st ms' x n' m} (key : String) (h : In E R p a rest) (hR : R.at p = some (.map b (.union ty "" st ms')))
    (hx : x.ty = ty) (hl' : lookup x 0 ms' = some (n', m)) :
    In E R (.mem n' :: .elem :: p) (a ++ [.mapKey key] ++ [.scalar x]) ((.elem :: p) :: p :: rest) := by
  obtain ⟨i', hi'⟩ := lookup_mem hl'
  have hRu := at_elem_map hR
  refine ⟨fun s hs => ?_, fun sh fs hR' hf => ?_⟩
  · obtain ⟨s1, h1, g1⟩ := h.gets s hs.up.up
    obtain ⟨s2, h2, g2⟩ := entry_got (E := E) key g1 hR
    obtain ⟨s3, h3, g3⟩ := type_got (E := E) g2 hRu hx hl'
    exact ⟨s3, run_snoc (run_snoc h1 h2) h3, g3⟩
  · rw [at_mem_union hRu hi'] at hR'; injection hR' with hR'; subst hR'
    obtain ⟨j, z, h1, h2⟩ := h.fields _ ((key, .sc x) :: fs) hR (by
      simp only [okFields, SJ.embedded, hx, and_self, if_true, hl', hf])
    exact ⟨j, z, h1, by rw [h2]; simp [fieldEvents, events]⟩

/-- Every accessible parser has a way to it. -/
theorem Accessible.way (hw : R.wf = true) {b p} (h : Accessible R b p) :
    (b = false → ∃ a stk via, ∀ E, Way E R p a stk via) ∧ (b = true → ∃ a rest, ∀ E, In E R p a rest) := by
  have enter : ∀ {b p sh}, ((b = false → ∃ a stk via, ∀ E, Way E R p a stk via) ∧ (b = true → ∃ a rest, ∀ E, In E R p a rest)) →
      R.at p = some sh → sh.keyed = true → ∃ a rest, ∀ E, In E R p a rest := by
    intro b p sh ih hR hk
    cases b with
    | true => exact ih.2 rfl
    | false =>
      obtain ⟨a, stk, via, h⟩ := ih.1 rfl
      obtain ⟨rest, hr⟩ := (h ⟨fun _ => none, fun _ => none, fun _ => ""⟩).gets.1.opened
      refine ⟨a ++ [.mapStart], rest, fun E => ?_⟩
      exact (h E).enter hR hk hr
  induction h with
  | root => exact ⟨fun _ => ⟨[], [[]], false, fun E => way_root⟩, by simp⟩
  | member _ hR hl ih =>
    obtain ⟨a, rest, h⟩ := enter ih hR rfl
    exact ⟨fun _ => ⟨_, _, _, fun E => (h E).member hw hR hl⟩, by simp⟩
  | entry _ hR ih =>
    obtain ⟨a, rest, h⟩ := enter ih hR rfl
    exact ⟨fun _ => ⟨_, _, _, fun E => (h E).entry hw "" hR⟩, by simp⟩
  | element _ hR ih =>
    obtain ⟨a, stk, via, h⟩ := ih.1 rfl
    exact ⟨fun _ => ⟨_, _, _, fun E => (h E).element hw hR⟩, by simp⟩
  | alternative _ hR ht hx hl ih =>
    obtain ⟨a, rest, h⟩ := enter ih hR (by simp [Shape.keyed, ht])
    exact ⟨by simp, fun _ => ⟨_, _, fun E => (h E).alternative hR ht hx hl⟩⟩
  | embedded _ hR hl hx hl' ih =>
    obtain ⟨a, rest, h⟩ := enter ih hR rfl
    exact ⟨by simp, fun _ => ⟨_, _, fun E => (h E).embedded hR hl hx hl'⟩⟩
  | embeddedEntry _ hR hx hl' ih =>
    obtain ⟨a, rest, h⟩ := enter ih hR rfl
    exact ⟨by simp, fun _ => ⟨_, _, fun E => (h E).embeddedEntry "" hR hx hl'⟩⟩

/-! ### The difference -/

/-- How many arrays are nested directly. -/
def Shape.depth : Shape → Nat
  | .array _ e => e.depth + 1
  | _ => 0

/-- The call throws, or it is undefined behaviour. -/
def Bad (r : Res Unit) : Prop := (∃ e s, r = .throw e s) ∨ r = .ub

theorem Bad.bind {r : M Unit} {f : Unit → M Unit} {s : St} (h : Bad (r s)) : Bad (M.bind r f s) := by
  unfold M.bind
  rcases h with ⟨e, s', h⟩ | h <;> rw [h]
  · exact .inl ⟨_, _, rfl⟩
  · exact .inr rfl

/-- The current parser is an array in the middle of its elements, with less than `n` levels of arrays in it. -/
def Stuck (R : Shape) (n : Nat) (s : St) : Prop :=
  ∃ q rest b e, s.stack = q :: rest ∧ R.at q = some (.array b e) ∧ (s.heap q).started = true ∧ e.depth + 1 ≤ n

theorem Stuck.le {n m s} (h : Stuck R n s) (hl : n ≤ m) : Stuck R m s := by
  obtain ⟨q, rest, b, e, h1, h2, h3, h4⟩ := h
  exact ⟨q, rest, b, e, h1, h2, h3, Nat.le_trans h4 hl⟩

theorem onF_bracket : ∀ (sh : Shape) (p : Path) (s : St) (rest : List Path), R.at p = some sh → sh.isUser = true → R.wf = true → s.stack = p :: rest →
    (Bad (onF E R sh p .arrStart s) ∨ ∃ s', onF E R sh p .arrStart s = .ok () s' ∧ Stuck R sh.depth s') ∧
    (∀ b e, sh = .array b e → (s.heap p).started = true → Bad (onF E R sh p .arrStart s) ∨ ∃ s', onF E R sh p .arrStart s = .ok () s' ∧ Stuck R e.depth s')
  | .value _, p, s, _, _, _, _, _ => ⟨.inl (.inl ⟨_, _, rfl⟩), by simp⟩
  | .object _ _ _, p, s, _, _, _, _, _ => ⟨.inl (.inl ⟨_, _, rfl⟩), by simp⟩
  | .map _ _, p, s, _, _, _, _, _ => ⟨.inl (.inl ⟨_, _, rfl⟩), by simp⟩
  | .union _ _ _ _, p, s, _, _, _, _, _ => ⟨.inl (.inl ⟨_, _, rfl⟩), by simp⟩
  | .ignore, p, s, _, _, h, _, _ => by simp [Shape.isUser] at h
  | .array b e, p, s, rest, hR, hu, hw, hs => by
    have key : (s.heap p).started = true →
        Bad (onF E R (.array b e) p .arrStart s) ∨ ∃ s', onF E R (.array b e) p .arrStart s = .ok () s' ∧ Stuck R e.depth s' := by
      intro hst
      cases hd : (s.heap p).disp with
      | false =>
        refine .inl (.inr ?_)
        simp only [onF, bind_getC, hst, hd, Bool.not_true, Bool.not_false, Bool.false_eq_true, if_false, if_true]
      | true =>
        have ih := (onF_bracket e (.elem :: p)
          { s with heap := setDispH (.elem :: p) e (s.heap.upd p fun c => { c with empty := false }), stack := (.elem :: p) :: s.stack } s.stack
          (at_elem_array hR) (child_user hw hR hu (st := .elem) rfl (by simp)) hw rfl).1
        have heq : onF E R (.array b e) p .arrStart s = onF E R e (.elem :: p) .arrStart
            { s with heap := setDispH (.elem :: p) e (s.heap.upd p fun c => { c with empty := false }), stack := (.elem :: p) :: s.stack } := by
          simp only [onF, bind_getC, hst, hd, Bool.not_true, Bool.false_eq_true, if_false]
          rfl
        rw [heq]; exact ih
    refine ⟨?_, fun b' e' h hst => ?_⟩
    · cases hst : (s.heap p).started with
      | true =>
        rcases key hst with h | ⟨s', h1, h2⟩
        · exact .inl h
        · exact .inr ⟨s', h1, h2.le (by simp [Shape.depth])⟩
      | false =>
        exact .inr ⟨_, onF_arrStart s hst, p, rest, b, e, hs, hR, by dsimp only; rw [upd_same], by simp [Shape.depth]⟩
    · simp at h; obtain ⟨rfl, rfl⟩ := h; exact key hst

/-- Too many brackets. -/
theorem Stuck.run (hw : R.wf = true) : ∀ (n : Nat) {s : St}, Stuck R n s → Bad (SJ.run E R (List.replicate n .arrStart) s)
  | 0, s, ⟨_, _, _, _, _, _, _, h⟩ => by simp at h
  | n + 1, s, ⟨q, rest, b, e, hs, hR, hst, hle⟩ => by
    rw [List.replicate_succ, run_cons]
    have hd : dispatch E R .arrStart s = onF E R (.array b e) q .arrStart s := dispatch_cons hs hR
    rcases (onF_bracket (E := E) (.array b e) q s rest hR rfl hw hs).2 b e rfl hst with h | ⟨s', h1, h2⟩
    · exact Bad.bind (by rw [hd]; exact h)
    · rw [bind_ok (hd.trans h1)]
      exact Stuck.run hw n (h2.le (by omega))

/-- A parser whose array at `p` is in the middle of its elements refuses the opening brackets of a value of `p`. -/
theorem Way.stuck (hw : R.wf = true) {p a stk via b e} (h : Way E R p a stk via) (hR : R.at p = some (.array b e)) {s : St} (hs : Sets R p s)
    (hst : (s.heap p).started = true) : Bad (run E R (a ++ List.replicate (e.depth + 1) .arrStart) s) := by
  obtain ⟨s1, h1, g1⟩ := h.gets.2 s hs
  have hst1 : (s1.heap p).started = true := by rw [g1.keep p (Below.refl _)]; exact hst
  have key : Bad (dispatch E R .arrStart s1) ∨ ∃ s', dispatch E R .arrStart s1 = .ok () s' ∧ Stuck R e.depth s' := by
    cases via with
    | false =>
      cases h.gets.1 with
      | @direct rest =>
        rw [dispatch_cons g1.stack hR]
        exact (onF_bracket (E := E) (.array b e) p s1 rest hR rfl hw g1.stack).2 b e rfl hst1
    | true =>
      obtain ⟨s2, h2, g2⟩ := enter_got (E := E) g1 h.gets.1 hR (t := .arrStart) (.inr rfl)
      rw [h2]
      exact (onF_bracket (E := E) (.array b e) p s2 stk hR rfl hw g2.stack).2 b e rfl (by rw [g2.keep p (Below.refl _)]; exact hst)
  rw [run_append, bind_ok h1, List.replicate_succ, run_cons]
  rcases key with h | ⟨s', h2, h3⟩
  · exact h.bind
  · rw [bind_ok h2]; exact h3.run hw _

/-- A new one accepts them. -/
theorem Way.brackets (hw : R.wf = true) : ∀ (sh : Shape) {p a stk via b e}, sh = .array b e → Way E R p a stk via → R.at p = some (.array b e) →
    (∃ p' stk' via', Way E R p' (a ++ List.replicate (e.depth + 1) .arrStart) stk' via') ∧
    ∃ j z, okVal R j = true ∧ events j = a ++ List.replicate (e.depth + 1) .arrStart ++ z
  | .array b e, p, a, stk, via, _, _, rfl, h, hR => by
    have h' := h.element hw hR
    have base : (∃ p' stk' via', Way E R p' (a ++ List.replicate 1 .arrStart) stk' via') ∧
        ∃ j z, okVal R j = true ∧ events j = a ++ List.replicate 1 .arrStart ++ z := by
      refine ⟨⟨_, _, _, h'⟩, ?_⟩
      obtain ⟨j, z, h1, h2⟩ := h.value _ (.arr []) hR (by simp [okVal, okElems]) rfl
      exact ⟨j, .arrEnd :: z, h1, by rw [h2]; simp [events, elemEvents]⟩
    cases e with
    | array b' e' =>
      obtain ⟨⟨p', stk', via', h1⟩, j, z, h2, h3⟩ := Way.brackets hw (.array b' e') rfl h' (at_elem_array hR)
      simp only [Shape.depth]
      rw [List.replicate_succ]
      exact ⟨⟨p', stk', via', by simpa using h1⟩, j, z, h2, by rw [h3]; simp⟩
    | _ => exact base

/-- The outermost array that is in the middle of its elements. -/
theorem outermost {h : Heap} : ∀ (n : Nat) (q : Path) (b e), q.length = n → R.at q = some (.array b e) → (h q).started = true →
    ∃ p b e, R.at p = some (.array b e) ∧ (h p).started = true ∧ ∀ q b e, R.at q = some (.array b e) → Below q p → q ≠ p → (h q).started = false := by
  intro n
  induction n using Nat.strongRecOn with
  | _ n ih =>
    intro q b e hn hR hst
    by_cases hx : ∀ q' b e, R.at q' = some (.array b e) → Below q' q → q' ≠ q → (h q').started = false
    · exact ⟨q, b, e, hR, hst, hx⟩
    · simp only [Classical.not_forall] at hx
      obtain ⟨q', b', e', hR', hb, hne, hst'⟩ := hx
      refine ih q'.length ?_ q' b' e' rfl hR' (by simpa using hst')
      obtain ⟨l, hl⟩ := hb
      subst hn
      rw [← hl] at hne ⊢
      cases l with
      | nil => exact absurd rfl hne
      | cons x l => simp; omega

/-! ### Where everything is accessible -/

theorem lookup_at (hd : DistinctNames ms) {n : Nat} {i : MInfo} {m : Shape} (h : ms[n]? = some (i, m)) (he : i.name.cppEq i.name = true) :
    lookup i.name 0 ms = some (n, m) := Named.lookup hd ⟨h, he⟩

theorem Placed.accessible (hw : R.wf = true) (hd : AllDistinct R) (hp : Placed R) : ∀ (q : Path) (sh : Shape), R.at q = some sh → sh.isUser = true →
    ∃ b, Accessible R b q ∧ (b = true → ∃ n p ty tm c ms i, q = .mem n :: p ∧ R.at p = some (.union ty tm c ms) ∧ ms[n]? = some (i, sh))
  | [], sh, h, hu => ⟨false, .root, by simp⟩
  | st :: p, sh, h, hu => by
    simp only [Shape.at, Option.bind_eq_some_iff] at h
    obtain ⟨sh', hR, hc⟩ := h
    have hu' : sh'.isUser = true := by cases sh' <;> simp [Shape.child, Shape.isUser] at hc ⊢
    obtain ⟨b, hb, hbt⟩ := Placed.accessible hw hd hp p sh' hR hu'
    have hw' : sh'.wf = true := by
      rcases wf_at hw p sh' hR with h | rfl
      · exact h
      · simp [Shape.isUser] at hu'
    cases sh' with
    | value => simp [Shape.child] at hc
    | ignore => simp [Shape.child] at hc
    | array c e =>
      cases st <;> simp [Shape.child] at hc
      subst hc
      cases b with
      | false => exact ⟨false, .element hb hR, by simp⟩
      | true =>
        obtain ⟨n, p', ty, tm, c', ms, i, rfl, hR', hi⟩ := hbt rfl
        exact absurd rfl ((hp.union p' ty tm c' ms hR' _ (List.mem_of_getElem? hi)).2.1 c e)
    | map c e =>
      cases st <;> simp [Shape.child] at hc
      subst hc
      exact ⟨false, .entry hb hR, by simp⟩
    | object k u ms =>
      cases st with
      | elem => simp [Shape.child] at hc
      | ign => simp [Shape.child] at hc; subst hc; simp [Shape.isUser] at hu
      | mem n =>
        simp only [Shape.child, Option.map_eq_some_iff] at hc
        obtain ⟨⟨i, m⟩, hi, rfl⟩ := hc
        have hty := (wfMs_mem (by simpa [Shape.wf] using hw') hi).1
        have hdm : DistinctNames ms := hd p _ hR
        obtain ⟨key, hk⟩ : ∃ key, i.name = .str key := by cases hn : i.name <;> rw [hn] at hty <;> simp [Scalar.ty] at hty; exact ⟨_, rfl⟩
        exact ⟨false, .member hb hR (lookup_distinct hdm hi hk), by simp⟩
    | union ty tm c ms =>
      cases st with
      | elem => simp [Shape.child] at hc
      | ign => simp [Shape.child] at hc; subst hc; simp [Shape.isUser] at hu
      | mem n =>
        simp only [Shape.child, Option.map_eq_some_iff] at hc
        obtain ⟨⟨i, m⟩, hi, rfl⟩ := hc
        have hty := (wfMs_mem (by simpa [Shape.wf] using hw') hi).1
        have hdm : DistinctNames ms := hd p _ hR
        have hl := lookup_at hdm hi (hp.union p ty tm c ms hR _ (List.mem_of_getElem? hi)).2.2
        refine ⟨true, ?_, fun _ => ⟨n, p, ty, tm, c, ms, i, rfl, hR, hi⟩⟩
        by_cases htm : tm = ""
        · subst htm
          cases p with
          | nil =>
            have := hp.root
            simp [Shape.at] at hR; subst hR
            simp [Shape.isEmbedded] at this
          | cons st' p' =>
            simp only [Shape.at, Option.bind_eq_some_iff] at hR
            obtain ⟨sh2, hR2, hc2⟩ := hR
            have hu2 : sh2.isUser = true := by cases sh2 <;> simp [Shape.child, Shape.isUser] at hc2 ⊢
            obtain ⟨b2, hb2, _⟩ := Placed.accessible hw hd hp p' sh2 hR2 hu2
            have hw2 : sh2.wf = true := by
              rcases wf_at hw p' sh2 hR2 with h | rfl
              · exact h
              · simp [Shape.isUser] at hu2
            cases sh2 with
            | value => simp [Shape.child] at hc2
            | ignore => simp [Shape.child] at hc2
            | array c2 e2 =>
              cases st' <;> simp [Shape.child] at hc2
              subst hc2
              have := hp.array p' _ _ hR2
              simp [Shape.isEmbedded] at this
            | map c2 e2 =>
              cases st' <;> simp [Shape.child] at hc2
              subst hc2
              exact .embeddedEntry hb2 hR2 hty hl
            | union ty2 tm2 c2 ms2 =>
              cases st' with
              | elem => simp [Shape.child] at hc2
              | ign => simp [Shape.child] at hc2
              | mem n2 =>
                simp only [Shape.child, Option.map_eq_some_iff] at hc2
                obtain ⟨⟨i2, m2⟩, hi2, rfl⟩ := hc2
                have := (hp.union p' _ _ _ _ hR2 _ (List.mem_of_getElem? hi2)).1
                simp [Shape.isEmbedded] at this
            | object k2 u2 ms2 =>
              cases st' with
              | elem => simp [Shape.child] at hc2
              | ign => simp [Shape.child] at hc2
              | mem n2 =>
                simp only [Shape.child, Option.map_eq_some_iff] at hc2
                obtain ⟨⟨i2, m2⟩, hi2, rfl⟩ := hc2
                have hty2 := (wfMs_mem (by simpa [Shape.wf] using hw2) hi2).1
                have hdm2 : DistinctNames ms2 := hd p' _ hR2
                obtain ⟨key, hk⟩ : ∃ key, i2.name = .str key := by cases hn : i2.name <;> rw [hn] at hty2 <;> simp [Scalar.ty] at hty2; exact ⟨_, rfl⟩
                exact .embedded hb2 hR2 (lookup_distinct hdm2 hi2 hk) hty hl
        · exact .alternative hb hR htm hty hl
termination_by q => q.length

theorem Placed.arrays (hw : R.wf = true) (hd : AllDistinct R) (hp : Placed R) {q b e} (h : R.at q = some (.array b e)) : Accessible R false q := by
  obtain ⟨c, h1, h2⟩ := hp.accessible hw hd q _ h rfl
  cases c with
  | false => exact h1
  | true =>
    obtain ⟨n, p, ty, tm, c', ms, i, _, h3, h4⟩ := h2 rfl
    exact absurd rfl ((hp.union p ty tm c' ms h3 _ (List.mem_of_getElem? h4)).2.1 b e)

/-- If an array that can be got to is in the middle of its elements, there are the first tokens of a document that a new parser accepts and this one does not. -/
theorem stuck_differs (hw : R.wf = true) (hdn : AllDistinct R) (hp : Placed R) {s : St} (hs : s.stack = [[]])
    (hd : (s.heap []).disp = true) (hc : DClosed R s.heap) {q b e} (hR : R.at q = some (.array b e)) (hst : (s.heap q).started = true) :
    ∃ j a z, okVal R j = true ∧ events j = a ++ z ∧ a ≠ [] ∧ ∀ E, (∀ t, Ready R t → ∃ t', run E R a t = .ok () t') ∧ Bad (run E R a s) := by
  obtain ⟨p, b, e, hRp, hsp, hidle⟩ := outermost _ q b e rfl hR hst
  obtain ⟨a, stk, via, hway⟩ := ((hp.arrays hw hdn hRp).way hw).1 rfl
  obtain ⟨j, z, h1, h2⟩ := ((hway ⟨fun _ => none, fun _ => none, fun _ => ""⟩).brackets hw _ rfl hRp).2
  refine ⟨j, _, z, h1, h2, by simp [List.replicate_succ], fun E => ⟨fun t ht => ?_, (hway E).stuck hw hRp ⟨hs, hd, hc, hidle⟩ hsp⟩⟩
  obtain ⟨⟨p', stk', via', h'⟩, _⟩ := (hway E).brackets hw _ rfl hRp
  obtain ⟨t', ht', _⟩ := h'.gets.2 t ⟨ht.stack, ht.disp, ht.sane.closed, fun q b e _ _ _ => ht.sane.started q (List.nil_suffix)⟩
  exact ⟨t', ht'⟩

/-! ### A scalar element parser with a dispatcher -/

/-- A null as an element. -/
theorem null_element {s : St} {q rest b ty} (hs : s.stack = q :: rest) (hR : R.at q = some (.array b (.value ty))) (hst : (s.heap q).started = true) :
    ((s.heap (.elem :: q)).disp = false → ∃ s', dispatch E R .null s = .ok () s' ∧ s'.stack = s.stack) ∧
    ((s.heap (.elem :: q)).disp = true → ∀ s', dispatch E R .null s = .ok () s' → s'.stack ≠ s.stack) := by
  have hd : dispatch E R .null s = nullBase E R (.value ty) (.elem :: q) s := by
    rw [dispatch_cons hs hR]
    simp only [onF, bind_getC, hst, Bool.not_true, Bool.false_eq_true, if_false]
  constructor
  · intro h
    exact ⟨_, hd.trans (nullBase_nodisp h), rfl⟩
  · intro h s' h' heq
    rw [hd, nullBase_pop h, bind_modH] at h'
    have := pop_ok_len h'
    rw [heq] at this
    dsimp only at this
    rw [hs] at this
    simp at this
    omega

/-- If no array is in the middle of its elements, but the `Value` element parser of an array has a dispatcher, then there are the first tokens of a document that
bring the parser to another state than a new one. -/
theorem velem_differs (hw : R.wf = true) (hdn : AllDistinct R) (hp : Placed R) {s : St} (hs : s.stack = [[]]) (hd : (s.heap []).disp = true) (hc : DClosed R s.heap)
    (hi : ∀ q, (s.heap q).started = false) {q b ty} (hR : R.at q = some (.array b (.value ty))) (hv : (s.heap (.elem :: q)).disp = true) :
    ∃ j a z, okVal R j = true ∧ events j = a ++ z ∧ a ≠ [] ∧ ∀ E t, Ready R t → ∃ t', run E R a t = .ok () t' ∧ ∀ s', run E R a s = .ok () s' → s'.stack ≠ t'.stack := by
  obtain ⟨a, stk, via, hway⟩ := ((hp.arrays hw hdn hR).way hw).1 rfl
  obtain ⟨j, z, h1, h2⟩ := (hway ⟨fun _ => none, fun _ => none, fun _ => ""⟩).value _ (.arr [.null]) hR (by simp [okVal, okElems, Shape.isUser]) rfl
  refine ⟨j, a ++ [.arrStart] ++ [.null], .arrEnd :: z, h1, by rw [h2]; simp [events, elemEvents], by simp, fun E t ht => ?_⟩
  have hpos := (hway E).gets.1
  obtain ⟨rest, hrest⟩ := hpos.opened
  have go : ∀ s, Sets R q s → (s.heap q).started = false → ∃ s2, run E R (a ++ [.arrStart]) s = .ok () s2 ∧ s2.stack = q :: rest ∧ (s2.heap q).started = true ∧
      (s2.heap (.elem :: q)).disp = (s.heap (.elem :: q)).disp := by
    intro s hs hst
    obtain ⟨s1, h1, g1⟩ := (hway E).gets.2 s hs
    obtain ⟨s2, h2, g2, h3⟩ := array_got (E := E) g1 hpos hR hst
    exact ⟨s2, run_snoc h1 h2, g2.stack.trans hrest, (g2.array rfl q rfl).2, h3⟩
  obtain ⟨t2, ht2, ht3, ht4, ht5⟩ := go t ⟨ht.stack, ht.disp, ht.sane.closed, fun q b e _ _ _ => ht.sane.started q List.nil_suffix⟩ (ht.sane.started q List.nil_suffix)
  obtain ⟨s2, hs2, hs3, hs4, hs5⟩ := go s ⟨hs, hd, hc, fun q b e _ _ _ => hi q⟩ (hi q)
  obtain ⟨t', htt, hts⟩ := (null_element (E := E) ht3 hR ht4).1 (by rw [ht5]; exact ht.sane.velem q b ty List.nil_suffix hR)
  refine ⟨t', run_snoc ht2 htt, fun s' hs' => ?_⟩
  rw [run_append, bind_ok hs2, run_cons] at hs'
  have hs'' : dispatch E R .null s2 = .ok () s' := by
    unfold M.bind at hs'
    cases hdd : dispatch E R .null s2 with
    | ok a s3 => rw [hdd] at hs'; exact hs'
    | throw e s3 => rw [hdd] at hs'; simp at hs'
    | ub => rw [hdd] at hs'; simp at hs'
    | fuel => rw [hdd] at hs'; simp at hs'
  have := (null_element (E := E) hs3 hR hs4).2 (by rw [hs5]; exact hv) s' hs''
  rw [hts, ht3, ← hs3]; exact this

end SJ
