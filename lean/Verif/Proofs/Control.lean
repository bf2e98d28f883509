/-
The control state: invariants of the dispatcher's stack and pointers for arbitrary tokens.
-/
import Verif.Proofs.Chain
import Verif.SpecHistory

set_option linter.unusedVariables false

namespace SJ

variable {E : Env} {R : Shape}

def Link (R : Shape) (p q : Path) : Prop := ChildOf p q ∨ (HasUnionArray R ∧ InsideOf p q)

structure Ctl (R : Shape) (s : St) : Prop where
  linked : Stacked (Link R) s.stack
  valid : Valid R s
  closed : DClosed R s.heap
  root : (s.heap []).disp = true
  arr : ∀ q, (s.heap q).started = true → ∃ st e, R.at q = some (.array st e)

theorem Ctl.idle {s : St} (h : Ctl R s) (ha : ArrFree R) (q : Path) : (s.heap q).started = false := by
  cases hd : (s.heap q).started with
  | false => rfl
  | true => obtain ⟨st, e, h'⟩ := h.arr q hd; exact absurd h' (ha q st e)

theorem Stacked.suffix {rel} {l l' : List Path} (h : Stacked rel l) (hs : l' <:+ l) : Stacked rel l' := by
  induction l with
  | nil => rw [List.suffix_nil.1 hs]; trivial
  | cons p l ih =>
    rcases List.suffix_cons_iff.1 hs with rfl | hs
    · exact h
    · refine ih ?_ hs
      cases l with
      | nil => trivial
      | cons q r => exact h.2

/-- Dropping parsers, and changing nothing but data. -/
theorem Ctl.shrink {s s' : St} (h : Ctl R s) (hs : s'.stack <:+ s.stack) (hc : SameCtl s.heap s'.heap) : Ctl R s' where
  linked := h.linked.suffix hs
  valid := fun p hp => ⟨(h.valid p (hs.subset hp)).1, by rw [(hc p).1]; exact (h.valid p (hs.subset hp)).2⟩
  closed := h.closed.ctl hc
  root := by rw [(hc []).1]; exact h.root
  arr := fun q hq => h.arr q (by rw [(hc q).2] at hq; exact hq)

/-- The outcome keeps the control state; undefined behaviour only under the condition `U`. -/
abbrev CtlFineU {α} (R : Shape) (U : Prop) (r : Res α) : Prop := Fine (Ctl R) (fun _ => Ctl R) U r

abbrev CtlFine {α} (R : Shape) (r : Res α) : Prop := CtlFineU R (HasUnionArray R) r

variable {U : Prop}

theorem Loc.ctl {α} {p} {m : M α} (h : Loc p m) {s : St} (hc : Ctl R s) : CtlFineU R U (m s) := by
  have := h s
  cases hm : m s with
  | ok a s' => rw [hm] at this; exact hc.shrink (by rw [this.1]; exact List.suffix_refl _) this.2.ctl
  | throw a s' => rw [hm] at this; exact hc.shrink (by rw [this.1]; exact List.suffix_refl _) this.2.ctl
  | ub => rw [hm] at this; exact this.elim
  | fuel => rw [hm] at this; exact this

theorem Ctl.drop {s : St} (h : Ctl R s) : Ctl R s.drop :=
  h.shrink (s' := s.drop) (by unfold St.drop; exact List.tail_suffix _) (SameCtl.refl _)

theorem Ctl.chainU : ChainInv E R (Ctl R) (fun _ => Ctl R) U where
  valid := fun s h => h.valid
  plain := fun s _ h => h
  fin := fun s p rest sh h hs _ _ _ => by
    have := (Loc.complete (E := E) sh p).ctl (U := U) h
    refine this.mono (fun s' h' => h'.drop) (fun _ _ => id) id
  struct := fun s p rest r h hs _ => h.shrink (List.suffix_refl _) (SameCtl.upd fun _ => ⟨rfl, rfl⟩)
  arr := fun s p rest st e h hs _ => (Loc.arrChild st p).ctl h
  map := fun s p rest st e h hs _ => (Loc.mapChild st e p).ctl h

theorem Ctl.chain : ChainInv E R (Ctl R) (fun _ => Ctl R) (HasUnionArray R) := Ctl.chainU

theorem Ctl.pop {s : St} (h : Ctl R s) : CtlFineU R U (pop E R s) := by
  by_cases hs : s.stack = []
  · rw [pop_nil hs]; exact h
  · exact (Ctl.chainU.all _).1 s (Nat.le_refl _) hs h.drop

theorem CtlFine.bind {α β} {m : M α} {f : α → M β} {s : St} (h : CtlFineU R U (m s))
    (hf : ∀ a s', m s = .ok a s' → Ctl R s' → CtlFineU R U (f a s')) : CtlFineU R U (M.bind m f s) := Fine.bind h hf

/-- A parser completes; if it has a dispatcher, the top of the stack is removed. -/
theorem Ctl.endP {s : St} (h : Ctl R s) (sh p) : CtlFineU R U (endP E R sh p s) := by
  rw [endP_eq]
  refine CtlFine.bind ((Loc.complete sh p).ctl h) fun _ s1 _ h1 => ?_
  rw [bind_getC]
  split
  · exact h1.pop
  · exact h1

theorem Ctl.nullBase {s : St} (h : Ctl R s) (sh p) : CtlFineU R U (nullBase E R sh p s) := by
  unfold SJ.nullBase
  rw [bind_modH, bind_getC]
  have h1 : Ctl R { s with heap := resetH p sh s.heap } := h.shrink (List.suffix_refl _) (resetH_ctl _ _ _)
  split
  · exact h1.pop
  · exact h1

/-- A data-only change of one cell. -/
theorem Ctl.data {s : St} (h : Ctl R s) {p f} (hf : ∀ c, (f c).disp = c.disp ∧ (f c).started = c.started) :
    Ctl R { s with heap := s.heap.upd p f } := h.shrink (List.suffix_refl _) (SameCtl.upd hf)

theorem Ctl.push {s : St} (h : Ctl R s) {q rest p sh} (hs : s.stack = q :: rest) (hR : R.at p = some sh) (hd : (s.heap p).disp = true)
    (hl : Link R p q) : Ctl R { s with stack := p :: s.stack } where
  linked := by rw [hs]; exact ⟨hl, hs ▸ h.linked⟩
  valid := by
    intro a ha
    rcases List.mem_cons.1 ha with rfl | ha
    · exact ⟨⟨_, hR⟩, hd⟩
    · exact h.valid a ha
  closed := h.closed
  root := h.root
  arr := h.arr

theorem Ctl.setDisp {s : St} (h : Ctl R s) {p sh} (hR : R.at p = some sh) : Ctl R { s with heap := setDispH p sh s.heap } where
  linked := h.linked
  valid := fun a ha => ⟨(h.valid a ha).1, (setDispH_only sh p s.heap).mono (h.valid a ha).2⟩
  closed := h.closed.setDispH hR
  root := (setDispH_only sh p s.heap).mono h.root
  arr := fun q hq => by
    change (setDispH p sh s.heap q).started = true at hq
    rw [(setDispH_only sh p s.heap).started] at hq; exact h.arr q hq

theorem Ctl.start {s : St} (h : Ctl R s) {p st e b} (hR : R.at p = some (.array st e)) :
    Ctl R { s with heap := s.heap.upd p fun c => { c with started := b } } where
  linked := h.linked
  valid := fun a ha => ⟨(h.valid a ha).1, by rw [upd_started_disp]; exact (h.valid a ha).2⟩
  closed := h.closed.congr fun q => upd_started_disp q
  root := by rw [upd_started_disp]; exact h.root
  arr := fun q hq => by
    by_cases hqp : q = p
    · exact ⟨st, e, hqp ▸ hR⟩
    · refine h.arr q ?_
      dsimp only at hq
      rw [upd_other hqp] at hq
      exact hq

/-- Selecting a member by name. -/
theorem Ctl.onMember {s : St} (h : Ctl R s) {p q rest u ms x} (hs : s.stack = q :: rest)
    (hmem : ∀ n sh, lookup x 0 ms = some (n, sh) → R.at (.mem n :: p) = some sh)
    (hign : R.at (.ign :: p) = some .ignore)
    (hcl : (s.heap p).disp = true → ∀ st, InTree R (st :: p) → (s.heap (st :: p)).disp = true)
    (hl : (s.heap p).disp = true → ∀ st, Link R (st :: p) q) (hd : (s.heap p).disp = false → (u = true → (lookup x 0 ms).isSome = true) → U) :
    CtlFineU R U (onMember E u ms p x s) := by
  unfold SJ.onMember
  rw [setNotEmpty_def, bind_modC, bind_getC]
  have h1 : Ctl R { s with heap := s.heap.upd p fun c => { c with empty := false } } := h.data fun _ => ⟨rfl, rfl⟩
  have hdd : ∀ a, ((s.heap.upd p fun c => { c with empty := false }) a).disp = (s.heap a).disp := fun a =>
    ((SameCtl.upd (h := s.heap) (p := p) (f := fun c => { c with empty := false }) fun _ => ⟨rfl, rfl⟩) a).1
  simp only
  cases hlk : lookup x 0 ms with
  | some a =>
    obtain ⟨n, sh⟩ := a
    simp only
    rw [hdd]
    split
    · rename_i hdp
      rw [bind_push]
      refine h1.push (q := q) (rest := rest) hs (hmem n sh hlk) ?_ (hl hdp _)
      rw [hdd]; exact hcl hdp _ ⟨_, hmem n sh hlk⟩
    · rename_i hdp; exact hd (by simpa using hdp) (by rw [hlk]; simp)
  | none =>
    simp only
    split
    · exact h1
    · rw [hdd]
      split
      · rename_i hdp
        rw [bind_push]
        refine h1.push (q := q) (rest := rest) hs hign ?_ (hl hdp _)
        rw [hdd]; exact hcl hdp _ ⟨_, hign⟩
      · rename_i hu hdp; exact hd (by simpa using hdp) (fun h => absurd h hu)

/-- The parser at `p` gets the token although `q` is on top: `p` is reached through arrays. -/
def Delegated (R : Shape) (t : Token) (p q : Path) (sh : Shape) : Prop :=
  p = q ∨ (∃ p' st, p = .elem :: p' ∧ R.at p' = some (.array st sh) ∧ Below q p' ∧ (t = .null ∨ ∃ v, t = .scalar v))

theorem onF_ctlU (t : Token) (sh : Shape) : ∀ (U : Prop) (G : Path → Prop) (p q : Path) (rest : List Path) (s : St),
    (∀ v p' st ty tm b ms, t = .scalar v → Below q p' → R.at p' = some (.array st (.union ty tm b ms)) → v.ty = ty → G p' →
      (s.heap (.elem :: p')).disp = false → (lookup v 0 ms).isSome = true → U) →
    (∀ p', (s.heap p').started = true → (∃ st e, R.at p' = some (.array st e)) → (p' = q ∨ ∃ p'', p' = .elem :: p'' ∧ G p'') → G p') → (∀ p', p = .elem :: p' → p ≠ q → G p') →
    Ctl R s → s.stack = q :: rest → R.at p = some sh → Delegated R t p q sh → CtlFineU R U (onF E R sh p t s) := by
  induction sh using Shape.arrInd with
  | value ty =>
    intro U G p q rest s hU hG hg h hs hR hd
    cases t with
    | null => exact h.nullBase _ _
    | scalar v =>
      simp only [onF]
      split
      · rw [setNotEmpty_def, bind_modC, bind_modC]
        refine Ctl.endP ?_ _ _
        refine Ctl.shrink h ?_ ?_
        · exact List.suffix_refl _
        exact SameCtl.trans (h' := s.heap.upd p fun c => { c with empty := false }) (SameCtl.upd fun _ => ⟨rfl, rfl⟩)
          (SameCtl.upd fun _ => ⟨rfl, rfl⟩)
      · exact h
    | _ => exact h
  | ignore =>
    intro U G p q rest s hU hG hg h hs hR hd
    cases t with
    | null => exact h.nullBase _ _
    | scalar v =>
      simp only [onF, bind_getC]
      split
      · exact h.endP _ _
      · exact h
    | mapStart => exact h.data fun _ => ⟨rfl, rfl⟩
    | arrStart => exact h.data fun _ => ⟨rfl, rfl⟩
    | mapKey k =>
      simp only [onF, bind_getC]
      match (s.heap p).struct with
      | true :: _ => exact h
      | false :: _ => exact h
      | [] => exact h
    | mapEnd =>
      simp only [onF, bind_getC]
      match (s.heap p).struct with
      | true :: r =>
        simp only [bind_modC]
        split
        · refine Ctl.endP ?_ _ _
          apply Ctl.data h
          exact fun _ => ⟨rfl, rfl⟩
        · apply Ctl.data h
          exact fun _ => ⟨rfl, rfl⟩
      | false :: _ => exact h
      | [] => exact h
    | arrEnd =>
      simp only [onF, bind_getC]
      match (s.heap p).struct with
      | false :: r =>
        simp only [bind_modC]
        split
        · refine Ctl.endP ?_ _ _
          apply Ctl.data h
          exact fun _ => ⟨rfl, rfl⟩
        · apply Ctl.data h
          exact fun _ => ⟨rfl, rfl⟩
      | true :: _ => exact h
      | [] => exact h
  | object k u ms =>
    intro U G p q rest s hU hG hg h hs hR hd
    cases t with
    | null => exact h.nullBase _ _
    | mapStart => exact h.shrink (List.suffix_refl _) (resetH_ctl _ _ _)
    | mapKey key =>
      simp only [onF]
      have hpq : p = q := by
        rcases hd with hd | ⟨_, _, _, _, _, hd | ⟨_, hd⟩⟩
        · exact hd
        · simp at hd
        · simp at hd
      subst hpq
      have hdp := (h.valid p (by simp [hs])).2
      refine CtlFine.bind (h.onMember hs (fun n sh hl => ?_) (at_ign_object hR) ?_ (fun _ st => Or.inl ⟨st, rfl⟩) (fun h => by rw [hdp] at h; cases h)) fun _ _ _ h' => h'
      · obtain ⟨i, hi⟩ := lookup_mem hl
        exact at_mem_object hR hi
      · intro _ st ⟨c, hc⟩
        exact h.closed p _ st c hR hdp (by simp) (by simpa [Shape.at, hR] using hc)
    | mapEnd => exact h.endP _ _
    | _ => exact h
  | union ty tm b ms =>
    intro U G p q rest s hU hG hg h hs hR hd
    cases t with
    | null => exact h.nullBase _ _
    | scalar v =>
      simp only [onF]
      split
      · rw [bind_modH]
        have h1 : Ctl R { s with heap := resetH p (.union ty tm b ms) s.heap } := h.shrink (List.suffix_refl _) (resetH_ctl _ _ _)
        refine CtlFine.bind (h1.onMember (q := q) (rest := rest) hs (fun n sh hl => ?_) ?_ ?_ ?_ ?_) fun r s' _ h' => ?_
        · obtain ⟨i, hi⟩ := lookup_mem hl
          exact at_mem_union hR hi
        · simp [Shape.at, hR, Shape.child]
        · intro hdp st ⟨c, hc⟩
          exact h1.closed p _ st c hR hdp (by simp) (by simpa [Shape.at, hR] using hc)
        · intro hdp st
          rcases hd with rfl | ⟨p', a, rfl, hp', hb, _⟩
          · exact Or.inl ⟨st, rfl⟩
          · refine Or.inr ⟨⟨_, _, _, _, _, _, hp'⟩, ?_, ?_⟩
            · exact (hb.trans (Below.cons _ _)).trans (Below.cons _ _)
            · rintro rfl
              have := hb.length_le
              simp at this; omega
        · intro hdp hlk
          have hdp' : (s.heap p).disp = false := by rw [← (resetH_ctl (.union ty tm b ms) p s.heap p).1]; exact hdp
          rcases hd with rfl | ⟨p', a, rfl, hp', hb, _⟩
          · have := (h.valid p (by simp [hs])).2; rw [hdp'] at this; cases this
          · refine hU v p' _ _ _ _ _ rfl hb hp' ‹_› (hg p' rfl ?_) hdp' (hlk rfl)
            rintro rfl
            have := hb.length_le
            simp at this; omega
        · cases r with
          | some n => exact h'.data fun _ => ⟨rfl, rfl⟩
          | none => exact h'
      · exact h
    | mapStart =>
      simp only [onF]
      split
      · exact h
      · exact h.shrink (List.suffix_refl _) (resetH_ctl _ _ _)
    | mapKey key =>
      simp only [onF]
      split
      · exact h
      · split
        · exact h
        · exact h
    | mapEnd => exact h.endP _ _
    | _ => exact h
  | map st e =>
    intro U G p q rest s hU hG hg h hs hR hd
    cases t with
    | null => exact h.nullBase _ _
    | mapStart => exact h.shrink (List.suffix_refl _) (resetH_ctl _ _ _)
    | mapKey key =>
      have hpq : p = q := by
        rcases hd with hd | ⟨_, _, _, _, _, hd | ⟨_, hd⟩⟩
        · exact hd
        · simp at hd
        · simp at hd
      subst hpq
      have hdp := (h.valid p (by simp [hs])).2
      simp only [onF, setNotEmpty_def, bind_modC, bind_getC, upd_same]
      rw [if_pos hdp, bind_push]
      have h1 : Ctl R { s with heap := s.heap.upd p fun c => { c with empty := false } } := h.data fun _ => ⟨rfl, rfl⟩
      have hde : (s.heap (.elem :: p)).disp = true := h.closed p _ .elem e hR hdp (by simp) rfl
      exact (h1.push (q := p) (rest := rest) hs (at_elem_map hR) (by simp [upd_other, hde]) (Or.inl ⟨.elem, rfl⟩)).data fun _ => ⟨rfl, rfl⟩
    | mapEnd => exact h.endP _ _
    | _ => exact h
  | array st e ih =>
    intro U G p q rest s hU hG hg h hs hR hd
    have hRe := at_elem_array hR
    have hb : Below q p := by
      rcases hd with rfl | ⟨p', a, rfl, hp', hb, _⟩
      · exact Below.refl _
      · exact hb.trans (Below.cons _ _)
    have top : (∀ v, t ≠ .scalar v) → t ≠ .null → p = q := by
      intro h1 h2
      rcases hd with rfl | ⟨p', a, rfl, hp', hb, h3 | ⟨v, h3⟩⟩
      · rfl
      · exact absurd h3 h2
      · exact absurd h3 (h1 v)
    have hgp : (s.heap p).started = true → G p := fun hst => hG p hst ⟨st, e, hR⟩ (by
      by_cases hpq : p = q
      · exact .inl hpq
      · rcases hd with rfl | ⟨p', a, rfl, _⟩
        · exact absurd rfl hpq
        · exact .inr ⟨p', rfl, hg p' rfl hpq⟩)
    cases t with
    | null =>
      simp only [onF, bind_getC]
      split
      · exact h.nullBase _ _
      · rename_i hst
        exact ih U G _ q rest s hU hG (fun p' hp' _ => by injection hp' with _ hp'; subst hp'; exact hgp (by simpa using hst)) h hs hRe (Or.inr ⟨p, st, rfl, hR, hb, Or.inl rfl⟩)
    | scalar v =>
      simp only [onF, bind_getC]
      split
      · exact h
      · rename_i hst
        refine CtlFine.bind (ih U G _ q rest s hU hG (fun p' hp' _ => by injection hp' with _ hp'; subst hp'; exact hgp (by simpa using hst)) h hs hRe (Or.inr ⟨p, st, rfl, hR, hb, Or.inr ⟨v, rfl⟩⟩)) fun _ s1 _ h1 => ?_
        rw [setNotEmpty_def, bind_modC, chP_arrChild hR]
        exact (Loc.arrChild st p).ctl (h1.data fun _ => ⟨rfl, rfl⟩)
    | mapStart =>
      obtain rfl := top (by simp) (by simp)
      have hdp := (h.valid p (by simp [hs])).2
      simp only [onF, bind_getC, hdp, setNotEmpty_def]
      split
      · exact h
      · rw [if_neg (by simp)]
        have h2 := (h.data (p := p) (f := fun c => { c with empty := false }) fun _ => ⟨rfl, rfl⟩).setDisp hRe
        refine ih U (fun _ => True) _ (.elem :: p) _ _ (by simp) (by simp) (by simp) (h2.push (q := p) (rest := rest) hs hRe (setDispH_self _ _ _) (Or.inl ⟨_, rfl⟩)) rfl hRe (Or.inl rfl)
    | arrStart =>
      obtain rfl := top (by simp) (by simp)
      have hdp := (h.valid p (by simp [hs])).2
      simp only [onF, bind_getC, hdp, setNotEmpty_def]
      split
      · have h1 : Ctl R { s with heap := resetH p (.array st e) s.heap } := h.shrink (List.suffix_refl _) (resetH_ctl _ _ _)
        exact h1.start hR
      · rw [if_neg (by simp)]
        have h2 := (h.data (p := p) (f := fun c => { c with empty := false }) fun _ => ⟨rfl, rfl⟩).setDisp hRe
        refine ih U (fun _ => True) _ (.elem :: p) _ _ (by simp) (by simp) (by simp) (h2.push (q := p) (rest := rest) hs hRe (setDispH_self _ _ _) (Or.inl ⟨_, rfl⟩)) rfl hRe (Or.inl rfl)
    | arrEnd =>
      simp only [onF, bind_modC]
      exact (h.start hR).endP _ _
    | mapKey k => exact h
    | mapEnd => exact h

theorem onF_ctl (t : Token) (sh : Shape) (p q : Path) (rest : List Path) (s : St) (h : Ctl R s) (hs : s.stack = q :: rest)
    (hR : R.at p = some sh) (hd : Delegated R t p q sh) : CtlFine R (onF E R sh p t s) :=
  onF_ctlU t sh _ (fun _ => True) p q rest s (fun v p' st ty tm b ms _ _ h _ _ _ _ => ⟨p', st, ty, tm, b, ms, h⟩) (by simp) (by simp) h hs hR hd

theorem dispatch_ctl (t : Token) {s : St} (h : Ctl R s) : CtlFine R (dispatch E R t s) := by
  match hs : s.stack with
  | [] => rw [dispatch_nil hs]; exact h
  | p :: rest =>
    obtain ⟨⟨sh, hR⟩, _⟩ := h.valid p (by simp [hs])
    rw [dispatch_cons hs hR]
    exact onF_ctl t sh p p rest s h hs hR (Or.inl rfl)

theorem run_ctl (ts : List Token) : ∀ {s : St}, Ctl R s → CtlFine R (run E R ts s) := by
  induction ts with
  | nil => intro s h; exact h
  | cons t ts ih =>
    intro s h
    rw [run_cons]
    exact CtlFine.bind (dispatch_ctl t h) fun _ _ _ h' => ih h'

theorem Ctl.init (R : Shape) : Ctl R (St.init R) where
  linked := rfl
  valid := by
    intro p hp
    have : p = [] := by simpa [St.init] using hp
    subst this
    exact ⟨⟨R, rfl⟩, setDispH_self _ _ _⟩
  closed := DClosed.setDispH DClosed.fresh rfl
  root := setDispH_self _ _ _
  arr := fun q hq => by
    change (attach R Heap.fresh q).started = true at hq
    unfold attach at hq; rw [(setDispH_only R [] Heap.fresh).started] at hq; simp [Heap.fresh] at hq

theorem Ctl.restart {s : St} (h : Ctl R s) : Ctl R s.restart where
  linked := rfl
  valid := by
    intro p hp
    have : p = [] := by simpa [St.restart] using hp
    subst this
    exact ⟨⟨R, rfl⟩, h.root⟩
  closed := h.closed
  root := h.root
  arr := h.arr

theorem History.ctl {s : St} (h : History R s) : Ctl R s := by
  induction h with
  | init => exact Ctl.init R
  | @tokens E _ _ ts _ hr ih => have := run_ctl (E := E) ts ih; rw [hr] at this; exact this
  | @failed E _ _ ts e _ hr ih => have := run_ctl (E := E) ts ih; rw [hr] at this; exact this
  | restart _ ih => exact ih.restart
  | @pop _ _ p _ _ _ _ _ hp ih => have := (Loc.popVal p).ctl (U := False) ih; unfold pop' at hp; rw [hp] at this; exact this
  | @reset _ p sh _ _ ih => exact ih.shrink (List.suffix_refl _) (resetH_ctl sh p _)

end SJ
