/-
The state machine, fed with the tokens of a JSON value, does what the recursive-descent reading
(`evalVal`) says.
-/
import Verif.Proofs.Local

set_option linter.unusedVariables false

namespace SJ

variable {E : Env} {R : Shape}

/-! ### Monad laws -/

theorem bind_assoc {α β γ} (m : M α) (f : α → M β) (g : β → M γ) :
    M.bind (M.bind m f) g = M.bind m fun a => M.bind (f a) g := by
  funext s; unfold M.bind; cases m s <;> rfl

@[simp] theorem bind_pure_left {α β} (a : α) (f : α → M β) : M.bind (M.pure a) f = f a := rfl

theorem bind_ok {α β} {m : M α} {f : α → M β} {s a s'} (h : m s = .ok a s') : M.bind m f s = f a s' := by
  unfold M.bind; rw [h]

theorem bind_modC {β} (p f) (k : Unit → M β) (s : St) :
    M.bind (modC p f) k s = k () { s with heap := s.heap.upd p f } := rfl
theorem bind_modH {β} (f) (k : Unit → M β) (s : St) :
    M.bind (modH f) k s = k () { s with heap := f s.heap } := rfl
theorem bind_getC {β} (p) (k : Cell → M β) (s : St) : M.bind (getC p) k s = k (s.heap p) s := rfl
theorem bind_push {β} (p) (k : Unit → M β) (s : St) :
    M.bind (pushParser p) k s = k () { s with stack := p :: s.stack } := rfl
theorem bind_drop {β} (k : Unit → M β) (s : St) :
    M.bind dropTop k s = k () { s with stack := s.stack.tail } := rfl
theorem bind_throw {α β} (m) (k : α → M β) : M.bind (throwStd m) k = throwStd m := rfl
theorem bind_unexpected {α β} (t) (k : α → M β) : M.bind (unexpected t) k = unexpected t := rfl
theorem setNotEmpty_def (p) : setNotEmpty p = modC p fun c => { c with empty := false } := rfl

/-! ### What a successful evaluation keeps -/

structure Keep (R : Shape) (p : Path) (h h' : Heap) : Prop where
  frame : Frame p h h'
  started : ∀ q, (h q).started = false → (h' q).started = false
  mono : ∀ q, (h q).disp = true → (h' q).disp = true
  closed : DClosed R h → DClosed R h'
  velem : ∀ q st ty, R.at q = some (.array st (.value ty)) → (h' (.elem :: q)).disp = (h (.elem :: q)).disp

theorem Keep.refl (R p h) : Keep R p h h := ⟨Frame.refl _ _, fun _ a => a, fun _ a => a, id, fun _ _ _ _ => rfl⟩
theorem Keep.trans {p h h' h''} (a : Keep R p h h') (b : Keep R p h' h'') : Keep R p h h'' :=
  ⟨a.frame.trans b.frame, fun q x => b.started q (a.started q x), fun q x => b.mono q (a.mono q x),
    fun x => b.closed (a.closed x), fun q st ty x => (b.velem q st ty x).trans (a.velem q st ty x)⟩
theorem Keep.up {p p' h h'} (a : Keep R p' h h') (hb : Below p p') : Keep R p h h' :=
  ⟨a.frame.up hb, a.started, a.mono, a.closed, a.velem⟩
theorem Keep.of_ctl {p h h'} (hf : Frame p h h') (hc : SameCtl h h') : Keep R p h h' :=
  ⟨hf, fun q x => by rw [(hc q).2]; exact x, fun q x => by rw [(hc q).1]; exact x, fun x => x.ctl hc, fun q _ _ _ => (hc _).1⟩
theorem Quiet.keep {p h h'} (a : Quiet p h h') : Keep R p h h' := Keep.of_ctl a.frame a.ctl
theorem Keep.reset (sh p h) : Keep R p h (resetH p sh h) := Keep.of_ctl (resetH_frame _ _ _) (resetH_ctl _ _ _)

/-- Nothing below `p` is in the middle of something, dispatcher pointers are passed on. -/
structure Sane (R : Shape) (p : Path) (h : Heap) : Prop where
  closed : DClosed R h
  started : ∀ q, Below p q → (h q).started = false
  velem : ∀ q st ty, Below p q → R.at q = some (.array st (.value ty)) → (h (.elem :: q)).disp = false

theorem Sane.down {p p' h} (a : Sane R p h) (hb : Below p p') : Sane R p' h :=
  ⟨a.closed, fun q hq => a.started q (hb.trans hq), fun q st ty hq => a.velem q st ty (hb.trans hq)⟩
theorem Sane.keep {p p' h h'} (a : Sane R p h) (k : Keep R p' h h') : Sane R p h' :=
  ⟨k.closed a.closed, fun q hq => k.started q (a.started q hq),
    fun q st ty hq hR => (k.velem q st ty hR).trans (a.velem q st ty hq hR)⟩

/-- `ok` results keep the stack and satisfy `Keep`. -/
def KeepM {α} (R : Shape) (p : Path) (m : M α) : Prop :=
  ∀ s a s', m s = .ok a s' → s'.stack = s.stack ∧ Keep R p s.heap s'.heap

theorem Loc.keep {α} {p} {m : M α} (h : Loc p m) : KeepM R p m := fun s a s' e =>
  ⟨(h.ok e).1, (h.ok e).2.keep⟩

theorem KeepM.bind {α β} {p} {m : M α} {f : α → M β} (hm : KeepM R p m) (hf : ∀ a, KeepM R p (f a)) :
    KeepM R p (M.bind m f) := by
  intro s b s' e
  unfold M.bind at e
  cases hc : m s with
  | ok a s1 =>
    rw [hc] at e
    have h1 := hm _ _ _ hc
    have h2 := hf a _ _ _ e
    exact ⟨h2.1.trans h1.1, h1.2.trans h2.2⟩
  | _ => rw [hc] at e; simp at e

theorem KeepM.up {α} {p p'} {m : M α} (h : KeepM R p' m) (hb : Below p p') : KeepM R p m :=
  fun s a s' e => ⟨(h s a s' e).1, (h s a s' e).2.up hb⟩

theorem KeepM.never {α} {p} {m : M α} (h : ∀ s a s', m s ≠ .ok a s') : KeepM R p m :=
  fun s a s' e => absurd e (h s a s')

theorem KeepM.throwStd {α} {p} (m) : KeepM R p (throwStd m : M α) := KeepM.never fun _ _ _ => by simp [SJ.throwStd]
theorem KeepM.unexpected {α} {p} (t) : KeepM R p (unexpected t : M α) := KeepM.throwStd _
theorem KeepM.ub {α} {p} : KeepM R p (fun _ => .ub : M α) := KeepM.never fun _ _ _ => by simp
theorem KeepM.pure {α} {p} (a : α) : KeepM R p (M.pure a) := (Loc.pure p a).keep
theorem KeepM.reset (sh p) : KeepM R p (modH (resetH p sh)) := by
  intro s a s' e; injection e with _ e; subst e; exact ⟨rfl, Keep.reset _ _ _⟩
theorem KeepM.ite {α} {p} {c : Prop} [Decidable c] {a b : M α} (ha : KeepM R p a) (hb : KeepM R p b) :
    KeepM R p (if c then a else b) := by split <;> assumption

/-- Push, work, drop. -/
theorem KeepM.push {β} {p q} {m : M Unit} {k : M β} (hm : KeepM R p m) (hk : KeepM R p k) :
    KeepM R p (M.bind (pushParser q) fun _ => M.bind m fun _ => M.bind dropTop fun _ => k) := by
  intro s b s' e
  rw [bind_push] at e
  unfold M.bind at e
  cases hc : m { s with stack := q :: s.stack } with
  | ok a s1 =>
    rw [hc] at e
    have h1 := hm _ _ _ hc
    have h2 := hk _ _ _ e
    simp only at h1 h2
    exact ⟨by rw [h2.1, h1.1]; rfl, h1.2.trans h2.2⟩
  | _ => rw [hc] at e; simp at e

theorem lookup_get {x : Scalar} : ∀ {ms : List (MInfo × Shape)} {n a sh}, lookup x n ms = some (a, sh) →
    ∃ i, n ≤ a ∧ ms[a - n]? = some (i, sh) ∧ i.name.cppEq x = true
  | [], n, a, sh, h => by simp [lookup] at h
  | (i, sh') :: ms, n, a, sh, h => by
    unfold lookup at h
    split at h
    · rename_i hx
      simp at h; obtain ⟨rfl, rfl⟩ := h
      exact ⟨i, Nat.le_refl _, by simp, hx⟩
    · obtain ⟨i', h1, h2, h3⟩ := lookup_get h
      refine ⟨i', by omega, ?_, h3⟩
      rw [show a - n = (a - (n + 1)) + 1 by omega]; simpa using h2

theorem lookup_mem {x : Scalar} {ms : List (MInfo × Shape)} {a sh} (h : lookup x 0 ms = some (a, sh)) :
    ∃ i, ms[a]? = some (i, sh) := by
  obtain ⟨i, _, h2, _⟩ := lookup_get h
  exact ⟨i, by simpa using h2⟩

theorem at_mem_object {p k u ms a i sh} (hR : R.at p = some (.object k u ms)) (h : ms[a]? = some (i, sh)) :
    R.at (.mem a :: p) = some sh := by simp [Shape.at, hR, Shape.child, h]
theorem at_mem_union {p ty tm st ms a i sh} (hR : R.at p = some (.union ty tm st ms))
    (h : ms[a]? = some (i, sh)) : R.at (.mem a :: p) = some sh := by simp [Shape.at, hR, Shape.child, h]
theorem at_ign_object {p k u ms} (hR : R.at p = some (.object k u ms)) :
    R.at (.ign :: p) = some .ignore := by simp [Shape.at, hR, Shape.child]
theorem at_elem_array {p st e} (hR : R.at p = some (.array st e)) :
    R.at (.elem :: p) = some e := by simp [Shape.at, hR, Shape.child]
theorem at_elem_map {p st e} (hR : R.at p = some (.map st e)) :
    R.at (.elem :: p) = some e := by simp [Shape.at, hR, Shape.child]

theorem resetH_ign_object (k u ms p h) : (resetH p (.object k u ms) h (.ign :: p)).struct = [] := by
  cases k <;> simp [resetH, Heap.upd]

/-- The parser that reads the fields has a clean ignore parser. -/
def IgnOk (sh : Shape) (p : Path) (h : Heap) : Prop :=
  match sh with
  | .object _ _ _ => (h (.ign :: p)).struct = []
  | .ignore => (h p).struct = []
  | _ => True

theorem resetH_ignOk (sh p h) : IgnOk sh p (resetH p sh h) := by
  cases sh <;> simp only [IgnOk]
  · simp [resetH]
  · exact resetH_ign_object _ _ _ _ _

theorem IgnOk.congr {sh p} {h h' : Heap} (a : IgnOk sh p h)
    (e : (h' (.ign :: p)).struct = (h (.ign :: p)).struct) (e' : (h' p).struct = (h p).struct) :
    IgnOk sh p h' := by
  cases sh <;> simp only [IgnOk] at *
  · rw [e', a]
  · rw [e, a]

theorem IgnOk.quiet {sh p q} {h h' : Heap} (a : IgnOk sh p h) (e : Quiet q h h') : IgnOk sh p h' :=
  a.congr (e.struct _) (e.struct _)

theorem resetH_union_member {ty tm st} {ms : List (MInfo × Shape)} {a i sh p} (h : Heap)
    (hm : ms[a]? = some (i, sh)) {q} (hq : Below (.mem a :: p) q) :
    resetH p (.union ty tm st ms) h q = resetH (.mem a :: p) sh h q := by
  have hqp : q ≠ p := ne_of_below_step hq
  have hqi : q ≠ .ign :: p := by
    rintro rfl
    exact below_disjoint (st := .mem a) (st' := .ign) (by simp) hq (Below.refl _)
  have key : ((resetMs p 0 ms ((h.upd p fun c => { c with curId := 0 }).upd p Cell.baseReset)).upd (.ign :: p)
      fun c => { c.baseReset with struct := [] }) q = resetH (.mem a :: p) sh h q := by
    rw [upd_other hqi, resetMs_at ms p 0 _ a i sh hm q (by rw [Nat.zero_add]; exact hq), Nat.zero_add]
    exact resetH_ptw sh _ _ _ q (by rw [upd_other hqp, upd_other hqp])
  cases st
  · simp only [resetH, Bool.false_eq_true, if_false]; exact key
  · simp only [resetH, if_true]; rw [upd_other hqp]; exact key

theorem select_ok {p ty tm st ms x} {s a s'} (h : select E ty tm st ms p x s = .ok a s') :
    lookup x 0 ms = some a ∧ s'.stack = (.mem a.1 :: p) :: s.stack ∧ Keep R p s.heap s'.heap ∧
    IgnOk a.2 (.mem a.1 :: p) s'.heap := by
  unfold select at h
  rw [bind_modH, setNotEmpty_def, bind_modC] at h
  cases hl : lookup x 0 ms with
  | none => rw [hl] at h; simp [throwStd] at h
  | some b =>
    obtain ⟨n, ash⟩ := b
    rw [hl] at h
    simp only [bind_push, bind_modC] at h
    injection h with h1 h2
    subst h1; subst h2
    have hq : Quiet p (resetH p (.union ty tm st ms) s.heap)
        (((resetH p (.union ty tm st ms) s.heap).upd p fun c => { c with empty := false }).upd p
          fun c => { c with curId := n }) :=
      Quiet.trans (h' := (resetH p (.union ty tm st ms) s.heap).upd p fun c => { c with empty := false })
        (by apply Quiet.upd; exact fun _ => ⟨rfl, rfl, rfl⟩) (by apply Quiet.upd; exact fun _ => ⟨rfl, rfl, rfl⟩)
    refine ⟨rfl, rfl, (Keep.reset _ _ _).trans hq.keep, ?_⟩
    obtain ⟨i, hi⟩ := lookup_mem hl
    refine IgnOk.quiet ?_ hq
    exact (resetH_ignOk ash (.mem n :: p) s.heap).congr
      (by rw [resetH_union_member _ hi (Below.cons _ _)]) (by rw [resetH_union_member _ hi (Below.refl _)])

/-- Selection of an alternative, which pushes it, work, drop. -/
theorem KeepM.select {β} {p ty tm st ms x} {m : Nat × Shape → M Unit} {k : Nat × Shape → M β}
    (hm : ∀ a, lookup x 0 ms = some a → KeepM R p (m a)) (hk : ∀ a, KeepM R p (k a)) :
    KeepM R p (M.bind (select E ty tm st ms p x) fun a => M.bind (m a) fun _ => M.bind dropTop fun _ => k a) := by
  intro s b s' e
  cases hc : SJ.select E ty tm st ms p x s with
  | ok a s0 =>
    rw [bind_ok hc] at e
    have h0 := select_ok (R := R) hc
    unfold M.bind at e
    cases hc' : m a s0 with
    | ok u s1 =>
      rw [hc'] at e
      have h1 := hm a h0.1 _ _ _ hc'
      have h2 := hk a _ _ _ e
      simp only at h1 h2
      exact ⟨by rw [h2.1, h1.1, h0.2.1]; rfl, (h0.2.2.1.trans h1.2).trans h2.2⟩
    | _ => rw [hc'] at e; simp at e
  | _ => unfold M.bind at e; rw [hc] at e; simp at e

theorem bind_ok_inv {α β} {m : M α} {f : α → M β} {s b s'} (h : M.bind m f s = .ok b s') :
    ∃ a s1, m s = .ok a s1 ∧ f a s1 = .ok b s' := by
  unfold M.bind at h
  cases hc : m s with
  | ok a s1 => rw [hc] at h; exact ⟨a, s1, rfl, h⟩
  | _ => rw [hc] at h; simp at h

theorem DClosed.congr {h h' : Heap} (hd : DClosed R h) (hc : ∀ q, (h' q).disp = (h q).disp) : DClosed R h' := by
  intro q sh st c h1 h2 h3 h4
  rw [hc] at h2 ⊢
  exact hd q sh st c h1 h2 h3 h4

theorem upd_started_disp {h : Heap} {p b} (q) : (h.upd p (fun c => { c with started := b }) q).disp = (h q).disp := by
  rw [upd_apply]; split <;> rfl

theorem Keep.of_started {p h h'} (k : Keep R p (h.upd p fun c => { c with started := true }) h') :
    Keep R p h (h'.upd p fun c => { c with started := false }) := by
  refine ⟨?_, ?_, ?_, ?_, ?_⟩
  · exact (Frame.upd _ _ _).trans (k.frame.trans (Frame.upd _ _ _))
  · intro q hq
    rw [upd_apply]; split
    · rfl
    · rename_i hne; exact k.started q (by rw [upd_other hne]; exact hq)
  · intro q hq
    rw [upd_started_disp]; exact k.mono q (by rw [upd_started_disp]; exact hq)
  · intro hd
    exact (k.closed (hd.congr upd_started_disp)).congr upd_started_disp
  · intro q st ty hR
    rw [upd_started_disp, k.velem q st ty hR, upd_started_disp]

theorem Keep.setDisp {p st e h} (hR : R.at p = some (.array st e)) (he : ∀ ty, e ≠ .value ty) :
    Keep R p h (SJ.setDispH (.elem :: p) e h) := by
  have hRe := at_elem_array hR
  refine ⟨(setDispH_frame _ _ _).up (Below.cons _ _), fun q hq => ?_, fun q hq => ?_, fun hd => hd.setDispH hRe, ?_⟩
  · rw [(setDispH_only _ _ _).started]; exact hq
  · exact (setDispH_only _ _ _).mono hq
  · intro q st' ty hRq
    rcases Bool.eq_false_or_eq_true (h (.elem :: q)).disp with hd | hd
    · rw [hd]; exact (setDispH_only _ _ _).mono hd
    · rw [hd]
      rcases Bool.eq_false_or_eq_true (SJ.setDispH (.elem :: p) e h (.elem :: q)).disp with hd' | hd'
      · exfalso
        rcases setDispH_disp e _ h _ hd' with hx | hx
        · rw [hd] at hx; simp at hx
        · rcases hx.not_elem hRe with hy | ⟨s, q', sh', h1, h2, h3⟩
          · simp at hy; subst hy
            rw [hR] at hRq; simp at hRq
            exact he ty hRq.2
          · simp at h1; obtain ⟨rfl, rfl⟩ := h1
            rw [hRq] at h2; simp at h2
            exact h3 _ _ h2.symm
      · exact hd'

theorem KeepM.setDisp {p st e} (hR : R.at p = some (.array st e)) (he : ∀ ty, e ≠ .value ty) :
    KeepM R p (modH (setDispH (.elem :: p) e)) := by
  intro s a s' h; injection h with _ h; subst h; exact ⟨rfl, Keep.setDisp hR he⟩

theorem embedded_some {m v ty st ms x} (h : embedded m v = some (ty, st, ms, x)) :
    m = .union ty "" st ms ∧ v = .sc x ∧ x.ty = ty := by
  unfold embedded at h
  split at h
  · split at h
    · rename_i hc
      simp only [Option.some.injEq, Prod.mk.injEq] at h
      obtain ⟨rfl, rfl, rfl, rfl⟩ := h
      exact ⟨by rw [hc.1], rfl, hc.2⟩
    · simp at h
  · simp at h

mutual
theorem evalVal_keep : ∀ (j : Json) (sh : Shape) (p : Path), R.at p = some sh → KeepM R p (evalVal E sh p j)
  | .null, sh, p, hR => by unfold evalVal; exact KeepM.reset _ _
  | .sc x, sh, p, hR => by
    unfold evalVal
    cases sh with
    | value ty =>
      refine KeepM.ite ?_ (KeepM.unexpected _)
      refine Loc.keep (Loc.bind (Loc.setNotEmpty _) fun _ => Loc.bind (Loc.modC ?_) fun _ => Loc.complete _ _)
      exact fun _ => ⟨rfl, rfl, rfl⟩
    | ignore => exact (Loc.complete _ _).keep
    | union ty tm st ms => exact KeepM.ite KeepM.ub (KeepM.unexpected _)
    | _ => exact KeepM.unexpected _
  | .arr l, sh, p, hR => by
    unfold evalVal
    cases sh with
    | array st e =>
      refine KeepM.bind (KeepM.reset _ _) fun _ => ?_
      intro s a s' he
      rw [bind_modC] at he
      obtain ⟨u, s1, hc, he⟩ := bind_ok_inv he
      rw [bind_modC] at he
      have h1 := evalElems_keep l st e p hR _ _ _ hc
      have h2 := (Loc.complete (.array st e) p).keep (R := R) _ _ _ he
      exact ⟨h2.1.trans h1.1, h1.2.of_started.trans h2.2⟩
    | ignore => exact (Loc.complete _ _).keep
    | _ => exact KeepM.unexpected _
  | .obj fs, sh, p, hR => by
    unfold evalVal
    cases sh with
    | object k u ms => exact KeepM.bind (KeepM.reset _ _) fun _ => evalFields_keep fs _ _ hR
    | map st e => exact KeepM.bind (KeepM.reset _ _) fun _ => evalFields_keep fs _ _ hR
    | union ty tm st ms =>
      exact KeepM.ite (KeepM.throwStd _) (KeepM.bind (KeepM.reset _ _) fun _ => evalFields_keep fs _ _ hR)
    | ignore => exact (Loc.complete _ _).keep
    | _ => exact KeepM.unexpected _
theorem evalFields_keep : ∀ (fs : List (String × Json)) (sh : Shape) (p : Path), R.at p = some sh →
    KeepM R p (evalFields E sh p fs)
  | [], sh, p, hR => by
    unfold evalFields
    cases sh <;> first | exact (Loc.complete _ _).keep | exact KeepM.unexpected _
  | (k, v) :: fs, sh, p, hR => by
    unfold evalFields
    cases sh with
    | object kd u ms =>
      refine KeepM.bind (Loc.setNotEmpty _).keep fun _ => ?_
      split
      · rename_i n m hl
        obtain ⟨i, hi⟩ := lookup_mem hl
        have hRm := at_mem_object hR hi
        split
        · rename_i ty st ms' x he
          obtain ⟨rfl, rfl, hty⟩ := embedded_some he
          have hm : KeepM R p (M.bind (SJ.select E ty "" st ms' (.mem n :: p) x) fun a =>
              M.bind (evalFields E a.2 (.mem a.1 :: .mem n :: p) fs) fun _ => M.bind dropTop fun _ =>
              complete E (.union ty "" st ms') (.mem n :: p)) := by
            refine (KeepM.select (fun a ha => ?_) fun a => (Loc.complete _ _).keep).up (Below.cons _ _)
            obtain ⟨i, hi⟩ := lookup_mem (a := a.1) (sh := a.2) ha
            exact (evalFields_keep fs _ _ (at_mem_union hRm hi)).up (Below.cons _ _)
          have := KeepM.push (q := .mem n :: p) hm (Loc.complete (E := E) (.object kd u ms) p).keep
          simpa only [bind_assoc] using this
        · rename_i he
          exact KeepM.push ((evalVal_keep v m _ hRm).up (Below.cons _ _)) (evalFields_keep fs _ _ hR)
      · refine KeepM.ite (KeepM.throwStd _) ?_
        exact KeepM.push ((evalVal_keep v .ignore _ (at_ign_object hR)).up (Below.cons _ _)) (evalFields_keep fs _ _ hR)
    | map st e =>
      refine KeepM.bind (Loc.setNotEmpty _).keep fun _ => ?_
      have hRe := at_elem_map hR
      have hkey : KeepM R p (modC p fun c => { c with curKey := k }) := Loc.keep (by apply Loc.modC; exact fun _ => ⟨rfl, rfl, rfl⟩)
      split
      · rename_i ty st' ms' x he
        obtain ⟨rfl, rfl, hty⟩ := embedded_some he
        have hm : KeepM R p (M.bind (SJ.select E ty "" st' ms' (.elem :: p) x) fun a =>
            M.bind (evalFields E a.2 (.mem a.1 :: .elem :: p) fs) fun _ => M.bind dropTop fun _ =>
            complete E (.union ty "" st' ms') (.elem :: p)) := by
          refine (KeepM.select (fun a ha => ?_) fun a => (Loc.complete _ _).keep).up (Below.cons _ _)
          obtain ⟨i, hi⟩ := lookup_mem (a := a.1) (sh := a.2) ha
          exact (evalFields_keep fs _ _ (at_mem_union hRe hi)).up (Below.cons _ _)
        have := KeepM.push (q := .elem :: p) (hkey.bind fun _ => hm)
          (KeepM.bind (Loc.mapChild (E := E) st (.union ty "" st' ms') p).keep fun _ =>
            (Loc.complete (E := E) (.map st (.union ty "" st' ms')) p).keep)
        simpa only [bind_assoc] using this
      · have := KeepM.push (q := .elem :: p) (hkey.bind fun _ => (evalVal_keep v e _ hRe).up (Below.cons _ _))
          (KeepM.bind (Loc.mapChild (E := E) st e p).keep fun _ => evalFields_keep fs _ _ hR)
        simpa only [bind_assoc] using this
    | union ty tm st ms =>
      refine KeepM.ite (KeepM.throwStd _) (KeepM.ite (KeepM.throwStd _) ?_)
      cases v with
      | sc x =>
        refine KeepM.ite ?_ (KeepM.unexpected _)
        refine KeepM.select (fun a ha => ?_) fun a => (Loc.complete _ _).keep
        obtain ⟨i, hi⟩ := lookup_mem (a := a.1) (sh := a.2) ha
        exact (evalFields_keep fs _ _ (at_mem_union hR hi)).up (Below.cons _ _)
      | arr => exact KeepM.unexpected _
      | null => exact KeepM.ub
      | obj => exact KeepM.ub
    | _ => exact KeepM.unexpected _
theorem evalElems_keep : ∀ (l : List Json) (st : Bool) (e : Shape) (p : Path), R.at p = some (.array st e) →
    KeepM R p (evalElems E st e p l)
  | [], st, e, p, hR => by unfold evalElems; exact KeepM.pure _
  | .null :: l, st, e, p, hR => by
    unfold evalElems
    exact KeepM.bind ((KeepM.reset _ _).up (Below.cons _ _)) fun _ => evalElems_keep l st e p hR
  | .sc x :: l, st, e, p, hR => by
    unfold evalElems
    exact KeepM.bind ((evalVal_keep (.sc x) e _ (at_elem_array hR)).up (Below.cons _ _)) fun _ =>
      KeepM.bind (Loc.setNotEmpty _).keep fun _ => KeepM.bind (Loc.arrChild _ _).keep fun _ =>
      evalElems_keep l st e p hR
  | .arr l' :: l, st, e, p, hR => by
    unfold evalElems
    by_cases he : ∃ ty, e = .value ty
    · obtain ⟨ty, rfl⟩ := he
      exact KeepM.never fun s a s' h => by simp [evalVal, M.bind, modH, pushParser, setNotEmpty, modC, unexpected, throwStd] at h
    · refine KeepM.bind (Loc.setNotEmpty _).keep fun _ => KeepM.bind (KeepM.setDisp hR ?_) fun _ => ?_
      · intro ty h; exact he ⟨ty, h⟩
      · exact KeepM.push ((evalVal_keep (.arr l') e _ (at_elem_array hR)).up (Below.cons _ _))
          (KeepM.bind (Loc.arrChild _ _).keep fun _ => evalElems_keep l st e p hR)
  | .obj l' :: l, st, e, p, hR => by
    unfold evalElems
    by_cases he : ∃ ty, e = .value ty
    · obtain ⟨ty, rfl⟩ := he
      exact KeepM.never fun s a s' h => by simp [evalVal, M.bind, modH, pushParser, setNotEmpty, modC, unexpected, throwStd] at h
    · refine KeepM.bind (Loc.setNotEmpty _).keep fun _ => KeepM.bind (KeepM.setDisp hR ?_) fun _ => ?_
      · intro ty h; exact he ⟨ty, h⟩
      · exact KeepM.push ((evalVal_keep (.obj l') e _ (at_elem_array hR)).up (Below.cons _ _))
          (KeepM.bind (Loc.arrChild _ _).keep fun _ => evalElems_keep l st e p hR)
end

/-! ### The simulation -/

theorem endP_pop {sh p} {s : St} (hd : (s.heap p).disp = true) :
    endP E R sh p s = M.bind (complete E sh p) (fun _ => pop E R) s := by
  rw [endP_eq]
  refine bind_congr rfl fun _ s' h => ?_
  rw [bind_getC, ((Loc.complete sh p).ok h).2.ctl p |>.1, hd]; rfl

theorem nullBase_pop {sh p} {s : St} (hd : (s.heap p).disp = true) :
    nullBase E R sh p s = M.bind (modH (resetH p sh)) (fun _ => pop E R) s := by
  unfold nullBase
  refine bind_congr rfl fun _ s' h => ?_
  injection h with _ h; subst h
  rw [bind_getC]; simp only
  rw [(resetH_ctl sh p s.heap p).1, hd]; rfl

theorem run_dispatch {t ts} {s : St} {p stk sh} (hR : R.at p = some sh) (hs : s.stack = p :: stk) :
    run E R (t :: ts) s = M.bind (onF E R sh p t) (fun _ => run E R ts) s := by
  rw [run_cons]; exact bind_congr (dispatch_cons hs hR) fun _ _ _ => rfl

mutual
theorem ignore_val {p} (hR : R.at p = some .ignore) : ∀ (j : Json) (ts : List Token) (s : St) (stk),
    j.noNull = true → s.stack = p :: stk → (s.heap p).struct ≠ [] → run E R (events j ++ ts) s = run E R ts s
  | .null, ts, s, stk, hj, hs, hst => by simp [Json.noNull] at hj
  | .sc x, ts, s, stk, hj, hs, hst => by
    simp only [events, List.cons_append, List.nil_append]
    rw [run_dispatch hR hs]
    simp only [onF]
    rw [bind_assoc, bind_getC, if_neg hst]; rfl
  | .arr l, ts, s, stk, hj, hs, hst => by
    simp only [events, List.cons_append, List.append_assoc, List.nil_append]
    rw [run_dispatch hR hs]
    simp only [onF]
    rw [bind_modC]
    refine (ignore_elems hR l _ _ stk (by simpa [Json.noNull] using hj) ?_ ?_).trans ?_
    · exact hs
    · simp
    refine (run_dispatch (stk := stk) hR ?_).trans ?_
    · exact hs
    simp only [onF, bind_assoc, bind_getC, upd_same]
    rw [bind_modC, if_neg hst]
    simp only [upd_upd, bind_pure_left]
    rw [upd_id rfl]
  | .obj l, ts, s, stk, hj, hs, hst => by
    simp only [events, List.cons_append, List.append_assoc, List.nil_append]
    rw [run_dispatch hR hs]
    simp only [onF]
    rw [bind_modC]
    refine (ignore_fields hR l _ _ stk (by simpa [Json.noNull] using hj) ?_ ?_).trans ?_
    · exact hs
    · exact ⟨_, by simp; rfl⟩
    refine (run_dispatch (stk := stk) hR ?_).trans ?_
    · exact hs
    simp only [onF, bind_assoc, bind_getC, upd_same]
    rw [bind_modC, if_neg hst]
    simp only [upd_upd, bind_pure_left]
    rw [upd_id rfl]
theorem ignore_elems {p} (hR : R.at p = some .ignore) : ∀ (l : List Json) (ts : List Token) (s : St) (stk),
    noNullL l = true → s.stack = p :: stk → (s.heap p).struct ≠ [] →
    run E R (elemEvents l ++ ts) s = run E R ts s
  | [], ts, s, stk, hj, hs, hst => rfl
  | j :: l, ts, s, stk, hj, hs, hst => by
    simp only [noNullL, Bool.and_eq_true] at hj
    simp only [elemEvents, List.append_assoc]
    rw [ignore_val hR j _ s stk hj.1 hs hst, ignore_elems hR l _ s stk hj.2 hs hst]
theorem ignore_fields {p} (hR : R.at p = some .ignore) : ∀ (l : List (String × Json)) (ts : List Token) (s : St)
    (stk), noNullF l = true → s.stack = p :: stk → (∃ r, (s.heap p).struct = true :: r) →
    run E R (fieldEvents l ++ ts) s = run E R ts s
  | [], ts, s, stk, hj, hs, hst => rfl
  | (k, j) :: l, ts, s, stk, hj, hs, hst => by
    simp only [noNullF, Bool.and_eq_true] at hj
    simp only [fieldEvents, List.cons_append, List.append_assoc]
    obtain ⟨r, hr⟩ := hst
    rw [run_dispatch hR hs]
    simp only [onF]
    rw [bind_assoc, bind_getC, hr]
    simp only [bind_pure_left]
    rw [ignore_val hR j _ s stk hj.1 hs (by simp [hr]), ignore_fields hR l _ s stk hj.2 hs ⟨r, hr⟩]
end

/-- The ignore parser reads one value that has no null strictly inside. -/
theorem ignore_sim {p} (hR : R.at p = some .ignore) (j : Json) (ts : List Token) (s : St) (stk)
    (hj : j.skippable = true) (hs : s.stack = p :: stk) (hst : (s.heap p).struct = [])
    (hd : (s.heap p).disp = true) :
    run E R (events j ++ ts) s =
      M.bind (evalVal E .ignore p j) (fun _ => M.bind (pop E R) fun _ => run E R ts) s := by
  cases j with
  | null =>
    simp only [events, List.cons_append, List.nil_append]
    rw [run_dispatch hR hs]
    simp only [onF, evalVal, ← bind_assoc]
    exact bind_congr (nullBase_pop hd) fun _ _ _ => rfl
  | sc x =>
    simp only [events, List.cons_append, List.nil_append]
    rw [run_dispatch hR hs]
    simp only [onF, evalVal]
    rw [bind_assoc, bind_getC, if_pos hst, ← bind_assoc]
    exact bind_congr (endP_pop hd) fun _ _ _ => rfl
  | arr l =>
    simp only [events, List.cons_append, List.append_assoc, List.nil_append]
    rw [run_dispatch hR hs]
    simp only [onF, evalVal]
    rw [bind_modC]
    refine (ignore_elems hR l _ _ stk (by simpa [Json.skippable, Json.noNull] using hj) ?_ ?_).trans ?_
    · exact hs
    · simp
    refine (run_dispatch (stk := stk) hR ?_).trans ?_
    · exact hs
    simp only [onF, bind_assoc, bind_getC, upd_same]
    rw [bind_modC, if_pos hst]
    simp only [upd_upd]
    rw [upd_id rfl, ← bind_assoc]
    exact bind_congr (endP_pop hd) fun _ _ _ => rfl
  | obj l =>
    simp only [events, List.cons_append, List.append_assoc, List.nil_append]
    rw [run_dispatch hR hs]
    simp only [onF, evalVal]
    rw [bind_modC]
    refine (ignore_fields hR l _ _ stk (by simpa [Json.skippable, Json.noNull] using hj) ?_ ?_).trans ?_
    · exact hs
    · exact ⟨_, by simp; rfl⟩
    refine (run_dispatch (stk := stk) hR ?_).trans ?_
    · exact hs
    simp only [onF, bind_assoc, bind_getC, upd_same]
    rw [bind_modC, if_pos hst]
    simp only [upd_upd]
    rw [upd_id rfl, ← bind_assoc]
    exact bind_congr (endP_pop hd) fun _ _ _ => rfl

/-- Popping towards a parent. -/
theorem pop_to {s : St} {p q r} (h : s.stack = p :: q :: r) :
    pop E R s = M.bind dropTop (fun _ => chP E R q) s := by
  rw [pop_cons h, bind_drop, h]; rfl

/-- The scalar that selects an alternative. -/
theorem onF_select {ty tm st ms p x} {s : St} (hx : x.ty = ty) (hd : (s.heap p).disp = true) :
    onF E R (.union ty tm st ms) p (.scalar x) s =
      M.bind (select E ty tm st ms p x) (fun _ => M.pure ()) s := by
  simp only [onF, if_pos hx, select, onMember, bind_assoc, bind_modH, setNotEmpty_def, bind_modC, bind_getC]
  have hd' : ((resetH p (.union ty tm st ms) s.heap).upd p (fun c => { c with empty := false }) p).disp = true := by
    rw [upd_same]; simp only; rw [(resetH_ctl _ p s.heap p).1]; exact hd
  cases hl : lookup x 0 ms with
  | none => simp only [if_true, bind_throw]
  | some b =>
    obtain ⟨n, ash⟩ := b
    simp only [hd', if_true, bind_assoc, bind_push, bind_pure_left, bind_modC]
    rfl

theorem evalVal_ok {j sh p} {s s' : St} {a} (hR : R.at p = some sh) (h : evalVal E sh p j s = .ok a s') :
    s'.stack = s.stack ∧ Keep R p s.heap s'.heap := evalVal_keep j sh p hR s a s' h

/-- A member does not disturb the fields reader of its object. -/
theorem IgnOk.frame {sh p n} {h h' : Heap} (a : IgnOk sh p h) (f : Frame (.mem n :: p) h h') : IgnOk sh p h' := by
  refine a.congr ?_ ?_
  · rw [f _ (below_disjoint (st := .ign) (by simp) (Below.refl _))]
  · rw [f _ below_self_cons]

/-- The end of an embedded union's alternative, parent an object. -/
theorem embedded_end_object {p stk k u ms n ty st ms' a} (hR : R.at p = some (.object k u ms))
    (hRm : R.at (.mem n :: p) = some (.union ty "" st ms')) {s : St}
    (hs : s.stack = (.mem a :: .mem n :: p) :: (.mem n :: p) :: p :: stk)
    (hd : (s.heap p).disp = true) (hdm : (s.heap (.mem n :: p)).disp = true) :
    pop E R s = M.bind dropTop (fun _ => M.bind (complete E (.union ty "" st ms') (.mem n :: p)) fun _ =>
      M.bind dropTop fun _ => M.bind (complete E (.object k u ms) p) fun _ => pop E R) s := by
  rw [pop_to hs, bind_drop, bind_drop, chP_union hRm]
  have e1 := endP_pop (E := E) (R := R) (sh := .union ty "" st ms') (p := .mem n :: p)
    (s := { s with stack := s.stack.tail }) hdm
  rw [bind_congr e1 fun _ _ _ => rfl, bind_assoc]
  refine bind_congr rfl fun _ s1 h1 => ?_
  have h1' := (Loc.complete _ _).ok h1
  have hs1 : s1.stack = (.mem n :: p) :: p :: stk := by rw [h1'.1]; simp [hs]
  rw [bind_congr (pop_to hs1) fun _ _ _ => rfl, bind_assoc, bind_drop, bind_drop, chP_object hR]
  simp only [bind_pure_left, if_true, bind_getC]
  rw [(h1'.2.ctl _).1]
  simp only [hdm, if_true]
  rw [mapEndD_object (p := p) (r := stk) (by simp [hs1]) hR, endP_pop]
  simp only
  rw [(h1'.2.ctl _).1]; exact hd

/-- The end of an embedded union's alternative, parent a map. -/
theorem embedded_end_map {p stk b ty st ms' a} (hR : R.at p = some (.map b (.union ty "" st ms')))
    {s : St} (hs : s.stack = (.mem a :: .elem :: p) :: (.elem :: p) :: p :: stk)
    (hd : (s.heap p).disp = true) (hdm : (s.heap (.elem :: p)).disp = true) :
    pop E R s = M.bind dropTop (fun _ => M.bind (complete E (.union ty "" st ms') (.elem :: p)) fun _ =>
      M.bind dropTop fun _ => M.bind (mapChild E b (.union ty "" st ms') p) fun _ =>
      M.bind (complete E (.map b (.union ty "" st ms')) p) fun _ => pop E R) s := by
  have hRm := at_elem_map hR
  rw [pop_to hs, bind_drop, bind_drop, chP_union hRm]
  have e1 := endP_pop (E := E) (R := R) (sh := .union ty "" st ms') (p := .elem :: p)
    (s := { s with stack := s.stack.tail }) hdm
  rw [bind_congr e1 fun _ _ _ => rfl, bind_assoc]
  refine bind_congr rfl fun _ s1 h1 => ?_
  have h1' := (Loc.complete _ _).ok h1
  have hs1 : s1.stack = (.elem :: p) :: p :: stk := by rw [h1'.1]; simp [hs]
  have hch : chP E R p = mapChild E b (.union ty "" st ms') p := by
    cases b
    · rw [chP_map hR]; rfl
    · rw [chP_smap hR]; rfl
  rw [bind_congr (pop_to hs1) fun _ _ _ => rfl, bind_assoc, bind_drop, bind_drop, hch]
  refine bind_congr rfl fun _ s2 h2 => ?_
  have h2' := (Loc.mapChild _ _ _).ok h2
  simp only [if_true, bind_getC]
  rw [(h2'.2.ctl _).1, (h1'.2.ctl _).1]
  simp only [hdm, if_true]
  rw [mapEndD_map (p := p) (r := stk) (by rw [h2'.1]; simp [hs1]) hR, endP_pop]
  rw [(h2'.2.ctl _).1, (h1'.2.ctl _).1]; exact hd

mutual
theorem sim_val : ∀ (j : Json) (sh : Shape) (p : Path) (stk : List Path) (ts : List Token) (s : St),
    R.at p = some sh → s.stack = p :: stk → (s.heap p).disp = true → Sane R p s.heap →
    (sh = .ignore → (s.heap p).struct = []) → okVal sh j = true →
    run E R (events j ++ ts) s =
      M.bind (evalVal E sh p j) (fun _ => M.bind (pop E R) fun _ => run E R ts) s
  | .null, sh, p, stk, ts, s, hR, hs, hd, hsane, hig, hok => by
    simp only [events, List.cons_append, List.nil_append]
    rw [run_dispatch hR hs]
    have key : onF E R sh p .null s = nullBase E R sh p s := by
      cases sh with
      | array st e =>
        simp only [onF, bind_getC, hsane.started p (Below.refl _)]; rfl
      | _ => rfl
    unfold evalVal
    rw [← bind_assoc]
    exact bind_congr (key.trans (nullBase_pop hd)) fun _ _ _ => rfl
  | .sc x, sh, p, stk, ts, s, hR, hs, hd, hsane, hig, hok => by
    cases sh with
    | ignore => exact ignore_sim hR _ ts s stk rfl hs (hig rfl) hd
    | value ty =>
      simp only [events, List.cons_append, List.nil_append]
      rw [run_dispatch hR hs]
      simp only [onF, evalVal]
      by_cases hx : x.ty = ty
      · simp only [if_pos hx, bind_assoc, setNotEmpty_def, bind_modC]
        rw [← bind_assoc (complete _ _ _)]
        refine bind_congr (endP_pop ?_) fun _ _ _ => rfl
        simpa using hd
      · simp only [if_neg hx, bind_unexpected]
    | union ty tm st ms =>
      simp only [events, List.cons_append, List.nil_append]
      rw [run_dispatch hR hs]
      have hx : ¬ x.ty = ty := by simpa [okVal] using hok
      simp only [onF, evalVal, if_neg hx, bind_unexpected]
    | array st e =>
      simp only [events, List.cons_append, List.nil_append]
      rw [run_dispatch hR hs]
      simp only [onF, evalVal, bind_assoc, bind_getC, hsane.started p (Below.refl _)]
      rfl
    | _ =>
      simp only [events, List.cons_append, List.nil_append]
      rw [run_dispatch hR hs]
      simp only [onF, evalVal, bind_unexpected]
  | .arr l, sh, p, stk, ts, s, hR, hs, hd, hsane, hig, hok => by
    cases sh with
    | ignore => exact ignore_sim hR _ ts s stk (by simpa [okVal, Json.skippable, Json.noNull] using hok) hs (hig rfl) hd
    | array st e =>
      simp only [events, List.cons_append, List.append_assoc, List.nil_append]
      rw [run_dispatch hR hs]
      simp only [onF, evalVal, bind_assoc, bind_getC, hsane.started p (Below.refl _)]
      simp only [Bool.not_false, if_true, bind_assoc, bind_modH, bind_modC]
      have hk : Keep R p s.heap (resetH p (.array st e) s.heap) := Keep.reset _ _ _
      have hsane1 := hsane.keep hk
      refine (sim_elems l st e p stk (.arrEnd :: ts) _ hR ?_ ?_ ?_ ?_ ?_ ?_).trans ?_
      · exact hs
      · simp
      · simpa using hk.mono p hd
      · refine ⟨hsane1.closed.congr upd_started_disp, fun q hq => ?_, fun q st ty hq hRq => ?_⟩
        · simp only
          rw [upd_other (ne_of_below_step hq)]; exact hsane1.started q hq.step
        · simp only
          rw [upd_started_disp]; exact hsane1.velem q st ty hq.step hRq
      · rintro ty rfl
        simp only
        rw [upd_started_disp]; exact hsane1.velem p st ty (Below.refl _) hR
      · simpa [okVal] using hok
      · refine bind_congr rfl fun _ s1 h1 => ?_
        have h1' := evalElems_keep l st e p hR _ _ _ h1
        have hs1 : s1.stack = p :: stk := by rw [h1'.1]; exact hs
        rw [run_dispatch hR hs1]
        simp only [onF, bind_assoc, bind_modC]
        rw [← bind_assoc (complete _ _ _)]
        refine bind_congr (endP_pop ?_) fun _ _ _ => rfl
        simp only [upd_same]
        refine h1'.2.mono p ?_
        simpa using hk.mono p hd
    | _ =>
      simp only [events, List.cons_append]
      rw [run_dispatch hR hs]
      simp only [onF, evalVal, bind_unexpected]
  | .obj fs, sh, p, stk, ts, s, hR, hs, hd, hsane, hig, hok => by
    have fields : ∀ sh', sh' = sh → okFields sh fs = true →
        (M.bind (modH (resetH p sh)) fun _ => run E R (fieldEvents fs ++ (.mapEnd :: ts))) s =
        (M.bind (modH (resetH p sh)) fun _ => M.bind (evalFields E sh p fs) fun _ =>
          M.bind (pop E R) fun _ => run E R ts) s := by
      intro _ _ hokf
      rw [bind_modH, bind_modH]
      have hk : Keep R p s.heap (resetH p sh s.heap) := Keep.reset _ _ _
      exact sim_fields fs sh p stk ts _ hR hs (hk.mono p hd) (hsane.keep hk) (resetH_ignOk _ _ _) hokf
    cases sh with
    | ignore => exact ignore_sim hR _ ts s stk (by simpa [okVal, Json.skippable, Json.noNull] using hok) hs (hig rfl) hd
    | array st e =>
      simp only [events, List.cons_append, List.append_assoc, List.nil_append]
      rw [run_dispatch hR hs]
      simp only [onF, evalVal, bind_assoc, bind_getC, hsane.started p (Below.refl _)]
      rfl
    | value ty =>
      simp only [events, List.cons_append, List.append_assoc, List.nil_append]
      rw [run_dispatch hR hs]
      simp only [onF, evalVal, bind_unexpected]
    | union ty tm st ms =>
      simp only [events, List.cons_append, List.append_assoc, List.nil_append]
      rw [run_dispatch hR hs]
      simp only [onF, evalVal]
      by_cases ht : tm = ""
      · simp only [if_pos ht, bind_throw]
      · simp only [if_neg ht, bind_assoc]
        exact fields _ rfl (by simpa [okVal, ht] using hok)
    | object k u ms =>
      simp only [events, List.cons_append, List.append_assoc, List.nil_append]
      rw [run_dispatch hR hs]
      simp only [onF, evalVal, bind_assoc]
      exact fields _ rfl (by simpa [okVal] using hok)
    | map st e =>
      simp only [events, List.cons_append, List.append_assoc, List.nil_append]
      rw [run_dispatch hR hs]
      simp only [onF, evalVal, bind_assoc]
      exact fields _ rfl (by simpa [okVal] using hok)
theorem sim_fields : ∀ (fs : List (String × Json)) (sh : Shape) (p : Path) (stk : List Path) (ts : List Token)
    (s : St), R.at p = some sh → s.stack = p :: stk → (s.heap p).disp = true → Sane R p s.heap →
    IgnOk sh p s.heap → okFields sh fs = true →
    run E R (fieldEvents fs ++ (.mapEnd :: ts)) s =
      M.bind (evalFields E sh p fs) (fun _ => M.bind (pop E R) fun _ => run E R ts) s
  | [], sh, p, stk, ts, s, hR, hs, hd, hsane, hig, hok => by
    simp only [fieldEvents, List.nil_append]
    rw [run_dispatch hR hs]
    cases sh with
    | ignore =>
      have hst : (s.heap p).struct = [] := hig
      simp only [onF, evalFields, bind_assoc, bind_getC, hst, bind_unexpected]
    | value => simp only [onF, evalFields, bind_unexpected]
    | array => simp only [onF, evalFields, bind_unexpected]
    | _ =>
      simp only [onF, evalFields]
      rw [← bind_assoc]
      exact bind_congr (endP_pop hd) fun _ _ _ => rfl
  | (k, v) :: fs, sh, p, stk, ts, s, hR, hs, hd, hsane, hig, hok => by
    simp only [fieldEvents, List.cons_append, List.append_assoc]
    rw [run_dispatch hR hs]
    cases sh with
    | ignore =>
      have hst : (s.heap p).struct = [] := hig
      simp only [onF, evalFields, bind_assoc, bind_getC, hst, bind_unexpected]
    | value => simp only [onF, evalFields, bind_unexpected]
    | array => simp only [onF, evalFields, bind_unexpected]
    | object kd u ms =>
      simp only [onF, onMember, evalFields, bind_assoc, setNotEmpty_def, bind_modC, bind_getC]
      have hq : Quiet p s.heap (s.heap.upd p fun c => { c with empty := false }) := by
        apply Quiet.upd; exact fun _ => ⟨rfl, rfl, rfl⟩
      have hd1 : ((s.heap.upd p fun c => { c with empty := false }) p).disp = true := by
        rw [(hq.ctl p).1]; exact hd
      have hsane1 := hsane.keep (p' := p) hq.keep
      have hig1 := hig.quiet hq
      generalize s.heap.upd p (fun c => { c with empty := false }) = h1 at *
      simp only [hd1, if_true]
      cases hl : lookup (.str k) 0 ms with
      | none =>
        simp only
        cases u with
        | true => simp only [if_true, bind_throw]; rfl
        | false =>
          simp only [Bool.false_eq_true, if_false, bind_assoc, bind_push, bind_pure_left]
          simp only [okFields, hl, Bool.false_eq_true, if_false, Bool.and_eq_true] at hok
          have hRi := at_ign_object hR
          refine (sim_val v .ignore (.ign :: p) (p :: stk) _ _ hRi ?_ ?_ ?_ ?_ hok.1).trans ?_
          · simp [hs]
          · exact hsane1.closed p _ .ign .ignore hR hd1 (by simp) rfl
          · exact hsane1.down (Below.cons _ _)
          · intro _; exact hig1
          · refine bind_congr rfl fun _ s2 h2 => ?_
            have h2' := evalVal_ok hRi h2
            have hs2 : s2.stack = (.ign :: p) :: p :: stk := by rw [h2'.1]; simp [hs]
            rw [bind_congr (pop_to hs2) fun _ _ _ => rfl, bind_assoc, bind_drop, bind_drop, chP_object hR]
            simp only [bind_pure_left]
            refine sim_fields fs _ p stk ts _ hR ?_ ?_ ?_ ?_ hok.2
            · simp [hs2]
            · exact h2'.2.mono p hd1
            · exact hsane1.keep h2'.2
            · have : (s2.heap (.ign :: p)).struct = [] := by
                cases v with
                | null =>
                  simp only [evalVal] at h2; injection h2 with _ h2; subst h2; simp [resetH]
                | _ =>
                  simp only [evalVal] at h2
                  rw [((Loc.complete _ _).ok h2).2.struct]; exact hig1
              exact this
      | some b =>
        obtain ⟨n, m⟩ := b
        obtain ⟨i, hi⟩ := lookup_mem hl
        have hRm := at_mem_object hR hi
        have hdm : (h1 (.mem n :: p)).disp = true :=
          hsane1.closed p _ (.mem n) m hR hd1 (by simp) (by simp [Shape.child, hi])
        simp only [bind_assoc, bind_push, bind_pure_left]
        cases he : embedded m v with
        | some y =>
          obtain ⟨ty, st, ms', x⟩ := y
          obtain ⟨rfl, rfl, hty⟩ := embedded_some he
          simp only [okFields, hl, he] at hok
          simp only [events, List.cons_append, List.nil_append]
          refine (run_dispatch hRm rfl).trans ?_
          rw [bind_congr (onF_select hty hdm) fun _ _ _ => rfl, bind_assoc]
          simp only [bind_assoc, bind_pure_left]
          refine bind_congr rfl fun a s2 h2 => ?_
          obtain ⟨hla, hs2, hk2, hig2⟩ := select_ok (R := R) h2
          obtain ⟨a, ash⟩ := a
          simp only [hla] at hok
          obtain ⟨i', hi'⟩ := lookup_mem hla
          have hRa := at_mem_union hRm hi'
          have hsane2 := (hsane1.keep hk2)
          have hdm2 := hk2.mono _ hdm
          refine (sim_fields fs ash _ ((.mem n :: p) :: s.stack) ts s2 hRa ?_ ?_ ?_ hig2 hok).trans ?_
          · rw [hs2]
          · exact hsane2.closed _ _ (.mem a) ash hRm hdm2 (by simp) (by simp [Shape.child, hi'])
          · exact hsane2.down ((Below.cons _ _).trans (Below.cons _ _))
          · refine bind_congr rfl fun _ s3 h3 => ?_
            have h3' := evalFields_keep fs ash _ hRa _ _ _ h3
            have hs3 : s3.stack = (.mem a :: .mem n :: p) :: (.mem n :: p) :: p :: stk := by
              rw [h3'.1, hs2]; simp [hs]
            rw [bind_congr (embedded_end_object hR hRm hs3 (h3'.2.mono _ (hk2.mono _ hd1)) (h3'.2.mono _ hdm2))
              fun _ _ _ => rfl]
            simp only [bind_assoc]
        | none =>
          simp only [okFields, hl, he, Bool.and_eq_true] at hok
          simp only [bind_assoc]
          refine (sim_val v m (.mem n :: p) (p :: stk) _ _ hRm ?_ hdm (hsane1.down (Below.cons _ _)) ?_ hok.1.2).trans ?_
          · simp [hs]
          · rintro rfl; simp [Shape.isUser] at hok
          · refine bind_congr rfl fun _ s2 h2 => ?_
            have h2' := evalVal_ok hRm h2
            have hs2 : s2.stack = (.mem n :: p) :: p :: stk := by rw [h2'.1]; simp [hs]
            rw [bind_congr (pop_to hs2) fun _ _ _ => rfl, bind_assoc, bind_drop, bind_drop, chP_object hR]
            simp only [bind_pure_left]
            refine sim_fields fs _ p stk ts _ hR ?_ ?_ ?_ ?_ hok.2
            · simp [hs2]
            · exact h2'.2.mono p hd1
            · exact hsane1.keep h2'.2
            · exact hig1.frame h2'.2.frame
    | map st e =>
      simp only [onF, evalFields, bind_assoc, setNotEmpty_def, bind_modC, bind_getC]
      have hq : Quiet p s.heap (s.heap.upd p fun c => { c with empty := false }) := by
        apply Quiet.upd; exact fun _ => ⟨rfl, rfl, rfl⟩
      have hd1 : ((s.heap.upd p fun c => { c with empty := false }) p).disp = true := by
        rw [(hq.ctl p).1]; exact hd
      have hsane1 := hsane.keep (p' := p) hq.keep
      generalize s.heap.upd p (fun c => { c with empty := false }) = h1 at *
      simp only [hd1, if_true, bind_assoc, bind_push, bind_modC]
      have hq2 : Quiet p h1 (h1.upd p fun c => { c with curKey := k }) := by
        apply Quiet.upd; exact fun _ => ⟨rfl, rfl, rfl⟩
      have hd2 : ((h1.upd p fun c => { c with curKey := k }) p).disp = true := by
        rw [(hq2.ctl p).1]; exact hd1
      have hsane2 := hsane1.keep (p' := p) hq2.keep
      generalize h1.upd p (fun c => { c with curKey := k }) = h2 at *
      have hRe := at_elem_map hR
      have hde : (h2 (.elem :: p)).disp = true :=
        hsane2.closed p _ .elem e hR hd2 (by simp) (by simp [Shape.child])
      have hch : chP E R p = mapChild E st e p := by
        cases st
        · rw [chP_map hR]; rfl
        · rw [chP_smap hR]; rfl
      cases he : embedded e v with
      | some y =>
        obtain ⟨ty, st', ms', x⟩ := y
        obtain ⟨rfl, rfl, hty⟩ := embedded_some he
        simp only [okFields, he] at hok
        simp only [events, List.cons_append, List.nil_append]
        refine (run_dispatch hRe rfl).trans ?_
        rw [bind_congr (onF_select hty hde) fun _ _ _ => rfl, bind_assoc]
        simp only [bind_assoc, bind_pure_left]
        refine bind_congr rfl fun a s2 h2 => ?_
        obtain ⟨hla, hs2, hk2, hig2⟩ := select_ok (R := R) h2
        obtain ⟨a, ash⟩ := a
        simp only [hla] at hok
        obtain ⟨i', hi'⟩ := lookup_mem hla
        have hRa := at_mem_union hRe hi'
        have hsane3 := (hsane2.keep hk2)
        have hde2 := hk2.mono _ hde
        refine (sim_fields fs ash _ ((.elem :: p) :: s.stack) ts s2 hRa ?_ ?_ ?_ hig2 hok).trans ?_
        · rw [hs2]
        · exact hsane3.closed _ _ (.mem a) ash hRe hde2 (by simp) (by simp [Shape.child, hi'])
        · exact hsane3.down ((Below.cons _ _).trans (Below.cons _ _))
        · refine bind_congr rfl fun _ s3 h3 => ?_
          have h3' := evalFields_keep fs ash _ hRa _ _ _ h3
          have hs3 : s3.stack = (.mem a :: .elem :: p) :: (.elem :: p) :: p :: stk := by
            rw [h3'.1, hs2]; simp [hs]
          rw [bind_congr (embedded_end_map hR hs3 (h3'.2.mono _ (hk2.mono _ hd2)) (h3'.2.mono _ hde2))
            fun _ _ _ => rfl]
          simp only [bind_assoc]
      | none =>
        simp only [okFields, he, Bool.and_eq_true] at hok
        simp only [bind_assoc]
        refine (sim_val v e (.elem :: p) (p :: stk) _ _ hRe ?_ hde (hsane2.down (Below.cons _ _)) ?_ hok.1.2).trans ?_
        · simp [hs]
        · rintro rfl; simp [Shape.isUser] at hok
        · refine bind_congr rfl fun _ s2 h2 => ?_
          have h2' := evalVal_ok hRe h2
          have hs2 : s2.stack = (.elem :: p) :: p :: stk := by rw [h2'.1]; simp [hs]
          rw [bind_congr (pop_to hs2) fun _ _ _ => rfl, bind_assoc, bind_drop, bind_drop, hch]
          refine bind_congr rfl fun _ s3 h3 => ?_
          have h3' := (Loc.mapChild _ _ _).ok h3
          refine sim_fields fs _ p stk ts _ hR ?_ ?_ ?_ trivial hok.2
          · rw [h3'.1]; simp [hs2]
          · exact (h3'.2.keep (R := R)).mono p (h2'.2.mono p hd2)
          · exact (hsane2.keep h2'.2).keep (h3'.2.keep (R := R))
    | union ty tm st ms =>
      simp only [onF, evalFields]
      by_cases ht : tm = ""
      · simp only [if_pos ht, bind_throw]
      · by_cases hk : k = tm
        · subst hk
          simp only [if_neg ht, ne_eq, not_true_eq_false, if_false, bind_pure_left]
          simp only [okFields, if_neg ht, ne_eq, not_true_eq_false, if_false] at hok
          cases v with
          | null => simp at hok
          | obj => simp at hok
          | arr l =>
            simp only [events, List.cons_append]
            rw [run_dispatch hR hs]
            simp only [onF, bind_unexpected]
          | sc x =>
            simp only [events, List.cons_append, List.nil_append] at hok ⊢
            rw [run_dispatch hR hs]
            by_cases hty : x.ty = ty
            · simp only [if_pos hty] at hok ⊢
              rw [bind_congr (onF_select hty hd) fun _ _ _ => rfl, bind_assoc]
              simp only [bind_assoc, bind_pure_left]
              refine bind_congr rfl fun a s2 h2 => ?_
              obtain ⟨hla, hs2, hk2, hig2⟩ := select_ok (R := R) h2
              obtain ⟨a, ash⟩ := a
              simp only [hla] at hok
              obtain ⟨i', hi'⟩ := lookup_mem hla
              have hRa := at_mem_union hR hi'
              have hsane3 := (hsane.keep hk2)
              have hd2 := hk2.mono _ hd
              refine (sim_fields fs ash _ s.stack ts s2 hRa ?_ ?_ ?_ hig2 hok).trans ?_
              · rw [hs2]
              · exact hsane3.closed _ _ (.mem a) ash hR hd2 (by simp) (by simp [Shape.child, hi'])
              · exact hsane3.down (Below.cons _ _)
              · refine bind_congr rfl fun _ s3 h3 => ?_
                have h3' := evalFields_keep fs ash _ hRa _ _ _ h3
                have hs3 : s3.stack = (.mem a :: p) :: p :: stk := by rw [h3'.1, hs2]; simp [hs]
                rw [bind_congr (pop_to hs3) fun _ _ _ => rfl, bind_assoc, bind_drop, bind_drop, chP_union hR, if_neg ht]
                simp only [bind_assoc, bind_pure_left]
                rw [← bind_assoc (complete _ _ _)]
                exact bind_congr (endP_pop (h3'.2.mono _ hd2)) fun _ _ _ => rfl
            · simp only [onF, if_neg hty, bind_unexpected]
        · simp only [if_neg ht, ne_eq, hk, not_false_eq_true, if_true, bind_throw]
theorem sim_elems : ∀ (l : List Json) (st : Bool) (e : Shape) (p : Path) (stk : List Path) (ts : List Token)
    (s : St), R.at p = some (.array st e) → s.stack = p :: stk → (s.heap p).started = true →
    (s.heap p).disp = true → Sane R (.elem :: p) s.heap → (∀ ty, e = .value ty → (s.heap (.elem :: p)).disp = false) →
    okElems e l = true →
    run E R (elemEvents l ++ ts) s = M.bind (evalElems E st e p l) (fun _ => run E R ts) s
  | [], st, e, p, stk, ts, s, hR, hs, hst, hd, hsane, hv, hok => rfl
  | j :: l, st, e, p, stk, ts, s, hR, hs, hst, hd, hsane, hv, hok => by
    simp only [elemEvents, List.append_assoc]
    have hRe := at_elem_array hR
    have hch : chP E R p = arrChild st p := by
      cases st
      · rw [chP_array hR]; rfl
      · rw [chP_sarray hR]; rfl
    simp only [okElems, Bool.and_eq_true] at hok
    obtain ⟨⟨⟨hn, huser⟩, hokj⟩, hokl⟩ := hok
    have composite : (∀ x, j ≠ .sc x) → j ≠ .null →
        run E R (events j ++ (elemEvents l ++ ts)) s =
        (M.bind (setNotEmpty p) fun _ => M.bind (modH (setDispH (.elem :: p) e)) fun _ =>
          M.bind (pushParser (.elem :: p)) fun _ => M.bind (evalVal E e (.elem :: p) j) fun _ =>
          M.bind dropTop fun _ => M.bind (arrChild st p) fun _ => M.bind (evalElems E st e p l) fun _ =>
          run E R ts) s := by
      intro hsc hnn
      rw [setNotEmpty_def, bind_modC, bind_modH, bind_push]
      have hq : Quiet p s.heap (s.heap.upd p fun c => { c with empty := false }) := by
        apply Quiet.upd; exact fun _ => ⟨rfl, rfl, rfl⟩
      have start : run E R (events j ++ (elemEvents l ++ ts)) s = run E R (events j ++ (elemEvents l ++ ts))
          { s with heap := setDispH (.elem :: p) e (s.heap.upd p fun c => { c with empty := false }),
                   stack := (.elem :: p) :: s.stack } := by
        cases j with
        | null => exact absurd rfl hnn
        | sc x => exact absurd rfl (hsc x)
        | arr l' =>
          simp only [events, List.cons_append]
          rw [run_dispatch hR hs]
          refine Eq.trans ?_ (run_dispatch hRe rfl).symm
          simp only [onF, bind_assoc, bind_getC, hst, hd, Bool.not_true, Bool.false_eq_true, if_false,
            setNotEmpty_def, bind_modC, bind_modH, bind_push]
        | obj l' =>
          simp only [events, List.cons_append]
          rw [run_dispatch hR hs]
          refine Eq.trans ?_ (run_dispatch hRe rfl).symm
          simp only [onF, bind_assoc, bind_getC, hst, hd, Bool.not_true, Bool.false_eq_true, if_false,
            setNotEmpty_def, bind_modC, bind_modH, bind_push]
      rw [start]
      by_cases he : ∃ ty, e = .value ty
      · obtain ⟨ty, rfl⟩ := he
        cases j with
        | null => exact absurd rfl hnn
        | sc x => exact absurd rfl (hsc x)
        | arr l' =>
          simp only [events, List.cons_append]
          refine (run_dispatch hRe rfl).trans ?_
          simp only [onF, evalVal, bind_unexpected]
        | obj l' =>
          simp only [events, List.cons_append]
          refine (run_dispatch hRe rfl).trans ?_
          simp only [onF, evalVal, bind_unexpected]
      · have hk : Keep R p s.heap (setDispH (.elem :: p) e (s.heap.upd p fun c => { c with empty := false })) :=
          hq.keep.trans (Keep.setDisp hR fun ty h => he ⟨ty, h⟩)
        have hsane1 := hsane.keep hk
        have hst1 : (setDispH (.elem :: p) e (s.heap.upd p fun c => { c with empty := false }) p).started = true := by
          rw [(setDispH_only _ _ _).started, (hq.ctl p).2]; exact hst
        have hde : (setDispH (.elem :: p) e (s.heap.upd p fun c => { c with empty := false }) (.elem :: p)).disp = true :=
          setDispH_self _ _ _
        generalize setDispH (.elem :: p) e (s.heap.upd p fun c => { c with empty := false }) = h1 at *
        refine (sim_val j e (.elem :: p) (p :: stk) _ _ hRe ?_ hde hsane1 ?_ hokj).trans ?_
        · simp [hs]
        · rintro rfl; simp [Shape.isUser] at huser
        · refine bind_congr rfl fun _ s2 h2 => ?_
          have h2' := evalVal_ok hRe h2
          have hs2 : s2.stack = (.elem :: p) :: p :: stk := by rw [h2'.1]; simp [hs]
          rw [bind_congr (pop_to hs2) fun _ _ _ => rfl, bind_assoc, bind_drop, bind_drop, hch]
          refine bind_congr rfl fun _ s3 h3 => ?_
          have h3' := (Loc.arrChild _ _).ok h3
          refine sim_elems l st e p stk ts s3 hR ?_ ?_ ?_ ?_ ?_ hokl
          · rw [h3'.1]; simp [hs2]
          · rw [(h3'.2.ctl p).2]
            simp only
            rw [h2'.2.frame p below_self_cons]; exact hst1
          · rw [(h3'.2.ctl p).1]
            exact h2'.2.mono p (hk.mono p hd)
          · exact (hsane1.keep h2'.2).keep (h3'.2.keep (R := R))
          · intro ty h; exact absurd ⟨ty, h⟩ he
    cases j with
    | arr l' =>
      rw [composite (by simp) (by simp)]
      simp only [evalElems, bind_assoc]
    | obj l' =>
      rw [composite (by simp) (by simp)]
      simp only [evalElems, bind_assoc]
    | null =>
      cases e with
      | value ty =>
        simp only [events, List.cons_append, List.nil_append, evalElems, bind_assoc]
        rw [run_dispatch hR hs]
        simp only [onF, bind_assoc, bind_getC, hst, Bool.not_true, Bool.false_eq_true, if_false, nullBase, bind_modH]
        have hd' : (resetH (.elem :: p) (.value ty) s.heap (.elem :: p)).disp = false := by
          rw [(resetH_ctl _ _ _ _).1]; exact hv ty rfl
        have hk : Keep R p s.heap (resetH (.elem :: p) (.value ty) s.heap) :=
          (Keep.reset _ _ _).up (Below.cons _ _)
        simp only [hd', Bool.false_eq_true, if_false, bind_pure_left]
        refine sim_elems l st (.value ty) p stk ts _ hR hs ?_ (hk.mono p hd) (hsane.keep hk) ?_ hokl
        · simp only; rw [(resetH_ctl _ _ _ _).2]; exact hst
        · intro ty' h'; exact hd'
      | _ => simp at hn
    | sc x =>
      simp only [events, List.cons_append, List.nil_append, evalElems, bind_assoc]
      rw [run_dispatch hR hs]
      simp only [onF, bind_assoc, bind_getC, hst, Bool.not_true, Bool.false_eq_true, if_false]
      have key : onF E R e (.elem :: p) (.scalar x) s = evalVal E e (.elem :: p) (.sc x) s := by
        cases e with
        | ignore => simp [Shape.isUser] at huser
        | value ty =>
          simp only [onF, evalVal]
          by_cases hx : x.ty = ty
          · simp only [if_pos hx, setNotEmpty_def, bind_modC, endP_eq]
            have : complete E (.value ty) (.elem :: p) = M.bind (complete E (.value ty) (.elem :: p)) fun _ => M.pure () := by
              funext s; unfold M.bind; cases complete E (.value ty) (.elem :: p) s <;> rfl
            rw [this, bind_assoc]
            refine bind_congr rfl fun _ s1 h1 => ?_
            have h1' := ((Loc.complete _ _).ok h1).2.ctl (.elem :: p) |>.1
            simp only [upd_same] at h1'
            rw [bind_pure_left, bind_getC, h1', hv ty rfl]; rfl
          · simp only [if_neg hx]
        | union ty tm st' ms =>
          have hx : ¬ x.ty = ty := by simpa [okVal] using hokj
          simp only [onF, evalVal, if_neg hx]
        | array st' e' =>
          simp only [onF, evalVal, bind_getC, hsane.started _ (Below.refl _)]
          rfl
        | _ => rfl
      refine bind_congr key fun _ s1 h1 => ?_
      have h1' := evalVal_ok hRe h1
      rw [setNotEmpty_def, bind_modC, bind_modC, hch]
      have hq : Quiet p s1.heap (s1.heap.upd p fun c => { c with empty := false }) := by
        apply Quiet.upd; exact fun _ => ⟨rfl, rfl, rfl⟩
      refine bind_congr rfl fun _ s3 h3 => ?_
      have h3' := (Loc.arrChild _ _).ok h3
      refine sim_elems l st e p stk ts s3 hR ?_ ?_ ?_ ?_ ?_ hokl
      · rw [h3'.1, ← hs, ← h1'.1]
      · rw [(h3'.2.ctl p).2, (hq.ctl p).2, h1'.2.frame p below_self_cons]; exact hst
      · rw [(h3'.2.ctl p).1, (hq.ctl p).1]; exact h1'.2.mono p hd
      · exact ((hsane.keep h1'.2).keep (hq.keep (R := R))).keep (h3'.2.keep (R := R))
      · rintro ty rfl
        rw [(h3'.2.ctl _).1, (hq.ctl _).1, h1'.2.velem p st ty hR]; exact hv ty rfl
end

end SJ
