/-
C54: when memory runs out while a document is read. (The proofs are shared with C57, `Verif/Props/UserTypes.lean`.)
-/
import Verif.Proofs.MemoryApi
import Verif.Props.Exact
import Verif.DemoYajl

set_option linter.unusedVariables false
set_option linter.unusedSimpArgs false

namespace SJ

variable {E : Env} {R : Shape} {Y : Yajl}

/-- Both kinds of failures (C54, C57): `parse()`. -/
theorem faults_parse (F : Faults) (m : Mem) (p : Ptr) (len : Nat) (hm : (m.read p len).isSome) (s : PSt Y) :
    ∃ N, ∀ n,
      (N ≤ n → PA.parse Y F E R m p len n s = (parse Y E R m p len s).left (n - N)) ∧
      (n < N → ∃ sj y s', PA.parse Y F E R m p len n s = .throw (.parsing sj y) 0 s' ∧ FaultText R F sj ∧ FirstCalls s'.st.log (parse Y E R m p len s)) := by
  obtain ⟨N, h⟩ := PA.parse_costs (F := F) (E := E) (R := R) hm s
  refine ⟨N, fun n => ⟨(h n).2, fun hn => ?_⟩⟩
  obtain ⟨t, y, s', h1, h2, _, _, _, h3⟩ := (h n).1 hn
  exact ⟨t, y, s', h1, h2, h3⟩

/-- Both kinds of failures (C54, C57): `finish()`. -/
theorem faults_finish (F : Faults) (m : Mem) (s : PSt Y) (hm : (m.read s.data s.len).isSome) :
    ∃ N, ∀ n,
      (N ≤ n → PA.finishDoc Y F E R m n s = (finishDoc Y E R m s).left (n - N)) ∧
      (n < N → ∃ sj y s', PA.finishDoc Y F E R m n s = .throw (.parsing sj y) 0 s' ∧ FaultText R F sj ∧ FirstCalls s'.st.log (finishDoc Y E R m s)) := by
  obtain ⟨N, h⟩ := PA.finish_costs (F := F) (E := E) (R := R) s hm
  refine ⟨N, fun n => ⟨(h n).2, fun hn => ?_⟩⟩
  obtain ⟨t, y, s', h1, h2, _, _, _, h3⟩ := (h n).1 hn
  exact ⟨t, y, s', h1, h2, h3⟩

/-- C54. For every call of `parse()` there is a number `N` of allocations that it makes. If there is memory for them, the outcome is that of the model without failures. If
not - whichever of them is the first that fails - `parse()` throws a `ParsingError` with one of two texts, and the callbacks that have been called until then, with their arguments, are
the first of those that would have been called otherwise. -/
theorem C54_parse (m : Mem) (p : Ptr) (len : Nat) (hm : (m.read p len).isSome) (s : PSt Y) :
    ∃ N, ∀ n,
      (N ≤ n → PA.parse Y .memory E R m p len n s = (parse Y E R m p len s).left (n - N)) ∧
      (n < N → ∃ sj y s', PA.parse Y .memory E R m p len n s = .throw (.parsing sj y) 0 s' ∧ ShortText R sj ∧ FirstCalls s'.st.log (parse Y E R m p len s)) :=
  faults_parse .memory m p len hm s

/-- C54. The same for `finish()` (as long as the buffer of the last `parse()` exists). -/
theorem C54_finish (m : Mem) (s : PSt Y) (hm : (m.read s.data s.len).isSome) :
    ∃ N, ∀ n,
      (N ≤ n → PA.finishDoc Y .memory E R m n s = (finishDoc Y E R m s).left (n - N)) ∧
      (n < N → ∃ sj y s', PA.finishDoc Y .memory E R m n s = .throw (.parsing sj y) 0 s' ∧ ShortText R sj ∧ FirstCalls s'.st.log (finishDoc Y E R m s)) :=
  faults_finish .memory m s hm

theorem run_ctl_ok {ts : List Token} {s s' : St} (hc : Ctl R s) (h : run E R ts s = .ok () s') : Ctl R s' := by
  have := run_ctl (E := E) ts hc; rw [h] at this; exact this
theorem run_ctl_throw {ts : List Token} {s s' : St} {e} (hc : Ctl R s) (h : run E R ts s = .throw e s') : Ctl R s' := by
  have := run_ctl (E := E) ts hc; rw [h] at this; exact this

/-- What holds between the calls. -/
structure Sober (R : Shape) (s : PSt Y) : Prop where
  intact : Intact s
  fit : Fitting R s.st
  ctl : s.alive = true → Ctl R s.st

theorem Sober.tree {s : PSt Y} (h : Sober R s) : Ctl R s.tree := by
  unfold PSt.tree
  split
  · exact h.fit.restart
  · next hn =>
    refine h.ctl ?_
    cases ha : s.alive with
    | true => rfl
    | false => exact absurd (h.intact.dead ha) hn

theorem PRes.left_inv {α} {r : PRes Y α} {k n' : Nat} {s' : PSt Y} {x} (h : r.left k = .ok x n' s') : r = .ok x s' := by
  cases r <;> simp only [PRes.left] at h
  · injection h with h1 _ h2; rw [h1, h2]
  · cases h
  · cases h
  · cases h

theorem PRes.left_throw {α} {r : PRes Y α} {k n' : Nat} {s' : PSt Y} {x} (h : r.left k = .throw x n' s') : r = .throw x s' := by
  cases r <;> simp only [PRes.left] at h
  · cases h
  · injection h with h1 _ h2; rw [h1, h2]
  · cases h
  · cases h

theorem Sober.parse {s s' : PSt Y} (h : Sober R s) {m : Mem} {p : Ptr} {len : Nat} (hp : SJ.parse Y E R m p len s = .ok () s' ∨ ∃ x, SJ.parse Y E R m p len s = .throw x s') : Sober R s' := by
  rcases parse_out (E := E) (R := R) h.intact (m := m) (p := p) (len := len) with ⟨st, h', ts, hr, he⟩ | ⟨st, h', ts, y, hr, he⟩ | ⟨st, h', ts, e, y, hr, he⟩ | he | he
  · have hc := run_ctl_ok h.tree hr
    rw [he] at hp
    rcases hp with hp | ⟨x, hp⟩ <;> simp only [PRes.ok.injEq, PRes.throw.injEq, reduceCtorEq, true_and] at hp
    subst hp
    exact ⟨⟨fun h => by simp [PSt.opened] at h, fun h => by simp [PSt.opened] at h⟩, hc.fit, fun _ => hc⟩
  · have hc := run_ctl_ok h.tree hr
    rw [he] at hp
    rcases hp with hp | ⟨x, hp⟩ <;> simp only [PRes.ok.injEq, PRes.throw.injEq, reduceCtorEq, true_and] at hp
    obtain ⟨_, rfl⟩ := hp
    exact ⟨⟨fun _ => rfl, fun _ => rfl⟩, hc.fit, fun _ => hc⟩
  · have hc := run_ctl_throw h.tree hr
    rw [he] at hp
    rcases hp with hp | ⟨x, hp⟩ <;> simp only [PRes.ok.injEq, PRes.throw.injEq, reduceCtorEq, true_and] at hp
    obtain ⟨_, rfl⟩ := hp
    exact ⟨⟨fun _ => rfl, fun _ => rfl⟩, hc.fit, fun _ => hc⟩
  · rw [he] at hp; rcases hp with hp | ⟨x, hp⟩ <;> cases hp
  · rw [he] at hp; rcases hp with hp | ⟨x, hp⟩ <;> cases hp

theorem Sober.finish {s s' : PSt Y} (h : Sober R s) {m : Mem} (hp : finishDoc Y E R m s = .ok () s' ∨ ∃ x, finishDoc Y E R m s = .throw x s') : Sober R s' := by
  cases ha : s.alive with
  | false =>
    rw [finishDoc_dead (E := E) (R := R) ha m] at hp
    cases hm : m.read s.data s.len with
    | none => rw [hm] at hp; rcases hp with hp | ⟨x, hp⟩ <;> cases hp
    | some bs =>
      rw [hm] at hp
      rcases hp with hp | ⟨x, hp⟩ <;> simp only [PRes.throw.injEq, reduceCtorEq] at hp
      obtain ⟨_, rfl⟩ := hp
      exact ⟨⟨fun _ => rfl, fun _ => ha⟩, h.fit, h.ctl⟩
  | true =>
    have hc0 := h.ctl ha
    rcases finishDoc_out (E := E) (R := R) (s := s) (m := m) with ⟨st, h', ts, hr, hs, _, he⟩ | ⟨st, h', ts, sj, y, hr, he | he⟩ | ⟨st, h', ts, e, y, hr, he⟩ | he | he
    · have hc := run_ctl_ok hc0 hr
      rw [he] at hp
      rcases hp with hp | ⟨x, hp⟩ <;> simp only [PRes.ok.injEq, PRes.throw.injEq, reduceCtorEq, true_and] at hp
      subst hp
      exact ⟨⟨fun _ => rfl, fun he => h.intact.err he⟩, hc.fit, fun _ => hc⟩
    · have hc := run_ctl_ok hc0 hr
      rw [he] at hp
      rcases hp with hp | ⟨x, hp⟩ <;> simp only [PRes.ok.injEq, PRes.throw.injEq, reduceCtorEq, true_and] at hp
      obtain ⟨_, rfl⟩ := hp
      exact ⟨⟨fun _ => rfl, fun he => h.intact.err he⟩, hc.fit, fun _ => hc⟩
    · have hc := run_ctl_ok hc0 hr
      rw [he] at hp
      rcases hp with hp | ⟨x, hp⟩ <;> simp only [PRes.ok.injEq, PRes.throw.injEq, reduceCtorEq, true_and] at hp
      obtain ⟨_, rfl⟩ := hp
      exact ⟨⟨fun _ => rfl, fun _ => rfl⟩, hc.fit, fun _ => hc⟩
    · have hc := run_ctl_throw hc0 hr
      rw [he] at hp
      rcases hp with hp | ⟨x, hp⟩ <;> simp only [PRes.ok.injEq, PRes.throw.injEq, reduceCtorEq, true_and] at hp
      obtain ⟨_, rfl⟩ := hp
      exact ⟨⟨fun _ => rfl, fun _ => rfl⟩, hc.fit, fun _ => hc⟩
    · rw [he] at hp; rcases hp with hp | ⟨x, hp⟩ <;> cases hp
    · rw [he] at hp; rcases hp with hp | ⟨x, hp⟩ <;> cases hp

theorem Scarce.sober {s : PSt Y} (h : Scarce Y R s) : Sober R s := by
  induction h with
  | init => exact ⟨⟨fun h => by simp [PSt.init] at h, fun h => by simp [PSt.init] at h⟩, (History.ctl .init).fit, fun _ => History.ctl .init⟩
  | @parse F E s s' m p len n n' _ hr ih =>
    cases hm : m.read p len with
    | none =>
      have : PA.parse Y F E R m p len n s = .ub := by simp only [PA.parse, hm]
      rw [this] at hr
      rcases hr with hr | ⟨x, hr⟩ <;> cases hr
    | some bs =>
      obtain ⟨N, hc⟩ := PA.parse_costs (F := F) (E := E) (R := R) (m := m) (p := p) (len := len) (by rw [hm]; rfl) s
      by_cases hn : n < N
      · obtain ⟨t, y, s1, h1, h2, h3, h4, h5, _⟩ := (hc n).1 hn
        rw [h1] at hr
        rcases hr with hr | ⟨x, hr⟩
        · cases hr
        · injection hr with _ _ hr; subst hr
          exact ⟨⟨fun _ => h3, fun _ => h4⟩, h5 ih.fit, fun ha => by rw [h4] at ha; cases ha⟩
      · rw [(hc n).2 (by omega)] at hr
        exact ih.parse (hr.imp PRes.left_inv fun ⟨x, hx⟩ => ⟨x, PRes.left_throw hx⟩)
  | @finish F E s s' m n n' _ hr ih =>
    cases ha : s.alive with
    | false =>
      have he : PA.finishDoc Y F E R m n s = (finishDoc Y E R m s).left n := by
        simp only [PA.finishDoc, finishDoc, PA.bind, P.bind, PA.yajlComplete, yajlComplete, ha, Bool.false_eq_true, if_false, PA.lift, throwParsingError]
        cases m.read s.data s.len <;> rfl
      rw [he] at hr
      exact ih.finish (hr.imp PRes.left_inv fun ⟨x, hx⟩ => ⟨x, PRes.left_throw hx⟩)
    | true =>
      obtain ⟨hl, N, hc⟩ := PA.yajlComplete_costs (F := F) (E := E) (R := R) { s with resetNeeded := true }
      by_cases hn : n < N
      · obtain ⟨s1, h1, _, hk, _, hdead⟩ := (hc n).1 hn
        simp only [PA.finishDoc, PA.bind, h1, PA.lift, Bool.false_eq_true, if_false, throwParsingError] at hr
        cases hm : m.read s1.data s1.len with
        | none => rw [hm] at hr; rcases hr with hr | ⟨x, hr⟩ <;> cases hr
        | some bs =>
          rw [hm] at hr
          rcases hr with hr | ⟨x, hr⟩
          · cases hr
          · injection hr with _ _ hr; subst hr
            exact ⟨⟨fun _ => hk.reset, fun _ => hdead⟩, hk.fit ih.fit, fun ha => by rw [hdead] at ha; cases ha⟩
      · have he : PA.finishDoc Y F E R m n s = (finishDoc Y E R m s).left (n - N) := by
          simp only [PA.finishDoc, finishDoc, PA.bind, P.bind]
          rw [(hc n).2 (by omega)]
          rcases yajlComplete Y E R { s with resetNeeded := true } with ⟨_ | _, s2⟩ | ⟨e, s2⟩ | _ | _
          · simp only [PRes.left, PA.lift, Bool.false_eq_true, if_false, throwParsingError]
            cases m.read s2.data s2.len <;> rfl
          · simp only [PRes.left, PA.lift, if_true, checkDispatcherStack]
            cases s2.st.stack <;> rfl
          · rfl
          · rfl
          · rfl
        rw [he] at hr
        exact ih.finish (hr.imp PRes.left_inv fun ⟨x, hx⟩ => ⟨x, PRes.left_throw hx⟩)
  | pop _ hR hs hp ih =>
    obtain ⟨h1, h2⟩ := (Loc.popVal _).ok hp
    exact ⟨⟨ih.intact.dead, ih.intact.err⟩, ih.fit.ctl h2.ctl, fun ha => (ih.ctl ha).shrink (by rw [h1]; exact List.suffix_refl _) h2.ctl⟩
  | @reset s p sh _ hR ih =>
    exact ⟨⟨ih.intact.dead, ih.intact.err⟩, ih.fit.ctl (resetH_ctl sh p _), fun ha => (ih.ctl ha).shrink (List.suffix_refl _) (resetH_ctl sh p _)⟩

/-- Both kinds of failures (C54, C57): `parse()` returns or throws a `ParsingError`. -/
theorem faults_total (F : Faults) {s : PSt Y} (h : Scarce Y R s) (hu : ¬ HasUnionArray R) {m : Mem} {p : Ptr} {len : Nat} (hm : (m.read p len).isSome) (n : Nat) :
    (∃ n' s', PA.parse Y F E R m p len n s = .ok () n' s') ∨ (∃ sj y n' s', PA.parse Y F E R m p len n s = .throw (.parsing sj y) n' s') := by
  obtain ⟨N, hc⟩ := PA.parse_costs (F := F) (E := E) (R := R) hm s
  by_cases hn : n < N
  · obtain ⟨t, y, s', h1, _⟩ := (hc n).1 hn
    exact .inr ⟨t, y, 0, s', h1⟩
  · rw [(hc n).2 (by omega)]
    obtain ⟨bs, hbs⟩ := Option.isSome_iff_exists.1 hm
    have hp := parse_run (E := E) (R := R) h.sober.intact hbs
    have hh := run_ctl (E := E) (Y.scan s.reader bs).2.1 h.sober.tree
    cases hr : run E R (Y.scan s.reader bs).2.1 s.tree with
    | ok a st =>
      rw [hr] at hp; simp only at hp
      by_cases hb : (Y.scan s.reader bs).2.2 = true
      · rw [if_pos hb] at hp; rw [hp]; exact .inl ⟨_, _, rfl⟩
      · rw [if_neg hb] at hp; rw [hp]; exact .inr ⟨_, _, _, _, rfl⟩
    | throw e st => rw [hr] at hp; obtain ⟨h', hp⟩ := hp; rw [hp]; exact .inr ⟨_, _, _, _, rfl⟩
    | ub => rw [hr] at hh; exact absurd hh hu
    | fuel => exact absurd hr (C28_run _ _)

/-- Both kinds of failures (C54, C57): `finish()` returns or throws a `ParsingError`. -/
theorem faults_finish_total (F : Faults) {s : PSt Y} (h : Scarce Y R s) (hu : ¬ HasUnionArray R) {m : Mem} (hm : (m.read s.data s.len).isSome) (n : Nat) :
    (∃ n' s', PA.finishDoc Y F E R m n s = .ok () n' s') ∨ (∃ sj y n' s', PA.finishDoc Y F E R m n s = .throw (.parsing sj y) n' s') := by
  obtain ⟨N, hc⟩ := PA.finish_costs (F := F) (E := E) (R := R) s hm
  by_cases hn : n < N
  · obtain ⟨t, y, s', h1, _⟩ := (hc n).1 hn
    exact .inr ⟨t, y, 0, s', h1⟩
  · rw [(hc n).2 (by omega)]
    obtain ⟨bs, hbs⟩ := Option.isSome_iff_exists.1 hm
    cases ha : s.alive with
    | false => rw [finishDoc_dead (E := E) (R := R) ha m, hbs]; exact .inr ⟨_, _, _, _, rfl⟩
    | true =>
      have hp := finishDoc_run (E := E) (R := R) ha m
      have hh := run_ctl (E := E) (Y.complete s.handle).2.1 (h.sober.ctl ha)
      cases hr : run E R (Y.complete s.handle).2.1 s.st with
      | ok a st =>
        rw [hr] at hp; simp only at hp
        by_cases hb : (Y.complete s.handle).2.2 = true
        · rw [if_pos hb] at hp
          by_cases hs : st.stack = []
          · rw [if_pos hs] at hp; rw [hp]; exact .inl ⟨_, _, rfl⟩
          · rw [if_neg hs] at hp; rw [hp]; exact .inr ⟨_, _, _, _, rfl⟩
        · rw [if_neg hb, hbs] at hp; rw [hp]; exact .inr ⟨_, _, _, _, rfl⟩
      | throw e st => rw [hr, hbs] at hp; obtain ⟨h', hp⟩ := hp; rw [hp]; exact .inr ⟨_, _, _, _, rfl⟩
      | ub => rw [hr] at hh; exact absurd hh hu
      | fuel => exact absurd hr (C28_run _ _)

/-- C54. Whenever and how often memory has run out (or an operation of a user's type has thrown), and however little of it there is: `parse()` of a readable buffer returns or throws a
`ParsingError`; nothing else can happen (for parser trees without arrays of unions). -/
theorem C54_total {s : PSt Y} (h : Scarce Y R s) (hu : ¬ HasUnionArray R) {m : Mem} {p : Ptr} {len : Nat} (hm : (m.read p len).isSome) (n : Nat) :
    (∃ n' s', PA.parse Y .memory E R m p len n s = .ok () n' s') ∨ (∃ sj y n' s', PA.parse Y .memory E R m p len n s = .throw (.parsing sj y) n' s') :=
  faults_total .memory h hu hm n

/-- C54. The same for `finish()`, as long as the buffer of the last `parse()` exists. -/
theorem C54_finish_total {s : PSt Y} (h : Scarce Y R s) (hu : ¬ HasUnionArray R) {m : Mem} (hm : (m.read s.data s.len).isSome) (n : Nat) :
    (∃ n' s', PA.finishDoc Y .memory E R m n s = .ok () n' s') ∨ (∃ sj y n' s', PA.finishDoc Y .memory E R m n s = .throw (.parsing sj y) n' s') :=
  faults_finish_total .memory h hu hm n

/-- C54, C57, using the parser again. Whenever and how often memory has run out or an operation of a user's type has thrown: between documents (after an exception or a `finish()`) the parser is as good as new **if and only if** no array of the
tree has been left in the middle of its elements and no `Value` that is the element parser of an array has got a dispatcher - as after any other error (`C23_characterised`). -/
theorem C54_again (hw : R.wf = true) (hd : AllDistinct R) (hp : Placed R) {s : PSt Y} (h : Scarce Y R s) (hn : s.resetNeeded = true) :
    (∀ E', Blind R E' → ∀ (j : Json) (a z : List Token), okVal R j = true → events j = a ++ z → a ≠ [] →
        SameRun R (run E' R a s.tree) (run E' R a { St.init R with log := s.st.log })) ↔
      (∀ q, (s.st.heap q).started = false) ∧ ∀ q b ty, R.at q = some (.array b (.value ty)) → (s.st.heap (.elem :: q)).disp = false := by
  have ht : s.tree = s.st.restart := by unfold PSt.tree; rw [if_pos hn]
  rw [ht]
  exact as_good_as_new hw hd hp h.sober.fit.restart

/-- C54, trees without arrays: always. -/
theorem C54_array_free (hE : Passive E) (ha : ArrFree R) {s : PSt Y} (h : Scarce Y R s) (hn : s.resetNeeded = true) (hw : R.wf = true) {j} (hok : okVal R j = true) :
    SameOutcome E R j s.tree (St.init R) := by
  have ht : s.tree = s.st.restart := by unfold PSt.tree; rw [if_pos hn]
  rw [ht]
  have hc := h.sober.fit.restart
  refine Ready.same hE (s := s.st.restart) ⟨rfl, hc.root, hc.closed, fun q _ => hc.idle ha q, ?_⟩ (Ready.init R) hw hok
  intro q st ty _ hR; exact absurd hR (ha q st _)

/-! ### The hypotheses are met -/

section Examples
open Demo

def thrownA {Y : Yajl} {α} : PResA Y α → Option Thrown
  | .throw x _ _ => some x
  | _ => none

def leftA {Y : Yajl} {α} (r : PResA Y α) (d : PSt Y) : PSt Y :=
  match r with
  | .ok _ _ s => s
  | .throw _ _ s => s
  | _ => d

def countA {Y : Yajl} {α} : PResA Y α → Option Nat
  | .ok _ n _ => some n
  | _ => none

theorem leftA_throw {Y : Yajl} {r : PResA Y Unit} {d : PSt Y} {x} (h : thrownA r = some x) : ∃ n, r = .throw x n (leftA r d) := by
  cases r <;> simp [thrownA, leftA] at * <;> exact h

/-- `{"id": 7}` for `{"id": int, "tags": [string] = []}`, an `SAutoObject`: it makes two allocations, one for the stack of the dispatcher and one for the default value. -/
def scarce : Nat → PResA yajl Unit := fun n =>
  PA.parse yajl .memory accepting inner (chunk "{\"id\": 7}").mem (chunk "{\"id\": 7}").ptr (chunk "{\"id\": 7}").len n (PSt.init yajl inner)

example : thrownA (scarce 0) = some (.parsing "std::bad_alloc" "parse error near {\"id\": 7}") ∧
    thrownA (scarce 1) = some (.parsing "Can not set value: std::bad_alloc" "parse error near {\"id\": 7}") ∧ countA (scarce 5) = some 3 := by decide +kernel

/-- C54_parse -/
example := C54_parse (Y := yajl) (E := accepting) (R := inner) (chunk "{\"id\": 7}").mem (chunk "{\"id\": 7}").ptr (chunk "{\"id\": 7}").len (by decide +kernel) (PSt.init yajl inner)

/-- The state in which the parser is left when the default value could not be copied: the callback of the member "id" was called, that of the object was not. -/
def sScarce : PSt yajl := leftA (scarce 1) (PSt.init yajl inner)

theorem sScarce_scarce : Scarce yajl inner sScarce := by
  obtain ⟨n, h⟩ := leftA_throw (r := scarce 1) (d := PSt.init yajl inner) (x := .parsing "Can not set value: std::bad_alloc" "parse error near {\"id\": 7}") (by decide +kernel)
  exact .parse .init (.inr ⟨_, h⟩)

example : sScarce.st.log.length = 1 ∧ sScarce.resetNeeded = true ∧ isSet [] sScarce.st = false := by decide +kernel

/-- C54_total -/
example (n : Nat) : (∃ n' s', PA.parse yajl .memory accepting inner (chunk "{\"id\": 7}").mem (chunk "{\"id\": 7}").ptr (chunk "{\"id\": 7}").len n sScarce = .ok () n' s') ∨
    (∃ sj y n' s', PA.parse yajl .memory accepting inner (chunk "{\"id\": 7}").mem (chunk "{\"id\": 7}").ptr (chunk "{\"id\": 7}").len n sScarce = .throw (.parsing sj y) n' s') :=
  C54_total sScarce_scarce (noUnionArray_sound (by decide +kernel)) (by decide +kernel) n

/-- C54_finish, C54_finish_total: after the failed `parse()`. -/
example (n : Nat) : (∃ n' s', PA.finishDoc yajl .memory accepting inner (chunk "{\"id\": 7}").mem n sScarce = .ok () n' s') ∨
    (∃ sj y n' s', PA.finishDoc yajl .memory accepting inner (chunk "{\"id\": 7}").mem n sScarce = .throw (.parsing sj y) n' s') :=
  C54_finish_total sScarce_scarce (noUnionArray_sound (by decide +kernel)) (by decide +kernel) n

/-- A number at the end of the input is only reported by `finish()`: `finish()` of a parser for a number with a callback that throws needs memory for the exception. -/
def refusingNumbers : Env := { onFinish := fun _ => some fun _ _ => { verdict := .reject }, onElement := fun _ => none, fmtDbl := fun _ => "" }
def sNumber : PSt yajl := left (parse yajl refusingNumbers (.value .int) (chunk "12").mem (chunk "12").ptr (chunk "12").len (PSt.init yajl (.value .int))) (PSt.init yajl (.value .int))

example : thrownA (PA.finishDoc yajl .memory refusingNumbers (.value .int) (buffer "12") 0 sNumber) = some (.parsing "std::bad_alloc" "parse error near 12") ∧
    thrownA (PA.finishDoc yajl .memory refusingNumbers (.value .int) (buffer "12") 1 sNumber) = some (.parsing "Callback returned false" "parse error near 12") := by decide +kernel

example := C54_finish (Y := yajl) (E := refusingNumbers) (R := .value .int) (buffer "12") sNumber (by decide +kernel)

theorem inner_array {q : Path} {b : Bool} {e : Shape} (h : inner.at q = some (.array b e)) : q = [.mem 1] := by
  have key : ∀ (q : Path) sh, inner.at q = some sh → (q = [] ∧ sh = inner) ∨ sh = .value .int ∨ (q = [.mem 1] ∧ sh = .array true (.value .str)) ∨ sh = .value .str ∨ sh = .ignore := by
    intro q
    induction q with
    | nil => intro sh h; simp [Shape.at] at h; exact .inl ⟨rfl, h.symm⟩
    | cons st p ih =>
      intro sh h
      simp only [Shape.at, Option.bind_eq_some_iff] at h
      obtain ⟨sh', h1, h2⟩ := h
      rcases ih sh' h1 with ⟨rfl, rfl⟩ | rfl | ⟨rfl, rfl⟩ | rfl | rfl
      · cases st with
        | mem n =>
          match n with
          | 0 => simp [Shape.child, inner] at h2; exact .inr (.inl h2.symm)
          | 1 => simp [Shape.child, inner] at h2; exact .inr (.inr (.inl ⟨rfl, h2.symm⟩))
          | n + 2 => simp [Shape.child, inner] at h2
        | elem => simp [Shape.child, inner] at h2
        | ign => simp [Shape.child, inner] at h2; exact .inr (.inr (.inr (.inr h2.symm)))
      · cases st <;> simp [Shape.child] at h2
      · cases st with
        | mem n => simp [Shape.child] at h2
        | elem => simp [Shape.child] at h2; exact .inr (.inr (.inr (.inl h2.symm)))
        | ign => simp [Shape.child] at h2
      · cases st <;> simp [Shape.child] at h2
      · cases st <;> simp [Shape.child] at h2
  rcases key q _ h with ⟨_, h⟩ | h | ⟨h, _⟩ | h | h
  · simp [inner] at h
  · cases h
  · exact h
  · cases h
  · cases h

/-- C54_again, one way: `{"id": 7}` could not be read; the parser is as good as new. -/
example : ∀ E', Blind inner E' → ∀ (j : Json) (a z : List Token), okVal inner j = true → events j = a ++ z → a ≠ [] →
    SameRun inner (run E' inner a sScarce.tree) (run E' inner a { St.init inner with log := sScarce.st.log }) := by
  refine (C54_again (by decide +kernel) (allDistinct_of (by decide +kernel)) (placed_of (by decide +kernel) (by decide +kernel)) sScarce_scarce (by decide +kernel)).2 ⟨fun q => ?_, fun q b ty hR => ?_⟩
  · cases hq : (sScarce.st.heap q).started with
    | false => rfl
    | true =>
      obtain ⟨st, e, hR⟩ := sScarce_scarce.sober.fit.arr q hq
      rcases inner_array hR with rfl
      rw [show (sScarce.st.heap [.mem 1]).started = false by decide +kernel] at hq; cases hq
  · rcases inner_array hR with rfl
    decide +kernel

/-- C54_again, the other way: there is no memory for the second string in the array. The parser will refuse another document (the array expects more elements). -/
def sStuck : PSt yajl := leftA (PA.parse yajl .memory accepting inner (chunk "{\"tags\": [\"a\", \"b\"]}").mem (chunk "{\"tags\": [\"a\", \"b\"]}").ptr (chunk "{\"tags\": [\"a\", \"b\"]}").len 3
  (PSt.init yajl inner)) (PSt.init yajl inner)

theorem sStuck_scarce : Scarce yajl inner sStuck := by
  obtain ⟨n, h⟩ := leftA_throw (r := PA.parse yajl .memory accepting inner (chunk "{\"tags\": [\"a\", \"b\"]}").mem (chunk "{\"tags\": [\"a\", \"b\"]}").ptr (chunk "{\"tags\": [\"a\", \"b\"]}").len 3
    (PSt.init yajl inner)) (d := PSt.init yajl inner) (x := .parsing "std::bad_alloc" "parse error near {\"tags\": [\"a\", \"b\"]}") (by decide +kernel)
  exact .parse .init (.inr ⟨_, h⟩)

example : ¬ ∀ E', Blind inner E' → ∀ (j : Json) (a z : List Token), okVal inner j = true → events j = a ++ z → a ≠ [] →
    SameRun inner (run E' inner a sStuck.tree) (run E' inner a { St.init inner with log := sStuck.st.log }) := by
  intro hall
  have := ((C54_again (by decide +kernel) (allDistinct_of (by decide +kernel)) (placed_of (by decide +kernel) (by decide +kernel)) sStuck_scarce (by decide +kernel)).1 hall).1 [.mem 1]
  rw [show (sStuck.st.heap [.mem 1]).started = true by decide +kernel] at this; cases this

/-- C54_array_free: `{"id": 1` of `tagged` could not be read. -/
def sTagged : PSt yajl := leftA (PA.parse yajl .memory accepting tagged (chunk "{\"id\": 1}").mem (chunk "{\"id\": 1}").ptr (chunk "{\"id\": 1}").len 0 (PSt.init yajl tagged)) (PSt.init yajl tagged)

example : SameOutcome noCb tagged (.obj [("id", .sc (.int 1)), ("kind", .sc (.str "circle")), ("r", .sc (.int 2))]) sTagged.tree (St.init tagged) := by
  have hs : Scarce yajl tagged sTagged := by
    obtain ⟨n, h⟩ := leftA_throw (r := PA.parse yajl .memory accepting tagged (chunk "{\"id\": 1}").mem (chunk "{\"id\": 1}").ptr (chunk "{\"id\": 1}").len 0 (PSt.init yajl tagged))
      (d := PSt.init yajl tagged) (x := .parsing "std::bad_alloc" "parse error near {\"id\": 1}") (by decide +kernel)
    exact .parse .init (.inr ⟨_, h⟩)
  exact C54_array_free noCb_passive tagged_arrFree hs (by decide +kernel) (by decide +kernel) (by decide +kernel)

end Examples

end SJ
