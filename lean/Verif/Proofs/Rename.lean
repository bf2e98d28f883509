/-
The names of the parser objects do not matter.
-/
import Verif.SpecRename
import Verif.Proofs.SharedId

set_option linter.unusedVariables false

namespace SJ

namespace Shd

variable {ob ob' : Path → Path} {E E' : FarEnv} {R : Shape}

/-- The two computations have the same outcome from the same states. -/
def Both (ob ob' : Path → Path) {α} (m m' : M α) : Prop := ∀ s s', SameState ob ob' s s' → SameFate ob ob' (m s) (m' s')

theorem Both.pure {α} (a : α) : Both ob ob' (M.pure a) (M.pure a) := fun s s' h => .ok a h

theorem Both.bind {α β} {m m' : M α} {f f' : α → M β} (h : Both ob ob' m m') (hf : ∀ a, Both ob ob' (f a) (f' a)) : Both ob ob' (M.bind m f) (M.bind m' f') := by
  intro s s' hs
  have := h s s' hs
  unfold M.bind
  revert this
  generalize m s = r
  generalize m' s' = r'
  intro this
  cases this with
  | ok a h1 => exact hf a _ _ h1
  | throw e h1 => exact .throw e h1
  | ub => exact .ub
  | fuel => exact .fuel

theorem Both.throwStd {α} (msg : String) : Both ob ob' (SJ.throwStd (α := α) msg) (SJ.throwStd msg) := fun s s' h => .throw _ h
theorem Both.unexpected {α} (t : Token) : Both ob ob' (SJ.unexpected (α := α) t) (SJ.unexpected t) := fun s s' h => .throw _ h
theorem Both.bad {α} : Both ob ob' (fun _ => (.ub : Res α)) (fun _ => .ub) := fun s s' h => .ub
theorem Both.spent {α} : Both ob ob' (fun _ => (.fuel : Res α)) (fun _ => .fuel) := fun s s' h => .fuel

theorem Both.getC (p : Path) : Both ob ob' (SJ.getC (ob p)) (SJ.getC (ob' p)) := fun s s' h => by
  unfold SJ.getC; rw [h.objects p]; exact .ok _ h

theorem objects_upd (hN : SameSharing ob ob') {h h' : Heap} (hh : SameObjects ob ob' h h') (p : Path) (f : Cell → Cell) :
    SameObjects ob ob' (h.upd (ob p) f) (h'.upd (ob' p) f) := by
  intro q
  unfold Heap.upd
  by_cases hq : ob q = ob p
  · rw [if_pos hq, if_pos ((hN q p).1 hq), hh q]
  · rw [if_neg hq, if_neg (fun h => hq ((hN q p).2 h)), hh q]

theorem SameState.heap {s s' : St} (h : SameState ob ob' s s') {k k' : Heap} (hk : SameObjects ob ob' k k') :
    SameState ob ob' { s with heap := k } { s' with heap := k' } := ⟨h.stack, hk, h.calls⟩

variable (hN : SameSharing ob ob')
include hN

theorem Both.modC (p : Path) (f : Cell → Cell) : Both ob ob' (SJ.modC (ob p) f) (SJ.modC (ob' p) f) :=
  fun s s' h => .ok _ (SameState.heap h (objects_upd hN h.objects p f))

mutual
theorem objects_resetH : ∀ (sh : Shape) (p : Path) {h h' : Heap}, SameObjects ob ob' h h' → SameObjects ob ob' (resetH ob p sh h) (resetH ob' p sh h')
  | .value _, p, h, h', hh => objects_upd hN hh p _
  | .ignore, p, h, h', hh => objects_upd hN hh p _
  | .object k _ ms, p, h, h', hh => by
    have := objects_upd hN (objects_resetMs ms p 0 (objects_upd hN hh p Cell.baseReset)) (.ign :: p) (fun c => { c.baseReset with struct := [] })
    cases k <;> simp only [resetH]
    · exact this
    · exact objects_upd hN this p _
    · exact objects_upd hN this p _
  | .union _ _ st ms, p, h, h', hh => by
    have := objects_upd hN (objects_resetMs ms p 0 (objects_upd hN (objects_upd hN hh p fun c => { c with curId := 0 }) p Cell.baseReset)) (.ign :: p) (fun c => { c.baseReset with struct := [] })
    cases st <;> simp only [resetH, Bool.false_eq_true, if_false, if_true]
    · exact this
    · exact objects_upd hN this p _
  | .array st e, p, h, h', hh => by
    have := objects_resetH e (.elem :: p) (objects_upd hN hh p Cell.baseReset)
    cases st <;> simp only [resetH, Bool.false_eq_true, if_false, if_true]
    · exact this
    · exact objects_upd hN this p _
  | .map st e, p, h, h', hh => by
    have := objects_upd hN hh p Cell.baseReset
    cases st <;> simp only [resetH, Bool.false_eq_true, if_false, if_true]
    · exact this
    · exact objects_upd hN this p _
theorem objects_resetMs : ∀ (ms : List (MInfo × Shape)) (p : Path) (n : Nat) {h h' : Heap}, SameObjects ob ob' h h' →
    SameObjects ob ob' (resetMs ob p n ms h) (resetMs ob' p n ms h')
  | [], p, n, h, h', hh => hh
  | (_, sh) :: ms, p, n, h, h', hh => by simp only [resetMs]; exact objects_resetMs ms p (n + 1) (objects_resetH sh (.mem n :: p) hh)
end

mutual
theorem objects_setDispH : ∀ (sh : Shape) (p : Path) {h h' : Heap}, SameObjects ob ob' h h' → SameObjects ob ob' (setDispH ob p sh h) (setDispH ob' p sh h')
  | .value _, p, h, h', hh => objects_upd hN hh p _
  | .ignore, p, h, h', hh => objects_upd hN hh p _
  | .array _ _, p, h, h', hh => objects_upd hN hh p _
  | .object _ _ ms, p, h, h', hh => by simp only [setDispH]; exact objects_upd hN (objects_setDispMs ms p 0 (objects_upd hN hh p _)) (.ign :: p) _
  | .union _ _ _ ms, p, h, h', hh => by simp only [setDispH]; exact objects_upd hN (objects_setDispMs ms p 0 (objects_upd hN hh p _)) (.ign :: p) _
  | .map _ e, p, h, h', hh => by simp only [setDispH]; exact objects_setDispH e (.elem :: p) (objects_upd hN hh p _)
theorem objects_setDispMs : ∀ (ms : List (MInfo × Shape)) (p : Path) (n : Nat) {h h' : Heap}, SameObjects ob ob' h h' →
    SameObjects ob ob' (setDispMs ob p n ms h) (setDispMs ob' p n ms h')
  | [], p, n, h, h', hh => hh
  | (_, sh) :: ms, p, n, h, h', hh => by simp only [setDispMs]; exact objects_setDispMs ms p (n + 1) (objects_setDispH sh (.mem n :: p) hh)
end

theorem Both.reset (p : Path) (sh : Shape) : Both ob ob' (SJ.modH (resetH ob p sh)) (SJ.modH (resetH ob' p sh)) :=
  fun s s' h => .ok _ (SameState.heap h (objects_resetH hN sh p h.objects))

theorem Both.setDisp (p : Path) (sh : Shape) : Both ob ob' (SJ.modH (setDispH ob p sh)) (SJ.modH (setDispH ob' p sh)) :=
  fun s s' h => .ok _ (SameState.heap h (objects_setDispH hN sh p h.objects))

theorem Both.popVal (p : Path) : Both ob ob' (SJ.popVal (ob p)) (SJ.popVal (ob' p)) := fun s s' h => by
  unfold SJ.popVal
  rw [h.objects p]
  split
  · exact .ok _ (SameState.heap h (objects_upd hN h.objects p _))
  · exact .throw _ h

omit hN in
theorem Both.currentMemberId (p : Path) : Both ob ob' (SJ.currentMemberId (ob p)) (SJ.currentMemberId (ob' p)) := fun s s' h => by
  unfold SJ.currentMemberId
  rw [h.objects p]
  split
  · exact .ok _ h
  · exact .throw _ h

omit hN in
theorem Both.push (p : Path) : Both ob ob' (pushParser p) (pushParser p) := fun s s' h => .ok _ ⟨by simp only [h.stack], h.objects, h.calls⟩

theorem objects_acts : ∀ (qs : List FarAct) {h h' : Heap}, SameObjects ob ob' h h' → SameObjects ob ob' (cbActs ob R qs h) (cbActs ob' R qs h')
  | [], h, h', hh => hh
  | .reset q :: qs, h, h', hh => by
    simp only [cbActs]
    split
    · exact objects_acts qs (objects_resetH hN _ q hh)
    · exact objects_acts qs hh
  | .pop q :: qs, h, h', hh => by
    simp only [cbActs, hh q]
    split
    · split
      · exact objects_acts qs (objects_upd hN hh q _)
      · exact objects_acts qs hh
    · exact objects_acts qs hh

omit hN in
theorem Both.verdict (v : Verdict) (msg : String) : Both ob ob' (SJ.verdict v msg) (SJ.verdict v msg) := by
  cases v with
  | accept => exact Both.pure ()
  | reject => exact Both.throwStd _
  | throws e => exact fun s s' h => .throw e h

omit hN in
theorem snap_same {h h' : Heap} (hh : SameObjects ob ob' h h') (p : Path) (sh : Shape) : snap ob h p sh = snap ob' h' p sh := by
  unfold snap
  rw [show (fun q => h (ob q)) = fun q => h' (ob' q) from funext hh]

variable (hE : SameCallbacks ob ob' E E')
include hE

theorem Both.finishCbVal (p : Path) : Both ob ob' (finishCbVal ob E R p) (finishCbVal ob' E' R p) := fun s s' h => by
  unfold Shd.finishCbVal
  rcases hE.finish p with ⟨h1, h2⟩ | ⟨cb, cb', h1, h2, h3⟩
  · rw [h1, h2]; exact .ok _ h
  · rw [h1, h2]
    simp only
    rw [h.objects p, h3 _ _ _ _ _ h.calls h.objects]
    exact Both.verdict _ _ _ _ ⟨h.stack, objects_acts hN _ h.objects, .cons (.finish p _) h.calls⟩

theorem Both.finishCbParser (sh : Shape) (c : Bool) (p : Path) : Both ob ob' (finishCbParser ob E R sh c p) (finishCbParser ob' E' R sh c p) := fun s s' h => by
  unfold Shd.finishCbParser
  rcases hE.finish p with ⟨h1, h2⟩ | ⟨cb, cb', h1, h2, h3⟩
  · rw [h1, h2]; exact .ok _ h
  · rw [h1, h2]
    simp only
    rw [snap_same h.objects, h3 _ _ _ _ _ h.calls h.objects]
    refine Both.verdict _ _ _ _ ⟨h.stack, ?_, .cons (.finish p _) h.calls⟩
    cases c with
    | false => exact objects_acts hN _ h.objects
    | true =>
      cases (cb' s'.log (Arg.parser (snap ob' s'.heap p sh)) s'.heap).newVal with
      | none => exact objects_acts hN _ h.objects
      | some v => exact objects_upd hN (objects_acts (R := R) hN (cb' s'.log (Arg.parser (snap ob' s'.heap p sh)) s'.heap).acts h.objects) p fun c => { c with val := v }

theorem Both.elementCb (e : Shape) (p : Path) : Both ob ob' (elementCb ob E R e p) (elementCb ob' E' R e p) := fun s s' h => by
  unfold Shd.elementCb
  rcases hE.element p with ⟨h1, h2⟩ | ⟨cb, cb', h1, h2, h3⟩
  · rw [h1, h2]; exact .ok _ h
  · rw [h1, h2]
    simp only
    rw [h.objects p, snap_same h.objects, h3 _ _ _ _ _ _ h.calls h.objects]
    exact Both.verdict _ _ _ _ ⟨h.stack, objects_acts hN _ h.objects, .cons (.element p _ _) h.calls⟩

omit hN hE in
theorem checkMembers_same {h h' : Heap} (hh : SameObjects ob ob' h h') (p : Path) : ∀ (ms : List (MInfo × Shape)) (n : Nat),
    checkMembers ob h p n ms = checkMembers ob' h' p n ms
  | [], n => rfl
  | (i, _) :: ms, n => by simp only [checkMembers, checkMembers_same hh p ms, hh (.mem n :: p)]

omit hE in
theorem Both.setValues (p : Path) : ∀ (ms : List (MInfo × Shape)) (n : Nat), Both ob ob' (setValues ob p n ms) (setValues ob' p n ms)
  | [], n => Both.pure _
  | (i, _) :: ms, n => by
    unfold Shd.setValues
    refine (Both.setValues p ms (n + 1)).bind fun vs => (Both.getC _).bind fun c => ?_
    split
    · exact (Both.popVal hN _).bind fun v => Both.pure _
    · split
      · cases i.dflt with
        | none => exact Both.throwStd _
        | some d => exact Both.pure _
      · exact Both.throwStd _

omit hN hE in
theorem Both.checkAlt (p : Path) : ∀ (ms : List (MInfo × Shape)) (n : Nat), Both ob ob' (checkAlt ob p n ms) (checkAlt ob' p n ms)
  | [], n => Both.pure _
  | (i, _) :: ms, n => by
    unfold Shd.checkAlt
    refine (Both.checkAlt p ms (n + 1)).bind fun _ => (Both.currentMemberId _).bind fun id => ?_
    split
    · exact Both.pure _
    · refine (Both.getC _).bind fun c => ?_
      split
      · exact Both.throwStd _
      · exact Both.pure _

omit hE in
theorem Both.setAlt (p : Path) : ∀ (ms : List (MInfo × Shape)) (n : Nat), Both ob ob' (setAlt ob p n ms) (setAlt ob' p n ms)
  | [], n => Both.pure _
  | (i, _) :: ms, n => by
    unfold Shd.setAlt
    refine (Both.setAlt p ms (n + 1)).bind fun r => (Both.currentMemberId _).bind fun id => ?_
    split
    · exact Both.pure _
    · refine (Both.getC _).bind fun c => ?_
      split
      · exact (Both.popVal hN _).bind fun v => Both.pure _
      · split
        · cases i.dflt with
          | none => exact Both.throwStd _
          | some d => exact Both.pure _
        · exact Both.throwStd _

omit hE in
theorem Both.unlessEmpty (p : Path) {m m' : M Unit} (h : Both ob ob' m m') : Both ob ob' (SJ.unlessEmpty (ob p) m) (SJ.unlessEmpty (ob' p) m') := by
  unfold SJ.unlessEmpty
  refine (Both.getC p).bind fun c => ?_
  split
  · exact Both.modC hN p _
  · exact h

omit hE in
theorem Both.wrapOnThrow {α} (p : Path) {m m' : M α} (h : Both ob ob' m m') : Both ob ob' (SJ.wrapOnThrow (ob p) m) (SJ.wrapOnThrow (ob' p) m') := by
  intro s s' hs
  have := h s s' hs
  unfold SJ.wrapOnThrow
  revert this
  generalize m s = r
  generalize m' s' = r'
  intro this
  cases this with
  | ok a h1 => exact .ok a h1
  | throw e h1 => exact .throw _ (SameState.heap h1 (objects_upd hN h1.objects p _))
  | ub => exact .ub
  | fuel => exact .fuel

omit hE in
theorem Both.unsetOnThrow {α} (p : Path) {m m' : M α} (h : Both ob ob' m m') : Both ob ob' (SJ.unsetOnThrow (ob p) m) (SJ.unsetOnThrow (ob' p) m') := by
  intro s s' hs
  have := h s s' hs
  unfold SJ.unsetOnThrow
  revert this
  generalize m s = r
  generalize m' s' = r'
  intro this
  cases this with
  | ok a h1 => exact .ok a h1
  | throw e h1 => exact .throw _ (SameState.heap h1 (objects_upd hN h1.objects p _))
  | ub => exact .ub
  | fuel => exact .fuel

omit hN hE in
theorem Both.check (p : Path) (ms : List (MInfo × Shape)) : Both ob ob' (fun s => match checkMembers ob s.heap p 0 ms with | some e => .throw (.std e) s | none => .ok () s)
    (fun s => match checkMembers ob' s.heap p 0 ms with | some e => .throw (.std e) s | none => .ok () s) := by
  intro s s' h
  simp only [checkMembers_same h.objects]
  cases checkMembers ob' s'.heap p 0 ms with
  | none => exact .ok _ h
  | some e => exact .throw _ h

theorem Both.finish (sh : Shape) (p : Path) : Both ob ob' (finish ob E R sh p) (finish ob' E' R sh p) := by
  cases sh with
  | value ty => exact Both.finishCbVal hN hE p
  | ignore => exact Both.pure _
  | object k u ms =>
    cases k with
    | auto =>
      exact Both.unlessEmpty hN p ((Both.wrapOnThrow hN p (Both.setValues hN p ms 0)).bind fun vs => (Both.modC hN p _).bind fun _ => Both.finishCbVal hN hE p)
    | plain => exact Both.unlessEmpty hN p ((Both.unsetOnThrow hN p (Both.check p ms)).bind fun _ => Both.finishCbParser hN hE _ _ p)
    | custom => exact Both.unlessEmpty hN p ((Both.unsetOnThrow hN p (Both.check p ms)).bind fun _ => Both.finishCbParser hN hE _ _ p)
  | union ty tm st ms =>
    cases st with
    | false => exact Both.unlessEmpty hN p ((Both.unsetOnThrow hN p (Both.checkAlt p ms 0)).bind fun _ => Both.finishCbParser hN hE _ _ p)
    | true =>
      refine Both.unlessEmpty hN p ((Both.wrapOnThrow hN p (Both.setAlt hN p ms 0)).bind fun r => Both.bind ?_ fun _ => Both.finishCbVal hN hE p)
      cases r with
      | none => exact Both.pure _
      | some v => exact Both.modC hN p _
  | array st e => 
    cases st with
    | false => exact Both.finishCbParser (R := R) hN hE (.array false e) false p
    | true => exact Both.finishCbVal hN hE p
  | map st e => exact Both.finishCbParser (R := R) hN hE (.map st e) false p

theorem Both.chain : ∀ n : Nat,
    Both ob ob' (popParser ob E R n) (popParser ob' E' R n) ∧
    (∀ p, Both ob ob' (childParsed ob E R n p) (childParsed ob' E' R n p)) ∧
    (∀ sh p, Both ob ob' (endParsing ob E R n sh p) (endParsing ob' E' R n sh p)) ∧
    Both ob ob' (dispatchMapEnd ob E R n) (dispatchMapEnd ob' E' R n) := by
  intro n
  induction n with
  | zero => exact ⟨Both.spent, fun _ => Both.spent, fun _ _ => Both.spent, Both.spent⟩
  | succ n ih =>
    obtain ⟨h1, h2, h3, h4⟩ := ih
    refine ⟨?_, ?_, ?_, ?_⟩
    · intro s s' h
      simp only [popParser]
      rw [h.stack]
      match hs : s'.stack with
      | [] => exact .throw _ h
      | [_] => exact .ok _ ⟨rfl, h.objects, h.calls⟩
      | _ :: q :: r => exact h2 q _ _ ⟨rfl, h.objects, h.calls⟩
    · intro p
      simp only [childParsed]
      match R.at p with
      | none => exact Both.bad
      | some (.array true _) => exact (Both.popVal hN _).bind fun v => Both.modC hN p _
      | some (.array false _) => exact Both.pure _
      | some (.map false e) => exact Both.elementCb hN hE e p
      | some (.map true e) => exact (Both.elementCb hN hE e p).bind fun _ => (Both.popVal hN _).bind fun v => Both.modC hN p _
      | some (.union ty tm st ms) =>
        refine (h3 _ p).bind fun _ => ?_
        split
        · refine (Both.getC p).bind fun c => ?_
          split
          · exact h4
          · exact Both.bad
        · exact Both.pure _
      | some (.value _) => exact Both.pure _
      | some .ignore => exact Both.pure _
      | some (.object _ _ _) => exact Both.pure _
    · intro sh p
      simp only [endParsing]
      refine (Both.modC hN p _).bind fun _ => (Both.finish hN hE sh p).bind fun _ => (Both.getC p).bind fun c => ?_
      split
      · exact h1
      · exact Both.pure _
    · intro s s' h
      simp only [dispatchMapEnd]
      rw [h.stack]
      match hs : s'.stack with
      | [] => exact .throw _ h
      | p :: r =>
        simp only
        match R.at p with
        | none => exact .ub
        | some .ignore =>
          simp only
          rw [h.objects p]
          rcases (s'.heap (ob' p)).struct with _ | ⟨_ | _, r⟩
          · exact .throw _ h
          · exact .throw _ h
          · simp only
            have := objects_upd hN h.objects p fun c => { c with struct := r }
            split
            · exact h3 _ p _ _ ⟨by first | rfl | exact h.stack, this, h.calls⟩
            · exact .ok _ ⟨by first | rfl | exact h.stack, this, h.calls⟩
        | some (.object k u ms) => exact h3 _ p _ _ h
        | some (.union ty tm st ms) => exact h3 _ p _ _ h
        | some (.map st e) => exact h3 _ p _ _ h
        | some (.value _) => exact .throw _ h
        | some (.array _ _) => exact .throw _ h

theorem Both.onNullBase (f : Nat) (sh : Shape) (p : Path) : Both ob ob' (onNullBase ob E R f sh p) (onNullBase ob' E' R f sh p) := by
  unfold Shd.onNullBase
  refine (Both.reset hN p sh).bind fun _ => (Both.getC p).bind fun c => ?_
  split
  · exact (Both.chain hN hE f).1
  · exact Both.pure _

theorem Both.onMember (u : Bool) (ms : List (MInfo × Shape)) (p : Path) (x : Scalar) : Both ob ob' (onMember ob E u ms p x) (onMember ob' E' u ms p x) := by
  unfold Shd.onMember
  refine (Both.modC hN p _).bind fun _ => (Both.getC p).bind fun c => ?_
  cases lookup x 0 ms with
  | some a =>
    simp only
    split
    · exact (Both.push _).bind fun _ => Both.pure _
    · exact Both.bad
  | none =>
    simp only [hE.fmt]
    split
    · exact Both.throwStd _
    · split
      · exact (Both.push _).bind fun _ => Both.pure _
      · exact Both.bad

omit hE in
theorem memberId_same (p q : Path) : ∀ k, memberId ob p (ob q) k = memberId ob' p (ob' q) k
  | 0 => rfl
  | k + 1 => by
    unfold memberId
    by_cases h : ob (.mem k :: p) = ob q
    · rw [if_pos h, if_pos ((hN _ _).1 h)]
    · rw [if_neg h, if_neg (fun c => h ((hN _ _).2 c)), memberId_same p q k]

theorem Both.on (f : Nat) (t : Token) (sh : Shape) : ∀ p, Both ob ob' (on ob E R f sh p t) (on ob' E' R f sh p t) := by
  have he : ∀ sh p, Both ob ob' (endParsing ob E R f sh p) (endParsing ob' E' R f sh p) := (Both.chain hN hE f).2.2.1
  induction sh using Shape.arrInd with
  | value ty =>
    intro p
    cases t <;> simp only [Shd.on]
    case null => exact Both.onNullBase hN hE f _ p
    case scalar v =>
      split
      · exact (Both.modC hN p _).bind fun _ => (Both.modC hN p _).bind fun _ => he _ p
      · exact Both.unexpected _
    all_goals exact Both.unexpected _
  | ignore =>
    intro p
    cases t <;> simp only [Shd.on]
    case null => exact Both.onNullBase hN hE f _ p
    case scalar v =>
      refine (Both.getC p).bind fun c => ?_
      split
      · exact he _ p
      · exact Both.pure _
    case mapStart => exact Both.modC hN p _
    case arrStart => exact Both.modC hN p _
    case mapKey k =>
      refine (Both.getC p).bind fun c => ?_
      rcases c.struct with _ | ⟨_ | _, r⟩
      · exact Both.unexpected _
      · exact Both.unexpected _
      · exact Both.pure _
    case mapEnd =>
      refine (Both.getC p).bind fun c => ?_
      rcases c.struct with _ | ⟨_ | _, r⟩
      · exact Both.unexpected _
      · exact Both.unexpected _
      · refine (Both.modC hN p _).bind fun _ => ?_
        split
        · exact he _ p
        · exact Both.pure _
    case arrEnd =>
      refine (Both.getC p).bind fun c => ?_
      rcases c.struct with _ | ⟨_ | _, r⟩
      · exact Both.unexpected _
      · refine (Both.modC hN p _).bind fun _ => ?_
        split
        · exact he _ p
        · exact Both.pure _
      · exact Both.unexpected _
  | object k u ms =>
    intro p
    cases t <;> simp only [Shd.on]
    case null => exact Both.onNullBase hN hE f _ p
    case mapStart => exact Both.reset hN p _
    case mapKey key => exact (Both.onMember hN hE u ms p _).bind fun _ => Both.pure _
    case mapEnd => exact he _ p
    all_goals exact Both.unexpected _
  | union ty tm st ms =>
    intro p
    cases t <;> simp only [Shd.on]
    case null => exact Both.onNullBase hN hE f _ p
    case scalar v =>
      split
      · refine (Both.reset hN p _).bind fun _ => (Both.onMember hN hE true ms p v).bind fun r => ?_
        cases r with
        | none => exact Both.pure _
        | some n => simp only [memberId_same hN]; exact Both.modC hN p _
      · exact Both.unexpected _
    case mapStart =>
      split
      · exact Both.throwStd _
      · exact Both.reset hN p _
    case mapKey key =>
      split
      · exact Both.throwStd _
      · split
        · exact Both.throwStd _
        · exact Both.pure _
    case mapEnd => exact he _ p
    all_goals exact Both.unexpected _
  | map st e =>
    intro p
    cases t <;> simp only [Shd.on]
    case null => exact Both.onNullBase hN hE f _ p
    case mapStart => exact Both.reset hN p _
    case mapKey key =>
      refine (Both.modC hN p _).bind fun _ => (Both.getC p).bind fun c => ?_
      split
      · exact (Both.push _).bind fun _ => Both.modC hN p _
      · exact Both.bad
    case mapEnd => exact he _ p
    all_goals exact Both.unexpected _
  | array st e ih =>
    intro p
    have hc := (Both.chain (R := R) hN hE f).2.1 p
    cases t <;> simp only [Shd.on]
    case null =>
      refine (Both.getC p).bind fun c => ?_
      split
      · exact Both.onNullBase hN hE f _ p
      · exact ih _
    case scalar v =>
      refine (Both.getC p).bind fun c => ?_
      split
      · exact Both.unexpected _
      · exact (ih _).bind fun _ => (Both.modC hN p _).bind fun _ => hc
    case mapStart =>
      refine (Both.getC p).bind fun c => ?_
      split
      · exact Both.unexpected _
      · split
        · exact Both.bad
        · exact (Both.modC hN p _).bind fun _ => (Both.setDisp hN _ e).bind fun _ => (Both.push _).bind fun _ => ih _
    case arrStart =>
      refine (Both.getC p).bind fun c => ?_
      split
      · exact (Both.reset hN p _).bind fun _ => Both.modC hN p _
      · split
        · exact Both.bad
        · exact (Both.modC hN p _).bind fun _ => (Both.setDisp hN _ e).bind fun _ => (Both.push _).bind fun _ => ih _
    case arrEnd => exact (Both.modC hN p _).bind fun _ => he _ p
    all_goals exact Both.unexpected _

theorem Both.dispatch (t : Token) : Both ob ob' (dispatch ob E R t) (dispatch ob' E' R t) := by
  intro s s' h
  unfold Shd.dispatch
  rw [h.stack]
  match hs : s'.stack with
  | [] => exact .throw _ h
  | p :: r =>
    simp only
    cases R.at p with
    | none => exact .ub
    | some sh => exact Both.on hN hE _ t sh p s s' h

theorem Both.run : ∀ ts : List Token, Both ob ob' (run ob E R ts) (run ob' E' R ts)
  | [] => Both.pure _
  | t :: ts => (Both.dispatch hN hE t).bind fun _ => Both.run ts

omit hE in
theorem SameState.init : SameState ob ob' (init ob R) (init ob' R) := ⟨rfl, objects_setDispH hN R [] (fun p => rfl), .nil⟩

omit hN hE in
theorem SameState.restart {s s' : St} (h : SameState ob ob' s s') : SameState ob ob' s.restart s'.restart := ⟨rfl, h.objects, h.calls⟩

/-! ### The whole parser -/

variable {Y : Yajl}

/-- `Both` for the calls of `YajlParser`. -/
def BothP (ob ob' : Path → Path) {α} (m m' : P Y α) : Prop := ∀ s s', SameParser ob ob' s s' → SameCallEnd ob ob' (m s) (m' s')

omit hN hE in
theorem BothP.bind {α β} {m m' : P Y α} {f f' : α → P Y β} (h : BothP ob ob' m m') (hf : ∀ a, BothP ob ob' (f a) (f' a)) : BothP ob ob' (P.bind m f) (P.bind m' f') := by
  intro s s' hs
  have := h s s' hs
  unfold P.bind
  revert this
  generalize m s = r
  generalize m' s' = r'
  intro this
  cases this with
  | ok a h1 => exact hf a _ _ h1
  | throw e h1 => exact .throw e h1
  | ub => exact .ub
  | fuel => exact .fuel

omit hN hE in
theorem BothP.pure {α} (a : α) : BothP (Y := Y) ob ob' (P.pure a) (P.pure a) := fun s s' h => .ok a h

theorem BothP.onToken (t : Token) : BothP ob ob' (onToken ob E R Y t) (onToken ob' E' R Y t) := by
  intro s s' h
  have := Both.dispatch (R := R) hN hE t _ _ h.st
  unfold Shd.onToken
  revert this
  generalize Shd.dispatch ob E R t s.st = r
  generalize Shd.dispatch ob' E' R t s'.st = r'
  intro this
  cases this with
  | ok a h1 => exact .ok _ ⟨h1, h.handle, h.alive, h.data, h.len, h.resetNeeded, h.err⟩
  | throw e h1 => cases e <;> exact .ok _ ⟨h1, h.handle, h.alive, h.data, h.len, h.resetNeeded, rfl⟩
  | ub => exact .ub
  | fuel => exact .fuel

theorem BothP.report : ∀ ts : List Token, BothP ob ob' (report ob E R Y ts) (report ob' E' R Y ts)
  | [] => BothP.pure _
  | t :: ts => by
    unfold Shd.report
    refine (BothP.onToken hN hE t).bind fun go => ?_
    split
    · exact BothP.report ts
    · exact BothP.pure _

theorem BothP.advance (out) : BothP ob ob' (advance ob E R Y out) (advance ob' E' R Y out) := by
  unfold Shd.advance
  refine (BothP.report hN hE _).bind fun go => ?_
  intro s s' h
  simp only
  split
  · exact .ok _ ⟨h.st, rfl, rfl, h.data, h.len, h.resetNeeded, h.err⟩
  · exact .ok _ ⟨h.st, rfl, rfl, h.data, h.len, h.resetNeeded, h.err⟩

theorem BothP.yajlParse : ∀ bs, BothP ob ob' (yajlParse ob E R Y bs) (yajlParse ob' E' R Y bs)
  | [] => fun s s' h => by unfold Shd.yajlParse; rw [h.alive]; exact .ok _ h
  | b :: bs => by
    intro s s' h
    unfold Shd.yajlParse
    rw [h.alive]
    split
    · rw [h.handle]
      refine (BothP.advance hN hE _).bind (fun go => ?_) s s' h
      split
      · exact BothP.yajlParse bs
      · exact BothP.pure _
    · exact .ok _ h

omit hN hE in
theorem BothP.throwParsingError (m : Mem) : BothP (Y := Y) ob ob' (throwParsingError Y m) (throwParsingError Y m) := by
  intro s s' h
  unfold SJ.throwParsingError
  rw [h.data, h.len, h.err, h.handle]
  cases m.read s'.data s'.len with
  | none => exact .ub
  | some bs => exact .throw _ h

theorem BothP.parse (m : Mem) (p : Ptr) (len : Nat) : BothP ob ob' (parse ob E R Y m p len) (parse ob' E' R Y m p len) := by
  intro s s' h
  unfold Shd.parse
  cases m.read p len with
  | none => exact .ub
  | some bs =>
    refine (BothP.yajlParse hN hE bs).bind (fun good => ?_) _ _ ?_
    · intro s s' h
      simp only
      split
      · exact .ok _ h
      · exact BothP.throwParsingError m _ _ ⟨h.st, h.handle, h.alive, h.data, h.len, rfl, h.err⟩
    · unfold PSt.renew
      simp only [h.resetNeeded]
      split
      · exact ⟨SameState.restart h.st, rfl, rfl, rfl, rfl, rfl, rfl⟩
      · exact ⟨h.st, h.handle, h.alive, rfl, rfl, rfl, h.err⟩

theorem BothP.finishDoc (m : Mem) : BothP ob ob' (finishDoc ob E R Y m) (finishDoc ob' E' R Y m) := by
  intro s s' h
  unfold Shd.finishDoc
  refine BothP.bind (f := fun good => if good then checkDispatcherStack Y else SJ.throwParsingError Y m) (f' := fun good => if good then checkDispatcherStack Y else SJ.throwParsingError Y m)
    (m := yajlComplete ob E R Y) (m' := yajlComplete ob' E' R Y) ?_ (fun good => ?_) _ _ ⟨h.st, h.handle, h.alive, h.data, h.len, rfl, h.err⟩
  · intro s s' h
    unfold yajlComplete
    rw [h.alive, h.handle]
    split
    · exact BothP.advance hN hE _ _ _ h
    · exact .ok _ h
  · split
    · intro s s' h
      unfold checkDispatcherStack
      rw [h.st.stack]
      cases s'.st.stack with
      | nil => exact .ok _ h
      | cons _ _ => exact .throw _ h
    · exact BothP.throwParsingError m

omit hE in
theorem SameParser.start : SameParser ob ob' (start ob R Y) (start ob' R Y) := ⟨SameState.init hN, rfl, rfl, rfl, rfl, rfl, rfl⟩

end Shd

end SJ
