/-
C57: an operation of a user's type throws while a document is read.
-/
import Verif.Props.Memory
import Verif.Props.Typed

set_option linter.unusedVariables false

namespace SJ

variable {E : Env} {R : Shape} {Y : Yajl}

/-- C57. For every call of `parse()` there is a number `N` of operations of user's types that it calls. If they succeed, the outcome is that of the model without failures. If one of
them throws `x` - whichever is the first, and however much of a `reset()` was done until then (`U`) - `parse()` throws a `ParsingError` with the text of `x`, or - only if there is an
`SAutoObject` or `SUnion` in the tree - with this text after "Can not set value: " (`UserText`), and the callbacks that have been called until then, with their arguments, are the first of those that would have been called otherwise. -/
theorem C57_parse (x : Exn) (U : Path → Option Bool) (m : Mem) (p : Ptr) (len : Nat) (hm : (m.read p len).isSome) (s : PSt Y) :
    ∃ N, ∀ n,
      (N ≤ n → PA.parse Y (.user x U) E R m p len n s = (parse Y E R m p len s).left (n - N)) ∧
      (n < N → ∃ sj y s', PA.parse Y (.user x U) E R m p len n s = .throw (.parsing sj y) 0 s' ∧ UserText R x sj ∧ FirstCalls s'.st.log (parse Y E R m p len s)) :=
  faults_parse (.user x U) m p len hm s

/-- C57. The same for `finish()` (as long as the buffer of the last `parse()` exists). -/
theorem C57_finish (x : Exn) (U : Path → Option Bool) (m : Mem) (s : PSt Y) (hm : (m.read s.data s.len).isSome) :
    ∃ N, ∀ n,
      (N ≤ n → PA.finishDoc Y (.user x U) E R m n s = (finishDoc Y E R m s).left (n - N)) ∧
      (n < N → ∃ sj y s', PA.finishDoc Y (.user x U) E R m n s = .throw (.parsing sj y) 0 s' ∧ UserText R x sj ∧ FirstCalls s'.st.log (finishDoc Y E R m s)) :=
  faults_finish (.user x U) m s hm

/-- C57. Whatever operations of user's types have thrown before (and however often memory has run out): `parse()` of a readable buffer returns or throws a `ParsingError`, never the exception of the
user's type itself; nothing else can happen (for parser trees without arrays of unions). -/
theorem C57_total (x : Exn) (U : Path → Option Bool) {s : PSt Y} (h : Scarce Y R s) (hu : ¬ HasUnionArray R) {m : Mem} {p : Ptr} {len : Nat} (hm : (m.read p len).isSome) (n : Nat) :
    (∃ n' s', PA.parse Y (.user x U) E R m p len n s = .ok () n' s') ∨ (∃ sj y n' s', PA.parse Y (.user x U) E R m p len n s = .throw (.parsing sj y) n' s') :=
  faults_total (.user x U) h hu hm n

/-- C57. The same for `finish()`. -/
theorem C57_finish_total (x : Exn) (U : Path → Option Bool) {s : PSt Y} (h : Scarce Y R s) (hu : ¬ HasUnionArray R) {m : Mem} (hm : (m.read s.data s.len).isSome) (n : Nat) :
    (∃ n' s', PA.finishDoc Y (.user x U) E R m n s = .ok () n' s') ∨ (∃ sj y n' s', PA.finishDoc Y (.user x U) E R m n s = .throw (.parsing sj y) n' s') :=
  faults_finish_total (.user x U) h hu hm n

/-- C57, using the parser again. An operation of a user's type has thrown in `parse()`: the parser is as good as new **if and only if** no array of the tree has been left in the middle of its elements
and no `Value` that is the element parser of an array has got a dispatcher - as after any other error (`C23_characterised`). -/
theorem C57_again (x : Exn) (U : Path → Option Bool) (hw : R.wf = true) (hd : AllDistinct R) (hp : Placed R) {s s' : PSt Y} (h : Scarce Y R s) {m : Mem} {p : Ptr} {len n n' : Nat} {y : Thrown}
    (hr : PA.parse Y (.user x U) E R m p len n s = .throw y n' s') :
    (∀ E', Blind R E' → ∀ (j : Json) (a z : List Token), okVal R j = true → events j = a ++ z → a ≠ [] →
        SameRun R (run E' R a s'.tree) (run E' R a { St.init R with log := s'.st.log })) ↔
      (∀ q, (s'.st.heap q).started = false) ∧ ∀ q b ty, R.at q = some (.array b (.value ty)) → (s'.st.heap (.elem :: q)).disp = false := by
  refine C54_again hw hd hp (.parse h (.inr ⟨_, hr⟩)) ?_
  simp only [PA.parse] at hr
  cases hm : m.read p len with
  | none => rw [hm] at hr; cases hr
  | some bs =>
    rw [hm] at hr
    simp only [PA.bind] at hr
    obtain ⟨_, N, hc⟩ := PA.yajlParse_costs (F := .user x U) (E := E) (R := R) bs (PSt.renew Y { s with data := p, len := len })
    have key : ∀ (b : Bool) (k : Nat) (s1 : PSt Y), PA.lift (fun s => if b then .ok () s else throwParsingError Y m { s with resetNeeded := true }) k s1 = .throw y n' s' →
        s'.resetNeeded = true := by
      intro b k s1 h
      cases b with
      | true => simp [PA.lift] at h
      | false =>
        simp only [PA.lift, Bool.false_eq_true, if_false, throwParsingError] at h
        cases hm' : m.read s1.data s1.len <;> rw [hm'] at h <;> simp only [PResA.throw.injEq, reduceCtorEq] at h
        obtain ⟨_, _, rfl⟩ := h; rfl
    rcases hy : PA.yajlParse Y (.user x U) E R bs n (PSt.renew Y { s with data := p, len := len }) with ⟨b, k, s1⟩ | ⟨e, k, s1⟩ | _ | _
    · rw [hy] at hr; exact key b k s1 hr
    · exfalso
      by_cases hn : n < N
      · obtain ⟨s2, h2, _⟩ := (hc n).1 hn
        rw [h2] at hy; cases hy
      · rw [(hc n).2 (by omega)] at hy
        have := PA.yajlParse_noThrow (E := E) (R := R) bs (PSt.renew Y { s with data := p, len := len })
        cases hq : yajlParse Y E R bs (PSt.renew Y { s with data := p, len := len }) with
        | throw e s => exact this _ _ hq
        | _ => rw [hq] at hy; cases hy
    · rw [hy] at hr; cases hr
    · rw [hy] at hr; cases hr

/-- C57, the text. If there is no `SArray` or `SMap` in the tree, what throws at a closing brace is the putting together of a value: the text kept for `sjparserError()` says so. -/
theorem C57_set (x : Exn) (U : Path → Option Bool) (hg : ∀ p sh, R.at p = some sh → ∀ e, sh ≠ .array true e ∧ sh ≠ .map true e) {s : PSt Y} {n : Nat} {e : Exn} {st' : St}
    (ht : MA.dispatch (.user x U) E R .mapEnd n s.st = .fault e st') :
    PA.onToken Y (.user x U) E R .mapEnd n s = .ok false 0 { s with st := st', err := settingText x } := by
  have := MA.mapEnd_says (E := E) (R := R) (x := x) (U := U) (fun p sh hp hx => by
    cases sh with
    | array st e => cases st with
      | true => exact (hg p _ hp e).1 rfl
      | false => exact hx
    | map st e => cases st with
      | true => exact (hg p _ hp e).2 rfl
      | false => exact hx
    | _ => exact hx) n s.st e st' ht
  subst this
  simp only [PA.onToken, ht, cText_plain (plain_setting x)]

/-- C57, the text. What throws at an opening brace or bracket is a `reset()`, in any tree: the text is that of the exception. -/
theorem C57_start (x : Exn) (U : Path → Option Bool) {t : Token} (hs : t = .mapStart ∨ t = .arrStart) {s : PSt Y} {n : Nat} {e : Exn} {st' : St}
    (ht : MA.dispatch (.user x U) E R t n s.st = .fault e st') :
    PA.onToken Y (.user x U) E R t n s = .ok false 0 { s with st := st', err := plainText x } := by
  have he : e = x := by
    have h := ht
    simp only [MA.dispatch] at h
    cases hst : s.st.stack with
    | nil => rw [hst] at h; simp [MA.lift, throwStd] at h
    | cons p r =>
      rw [hst] at h; simp only at h
      cases hR : R.at p with
      | none => rw [hR] at h; simp at h
      | some sh => rw [hR] at h; exact MA.opening_says sh _ p t hs _ _ _ _ h
  subst he
  simp only [PA.onToken, ht]
  cases e <;> rfl

/-- C57 (with C19, C36). An operation of a user's type throws while any token is handled: whatever can be got out of any storage parser then has the type of the parser and no moved-from
parts; nor was any callback called with anything else. -/
theorem C57_values (x : Exn) (U : Path → Option Bool) (hwf : R.wf = true) (hd : CleanDefaults R) (hcb : CleanCallbacks E) {t : Token} {rest : List Token} {s s' : St} {n : Nat} {e : Exn}
    (h : Feeding R (t :: rest) s) (ht : MA.dispatch (.user x U) E R t n s = .fault e s') :
    (∀ (p : Path) (sh : Shape) (v : Val) (s'' : St), R.at p = some sh → sh.isStorage = true → (get p s' = .ok v s'' ∨ pop' p s' = .ok v s'') → Proper sh v) ∧
    (∀ c ∈ s'.log, c.Proper R) :=
  C54_values hwf hd hcb h ht

/-- C57 (with C34). An object or array in the middle of which an operation of a user's type throws is unset. -/
theorem C57_unset (x : Exn) (U : Path → Option Bool) (hwf : R.wf = true) (hd : CleanDefaults R) (hcb : CleanCallbacks E) {t : Token} {rest : List Token} {s s' : St} {p : Path}
    {sh : Shape} {n : Nat} {e : Exn} (h : Reading R p (t :: rest) s) (hR : R.at p = some sh) (hv : ∀ ty, sh ≠ .value ty) (hi : sh ≠ .ignore)
    (ht : MA.dispatch (.user x U) E R t n s = .fault e s') :
    isSet p s' = false ∨ (∃ a l, s'.log = .finish p a :: l ∧ s.log.length ≤ l.length) ∨ p ∉ s'.stack :=
  C34_short hwf hd hcb h hR hv hi ht

/-! ### The hypotheses are met -/

section Examples
open Demo

/-- `{"id": 7}` for `{"id": int, "tags": [string] = []}`, an `SAutoObject`. The operations: `_value = {}`, the copy of the default value, the move of the value of "id". -/
def unmovable (x : Exn) : Nat → PResA yajl Unit := fun n =>
  PA.parse yajl (.user x fun _ => none) accepting inner (chunk "{\"id\": 7}").mem (chunk "{\"id\": 7}").ptr (chunk "{\"id\": 7}").len n (PSt.init yajl inner)

example : thrownA (unmovable .other 0) = some (.parsing "Unknown exception" "parse error near {\"id\": 7}") ∧
    thrownA (unmovable .other 1) = some (.parsing "Can not set value: unknown exception" "parse error near {\"id\": 7}") ∧
    thrownA (unmovable .other 2) = some (.parsing "Can not set value: unknown exception" "parse error near {\"id\": 7}") ∧ countA (unmovable .other 5) = some 2 := by decide +kernel

example : thrownA (unmovable (.std "no copies") 0) = some (.parsing "no copies" "parse error near {\"id\": 7}") ∧
    thrownA (unmovable (.std "no copies") 2) = some (.parsing "Can not set value: no copies" "parse error near {\"id\": 7}") ∧ countA (unmovable (.std "no copies") 3) = some 0 := by decide +kernel

/-- C57_parse -/
example := C57_parse (Y := yajl) (E := accepting) (R := inner) (.std "no copies") (fun _ => some false) (chunk "{\"id\": 7}").mem (chunk "{\"id\": 7}").ptr (chunk "{\"id\": 7}").len (by decide +kernel)
  (PSt.init yajl inner)

/-- C57_start, C57_set: `_value = {}` throws at the opening brace; the copy of a default value at the closing one. -/
def noTags : Shape := .object .auto true [({ name := .str "id" }, .value .int), ({ name := .str "n", optional := true, dflt := some (.sc (.int 0)) }, .value .int)]

def kept (r : PResA yajl Bool) : Option String :=
  match r with
  | .ok false 0 s => some s.err
  | _ => none

example : kept (PA.onToken yajl (.user (.std "no copies") fun _ => none) noCb noTags .mapStart 0 (PSt.init yajl noTags)) = some "no copies" := by
  obtain ⟨e, h⟩ : ∃ e, MA.dispatch (.user (.std "no copies") fun _ => none) noCb noTags .mapStart 0 (St.init noTags) = .fault e _ := ⟨_, rfl⟩
  have := C57_start (Y := yajl) (E := noCb) (R := noTags) (.std "no copies") (fun _ => none) (.inl rfl) (s := PSt.init yajl noTags) h
  rw [this]
  show some (cText "no copies") = _
  decide +kernel

theorem noTags_grows : ∀ p sh, noTags.at p = some sh → ∀ e, sh ≠ .array true e ∧ sh ≠ .map true e := by
  intro p sh hp e
  have := everyB_sound (f := fun sh => match sh with | .array true _ => false | .map true _ => false | _ => true) rfl (R := noTags) (by decide +kernel) p sh hp
  constructor <;> rintro rfl <;> simp at this

example {s : PSt yajl} (hs : s.st = after noCb noTags [.mapStart, .mapKey "id", .scalar (.int 7)] (St.init noTags)) :
    ∃ st', PA.onToken yajl (.user .other fun _ => none) noCb noTags .mapEnd 0 s = .ok false 0 { s with st := st', err := "Can not set value: unknown exception" } := by
  have : ∃ e st', MA.dispatch (.user .other fun _ => none) noCb noTags .mapEnd 0 (after noCb noTags [.mapStart, .mapKey "id", .scalar (.int 7)] (St.init noTags)) = .fault e st' := ⟨_, _, rfl⟩
  obtain ⟨e, st', h⟩ := this
  rw [← hs] at h
  exact ⟨st', C57_set (Y := yajl) (E := noCb) .other (fun _ => none) noTags_grows h⟩

/-- The state in which the parser is left when the value of "id" could not be moved: its callback was called, that of the object was not. -/
def sThrown : PSt yajl := leftA (unmovable .other 2) (PSt.init yajl inner)

theorem sThrown_eq : ∃ n, unmovable .other 2 = .throw (.parsing "Can not set value: unknown exception" "parse error near {\"id\": 7}") n sThrown :=
  leftA_throw (r := unmovable .other 2) (d := PSt.init yajl inner) (by decide +kernel)

theorem sThrown_scarce : Scarce yajl inner sThrown := by
  obtain ⟨n, h⟩ := sThrown_eq
  exact .parse .init (.inr ⟨_, h⟩)

example : sThrown.st.log.length = 1 ∧ sThrown.resetNeeded = true ∧ isSet [] sThrown.st = false ∧ isSet [.mem 0] sThrown.st = false := by decide +kernel

/-- C57_total, C57_finish_total: the next calls. -/
example (n : Nat) : (∃ n' s', PA.parse yajl (.user .other fun _ => none) accepting inner (chunk "{\"id\": 7}").mem (chunk "{\"id\": 7}").ptr (chunk "{\"id\": 7}").len n sThrown = .ok () n' s') ∨
    (∃ sj y n' s', PA.parse yajl (.user .other fun _ => none) accepting inner (chunk "{\"id\": 7}").mem (chunk "{\"id\": 7}").ptr (chunk "{\"id\": 7}").len n sThrown = .throw (.parsing sj y) n' s') :=
  C57_total _ _ sThrown_scarce (noUnionArray_sound (by decide +kernel)) (by decide +kernel) n

example (n : Nat) : (∃ n' s', PA.finishDoc yajl (.user .other fun _ => none) accepting inner (chunk "{\"id\": 7}").mem n sThrown = .ok () n' s') ∨
    (∃ sj y n' s', PA.finishDoc yajl (.user .other fun _ => none) accepting inner (chunk "{\"id\": 7}").mem n sThrown = .throw (.parsing sj y) n' s') :=
  C57_finish_total _ _ sThrown_scarce (noUnionArray_sound (by decide +kernel)) (by decide +kernel) n

/-- C57_finish: `null` at the end of the input is only reported by `finish()`; it resets the parser, which has a value of a user's type. -/
def bare : Shape := .object .custom false [(⟨.str "id", false, none⟩, .value .int)]
/-- A reader that reports `null` at the end. -/
def nullLast : Yajl := { H := Unit, alloc := (), step := fun _ _ => ((), [], true), complete := fun _ => ((), [.null], true), cancel := id, message := fun _ _ => some "at the end" }

example : thrownA (PA.finishDoc nullLast (.user (.std "no default") fun _ => none) noCb bare (buffer "") 0 { PSt.init nullLast bare with data := (chunk "").ptr, len := 0 }) =
    some (.parsing "no default" "at the end") := by decide +kernel
example := C57_finish (Y := nullLast) (E := noCb) (R := bare) (.std "no default") (fun _ => none) (buffer "") { PSt.init nullLast bare with data := (chunk "").ptr, len := 0 } (by decide +kernel)

/-- C57_again: `{"id": 7}` could not be read; the parser is as good as new. -/
example : ∀ E', Blind inner E' → ∀ (j : Json) (a z : List Token), okVal inner j = true → events j = a ++ z → a ≠ [] →
    SameRun inner (run E' inner a sThrown.tree) (run E' inner a { St.init inner with log := sThrown.st.log }) := by
  obtain ⟨n, hn⟩ := sThrown_eq
  refine (C57_again .other (fun _ => none) (by decide +kernel) (allDistinct_of (by decide +kernel)) (placed_of (by decide +kernel) (by decide +kernel)) .init hn).2 ⟨fun q => ?_, fun q b ty hR => ?_⟩
  · cases hq : (sThrown.st.heap q).started with
    | false => rfl
    | true =>
      obtain ⟨st, e, hR⟩ := sThrown_scarce.sober.fit.arr q hq
      rcases inner_array hR with rfl
      rw [show (sThrown.st.heap [.mem 1]).started = false by decide +kernel] at hq; cases hq
  · rcases inner_array hR with rfl
    decide +kernel

/-- C57_values, C57_unset: as `doc3` of `Verif/Props/Typed.lean`, but the value of `id` can not be moved. -/
def faultAfter (F : Faults) (R : Shape) (n : Nat) (t : Token) (s : St) : St :=
  match MA.dispatch F noCb R t n s with
  | .fault _ s' => s'
  | _ => s

def faultOf (F : Faults) (R : Shape) (n : Nat) (t : Token) (s : St) : Bool :=
  match MA.dispatch F noCb R t n s with
  | .fault _ _ => true
  | _ => false

theorem faultAfter_eq {F : Faults} {R : Shape} {n : Nat} {t : Token} {s : St} (h : faultOf F R n t s = true) : ∃ e, MA.dispatch F noCb R t n s = .fault e (faultAfter F R n t s) := by
  unfold faultOf at h
  unfold faultAfter
  cases hr : MA.dispatch F noCb R t n s with
  | fault e s' => exact ⟨e, rfl⟩
  | _ => rw [hr] at h; simp at h

example : ∃ s t rest e s', Reading outer [.mem 1] (t :: rest) s ∧ MA.dispatch (.user .other fun _ => none) noCb outer t 1 s = .fault e s' ∧ [.mem 1] ∈ s'.stack ∧
    isSet [.mem 1] s' = false ∧ isSet [.mem 0] s' = true ∧ (∀ v s'', get [.mem 0] s' = .ok v s'' → hasType (.value .str) v = true) ∧
    (isSet [.mem 1] s' = false ∨ (∃ a l, s'.log = .finish [.mem 1] a :: l ∧ s.log.length ≤ l.length) ∨ [.mem 1] ∉ s'.stack) := by
  have hdoc : events doc3 = [.mapStart, .mapKey "name", .scalar (.str "y"), .mapKey "part"] ++ [.mapStart, .mapKey "id", .scalar (.int 1), .mapEnd, .mapEnd] := by decide +kernel
  have hF : Feeding outer [.mapStart, .mapKey "id", .scalar (.int 1), .mapEnd, .mapEnd] s3 := feed noCb_clean
    (ts := [.mapStart, .mapKey "name", .scalar (.str "y"), .mapKey "part"]) (hdoc ▸ .next doc3 sDoc_feeding) (after_ok (by decide +kernel))
  have h1 : Reading outer [.mem 1] [.mapKey "id", .scalar (.int 1), .mapEnd, .mapEnd] _ := .start (t := .mapStart) (below := [[]]) hF (by decide +kernel) (Or.inl rfl) noCb_clean (after_token (by decide +kernel)) (by decide +kernel)
  have h2 : Reading outer [.mem 1] [.scalar (.int 1), .mapEnd, .mapEnd] _ := .token (t := .mapKey "id") h1 noCb_clean (after_token (by decide +kernel)) (by decide +kernel)
  have h3 : Reading outer [.mem 1] [.mapEnd, .mapEnd] _ := .token (t := .scalar (.int 1)) h2 noCb_clean (after_token (by decide +kernel)) (by decide +kernel)
  obtain ⟨e, he⟩ := faultAfter_eq (F := .user .other fun _ => none) (R := outer) (n := 1) (t := .mapEnd)
    (s := after noCb outer [.scalar (.int 1)] (after noCb outer [.mapKey "id"] (after noCb outer [.mapStart] s3))) (by decide +kernel)
  exact ⟨_, .mapEnd, _, e, _, h3, he, by decide +kernel, by decide +kernel, by decide +kernel,
    fun v s'' hg => ((C57_values .other _ outer_wf outer_clean noCb_clean h3.feeding he).1 [.mem 0] (.value .str) v s'' rfl rfl (Or.inl hg)).1,
    C57_unset .other _ outer_wf outer_clean noCb_clean h3 rfl (fun _ => by simp [inner]) (by simp [inner]) he⟩

end Examples

end SJ
