/-
Running out of memory: the texts of the exceptions, and `parse()` and `finish()`.
-/
import Verif.Proofs.Fit
import Verif.SpecMemory
import Verif.Proofs.CText

set_option linter.unusedVariables false

namespace SJ

variable {F : Faults} {E : Env} {R : Shape} {Y : Yajl}

/-- The exception of the operation that fails. -/
def Faults.exn : Faults → Exn
  | .memory => MA.badAlloc
  | .user x _ => x

/-- The exceptions that a failed operation may cause. -/
inductive Shortage (R : Shape) (F : Faults) : Exn → Prop
  | plain : Shortage R F F.exn
  | set : HasSetter R → Shortage R F (.std (settingText F.exn))

theorem cText_bad : cText "std::bad_alloc" = "std::bad_alloc" := by decide +kernel
theorem cText_set : cText "Can not set value: std::bad_alloc" = "Can not set value: std::bad_alloc" := by decide +kernel

theorem plain_setting : ∀ x : Exn, Plain (settingText x)
  | .std msg => Plain.append (by decide +kernel) (plain_cText _)
  | .other => by show Plain "Can not set value: unknown exception"; decide +kernel

/-- `YajlParser::on`: the text that is kept. -/
theorem Shortage.text {F : Faults} {e : Exn} (h : Shortage R F e) : FaultText R F (plainText e) := by
  cases h with
  | plain =>
    cases F with
    | memory => exact .inl cText_bad
    | user x U => exact .inl rfl
  | set hs =>
    show FaultText R F (cText (settingText F.exn))
    rw [cText_plain (plain_setting _)]
    cases F with
    | memory => exact .inr ⟨hs, by show "Can not set value: " ++ cText "std::bad_alloc" = _; rw [cText_bad]; rfl⟩
    | user x U => exact .inr ⟨hs, rfl⟩

namespace MA

/-- The exception, if an allocation fails. -/
def Says {α} (P : Exn → Prop) (mA : MA α) : Prop := ∀ n s e s', mA n s = .fault e s' → P e

variable {P : Exn → Prop}

theorem Says.pure {α} (a : α) : Says P (pure a) := fun n s e s' h => by simp [MA.pure] at h
theorem Says.ub {α} : Says (α := α) P (fun _ _ => .ub) := fun n s e s' h => by simp at h
theorem Says.fuel {α} : Says (α := α) P (fun _ _ => .fuel) := fun n s e s' h => by simp at h
theorem Says.may {x} (hP : P x) : Says P (may x) := fun n s e s' h => by
  cases n with
  | zero => simp only [MA.may] at h; injection h with h _; rw [← h]; exact hP
  | succ n => simp [MA.may] at h
theorem Says.alloc (hP : P F.exn) : Says P (alloc F) := by cases F <;> first | exact Says.may hP | exact Says.pure _
theorem Says.move (hP : P F.exn) : Says P (move F) := by cases F <;> first | exact Says.may hP | exact Says.pure _
theorem Says.store (hP : P F.exn) : Says P (store F) := by cases F <;> exact Says.may hP
theorem Says.lift {α} (hP : P F.exn) (m : M α) : Says P (lift F m) := fun n s e s' h => by
  simp only [MA.lift] at h
  cases hm : m s <;> rw [hm] at h <;> try simp at h
  cases F with
  | memory =>
    cases n with
    | zero => simp only at h; injection h with h _; rw [← h]; exact hP
    | succ n => simp at h
  | user x U => simp at h
theorem Says.reset (hP : P F.exn) (p sh) : Says P (reset F p sh) := by
  cases F with
  | memory => exact (Says.lift (F := .memory) hP (SJ.modH (resetH p sh)) : Says P (MA.lift .memory (SJ.modH (resetH p sh))))
  | user x U =>
    intro n s e s' h
    cases n with
    | zero => simp only [MA.reset] at h; injection h with h _; rw [← h]; exact hP
    | succ n => simp [MA.reset] at h

theorem Says.bind {α β} {m : MA α} {f : α → MA β} (hm : Says P m) (hf : ∀ a, Says P (f a)) : Says P (bind m f) := by
  intro n s e s' h
  simp only [MA.bind] at h
  cases hr : m n s with
  | ok a k s1 => rw [hr] at h; exact hf _ _ _ _ _ h
  | throw e1 k s1 => rw [hr] at h; simp at h
  | fault e1 s1 => rw [hr] at h; simp only at h; injection h with h _; rw [← h]; exact hm _ _ _ _ hr
  | ub => rw [hr] at h; simp at h
  | fuel => rw [hr] at h; simp at h

theorem Says.ite {α} {c : Prop} [Decidable c] {a b : MA α} (ha : Says P a) (hb : Says P b) : Says P (if c then a else b) := by
  split <;> assumption

theorem setValues_says (hP : P F.exn) (p : Path) : ∀ (ms : List (MInfo × Shape)) (n : Nat), Says P (setValues F p n ms)
  | [], n => Says.pure _
  | (i, sh) :: ms, n => by
    rw [setValues]
    refine (setValues_says hP p ms (n + 1)).bind fun vs => (Says.lift hP _).bind fun c => Says.ite ((Says.lift hP _).bind fun v => (Says.move hP).bind fun _ => Says.pure _) (Says.ite ?_ (Says.lift hP _))
    cases i.dflt with
    | none => exact Says.lift hP _
    | some d => exact (Says.store hP).bind fun _ => Says.pure _

theorem setAlt_says (hP : P F.exn) (p : Path) : ∀ (ms : List (MInfo × Shape)) (n : Nat), Says P (setAlt F p n ms)
  | [], n => Says.pure _
  | (i, sh) :: ms, n => by
    rw [setAlt]
    refine (setAlt_says hP p ms (n + 1)).bind fun vs => (Says.lift hP _).bind fun id => Says.ite (Says.pure _)
      ((Says.lift hP _).bind fun c => Says.ite ((Says.lift hP _).bind fun v => (Says.move hP).bind fun _ => Says.pure _) (Says.ite ?_ (Says.lift hP _)))
    cases i.dflt with
    | none => exact Says.lift hP _
    | some d => exact (Says.store hP).bind fun _ => Says.pure _

theorem Says.wrap {α} {p : Path} {m : MA α} (h : Says (· = F.exn) m) (hl : Says P (MA.lift F (throwStd "" : M Unit))) (hw : P (.std (settingText F.exn))) : Says P (wrapOnThrow F p m) := by
  intro n s e s' he
  simp only [wrapOnThrow] at he
  cases hr : m n s with
  | ok a k s1 => rw [hr] at he; simp at he
  | throw e1 k s1 =>
    rw [hr] at he
    cases F with
    | memory =>
      cases k with
      | zero => simp only at he; injection he with he _; rw [← he]; exact hl 0 s _ _ rfl
      | succ k => simp at he
    | user x U => simp at he
  | fault e1 s1 =>
    rw [hr] at he
    simp only at he
    injection he with he _
    rw [← he, h _ _ _ _ hr]
    unfold settingText at hw
    cases hx : F.exn <;> rw [hx] at hw <;> exact hw
  | ub => rw [hr] at he; simp at he
  | fuel => rw [hr] at he; simp at he

theorem Says.unsets {α} {p : Path} {m : MA α} (h : Says P m) : Says P (unsetOnThrow p m) := by
  intro n s e s' he
  simp only [unsetOnThrow] at he
  cases hr : m n s with
  | ok a k s1 => rw [hr] at he; simp at he
  | throw e1 k s1 => rw [hr] at he; simp at he
  | fault e1 s1 =>
    rw [hr] at he
    simp only at he
    injection he with he _
    rw [← he]; exact h _ _ _ _ hr
  | ub => rw [hr] at he; simp at he
  | fuel => rw [hr] at he; simp at he

/-- The parsers to whose value the value of another one is added. -/
def _root_.SJ.Shape.isGrower : Shape → Prop
  | .array true _ => True
  | .map true _ => True
  | _ => False

/-- What the exceptions that occur at the end of a value have to satisfy: `lift`, the library's own; `set`, those of `ValueSetter`s; `grow`, those of containers. -/
structure Rules (P : Exn → Prop) (F : Faults) (R : Shape) : Prop where
  lift : ∀ {α} (m : M α), Says P (MA.lift F m)
  set : ∀ p sh, R.at p = some sh → sh.isSetter → P (.std (settingText F.exn))
  grow : ∀ p sh, R.at p = some sh → sh.isGrower → Says P (MA.store F)

theorem Rules.of (h : P F.exn) (hs : HasSetter R → P (.std (settingText F.exn))) : Rules P F R :=
  ⟨fun m => Says.lift h m, fun p sh hp hx => hs ⟨p, sh, hp, hx⟩, fun _ _ _ _ => Says.store h⟩

variable (A : Rules P F R)
include A

theorem Says.unless {p : Path} {m : MA Unit} (h : Says P m) : Says P (unlessEmpty F p m) :=
  (A.lift _).bind fun c => Says.ite (A.lift _) h

theorem finish_says (sh : Shape) (p : Path) (hsh : R.at p = some sh) : Says P (finish F E sh p) := by
  cases sh with
  | value ty => exact A.lift _
  | ignore => exact Says.pure _
  | object k u ms =>
    cases k with
    | auto => exact Says.unless A (((setValues_says (P := (· = F.exn)) rfl p ms 0).wrap (A.lift _) (A.set p _ hsh trivial)).bind fun vs => (A.lift _).bind fun _ => A.lift _)
    | plain => exact Says.unless A ((A.lift _).unsets.bind fun _ => A.lift _)
    | custom => exact Says.unless A ((A.lift _).unsets.bind fun _ => A.lift _)
  | union ty tm st ms =>
    cases st with
    | false => exact Says.unless A ((A.lift _).unsets.bind fun _ => A.lift _)
    | true =>
      refine Says.unless A (((setAlt_says (P := (· = F.exn)) rfl p ms 0).wrap (A.lift _) (A.set p _ hsh trivial)).bind fun r => Says.bind ?_ fun _ => A.lift _)
      cases r with
      | none => exact Says.pure _
      | some v => exact A.lift _
  | array st e => cases st <;> exact A.lift _
  | map st e => exact A.lift _

theorem chain_says : ∀ f : Nat, Says P (popParser F E R f) ∧ (∀ p, Says P (childParsed F E R f p)) ∧
    (∀ sh p, R.at p = some sh → Says P (endParsing F E R f sh p)) ∧ Says P (dispatchMapEnd F E R f)
  | 0 => by
    refine ⟨?_, fun p => ?_, fun sh p hsh => ?_, ?_⟩
    · rw [popParser]; exact Says.fuel
    · rw [childParsed]; exact Says.fuel
    · rw [endParsing]; exact Says.fuel
    · rw [dispatchMapEnd]; exact Says.fuel
  | f + 1 => by
    obtain ⟨hpop, hch, hend, hme⟩ := chain_says f
    refine ⟨?_, fun p => ?_, fun sh p hsh => ?_, ?_⟩
    · intro n s e s'
      simp only [popParser]
      cases hs : s.stack with
      | nil => exact A.lift (α := Unit) _ n s e s'
      | cons q r =>
        cases r with
        | nil => intro h; simp at h
        | cons q' r => exact hch q' _ _ _ _
    · rw [childParsed]
      cases hR : R.at p with
      | none => exact Says.ub
      | some sh =>
        cases sh with
        | value ty => exact Says.pure _
        | ignore => exact Says.pure _
        | object k u ms => exact Says.pure _
        | union ty tm st ms =>
          exact (hend _ _ hR).bind fun _ => Says.ite ((A.lift _).bind fun c => Says.ite hme Says.ub) (Says.pure _)
        | array st e =>
          cases st with
          | false => exact Says.pure _
          | true => exact (A.lift _).bind fun v => (A.grow p _ hR trivial).bind fun _ => A.lift _
        | map st e =>
          cases st with
          | false => exact A.lift _
          | true => exact (A.lift _).bind fun _ => (A.lift _).bind fun v => (A.grow p _ hR trivial).bind fun _ => A.lift _
    · rw [endParsing]
      exact (A.lift _).bind fun _ => (finish_says A sh p hsh).bind fun _ => (A.lift _).bind fun c => Says.ite hpop (Says.pure _)
    · intro n s e s'
      simp only [dispatchMapEnd]
      cases hs : s.stack with
      | nil => exact A.lift (α := Unit) _ n s e s'
      | cons p r =>
        simp only
        cases hR : R.at p with
        | none => intro h; simp at h
        | some sh =>
          cases sh with
          | value ty => exact A.lift (α := Unit) _ n s e s'
          | ignore =>
            simp only
            rcases hst : (s.heap p).struct with _ | ⟨_ | _, r⟩
            · exact A.lift (α := Unit) _ n s e s'
            · exact A.lift (α := Unit) _ n s e s'
            · simp only
              split
              · exact hend _ _ hR _ _ _ _
              · intro h; simp at h
          | object k u ms => exact hend _ _ hR n s e s'
          | union ty tm st ms => exact hend _ _ hR n s e s'
          | array st e => exact A.lift (α := Unit) _ n s _ s'
          | map st e => exact hend _ _ hR n s _ s'

variable (hb : P F.exn)
include hb

theorem onNullBase_says (f : Nat) (sh p) (hsh : R.at p = some sh) : Says P (onNullBase F E R f sh p) :=
  (Says.reset hb _ _).bind fun _ => (A.lift _).bind fun c => Says.ite (chain_says A f).1 (Says.pure _)

omit A in
theorem push_says (p) : Says P (pushParser F p) := (Says.alloc hb).bind fun _ => Says.lift hb _

theorem onMember_says (u ms p x) : Says P (onMember F E u ms p x) := by
  refine (A.lift _).bind fun _ => (A.lift _).bind fun c => ?_
  cases lookup x 0 ms with
  | none => exact Says.ite (A.lift _) (Says.ite ((push_says hb _).bind fun _ => Says.pure _) Says.ub)
  | some y => exact Says.ite ((push_says hb _).bind fun _ => Says.pure _) Says.ub

theorem on_says (f : Nat) : ∀ (sh : Shape) (p : Path) (t : Token), R.at p = some sh → Says P (on F E R f sh p t)
  | .value ty, p, t, hsh => by
    cases t <;> simp only [on] <;> try first | exact A.lift _ | exact Says.reset hb _ _
    · exact onNullBase_says A hb f _ p hsh
    · exact Says.ite ((A.lift _).bind fun _ => Says.bind (Says.ite (Says.alloc hb) (Says.pure _)) fun _ => (A.lift _).bind fun _ => (chain_says A f).2.2.1 _ _ hsh) (A.lift _)
  | .ignore, p, t, hsh => by
    cases t <;> simp only [on]
    · exact onNullBase_says A hb f _ p hsh
    · exact (A.lift _).bind fun c => Says.ite ((chain_says A f).2.2.1 _ _ hsh) (Says.pure _)
    · exact (Says.alloc hb).bind fun _ => A.lift _
    · refine (A.lift _).bind fun c => ?_
      rcases c.struct with _ | ⟨_ | _, r⟩
      · exact A.lift _
      · exact A.lift _
      · exact Says.pure _
    · refine (A.lift _).bind fun c => ?_
      rcases c.struct with _ | ⟨_ | _, r⟩
      · exact A.lift _
      · exact A.lift _
      · exact (A.lift _).bind fun _ => Says.ite ((chain_says A f).2.2.1 _ _ hsh) (Says.pure _)
    · exact (Says.alloc hb).bind fun _ => A.lift _
    · refine (A.lift _).bind fun c => ?_
      rcases c.struct with _ | ⟨_ | _, r⟩
      · exact A.lift _
      · exact (A.lift _).bind fun _ => Says.ite ((chain_says A f).2.2.1 _ _ hsh) (Says.pure _)
      · exact A.lift _
  | .object k u ms, p, t, hsh => by
    cases t <;> simp only [on] <;> try first | exact A.lift _ | exact Says.reset hb _ _
    · exact onNullBase_says A hb f _ p hsh
    · exact (onMember_says A hb _ _ _ _).bind fun _ => Says.pure _
    · exact (chain_says A f).2.2.1 _ _ hsh
  | .union ty tm st ms, p, t, hsh => by
    cases t <;> simp only [on] <;> try first | exact A.lift _ | exact Says.reset hb _ _
    · exact onNullBase_says A hb f _ p hsh
    · refine Says.ite ((Says.reset hb _ _).bind fun _ => (onMember_says A hb _ _ _ _).bind fun r => ?_) (A.lift _)
      cases r with
      | none => exact Says.pure _
      | some n => exact A.lift _
    · exact Says.ite (A.lift _) (Says.reset hb _ _)
    · exact Says.ite (A.lift _) (Says.ite (A.lift _) (Says.pure _))
    · exact (chain_says A f).2.2.1 _ _ hsh
  | .array st e, p, t, hsh => by
    cases t <;> simp only [on] <;> try first | exact A.lift _ | exact Says.reset hb _ _
    · exact (A.lift _).bind fun c => Says.ite (onNullBase_says A hb f _ p hsh) (on_says f e _ _ (at_elem_of hsh))
    · exact (A.lift _).bind fun c => Says.ite (A.lift _) ((on_says f e _ _ (at_elem_of hsh)).bind fun _ => (A.lift _).bind fun _ => (chain_says A f).2.1 p)
    · exact (A.lift _).bind fun c => Says.ite (A.lift _) (Says.ite Says.ub ((A.lift _).bind fun _ => (A.lift _).bind fun _ =>
        (push_says hb _).bind fun _ => on_says f e _ _ (at_elem_of hsh)))
    · exact (A.lift _).bind fun c => Says.ite ((Says.reset hb _ _).bind fun _ => A.lift _) (Says.ite Says.ub ((A.lift _).bind fun _ => (A.lift _).bind fun _ =>
        (push_says hb _).bind fun _ => on_says f e _ _ (at_elem_of hsh)))
    · exact (A.lift _).bind fun _ => (chain_says A f).2.2.1 _ _ hsh
  | .map st e, p, t, hsh => by
    cases t <;> simp only [on] <;> try first | exact A.lift _ | exact Says.reset hb _ _
    · exact onNullBase_says A hb f _ p hsh
    · exact (A.lift _).bind fun _ => (A.lift _).bind fun c => Says.ite ((push_says hb _).bind fun _ => (Says.alloc hb).bind fun _ => A.lift _) Says.ub
    · exact (chain_says A f).2.2.1 _ _ hsh

theorem dispatch_says (t : Token) : Says P (dispatch F E R t) := by
  intro n s e s'
  simp only [dispatch]
  cases hs : s.stack with
  | nil => exact A.lift (α := Unit) _ n s e s'
  | cons p r =>
    simp only
    cases hR : R.at p with
    | none => intro h; simp at h
    | some sh => exact on_says A hb _ sh p t hR n s e s'

theorem run_says : ∀ ts : List Token, Says P (run F E R ts)
  | [] => Says.pure _
  | t :: ts => (dispatch_says A hb t).bind fun _ => run_says ts

omit A hb

theorem dispatch_short (t : Token) : Says (Shortage R F) (dispatch F E R t) := dispatch_says (Rules.of .plain .set) .plain t

/-- A closing brace, if there is no `SArray` or `SMap`: nothing but putting together a value may have thrown. -/
theorem mapEnd_says {x U} (hg : ∀ p sh, R.at p = some sh → ¬ sh.isGrower) : Says (· = .std (settingText x)) (dispatch (.user x U) E R .mapEnd) := by
  have A : Rules (· = .std (settingText x)) (.user x U) R :=
    ⟨fun m n s e s' h => by simp only [MA.lift] at h; split at h <;> simp at h, fun _ _ _ _ => rfl, fun p sh hp hx => absurd hx (hg p sh hp)⟩
  intro n s e s'
  simp only [dispatch]
  cases hs : s.stack with
  | nil => exact A.lift (α := Unit) _ n s e s'
  | cons p r =>
    simp only
    cases hR : R.at p with
    | none => intro h; simp at h
    | some sh =>
      cases sh with
      | value ty => simp only [on]; exact A.lift (α := Unit) _ n s e s'
      | array st e1 => simp only [on]; exact A.lift (α := Unit) _ n s e s'
      | object k u ms => exact (chain_says A _).2.2.1 _ _ hR n s e s'
      | union ty tm st ms => exact (chain_says A _).2.2.1 _ _ hR n s e s'
      | map st e1 => exact (chain_says A _).2.2.1 _ _ hR n s e s'
      | ignore =>
        simp only [on]
        refine Says.bind (P := (· = .std (settingText x))) (A.lift _) (fun c => ?_) n s e s'
        rcases c.struct with _ | ⟨_ | _, r⟩
        · exact A.lift _
        · exact A.lift _
        · exact (A.lift _).bind fun _ => Says.ite ((chain_says A _).2.2.1 _ _ hR) (Says.pure _)

/-- Opening braces and brackets, and keys: no value is put together. -/
theorem opening_says {x U} : ∀ (sh : Shape) (f : Nat) (p : Path) (t : Token), t = .mapStart ∨ t = .arrStart → Says (· = x) (on (.user x U) E R f sh p t) := by
  have L : ∀ {α} (m : M α), Says (· = x) (MA.lift (.user x U) m) := fun m => Says.lift (P := (· = x)) (F := .user x U) rfl m
  have Rs : ∀ p sh, Says (· = x) (reset (.user x U) p sh) := fun p sh => Says.reset (P := (· = x)) (F := .user x U) rfl p sh
  have Al : Says (· = x) (alloc (.user x U)) := Says.alloc (P := (· = x)) (F := .user x U) rfl
  intro sh
  induction sh using Shape.rec (motive_2 := fun _ => True) (motive_3 := fun _ => True) with
  | value ty => rintro f p t (rfl | rfl) <;> simp only [on] <;> exact L _
  | ignore => rintro f p t (rfl | rfl) <;> simp only [on] <;> exact Al.bind fun _ => L _
  | object k u ms =>
    rintro f p t (rfl | rfl) <;> simp only [on]
    · exact Rs _ _
    · exact L _
  | union ty tm st ms =>
    rintro f p t (rfl | rfl) <;> simp only [on]
    · exact Says.ite (L _) (Rs _ _)
    · exact L _
  | array st e ih =>
    rintro f p t (rfl | rfl) <;> simp only [on]
    · exact (L _).bind fun c => Says.ite (L _) (Says.ite Says.ub ((L _).bind fun _ => (L _).bind fun _ => (push_says (P := (· = x)) (F := .user x U) rfl _).bind fun _ => ih _ _ _ (.inl rfl)))
    · exact (L _).bind fun c => Says.ite ((Rs _ _).bind fun _ => L _) (Says.ite Says.ub ((L _).bind fun _ => (L _).bind fun _ => (push_says (P := (· = x)) (F := .user x U) rfl _).bind fun _ => ih _ _ _ (.inr rfl)))
  | map st e ih =>
    rintro f p t (rfl | rfl) <;> simp only [on]
    · exact Rs _ _
    · exact L _
  | _ => trivial

end MA

/-! ### parse() and finish() -/

namespace PA

theorem _root_.SJ.FirstCalls.mono {α} {l l' : Log} {r : PRes Y α} (hl : l <:+ l') (h : FirstCalls l' r) : FirstCalls l r := by
  cases r with
  | ok a s => exact hl.trans h
  | throw e s => exact hl.trans h
  | ub => trivial
  | fuel => trivial

/-- After a failed allocation. -/
structure Stopped (R : Shape) (s s' : PSt Y) : Prop where
  data : s'.data = s.data
  len : s'.len = s.len
  reset : s'.resetNeeded = s.resetNeeded
  fit : Fitting R s.st → Fitting R s'.st
  log : s.st.log <:+ s'.st.log

theorem Stopped.refl (s : PSt Y) : Stopped R s s := ⟨rfl, rfl, rfl, id, List.suffix_refl _⟩
theorem Stopped.trans {a b c : PSt Y} (h : Stopped R a b) (h' : Stopped R b c) : Stopped R a c :=
  ⟨h'.data.trans h.data, h'.len.trans h.len, h'.reset.trans h.reset, fun x => h'.fit (h.fit x), h.log.trans h'.log⟩

/-- With enough memory as without failures; otherwise YAJL is told to stop, and the text is kept. At a state. -/
def CostsB (F : Faults) (R : Shape) (D : PSt Y → Prop) (s : PSt Y) (mA : PA Y Bool) (r : PRes Y Bool) : Prop :=
  (∀ b s', r = .ok b s' → Stopped R s s') ∧
  ∃ N, ∀ n, (n < N → ∃ s', mA n s = .ok false 0 s' ∧ FaultText R F s'.err ∧ Stopped R s s' ∧ FirstCalls s'.st.log r ∧ D s') ∧ (N ≤ n → mA n s = r.left (n - N))

theorem CostsB.bind {D : PSt Y → Prop} {s : PSt Y} {mA : PA Y Bool} {m : P Y Bool} {fA : PA Y Bool} {f : P Y Bool} (hm : CostsB F R D s mA (m s))
    (hf : ∀ s', m s = .ok true s' → CostsB F R D s' fA (f s') ∧ FirstCalls s'.st.log (f s')) :
    CostsB F R D s (PA.bind mA fun go => if go then fA else pure false) (P.bind m (fun go => if go then f else P.pure false) s) := by
  obtain ⟨hl, N1, h1⟩ := hm
  have hstop : (∀ s1, m s ≠ .ok true s1) → CostsB F R D s (PA.bind mA fun go => if go then fA else pure false) (P.bind m (fun go => if go then f else P.pure false) s) := by
    intro hne
    have hb : P.bind m (fun go => if go then f else P.pure false) s = m s := by
      simp only [P.bind]
      rcases hr : m s with ⟨_ | _, s1⟩ | ⟨e, s1⟩ | _ | _
      · rfl
      · exact absurd hr (hne s1)
      · rfl
      · rfl
      · rfl
    rw [hb]
    refine ⟨hl, N1, fun n => ⟨fun hn => ?_, fun hn => ?_⟩⟩
    · obtain ⟨s', h, hx⟩ := (h1 n).1 hn
      exact ⟨s', by simp only [PA.bind]; rw [h]; rfl, hx⟩
    · simp only [PA.bind]
      rw [(h1 n).2 hn]
      rcases hr : m s with ⟨_ | _, s1⟩ | ⟨e, s1⟩ | _ | _
      · rfl
      · exact absurd hr (hne s1)
      · rfl
      · rfl
      · rfl
  rcases hr : m s with ⟨_ | _, s1⟩ | ⟨e, s1⟩ | _ | _
  · exact hstop fun s1 h => by rw [hr] at h; simp at h
  · obtain ⟨⟨hl2, N2, h2⟩, hlat⟩ := hf s1 hr
    have hb : P.bind m (fun go => if go then f else P.pure false) s = f s1 := by simp only [P.bind, hr, if_true]
    rw [hb]
    have hs1 := hl true s1 hr
    refine ⟨fun b s' h => hs1.trans (hl2 b s' h), N1 + N2, fun n => ⟨fun hn => ?_, fun hn => ?_⟩⟩
    · simp only [PA.bind]
      by_cases hlt : n < N1
      · obtain ⟨s', h, hx, hy, hz⟩ := (h1 n).1 hlt
        rw [hr] at hz
        exact ⟨s', by rw [h]; rfl, hx, hy, hlat.mono hz.1, hz.2⟩
      · rw [(h1 n).2 (by omega), hr]
        obtain ⟨s', h, hx, hy, hz⟩ := (h2 (n - N1)).1 (by omega)
        exact ⟨s', h, hx, hs1.trans hy, hz⟩
    · simp only [PA.bind]
      rw [(h1 n).2 (by omega), hr]
      show fA (n - N1) s1 = _
      rw [(h2 (n - N1)).2 (by omega), Nat.sub_sub]
  · exact hstop fun s1 h => by rw [hr] at h; simp at h
  · exact hstop fun s1 h => by rw [hr] at h; simp at h
  · exact hstop fun s1 h => by rw [hr] at h; simp at h

theorem CostsB.later {D : PSt Y → Prop} {s : PSt Y} {mA : PA Y Bool} {r : PRes Y Bool} (h : CostsB F R D s mA r) (ht : ∀ x s', r ≠ .throw x s') : FirstCalls s.st.log r := by
  cases r with
  | ok b s' => exact (h.1 b s' rfl).log
  | throw x s' => exact absurd rfl (ht x s')
  | ub => trivial
  | fuel => trivial

theorem onToken_costs (t : Token) (s : PSt Y) : CostsB F R (fun _ => True) s (onToken Y F E R t) (SJ.onToken Y E R t s) ∧ ∀ x s', SJ.onToken Y E R t s ≠ .throw x s' := by
  obtain ⟨hl, N, h⟩ := MA.dispatch_costs (F := F) (E := E) (R := R) t s.st
  have hfit : ∀ n, Fitting R s.st → (MA.dispatch F E R t n s.st).All (Fitting R) := fun n hs => MA.dispatch_always (F := F) (E := E) (R := R) t n s.st hs
  constructor
  · refine ⟨fun b s' hr => ?_, N, fun n => ⟨fun hn => ?_, fun hn => ?_⟩⟩
    · have hN := (h N).2 (Nat.le_refl _)
      simp only [SJ.onToken] at hr
      rcases hd : SJ.dispatch E R t s.st with ⟨_, st⟩ | ⟨_ | _, st⟩ | _ | _ <;> rw [hd] at hr hl hN <;> simp only at hr
      · injection hr with _ hr; subst hr
        exact ⟨rfl, rfl, rfl, fun hs => by have := hfit N hs; rw [hN] at this; exact this, hl⟩
      · injection hr with _ hr; subst hr
        exact ⟨rfl, rfl, rfl, fun hs => by have := hfit N hs; rw [hN] at this; exact this, hl⟩
      · injection hr with _ hr; subst hr
        exact ⟨rfl, rfl, rfl, fun hs => by have := hfit N hs; rw [hN] at this; exact this, hl⟩
      · cases hr
      · cases hr
    · obtain ⟨e, st, he, ha, hb⟩ := (h n).1 hn
      have hsay := MA.dispatch_short (F := F) (E := E) (R := R) t n s.st e st he
      simp only [onToken]
      rw [he]
      refine ⟨_, rfl, ?_, ⟨rfl, rfl, rfl, fun hs => by have := hfit n hs; rw [he] at this; exact this, ha⟩, ?_, trivial⟩
      · have := hsay.text
        cases e <;> exact this
      · simp only [SJ.onToken]
        rcases hd : SJ.dispatch E R t s.st with ⟨_, st⟩ | ⟨_ | _, st⟩ | _ | _ <;> rw [hd] at hb <;> exact hb
    · simp only [onToken, SJ.onToken]
      rw [(h n).2 hn]
      rcases hd : SJ.dispatch E R t s.st with ⟨_, st⟩ | ⟨_ | _, st⟩ | _ | _ <;> rfl
  · intro x s' hr
    simp only [SJ.onToken] at hr
    rcases hd : SJ.dispatch E R t s.st with ⟨_, st⟩ | ⟨_ | _, st⟩ | _ | _ <;> rw [hd] at hr <;> simp at hr

theorem bind_noThrow {m : P Y Bool} {f : P Y Bool} {s : PSt Y} (hm : ∀ x s', m s ≠ .throw x s') (hf : ∀ s1 x s', f s1 ≠ .throw x s') :
    ∀ x s', P.bind m (fun go => if go then f else P.pure false) s ≠ .throw x s' := by
  intro x s' h
  simp only [P.bind] at h
  rcases hr : m s with ⟨_ | _, s1⟩ | ⟨e, s1⟩ | _ | _
  · rw [hr] at h; simp [P.pure] at h
  · rw [hr] at h; exact hf s1 x s' h
  · exact hm _ _ hr
  · rw [hr] at h; simp at h
  · rw [hr] at h; simp at h

theorem report_noThrow : ∀ (ts : List Token) (s : PSt Y), ∀ x s', SJ.report Y E R ts s ≠ .throw x s'
  | [], s => fun x s' h => by simp [SJ.report, P.pure] at h
  | t :: ts, s => bind_noThrow (onToken_costs (F := .memory) t s).2 fun s1 => report_noThrow ts s1

theorem report_costs : ∀ (ts : List Token) (s : PSt Y), CostsB F R (fun _ => True) s (report Y F E R ts) (SJ.report Y E R ts s)
  | [], s => ⟨fun b s' h => by simp only [SJ.report, P.pure] at h; injection h with _ h; subst h; exact .refl s,
      0, fun n => ⟨fun h => absurd h (Nat.not_lt_zero _), fun _ => rfl⟩⟩
  | t :: ts, s => (onToken_costs t s).1.bind fun s' _ => ⟨report_costs ts s', (report_costs ts s').later (report_noThrow ts s')⟩

theorem advance_noThrow (out : Y.H × List Token × Bool) (s : PSt Y) : ∀ x s', SJ.advance Y E R out s ≠ .throw x s' := by
  intro x s' h
  simp only [SJ.advance, P.bind] at h
  rcases hr : SJ.report Y E R out.2.1 s with ⟨_ | _, s1⟩ | ⟨e, s1⟩ | _ | _
  · rw [hr] at h; simp at h
  · rw [hr] at h; simp at h
  · exact report_noThrow _ _ _ _ hr
  · rw [hr] at h; simp at h
  · rw [hr] at h; simp at h

theorem advance_costs (out : Y.H × List Token × Bool) (s : PSt Y) : CostsB F R (fun x => x.alive = false) s (advance Y F E R out) (SJ.advance Y E R out s) := by
  obtain ⟨hl, N, h⟩ := report_costs (Y := Y) (F := F) (E := E) (R := R) out.2.1 s
  refine ⟨fun b s' hr => ?_, N, fun n => ⟨fun hn => ?_, fun hn => ?_⟩⟩
  · simp only [SJ.advance, P.bind] at hr
    rcases ho : SJ.report Y E R out.2.1 s with ⟨_ | _, s1⟩ | ⟨e, s1⟩ | _ | _ <;> rw [ho] at hr hl <;>
      simp only [if_true, Bool.false_eq_true, if_false] at hr
    · have := hl _ _ rfl
      injection hr with _ hr; subst hr; exact ⟨this.data, this.len, this.reset, this.fit, this.log⟩
    · have := hl _ _ rfl
      injection hr with _ hr; subst hr; exact ⟨this.data, this.len, this.reset, this.fit, this.log⟩
    · cases hr
    · cases hr
    · cases hr
  · obtain ⟨s', h, hx, hk, hz⟩ := (h n).1 hn
    simp only [advance, PA.bind]
    rw [h]
    refine ⟨_, rfl, hx, ⟨hk.data, hk.len, hk.reset, hk.fit, hk.log⟩, ?_, rfl⟩
    replace hz := hz.1
    simp only [SJ.advance, P.bind]
    rcases ho : SJ.report Y E R out.2.1 s with ⟨_ | _, s1⟩ | ⟨e, s1⟩ | _ | _ <;> rw [ho] at hz <;> exact hz
  · simp only [advance, SJ.advance, PA.bind, P.bind]
    rw [(h n).2 hn]
    rcases SJ.report Y E R out.2.1 s with ⟨_ | _, st⟩ | ⟨_, st⟩ | _ | _ <;> rfl

theorem yajlParse_noThrow : ∀ (bs : List UInt8) (s : PSt Y), ∀ x s', SJ.yajlParse Y E R bs s ≠ .throw x s'
  | [], s => fun x s' h => by simp [SJ.yajlParse] at h
  | b :: bs, s => by
    simp only [SJ.yajlParse]
    split
    · exact bind_noThrow (advance_noThrow _ s) fun s1 => yajlParse_noThrow bs s1
    · intro x s' h; simp at h

theorem CostsB.free {D : PSt Y → Prop} {s : PSt Y} {mA : PA Y Bool} {b : Bool} (h : ∀ n, mA n s = .ok b n s) : CostsB F R D s mA (.ok b s) :=
  ⟨fun b s' hr => by injection hr with _ hr; subst hr; exact .refl s, 0, fun n => ⟨fun h => absurd h (Nat.not_lt_zero _), fun _ => h n⟩⟩

theorem yajlParse_costs : ∀ (bs : List UInt8) (s : PSt Y), CostsB F R (fun x => x.alive = false) s (yajlParse Y F E R bs) (SJ.yajlParse Y E R bs s)
  | [], s => .free fun n => rfl
  | b :: bs, s => by
    cases ha : s.alive with
    | false =>
      simp only [SJ.yajlParse, ha, Bool.false_eq_true, if_false]
      exact .free fun n => by simp only [yajlParse, ha, Bool.false_eq_true, if_false]
    | true =>
      have := (advance_costs (F := F) (E := E) (R := R) (Y.step s.handle b) s).bind (fA := yajlParse Y F E R bs) (f := SJ.yajlParse Y E R bs) fun s' _ =>
        ⟨yajlParse_costs bs s', (yajlParse_costs bs s').later (yajlParse_noThrow bs s')⟩
      simp only [SJ.yajlParse, ha, if_true]
      obtain ⟨h1, N, h2⟩ := this
      refine ⟨h1, N, fun n => ?_⟩
      have he : yajlParse Y F E R (b :: bs) n s = bind (advance Y F E R (Y.step s.handle b)) (fun go => if go then yajlParse Y F E R bs else pure false) n s := by
        simp only [yajlParse, ha, if_true]
      rw [he]; exact h2 n

theorem yajlComplete_costs (s : PSt Y) : CostsB F R (fun x => x.alive = false) s (yajlComplete Y F E R) (SJ.yajlComplete Y E R s) := by
  cases ha : s.alive with
  | false =>
    simp only [SJ.yajlComplete, ha, Bool.false_eq_true, if_false]
    exact .free fun n => by simp only [yajlComplete, ha, Bool.false_eq_true, if_false]
  | true =>
    simp only [SJ.yajlComplete, ha, if_true]
    obtain ⟨h1, N, h2⟩ := advance_costs (F := F) (E := E) (R := R) (Y.complete s.handle) s
    refine ⟨h1, N, fun n => ?_⟩
    have he : yajlComplete Y F E R n s = advance Y F E R (Y.complete s.handle) n s := by simp only [yajlComplete, ha, if_true]
    rw [he]; exact h2 n

theorem renew_stopped (s : PSt Y) : (PSt.renew Y s).st.heap = s.st.heap ∧ (PSt.renew Y s).st.log = s.st.log ∧ (PSt.renew Y s).data = s.data ∧ (PSt.renew Y s).len = s.len := by
  unfold PSt.renew; split <;> exact ⟨rfl, rfl, rfl, rfl⟩

/-- parse(), with so much memory. -/
theorem parse_costs {m : Mem} {p : Ptr} {len : Nat} (hm : (m.read p len).isSome) (s : PSt Y) :
    ∃ N, ∀ n, (n < N → ∃ t y s', parse Y F E R m p len n s = .throw (.parsing t y) 0 s' ∧ FaultText R F t ∧ s'.resetNeeded = true ∧ s'.alive = false ∧ (Fitting R s.st → Fitting R s'.st) ∧
        FirstCalls s'.st.log (SJ.parse Y E R m p len s)) ∧
      (N ≤ n → parse Y F E R m p len n s = (SJ.parse Y E R m p len s).left (n - N)) := by
  obtain ⟨bs, hbs⟩ := Option.isSome_iff_exists.1 hm
  have hren := renew_stopped (Y := Y) { s with data := p, len := len }
  generalize hs0 : PSt.renew Y { s with data := p, len := len } = s0 at hren
  obtain ⟨hl, N, h⟩ := yajlParse_costs (F := F) (E := E) (R := R) bs s0
  have hfin : ∀ (b : Bool) (s1 : PSt Y), Stopped R s0 s1 → (if b then (.ok () s1 : PRes Y Unit) else throwParsingError Y m { s1 with resetNeeded := true }) =
      if b then .ok () s1 else .throw (.parsing s1.err ((Y.message s1.handle bs).getD "Unknown YAJL error\n")) { s1 with resetNeeded := true } := by
    intro b s1 hs
    cases b with
    | true => rfl
    | false =>
      simp only [Bool.false_eq_true, if_false, throwParsingError]
      rw [hs.data, hs.len, hren.2.2.1, hren.2.2.2, hbs]
  refine ⟨N, fun n => ⟨fun hn => ?_, fun hn => ?_⟩⟩
  · obtain ⟨s1, h1, hx, hk, hz, hdead⟩ := (h n).1 hn
    simp only [parse, SJ.parse, hbs, PA.bind, P.bind, hs0]
    rw [h1]
    have := hfin false s1 hk
    simp only [Bool.false_eq_true, if_false] at this
    simp only [PA.lift, Bool.false_eq_true, if_false, this]
    refine ⟨_, _, _, rfl, hx, rfl, hdead, fun hf => hk.fit (Fitting.ctl hf (by rw [hren.1]; exact SameCtl.refl _)), ?_⟩
    rcases hr : SJ.yajlParse Y E R bs s0 with ⟨b, s2⟩ | ⟨e, s2⟩ | _ | _
    · rw [hr] at hz hl
      have := hfin b s2 (hl _ _ rfl)
      simp only
      rw [this]
      cases b <;> exact hz
    · rw [hr] at hz; exact hz
    · trivial
    · trivial
  · simp only [parse, SJ.parse, hbs, PA.bind, P.bind, hs0]
    rw [(h n).2 hn]
    rcases hr : SJ.yajlParse Y E R bs s0 with ⟨b, s2⟩ | ⟨e, s2⟩ | _ | _
    · rw [hr] at hl
      have := hfin b s2 (hl _ _ rfl)
      simp only [PRes.left, PA.lift]
      rw [this]
      cases b <;> rfl
    · rfl
    · rfl
    · rfl

/-- finish(), with so much memory. -/
theorem finish_costs {m : Mem} (s : PSt Y) (hm : (m.read s.data s.len).isSome) :
    ∃ N, ∀ n, (n < N → ∃ t y s', finishDoc Y F E R m n s = .throw (.parsing t y) 0 s' ∧ FaultText R F t ∧ s'.resetNeeded = true ∧ s'.alive = false ∧ (Fitting R s.st → Fitting R s'.st) ∧
        FirstCalls s'.st.log (SJ.finishDoc Y E R m s)) ∧
      (N ≤ n → finishDoc Y F E R m n s = (SJ.finishDoc Y E R m s).left (n - N)) := by
  obtain ⟨bs, hbs⟩ := Option.isSome_iff_exists.1 hm
  obtain ⟨hl, N, h⟩ := yajlComplete_costs (F := F) (E := E) (R := R) { s with resetNeeded := true }
  have hfin : ∀ s1 : PSt Y, Stopped R { s with resetNeeded := true } s1 → throwParsingError Y m s1 = .throw (.parsing s1.err ((Y.message s1.handle bs).getD "Unknown YAJL error\n")) s1 := by
    intro s1 hs
    simp only [throwParsingError]
    rw [hs.data, hs.len, hbs]
  have hchk : ∀ s1 : PSt Y, checkDispatcherStack Y s1 = .ok () s1 ∨ ∃ x, checkDispatcherStack Y s1 = .throw x s1 := by
    intro s1
    unfold checkDispatcherStack
    cases s1.st.stack with
    | nil => exact .inl rfl
    | cons p r => exact .inr ⟨_, rfl⟩
  refine ⟨N, fun n => ⟨fun hn => ?_, fun hn => ?_⟩⟩
  · obtain ⟨s1, h1, hx, hk, hz, hdead⟩ := (h n).1 hn
    simp only [finishDoc, SJ.finishDoc, PA.bind, P.bind]
    rw [h1]
    simp only [PA.lift, Bool.false_eq_true, if_false, hfin s1 hk]
    refine ⟨_, _, _, rfl, hx, hk.reset, hdead, hk.fit, ?_⟩
    rcases hr : SJ.yajlComplete Y E R { s with resetNeeded := true } with ⟨_ | _, s2⟩ | ⟨e, s2⟩ | _ | _
    · rw [hr] at hz hl
      simp only [Bool.false_eq_true, if_false, hfin s2 (hl _ _ rfl)]
      exact hz
    · rw [hr] at hz
      simp only [if_true]
      rcases hchk s2 with h | ⟨x, h⟩ <;> rw [h] <;> exact hz
    · rw [hr] at hz; exact hz
    · trivial
    · trivial
  · simp only [finishDoc, SJ.finishDoc, PA.bind, P.bind]
    rw [(h n).2 hn]
    rcases hr : SJ.yajlComplete Y E R { s with resetNeeded := true } with ⟨_ | _, s2⟩ | ⟨e, s2⟩ | _ | _
    · rw [hr] at hl
      simp only [PRes.left, PA.lift, Bool.false_eq_true, if_false, hfin s2 (hl _ _ rfl)]
    · simp only [PRes.left, PA.lift, if_true]
      rcases hchk s2 with h | ⟨x, h⟩ <;> rw [h]
    · rfl
    · rfl
    · rfl

end PA

end SJ
