/-
Streaming and storing arrays and maps compared (C62).
-/
import Verif.SpecDeliver
import Verif.Proofs.Context

set_option linter.unusedVariables false

namespace SJ

/-! ### Where the calls for a value are made -/

def Ev.place : Ev → Path
  | .finish p _ => p
  | .element p _ _ => p

/-- The calls of the finish callback at `q`. -/
def finAt (q : Path) : Ev → Option D
  | .finish p d => if p = q then some d else none
  | .element _ _ _ => none

/-- The calls of the element callback at `q`. -/
def elAt (q : Path) : Ev → Option (String × D)
  | .element p k d => if p = q then some (k, d) else none
  | .finish _ _ => none

/-- All calls are made at or below `q`. -/
def AtOrUnder {α} (q : Path) (w : W α) : Prop := ∀ ev ∈ w.calls, q <:+ ev.place

theorem AtOrUnder.nil {α} {q : Path} {w : W α} (h : w.calls = []) : AtOrUnder q w := by intro ev hev; rw [h] at hev; simp at hev
theorem AtOrUnder.lift {α} {q : Path} {r : Except String α} : AtOrUnder q (W.lift r) := .nil rfl
theorem AtOrUnder.error {α} {q : Path} {e} : AtOrUnder q (W.error e : W α) := .nil rfl
theorem AtOrUnder.done {q r : Path} {d} (h : q <:+ r) : AtOrUnder q (W.done r d) := by
  intro ev hev
  unfold W.done at hev
  split at hev <;> simp at hev
  subst hev; exact h
theorem AtOrUnder.elem {q r : Path} {k d} (h : q <:+ r) : AtOrUnder q (W.elem r k d) := by
  intro ev hev
  simp [W.elem] at hev
  subst hev; exact h
theorem AtOrUnder.bind {α β} {q : Path} {w : W α} {f : α → W β} (h : AtOrUnder q w) (hf : ∀ a, w.result = .ok a → AtOrUnder q (f a)) :
    AtOrUnder q (w.bind f) := by
  intro ev hev
  unfold W.bind at hev
  split at hev
  · exact h ev hev
  · rename_i a ha
    simp at hev
    rcases hev with hev | hev
    · exact h ev hev
    · exact hf a ha ev hev
theorem AtOrUnder.up {α} {q : Path} {x} {w : W α} (h : AtOrUnder (x :: q) w) : AtOrUnder q w :=
  fun ev hev => (List.suffix_cons x q).trans (h ev hev)

mutual
theorem denoteT_under (fmt) : ∀ (j : Json) (sh : Shape) (p : Path), AtOrUnder p (denoteT fmt sh p j)
  | .null, sh, p => by unfold denoteT; exact .lift
  | .sc x, sh, p => by
    unfold denoteT
    cases sh with
    | value ty =>
      simp only; split
      · exact .done (List.suffix_refl _)
      · exact .error
    | _ => first | exact .error | exact .lift
  | .arr l, sh, p => by
    unfold denoteT
    cases sh with
    | array st e => exact (denElemsT_under fmt l st e p).up.bind fun vs _ => .done (List.suffix_refl _)
    | _ => first | exact .error | exact .lift
  | .obj fs, sh, p => by
    unfold denoteT
    cases sh with
    | object k u ms => exact denFieldsT_under fmt fs _ _ _ _ _
    | map st e => exact denFieldsT_under fmt fs _ _ _ _ _
    | union ty tm st ms =>
      simp only; split
      · exact .error
      · exact denFieldsT_under fmt fs _ _ _ _ _
    | _ => first | exact .error | exact .lift
theorem denFieldsT_under (fmt) : ∀ (fs : List (String × Json)) (sh : Shape) (p : Path) (slots ents ne),
    AtOrUnder p (denFieldsT fmt sh p slots ents ne fs)
  | [], sh, p, slots, ents, ne => by
    unfold denFieldsT
    cases sh with
    | object k u ms => exact AtOrUnder.lift.bind fun _ _ => .done (List.suffix_refl _)
    | map st e => exact .done (List.suffix_refl _)
    | _ => first | exact .error | exact .lift
  | (k, v) :: fs, sh, p, slots, ents, ne => by
    have ihf := denFieldsT_under fmt fs
    have ihv := denoteT_under fmt v
    unfold denFieldsT
    cases sh with
    | object kd u ms =>
      simp only
      cases lookup (.str k) 0 ms with
      | none => simp only; split
                · exact .error
                · exact ihf _ _ _ _ _
      | some nm =>
        simp only
        cases embedded nm.2 v with
        | none => exact (ihv nm.2 (.mem nm.1 :: p)).up.bind fun _ _ => ihf _ _ _ _ _
        | some z =>
          refine AtOrUnder.lift.bind fun a _ => ?_
          refine (ihf a.2 (.mem a.1 :: .mem nm.1 :: p) _ _ _).up.up.bind fun d _ => AtOrUnder.lift.bind fun d _ => ?_
          exact (AtOrUnder.done (List.suffix_cons _ _)).bind fun d _ => AtOrUnder.lift.bind fun _ _ => .done (List.suffix_refl _)
    | union ty tm st ms =>
      simp only; split
      · exact .error
      · split
        · exact .error
        · cases v with
          | sc x =>
            simp only; split
            · exact AtOrUnder.lift.bind fun a _ => (ihf a.2 (.mem a.1 :: p) _ _ _).up.bind fun d _ =>
                AtOrUnder.lift.bind fun d _ => .done (List.suffix_refl _)
            · exact .error
          | _ => exact .error
    | map st e =>
      simp only
      cases embedded e v with
      | none =>
        exact (ihv e (.elem :: p)).up.bind fun _ _ => (AtOrUnder.elem (List.suffix_refl _)).bind fun _ _ => AtOrUnder.lift.bind fun _ _ => ihf _ _ _ _ _
      | some z =>
        refine AtOrUnder.lift.bind fun a _ => ?_
        refine (ihf a.2 (.mem a.1 :: .elem :: p) _ _ _).up.up.bind fun d _ => AtOrUnder.lift.bind fun d _ => ?_
        refine (AtOrUnder.done (List.suffix_cons _ _)).bind fun d _ => ?_
        exact (AtOrUnder.elem (List.suffix_refl _)).bind fun _ _ => AtOrUnder.lift.bind fun _ _ => .done (List.suffix_refl _)
    | _ => exact .error
theorem denElemsT_under (fmt) : ∀ (l : List Json) (st : Bool) (e : Shape) (p : Path),
    AtOrUnder (.elem :: p) (denElemsT fmt st e p l)
  | [], st, e, p => by unfold denElemsT; exact .lift
  | .null :: l, st, e, p => by unfold denElemsT; exact denElemsT_under fmt l st e p
  | .sc x :: l, st, e, p => by
    have ih := denElemsT_under fmt l st e p
    unfold denElemsT
    refine (denoteT_under fmt (.sc x) e (.elem :: p)).bind fun d _ => ?_
    split
    · split
      · exact ih.bind fun _ _ => .lift
      · exact .error
    · exact ih
  | .arr x :: l, st, e, p => by
    have ih := denElemsT_under fmt l st e p
    unfold denElemsT
    refine (denoteT_under fmt (.arr x) e (.elem :: p)).bind fun d _ => ?_
    split
    · split
      · exact ih.bind fun _ _ => .lift
      · exact .error
    · exact ih
  | .obj x :: l, st, e, p => by
    have ih := denElemsT_under fmt l st e p
    unfold denElemsT
    refine (denoteT_under fmt (.obj x) e (.elem :: p)).bind fun d _ => ?_
    split
    · split
      · exact ih.bind fun _ _ => .lift
      · exact .error
    · exact ih
end

theorem not_suffix_self {x : Step} {q : Path} : ¬ (x :: q) <:+ q := by
  intro h
  have := h.length_le
  exact absurd this (Nat.not_succ_le_self _)

theorem AtOrUnder.noFin {α} {q : Path} {x} {w : W α} (h : AtOrUnder (x :: q) w) : w.calls.filterMap (finAt q) = [] := by
  rw [List.filterMap_eq_nil_iff]
  intro ev hev
  have := h ev hev
  cases ev with
  | finish p d =>
    simp only [finAt]
    rw [if_neg]
    rintro rfl; exact not_suffix_self this
  | element _ _ _ => rfl

theorem AtOrUnder.noEl {α} {q : Path} {x} {w : W α} (h : AtOrUnder (x :: q) w) : w.calls.filterMap (elAt q) = [] := by
  rw [List.filterMap_eq_nil_iff]
  intro ev hev
  have := h ev hev
  cases ev with
  | element p k d =>
    simp only [elAt]
    rw [if_neg]
    rintro rfl; exact not_suffix_self this
  | finish _ _ => rfl

/-! ### The last call for a value is that of its own parser -/

/-- The finish callback at `p` is called once if the result is set, and otherwise not at all. -/
def OwnCall (p : Path) (w : W D) : Prop := ∀ d, w.result = .ok d → w.calls.filterMap (finAt p) = if d.isSet then [d] else []

theorem OwnCall.done {p d} : OwnCall p (W.done p d) := by
  intro d' hd
  unfold W.done at hd ⊢
  split at hd <;> · injection hd with hd; subst hd; simp_all [finAt]
theorem OwnCall.error {p e} : OwnCall p (W.error e) := by intro d h; simp [W.error] at h
theorem OwnCall.unset {p} : OwnCall p (W.lift (.ok .unset)) := by
  intro d h
  injection h with h; subst h; rfl
theorem OwnCall.bind {α} {p} {w : W α} {f : α → W D} (h : w.calls.filterMap (finAt p) = []) (hf : ∀ a, w.result = .ok a → OwnCall p (f a)) :
    OwnCall p (w.bind f) := by
  intro d hd
  unfold W.bind at hd ⊢
  cases ha : w.result with
  | error e => rw [ha] at hd; simp at hd
  | ok a =>
    rw [ha] at hd
    simp only at hd ⊢
    rw [List.filterMap_append, h, List.nil_append]
    exact hf a ha d hd

theorem denFieldsT_own (fmt) : ∀ (fs : List (String × Json)) (sh : Shape) (p : Path) (slots ents ne),
    OwnCall p (denFieldsT fmt sh p slots ents ne fs)
  | [], sh, p, slots, ents, ne => by
    unfold denFieldsT
    cases sh with
    | object k u ms => exact OwnCall.bind rfl fun _ _ => .done
    | map st e => exact .done
    | union _ _ _ _ => exact .unset
    | _ => exact .error
  | (k, v) :: fs, sh, p, slots, ents, ne => by
    have ihf := denFieldsT_own fmt fs
    unfold denFieldsT
    cases sh with
    | object kd u ms =>
      simp only
      cases lookup (.str k) 0 ms with
      | none => simp only; split
                · exact .error
                · exact ihf _ _ _ _ _
      | some nm =>
        simp only
        cases embedded nm.2 v with
        | none => exact OwnCall.bind (denoteT_under fmt v nm.2 (.mem nm.1 :: p)).noFin fun _ _ => ihf _ _ _ _ _
        | some z =>
          refine OwnCall.bind rfl fun a _ => ?_
          refine OwnCall.bind (denFieldsT_under fmt fs a.2 (.mem a.1 :: .mem nm.1 :: p) _ _ _).up.noFin fun d _ => OwnCall.bind rfl fun d _ => ?_
          exact OwnCall.bind (AtOrUnder.done (List.suffix_refl _)).noFin fun d _ => OwnCall.bind rfl fun _ _ => .done
    | union ty tm st ms =>
      simp only; split
      · exact .error
      · split
        · exact .error
        · cases v with
          | sc x =>
            simp only; split
            · exact OwnCall.bind rfl fun a _ => OwnCall.bind (denFieldsT_under fmt fs a.2 (.mem a.1 :: p) _ _ _).noFin fun d _ =>
                OwnCall.bind rfl fun d _ => .done
            · exact .error
          | _ => exact .error
    | map st e =>
      simp only
      cases embedded e v with
      | none =>
        exact OwnCall.bind (denoteT_under fmt v e (.elem :: p)).noFin fun _ _ => OwnCall.bind rfl fun _ _ => OwnCall.bind rfl fun _ _ => ihf _ _ _ _ _
      | some z =>
        refine OwnCall.bind rfl fun a _ => ?_
        refine OwnCall.bind (denFieldsT_under fmt fs a.2 (.mem a.1 :: .elem :: p) _ _ _).up.noFin fun d _ => OwnCall.bind rfl fun d _ => ?_
        refine OwnCall.bind (AtOrUnder.done (List.suffix_refl _)).noFin fun d _ => ?_
        exact OwnCall.bind rfl fun _ _ => OwnCall.bind rfl fun _ _ => .done
    | _ => exact .error

theorem denoteT_own (fmt) (j : Json) (sh : Shape) (p : Path) (hu : sh.isUser = true) : OwnCall p (denoteT fmt sh p j) := by
  cases j with
  | null => unfold denoteT; exact .unset
  | sc x =>
    unfold denoteT
    cases sh with
    | value ty =>
      simp only; split
      · exact .done
      · exact .error
    | ignore => simp [Shape.isUser] at hu
    | _ => exact .error
  | arr l =>
    unfold denoteT
    cases sh with
    | array st e => exact OwnCall.bind (denElemsT_under fmt l st e p).noFin fun vs _ => .done
    | ignore => simp [Shape.isUser] at hu
    | _ => exact .error
  | obj fs =>
    unfold denoteT
    cases sh with
    | object k u ms => exact denFieldsT_own fmt fs _ _ _ _ _
    | map st e => exact denFieldsT_own fmt fs _ _ _ _ _
    | union ty tm st ms =>
      simp only; split
      · exact .error
      · exact denFieldsT_own fmt fs _ _ _ _ _
    | ignore => simp [Shape.isUser] at hu
    | _ => exact .error

/-! ### The calls in the log -/

theorem shows_value {d : D} {v : Val} {s : Snap} (h : s.shows d) (hv : d.value? = some v) : s.value? = some v := by
  cases s with
  | node set empty val cur kids =>
    cases d <;> simp [D.value?] at hv
    · subst hv; simp only [Snap.shows] at h; simp [Snap.value?, h]
    · subst hv; simp only [Snap.shows] at h; simp [Snap.value?, h.1, h.2.1 _ rfl]

theorem shows_unset {s : Snap} (h : s.shows .unset) : s.value? = none := by
  cases s with
  | node set empty val cur kids => simp only [Snap.shows] at h; simp [Snap.value?, h]

theorem arg_shows_value {d : D} {v : Val} {a : Arg} (h : a.shows d) (hv : d.value? = some v) : a.value? = some v := by
  cases a with
  | val w => simp only [Arg.shows] at h; subst h; simp only [D.value?] at hv; exact hv
  | parser s => exact shows_value h hv

theorem delivered_append (q) : ∀ (a b : List Call), delivered q (a ++ b) = delivered q b ++ delivered q a
  | [], b => by simp [delivered]
  | .finish q' x :: a, b => by simp only [List.cons_append, delivered, delivered_append q a b]; split <;> simp
  | .element _ _ _ :: a, b => by simp only [List.cons_append, delivered, delivered_append q a b]

theorem deliveredPairs_append (q) : ∀ (a b : List Call), deliveredPairs q (a ++ b) = deliveredPairs q b ++ deliveredPairs q a
  | [], b => by simp [deliveredPairs]
  | .element q' k x :: a, b => by simp only [List.cons_append, deliveredPairs, deliveredPairs_append q a b]; split <;> simp
  | .finish _ _ :: a, b => by simp only [List.cons_append, deliveredPairs, deliveredPairs_append q a b]

variable {E : Env}

/-- What was delivered is what the parser held. -/
theorem Logged.delivered {q : Path} (hcb : (E.onFinish q).isSome = true) : ∀ {es : List Ev} {l l' : Log}, Logged E es l l' →
    ∃ new, l' = new ++ l ∧ Each (fun (o : Option Val) d => ∀ v, d.value? = some v → o = some v) (SJ.delivered q new) (es.filterMap (finAt q))
  | [], l, l', h => ⟨[], h, .nil⟩
  | e :: es, l, l', ⟨l1, h1, h2⟩ => by
    obtain ⟨new, rfl, h3⟩ := Logged.delivered hcb h2
    cases e with
    | finish p d =>
      simp only [LogStep] at h1
      cases hf : E.onFinish p with
      | none =>
        rw [hf] at h1; subst h1
        refine ⟨new, rfl, ?_⟩
        have : p ≠ q := by rintro rfl; rw [hf] at hcb; simp at hcb
        simpa [finAt, this] using h3
      | some f =>
        rw [hf] at h1
        obtain ⟨a, rfl, ha⟩ := h1
        refine ⟨new ++ [.finish p a], by simp, ?_⟩
        rw [delivered_append]
        by_cases hp : p = q
        · simp only [SJ.delivered, hp, if_true, List.filterMap_cons, finAt]
          exact .cons (fun v hv => arg_shows_value ha hv) h3
        · simpa [SJ.delivered, hp, finAt] using h3
    | element p k d =>
      simp only [LogStep] at h1
      cases hf : E.onElement p with
      | none =>
        rw [hf] at h1; subst h1
        exact ⟨new, rfl, by simpa [List.filterMap_cons, finAt] using h3⟩
      | some f =>
        rw [hf] at h1
        obtain ⟨a, rfl, ha⟩ := h1
        refine ⟨new ++ [.element p k a], by simp, ?_⟩
        rw [delivered_append]
        simpa [List.filterMap_cons, SJ.delivered, finAt] using h3

theorem Logged.deliveredPairs {q : Path} (hcb : (E.onElement q).isSome = true) : ∀ {es : List Ev} {l l' : Log}, Logged E es l l' →
    ∃ new, l' = new ++ l ∧ Each (fun (o : String × Option Val) (kd : String × D) => o.1 = kd.1 ∧ (∀ v, kd.2.value? = some v → o.2 = some v) ∧
      (kd.2 = .unset → o.2 = none)) (SJ.deliveredPairs q new) (es.filterMap (elAt q))
  | [], l, l', h => ⟨[], h, .nil⟩
  | e :: es, l, l', ⟨l1, h1, h2⟩ => by
    obtain ⟨new, rfl, h3⟩ := Logged.deliveredPairs hcb h2
    cases e with
    | element p k d =>
      simp only [LogStep] at h1
      cases hf : E.onElement p with
      | none =>
        rw [hf] at h1; subst h1
        refine ⟨new, rfl, ?_⟩
        have : p ≠ q := by rintro rfl; rw [hf] at hcb; simp at hcb
        simpa [elAt, this] using h3
      | some f =>
        rw [hf] at h1
        obtain ⟨a, rfl, ha⟩ := h1
        refine ⟨new ++ [.element p k a], by simp, ?_⟩
        rw [deliveredPairs_append]
        by_cases hp : p = q
        · simp only [SJ.deliveredPairs, hp, if_true, List.filterMap_cons, elAt]
          exact .cons ⟨rfl, fun v hv => shows_value ha hv, fun hd => shows_unset (by simp only at hd; rw [← hd]; exact ha)⟩ h3
        · simpa [SJ.deliveredPairs, hp, elAt] using h3
    | finish p d =>
      simp only [LogStep] at h1
      cases hf : E.onFinish p with
      | none =>
        rw [hf] at h1; subst h1
        exact ⟨new, rfl, by simpa [List.filterMap_cons, elAt] using h3⟩
      | some f =>
        rw [hf] at h1
        obtain ⟨a, rfl, ha⟩ := h1
        refine ⟨new ++ [.finish p a], by simp, ?_⟩
        rw [deliveredPairs_append]
        simpa [List.filterMap_cons, SJ.deliveredPairs, elAt] using h3

/-! ### Arrays -/

/-- How an element contributes to an array. -/
theorem denElemsT_cons {fmt st e p j l} (hj : j.isNull = false) :
    denElemsT fmt st e p (j :: l) = (denoteT fmt e (.elem :: p) j).bind fun d =>
      if st then
        match d.value? with
        | some v => (denElemsT fmt st e p l).bind fun vs => .lift (.ok (v :: vs))
        | none => .error notSet
      else denElemsT fmt st e p l := by
  cases j with
  | null => simp [Json.isNull] at hj
  | _ =>
    conv => lhs; unfold denElemsT
    refine congrArg _ (funext fun d => ?_)
    split
    · cases d.value? <;> rfl
    · rfl

theorem present_cons {j : Json} {l} (hj : j.isNull = false) : present (j :: l) = present l + 1 := by simp [present, hj]
theorem present_null {l : List Json} : present (.null :: l) = present l := by simp [present, Json.isNull]

/-- An array that stores its elements and one that does not, the same elements. -/
theorem elems_agree {fmt e p q} (hw : e.wf = true) (hst : e.isStorage = true) : ∀ (l : List Json),
    match (denElemsT fmt true e p l).result with
    | .ok vs => (denElemsT fmt false e q l).result = .ok [] ∧ vs.length = present l ∧
        ((denElemsT fmt false e q l).calls.filterMap (finAt (.elem :: q))).map D.value? = vs.map some
    | .error msg => (denElemsT fmt false e q l).result = .error msg ∨ msg = notSet ∧
        ((∃ m, (denElemsT fmt false e q l).result = .error m) ∨ (denElemsT fmt false e q l).result = .ok [] ∧
          ((denElemsT fmt false e q l).calls.filterMap (finAt (.elem :: q))).length < present l)
  | [] => by simp [denElemsT, W.lift, present]
  | j :: l => by
    have ih := elems_agree (fmt := fmt) (p := p) (q := q) hw hst l
    cases hj : j.isNull with
    | true =>
      cases j <;> simp [Json.isNull] at hj
      rw [denElemsT, denElemsT, present_null]; exact ih
    | false =>
      have r1 := denoteT_result fmt j e (.elem :: p)
      have r2 := denoteT_result fmt j e (.elem :: q)
      have own := denoteT_own fmt j e (.elem :: q) (wf_user hw)
      rw [denElemsT_cons hj, denElemsT_cons hj, present_cons hj]
      cases hd : denote fmt e j with
      | error m =>
        rw [hd] at r1 r2
        simp [W.bind, r1, r2]
      | ok d =>
        rw [hd] at r1 r2
        have own := own d r2
        simp only [W.bind, r1, r2, if_true, Bool.false_eq_true, if_false, List.filterMap_append, own]
        have hfit := denote_fits j e d hw hd
        cases hs : d.isSet with
        | true =>
          obtain ⟨v, hv⟩ := fits_store hfit hst hs
          simp only [hv, if_true, List.length_append, List.map_append, List.length_cons, List.length_nil, List.map_cons, List.map_nil]
          cases ht : (denElemsT fmt true e p l).result with
          | ok vs =>
            rw [ht] at ih
            simp [W.lift, ih]
          | error m =>
            rw [ht] at ih
            simp only
            rcases ih with ih | ⟨rfl, ih | ih⟩
            · exact .inl ih
            · exact .inr ⟨rfl, .inl ih⟩
            · exact .inr ⟨rfl, .inr ⟨ih.1, by omega⟩⟩
        | false =>
          have hd' : d = .unset := by cases d <;> simp [D.isSet] at hs ⊢
          subst hd'
          simp only [D.value?, W.error]
          refine .inr ⟨trivial, ?_⟩
          cases ht : (denElemsT fmt true e p l).result with
          | ok vs =>
            rw [ht] at ih
            refine .inr ⟨ih.1, ?_⟩
            have := congrArg List.length ih.2.2
            simp at this ⊢
            omega
          | error m =>
            rw [ht] at ih
            rcases ih with ih | ⟨_, ih | ih⟩
            · exact .inl ⟨_, ih⟩
            · exact .inl ih
            · refine .inr ⟨ih.1, ?_⟩
              simp; omega

/-! ### Maps -/

/-- What an `SMap` makes of the pairs it is given one after another. -/
def insertAll (ents : List (String × Val)) (ps : List (String × Val)) : List (String × Val) :=
  ps.foldl (fun m kv => mapInsert kv.1 kv.2 m) ents

/-- One pair given to the element callback: the value, or nothing. -/
def seenPair (kd : String × D) : String × Option Val := (kd.1, kd.2.value?)

theorem unset_of {e : Shape} {d : D} (hfit : e.fits d = true) (hst : e.isStorage = true) (hv : d.value? = none) : d = .unset := by
  cases hs : d.isSet with
  | false => cases d <;> simp [D.isSet] at hs ⊢
  | true =>
    obtain ⟨v, hv'⟩ := fits_store hfit hst hs
    rw [hv] at hv'; simp at hv'

theorem map_done {fmt e} : ∀ {fs : List (String × Json)} {slots ents ne d}, denFields fmt (.map false e) slots ents ne fs = .ok d → d = .done
  | [], slots, ents, ne, d, h => by
    rw [denFields] at h
    simp only [finishMap, Bool.false_eq_true, if_false] at h
    injection h with h; exact h.symm
  | (k, v) :: fs, slots, ents, ne, d, h => by
    rw [denFields] at h
    cases he : embedded e v with
    | none =>
      rw [he] at h
      simp only [bind, Except.bind, storeEntry, Bool.false_eq_true, if_false] at h
      split at h
      · simp at h
      · exact map_done h
    | some z =>
      rw [he] at h
      simp only [bind, Except.bind, storeEntry, Bool.false_eq_true, if_false] at h
      split at h
      · simp at h
      · split at h
        · simp at h
        · split at h
          · simp at h
          · injection h with h; exact h.symm

theorem finishUnion_stored {ms a d d'} (h : finishUnion true ms a d = .ok d') (hv : d'.value? = none) : d' = .unset := by
  unfold finishUnion at h
  split at h
  · injection h with h; exact h.symm
  · simp only [Bool.not_true, Bool.false_eq_true, if_false] at h
    split at h
    · injection h with h; subst h; simp [D.value?] at hv
    · split at h
      · split at h <;> · first | (injection h with h; subst h; first | rfl | simp [D.value?] at hv) | simp at h
      · simp at h

theorem maps_agree {fmt e p q} (hw : e.wf = true) (hst : e.isStorage = true) : ∀ (fs : List (String × Json)) (ents ents' : List (String × Val)) (ne : Bool),
    match (denFieldsT fmt (.map true e) p [] ents ne fs).result with
    | .ok d => (denFieldsT fmt (.map false e) q [] ents' ne fs).result = .ok .done ∧ ∃ ps, d = .val (.map (insertAll ents ps)) ∧
        ((denFieldsT fmt (.map false e) q [] ents' ne fs).calls.filterMap (elAt q)).map seenPair = ps.map fun kv => (kv.1, some kv.2)
    | .error msg => (denFieldsT fmt (.map false e) q [] ents' ne fs).result = .error msg ∨ msg = notSet ∧
        ((∃ m, (denFieldsT fmt (.map false e) q [] ents' ne fs).result = .error m) ∨ (denFieldsT fmt (.map false e) q [] ents' ne fs).result = .ok .done ∧
          ∃ k, (k, D.unset) ∈ (denFieldsT fmt (.map false e) q [] ents' ne fs).calls.filterMap (elAt q))
  | [], ents, ents', ne => by
    simp only [denFieldsT, finishMap, W.done, D.isSet, if_true, Bool.false_eq_true, if_false]
    exact ⟨trivial, [], rfl, rfl⟩
  | (k, v) :: fs, ents, ents', ne => by
    rw [denFieldsT, denFieldsT]
    cases he : embedded e v with
    | none =>
      simp only
      have r1 := denoteT_result fmt v e (.elem :: p)
      have r2 := denoteT_result fmt v e (.elem :: q)
      have quiet := (denoteT_under fmt v e (.elem :: q)).noEl
      cases hd : denote fmt e v with
      | error m =>
        rw [hd] at r1 r2
        simp [W.bind, r1, r2]
      | ok d =>
        rw [hd] at r1 r2
        have hfit := denote_fits v e d hw hd
        cases hv : d.value? with
        | none =>
          have := unset_of hfit hst hv
          subst this
          simp only [W.bind, r1, r2, W.elem, W.lift, storeEntry, if_true, hv, Bool.false_eq_true, if_false]
          refine .inr ⟨trivial, ?_⟩
          cases ht : (denFieldsT fmt (.map false e) q [] ents' true fs).result with
          | error m => exact .inl ⟨m, rfl⟩
          | ok d' =>
            refine .inr ⟨?_, k, ?_⟩
            · have := denFieldsT_result fmt fs (.map false e) q [] ents' true
              rw [ht] at this
              rw [map_done this.symm]
            · simp [quiet, elAt]
        | some w =>
          have ih := maps_agree (fmt := fmt) (p := p) (q := q) hw hst fs (mapInsert k w ents) ents' true
          simp only [W.bind, r1, r2, W.elem, W.lift, storeEntry, if_true, hv, Bool.false_eq_true, if_false, List.filterMap_append, quiet,
            List.nil_append, List.filterMap_cons, List.filterMap_nil, elAt]
          cases ht : (denFieldsT fmt (.map true e) p [] (mapInsert k w ents) true fs).result with
          | ok d' =>
            rw [ht] at ih
            obtain ⟨h1, ps, h2, h3⟩ := ih
            refine ⟨h1, (k, w) :: ps, h2, ?_⟩
            simp [h3, seenPair, hv]
          | error m =>
            rw [ht] at ih
            rcases ih with ih | ⟨rfl, ih | ⟨h1, k', h2⟩⟩
            · exact .inl ih
            · exact .inr ⟨rfl, .inl ih⟩
            · exact .inr ⟨rfl, .inr ⟨h1, k', by simp [h2]⟩⟩
    | some z =>
      obtain ⟨ty, st', ms', x⟩ := z
      simp only
      obtain ⟨rfl, hx⟩ := embedded_some he
      cases hsel : selectAlt fmt ms' x with
      | error m => simp [W.bind, W.lift]
      | ok a =>
        have r1 := denFieldsT_result fmt fs a.2 (.mem a.1 :: .elem :: p) (noSlots a.2) [] false
        have r2 := denFieldsT_result fmt fs a.2 (.mem a.1 :: .elem :: q) (noSlots a.2) [] false
        have quiet := (denFieldsT_under fmt fs a.2 (.mem a.1 :: .elem :: q) (noSlots a.2) [] false).up.noEl
        cases hd : denFields fmt a.2 (noSlots a.2) [] false fs with
        | error m =>
          rw [hd] at r1 r2
          simp [W.bind, W.lift, r1, r2]
        | ok d =>
          rw [hd] at r1 r2
          cases hu : finishUnion st' ms' a.1 d with
          | error m => simp [W.bind, W.lift, r1, r2, hu]
          | ok du =>
            have hst' : st' = true := by simpa [Shape.isStorage] using hst
            subst hst'
            have quiet' := (AtOrUnder.done (d := du) (List.suffix_refl (.elem :: q))).noEl
            cases hv : du.value? with
            | none =>
              have := finishUnion_stored hu hv
              subst this
              simp [W.bind, W.lift, r1, r2, hu, W.elem, storeEntry, hv, W.done, finishMap, D.isSet, elAt, quiet, notSet]
            | some w =>
              simp only [W.bind, W.lift, r1, r2, hu, W.elem, storeEntry, hv, finishMap, if_true, Bool.false_eq_true, if_false, W.result_done,
                List.filterMap_append, quiet, quiet', List.nil_append, List.filterMap_cons, List.filterMap_nil, elAt, List.filterMap_append]
              refine ⟨trivial, [(k, w)], rfl, ?_⟩
              simp [W.done, D.isSet, elAt, seenPair, hv]

end SJ
