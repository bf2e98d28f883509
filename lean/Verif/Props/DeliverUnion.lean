/-
C62 for unions: `SUnion` stores what `Union` gives through its alternatives.
-/
import Verif.Props.Deliver
import Verif.Props.Unions
import Verif.Proofs.Schema

set_option linter.unusedVariables false

namespace SJ

variable {E E' : Env} {R R' : Shape} {Y : Yajl}

/-- What a union that stores and one that does not make of the same object. -/
theorem storing_agrees {fmt : Dbl → String} {ty tm} {ms : List (MInfo × Shape)} (hw : (Shape.union ty tm true ms).wf = true) (fs : List (String × Json)) :
    (denote fmt (.union ty tm true ms) (.obj fs) = .ok .unset ∧ denote fmt (.union ty tm false ms) (.obj fs) = .ok .unset) ∨
    (∃ n i m d v, ms[n]? = some (i, m) ∧ denote fmt (.union ty tm true ms) (.obj fs) = .ok (.val (.alt n v)) ∧
      denote fmt (.union ty tm false ms) (.obj fs) = .ok (.alt n d) ∧ (d.value? = some v ∨ d = .unset ∧ i.optional = true ∧ i.dflt = some v)) ∨
    (∃ n i m, ms[n]? = some (i, m) ∧ i.optional = true ∧ i.dflt = none ∧
      denote fmt (.union ty tm true ms) (.obj fs) = .error ("Can not set value: " ++ ("Optional member #" ++ toString n ++ " does not have a default value")) ∧
      denote fmt (.union ty tm false ms) (.obj fs) = .ok (.alt n .unset)) ∨
    (∃ msg msg', denote fmt (.union ty tm true ms) (.obj fs) = .error msg ∧ denote fmt (.union ty tm false ms) (.obj fs) = .error msg' ∧
      (msg = msg' ∨ msg = "Can not set value: " ++ msg')) := by
  unfold denote
  by_cases htm : tm = ""
  · exact .inr (.inr (.inr ⟨_, _, if_pos htm, if_pos htm, .inl rfl⟩))
  simp only [htm, if_false]
  match fs with
  | [] => exact .inl ⟨rfl, rfl⟩
  | (k, v) :: fs =>
    simp only [denFields, htm, if_false]
    by_cases hk : k = tm
    · subst hk
      simp only [ne_eq, not_true_eq_false, if_false]
      cases v with
      | sc x =>
        simp only
        by_cases hx : x.ty = ty
        · simp only [hx, if_true]
          cases hl : lookup x 0 ms with
          | none => exact .inr (.inr (.inr ⟨_, _, by simp only [selectAlt, hl]; rfl, by simp only [selectAlt, hl]; rfl, .inl rfl⟩))
          | some a =>
            obtain ⟨n, m⟩ := a
            obtain ⟨i, hi, _⟩ := lookup_named hl
            have hm := wfMs_mem (wf_union hw) hi
            have hsel : selectAlt fmt ms x = .ok (n, m) := by simp [selectAlt, hl]
            cases hd : denFields fmt m (noSlots m) [] false fs with
            | error msg => exact .inr (.inr (.inr ⟨_, _, by simp only [hsel, bind, Except.bind, hd] <;> rfl, by simp only [hsel, bind, Except.bind, hd] <;> rfl, .inl rfl⟩))
            | ok d =>
              have hfit : m.fits d = true := denFields_fits fs m _ _ _ d hm.2.1 (.none m) hd
              simp only [hsel, bind, Except.bind, hd]
              cases hv : d.value? with
              | some v =>
                have hds : d.isSet = true := by cases d <;> simp_all [D.value?, D.isSet]
                exact .inr (.inl ⟨n, i, m, d, v, hi, by simp [finishUnion, hi, hv], by simp [finishUnion, hi, hds], .inl hv⟩)
              | none =>
                have hu := unset_of hfit (hm.2.2 rfl) hv
                subst hu
                cases ho : i.optional with
                | true =>
                  cases hdf : i.dflt with
                  | some v =>
                    exact .inr (.inl ⟨n, i, m, .unset, v, hi, by simp [finishUnion, hi, D.value?, ho, hdf], by simp [finishUnion, hi, ho], .inr ⟨rfl, ho, hdf⟩⟩)
                  | none => exact .inr (.inr (.inl ⟨n, i, m, hi, ho, hdf, by simp [finishUnion, hi, D.value?, ho, hdf], by simp [finishUnion, hi, ho]⟩))
                | false =>
                  exact .inr (.inr (.inr ⟨_, _, by simp only [finishUnion, hi, D.value?, ho]; rfl, by simp only [finishUnion, hi, ho, D.isSet]; rfl, .inr rfl⟩))
        · exact .inr (.inr (.inr ⟨_, _, if_neg hx, if_neg hx, .inl rfl⟩))
      | arr l => exact .inr (.inr (.inr ⟨_, _, rfl, rfl, .inl rfl⟩))
      | null => exact .inr (.inr (.inr ⟨_, _, rfl, rfl, .inl rfl⟩))
      | obj l => exact .inr (.inr (.inr ⟨_, _, rfl, rfl, .inl rfl⟩))
    · exact .inr (.inr (.inr ⟨_, _, if_pos hk, if_pos hk, .inl rfl⟩))

/-- C62, unions. An `SUnion` and a `Union` with the same alternatives read the same object. Then:
* it is empty, both read it and neither is set; or
* both read it and have the same alternative, and the stored value is the one the alternative of the `Union` holds, or, if it holds none, the default; or
* the `Union` reads it with an optional alternative that holds nothing, and the `SUnion` says that there is no default value for this; or
* neither reads it, with the same message, but that the `SUnion` may put "Can not set value: " in front. -/
theorem C62_union (hE : Passive E) (hE' : Passive E') (hf : E'.fmtDbl = E.fmtDbl) {s t : St} {p q : Path} {ty tm} {ms : List (MInfo × Shape)} {fs : List (String × Json)}
    (hx : Expecting R s p (.union ty tm true ms)) (hx' : Expecting R' t q (.union ty tm false ms)) (hw : (Shape.union ty tm true ms).wf = true)
    (hw' : (Shape.union ty tm false ms).wf = true) (hok : okVal (.union ty tm true ms) (.obj fs) = true) :
    (∃ s1 t1, Completes E R s p (.obj fs) s1 ∧ Completes E' R' t q (.obj fs) t1 ∧ isSet p s1 = false ∧ isSet q t1 = false) ∨
    (∃ s1 t1 n i m v, ms[n]? = some (i, m) ∧ Completes E R s p (.obj fs) s1 ∧ get p s1 = .ok (.alt n v) s1 ∧
      Completes E' R' t q (.obj fs) t1 ∧ isSet q t1 = true ∧ currentMemberId q t1 = .ok n t1 ∧
      (get (.mem n :: q) t1 = .ok v t1 ∨ isSet (.mem n :: q) t1 = false ∧ i.optional = true ∧ i.dflt = some v)) ∨
    (∃ t1 n i m, ms[n]? = some (i, m) ∧ i.optional = true ∧ i.dflt = none ∧
      Fails E R s (.obj fs) ("Can not set value: " ++ ("Optional member #" ++ toString n ++ " does not have a default value")) ∧
      Completes E' R' t q (.obj fs) t1 ∧ currentMemberId q t1 = .ok n t1 ∧ isSet (.mem n :: q) t1 = false) ∨
    (∃ msg msg', Fails E R s (.obj fs) msg ∧ Fails E' R' t (.obj fs) msg' ∧ (msg = msg' ∨ msg = "Can not set value: " ++ msg')) := by
  have hok' : okVal (.union ty tm false ms) (.obj fs) = true := by
    cases fs with
    | nil => simp [okVal, okFields]
    | cons kv fs => obtain ⟨k, v⟩ := kv; simpa only [okVal, okFields] using hok
  have h1 := parse_at hE hx hw hok
  have h2 := parse_at hE' hx' hw' hok'
  rw [hf] at h2
  rcases storing_agrees (fmt := E.fmtDbl) hw fs with ⟨a, b⟩ | ⟨n, i, m, d, v, hi, a, b, c⟩ | ⟨n, i, m, hi, ho, hd, a, b⟩ | ⟨msg, msg', a, b, c⟩
  · rw [a] at h1; rw [b] at h2
    obtain ⟨s1, c1, v1, _⟩ := h1
    obtain ⟨t1, c2, v2, _⟩ := h2
    exact .inl ⟨s1, t1, c1, c2, v1, v2⟩
  · rw [a] at h1; rw [b] at h2
    obtain ⟨s1, c1, v1, _⟩ := h1
    obtain ⟨t1, c2, v2, _⟩ := h2
    refine .inr (.inl ⟨s1, t1, n, i, m, v, hi, c1, by simp [get, v1.1, v1.2], c2, v2.1, by simp [currentMemberId, v2.1, v2.2.1], ?_⟩)
    rcases c with c | ⟨rfl, c, c'⟩
    · have := v2.2.2.value c
      exact .inl (by simp [get, this.1, this.2])
    · exact .inr ⟨v2.2.2, c, c'⟩
  · rw [a] at h1; rw [b] at h2
    obtain ⟨t1, c2, v2, _⟩ := h2
    exact .inr (.inr (.inl ⟨t1, n, i, m, hi, ho, hd, h1, c2, by simp [currentMemberId, v2.1, v2.2.1], v2.2.2⟩))
  · rw [a] at h1; rw [b] at h2
    exact .inr (.inr (.inr ⟨msg, msg', h1, h2, c⟩))

/-! ### The hypotheses are met -/

section Examples
open Demo

def storedChoice : Shape := .union .str "type" true
  [({ name := .str "pair" }, inner), ({ name := .str "point", optional := true, dflt := some (.tup [.sc (.int 5)]) }, point)]
def openChoice : Shape := .union .str "type" false
  [({ name := .str "pair" }, inner), ({ name := .str "point", optional := true, dflt := some (.tup [.sc (.int 5)]) }, point)]

/-- C62_union: nothing but the type; the stored value is the default, the alternative of the `Union` holds nothing. -/
example : ∃ s1 t1, run noCb storedChoice (events (.obj [("type", .sc (.str "point"))])) (St.init storedChoice) = .ok () s1 ∧ get [] s1 = .ok (.alt 1 (.tup [.sc (.int 5)])) s1 ∧
    run noCb openChoice (events (.obj [("type", .sc (.str "point"))])) (St.init openChoice) = .ok () t1 ∧ currentMemberId [] t1 = .ok 1 t1 ∧ isSet [.mem 1] t1 = false := by
  have hS : run noCb storedChoice _ (St.init storedChoice) = _ := after_ok (ts := events (.obj [("type", .sc (.str "point"))])) (by decide +kernel)
  have hO : run noCb openChoice _ (St.init openChoice) = _ := after_ok (ts := events (.obj [("type", .sc (.str "point"))])) (by decide +kernel)
  have hv : ((after noCb storedChoice (events (.obj [("type", .sc (.str "point"))])) (St.init storedChoice)).heap []).val = .alt 1 (.tup [.sc (.int 5)]) := sameV_eq (by decide +kernel)
  refine ⟨_, _, hS, by rw [C18_get, if_pos (by decide +kernel), hv], hO, ?_⟩
  rcases C62_union noCb_passive noCb_passive rfl (Ready.init storedChoice).expecting (Ready.init openChoice).expecting (by decide +kernel) (by decide +kernel)
    (fs := [("type", .sc (.str "point"))]) (by decide +kernel) with ⟨s1, t1, c1, _, h, _⟩ | ⟨s1, t1, n, i, m, v, hi, c1, g, c2, h1, h2, h3⟩ | ⟨t1, n, i, m, hi, ho, hd, h, _⟩ | ⟨msg, msg', ⟨s2, h⟩, _⟩
  · have r := c1.root rfl
    rw [hS] at r; injection r with _ r
    have : isSet [] (after noCb storedChoice (events (.obj [("type", .sc (.str "point"))])) (St.init storedChoice)) = true := by decide +kernel
    rw [r] at this; simp [isSet] at this h; rw [this] at h; simp at h
  · have r := c1.root rfl
    rw [hS] at r; injection r with _ r
    have r' := c2.root rfl
    rw [hO] at r'; injection r' with _ r'
    rw [C18_get] at g
    have g1 : (s1.heap []).val = .alt 1 (.tup [.sc (.int 5)]) := by rw [r] at hv; exact hv
    cases hset : isSet [] s1 with
    | false => simp [hset] at g
    | true =>
      simp only [hset, if_true, g1] at g
      injection g with g; injection g with g g'; subst g g'
      have h4 : isSet [.mem 1] (after noCb openChoice (events (.obj [("type", .sc (.str "point"))])) (St.init openChoice)) = false := by decide +kernel
      refine ⟨?_, h4⟩
      simp only [currentMemberId, r'] at h2 ⊢
      simp only [isSet] at h1
      simp only [h1, if_true] at h2 ⊢
      injection h2 with h2; rw [h2]
  · match n, hi with
    | 0, hi => simp at hi; obtain ⟨rfl, rfl⟩ := hi; simp at ho
    | 1, hi => simp at hi; obtain ⟨rfl, rfl⟩ := hi; simp at hd
    | n + 2, hi => simp at hi
  · rw [hS] at h; simp at h

end Examples

end SJ
