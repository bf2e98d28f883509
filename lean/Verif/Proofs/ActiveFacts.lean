/-
Facts about `denoteA`: it depends only on the callbacks at and below the parser; the finish callback of a parser is the last thing that happens; with
callbacks that only observe it is `denoteT`.
-/
import Verif.Proofs.Active

set_option linter.unusedVariables false

namespace SJ

variable {F F' : Handlers} {R : Shape}

theorem Eff.bind_congr {α β} {a a' : Eff α} {f f' : α → Eff β} (h : a = a') (hf : ∀ x, f x = f' x) : a.bind f = a'.bind f' := by
  subst h
  have : f = f' := funext hf
  rw [this]

/-! ### Only the callbacks at and below the parser count -/

/-- The same callbacks at and below `p`. -/
structure Agree (F F' : Handlers) (p : Path) : Prop where
  fmt : F.fmtDbl = F'.fmtDbl
  fin : ∀ q, Below p q → F.onFinish q = F'.onFinish q
  elem : ∀ q, Below p q → F.onElement q = F'.onElement q

theorem Agree.down {p} (h : Agree F F' p) (st : Step) : Agree F F' (st :: p) :=
  ⟨h.fmt, fun q hq => h.fin q ((Below.cons _ _).trans hq), fun q hq => h.elem q ((Below.cons _ _).trans hq)⟩

theorem Eff.done_congr {sh p d} (h : F.onFinish p = F'.onFinish p) : Eff.done F sh p d = Eff.done F' sh p d := by
  unfold Eff.done; rw [h]

theorem Eff.elem_congr {p k d} (h : F.onElement p = F'.onElement p) : Eff.elem F p k d = Eff.elem F' p k d := by
  unfold Eff.elem; rw [h]

mutual
theorem denoteA_congr : ∀ (j : Json) (sh : Shape) (p : Path), Agree F F' p → denoteA F sh p j = denoteA F' sh p j
  | .null, sh, p, h => by simp only [denoteA]
  | .sc x, sh, p, h => by
    cases sh <;> simp only [denoteA]
    rw [Eff.done_congr (h.fin p (Below.refl p))]
  | .arr l, sh, p, h => by
    cases sh <;> simp only [denoteA]
    exact Eff.bind_congr (denElemsA_congr l _ _ p h) fun _ => Eff.done_congr (h.fin p (Below.refl p))
  | .obj fs, sh, p, h => by
    cases sh <;> simp only [denoteA]
    · exact denFieldsA_congr fs _ p _ _ _ h
    · split
      · rfl
      · exact denFieldsA_congr fs _ p _ _ _ h
    · exact denFieldsA_congr fs _ p _ _ _ h
theorem denFieldsA_congr : ∀ (fs : List (String × Json)) (sh : Shape) (p : Path) (slots ents ne), Agree F F' p →
    denFieldsA F sh p slots ents ne fs = denFieldsA F' sh p slots ents ne fs
  | [], sh, p, slots, ents, ne, h => by
    cases sh <;> simp only [denFieldsA]
    · exact Eff.bind_congr rfl fun _ => Eff.done_congr (h.fin p (Below.refl p))
    · exact Eff.done_congr (h.fin p (Below.refl p))
  | (k, v) :: fs, sh, p, slots, ents, ne, h => by
    have hp := h.fin p (Below.refl p)
    cases sh with
    | value | ignore | array => simp only [denFieldsA]
    | object kd u ms =>
      simp only [denFieldsA]
      cases hl : lookup (.str k) 0 ms with
      | none =>
        simp only
        split
        · rfl
        · exact denFieldsA_congr fs _ p _ _ _ h
      | some nm =>
        obtain ⟨n, m⟩ := nm
        simp only
        cases he : embedded m v with
        | none =>
          simp only
          exact Eff.bind_congr (denoteA_congr v m _ (h.down _)) fun d => denFieldsA_congr fs _ p _ _ _ h
        | some z =>
          obtain ⟨ty, st, ms', x⟩ := z
          simp only [h.fmt]
          exact Eff.bind_congr rfl fun a => Eff.bind_congr (denFieldsA_congr fs _ _ _ _ _ ((h.down _).down _)) fun d =>
            Eff.bind_congr rfl fun d => Eff.bind_congr (Eff.done_congr ((h.down _).fin _ (Below.refl _))) fun d =>
            Eff.bind_congr rfl fun d => Eff.done_congr hp
    | union ty tm st ms =>
      simp only [denFieldsA]
      split
      · rfl
      · split
        · rfl
        · cases v with
          | null | arr | obj => rfl
          | sc x =>
            simp only [h.fmt]
            split
            · exact Eff.bind_congr rfl fun a => Eff.bind_congr (denFieldsA_congr fs _ _ _ _ _ (h.down _)) fun d =>
                Eff.bind_congr rfl fun d => Eff.done_congr hp
            · rfl
    | map st e =>
      have hel := h.elem p (Below.refl p)
      simp only [denFieldsA]
      cases he : embedded e v with
      | none =>
        simp only
        exact Eff.bind_congr (denoteA_congr v e _ (h.down _)) fun d => Eff.bind_congr (Eff.elem_congr hel) fun d =>
          Eff.bind_congr rfl fun ents => denFieldsA_congr fs _ p _ _ _ h
      | some z =>
        obtain ⟨ty, st, ms', x⟩ := z
        simp only [h.fmt]
        exact Eff.bind_congr rfl fun a => Eff.bind_congr (denFieldsA_congr fs _ _ _ _ _ ((h.down _).down _)) fun d =>
          Eff.bind_congr rfl fun d => Eff.bind_congr (Eff.done_congr ((h.down _).fin _ (Below.refl _))) fun d =>
          Eff.bind_congr (Eff.elem_congr hel) fun d => Eff.bind_congr rfl fun ents => Eff.done_congr hp
theorem denElemsA_congr : ∀ (l : List Json) (st : Bool) (e : Shape) (p : Path), Agree F F' p → denElemsA F st e p l = denElemsA F' st e p l
  | [], st, e, p, h => by simp only [denElemsA]
  | .null :: l, st, e, p, h => by simp only [denElemsA]; exact denElemsA_congr l st e p h
  | .sc x :: l, st, e, p, h => by
    simp only [denElemsA]
    rw [denElemsA_congr l st e p h, denoteA_congr (.sc x) e _ (h.down _)]
  | .arr x :: l, st, e, p, h => by
    simp only [denElemsA]
    rw [denElemsA_congr l st e p h, denoteA_congr (.arr x) e _ (h.down _)]
  | .obj x :: l, st, e, p, h => by
    simp only [denElemsA]
    rw [denElemsA_congr l st e p h, denoteA_congr (.obj x) e _ (h.down _)]
end

/-! ### The finish callback of a parser comes last -/

theorem Agree.without {p} (st : Step) : Agree F (F.without p) (st :: p) :=
  ⟨rfl, fun q hq => by
    have : q ≠ p := by rintro rfl; exact below_self_cons hq
    simp [Handlers.without, this], fun q _ => rfl⟩

theorem Eff.done_without {sh p d} : Eff.done (F.without p) sh p d = Eff.lift (.ok d) := by
  funext l
  simp only [Eff.done, Handlers.without, if_true, Eff.lift]
  split <;> rfl

theorem Eff.done_unset {sh p} : Eff.done F sh p .unset = Eff.lift (.ok .unset) := by
  funext l
  simp [Eff.done, D.isSet, Eff.lift]

theorem Eff.error_bind {α β e} (f : α → Eff β) : (Eff.error e : Eff α).bind f = Eff.error e := rfl

mutual
theorem denFieldsA_last : ∀ (fs : List (String × Json)) (sh : Shape) (p : Path) (slots ents ne),
    denFieldsA F sh p slots ents ne fs = (denFieldsA (F.without p) sh p slots ents ne fs).bind (.done F sh p)
  | [], sh, p, slots, ents, ne => by
    cases sh <;> simp only [denFieldsA, Eff.done_without, Eff.bind_assoc, Eff.lift_ok, Eff.error_bind, Eff.done_unset]
  | (k, v) :: fs, sh, p, slots, ents, ne => by
    have hel : (F.without p).onElement p = F.onElement p := rfl
    have hfm : (F.without p).fmtDbl = F.fmtDbl := rfl
    cases sh with
    | value | ignore | array => simp only [denFieldsA, Eff.error_bind]
    | object kd u ms =>
      simp only [denFieldsA]
      cases hl : lookup (.str k) 0 ms with
      | none =>
        simp only
        split
        · rfl
        · exact denFieldsA_last fs _ p _ _ _
      | some nm =>
        obtain ⟨n, m⟩ := nm
        simp only
        cases he : embedded m v with
        | none =>
          simp only [Eff.bind_assoc]
          exact Eff.bind_congr (denoteA_congr v m _ (.without _)) fun d => denFieldsA_last fs _ p _ _ _
        | some z =>
          obtain ⟨ty, st, ms', x⟩ := z
          simp only [hfm, Eff.bind_assoc, Eff.done_without, Eff.lift_ok]
          exact Eff.bind_congr rfl fun a => Eff.bind_congr (denFieldsA_congr fs _ _ _ _ _ ((Agree.without _).down _)) fun d =>
            Eff.bind_congr rfl fun d => Eff.bind_congr (Eff.done_congr ((Agree.without _).fin _ (Below.refl _))) fun d => rfl
    | union ty tm st ms =>
      simp only [denFieldsA]
      split
      · rfl
      · split
        · rfl
        · cases v with
          | null | arr | obj => rfl
          | sc x =>
            simp only [hfm]
            split
            · simp only [Eff.bind_assoc, Eff.done_without, Eff.lift_ok]
              exact Eff.bind_congr rfl fun a => Eff.bind_congr (denFieldsA_congr fs _ _ _ _ _ (Agree.without _)) fun d => rfl
            · rfl
    | map st e =>
      simp only [denFieldsA]
      cases he : embedded e v with
      | none =>
        simp only [Eff.bind_assoc]
        exact Eff.bind_congr (denoteA_congr v e _ (.without _)) fun d => Eff.bind_congr rfl fun d =>
          Eff.bind_congr rfl fun ents => denFieldsA_last fs _ p _ _ _
      | some z =>
        obtain ⟨ty, st, ms', x⟩ := z
        simp only [hfm, Eff.bind_assoc, Eff.done_without, Eff.lift_ok]
        exact Eff.bind_congr rfl fun a => Eff.bind_congr (denFieldsA_congr fs _ _ _ _ _ ((Agree.without _).down _)) fun d =>
          Eff.bind_congr rfl fun d => Eff.bind_congr (Eff.done_congr ((Agree.without _).fin _ (Below.refl _))) fun d => rfl
end

theorem denElemsA_without {l st e p} : denElemsA F st e p l = denElemsA (F.without p) st e p l := by
  induction l with
  | nil => simp only [denElemsA]
  | cons j l ih =>
    cases j <;> simp only [denElemsA, ih]
    all_goals rw [denoteA_congr _ e _ (Agree.without (F := F) (p := p) .elem)]

/-- The finish callback of a parser is the last thing that happens while it reads a value. -/
theorem denoteA_last (j : Json) (sh : Shape) (p : Path) (hu : sh.isUser = true) :
    denoteA F sh p j = (denoteA (F.without p) sh p j).bind (.done F sh p) := by
  cases j with
  | null => simp only [denoteA, Eff.lift_ok, Eff.done_unset]
  | sc x =>
    cases sh with
    | ignore => simp [Shape.isUser] at hu
    | value ty =>
      simp only [denoteA]
      split
      · simp only [Eff.done_without, Eff.lift_ok]
      · rfl
    | _ => rfl
  | arr l =>
    cases sh with
    | ignore => simp [Shape.isUser] at hu
    | array st e =>
      simp only [denoteA, Eff.bind_assoc, Eff.done_without, Eff.lift_ok]
      rw [denElemsA_without]
    | _ => rfl
  | obj fs =>
    cases sh with
    | ignore => simp [Shape.isUser] at hu
    | value | array => rfl
    | object k u ms => simp only [denoteA]; exact denFieldsA_last fs _ p _ _ _
    | map st e => simp only [denoteA]; exact denFieldsA_last fs _ p _ _ _
    | union ty tm st ms =>
      simp only [denoteA]
      split
      · rfl
      · exact denFieldsA_last fs _ p _ _ _

/-! ### Callbacks that only observe -/

theorem Watching.down {p} (h : Watching F p) (st : Step) : Watching F (st :: p) := fun q hq => h q ((Below.cons _ _).trans hq)

/-- The same as an `Eff`. -/
def W.act {α} (F : Handlers) (w : W α) : Eff α := fun l =>
  ((w.calls.filter F.called).reverse ++ l, match w.result with
    | .error e => .error (.std e)
    | .ok x => .ok x)

theorem W.act_bind {α β} (w : W α) (f : α → W β) : (w.bind f).act F = (w.act F).bind fun x => (f x).act F := by
  funext l
  unfold W.act Eff.bind W.bind
  cases hr : w.result with
  | error e => simp
  | ok x =>
    simp only
    cases hr' : (f x).result <;> simp

theorem W.act_lift {α} (r : Except String α) : (W.lift r).act F = Eff.lift r := by
  funext l; simp [W.act, W.lift, Eff.lift]; cases r <;> rfl

theorem W.act_error {α e} : (W.error e : W α).act F = Eff.error e := by
  funext l; simp [W.act, W.error, Eff.error]

theorem W.act_done {sh p d} (h : Watching F p) : (W.done p d).act F = Eff.done F sh p d := by
  funext l
  unfold W.done Eff.done
  cases hd : d.isSet with
  | false => simp [W.act]
  | true =>
    simp only [if_true, W.act]
    cases hF : F.onFinish p with
    | none => simp [Handlers.called, hF]
    | some f =>
      have := (h p (Below.refl p)).1 f hF l d
      have e : afterFinish sh (f l d) d = d := by
        unfold afterFinish
        rw [this.2.1, this.2.2]
        cases sh.byValue <;> simp [popAll]
      simp [Handlers.called, hF, this.1, answerOf, e]

theorem W.act_elem {α} {p k d} (h : Watching F p) (f : D → W α) : ((W.elem p k d).bind fun _ => f d).act F = (Eff.elem F p k d).bind fun d => (f d).act F := by
  rw [W.act_bind]
  funext l
  unfold W.elem Eff.elem Eff.bind W.act
  cases hF : F.onElement p with
  | none => simp [Handlers.called, hF]
  | some g =>
    have := (h p (Below.refl p)).2 g hF l k d
    simp [Handlers.called, hF, this.1, answerOf, this.2, popAll]

mutual
theorem denoteA_watching : ∀ (j : Json) (sh : Shape) (p : Path), Watching F p → denoteA F sh p j = (denoteT F.fmtDbl sh p j).act F
  | .null, sh, p, h => by simp only [denoteA, denoteT, W.act_lift]
  | .sc x, sh, p, h => by
    cases sh <;> simp only [denoteA, denoteT, W.act_lift, W.act_error]
    split
    · rw [W.act_done h]
    · rw [W.act_error]
  | .arr l, sh, p, h => by
    cases sh <;> simp only [denoteA, denoteT, W.act_lift, W.act_error]
    rw [W.act_bind]
    exact Eff.bind_congr (denElemsA_watching l _ _ p h) fun _ => (W.act_done h).symm
  | .obj fs, sh, p, h => by
    cases sh <;> simp only [denoteA, denoteT, W.act_lift, W.act_error]
    · exact denFieldsA_watching fs _ p _ _ _ h
    · split
      · rw [W.act_error]
      · exact denFieldsA_watching fs _ p _ _ _ h
    · exact denFieldsA_watching fs _ p _ _ _ h
theorem denFieldsA_watching : ∀ (fs : List (String × Json)) (sh : Shape) (p : Path) (slots ents ne), Watching F p →
    denFieldsA F sh p slots ents ne fs = (denFieldsT F.fmtDbl sh p slots ents ne fs).act F
  | [], sh, p, slots, ents, ne, h => by
    cases sh <;> simp only [denFieldsA, denFieldsT, W.act_lift, W.act_error, W.act_bind]
    · exact Eff.bind_congr rfl fun _ => (W.act_done h).symm
    · exact (W.act_done h).symm
  | (k, v) :: fs, sh, p, slots, ents, ne, h => by
    cases sh with
    | value | ignore | array => simp only [denFieldsA, denFieldsT, W.act_error]
    | object kd u ms =>
      simp only [denFieldsA, denFieldsT]
      cases hl : lookup (.str k) 0 ms with
      | none =>
        simp only
        split
        · rw [W.act_error]
        · exact denFieldsA_watching fs _ p _ _ _ h
      | some nm =>
        obtain ⟨n, m⟩ := nm
        simp only
        cases he : embedded m v with
        | none =>
          simp only [W.act_bind]
          exact Eff.bind_congr (denoteA_watching v m _ (h.down _)) fun d => denFieldsA_watching fs _ p _ _ _ h
        | some z =>
          obtain ⟨ty, st, ms', x⟩ := z
          simp only [W.act_bind, W.act_lift]
          exact Eff.bind_congr rfl fun a => Eff.bind_congr (denFieldsA_watching fs _ _ _ _ _ ((h.down _).down _)) fun d =>
            Eff.bind_congr rfl fun d => Eff.bind_congr (W.act_done (h.down _)).symm fun d =>
            Eff.bind_congr rfl fun d => (W.act_done h).symm
    | union ty tm st ms =>
      simp only [denFieldsA, denFieldsT]
      split
      · rw [W.act_error]
      · split
        · rw [W.act_error]
        · cases v with
          | null | arr | obj => simp only [W.act_error]
          | sc x =>
            simp only
            split
            · simp only [W.act_bind, W.act_lift]
              exact Eff.bind_congr rfl fun a => Eff.bind_congr (denFieldsA_watching fs _ _ _ _ _ (h.down _)) fun d =>
                Eff.bind_congr rfl fun d => (W.act_done h).symm
            · rw [W.act_error]
    | map st e =>
      simp only [denFieldsA, denFieldsT]
      cases he : embedded e v with
      | none =>
        simp only
        rw [W.act_bind]
        refine Eff.bind_congr (denoteA_watching v e _ (h.down _)) fun d => ?_
        rw [W.act_elem h (fun d => (W.lift (storeEntry st k d ents)).bind fun ents => denFieldsT F.fmtDbl (.map st e) p [] ents true fs)]
        refine Eff.bind_congr rfl fun d => ?_
        simp only [W.act_bind, W.act_lift]
        exact Eff.bind_congr rfl fun ents => denFieldsA_watching fs _ p _ _ _ h
      | some z =>
        obtain ⟨ty, st', ms', x⟩ := z
        simp only [W.act_bind, W.act_lift]
        refine Eff.bind_congr rfl fun a => Eff.bind_congr (denFieldsA_watching fs _ _ _ _ _ ((h.down _).down _)) fun d =>
          Eff.bind_congr rfl fun d => Eff.bind_congr (W.act_done (h.down _)).symm fun d => ?_
        have := W.act_elem (k := k) (d := d) h (fun d => (W.lift (storeEntry st k d ents)).bind fun ents => .done p (finishMap st ents))
        simp only [W.act_bind, W.act_lift] at this
        rw [this]
        exact Eff.bind_congr rfl fun d => Eff.bind_congr rfl fun ents => (W.act_done h).symm
theorem denElemsA_watching : ∀ (l : List Json) (st : Bool) (e : Shape) (p : Path), Watching F p →
    denElemsA F st e p l = (denElemsT F.fmtDbl st e p l).act F
  | [], st, e, p, h => by simp only [denElemsA, denElemsT, W.act_lift]
  | .null :: l, st, e, p, h => by simp only [denElemsA, denElemsT]; exact denElemsA_watching l st e p h
  | .sc x :: l, st, e, p, h => by
    simp only [denElemsA, denElemsT, W.act_bind]
    refine Eff.bind_congr (denoteA_watching (.sc x) e _ (h.down _)) fun d => ?_
    split
    · cases d.value? <;> simp only [W.act_bind, W.act_lift, W.act_error]
      rw [denElemsA_watching l st e p h]
    · exact denElemsA_watching l st e p h
  | .arr x :: l, st, e, p, h => by
    simp only [denElemsA, denElemsT, W.act_bind]
    refine Eff.bind_congr (denoteA_watching (.arr x) e _ (h.down _)) fun d => ?_
    split
    · cases d.value? <;> simp only [W.act_bind, W.act_lift, W.act_error]
      rw [denElemsA_watching l st e p h]
    · exact denElemsA_watching l st e p h
  | .obj x :: l, st, e, p, h => by
    simp only [denElemsA, denElemsT, W.act_bind]
    refine Eff.bind_congr (denoteA_watching (.obj x) e _ (h.down _)) fun d => ?_
    split
    · cases d.value? <;> simp only [W.act_bind, W.act_lift, W.act_error]
      rw [denElemsA_watching l st e p h]
    · exact denElemsA_watching l st e p h
end

end SJ
