/-
The recursive-descent semantics computes `denoteA`: documents with callbacks that take part.
-/
import Verif.Proofs.Main
import Verif.Proofs.Conform
import Verif.SpecActive

set_option linter.unusedVariables false

namespace SJ

variable {F : Handlers} {R : Shape}

/-! ### What a callback sees -/

mutual
theorem snap_seen {h : Heap} : ∀ (sh : Shape) (p : Path) (d : D), sh.fits d = true → Holds h p d → (snap h p sh).seen sh = d
  | .value ty, p, d, hf, hh => by
    cases d <;> simp only [Shape.fits] at hf <;> simp only [Holds] at hh <;> simp_all [snap, Snap.seen]
  | .ignore, p, d, hf, hh => by
    cases d <;> simp only [Shape.fits] at hf <;> simp only [Holds] at hh <;> simp_all [snap, Snap.seen]
  | .object k u ms, p, d, hf, hh => by
    cases d with
    | unset => simp only [Holds] at hh; simp [snap, Snap.seen, hh]
    | val v =>
      simp only [Shape.fits, Bool.and_eq_true, beq_iff_eq] at hf
      simp only [Holds] at hh
      simp [snap, Snap.seen, hh, hf.1]
    | obj v ds =>
      simp only [Shape.fits, Bool.and_eq_true] at hf
      simp only [Holds] at hh
      have ih := snapMs_seen ms p 0 ds hf.2 hh.2.2
      cases k with
      | auto => simp at hf
      | plain =>
        cases v with
        | some v => simp at hf
        | none => simp [snap, Snap.seen, hh.1, ih]
      | custom =>
        cases v with
        | none => simp at hf
        | some v =>
          have := hh.2.1 v rfl
          simp [snap, Snap.seen, hh.1, ih, this]
    | alt => simp [Shape.fits] at hf
    | done => simp [Shape.fits] at hf
  | .union ty tm st ms, p, d, hf, hh => by
    cases d with
    | unset => simp only [Holds] at hh; simp [snap, Snap.seen, hh]
    | val v =>
      simp only [Shape.fits] at hf
      simp only [Holds] at hh
      cases st
      · simp [hasType] at hf
      · simp [snap, Snap.seen, hh]
    | alt n d =>
      simp only [Shape.fits, Bool.and_eq_true, Bool.not_eq_true'] at hf
      simp only [Holds] at hh
      obtain ⟨hst, hf⟩ := hf
      subst hst
      have := snapMs_seenAlt ms p 0 n d hf (by rw [Nat.zero_add]; exact hh.2.2)
      simp [snap, Snap.seen, hh.1, hh.2.1, this]
    | obj => simp [Shape.fits] at hf
    | done => simp [Shape.fits] at hf
  | .array st e, p, d, hf, hh => by
    cases d with
    | val v =>
      simp only [Shape.fits] at hf
      simp only [Holds] at hh
      cases st
      · simp [hasType] at hf
      · simp [snap, Snap.seen, hh]
    | _ => simp only [Shape.fits] at hf <;> simp only [Holds] at hh <;> simp_all [snap, Snap.seen]
  | .map st e, p, d, hf, hh => by
    cases d with
    | val v =>
      simp only [Shape.fits] at hf
      simp only [Holds] at hh
      cases st
      · simp [hasType] at hf
      · simp [snap, Snap.seen, hh]
    | _ => simp only [Shape.fits] at hf <;> simp only [Holds] at hh <;> simp_all [snap, Snap.seen]
theorem snapMs_seen {h : Heap} : ∀ (ms : List (MInfo × Shape)) (p : Path) (n : Nat) (ds : List D), fitsL ms ds = true →
    HoldsL h p n ds → Snap.seenL ms (snapMs h p n ms) = ds
  | [], p, n, [], hf, hh => by simp [Snap.seenL]
  | [], p, n, d :: ds, hf, hh => by simp [fitsL] at hf
  | x :: ms, p, n, [], hf, hh => by simp [fitsL] at hf
  | (i, sh) :: ms, p, n, d :: ds, hf, hh => by
    simp only [fitsL, Bool.and_eq_true] at hf
    simp only [HoldsL] at hh
    simp only [snapMs, Snap.seenL, snap_seen sh _ d hf.1 hh.1, snapMs_seen ms p (n + 1) ds hf.2 hh.2]
theorem snapMs_seenAlt {h : Heap} : ∀ (ms : List (MInfo × Shape)) (p : Path) (n a : Nat) (d : D), fitsAlt ms a d = true →
    Holds h (.mem (n + a) :: p) d → Snap.seenAlt ms (snapMs h p n ms) a = d
  | [], p, n, a, d, hf, hh => by simp [fitsAlt] at hf
  | (i, sh) :: ms, p, n, 0, d, hf, hh => by
    simp only [fitsAlt] at hf
    simp only [snapMs, Snap.seenAlt]
    exact snap_seen sh _ d hf hh
  | (i, sh) :: ms, p, n, a + 1, d, hf, hh => by
    simp only [fitsAlt] at hf
    simp only [snapMs, Snap.seenAlt]
    exact snapMs_seenAlt ms p (n + 1) a d hf (by rw [show n + 1 + a = n + (a + 1) by omega]; exact hh)
end

/-! ### What a callback pops -/

/-- One pop. -/
def cbPop (sh : Shape) (p rel : Path) (h : Heap) : Heap :=
  match sh.at rel with
  | some sh' =>
    if sh'.isStorage && (h (rel ++ p)).set then h.upd (rel ++ p) fun c => { c with set := false, val := .moved } else h
  | none => h

theorem cbPops_cons (sh p rel ps h) : cbPops sh p (rel :: ps) h = cbPops sh p ps (cbPop sh p rel h) := by
  rw [cbPops]
  unfold cbPop
  cases sh.at rel with
  | none => rfl
  | some sh' => simp only; split <;> rfl

theorem cbPop_frame {sh : Shape} {p rel : Path} {h : Heap} {q} (hq : q ≠ rel ++ p) : cbPop sh p rel h q = h q := by
  unfold cbPop
  cases sh.at rel with
  | none => rfl
  | some sh' =>
    simp only
    split
    · exact upd_other hq
    · rfl

theorem at_outer {sh : Shape} {st : Step} (p : Path) : sh.at (p ++ [st]) = (sh.child st).bind (·.at p) := by
  induction p with
  | nil => simp [Shape.at]
  | cons a p ih =>
    simp only [List.cons_append, Shape.at, ih]
    cases sh.child st <;> simp [Shape.at]

theorem cbPop_step {sh sh' : Shape} {st : Step} (h : sh.child st = some sh') (r : List Step) (p : Path) (H : Heap) :
    cbPop sh p (st :: r).reverse H = cbPop sh' (st :: p) r.reverse H := by
  unfold cbPop
  rw [List.reverse_cons, at_outer, h]
  simp only [Option.bind_some, List.append_assoc, List.singleton_append]

theorem cbPop_none {sh : Shape} {st : Step} (h : sh.child st = none) (r : List Step) (p : Path) (H : Heap) :
    cbPop sh p (st :: r).reverse H = H := by
  unfold cbPop
  rw [List.reverse_cons, at_outer, h]
  rfl

theorem cbPop_at_self {sh : Shape} {st : Step} {r : List Step} {p : Path} {H : Heap} : cbPop sh p (st :: r).reverse H p = H p := by
  refine cbPop_frame fun e => ?_
  have := congrArg List.length e
  simp at this
  omega

theorem fitsL_modify : ∀ {ms : List (MInfo × Shape)} {ds : List D} {n : Nat} {f : D → D}, fitsL ms ds = true →
    (∀ i sh d, ms[n]? = some (i, sh) → sh.fits d = true → sh.fits (f d) = true) → fitsL ms (ds.modify n f) = true
  | [], [], n, f, h, hf => by simpa using h
  | [], d :: ds, n, f, h, hf => by simp [fitsL] at h
  | x :: ms, [], n, f, h, hf => by simp [fitsL] at h
  | (i, sh) :: ms, d :: ds, 0, f, h, hf => by
    simp only [fitsL, Bool.and_eq_true] at h
    simp only [List.modify_zero_cons, fitsL, Bool.and_eq_true]
    exact ⟨hf i sh d rfl h.1, h.2⟩
  | (i, sh) :: ms, d :: ds, n + 1, f, h, hf => by
    simp only [fitsL, Bool.and_eq_true] at h
    simp only [List.modify_succ_cons, fitsL, Bool.and_eq_true]
    exact ⟨h.1, fitsL_modify h.2 (fun i sh d hm => hf i sh d (by simpa using hm))⟩

theorem popAt_fits : ∀ (r : List Step) {sh : Shape} {d : D}, sh.fits d = true → sh.fits (popAt r d) = true
  | [], sh, d, h => by
    cases d with
    | obj v ds =>
      cases v with
      | none => exact h
      | some v => exact fits_unset _
    | val v => exact fits_unset _
    | _ => exact h
  | .mem n :: r, sh, d, h => by
    cases d with
    | obj v ds =>
      cases sh with
      | object k u ms =>
        simp only [popAt, Shape.fits, Bool.and_eq_true] at h ⊢
        exact ⟨h.1, fitsL_modify h.2 fun i sh d _ hd => popAt_fits r hd⟩
      | _ => simp [Shape.fits] at h
    | alt m d =>
      simp only [popAt]
      split
      · cases sh with
        | union ty tm st ms =>
          simp only [Shape.fits, Bool.and_eq_true] at h ⊢
          refine ⟨h.1, ?_⟩
          cases hm : ms[m]? with
          | none =>
            exfalso
            have : ∀ (ms : List (MInfo × Shape)) m, ms[m]? = none → fitsAlt ms m d = false := by
              intro ms
              induction ms with
              | nil => intro m _; rfl
              | cons x ms ih =>
                intro m hm
                cases m with
                | zero => simp at hm
                | succ m => simp only [fitsAlt]; exact ih m (by simpa using hm)
            rw [this ms m hm] at h
            simp at h
          | some x =>
            obtain ⟨i, sh⟩ := x
            rw [fitsAlt_get hm] at h ⊢
            exact popAt_fits r h.2
        | _ => simp [Shape.fits] at h
      · exact h
    | _ => exact h
  | .ign :: r, sh, d, h => by cases d <;> exact h
  | .elem :: r, sh, d, h => by cases d <;> exact h

theorem popAt_holds : ∀ (r : List Step) {sh : Shape} {p : Path} {h : Heap} {d : D}, sh.fits d = true → Holds h p d →
    Holds (cbPop sh p r.reverse h) p (popAt r d)
  | [], sh, p, h, d, hf, hh => by
    simp only [List.reverse_nil]
    unfold cbPop
    simp only [Shape.at, List.nil_append]
    cases d with
    | unset =>
      have hs : (h p).set = false := hh
      simp only [hs, Bool.and_false, Bool.false_eq_true, if_false, popAt]
      exact hh
    | val v =>
      have hst : sh.isStorage = true := by
        cases sh with
        | object k u ms => simp only [Shape.fits, Bool.and_eq_true, beq_iff_eq] at hf; simp [Shape.isStorage, hf.1]
        | union ty tm st ms => cases st <;> simp [Shape.fits, hasType] at hf <;> rfl
        | array st e => cases st <;> simp [Shape.fits, hasType] at hf <;> rfl
        | map st e => cases st <;> simp [Shape.fits, hasType] at hf <;> rfl
        | value ty => rfl
        | ignore => simp [Shape.fits] at hf
      rw [hst, show (h p).set = true from hh.1]
      simp [popAt, Holds]
    | obj v ds =>
      cases sh with
      | object k u ms =>
        simp only [Shape.fits, Bool.and_eq_true] at hf
        cases v with
        | some v =>
          have hk : k = .custom := by cases k <;> simp at hf ⊢
          subst hk
          rw [show (h p).set = true from hh.1]
          simp [popAt, Holds, Shape.isStorage]
        | none =>
          have hk : k = .plain := by cases k <;> simp at hf ⊢
          subst hk
          simpa [popAt, Shape.isStorage] using hh
      | _ => simp [Shape.fits] at hf
    | alt n d =>
      cases sh with
      | union ty tm st ms =>
        simp only [Shape.fits, Bool.and_eq_true, Bool.not_eq_true'] at hf
        simpa [popAt, Shape.isStorage, hf.1] using hh
      | _ => simp [Shape.fits] at hf
    | done =>
      have hst : sh.isStorage = false := by
        cases sh <;> simp_all [Shape.fits, Shape.isStorage]
      simpa [popAt, hst] using hh
  | st :: r, sh, p, h, d, hf, hh => by
    have hp : cbPop sh p (st :: r).reverse h p = h p := cbPop_at_self
    cases d with
    | unset =>
      have e : popAt (st :: r) .unset = .unset := by cases st <;> rfl
      rw [e]
      simp only [Holds, hp]
      exact hh
    | val v =>
      have e : popAt (st :: r) (.val v) = .val v := by cases st <;> rfl
      rw [e]
      simp only [Holds, hp]
      exact hh
    | done =>
      have e : popAt (st :: r) .done = .done := by cases st <;> rfl
      rw [e]
      simp only [Holds, hp]
      exact hh
    | obj v ds =>
      cases sh with
      | object k u ms =>
        simp only [Shape.fits, Bool.and_eq_true] at hf
        cases st with
        | elem =>
          rw [cbPop_none (by simp [Shape.child])]
          exact hh
        | ign =>
          have : cbPop (.object k u ms) p (.ign :: r).reverse h = h := by
            rw [cbPop_step (sh' := .ignore) (by simp [Shape.child])]
            cases r with
            | nil => simp [cbPop, Shape.at, Shape.isStorage]
            | cons b r => exact cbPop_none (by simp [Shape.child]) _ _ _
          rw [this]
          exact hh
        | mem n =>
          simp only [popAt]
          cases hm : ms[n]? with
          | none =>
            rw [cbPop_none (by simp [Shape.child, hm])]
            have hlen : ds.length ≤ n := by
              rw [fitsL_length hf.2]; simpa using hm
            have : ds.modify n (popAt r) = ds := by
              rw [List.modify_eq_self hlen]
            rw [this]
            exact hh
          | some x =>
            obtain ⟨i, m⟩ := x
            rw [cbPop_step (sh' := m) (by simp [Shape.child, hm])]
            rw [cbPop_step (sh' := m) (by simp [Shape.child, hm])] at hp
            simp only [Holds] at hh ⊢
            rw [hp]
            refine ⟨hh.1, hh.2.1, ?_⟩
            apply HoldsL.intro
            intro k' d' hd'
            rw [Nat.zero_add]
            rw [List.getElem?_modify] at hd'
            cases hk : ds[k']? with
            | none => rw [hk] at hd'; simp at hd'
            | some d0 =>
              rw [hk] at hd'
              have h0 := hh.2.2.get hk
              rw [Nat.zero_add] at h0
              by_cases e : n = k'
              · subst e
                simp at hd'
                subst hd'
                exact popAt_holds r (fitsL_get hf.2 hm hk) h0
              · simp [e] at hd'
                subst hd'
                refine Holds.congr d0 _ (fun q hq => cbPop_frame ?_) h0
                rintro rfl
                exact below_disjoint (st := .mem k') (st' := .mem n) (by simp; omega) hq ⟨_, rfl⟩
      | _ => simp [Shape.fits] at hf
    | alt m d =>
      cases sh with
      | union ty tm st' ms =>
        simp only [Shape.fits, Bool.and_eq_true] at hf
        simp only [Holds] at hh
        have other : ∀ b, popAt (b :: r) (.alt m d) = .alt m d → b ≠ .mem m → st = b → Holds (cbPop (.union ty tm st' ms) p (st :: r).reverse h) p (popAt (st :: r) (.alt m d)) := by
          rintro b e hb rfl
          rw [e]
          simp only [Holds, hp]
          refine ⟨hh.1, hh.2.1, Holds.congr d _ (fun q hq => cbPop_frame ?_) hh.2.2⟩
          rintro rfl
          refine below_disjoint (st := .mem m) (st' := st) (fun e => hb e.symm) hq ?_
          exact ⟨r.reverse, by simp⟩
        cases st with
        | elem => exact other _ rfl (by simp) rfl
        | ign => exact other _ rfl (by simp) rfl
        | mem n =>
          by_cases e : n = m
          · subst e
            simp only [popAt, if_true]
            cases hm : ms[n]? with
            | none =>
              rw [cbPop_none (by simp [Shape.child, hm])]
              exfalso
              have : ∀ (ms : List (MInfo × Shape)) m, ms[m]? = none → fitsAlt ms m d = false := by
                intro ms
                induction ms with
                | nil => intro m _; rfl
                | cons x ms ih =>
                  intro m hm
                  cases m with
                  | zero => simp at hm
                  | succ m => simp only [fitsAlt]; exact ih m (by simpa using hm)
              rw [this ms n hm] at hf
              simp at hf
            | some x =>
              obtain ⟨i, a⟩ := x
              rw [fitsAlt_get hm] at hf
              simp only [Holds]
              rw [hp]
              rw [cbPop_step (sh' := a) (by simp [Shape.child, hm])]
              exact ⟨hh.1, hh.2.1, popAt_holds r hf.2 hh.2.2⟩
          · exact other _ (by simp [popAt, e]) (by simpa using e) rfl
      | _ => simp [Shape.fits] at hf

theorem popAll_holds : ∀ (ps : List Path) {sh : Shape} {p : Path} {h : Heap} {d : D}, sh.fits d = true → Holds h p d →
    Holds (cbPops sh p ps h) p (popAll ps d) ∧ sh.fits (popAll ps d) = true
  | [], sh, p, h, d, hf, hh => ⟨hh, hf⟩
  | r :: ps, sh, p, h, d, hf, hh => by
    rw [cbPops_cons]
    have h1 := popAt_holds r.reverse hf hh
    rw [List.reverse_reverse] at h1
    exact popAll_holds ps (popAt_fits r.reverse hf) h1

theorem assign_holds {h : Heap} {p : Path} {d : D} {v : Val} {u ms} (hf : (Shape.object .custom u ms).fits d = true) (hh : Holds h p d) :
    Holds (h.upd p fun c => { c with val := v }) p (d.assign v) ∧ (Shape.object .custom u ms).fits (d.assign v) = true := by
  cases d with
  | unset => exact ⟨by simpa [D.assign, Holds] using hh, hf⟩
  | obj w ds =>
    cases w with
    | none => simp [Shape.fits] at hf
    | some w =>
      simp only [Holds] at hh
      refine ⟨?_, by simpa [D.assign, Shape.fits] using hf⟩
      simp only [D.assign, Holds, upd_same]
      exact ⟨hh.1, fun x hx => by injection hx, HoldsL.congr ds p 0 (fun q _ hn => upd_other hn) hh.2.2⟩
  | _ => simp [Shape.fits] at hf

/-! ### Meeting a specification -/

/-- `a` is what `m`, started with log `l`, does; on success `Q` holds. -/
def MeetsA {α} (R : Shape) (a : Eff α) (l : Log) (Q : α → St → Prop) (m : Res Unit) : Prop :=
  match a (seenLog R l) with
  | (l', .ok x) => ∃ s', m = .ok () s' ∧ Q x s' ∧ seenLog R s'.log = l'
  | (l', .error e) => ∃ s', m = .throw e s' ∧ seenLog R s'.log = l'

/-- The parser `sh` at `p` holds the result. -/
abbrev AtA (sh : Shape) (p : Path) : D → St → Prop := fun d s' => Holds s'.heap p d ∧ sh.fits d = true

theorem MeetsA.bind {α β} {a : Eff α} {f : α → Eff β} {Q : α → St → Prop} {Q' : β → St → Prop} {m : M Unit} {k : Unit → M Unit}
    {s : St} {l} (hm : MeetsA R a l Q (m s))
    (hk : ∀ x s', m s = .ok () s' → Q x s' → MeetsA R (f x) s'.log Q' (k () s')) :
    MeetsA R (a.bind f) l Q' (M.bind m k s) := by
  unfold MeetsA at hm ⊢
  unfold Eff.bind
  cases hr : a (seenLog R l) with
  | mk l' r =>
    rw [hr] at hm
    cases r with
    | error e =>
      obtain ⟨s', h, hl⟩ := hm
      exact ⟨s', by unfold M.bind; rw [h], hl⟩
    | ok x =>
      obtain ⟨s', h, hq, hl⟩ := hm
      have := hk x s' h hq
      unfold MeetsA at this
      rw [hl] at this
      rw [bind_ok h]
      exact this

theorem MeetsA.error {α Q e} {s : St} {l} (hl : s.log = l) : MeetsA R (Eff.error e : Eff α) l Q (throwStd e s) := by
  subst hl; exact ⟨s, rfl, rfl⟩

theorem MeetsA.ok {α} {Q : α → St → Prop} {x l} {m : Res Unit} {s'} (h : m = .ok () s') (hq : Q x s') (hl : s'.log = l) :
    MeetsA R (Eff.lift (.ok x)) l Q m := by
  subst hl; exact ⟨s', h, hq, rfl⟩

theorem MeetsA.throw {α β} {Q : β → St → Prop} {e l} {f : α → Eff β} {m : Res Unit} {s'} (h : m = .throw (.std e) s') (hl : s'.log = l) :
    MeetsA R ((Eff.lift (.error e)).bind f) l Q m := by
  subst hl; exact ⟨s', h, rfl⟩

@[simp] theorem Eff.lift_ok {α β} (a : α) (f : α → Eff β) : (Eff.lift (.ok a)).bind f = f a := rfl

theorem Eff.bind_assoc {α β γ} (w : Eff α) (f : α → Eff β) (g : β → Eff γ) :
    (w.bind f).bind g = w.bind fun a => (f a).bind g := by
  funext l
  unfold Eff.bind
  cases w l with
  | mk l' r => cases r <;> rfl

theorem place_eq {p sh} (h : R.at p = some sh) : R.place p = sh := by simp [Shape.place, h]

/-! ### Callbacks -/

theorem meetsA_cb {α} {Q : α → St → Prop} {x : α} {v : Verdict} {what : String} {s s' : St} {ev : Ev} {l : Log}
    (hl : seenLog R s'.log = ev :: seenLog R l) (hq : Q x s') {a : Eff α}
    (ha : a (seenLog R l) = (ev :: seenLog R l, answerOf v what x)) :
    MeetsA R a l Q (verdict v what s') := by
  unfold MeetsA
  rw [ha]
  cases v with
  | accept => exact ⟨s', rfl, hq, hl⟩
  | reject => exact ⟨s', rfl, hl⟩
  | throws e => exact ⟨s', rfl, hl⟩

theorem done_value {sh : Shape} {p : Path} {v : Val} {s : St} (hR : R.at p = some sh) (hb : sh.byValue = true) (hf : sh.fits (.val v) = true)
    (hh : Holds s.heap p (.val v)) {l} (hl : s.log = l) :
    MeetsA R (Eff.done F sh p (.val v)) l (AtA sh p) (finishCbVal (F.env R) p s) := by
  subst hl
  unfold finishCbVal
  cases hF : F.onFinish p with
  | none =>
    simp only [Handlers.env, hF, Option.map_none]
    unfold MeetsA
    simp only [Eff.done, hF, D.isSet, if_true]
    exact ⟨s, rfl, ⟨hh, hf⟩, rfl⟩
  | some f =>
    simp only [Handlers.env, hF, Option.map_some]
    have hv : (s.heap p).val = v := hh.2
    rw [hv]
    refine meetsA_cb (s := s) (x := .val v) (ev := .finish p (.val v)) ?_ ⟨hh, hf⟩ ?_
    · simp [seenLog, Call.seen, Arg.seen]
    · simp [Eff.done, hF, D.isSet, afterFinish, hb, Arg.seen]

theorem done_parser {sh : Shape} {p : Path} {d : D} {s : St} {c : Bool} (hR : R.at p = some sh) (hb : sh.byValue = false) (hf : sh.fits d = true)
    (hh : Holds s.heap p d) (hset : d.isSet = true) (hc : c = true ↔ ∃ u ms, sh = .object .custom u ms) {l} (hl : s.log = l) :
    MeetsA R (Eff.done F sh p d) l (AtA sh p) (finishCbParser (F.env R) sh c p s) := by
  subst hl
  unfold finishCbParser
  cases hF : F.onFinish p with
  | none =>
    simp only [Handlers.env, hF, Option.map_none]
    unfold MeetsA
    simp only [Eff.done, hF, hset, if_true]
    exact ⟨s, rfl, ⟨hh, hf⟩, rfl⟩
  | some f =>
    simp only [Handlers.env, hF, Option.map_some]
    have hs : Arg.seen (R.place p) (.parser (snap s.heap p sh)) = d := by
      rw [place_eq hR]; exact snap_seen sh p d hf hh
    simp only [hs]
    have hp := popAll_holds (f (seenLog R s.log) d).pops hf hh
    refine meetsA_cb (s := s) (x := afterFinish sh (f (seenLog R s.log) d) d) (ev := .finish p d) ?_ ?_ ?_
    · simp [seenLog, Call.seen, hs]
    · unfold afterFinish
      simp only [hb, Bool.false_eq_true, if_false]
      cases hn : (f (seenLog R s.log) d).newVal with
      | none =>
        simp only
        exact hp
      | some v =>
        cases hcc : c with
        | true =>
          obtain ⟨u, ms, rfl⟩ := hc.1 hcc
          exact assign_holds hp.2 hp.1
        | false =>
          have hno : ∀ u ms, sh ≠ .object .custom u ms := fun u ms e => by
            have := hc.2 ⟨u, ms, e⟩
            rw [hcc] at this
            simp at this
          simp only
          split
          · rename_i h1 h2
            exact absurd rfl (hno _ _)
          · exact hp
    · simp [Eff.done, hF, hset]

/-! ### Completion of each kind of parser -/

theorem completeA_object {p k u ms slots ne} {s : St} (hR : R.at p = some (.object k u ms)) (he : (s.heap p).empty = !ne)
    (hw : (Shape.object k u ms).wf = true)
    (hh : HoldsL s.heap p 0 slots) (hs : fitsL ms slots = true)
    (hv : k = .custom → (s.heap p).val = .init) :
    MeetsA R ((Eff.lift (finishObject k ms slots ne)).bind (.done F (.object k u ms) p)) s.log (AtA (.object k u ms) p)
      (complete (F.env R) (.object k u ms) p s) := by
  rw [complete_unfold]
  have hfit : ∀ d, finishObject k ms slots ne = .ok d → (Shape.object k u ms).fits d = true := fun d h => finishObject_fits hw hs h
  have hh' : HoldsL (s.heap.upd p fun c => { c with set := true }) p 0 slots :=
    HoldsL.congr slots p 0 (fun q _ hn => upd_other hn) hh
  have he' : (s.heap.upd p (fun c => { c with set := true }) p).empty = !ne := by simpa using he
  have hsp : (s.heap.upd p (fun c => { c with set := true }) p).set = true := by simp
  have hv' : k = .custom → (s.heap.upd p (fun c => { c with set := true }) p).val = .init := by simpa using hv
  generalize s.heap.upd p (fun c => { c with set := true }) = h1 at *
  cases ne with
  | false =>
    have : finish (F.env R) (.object k u ms) p { s with heap := h1 } =
        .ok () { s with heap := h1.upd p fun c => { c with set := false } } := by
      cases k <;> simp only [finish] <;> exact unlessEmpty_true he'
    rw [this]
    simp only [finishObject, Bool.not_false, if_true, Eff.lift_ok]
    unfold MeetsA
    simp only [Eff.done, D.isSet, Bool.false_eq_true, if_false]
    exact ⟨_, rfl, ⟨by simp [Holds], fits_unset _⟩, rfl⟩
  | true =>
    have plain : k ≠ .auto → MeetsA R ((Eff.lift (finishObject k ms slots true)).bind (.done F (.object k u ms) p)) s.log (AtA (.object k u ms) p)
        (finish (F.env R) (.object k u ms) p { s with heap := h1 }) := by
      intro hk
      have hfin : finish (F.env R) (.object k u ms) p { s with heap := h1 } =
          M.bind (unsetOnThrow p fun s => match checkMembers s.heap p 0 ms with
            | some e => .throw (.std e) s
            | none => .ok () s) (fun _ => finishCbParser (F.env R) (.object k u ms) (k == .custom) p) { s with heap := h1 } := by
        cases k with
        | auto => exact absurd rfl hk
        | plain => simp only [finish]; rw [unlessEmpty_false he']; rfl
        | custom => simp only [finish]; rw [unlessEmpty_false he']; rfl
      have hfo : finishObject k ms slots true = (match (missing ms slots).getLast? with
        | some i => .error ("Mandatory member " ++ showName (fun _ => "") i.name ++ " is not present")
        | none => .ok (.obj (if k = .custom then some .init else none) slots)) := by
        cases k with
        | auto => exact absurd rfl hk
        | plain => rfl
        | custom => rfl
      rw [hfo] at hfit
      rw [hfin, hfo]
      have hck := checkMembers_spec ms 0 slots (fitsL_length hs) hh'
      cases hg : (missing ms slots).getLast? with
      | some i =>
        rw [hg] at hck; simp only [Option.map_some] at hck
        exact .throw (s' := { s with heap := h1.upd p fun c => { c with set := false } })
          (by unfold M.bind unsetOnThrow; simp only [hck]) rfl
      | none =>
        rw [hg] at hck; simp only [Option.map_none] at hck
        have : unsetOnThrow p (fun s => match checkMembers s.heap p 0 ms with
            | some e => .throw (.std e) s
            | none => .ok () s) { s with heap := h1 } = .ok () { s with heap := h1 } := by
          unfold unsetOnThrow; simp only [hck]
        rw [bind_ok this]
        rw [hg] at hfit
        have hhold : Holds h1 p (.obj (if k = .custom then some .init else none) slots) := by
          simp only [Holds]
          refine ⟨hsp, ?_, hh'⟩
          intro w hw
          by_cases hc : k = .custom
          · rw [if_pos hc] at hw; injection hw with hw; rw [← hw]; exact hv' hc
          · rw [if_neg hc] at hw; simp at hw
        simp only [Eff.lift_ok]
        exact done_parser (s := { s with heap := h1 }) hR (by cases k <;> simp_all [Shape.byValue]) (hfit _ rfl) hhold rfl
          ⟨fun h => ⟨u, ms, by rw [beq_iff_eq] at h; rw [h]⟩, fun ⟨u', ms', h⟩ => by injection h with h; simp [h]⟩ rfl
    cases k with
    | plain => exact plain (by simp)
    | custom => exact plain (by simp)
    | auto =>
      simp only [finishObject, Bool.not_true, Bool.false_eq_true, if_false] at hfit
      simp only [finish, finishObject, Bool.not_true, Bool.false_eq_true, if_false]
      rw [unlessEmpty_false he']
      have hsv := setValues_spec ms 0 slots { s with heap := h1 } (fitsL_length hs) hh' (fun m i sh d h1 h2 h3 => by
        obtain ⟨v, hv⟩ := fits_store (fitsL_get hs h1 h2) ((wfMs_mem (wf_object hw) h1).2.2 rfl) h3
        simp [hv])
      cases hg : (unfillable ms slots).getLast? with
      | some i =>
        rw [hg] at hsv
        obtain ⟨s', h, hlog⟩ := hsv
        refine .throw (s' := { s' with heap := s'.heap.upd p fun c => { c with set := false } }) ?_ hlog
        unfold M.bind wrapOnThrow
        rw [h]
        simp only [autoErr]
      | none =>
        rw [hg] at hsv hfit
        obtain ⟨s', h, hlog, hp, _, _⟩ := hsv
        have : wrapOnThrow p (setValues p 0 ms) { s with heap := h1 } = .ok (tupVals ms slots) s' := by
          unfold wrapOnThrow; rw [h]
        rw [bind_ok this, bind_modC]
        simp only [Eff.lift_ok]
        refine done_value (s := { s' with heap := _ }) hR rfl (hfit _ rfl) ?_ hlog
        simp only [Holds, upd_same, hp, hsp, tupVals, true_and]

theorem completeA_union_empty {p ty tm st ms} {s : St} (he : (s.heap p).empty = true) :
    MeetsA R (Eff.lift (.ok .unset)) s.log (AtA (.union ty tm st ms) p) (complete (F.env R) (.union ty tm st ms) p s) := by
  rw [complete_unfold]
  have : finish (F.env R) (.union ty tm st ms) p { s with heap := s.heap.upd p fun c => { c with set := true } } =
      .ok () { s with heap := (s.heap.upd p fun c => { c with set := true }).upd p fun c => { c with set := false } } := by
    cases st <;> simp only [finish] <;> exact unlessEmpty_true (by simpa using he)
  rw [this]
  exact .ok rfl ⟨by simp [Holds], fits_unset _⟩ rfl

theorem completeA_union {p ty tm st ms a i ash d} {s : St} (hR : R.at p = some (.union ty tm st ms)) (he : (s.heap p).empty = false)
    (hw : (Shape.union ty tm st ms).wf = true)
    (hc : (s.heap p).curId = a) (hm : ms[a]? = some (i, ash)) (hh : Holds s.heap (.mem a :: p) d)
    (hs : ash.fits d = true) :
    MeetsA R ((Eff.lift (finishUnion st ms a d)).bind (.done F (.union ty tm st ms) p)) s.log (AtA (.union ty tm st ms) p)
      (complete (F.env R) (.union ty tm st ms) p s) := by
  rw [complete_unfold]
  have hfit : ∀ d', finishUnion st ms a d = .ok d' → (Shape.union ty tm st ms).fits d' = true :=
    fun d h => finishUnion_fits hw hm hs h
  have hh' : Holds (s.heap.upd p fun c => { c with set := true }) (.mem a :: p) d :=
    Holds.congr d _ (fun q hq => upd_other (ne_of_below_step hq)) hh
  have he' : (s.heap.upd p (fun c => { c with set := true }) p).empty = false := by simpa using he
  have hsp : (s.heap.upd p (fun c => { c with set := true }) p).set = true := by simp
  have hc' : (s.heap.upd p (fun c => { c with set := true }) p).curId = a := by simpa using hc
  generalize s.heap.upd p (fun c => { c with set := true }) = h1 at *
  cases st with
  | false =>
    simp only [finishUnion, hm, Bool.not_false, if_true] at hfit
    simp only [finish, finishUnion, hm, Bool.not_false, if_true]
    rw [unlessEmpty_false he']
    have hca := checkAlt_spec (p := p) ms 0 { s with heap := h1 } hsp hc'
    rw [if_pos (Nat.zero_le _), Nat.sub_zero, hm] at hca
    simp only [hh'.set] at hca
    split
    · rename_i hcond
      rw [if_pos hcond] at hca
      exact .throw (s' := { s with heap := h1.upd p fun c => { c with set := false } }) (by unfold M.bind unsetOnThrow; rw [hca]) rfl
    · rename_i hcond
      rw [if_neg hcond] at hca hfit
      have : unsetOnThrow p (checkAlt p 0 ms) { s with heap := h1 } = .ok () { s with heap := h1 } := by
        unfold unsetOnThrow; rw [hca]
      rw [bind_ok this]
      have hhold : Holds h1 p (.alt a d) := by simp only [Holds]; exact ⟨hsp, hc', hh'⟩
      simp only [Eff.lift_ok]
      exact done_parser (s := { s with heap := h1 }) hR rfl (hfit _ rfl) hhold rfl (by simp) rfl
  | true =>
    simp only [finishUnion, hm, Bool.not_true, Bool.false_eq_true, if_false] at hfit
    simp only [finish, finishUnion, hm, Bool.not_true, Bool.false_eq_true, if_false]
    rw [unlessEmpty_false he']
    have hca := setAlt_spec (p := p) ms 0 { s with heap := h1 } hsp hc'
    rw [if_pos (Nat.zero_le _), Nat.sub_zero, hm] at hca
    simp only at hca
    have fin : ∀ (v : Val) (s' : St), (Shape.union ty tm true ms).fits (.val (.alt a v)) = true →
        altRes p a i { s with heap := h1 } = .ok (some (.alt a v)) s' → s'.log = s.log →
        MeetsA R ((Eff.lift (.ok (.val (.alt a v)))).bind (.done F (.union ty tm true ms) p)) s.log (AtA (.union ty tm true ms) p)
          (M.bind (wrapOnThrow p (setAlt p 0 ms)) (fun r =>
          M.bind (match r with
            | some v => modC p fun c => { c with val := v }
            | none => M.pure ()) fun _ => finishCbVal (F.env R) p) { s with heap := h1 }) := by
      intro v s' hft h hlog
      have hp := altRes_p h
      have : wrapOnThrow p (setAlt p 0 ms) { s with heap := h1 } = .ok (some (.alt a v)) s' := by
        unfold wrapOnThrow; rw [hca, h]
      rw [bind_ok this]
      simp only [bind_modC]
      simp only [Eff.lift_ok]
      refine done_value (s := { s' with heap := _ }) hR rfl hft ?_ hlog
      simp only [Holds, upd_same, hp, hsp, true_and]
    have err : ∀ (m : String), cText m = m → altRes p a i { s with heap := h1 } = .throw (.std m) { s with heap := h1 } →
        MeetsA R ((Eff.lift (.error ("Can not set value: " ++ m))).bind (.done F (.union ty tm true ms) p)) s.log (AtA (.union ty tm true ms) p)
          (M.bind (wrapOnThrow p (setAlt p 0 ms)) (fun r =>
          M.bind (match r with
            | some v => modC p fun c => { c with val := v }
            | none => M.pure ()) fun _ => finishCbVal (F.env R) p) { s with heap := h1 }) := by
      intro m hm h
      exact .throw (s' := { s with heap := h1.upd p fun c => { c with set := false } }) (by unfold M.bind wrapOnThrow; rw [hca, h]; simp only [hm]) rfl
    cases hd : d.isSet with
    | true =>
      obtain ⟨v, hv⟩ := fits_store hs ((wfMs_mem (wf_union hw) hm).2.2 rfl) hd
      have hval := hh'.value hv
      rw [hv] at hfit ⊢
      refine fin v { s with heap := h1.upd (.mem a :: p) fun c => { c with set := false, val := .moved } } (hfit _ rfl) ?_ rfl
      unfold altRes
      rw [bind_getC, if_pos hval.1]
      have hpop : popVal (.mem a :: p) { s with heap := h1 } = .ok v
          { s with heap := h1.upd (.mem a :: p) fun c => { c with set := false, val := .moved } } := by
        unfold popVal; rw [if_pos hval.1, hval.2]
      rw [bind_ok hpop]; rfl
    | false =>
      have hvn : d.value? = none := by cases d <;> simp [D.isSet] at hd; rfl
      have hset := hh'.set
      rw [hd] at hset
      rw [hvn] at hfit ⊢
      cases ho : i.optional with
      | false =>
        simp only [Bool.false_eq_true, if_false]
        refine err _ (cText_mandatoryAlt _) ?_
        unfold altRes; rw [bind_getC, if_neg (by simp [hset]), if_neg (by simp [ho])]; rfl
      | true =>
        cases hdf : i.dflt with
        | none =>
          simp only [if_true]
          refine err _ (cText_noDefaultAlt _) ?_
          unfold altRes; rw [bind_getC, if_neg (by simp [hset]), if_pos ho, hdf]; rfl
        | some v =>
          rw [ho, hdf] at hfit
          simp only [if_true] at hfit ⊢
          refine fin v { s with heap := h1 } (hfit _ rfl) ?_ rfl
          unfold altRes; rw [bind_getC, if_neg (by simp [hset]), if_pos ho, hdf]; rfl

theorem completeA_value {p ty x} {s : St} (hR : R.at p = some (.value ty)) (hx : x.ty = ty) (hv : (s.heap p).val = .sc x) :
    MeetsA R (Eff.done F (.value ty) p (.val (.sc x))) s.log (AtA (.value ty) p) (complete (F.env R) (.value ty) p s) := by
  rw [complete_unfold]
  simp only [finish]
  exact done_value (s := { s with heap := _ }) hR rfl (by simp [Shape.fits, hasType, hx]) (by simp [Holds, hv]) rfl

theorem completeA_array {p st e vs} {s : St} (hR : R.at p = some (.array st e)) (hv : st = true → (s.heap p).val = .arr vs)
    (ht : st = true → vs.all (hasType e) = true) :
    MeetsA R (Eff.done F (.array st e) p (if st then .val (.arr vs) else .done)) s.log (AtA (.array st e) p) (complete (F.env R) (.array st e) p s) := by
  rw [complete_unfold]
  cases st with
  | true =>
    simp only [finish, if_true]
    exact done_value (s := { s with heap := _ }) hR rfl (by simp only [Shape.fits, hasType, Bool.true_and]; exact ht rfl) (by simp [Holds, hv]) rfl
  | false =>
    simp only [finish, Bool.false_eq_true, if_false]
    exact done_parser (s := { s with heap := _ }) hR rfl (by simp [Shape.fits]) (by simp [Holds]) rfl (by simp) rfl

theorem completeA_map {p st e ents} {s : St} (hR : R.at p = some (.map st e)) (hv : st = true → (s.heap p).val = .map ents)
    (ht : st = true → (ents.all fun kv => hasType e kv.2) = true) :
    MeetsA R (Eff.done F (.map st e) p (finishMap st ents)) s.log (AtA (.map st e) p) (complete (F.env R) (.map st e) p s) := by
  rw [complete_unfold]
  simp only [finish]
  have hh : Holds (s.heap.upd p fun c => { c with set := true }) p (finishMap st ents) := by
    cases st <;> simp [finishMap, Holds, hv]
  exact done_parser (s := { s with heap := _ }) hR rfl (finishMap_fits ht) hh (by cases st <;> rfl) (by simp) rfl

/-- What a map does with a complete element. -/
theorem mapChildA {st e p d ents k} {s : St} (hR : R.at p = some (.map st e)) (hd : Holds s.heap (.elem :: p) d) (hs : e.fits d = true)
    (hst : st = true → e.isStorage = true) (hk : (s.heap p).curKey = k)
    (hacc : st = true → (s.heap p).val = .map ents) (ht : st = true → (ents.all fun kv => hasType e kv.2) = true) :
    MeetsA R ((Eff.elem F p k d).bind fun d => Eff.lift (storeEntry st k d ents)) s.log
      (fun ents' s' => (st = true → (s'.heap p).val = .map ents') ∧ (st = true → (ents'.all fun kv => hasType e kv.2) = true)) (mapChild (F.env R) st e p s) := by
  have hcb : MeetsA R (Eff.elem F p k d) s.log (fun d' s' => Holds s'.heap (.elem :: p) d' ∧ e.fits d' = true ∧ s'.heap p = s.heap p)
      (elementCb (F.env R) e p s) := by
    unfold elementCb
    cases hF : F.onElement p with
    | none =>
      simp only [Handlers.env, hF, Option.map_none]
      unfold MeetsA
      simp only [Eff.elem, hF]
      exact ⟨s, rfl, ⟨hd, hs, rfl⟩, rfl⟩
    | some f =>
      simp only [Handlers.env, hF, Option.map_some]
      have hsn : Snap.seen (R.place (.elem :: p)) (snap s.heap (.elem :: p) e) = d := by
        rw [place_eq (at_elem_map hR)]; exact snap_seen e _ d hs hd
      simp only [hsn, hk]
      have hp := popAll_holds (f (seenLog R s.log) k d).pops hs hd
      refine meetsA_cb (s := s) (x := popAll (f (seenLog R s.log) k d).pops d) (ev := .element p k d) (what := "Element callback returned false") ?_ ⟨hp.1, hp.2, ?_⟩ ?_
      · simp [seenLog, Call.seen, hsn]
      · simp [Eff.elem, hF]
      · exact (cbPops_quiet e (.elem :: p) _ _).frame p below_self_cons
  cases st with
  | false =>
    unfold mapChild
    rw [if_neg (by simp)]
    have := MeetsA.bind (f := fun d => Eff.lift (storeEntry false k d ents)) (Q' := fun ents' s' => (false = true → (s'.heap p).val = .map ents') ∧ (false = true → (ents'.all fun kv => hasType e kv.2) = true))
      (k := fun _ => M.pure ()) hcb fun d' s' _ _ => ?_
    · have e1 : M.bind (elementCb (F.env R) e p) (fun _ => M.pure ()) s = elementCb (F.env R) e p s := by
        unfold M.bind M.pure
        cases elementCb (F.env R) e p s <;> rfl
      rw [e1] at this
      exact this
    · exact .ok (x := ents) rfl ⟨by simp, by simp⟩ rfl
  | true =>
    unfold mapChild
    rw [if_pos rfl]
    refine MeetsA.bind hcb fun d' s' _ hq => ?_
    obtain ⟨hd', hs', hp'⟩ := hq
    cases hv : d'.value? with
    | some v =>
      have := hd'.value hv
      have hpop : popVal (.elem :: p) s' = .ok v
          { s' with heap := s'.heap.upd (.elem :: p) fun c => { c with set := false, val := .moved } } := by
        unfold popVal; rw [if_pos this.1, this.2]
      have hse : storeEntry true k d' ents = .ok (mapInsert k v ents) := by simp [storeEntry, hv]
      rw [hse, bind_ok hpop]
      refine .ok rfl ⟨fun _ => ?_, fun _ => storeEntry_types hs' ht hse rfl⟩ rfl
      simp only [upd_same]
      rw [upd_other (by simp), hp', hacc rfl, hk]; rfl
    | none =>
      have hset : (s'.heap (.elem :: p)).set = false := by
        rw [hd'.set]
        cases hi : d'.isSet with
        | false => rfl
        | true => obtain ⟨v, h⟩ := fits_store hs' (hst rfl) hi; rw [hv] at h; simp at h
      have hpop : popVal (.elem :: p) s' = .throw (.std notSet) s' := by
        unfold popVal; rw [if_neg (by simp [hset])]; rfl
      have hse : storeEntry true k d' ents = .error notSet := by simp [storeEntry, hv]
      rw [hse]
      exact ⟨s', by unfold M.bind; rw [hpop], rfl⟩


theorem MeetsA.on {α} {w : Eff α} {l l' Q m} (h : MeetsA R w l' Q m) (e : l' = l) : MeetsA R w l Q m := e ▸ h
theorem MeetsA.congr {α} {w w' : Eff α} {l Q m} (h : MeetsA R w l Q m) (e : w = w') : MeetsA R w' l Q m := e ▸ h

/-- A union, from its type value to the closing brace. -/
def denUnionA (F : Handlers) (sh : Shape) (st : Bool) (ms : List (MInfo × Shape)) (p : Path) (x : Scalar) (fs : List (String × Json)) : Eff D :=
  (Eff.lift (selectAlt F.fmtDbl ms x)).bind fun a =>
  (denFieldsA F a.2 (.mem a.1 :: p) (noSlots a.2) [] false fs).bind fun d =>
  (Eff.lift (finishUnion st ms a.1 d)).bind (.done F sh p)

theorem unionA_meets {ty tm st ms p x fs} (s : St) (hR : R.at p = some (.union ty tm st ms))
    (hw : (Shape.union ty tm st ms).wf = true)
    (ih : ∀ a (s : St), lookup x 0 ms = some a → R.at (.mem a.1 :: p) = some a.2 → a.2.wf = true →
      Acc a.2 s.heap (.mem a.1 :: p) (noSlots a.2) [] false →
      MeetsA R (denFieldsA F a.2 (.mem a.1 :: p) (noSlots a.2) [] false fs) s.log (AtA a.2 (.mem a.1 :: p))
        (evalFields (F.env R) a.2 (.mem a.1 :: p) fs s)) :
    MeetsA R (denUnionA F (.union ty tm st ms) st ms p x fs) s.log (AtA (.union ty tm st ms) p)
      (M.bind (select (F.env R) ty tm st ms p x) (fun a =>
        M.bind (evalFields (F.env R) a.2 (.mem a.1 :: p) fs) fun _ =>
        M.bind dropTop fun _ => complete (F.env R) (.union ty tm st ms) p) s) := by
  have hsel := select_spec (E := F.env R) (ty := ty) (tm := tm) (st := st) (ms := ms) (p := p) (x := x) s
  unfold denUnionA selectAlt
  cases hl : lookup x 0 ms with
  | none =>
    rw [hl] at hsel
    obtain ⟨s', h, hlog⟩ := hsel
    exact .throw (s' := s') (by unfold M.bind; rw [h]; rfl) hlog
  | some a =>
    rw [hl] at hsel
    obtain ⟨s1, h1, hlog, h2, h3, h4⟩ := hsel
    rw [bind_ok h1]
    obtain ⟨a, ash⟩ := a
    obtain ⟨i, hi⟩ := lookup_mem hl
    have hRa := at_mem_union hR hi
    have hwa := wfMs_mem (wf_union hw) hi
    simp only [Eff.lift_ok]
    rw [← hlog]
    refine MeetsA.bind (ih (a, ash) s1 hl hRa hwa.2.1 h4) fun d s2 hok hq => ?_
    obtain ⟨hh, hfd⟩ := hq
    rw [bind_drop]
    have hk := (evalFields_keep fs ash _ hRa _ _ _ hok).2.frame p below_self_cons
    exact completeA_union (s := { s2 with stack := s2.stack.tail }) hR (by simp only; rw [hk]; exact h2) hw (by simp only; rw [hk]; exact h3) hi hh hfd

/-- What an array that has collected `acc` does with a complete element and with the rest. -/
theorem elemA_step {st} {e : Shape} {p acc d} {s : St} {rest : M Unit} {r : Eff (List Val)}
    (hd : Holds s.heap (.elem :: p) d) (hs : e.fits d = true) (hst : st = true → e.isStorage = true)
    (hacc : st = true → (s.heap p).val = .arr acc)
    (ih : ∀ (s' : St) acc', (st = true → (s'.heap p).val = .arr acc') →
      MeetsA R r s'.log (fun vs s'' => (st = true → (s''.heap p).val = .arr (acc' ++ vs)) ∧ (st = true → vs.all (hasType e) = true)) (rest s')) :
    MeetsA R (if st then
        match d.value? with
        | some v => r.bind fun vs => .lift (.ok (v :: vs))
        | none => .error notSet
      else r) s.log (fun vs s'' => (st = true → (s''.heap p).val = .arr (acc ++ vs)) ∧ (st = true → vs.all (hasType e) = true))
      (M.bind (arrChild st p) (fun _ => rest) s) := by
  have hc := arrChild_spec hd hs hst hacc
  cases st with
  | false =>
    simp only [Bool.false_eq_true, if_false] at hc ⊢
    obtain ⟨s', h1, hlog, h2⟩ := hc
    rw [bind_ok h1, ← hlog]
    have := ih s' acc (by simp)
    simpa using this
  | true =>
    rw [if_pos rfl] at hc ⊢
    cases hv : d.value? with
    | none =>
      rw [hv] at hc
      obtain ⟨s', h, hlog⟩ := hc
      refine ⟨s', by unfold M.bind; rw [h], by rw [hlog]⟩
    | some v =>
      rw [hv] at hc
      obtain ⟨s', h1, hlog, h2⟩ := hc
      rw [bind_ok h1, ← hlog]
      have := ih s' _ h2
      have hty := fits_value hs hv
      unfold MeetsA at this ⊢
      simp only [Eff.bind]
      cases hr : r (seenLog R s'.log) with
      | mk l' o =>
        rw [hr] at this
        cases o with
        | error m => exact this
        | ok vs =>
          obtain ⟨s'', h3, h4, h5⟩ := this
          exact ⟨s'', h3, ⟨fun _ => by rw [h4.1 rfl]; simp, fun _ => by simp [hty, h4.2 rfl]⟩, h5⟩

mutual
theorem denA_val : ∀ (j : Json) (sh : Shape) (p : Path) (s : St), R.at p = some sh → sh.wf = true →
    uokVal sh j = true → MeetsA R (denoteA F sh p j) s.log (AtA sh p) (evalVal (F.env R) sh p j s)
  | .null, sh, p, s, hR, hw, hok => by
    unfold denoteA evalVal
    exact .ok rfl ⟨by simp only [Holds]; exact (resetH_self _ _ _).1, fits_unset _⟩ rfl
  | .sc x, sh, p, s, hR, hw, hok => by
    unfold denoteA evalVal
    cases sh with
    | value ty =>
      simp only
      split
      · rename_i hx
        rw [setNotEmpty_def, bind_modC, bind_modC]
        exact MeetsA.on (completeA_value (s := { s with heap := _ }) hR hx (by simp)) rfl
      · exact MeetsA.error rfl
    | ignore => simp [Shape.wf] at hw
    | union ty tm st ms =>
      simp only [uokVal, bne_iff_ne, ne_eq] at hok
      simp only [if_neg hok]
      exact MeetsA.error rfl
    | _ => exact MeetsA.error rfl
  | .arr l, sh, p, s, hR, hw, hok => by
    unfold denoteA evalVal
    cases sh with
    | array st e =>
      simp only [uokVal] at hok
      simp only [bind_modH, bind_modC]
      refine MeetsA.bind (Q := fun vs s'' => (st = true → (s''.heap p).val = .arr ([] ++ vs)) ∧ (st = true → vs.all (hasType e) = true))
        (MeetsA.on (denA_elems l st e p { s with heap := (resetH p (.array st e) s.heap).upd p fun c => { c with started := true } } []
        hR (wf_array hw).1 (wf_array hw).2 hok (by rintro rfl; simp [resetH])) rfl) fun vs s' hok' hv => ?_
      rw [bind_modC]
      exact MeetsA.on (completeA_array (s := { s' with heap := _ }) hR (by simpa using hv.1) hv.2) rfl
    | ignore => simp [Shape.wf] at hw
    | _ => exact MeetsA.error rfl
  | .obj fs, sh, p, s, hR, hw, hok => by
    unfold denoteA evalVal
    cases sh with
    | value | array => exact MeetsA.error rfl
    | ignore => simp [Shape.wf] at hw
    | object k u ms =>
      simp only [uokVal] at hok
      simp only [bind_modH]
      exact MeetsA.on (denA_fields fs _ p { s with heap := _ } _ _ _ hR hw hok (Acc.reset _ _ _) (AccFits.none _)) rfl
    | map st e =>
      simp only [uokVal] at hok
      simp only [bind_modH]
      exact MeetsA.on (denA_fields fs _ p { s with heap := _ } _ _ _ hR hw hok (Acc.reset _ _ _) (AccFits.none _)) rfl
    | union ty tm st ms =>
      simp only [uokVal] at hok
      simp only
      split
      · exact MeetsA.error rfl
      · rename_i htm
        rw [if_neg htm] at hok
        rw [bind_modH]
        exact MeetsA.on (denA_fields fs _ p { s with heap := _ } _ _ _ hR hw hok (Acc.reset _ _ _) (AccFits.none _)) rfl
theorem denA_fields : ∀ (fs : List (String × Json)) (sh : Shape) (p : Path) (s : St) (slots ents ne),
    R.at p = some sh → sh.wf = true → uokFields sh fs = true → Acc sh s.heap p slots ents ne → AccFits sh slots ents →
    MeetsA R (denFieldsA F sh p slots ents ne fs) s.log (AtA sh p) (evalFields (F.env R) sh p fs s)
  | [], sh, p, s, slots, ents, ne, hR, hw, hok, hacc, hfit => by
    unfold denFieldsA evalFields
    cases sh with
    | value | ignore | array => exact MeetsA.error rfl
    | object k u ms =>
      exact completeA_object hR hacc.1 hw hacc.2.1 hacc.2.2.1 hacc.2.2.2
    | map st e => exact completeA_map hR hacc hfit
    | union ty tm st ms => exact completeA_union_empty hacc
  | (k, v) :: fs, sh, p, s, slots, ents, ne, hR, hw, hok, hacc, hfit => by
    unfold uokFields at hok
    unfold denFieldsA evalFields
    cases sh with
    | value | ignore | array => exact MeetsA.error rfl
    | object kd u ms =>
      obtain ⟨ha1, ha2, ha3, ha4⟩ := hacc
      simp only
      rw [setNotEmpty_def, bind_modC]
      simp only at hok
      cases hl : lookup (.str k) 0 ms with
      | some nm =>
        obtain ⟨n, m⟩ := nm
        rw [hl] at hok
        simp only at hok
        obtain ⟨i, hi⟩ := lookup_mem hl
        have hRm := at_mem_object hR hi
        have hwm := wfMs_mem (wf_object hw) hi
        simp only [bind_push]
        -- what is left of the state after the member has been read
        have after : ∀ (s' : St) d, Frame (.mem n :: p) (s.heap.upd p fun c => { c with empty := false }) s'.heap →
            Holds s'.heap (.mem n :: p) d → m.fits d = true →
            Acc (.object kd u ms) s'.heap p (slots.set n d) [] true := by
          intro s' d hf hh hst
          have hp := hf p below_self_cons
          refine ⟨by rw [hp]; simp, ?_, fitsL_set ha3 hi hst, fun hc => by rw [hp]; simpa using ha4 hc⟩
          exact HoldsL.set (HoldsL.congr slots p 0 (fun q _ hn => upd_other hn) ha2) hf hh
        cases he : embedded m v with
        | some z =>
          obtain ⟨ty, st, ms', x⟩ := z
          rw [he] at hok
          obtain ⟨rfl, rfl, hx⟩ := embedded_some he
          simp only at hok ⊢
          have hu := unionA_meets (F := F) (fs := fs) (x := x)
            { s with heap := s.heap.upd p (fun c => { c with empty := false }), stack := (.mem n :: p) :: s.stack }
            hRm hwm.2.1 (fun a s' hla hRa hwa hacc' => denA_fields fs a.2 _ s' _ _ _ hRa hwa (by
              rw [hla] at hok; exact hok) hacc' (AccFits.none _))
          have main := MeetsA.bind (Q' := AtA (.object kd u ms) p) (f := fun d => (Eff.lift (finishObject kd ms (slots.set n d) true)).bind (.done F (.object kd u ms) p))
            (k := fun _ => M.bind dropTop fun _ => complete (F.env R) (.object kd u ms) p) hu (fun d s' hok' hq => ?_)
          · simp only [bind_assoc, denUnionA, Eff.bind_assoc] at main
            exact main
          obtain ⟨hh, hfd⟩ := hq
          rw [bind_drop]
          have hkeep : Frame (.mem n :: p) (s.heap.upd p fun c => { c with empty := false }) s'.heap := by
            refine (KeepM.select (R := R) (fun a hla => ?_) (fun a => (Loc.complete _ _).keep) _ _ _ (by
              simpa only [bind_assoc] using hok')).2.frame
            obtain ⟨i', hi'⟩ := lookup_mem hla
            exact (evalFields_keep fs a.2 _ (at_mem_union hRm hi')).up (Below.cons _ _)
          have := after s' d hkeep hh hfd
          exact MeetsA.on (completeA_object (s := { s' with stack := _ }) hR this.1 hw this.2.1 this.2.2.1 this.2.2.2) rfl
        | none =>
          rw [he] at hok
          simp only [Bool.and_eq_true] at hok
          simp only
          refine MeetsA.bind (MeetsA.on (denA_val v m _ { s with heap := _, stack := _ } hRm hwm.2.1 hok.1.2) rfl) fun d s' hok' hq => ?_
          obtain ⟨hh, hfit'⟩ := hq
          rw [bind_drop]
          refine MeetsA.on (denA_fields fs _ p { s' with stack := _ } _ _ _ hR hw hok.2 ?_ (show AccFits (.object kd u ms) _ [] from fitsL_set ha3 hi hfit')) rfl
          exact after { s' with stack := s'.stack.tail } d (evalVal_keep v m _ hRm _ _ _ hok').2.frame hh hfit'
      | none =>
        rw [hl] at hok
        simp only at hok ⊢
        split
        · exact MeetsA.error rfl
        · rename_i hu
          rw [if_neg hu, Bool.and_eq_true] at hok
          rw [bind_push]
          obtain ⟨s', hs', hlog⟩ := evalVal_ignore (E := F.env R) (.ign :: p) v { s with heap := s.heap.upd p (fun c => { c with empty := false }), stack := (.ign :: p) :: s.stack }
          rw [bind_ok hs', bind_drop]
          have hf := (evalVal_keep (R := R) v .ignore _ (at_ign_object hR) _ _ _ hs').2.frame
          have hlog : s'.log = s.log := hlog
          rw [← hlog]
          refine MeetsA.on (denA_fields fs _ p { s' with stack := _ } _ _ _ hR hw hok.2 ?_ (show AccFits (.object kd u ms) slots [] from ha3)) rfl
          have hp := hf p below_self_cons
          refine ⟨by simp only; rw [hp]; simp, ?_, ha3, fun hc => by simp only; rw [hp]; simpa using ha4 hc⟩
          have h1 : HoldsL (s.heap.upd p fun c => { c with empty := false }) p 0 slots :=
            HoldsL.congr slots p 0 (fun q _ hn => upd_other hn) ha2
          apply HoldsL.intro
          intro m d hd
          have := h1.get hd
          refine Holds.congr d _ (fun q hq => hf q ?_) this
          exact below_disjoint (by simp) hq
    | union ty tm st ms =>
      simp only at hok ⊢
      split
      · exact MeetsA.error rfl
      · rename_i htm
        rw [if_neg htm] at hok
        split
        · exact MeetsA.error rfl
        · rename_i hkt
          rw [if_neg hkt] at hok
          cases v with
          | null => simp at hok
          | obj => simp at hok
          | arr => exact MeetsA.error rfl
          | sc x =>
            simp only at hok ⊢
            split
            · rename_i hx
              rw [if_pos hx] at hok
              exact unionA_meets s hR hw (fun a s' hla hRa hwa hacc' => denA_fields fs a.2 _ s' _ _ _ hRa hwa (by
                rw [hla] at hok; exact hok) hacc' (AccFits.none _))
            · exact MeetsA.error rfl
    | map st e =>
      have hRe := at_elem_map hR
      have hwe := wf_map hw
      simp only at hok ⊢
      rw [setNotEmpty_def, bind_modC, bind_push, bind_modC]
      have after : ∀ (s' : St) d, Frame (.elem :: p) ((s.heap.upd p fun c => { c with empty := false }).upd p
            fun c => { c with curKey := k }) s'.heap →
          Holds s'.heap (.elem :: p) d → e.fits d = true →
          MeetsA R ((Eff.elem F p k d).bind fun d => Eff.lift (storeEntry st k d ents)) s'.log
            (fun ents' s'' => (st = true → (s''.heap p).val = .map ents') ∧ (st = true → (ents'.all fun kv => hasType e kv.2) = true)) (mapChild (F.env R) st e p s') := by
        intro s' d hf hh hst
        have hp := hf p below_self_cons
        exact mapChildA hR hh hst hwe.2 (by rw [hp]; simp) (fun h => by rw [hp]; simpa using hacc h) hfit
      cases he : embedded e v with
      | some z =>
        obtain ⟨ty, st', ms', x⟩ := z
        rw [he] at hok
        obtain ⟨rfl, rfl, hx⟩ := embedded_some he
        simp only at hok ⊢
        have hu := unionA_meets (F := F) (fs := fs) (x := x)
          { s with heap := (s.heap.upd p fun c => { c with empty := false }).upd p fun c => { c with curKey := k },
                   stack := (.elem :: p) :: s.stack }
          hRe hwe.1 (fun a s' hla hRa hwa hacc' => denA_fields fs a.2 _ s' _ _ _ hRa hwa (by
            rw [hla] at hok; exact hok) hacc' (AccFits.none _))
        have main := MeetsA.bind (Q' := AtA (.map st (.union ty "" st' ms')) p) (f := fun d => ((Eff.elem F p k d).bind fun d => Eff.lift (storeEntry st k d ents)).bind fun ents => .done F (.map st (.union ty "" st' ms')) p (finishMap st ents))
          (k := fun _ => M.bind dropTop fun _ => M.bind (mapChild (F.env R) st (.union ty "" st' ms') p) fun _ =>
            complete (F.env R) (.map st (.union ty "" st' ms')) p) hu (fun d s' hok' hq => ?_)
        · simp only [bind_assoc, denUnionA, Eff.bind_assoc] at main
          exact main
        obtain ⟨hh, hfd⟩ := hq
        rw [bind_drop]
        have hkeep : Frame (.elem :: p) ((s.heap.upd p fun c => { c with empty := false }).upd p
            fun c => { c with curKey := k }) s'.heap := by
          refine (KeepM.select (R := R) (fun a hla => ?_) (fun a => (Loc.complete _ _).keep) _ _ _ (by
            simpa only [bind_assoc] using hok')).2.frame
          obtain ⟨i', hi'⟩ := lookup_mem hla
          exact (evalFields_keep fs a.2 _ (at_mem_union hRe hi')).up (Below.cons _ _)
        have := after { s' with stack := s'.stack.tail } d hkeep hh hfd
        refine MeetsA.bind (s := { s' with stack := s'.stack.tail }) this fun ents' s'' hok'' hv => ?_
        exact completeA_map hR hv.1 hv.2
      | none =>
        rw [he] at hok
        simp only [Bool.and_eq_true] at hok
        simp only
        refine MeetsA.bind (MeetsA.on (denA_val v e _ { s with heap := _, stack := _ } hRe hwe.1 hok.1.2) rfl) fun d s' hok' hq => ?_
        obtain ⟨hh, hfd⟩ := hq
        rw [bind_drop]
        have := after { s' with stack := s'.stack.tail } d (evalVal_keep v e _ hRe _ _ _ hok').2.frame hh hfd
        refine MeetsA.congr (w := ((Eff.elem F p k d).bind fun d => Eff.lift (storeEntry st k d ents)).bind fun ents =>
            denFieldsA F (.map st e) p [] ents true fs)
          (MeetsA.bind (s := { s' with stack := s'.stack.tail }) this fun ents' s'' hok'' hv => ?_) (Eff.bind_assoc _ _ _)
        exact denA_fields fs _ p s'' _ _ _ hR hw hok.2 hv.1
          (show AccFits (.map st e) [] ents' from hv.2)
theorem denA_elems : ∀ (l : List Json) (st : Bool) (e : Shape) (p : Path) (s : St) (acc : List Val),
    R.at p = some (.array st e) → e.wf = true → (st = true → e.isStorage = true) → uokElems e l = true →
    (st = true → (s.heap p).val = .arr acc) →
    MeetsA R (denElemsA F st e p l) s.log (fun vs s'' => (st = true → (s''.heap p).val = .arr (acc ++ vs)) ∧ (st = true → vs.all (hasType e) = true))
      (evalElems (F.env R) st e p l s)
  | [], st, e, p, s, acc, hR, hw, hst, hok, hacc => by
    unfold denElemsA evalElems
    exact ⟨s, rfl, ⟨by simpa using hacc, by simp⟩, rfl⟩
  | .null :: l, st, e, p, s, acc, hR, hw, hst, hok, hacc => by
    unfold uokElems at hok
    simp only [Bool.and_eq_true] at hok
    unfold denElemsA evalElems
    rw [bind_modH]
    exact MeetsA.on (denA_elems l st e p { s with heap := _ } acc hR hw hst hok.2 (fun h => by
      simp only; rw [resetH_frame e _ _ p below_self_cons]; exact hacc h)) rfl
  | .sc x :: l, st, e, p, s, acc, hR, hw, hst, hok, hacc => by
    unfold uokElems at hok
    simp only [Bool.and_eq_true] at hok
    unfold denElemsA evalElems
    refine MeetsA.bind (MeetsA.on (denA_val (.sc x) e _ s (at_elem_array hR) hw hok.1.2) rfl) fun d s' hok' hq => ?_
    obtain ⟨hh, hfd⟩ := hq
    rw [setNotEmpty_def, bind_modC]
    have hf := (evalVal_keep (R := R) (.sc x) e _ (at_elem_array hR) _ _ _ hok').2.frame p below_self_cons
    exact MeetsA.on (elemA_step (s := { s' with heap := _ }) (Holds.congr d _ (fun q hq => by simp only; exact upd_other (ne_of_below_step hq)) hh) hfd hst
      (fun h => by simp only [upd_same, hf]; exact hacc h) (fun s' acc' h => denA_elems l st e p s' acc' hR hw hst hok.2 h)) rfl
  | .arr l' :: l, st, e, p, s, acc, hR, hw, hst, hok, hacc => by
    unfold uokElems at hok
    simp only [Bool.and_eq_true] at hok
    unfold denElemsA evalElems
    simp only [setNotEmpty_def, bind_modC, bind_modH, bind_push]
    refine MeetsA.bind (MeetsA.on (denA_val (.arr l') e _ { s with heap := _, stack := _ } (at_elem_array hR) hw hok.1.2) rfl) fun d s' hok' hq => ?_
    obtain ⟨hh, hfd⟩ := hq
    rw [bind_drop]
    have hf := (evalVal_keep (R := R) (.arr l') e _ (at_elem_array hR) _ _ _ hok').2.frame p below_self_cons
    exact MeetsA.on (elemA_step (s := { s' with stack := _ }) hh hfd hst
      (fun h => by simp only [hf]; rw [setDispH_frame _ _ _ p below_self_cons]; simpa using hacc h)
      (fun s' acc' h => denA_elems l st e p s' acc' hR hw hst hok.2 h)) rfl
  | .obj l' :: l, st, e, p, s, acc, hR, hw, hst, hok, hacc => by
    unfold uokElems at hok
    simp only [Bool.and_eq_true] at hok
    unfold denElemsA evalElems
    simp only [setNotEmpty_def, bind_modC, bind_modH, bind_push]
    refine MeetsA.bind (MeetsA.on (denA_val (.obj l') e _ { s with heap := _, stack := _ } (at_elem_array hR) hw hok.1.2) rfl) fun d s' hok' hq => ?_
    obtain ⟨hh, hfd⟩ := hq
    rw [bind_drop]
    have hf := (evalVal_keep (R := R) (.obj l') e _ (at_elem_array hR) _ _ _ hok').2.frame p below_self_cons
    exact MeetsA.on (elemA_step (s := { s' with stack := _ }) hh hfd hst
      (fun h => by simp only [hf]; rw [setDispH_frame _ _ _ p below_self_cons]; simpa using hacc h)
      (fun s' acc' h => denA_elems l st e p s' acc' hR hw hst hok.2 h)) rfl
end


/-- What the tokens of a document do to a tree that is ready, with callbacks that take part. -/
theorem parse_denoteA {s : St} (hr : Ready R s) (hw : R.wf = true) {j} (hok : okVal R j = true) :
    match denoteA F R [] j (seenLog R s.log) with
    | (l, .ok d) => ∃ s', run (F.env R) R (events j) s = .ok () s' ∧ s'.stack = [] ∧ Holds s'.heap [] d ∧ R.fits d = true ∧ Ready R s'.restart ∧
        seenLog R s'.log = l
    | (l, .error e) => ∃ s', run (F.env R) R (events j) s = .throw e s' ∧ seenLog R s'.log = l := by
  have hm := denA_val (R := R) (F := F) j R [] s rfl hw (okVal_uok _ _ hok)
  have hrun := run_eval (E := F.env R) hr (wf_user hw) hok
  unfold MeetsA at hm
  cases hd : denoteA F R [] j (seenLog R s.log) with
  | mk l o =>
    rw [hd] at hm
    cases o with
    | error e =>
      obtain ⟨s', h, hl⟩ := hm
      exact ⟨s', by rw [hrun]; unfold M.bind; rw [h], hl⟩
    | ok d =>
      obtain ⟨s', h, ⟨hh, hf⟩, hl⟩ := hm
      have hk := evalVal_keep j R [] rfl s () s' h
      rw [bind_ok h, Ready.pop_done (hk.1.trans hr.stack)] at hrun
      exact ⟨_, hrun, rfl, hh, hf, (Ready.after hr (wf_user hw) hok hrun).2, hl⟩

end SJ
