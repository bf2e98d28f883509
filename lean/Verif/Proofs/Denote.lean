/-
The recursive-descent semantics computes `denote`, for callbacks that only observe.
-/
import Verif.Proofs.Typing
import Verif.SpecState
import Verif.Proofs.CText

set_option linter.unusedVariables false

namespace SJ

variable {E : Env} {R : Shape}

/-- The log after a finish callback. -/
def finLog (E : Env) (p : Path) (a : Arg) (l : Log) : Log :=
  match E.onFinish p with
  | none => l
  | some _ => .finish p a :: l

/-- The log after an element callback. -/
def elemLog (E : Env) (p : Path) (k : String) (sn : Snap) (l : Log) : Log :=
  match E.onElement p with
  | none => l
  | some _ => .element p k sn :: l

theorem Passive.finishVal (hE : Passive E) (p s) :
    finishCbVal E p s = .ok () { s with log := finLog E p (.val (s.heap p).val) s.log } := by
  unfold finishCbVal finLog
  cases h : E.onFinish p with
  | none => rfl
  | some cb => simp only [(hE.fin p cb h _ _).1, verdict]; rfl

theorem Passive.finishParser (hE : Passive E) (sh c p s) :
    finishCbParser E sh c p s = .ok () { s with log := finLog E p (.parser (snap s.heap p sh)) s.log } := by
  unfold finishCbParser finLog
  cases h : E.onFinish p with
  | none => rfl
  | some cb =>
    obtain ⟨h1, h2, h3⟩ := hE.fin p cb h s.log (.parser (snap s.heap p sh))
    simp only [h1, h2, h3, verdict, cbPops]
    rfl

theorem Passive.element (hE : Passive E) (e p s) :
    elementCb E e p s = .ok () { s with log := elemLog E p (s.heap p).curKey (snap s.heap (.elem :: p) e) s.log } := by
  unfold elementCb elemLog
  cases h : E.onElement p with
  | none => rfl
  | some cb =>
    obtain ⟨h1, h2⟩ := hE.elem p cb h s.log (s.heap p).curKey (snap s.heap (.elem :: p) e)
    simp only [h1, h2, verdict, cbPops]
    rfl

/-! ### What the heap holds -/

theorem Holds.set {h p d} (hh : Holds h p d) : (h p).set = d.isSet := by
  cases d <;> simp only [Holds] at hh <;> simp [D.isSet, hh]

theorem Holds.value {h p d v} (hh : Holds h p d) (hv : d.value? = some v) : (h p).set = true ∧ (h p).val = v := by
  cases d <;> simp only [Holds] at hh <;> simp [D.value?] at hv
  · exact ⟨hh.1, by rw [hh.2, hv]⟩
  · exact ⟨hh.1, hh.2.1 v hv⟩

mutual
theorem Holds.congr {h h' : Heap} : ∀ (d : D) (p : Path), (∀ q, Below p q → h' q = h q) → Holds h p d → Holds h' p d
  | .unset, p, he, hh => by simp only [Holds] at *; rw [he p (Below.refl _)]; exact hh
  | .val v, p, he, hh => by simp only [Holds] at *; rw [he p (Below.refl _)]; exact hh
  | .obj v ds, p, he, hh => by
    simp only [Holds] at *; rw [he p (Below.refl _)]
    exact ⟨hh.1, hh.2.1, HoldsL.congr ds p 0 (fun q hq hn => he q hq) hh.2.2⟩
  | .alt n d, p, he, hh => by
    simp only [Holds] at *; rw [he p (Below.refl _)]
    exact ⟨hh.1, hh.2.1, Holds.congr d _ (fun q hq => he q hq.step) hh.2.2⟩
  | .done, p, he, hh => by simp only [Holds] at *; rw [he p (Below.refl _)]; exact hh
theorem HoldsL.congr {h h' : Heap} : ∀ (ds : List D) (p : Path) (n : Nat),
    (∀ q, Below p q → q ≠ p → h' q = h q) → HoldsL h p n ds → HoldsL h' p n ds
  | [], p, n, he, hh => trivial
  | d :: ds, p, n, he, hh => by
    simp only [HoldsL] at *
    exact ⟨Holds.congr d _ (fun q hq => he q hq.step (ne_of_below_step hq)) hh.1, HoldsL.congr ds p (n + 1) he hh.2⟩
end

theorem HoldsL.get {h : Heap} {p} : ∀ {ds : List D} {n m d}, HoldsL h p n ds → ds[m]? = some d → Holds h (.mem (n + m) :: p) d
  | [], n, m, d, hh, hd => by simp at hd
  | d' :: ds, n, 0, d, hh, hd => by simp at hd; subst hd; exact hh.1
  | d' :: ds, n, m + 1, d, hh, hd => by
    rw [show n + (m + 1) = n + 1 + m by omega]
    exact HoldsL.get hh.2 (by simpa using hd)

theorem HoldsL.intro {h : Heap} {p} : ∀ {ds : List D} {n}, (∀ m d, ds[m]? = some d → Holds h (.mem (n + m) :: p) d) →
    HoldsL h p n ds
  | [], n, hh => trivial
  | d' :: ds, n, hh => ⟨hh 0 d' (by simp), HoldsL.intro fun m d hd => by
      rw [show n + 1 + m = n + (m + 1) by omega]; exact hh (m + 1) d (by simpa using hd)⟩

/-- A member changed: its slot is replaced. -/
theorem HoldsL.set {h h' : Heap} {p n ds d} (hh : HoldsL h p 0 ds) (hf : Frame (.mem n :: p) h h')
    (hd : Holds h' (.mem n :: p) d) : HoldsL h' p 0 (ds.set n d) := by
  apply HoldsL.intro
  intro m d' hm
  rw [Nat.zero_add]
  rw [List.getElem?_set] at hm
  split at hm
  · rename_i e
    split at hm
    · simp at hm; subst hm; subst e; exact hd
    · simp at hm
  · rename_i e
    have := hh.get hm
    rw [Nat.zero_add] at this
    exact Holds.congr d' _ (fun q hq => hf q (below_disjoint (by simp; omega) hq)) this

/-! ### What a callback sees -/

mutual
theorem snap_shows {h : Heap} : ∀ (sh : Shape) (p : Path) (d : D), sh.fits d = true → Holds h p d → (snap h p sh).shows d
  | .value ty, p, d, hf, hh => by
    cases d <;> simp only [Shape.fits] at hf <;> simp only [Holds] at hh <;> simp_all [snap, Snap.shows]
  | .ignore, p, d, hf, hh => by
    cases d <;> simp only [Shape.fits] at hf <;> simp only [Holds] at hh <;> simp_all [snap, Snap.shows]
  | .object k u ms, p, d, hf, hh => by
    cases d with
    | unset => simp only [Holds] at hh; simp [snap, Snap.shows, hh]
    | val v =>
      simp only [Shape.fits, Bool.and_eq_true, beq_iff_eq] at hf
      simp only [Holds] at hh
      simp [snap, Snap.shows, hh, hf.1]
    | obj v ds =>
      simp only [Shape.fits, Bool.and_eq_true] at hf
      simp only [Holds] at hh
      simp only [snap, Snap.shows, hh.1]
      refine ⟨trivial, fun w hw => ?_, snapMs_shows ms p 0 ds hf.2 hh.2.2⟩
      have := hh.2.1 w hw
      subst hw
      cases k <;> simp_all
    | alt => simp [Shape.fits] at hf
    | done => simp [Shape.fits] at hf
  | .union ty tm st ms, p, d, hf, hh => by
    cases d with
    | unset => simp only [Holds] at hh; simp [snap, Snap.shows, hh]
    | val v =>
      simp only [Shape.fits] at hf
      simp only [Holds] at hh
      cases st
      · simp [hasType] at hf
      · simp [snap, Snap.shows, hh]
    | alt n d =>
      simp only [Shape.fits, Bool.and_eq_true] at hf
      simp only [Holds] at hh
      simp only [snap, Snap.shows, hh.1, hh.2.1, if_true, true_and]
      have := snapMs_alt ms p 0 n d hf.2 (by rw [Nat.zero_add]; exact hh.2.2)
      exact this
    | obj => simp [Shape.fits] at hf
    | done => simp [Shape.fits] at hf
  | .array st e, p, d, hf, hh => by
    cases d with
    | val v =>
      simp only [Shape.fits] at hf
      simp only [Holds] at hh
      cases st
      · simp [hasType] at hf
      · simp [snap, Snap.shows, hh]
    | _ => simp only [Shape.fits] at hf <;> simp only [Holds] at hh <;> simp_all [snap, Snap.shows]
  | .map st e, p, d, hf, hh => by
    cases d with
    | val v =>
      simp only [Shape.fits] at hf
      simp only [Holds] at hh
      cases st
      · simp [hasType] at hf
      · simp [snap, Snap.shows, hh]
    | _ => simp only [Shape.fits] at hf <;> simp only [Holds] at hh <;> simp_all [snap, Snap.shows]
theorem snapMs_shows {h : Heap} : ∀ (ms : List (MInfo × Shape)) (p : Path) (n : Nat) (ds : List D), fitsL ms ds = true →
    HoldsL h p n ds → Snap.showsL ds (snapMs h p n ms)
  | [], p, n, [], hf, hh => by simp [snapMs, Snap.showsL]
  | [], p, n, d :: ds, hf, hh => by simp [fitsL] at hf
  | x :: ms, p, n, [], hf, hh => by simp [fitsL] at hf
  | (i, sh) :: ms, p, n, d :: ds, hf, hh => by
    simp only [fitsL, Bool.and_eq_true] at hf
    simp only [HoldsL] at hh
    simp only [snapMs, Snap.showsL]
    exact ⟨snap_shows sh _ d hf.1 hh.1, snapMs_shows ms p (n + 1) ds hf.2 hh.2⟩
theorem snapMs_alt {h : Heap} : ∀ (ms : List (MInfo × Shape)) (p : Path) (n a : Nat) (d : D), fitsAlt ms a d = true →
    Holds h (.mem (n + a) :: p) d → ∃ k, (snapMs h p n ms)[a]? = some k ∧ k.shows d
  | [], p, n, a, d, hf, hh => by simp [fitsAlt] at hf
  | (i, sh) :: ms, p, n, 0, d, hf, hh => by
    simp only [fitsAlt] at hf
    exact ⟨snap h (.mem n :: p) sh, by simp [snapMs], snap_shows sh _ d hf hh⟩
  | (i, sh) :: ms, p, n, a + 1, d, hf, hh => by
    simp only [fitsAlt] at hf
    obtain ⟨k, h1, h2⟩ := snapMs_alt ms p (n + 1) a d hf (by rw [show n + 1 + a = n + (a + 1) by omega]; exact hh)
    exact ⟨k, by simpa [snapMs] using h1, h2⟩
end

theorem Logged.refl (l) : Logged E [] l l := rfl

theorem Logged.append {l2 l3} : ∀ {es l1 es'}, Logged E es l1 l2 → Logged E es' l2 l3 → Logged E (es ++ es') l1 l3
  | [], l1, es', h1, h2 => by simp only [Logged] at h1; subst h1; exact h2
  | e :: es, l1, es', ⟨l, h1, h1'⟩, h2 => ⟨l, h1, h1'.append h2⟩

theorem Logged.fin {p d a l} (h : a.shows d) : Logged E [.finish p d] l (finLog E p a l) := by
  refine ⟨_, ?_, rfl⟩
  show (match E.onFinish p with
    | none => finLog E p a l = l
    | some _ => ∃ a', finLog E p a l = .finish p a' :: l ∧ a'.shows d)
  unfold finLog
  cases E.onFinish p with
  | none => rfl
  | some _ => exact ⟨a, rfl, h⟩

theorem Logged.elem {p k d sn l} (h : sn.shows d) : Logged E [.element p k d] l (elemLog E p k sn l) := by
  refine ⟨_, ?_, rfl⟩
  show (match E.onElement p with
    | none => elemLog E p k sn l = l
    | some _ => ∃ sn', elemLog E p k sn l = .element p k sn' :: l ∧ sn'.shows d)
  unfold elemLog
  cases E.onElement p with
  | none => rfl
  | some _ => exact ⟨sn, rfl, h⟩

/-! ### Meeting a specification -/

/-- `w` is what `m`, started with log `l`, does; on success `Q` holds. -/
def Meets {α} (E : Env) (w : W α) (l : Log) (Q : α → St → Prop) (m : Res Unit) : Prop :=
  match w.result with
  | .ok a => ∃ s', m = .ok () s' ∧ Q a s' ∧ Logged E w.calls l s'.log
  | .error e => ∃ s', m = .throw (.std e) s' ∧ Logged E w.calls l s'.log

/-- The parser at `p` holds the result. -/
abbrev At (p : Path) : D → St → Prop := fun d s' => Holds s'.heap p d

theorem Meets.bind {α β} {w : W α} {f : α → W β} {Q : α → St → Prop} {Q' : β → St → Prop} {m : M Unit} {k : Unit → M Unit}
    {s : St} {l} (hl : s.log = l) (hm : Meets E w l Q (m s))
    (hk : ∀ a s', w.result = .ok a → m s = .ok () s' → Q a s' → Meets E (f a) s'.log Q' (k () s')) :
    Meets E (w.bind f) l Q' (M.bind m k s) := by
  subst hl
  unfold Meets at hm ⊢
  unfold W.bind
  cases hr : w.result with
  | error e =>
    rw [hr] at hm
    obtain ⟨s', h, hl⟩ := hm
    exact ⟨s', by unfold M.bind; rw [h], hl⟩
  | ok a =>
    rw [hr] at hm
    obtain ⟨s', h, hq, hl⟩ := hm
    have := hk a s' hr h hq
    unfold Meets at this
    simp only
    rw [bind_ok h]
    cases hr2 : (f a).result with
    | error e =>
      rw [hr2] at this
      obtain ⟨s'', h2, hl2⟩ := this
      exact ⟨s'', h2, hl.append hl2⟩
    | ok b =>
      rw [hr2] at this
      obtain ⟨s'', h2, hq2, hl2⟩ := this
      exact ⟨s'', h2, hq2, hl.append hl2⟩

theorem Meets.error {α Q e} {s : St} {l} (hl : s.log = l) : Meets E (W.error e : W α) l Q (throwStd e s) := ⟨s, rfl, hl⟩

theorem Meets.ok {α} {Q : α → St → Prop} {a l} {m : Res Unit} {s'} (h : m = .ok () s') (hq : Q a s') (hl : s'.log = l) :
    Meets E (W.lift (.ok a)) l Q m := ⟨s', h, hq, hl⟩

theorem Meets.throw {α} {Q : α → St → Prop} {e l} {m : Res Unit} {s'} (h : m = .throw (.std e) s') (hl : s'.log = l) :
    Meets E (W.lift (.error e) : W α) l Q m := ⟨s', h, hl⟩

theorem W.bind_assoc {α β γ} (w : W α) (f : α → W β) (g : β → W γ) :
    (w.bind f).bind g = w.bind fun a => (f a).bind g := by
  unfold W.bind
  cases w.result with
  | error e => rfl
  | ok a =>
    simp only
    cases (f a).result <;> simp

@[simp] theorem W.lift_ok {α β} (a : α) (f : α → W β) : (W.lift (.ok a)).bind f = f a := by
  unfold W.bind W.lift; simp
@[simp] theorem W.lift_error {α β} (e : String) (f : α → W β) : (W.lift (.error e)).bind f = W.error e := rfl

/-! ### Completion of each kind of parser -/

theorem nameText_show (fmt x) : nameText fmt x = showName fmt x := by cases x <;> rfl

theorem complete_unfold (sh p) (s : St) :
    complete E sh p s = finish E sh p { s with heap := s.heap.upd p fun c => { c with set := true } } := rfl

theorem checkMembers_spec {h : Heap} {p} : ∀ (ms : List (MInfo × Shape)) (n : Nat) (slots : List D),
    slots.length = ms.length → HoldsL h p n slots →
    checkMembers h p n ms = (missing ms slots).getLast?.map fun i =>
      "Mandatory member " ++ showName (fun _ => "") i.name ++ " is not present"
  | [], n, slots, hl, hh => by simp [checkMembers, missing]
  | (i, sh) :: ms, n, [], hl, hh => by simp at hl
  | (i, sh) :: ms, n, d :: slots, hl, hh => by
    have ih := checkMembers_spec ms (n + 1) slots (by simpa using hl) hh.2
    simp only [checkMembers, ih]
    have hset := hh.1.set
    have hm : missing ((i, sh) :: ms) (d :: slots) =
        (if !i.optional && !d.isSet then [i] else []) ++ missing ms slots := by
      simp only [missing, List.zip_cons_cons, List.filter_cons]
      split <;> simp_all
    rw [hm, hset]
    cases hg : (missing ms slots).getLast? with
    | some i' => simp [List.getLast?_append, hg]
    | none =>
      simp only [List.getLast?_append, hg, Option.map_none, Option.none_or]
      cases hd : d.isSet <;> cases ho : i.optional <;> simp [nameText_show]

/-- Values of the members of an `SAutoObject`. -/
def tupVals (ms : List (MInfo × Shape)) (slots : List D) : List Val :=
  (ms.zip slots).map fun x => (x.2.value?.or x.1.1.dflt).getD .init

def autoErr (i : MInfo) : String :=
  if i.optional then "Optional member " ++ showName (fun _ => "") i.name ++ " does not have a default value"
  else "Mandatory member " ++ showName (fun _ => "") i.name ++ " is not present"

theorem setValues_spec {p} : ∀ (ms : List (MInfo × Shape)) (n : Nat) (slots : List D) (s : St),
    slots.length = ms.length → HoldsL s.heap p n slots →
    (∀ (m : Nat) (i : MInfo) (sh : Shape) (d : D), ms[m]? = some (i, sh) → slots[m]? = some d → d.isSet = true → d.value?.isSome = true) →
    match (unfillable ms slots).getLast? with
    | some i => ∃ s', setValues p n ms s = .throw (.std (autoErr i)) s' ∧ s'.log = s.log
    | none => ∃ s', setValues p n ms s = .ok (tupVals ms slots) s' ∧ s'.log = s.log ∧ s'.heap p = s.heap p ∧
        (∀ q, (∀ m, n ≤ m → ¬ Below (.mem m :: p) q) → s'.heap q = s.heap q) ∧
        ∀ m, n ≤ m → m < n + ms.length → (s'.heap (.mem m :: p)).set = false
  | [], n, slots, s, hl, hh, hs => by
    simp only [unfillable, List.zip_nil_left, List.filter_nil, List.map_nil, List.getLast?_nil]
    exact ⟨s, rfl, rfl, rfl, fun _ _ => rfl, fun m h1 h2 => by simp at h2; omega⟩
  | (i, sh) :: ms, n, [], s, hl, hh, hs => by simp at hl
  | (i, sh) :: ms, n, d :: slots, s, hl, hh, hs => by
    have ih := setValues_spec ms (n + 1) slots s (by simpa using hl) hh.2
      (fun m i' sh' d' h1 h2 => hs (m + 1) i' sh' d' (by simpa using h1) (by simpa using h2))
    have hm : unfillable ((i, sh) :: ms) (d :: slots) =
        (if !d.isSet && (!i.optional || i.dflt.isNone) then [i] else []) ++ unfillable ms slots := by
      simp only [unfillable, List.zip_cons_cons, List.filter_cons]
      split <;> simp_all
    rw [hm]
    cases hg : (unfillable ms slots).getLast? with
    | some i' =>
      simp only [List.getLast?_append, hg, Option.some_or]
      rw [hg] at ih
      obtain ⟨s', h, hlog⟩ := ih
      exact ⟨s', by rw [setValues]; unfold M.bind; rw [h], hlog⟩
    | none =>
      rw [hg] at ih
      obtain ⟨s', h, hlog, hp, hframe, hset⟩ := ih
      simp only [List.getLast?_append, hg, Option.none_or]
      have hcell : s'.heap (.mem n :: p) = s.heap (.mem n :: p) :=
        hframe _ fun m hm hb => by
          have := below_eq_of_len hb (Below.refl _) rfl
          simp at this; omega
      have h1 : setValues p n ((i, sh) :: ms) s = (if (s.heap (.mem n :: p)).set then
            M.bind (popVal (.mem n :: p)) fun v => M.pure (v :: tupVals ms slots)
          else if i.optional then
            match i.dflt with
            | none => throwStd ("Optional member " ++ nameText (fun _ => "") i.name
                                  ++ " does not have a default value")
            | some d => M.pure (d :: tupVals ms slots)
          else throwStd ("Mandatory member " ++ nameText (fun _ => "") i.name ++ " is not present")) s' := by
        rw [setValues, bind_ok h, bind_getC, hcell]
        cases i.dflt <;> rfl
      rw [h1, hh.1.set]
      cases hd : d.isSet with
      | true =>
        have hv := hs 0 i sh d (by simp) (by simp) hd
        obtain ⟨v, hv⟩ := Option.isSome_iff_exists.1 hv
        have hval := hh.1.value hv
        simp only [Bool.not_true, Bool.false_and, Bool.false_eq_true, if_false, List.getLast?_nil, if_true]
        have hpop : popVal (.mem n :: p) s' = .ok v
            { s' with heap := s'.heap.upd (.mem n :: p) fun c => { c with set := false, val := .moved } } := by
          unfold popVal; rw [hcell, if_pos hval.1, hval.2]
        rw [bind_ok hpop]
        refine ⟨{ s' with heap := s'.heap.upd (.mem n :: p) fun c => { c with set := false, val := .moved } },
          by simp only [tupVals, List.zip_cons_cons, List.map_cons, hv, Option.some_or, Option.getD_some]; rfl, hlog, ?_, ?_, ?_⟩
        · simp only; rw [upd_other (by simp), hp]
        · intro q hq
          simp only
          rw [upd_other (by rintro rfl; exact hq n (Nat.le_refl _) (Below.refl _))]
          exact hframe q fun m hm => hq m (by omega)
        · intro m h1 h2
          simp only
          by_cases e : m = n
          · subst e; simp
          · rw [upd_other (by simp [e])]; exact hset m (by omega) (by simp at h2; omega)
      | false =>
        have hvn : d.value? = none := by cases d <;> simp [D.isSet] at hd; rfl
        cases ho : i.optional with
        | false =>
          simp only [Bool.not_false, Bool.true_or, Bool.and_self, if_true, Bool.false_eq_true, if_false,
            List.getLast?_singleton]
          exact ⟨s', by simp [autoErr, ho, nameText_show, throwStd], hlog⟩
        | true =>
          cases hdf : i.dflt with
          | none =>
            simp only [Bool.not_false, Bool.not_true, Option.isNone_none, Bool.or_true, Bool.and_self, if_true,
              Bool.false_eq_true, if_false, List.getLast?_singleton]
            exact ⟨s', by simp [autoErr, ho, nameText_show, throwStd], hlog⟩
          | some dv =>
            simp only [Bool.not_false, Bool.not_true, Option.isNone_some, Bool.or_false, Bool.and_false, if_true,
              Bool.false_eq_true, if_false, List.getLast?_nil]
            refine ⟨s', by simp [tupVals, hvn, hdf, M.pure], hlog, hp, fun q hq => hframe q fun m hm => hq m (by omega), ?_⟩
            intro m h1 h2
            by_cases e : m = n
            · subst e; rw [hcell, hh.1.set, hd]
            · exact hset m (by omega) (by simp at h2; omega)


/-- Empty object: nothing happens. -/
theorem unlessEmpty_true {p} {m : M Unit} {s : St} (h : (s.heap p).empty = true) :
    unlessEmpty p m s = .ok () { s with heap := s.heap.upd p fun c => { c with set := false } } := by
  unfold unlessEmpty; rw [bind_getC, if_pos h]; rfl
theorem unlessEmpty_false {p} {m : M Unit} {s : St} (h : (s.heap p).empty = false) :
    unlessEmpty p m s = m s := by
  unfold unlessEmpty; rw [bind_getC, if_neg (by simp [h])]

theorem Meets.done {p d} {m : Res Unit} {s s' : St} {l} (hl : s.log = l) (hset : d.isSet = true) (h : m = .ok () s')
    (hh : Holds s'.heap p d) (a : Arg) (ha : a.shows d) (hlog : s'.log = finLog E p a s.log) :
    Meets E (W.done p d) l (At p) m := by
  subst hl
  unfold W.done
  rw [if_pos hset]
  exact ⟨s', h, hh, by rw [hlog]; exact Logged.fin ha⟩

theorem complete_object (hE : Passive E) {p k u ms slots ne} {s : St} (he : (s.heap p).empty = !ne)
    (hw : (Shape.object k u ms).wf = true)
    (hh : HoldsL s.heap p 0 slots) (hs : fitsL ms slots = true)
    (hv : k = .custom → (s.heap p).val = .init) :
    Meets E ((W.lift (finishObject k ms slots ne)).bind (.done p)) s.log (At p) (complete E (.object k u ms) p s) := by
  rw [complete_unfold]
  have hfit : ∀ d, finishObject k ms slots ne = .ok d → (Shape.object k u ms).fits d = true := fun d h => finishObject_fits hw hs h
  have hh' : HoldsL (s.heap.upd p fun c => { c with set := true }) p 0 slots :=
    HoldsL.congr slots p 0 (fun q _ hn => upd_other hn) hh
  have he' : (s.heap.upd p (fun c => { c with set := true }) p).empty = !ne := by simpa using he
  have hsp : (s.heap.upd p (fun c => { c with set := true }) p).set = true := by simp
  have hv' : k = .custom → (s.heap.upd p (fun c => { c with set := true }) p).val = .init := by simpa using hv
  generalize s.heap.upd p (fun c => { c with set := true }) = h1 at *
  cases ne with
  | false =>
    have : finish E (.object k u ms) p { s with heap := h1 } =
        .ok () { s with heap := h1.upd p fun c => { c with set := false } } := by
      cases k <;> simp only [finish] <;> exact unlessEmpty_true he'
    rw [this]
    simp only [finishObject, Bool.not_false, if_true, W.lift_ok, W.done, D.isSet, Bool.false_eq_true, if_false]
    exact ⟨_, rfl, by simp [Holds], rfl⟩
  | true =>
    have plain : k ≠ .auto → Meets E ((W.lift (finishObject k ms slots true)).bind (.done p)) s.log (At p)
        (finish E (.object k u ms) p { s with heap := h1 }) := by
      intro hk
      have hfin : finish E (.object k u ms) p { s with heap := h1 } =
          M.bind (unsetOnThrow p fun s => match checkMembers s.heap p 0 ms with
            | some e => .throw (.std e) s
            | none => .ok () s) (fun _ => finishCbParser E (.object k u ms) (k == .custom) p) { s with heap := h1 } := by
        cases k with
        | auto => exact absurd rfl hk
        | plain => simp only [finish]; rw [unlessEmpty_false he']; rfl
        | custom => simp only [finish]; rw [unlessEmpty_false he']; rfl
      have hfo : finishObject k ms slots true = (match (missing ms slots).getLast? with
        | some i => .error ("Mandatory member " ++ showName (fun _ => "") i.name ++ " is not present")
        | none => .ok (.obj (if k = .custom then some .init else none) slots)) := by
        cases k with
        | auto => exact absurd rfl hk
        | plain => rfl
        | custom => rfl
      rw [hfo] at hfit
      rw [hfin, hfo]
      have hck := checkMembers_spec ms 0 slots (fitsL_length hs) hh'
      cases hg : (missing ms slots).getLast? with
      | some i =>
        rw [hg] at hck; simp only [Option.map_some] at hck
        refine ⟨{ s with heap := h1.upd p fun c => { c with set := false } },
          by unfold M.bind unsetOnThrow; simp only [hck], rfl⟩
      | none =>
        rw [hg] at hck; simp only [Option.map_none] at hck
        have : unsetOnThrow p (fun s => match checkMembers s.heap p 0 ms with
            | some e => .throw (.std e) s
            | none => .ok () s) { s with heap := h1 } = .ok () { s with heap := h1 } := by
          unfold unsetOnThrow; simp only [hck]
        rw [bind_ok this]
        rw [hE.finishParser (.object k u ms) (k == .custom) p { s with heap := h1 }]
        rw [hg] at hfit
        have hhold : Holds h1 p (.obj (if k = .custom then some .init else none) slots) := by
          simp only [Holds]
          refine ⟨hsp, ?_, hh'⟩
          intro w hw
          by_cases hc : k = .custom
          · rw [if_pos hc] at hw; injection hw with hw; rw [← hw]; exact hv' hc
          · rw [if_neg hc] at hw; simp at hw
        simp only [W.lift_ok]
        exact Meets.done (s := s) rfl rfl rfl hhold (.parser _) (snap_shows _ _ _ (hfit _ rfl) hhold) rfl
    cases k with
    | plain => exact plain (by simp)
    | custom => exact plain (by simp)
    | auto =>
      simp only [finish, finishObject, Bool.not_true, Bool.false_eq_true, if_false]
      rw [unlessEmpty_false he']
      have hsv := setValues_spec ms 0 slots { s with heap := h1 } (fitsL_length hs) hh' (fun m i sh d h1 h2 h3 => by
        obtain ⟨v, hv⟩ := fits_store (fitsL_get hs h1 h2) ((wfMs_mem (wf_object hw) h1).2.2 rfl) h3
        simp [hv])
      cases hg : (unfillable ms slots).getLast? with
      | some i =>
        rw [hg] at hsv
        obtain ⟨s', h, hlog⟩ := hsv
        refine ⟨{ s' with heap := s'.heap.upd p fun c => { c with set := false } }, ?_, hlog⟩
        unfold M.bind wrapOnThrow
        rw [h]
        simp only [autoErr]
      | none =>
        rw [hg] at hsv
        obtain ⟨s', h, hlog, hp, _, _⟩ := hsv
        have : wrapOnThrow p (setValues p 0 ms) { s with heap := h1 } = .ok (tupVals ms slots) s' := by
          unfold wrapOnThrow; rw [h]
        rw [bind_ok this, bind_modC]
        rw [hE.finishVal p { s' with heap := s'.heap.upd p fun c => { c with val := .tup (tupVals ms slots) } }]
        simp only [W.lift_ok]
        refine Meets.done (s := s) rfl rfl rfl ?_ (.val (.tup (tupVals ms slots))) rfl ?_
        · simp only [Holds, upd_same, hp, hsp, tupVals, true_and]
        · simp only [hlog, upd_same]

theorem checkAlt_spec {p a} : ∀ (ms : List (MInfo × Shape)) (n : Nat) (s : St),
    (s.heap p).set = true → (s.heap p).curId = a →
    checkAlt p n ms s = if n ≤ a then
      match ms[a - n]? with
      | some (i, _) => if !(s.heap (.mem a :: p)).set && !i.optional then
          .throw (.std ("Mandatory member #" ++ toString a ++ " is not present")) s else .ok () s
      | none => .ok () s
      else .ok () s
  | [], n, s, h1, h2 => by simp [checkAlt, M.pure]
  | (i, sh) :: ms, n, s, h1, h2 => by
    have ih := checkAlt_spec ms (n + 1) s h1 h2
    have hcur : currentMemberId p s = .ok a s := by unfold currentMemberId; rw [if_pos h1, h2]
    by_cases hn : n = a
    · subst hn
      rw [if_neg (by omega)] at ih
      rw [checkAlt, bind_ok ih, bind_ok hcur]
      simp only [ne_eq, not_true_eq_false, if_false, Nat.le_refl, if_true, Nat.sub_self, List.getElem?_cons_zero, bind_getC]
      split <;> rfl
    · by_cases hle : n ≤ a
      · rw [if_pos (by omega)] at ih
        rw [if_pos hle, show a - n = (a - (n + 1)) + 1 by omega, List.getElem?_cons_succ]
        rw [checkAlt]
        cases hg : ms[a - (n + 1)]? with
        | none =>
          rw [hg] at ih
          rw [bind_ok ih, bind_ok hcur, if_pos (fun h => hn h.symm)]; rfl
        | some x =>
          obtain ⟨i', sh'⟩ := x
          rw [hg] at ih
          simp only at ih ⊢
          split at ih
          · rename_i hc
            rw [if_pos hc]; unfold M.bind; rw [ih]
          · rename_i hc
            rw [if_neg hc, bind_ok ih, bind_ok hcur, if_pos (fun h => hn h.symm)]; rfl
      · rw [if_neg (by omega)] at ih
        rw [if_neg hle, checkAlt, bind_ok ih, bind_ok hcur, if_pos (fun h => hn h.symm)]; rfl

/-- What `SUnion::ValueSetter` does with the selected member. -/
def altRes (p : Path) (a : Nat) (i : MInfo) : M (Option Val) :=
  M.bind (getC (.mem a :: p)) fun c =>
    if c.set then M.bind (popVal (.mem a :: p)) fun v => M.pure (some (.alt a v))
    else if i.optional then
      match i.dflt with
      | none => throwStd ("Optional member #" ++ toString a ++ " does not have a default value")
      | some d => M.pure (some (.alt a d))
    else throwStd ("Mandatory member #" ++ toString a ++ " is not present")

theorem altRes_p {p a i} {s s' : St} {r} (h : altRes p a i s = .ok r s') : s'.heap p = s.heap p := by
  unfold altRes at h
  rw [bind_getC] at h
  split at h
  · rename_i hset
    obtain ⟨v, s1, h1, h2⟩ := bind_ok_inv h
    injection h2 with _ h2; subst h2
    unfold popVal at h1
    rw [if_pos hset] at h1
    injection h1 with _ h1; subst h1; simp only; rw [upd_other (by simp)]
  · split at h
    · cases hd : i.dflt <;> rw [hd] at h
      · simp [throwStd] at h
      · injection h with _ h; subst h; rfl
    · simp [throwStd] at h

theorem setAlt_spec {p a} : ∀ (ms : List (MInfo × Shape)) (n : Nat) (s : St),
    (s.heap p).set = true → (s.heap p).curId = a →
    setAlt p n ms s = if n ≤ a then
      match ms[a - n]? with
      | some (i, _) => altRes p a i s
      | none => .ok none s
      else .ok none s
  | [], n, s, h1, h2 => by simp [setAlt, M.pure]
  | (i, sh) :: ms, n, s, h1, h2 => by
    have ih := setAlt_spec ms (n + 1) s h1 h2
    have hcur : ∀ s' : St, s'.heap p = s.heap p → currentMemberId p s' = .ok a s' := by
      intro s' e; unfold currentMemberId; rw [e, if_pos h1, h2]
    by_cases hn : n = a
    · subst hn
      rw [if_neg (by omega)] at ih
      rw [setAlt, bind_ok ih, bind_ok (hcur s rfl)]
      simp only [ne_eq, not_true_eq_false, if_false, Nat.le_refl, if_true, Nat.sub_self, List.getElem?_cons_zero]
      unfold altRes
      cases i.dflt <;> rfl
    · by_cases hle : n ≤ a
      · rw [if_pos (by omega)] at ih
        rw [if_pos hle, show a - n = (a - (n + 1)) + 1 by omega, List.getElem?_cons_succ]
        rw [setAlt]
        cases hg : ms[a - (n + 1)]? with
        | none =>
          rw [hg] at ih
          rw [bind_ok ih, bind_ok (hcur s rfl), if_pos (fun h => hn h.symm)]; rfl
        | some x =>
          obtain ⟨i', sh'⟩ := x
          rw [hg] at ih
          simp only at ih ⊢
          rw [← ih]
          unfold M.bind
          cases hc : setAlt p (n + 1) ms s with
          | ok r s' =>
            simp only
            have hp := altRes_p (ih ▸ hc)
            rw [hcur s' hp]
            simp only
            rw [if_pos (fun h => hn h.symm)]; rfl
          | _ => rfl
      · rw [if_neg (by omega)] at ih
        rw [if_neg hle, setAlt, bind_ok ih, bind_ok (hcur s rfl), if_pos (fun h => hn h.symm)]; rfl

theorem complete_union_empty {p ty tm st ms} {s : St} (he : (s.heap p).empty = true) :
    Meets E (W.lift (.ok .unset)) s.log (At p) (complete E (.union ty tm st ms) p s) := by
  rw [complete_unfold]
  have : finish E (.union ty tm st ms) p { s with heap := s.heap.upd p fun c => { c with set := true } } =
      .ok () { s with heap := (s.heap.upd p fun c => { c with set := true }).upd p fun c => { c with set := false } } := by
    cases st <;> simp only [finish] <;> exact unlessEmpty_true (by simpa using he)
  rw [this]
  exact ⟨_, rfl, by simp [Holds], rfl⟩

theorem complete_union (hE : Passive E) {p ty tm st ms a i ash d} {s : St} (he : (s.heap p).empty = false)
    (hw : (Shape.union ty tm st ms).wf = true)
    (hc : (s.heap p).curId = a) (hm : ms[a]? = some (i, ash)) (hh : Holds s.heap (.mem a :: p) d)
    (hs : ash.fits d = true) :
    Meets E ((W.lift (finishUnion st ms a d)).bind (.done p)) s.log (At p) (complete E (.union ty tm st ms) p s) := by
  rw [complete_unfold]
  have hfit : ∀ d', finishUnion st ms a d = .ok d' → (Shape.union ty tm st ms).fits d' = true :=
    fun d h => finishUnion_fits hw hm hs h
  have hh' : Holds (s.heap.upd p fun c => { c with set := true }) (.mem a :: p) d :=
    Holds.congr d _ (fun q hq => upd_other (ne_of_below_step hq)) hh
  have he' : (s.heap.upd p (fun c => { c with set := true }) p).empty = false := by simpa using he
  have hsp : (s.heap.upd p (fun c => { c with set := true }) p).set = true := by simp
  have hc' : (s.heap.upd p (fun c => { c with set := true }) p).curId = a := by simpa using hc
  generalize s.heap.upd p (fun c => { c with set := true }) = h1 at *
  cases st with
  | false =>
    simp only [finishUnion, hm, Bool.not_false, if_true] at hfit
    simp only [finish, finishUnion, hm, Bool.not_false, if_true]
    rw [unlessEmpty_false he']
    have hca := checkAlt_spec (p := p) ms 0 { s with heap := h1 } hsp hc'
    rw [if_pos (Nat.zero_le _), Nat.sub_zero, hm] at hca
    simp only [hh'.set] at hca
    split
    · rename_i hcond
      rw [if_pos hcond] at hca
      exact ⟨{ s with heap := h1.upd p fun c => { c with set := false } }, by unfold M.bind unsetOnThrow; rw [hca], rfl⟩
    · rename_i hcond
      rw [if_neg hcond] at hca hfit
      have : unsetOnThrow p (checkAlt p 0 ms) { s with heap := h1 } = .ok () { s with heap := h1 } := by
        unfold unsetOnThrow; rw [hca]
      rw [bind_ok this]
      rw [hE.finishParser (.union ty tm false ms) false p { s with heap := h1 }]
      have hhold : Holds h1 p (.alt a d) := by simp only [Holds]; exact ⟨hsp, hc', hh'⟩
      simp only [W.lift_ok]
      exact Meets.done (s := s) rfl rfl rfl hhold (.parser _) (snap_shows _ _ _ (hfit _ rfl) hhold) rfl
  | true =>
    simp only [finish, finishUnion, hm, Bool.not_true, Bool.false_eq_true, if_false]
    rw [unlessEmpty_false he']
    have hca := setAlt_spec (p := p) ms 0 { s with heap := h1 } hsp hc'
    rw [if_pos (Nat.zero_le _), Nat.sub_zero, hm] at hca
    simp only at hca
    have fin : ∀ (v : Val) (s' : St), altRes p a i { s with heap := h1 } = .ok (some (.alt a v)) s' → s'.log = s.log →
        Meets E ((W.lift (.ok (.val (.alt a v)))).bind (.done p)) s.log (At p) (M.bind (wrapOnThrow p (setAlt p 0 ms)) (fun r =>
          M.bind (match r with
            | some v => modC p fun c => { c with val := v }
            | none => M.pure ()) fun _ => finishCbVal E p) { s with heap := h1 }) := by
      intro v s' h hlog
      have hp := altRes_p h
      have : wrapOnThrow p (setAlt p 0 ms) { s with heap := h1 } = .ok (some (.alt a v)) s' := by
        unfold wrapOnThrow; rw [hca, h]
      rw [bind_ok this]
      simp only [bind_modC]
      rw [hE.finishVal p { s' with heap := s'.heap.upd p fun c => { c with val := .alt a v } }]
      simp only [W.lift_ok]
      refine Meets.done (s := s) rfl rfl rfl ?_ (.val (.alt a v)) rfl ?_
      · simp only [Holds, upd_same, hp, hsp, true_and]
      · simp only [hlog, upd_same]
    have err : ∀ (m : String), cText m = m → altRes p a i { s with heap := h1 } = .throw (.std m) { s with heap := h1 } →
        Meets E ((W.lift (.error ("Can not set value: " ++ m))).bind (.done p)) s.log (At p) (M.bind (wrapOnThrow p (setAlt p 0 ms)) (fun r =>
          M.bind (match r with
            | some v => modC p fun c => { c with val := v }
            | none => M.pure ()) fun _ => finishCbVal E p) { s with heap := h1 }) := by
      intro m hm h
      exact ⟨{ s with heap := h1.upd p fun c => { c with set := false } }, by unfold M.bind wrapOnThrow; rw [hca, h]; simp only [hm], rfl⟩
    cases hd : d.isSet with
    | true =>
      obtain ⟨v, hv⟩ := fits_store hs ((wfMs_mem (wf_union hw) hm).2.2 rfl) hd
      have hval := hh'.value hv
      rw [hv]
      refine fin v { s with heap := h1.upd (.mem a :: p) fun c => { c with set := false, val := .moved } } ?_ rfl
      unfold altRes
      rw [bind_getC, if_pos hval.1]
      have hpop : popVal (.mem a :: p) { s with heap := h1 } = .ok v
          { s with heap := h1.upd (.mem a :: p) fun c => { c with set := false, val := .moved } } := by
        unfold popVal; rw [if_pos hval.1, hval.2]
      rw [bind_ok hpop]; rfl
    | false =>
      have hvn : d.value? = none := by cases d <;> simp [D.isSet] at hd; rfl
      have hset := hh'.set
      rw [hd] at hset
      rw [hvn]
      cases ho : i.optional with
      | false =>
        simp only [Bool.false_eq_true, if_false]
        refine err _ (cText_mandatoryAlt _) ?_
        unfold altRes; rw [bind_getC, if_neg (by simp [hset]), if_neg (by simp [ho])]; rfl
      | true =>
        cases hdf : i.dflt with
        | none =>
          simp only [if_true]
          refine err _ (cText_noDefaultAlt _) ?_
          unfold altRes; rw [bind_getC, if_neg (by simp [hset]), if_pos ho, hdf]; rfl
        | some v =>
          simp only [if_true]
          refine fin v { s with heap := h1 } ?_ rfl
          unfold altRes; rw [bind_getC, if_neg (by simp [hset]), if_pos ho, hdf]; rfl

/-! ### Invariant while a JSON object is being read -/

/-- What the fields read so far left in the parser. -/
def Acc (sh : Shape) (h : Heap) (p : Path) (slots : List D) (ents : List (String × Val)) (ne : Bool) : Prop :=
  match sh with
  | .object k _ ms => (h p).empty = (!ne) ∧ HoldsL h p 0 slots ∧ fitsL ms slots = true ∧ (k = .custom → (h p).val = .init)
  | .map st _ => st = true → (h p).val = .map ents
  | .union _ _ _ _ => (h p).empty = true
  | _ => True

theorem Acc.congr {sh p slots ents ne} {h h' : Heap} (a : Acc sh h p slots ents ne) (he : ∀ q, Below p q → h' q = h q) :
    Acc sh h' p slots ents ne := by
  have h0 := he p (Below.refl _)
  unfold Acc at *
  cases sh <;> simp only [h0] at * <;> try exact a
  exact ⟨a.1, HoldsL.congr slots p 0 (fun q hq _ => he q hq) a.2.1, a.2.2⟩

theorem resetH_self (sh p h) : (resetH p sh h p).set = false ∧ (resetH p sh h p).empty = true := by
  cases sh with
  | value | ignore => simp [resetH, Cell.baseReset]
  | object k u ms =>
    have : (resetMs p 0 ms (h.upd p Cell.baseReset) p) = Cell.baseReset (h p) := by
      rw [resetMs_other ms p 0 _ p (fun m _ _ => below_self_cons)]; simp
    cases k <;> simp [resetH, Heap.upd, this, Cell.baseReset] <;>
      simp [Heap.upd, Cell.baseReset] at this <;> simp [this]
  | union ty tm st ms =>
    have : ∀ h : Heap, (resetMs p 0 ms (h.upd p Cell.baseReset) p) = Cell.baseReset (h p) := by
      intro h; rw [resetMs_other ms p 0 _ p (fun m _ _ => below_self_cons)]; simp
    simp only [resetH]
    split <;> simp [upd_apply, this, Cell.baseReset]
  | array st e =>
    have : resetH (.elem :: p) e (h.upd p Cell.baseReset) p = Cell.baseReset (h p) := by
      rw [resetH_frame e _ _ p below_self_cons]; simp
    simp only [resetH]
    split <;> simp [this, Cell.baseReset]
  | map st e =>
    simp only [resetH]
    split <;> simp [Cell.baseReset]

theorem resetH_object_member {k u} {ms : List (MInfo × Shape)} {a i sh p} (h : Heap)
    (hm : ms[a]? = some (i, sh)) {q} (hq : Below (.mem a :: p) q) :
    resetH p (.object k u ms) h q = resetH (.mem a :: p) sh h q := by
  have hqp : q ≠ p := ne_of_below_step hq
  have hqi : q ≠ .ign :: p := by
    rintro rfl
    exact below_disjoint (st := .mem a) (st' := .ign) (by simp) hq (Below.refl _)
  have h1 : resetMs p 0 ms (h.upd p Cell.baseReset) q = resetH (.mem a :: p) sh h q := by
    have := resetMs_at ms p 0 (h.upd p Cell.baseReset) a i sh hm q (by rw [Nat.zero_add]; exact hq)
    rw [Nat.zero_add] at this
    rw [this]
    exact resetH_ptw sh _ _ _ q (upd_other hqp)
  cases k <;> simp only [resetH] <;> simp only [upd_other hqp, upd_other hqi, h1]

theorem noSlots_holds {k u ms p h} : HoldsL (resetH p (.object k u ms) h) p 0 (noSlots (.object k u ms)) := by
  apply HoldsL.intro
  intro m d hd
  rw [Nat.zero_add]
  simp only [noSlots, List.getElem?_map] at hd
  cases hm : ms[m]? with
  | none => rw [hm] at hd; simp at hd
  | some x =>
    rw [hm] at hd; simp at hd; subst hd
    obtain ⟨i, sh⟩ := x
    simp only [Holds]
    rw [resetH_object_member h hm (Below.refl _)]
    exact (resetH_self _ _ _).1

theorem Acc.reset (sh p h) : Acc sh (resetH p sh h) p (noSlots sh) [] false := by
  have hs := resetH_self sh p h
  unfold Acc
  cases sh <;> simp only
  · refine ⟨hs.2, noSlots_holds, fitsL_none _, ?_⟩
    rintro rfl
    simp [resetH]
  · exact hs.2
  · intro h'; subst h'; simp [resetH]

end SJ
