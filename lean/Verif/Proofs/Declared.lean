/-
The order in which members are declared (C63).
-/
import Verif.Proofs.Conform
import Verif.Proofs.Context

set_option linter.unusedVariables false

namespace SJ

variable {ms ms' : List (MInfo × Shape)}

/-- Two members of the two lists are the same one. -/
theorem perm_named (hp : ms.Perm ms') (hd : DistinctNames ms) (hd' : DistinctNames ms') {x : Scalar} {n m} (h : lookup x 0 ms = some (n, m)) :
    ∃ n' i, lookup x 0 ms' = some (n', m) ∧ ms[n]? = some (i, m) ∧ ms'[n']? = some (i, m) ∧ i.name.cppEq x = true := by
  obtain ⟨i, hi⟩ := Named.of_lookup h
  have hmem : (i, m) ∈ ms' := hp.mem_iff.1 (List.mem_of_getElem? hi.here)
  obtain ⟨n', hn'⟩ := List.mem_iff_getElem?.1 hmem
  exact ⟨n', i, Named.lookup hd' ⟨hn', hi.name⟩, hi.here, hn', hi.name⟩

theorem perm_unnamed (hp : ms.Perm ms') {x : Scalar} (h : lookup x 0 ms = none) : lookup x 0 ms' = none := by
  rw [lookup_none] at h ⊢
  exact fun y hy => h y (hp.mem_iff.2 hy)

/-- Writing one slot, seen as a map over the members. -/
def putAt {β} (x : Scalar) (d : β) : (MInfo × Shape) × β → (MInfo × Shape) × β := fun y => if y.1.1.name.cppEq x then (y.1, d) else y

theorem zip_set {β} {x : Scalar} {d : β} (hd : DistinctNames ms) {n i m} (hn : ms[n]? = some (i, m)) (hx : i.name.cppEq x = true) (slots : List β) :
    ms.zip (slots.set n d) = (ms.zip slots).map (putAt x d) := by
  apply List.ext_getElem?
  intro k
  simp only [List.getElem?_map, List.zip, List.getElem?_zipWith, List.getElem?_set]
  cases hk : ms[k]? with
  | none => simp
  | some y =>
    by_cases hkn : n = k
    · subst hkn
      rw [hn] at hk; injection hk with hk; subst hk
      cases hs : slots[n]? with
      | none =>
        have : ¬ n < slots.length := by
          intro hlt; rw [List.getElem?_eq_getElem hlt] at hs; simp at hs
        simp [this]
      | some s =>
        have : n < slots.length := by
          rcases Nat.lt_or_ge n slots.length with h | h
          · exact h
          · rw [List.getElem?_eq_none h] at hs; simp at hs
        simp [this, putAt, hx]
    · have hne : y.1.name.cppEq x = false := by
        cases hc : y.1.name.cppEq x with
        | false => rfl
        | true => exact absurd (hd n k _ _ hn hk (cppEq_join hx hc)) hkn
      cases hs : slots[k]? with
      | none => simp [hkn]
      | some s => simp [hkn, putAt, hne]

/-- The members hold the same, by name. -/
def SameSlots {β} (ms ms' : List (MInfo × Shape)) (slots slots' : List β) : Prop :=
  slots.length = ms.length ∧ slots'.length = ms'.length ∧ (ms.zip slots).Perm (ms'.zip slots')

theorem SameSlots.set {β} {slots slots' : List β} (h : SameSlots ms ms' slots slots') (hd : DistinctNames ms) (hd' : DistinctNames ms') {x : Scalar} {d : β} {n n' i m}
    (hn : ms[n]? = some (i, m)) (hn' : ms'[n']? = some (i, m)) (hx : i.name.cppEq x = true) : SameSlots ms ms' (slots.set n d) (slots'.set n' d) := by
  refine ⟨by simp [h.1], by simp [h.2.1], ?_⟩
  rw [zip_set hd hn hx, zip_set hd' hn' hx]
  exact h.2.2.map _

theorem zip_const {α β} (d : β) : ∀ l : List α, l.zip (l.map fun _ => d) = l.map fun x => (x, d)
  | [] => rfl
  | a :: l => by simp [zip_const d l]

theorem SameSlots.none (hp : ms.Perm ms') : SameSlots ms ms' (ms.map fun _ => D.unset) (ms'.map fun _ => D.unset) := by
  refine ⟨by simp, by simp, ?_⟩
  rw [zip_const, zip_const]
  exact hp.map _

/-- The same slot under the same name. -/
theorem SameSlots.get {β} {slots slots' : List β} (h : SameSlots ms ms' slots slots') (hd' : DistinctNames ms') {n n' : Nat} {y : MInfo × Shape} (hr : y.1.name.cppEq y.1.name = true)
    (hn : ms[n]? = some y) (hn' : ms'[n']? = some y) : slots[n]? = slots'[n']? := by
  have hlt : n < ms.length := by
    rcases Nat.lt_or_ge n ms.length with h | h
    · exact h
    · rw [List.getElem?_eq_none h] at hn; simp at hn
  have hs : n < slots.length := by rw [h.1]; exact hlt
  have h1 : (y, slots[n]) ∈ ms.zip slots := by
    rw [List.mem_iff_getElem?]
    exact ⟨n, by simp [List.zip, List.getElem?_zipWith, hn, List.getElem?_eq_getElem hs]⟩
  have h2 := h.2.2.mem_iff.1 h1
  obtain ⟨k, hk⟩ := List.mem_iff_getElem?.1 h2
  simp only [List.zip, List.getElem?_zipWith] at hk
  cases hmk : ms'[k]? with
  | none => rw [hmk] at hk; simp at hk
  | some z =>
    cases hsk : slots'[k]? with
    | none => rw [hmk, hsk] at hk; simp at hk
    | some w =>
      rw [hmk, hsk] at hk
      simp at hk
      obtain ⟨rfl, rfl⟩ := hk
      have := hd' k n' _ _ hmk hn' hr
      subst this
      rw [hsk, List.getElem?_eq_getElem hs]

/-- What two objects with the same members in different orders hold. -/
inductive SameMembers (ms ms' : List (MInfo × Shape)) : D → D → Prop
  | unset : SameMembers ms ms' .unset .unset
  | tuple {vs vs'} : SameSlots ms ms' vs vs' → SameMembers ms ms' (.val (.tup vs)) (.val (.tup vs'))
  | object {v ds ds'} : SameSlots ms ms' ds ds' → SameMembers ms ms' (.obj v ds) (.obj v ds')

/-- Both succeed, with related results, or both fail. -/
def BothWays {α β} (P : α → β → Prop) : Except String α → Except String β → Prop
  | .ok a, .ok b => P a b
  | .error _, .error _ => True
  | _, _ => False

theorem BothWays.bind {α β γ δ} {P : α → β → Prop} {Q : γ → δ → Prop} {x : Except String α} {y : Except String β} {f : α → Except String γ} {g : β → Except String δ}
    (h : BothWays P x y) (hf : ∀ a b, P a b → BothWays Q (f a) (g b)) : BothWays Q (x >>= f) (y >>= g) := by
  cases x <;> cases y <;> simp only [BothWays] at h
  · trivial
  · exact hf _ _ h

theorem BothWays.refl {α} {x : Except String α} : BothWays (· = ·) x x := by cases x <;> simp [BothWays]

theorem last_none {α} {l l' : List α} (h : l.Perm l') (hl : l.getLast? = none) : l'.getLast? = none := by
  rw [List.getLast?_eq_none_iff] at hl ⊢
  subst hl
  exact h.nil_eq.symm

theorem finishObject_declared {k ne} {slots slots' : List D} (h : SameSlots ms ms' slots slots') :
    BothWays (SameMembers ms ms') (finishObject k ms slots ne) (finishObject k ms' slots' ne) := by
  have hu : (unfillable ms slots).Perm (unfillable ms' slots') := (h.2.2.filter _).map _
  have hm : (missing ms slots).Perm (missing ms' slots') := (h.2.2.filter _).map _
  unfold finishObject
  cases ne with
  | false => exact .unset
  | true =>
    simp only [Bool.not_true, Bool.false_eq_true, if_false]
    cases k with
    | auto =>
      simp only
      cases h1 : (unfillable ms slots).getLast? with
      | none =>
        rw [last_none hu h1]
        refine .tuple ⟨by simp [h.1], by simp [h.2.1], ?_⟩
        have key : ∀ (l : List (MInfo × Shape)) (s : List D) (g : (MInfo × Shape) × D → Val), l.zip ((l.zip s).map g) = (l.zip s).map fun x => (x.1, g x) := by
          intro l
          induction l with
          | nil => intro s g; rfl
          | cons a l ih => intro s g; cases s with
            | nil => simp
            | cons b s => simp [ih]
        rw [key, key]
        exact h.2.2.map _
      | some i =>
        cases h2 : (unfillable ms' slots').getLast? with
        | none => rw [last_none hu.symm h2] at h1; simp at h1
        | some i' => trivial
    | plain =>
      simp only
      cases h1 : (missing ms slots).getLast? with
      | none => rw [last_none hm h1]; exact .object h
      | some i =>
        cases h2 : (missing ms' slots').getLast? with
        | none => rw [last_none hm.symm h2] at h1; simp at h1
        | some i' => trivial
    | custom =>
      simp only
      cases h1 : (missing ms slots).getLast? with
      | none => rw [last_none hm h1]; exact .object h
      | some i =>
        cases h2 : (missing ms' slots').getLast? with
        | none => rw [last_none hm.symm h2] at h1; simp at h1
        | some i' => trivial

/-- The main induction: the fields of the object. -/
theorem fields_declared {fmt k u} (hp : ms.Perm ms') (hd : DistinctNames ms) (hd' : DistinctNames ms') : ∀ (fs : List (String × Json)) (slots slots' : List D) (ne : Bool),
    SameSlots ms ms' slots slots' →
    BothWays (SameMembers ms ms') (denFields fmt (.object k u ms) slots [] ne fs) (denFields fmt (.object k u ms') slots' [] ne fs)
  | [], slots, slots', ne, h => by
    rw [denFields, denFields]
    exact finishObject_declared h
  | (key, v) :: fs, slots, slots', ne, h => by
    rw [denFields, denFields]
    cases hl : lookup (.str key) 0 ms with
    | none =>
      rw [perm_unnamed hp hl]
      simp only
      split
      · trivial
      · exact fields_declared hp hd hd' fs slots slots' true h
    | some nm =>
      obtain ⟨n, m⟩ := nm
      obtain ⟨n', i, hl', hn, hn', hx⟩ := perm_named hp hd hd' hl
      rw [hl']
      simp only
      cases he : embedded m v with
      | none =>
        refine BothWays.refl.bind fun d d' hdd => ?_
        subst hdd
        exact fields_declared hp hd hd' fs _ _ true (h.set hd hd' hn hn' hx)
      | some z =>
        refine BothWays.refl.bind fun a a' haa => ?_
        subst haa
        refine BothWays.refl.bind fun d d' hdd => ?_
        subst hdd
        refine BothWays.refl.bind fun d d' hdd => ?_
        subst hdd
        exact finishObject_declared (h.set hd hd' hn hn' hx)

/-- Of two unions with the same alternatives in different orders the same one is selected. -/
inductive SameChoice (ms ms' : List (MInfo × Shape)) : D → D → Prop
  | unset : SameChoice ms ms' .unset .unset
  | alt {n n' : Nat} {y : MInfo × Shape} {d : D} : ms[n]? = some y → ms'[n']? = some y → SameChoice ms ms' (.alt n d) (.alt n' d)
  | value {n n' : Nat} {y : MInfo × Shape} {v : Val} : ms[n]? = some y → ms'[n']? = some y → SameChoice ms ms' (.val (.alt n v)) (.val (.alt n' v))

theorem finishUnion_declared {st n n' i m d} (hn : ms[n]? = some (i, m)) (hn' : ms'[n']? = some (i, m)) :
    BothWays (SameChoice ms ms') (finishUnion st ms n d) (finishUnion st ms' n' d) := by
  unfold finishUnion
  rw [hn, hn']
  simp only
  cases st with
  | false =>
    simp only [Bool.not_false, if_true]
    split
    · trivial
    · exact .alt hn hn'
  | true =>
    simp only [Bool.not_true, Bool.false_eq_true, if_false]
    split
    · exact .value hn hn'
    · split
      · split
        · exact .value hn hn'
        · trivial
      · trivial

theorem union_declared {fmt ty tm st} (hp : ms.Perm ms') (hd : DistinctNames ms) (hd' : DistinctNames ms') (fs : List (String × Json)) :
    BothWays (SameChoice ms ms') (denote fmt (.union ty tm st ms) (.obj fs)) (denote fmt (.union ty tm st ms') (.obj fs)) := by
  unfold denote
  simp only [noSlots]
  split
  · trivial
  cases fs with
  | nil => rw [denFields, denFields]; exact .unset
  | cons kv fs =>
    obtain ⟨k, v⟩ := kv
    cases v with
    | null => unfold denFields; simp only; split; · trivial
              split <;> trivial
    | arr _ => unfold denFields; simp only; split; · trivial
               split <;> trivial
    | obj _ => unfold denFields; simp only; split; · trivial
               split <;> trivial
    | sc x =>
      unfold denFields
      simp only
      split
      · trivial
      split
      · trivial
      split
      · unfold selectAlt
        cases hl : lookup x 0 ms with
        | none => rw [perm_unnamed hp hl]; trivial
        | some nm =>
          obtain ⟨n, m⟩ := nm
          obtain ⟨n', i, hl', hn, hn', hx⟩ := perm_named hp hd hd' hl
          rw [hl']
          simp only [Except.bind, bind]
          cases denFields fmt m (noSlots m) [] false fs with
          | error e => trivial
          | ok d => exact finishUnion_declared hn hn'
      · trivial

/-- Whether a document is outside the known defects does not depend on the order. -/
theorem okFields_declared {k u} (hp : ms.Perm ms') (hd : DistinctNames ms) (hd' : DistinctNames ms') : ∀ fs : List (String × Json),
    okFields (.object k u ms) fs = okFields (.object k u ms') fs
  | [] => by rw [okFields, okFields]
  | (key, v) :: fs => by
    rw [okFields, okFields]
    cases hl : lookup (.str key) 0 ms with
    | none =>
      rw [perm_unnamed hp hl]
      simp only [okFields_declared hp hd hd' fs]
    | some nm =>
      obtain ⟨n, m⟩ := nm
      obtain ⟨n', i, hl', hn, hn', hx⟩ := perm_named hp hd hd' hl
      rw [hl']
      simp only [okFields_declared hp hd hd' fs]

theorem okUnion_declared {ty tm st} (hp : ms.Perm ms') (hd : DistinctNames ms) (hd' : DistinctNames ms') (fs : List (String × Json)) :
    okFields (.union ty tm st ms) fs = okFields (.union ty tm st ms') fs := by
  cases fs with
  | nil => rw [okFields, okFields]
  | cons kv fs =>
    obtain ⟨key, v⟩ := kv
    cases v with
    | null => unfold okFields; rfl
    | arr _ => unfold okFields; rfl
    | obj _ => unfold okFields; rfl
    | sc x =>
      unfold okFields
      simp only
      cases hl : lookup x 0 ms with
      | none => rw [perm_unnamed hp hl]
      | some nm =>
        obtain ⟨n, m⟩ := nm
        obtain ⟨n', i, hl', hn, hn', hx⟩ := perm_named hp hd hd' hl
        rw [hl']

theorem okVal_object_declared {k u} (hp : ms.Perm ms') (hd : DistinctNames ms) (hd' : DistinctNames ms') (j : Json) : okVal (.object k u ms) j = okVal (.object k u ms') j := by
  cases j <;> unfold okVal <;> first | rfl | exact okFields_declared hp hd hd' _

theorem okVal_union_declared {ty tm st} (hp : ms.Perm ms') (hd : DistinctNames ms) (hd' : DistinctNames ms') (j : Json) :
    okVal (.union ty tm st ms) j = okVal (.union ty tm st ms') j := by
  cases j with
  | obj fs => unfold okVal; simp only [okUnion_declared hp hd hd']
  | _ => unfold okVal; rfl

/-- Well-formedness neither. -/
theorem wfMs_iff {ty st} : ∀ {ms : List (MInfo × Shape)}, wfMs ty st ms = true ↔ ∀ y ∈ ms, wfMs ty st [y] = true
  | [] => by simp [wfMs]
  | (i, sh) :: ms => by
    have ih := @wfMs_iff ty st ms
    rw [wfMs]
    simp only [List.mem_cons, forall_eq_or_imp, Bool.and_eq_true, ← ih]
    simp [wfMs, and_assoc]

theorem wfMs_declared {ty st} (hp : ms.Perm ms') (h : wfMs ty st ms = true) : wfMs ty st ms' = true :=
  wfMs_iff.2 fun y hy => wfMs_iff.1 h y (hp.mem_iff.2 hy)

theorem DistinctNames.perm (hp : ms.Perm ms') (hd : DistinctNames ms) : DistinctNames ms' := by
  have h1 : ms.Pairwise fun a b => a.1.name.cppEq b.1.name = false := by
    rw [List.pairwise_iff_getElem]
    intro a b ha hb hab
    cases hc : ms[a].1.name.cppEq ms[b].1.name with
    | false => rfl
    | true => exact absurd (hd a b _ _ (List.getElem?_eq_getElem ha) (List.getElem?_eq_getElem hb) hc) (Nat.ne_of_lt hab)
  have h2 := h1.perm hp (fun {a b} h => by rw [cppEq_comm]; exact h)
  rw [List.pairwise_iff_getElem] at h2
  intro a b x y hx hy hc
  obtain ⟨ha, rfl⟩ := List.getElem?_eq_some_iff.1 hx
  obtain ⟨hb, rfl⟩ := List.getElem?_eq_some_iff.1 hy
  rcases Nat.lt_trichotomy a b with h | h | h
  · have := h2 a b ha hb h; rw [hc] at this; cases this
  · exact h
  · have := h2 b a hb ha h; rw [cppEq_comm, hc] at this; cases this

theorem object_declared {fmt k u} (hp : ms.Perm ms') (hd : DistinctNames ms) (hd' : DistinctNames ms') (j : Json) :
    BothWays (SameMembers ms ms') (denote fmt (.object k u ms) j) (denote fmt (.object k u ms') j) := by
  cases j with
  | null => rw [denote, denote]; exact .unset
  | sc x => unfold denote; trivial
  | arr l => unfold denote; trivial
  | obj fs => unfold denote; exact fields_declared hp hd hd' fs _ _ _ (SameSlots.none hp)

end SJ
