/-
`SCustomObject`s that build their values are `SAutoObject`s followed by a conversion (C60).
-/
import Verif.SpecCustom
import Verif.Proofs.ActiveFacts

set_option linter.unusedVariables false

namespace SJ

variable {F : Handlers} {B : Builders} {R : Shape}

/-! ### Results -/

/-- What a parser of the tree of `SAutoObject`s holds, and what the parser in its place in the user's tree does. -/
def Turned (B : Builders) (p : Path) (sh : Shape) (d' d : D) : Prop :=
  (d' = .unset ∧ d = .unset) ∨ ∃ v, d' = .val v ∧ d.value? = some (convert B p sh v)

def TurnedL (B : Builders) (p : Path) : Nat → List (MInfo × Shape) → List D → List D → Prop
  | n, [], [], [] => True
  | n, (_, sh) :: ms, d' :: ds', d :: ds => Turned B (.mem n :: p) sh d' d ∧ TurnedL B p (n + 1) ms ds' ds
  | _, _, _, _ => False

theorem value_set {d : D} {v} (h : d.value? = some v) : d.isSet = true := by cases d <;> simp_all [D.value?, D.isSet]

theorem Turned.set {p sh d' d} (h : Turned B p sh d' d) : d.isSet = d'.isSet := by
  rcases h with ⟨rfl, rfl⟩ | ⟨v, rfl, h⟩
  · rfl
  · rw [value_set h]; rfl

theorem Turned.value {p sh d' d} (h : Turned B p sh d' d) : d.value? = d'.value?.map (convert B p sh) := by
  rcases h with ⟨rfl, rfl⟩ | ⟨v, rfl, h⟩
  · rfl
  · rw [h]; rfl

theorem TurnedL.none {p} : ∀ {n} {ms : List (MInfo × Shape)}, TurnedL B p n ms (ms.map fun _ => .unset) (ms.map fun _ => .unset)
  | _, [] => trivial
  | n, (i, sh) :: ms => ⟨.inl ⟨rfl, rfl⟩, TurnedL.none⟩

theorem TurnedL.set {p} {x : MInfo × Shape} {d' d : D} : ∀ {n i : Nat} {ms : List (MInfo × Shape)} {ds' ds : List D}, TurnedL B p n ms ds' ds → ms[i]? = some x →
    Turned B (.mem (n + i) :: p) x.2 d' d → TurnedL B p n ms (ds'.set i d') (ds.set i d)
  | n, i, [], [], [], h, hx, hd => by simp at hx
  | n, 0, (j, sh) :: ms, e' :: ds', e :: ds, h, hx, hd => by
    simp at hx; subst hx
    exact ⟨hd, h.2⟩
  | n, i + 1, (j, sh) :: ms, e' :: ds', e :: ds, h, hx, hd => by
    simp at hx
    exact ⟨h.1, TurnedL.set h.2 hx (by rw [show n + 1 + i = n + (i + 1) by omega]; exact hd)⟩

/-! ### The customized tree -/

theorem customizeMs_get {p} : ∀ {n i : Nat} {ms : List (MInfo × Shape)}, (customizeMs B p n ms)[i]? =
    ms[i]?.map fun x => ({ x.1 with dflt := x.1.dflt.map (convert B (.mem (n + i) :: p) x.2) }, customize B (.mem (n + i) :: p) x.2)
  | n, i, [] => by simp [customizeMs]
  | n, 0, (j, sh) :: ms => by simp [customizeMs]
  | n, i + 1, (j, sh) :: ms => by
    simp only [customizeMs, List.getElem?_cons_succ]
    rw [customizeMs_get, show n + 1 + i = n + (i + 1) by omega]

theorem customizeMs_lookup {p name} : ∀ {n : Nat} {ms : List (MInfo × Shape)}, lookup name n (customizeMs B p n ms) =
    (lookup name n ms).map fun x => (x.1, customize B (.mem x.1 :: p) x.2)
  | n, [] => by simp [customizeMs, lookup]
  | n, (j, sh) :: ms => by
    simp only [customizeMs, lookup]
    split
    · rfl
    · exact customizeMs_lookup

theorem customizeMs_map {p} : ∀ {n : Nat} {ms : List (MInfo × Shape)} {d : D}, (customizeMs B p n ms).map (fun _ => d) = ms.map fun _ => d
  | n, [], d => rfl
  | n, (j, sh) :: ms, d => by simp [customizeMs, customizeMs_map]

theorem customize_embedded {p m v} : embedded (customize B p m) v = (embedded m v).map fun z => (z.1, z.2.1, customizeMs B p 0 z.2.2.1, z.2.2.2) := by
  cases m <;> cases v <;> simp [customize, embedded]

theorem customize_slots {p sh} : noSlots (customize B p sh) = noSlots sh := by
  cases sh <;> simp [customize, noSlots, customizeMs_map]

/-- The members of the converted tuple. -/
theorem memberValues_turned {p} : ∀ {n : Nat} {ms : List (MInfo × Shape)} {ds' ds : List D}, TurnedL B p n ms ds' ds →
    memberValues (customizeMs B p n ms) ds = convertMs B p n ms (memberValues ms ds')
  | n, [], [], [], h => by simp [customizeMs, memberValues, convertMs]
  | n, (i, sh) :: ms, d' :: ds', d :: ds, h => by
    have ih := memberValues_turned h.2
    unfold memberValues at ih ⊢
    simp only [customizeMs, List.zip_cons_cons, List.map_cons, convertMs, ih, h.1.value]
    congr 1
    cases d'.value? with
    | some v => simp
    | none =>
      cases i.dflt with
      | some v => simp
      | none => cases sh <;> simp [convert]

/-- Nothing is missing in the one iff nothing is missing in the other. -/
theorem unfillable_turned {p} : ∀ {n : Nat} {ms : List (MInfo × Shape)} {ds' ds : List D}, TurnedL B p n ms ds' ds →
    (unfillable (customizeMs B p n ms) ds = [] ↔ unfillable ms ds' = [])
  | n, [], [], [], h => by simp [customizeMs, unfillable]
  | n, (i, sh) :: ms, d' :: ds', d :: ds, h => by
    have ih := unfillable_turned h.2
    unfold unfillable at ih ⊢
    simp only [customizeMs, List.zip_cons_cons, List.filter_cons, h.1.set, Option.isNone_map]
    split <;> simp_all

theorem missing_turned {p} : ∀ {n : Nat} {ms : List (MInfo × Shape)} {ds' ds : List D}, TurnedL B p n ms ds' ds →
    (∀ x ∈ ms, x.1.optional = true → x.1.dflt.isSome = true) → (missing (customizeMs B p n ms) ds = [] ↔ unfillable ms ds' = [])
  | n, [], [], [], h, _ => by simp [customizeMs, unfillable, missing]
  | n, (i, sh) :: ms, d' :: ds', d :: ds, h, ho => by
    have ih := missing_turned h.2 fun x hx => ho x (by simp [hx])
    have h0 := ho (i, sh) (by simp)
    unfold unfillable missing at ih ⊢
    simp only [customizeMs, List.zip_cons_cons, List.filter_cons, h.1.set]
    simp only at h0
    cases d'.isSet <;> cases hop : i.optional <;> cases hdf : i.dflt <;> simp_all

theorem mapInsert_turned {g : Val → Val} {k v} : ∀ {l : List (String × Val)},
    mapInsert k (g v) (l.map fun kv => (kv.1, g kv.2)) = (mapInsert k v l).map fun kv => (kv.1, g kv.2)
  | [] => rfl
  | (k', v') :: l => by
    simp only [List.map_cons, mapInsert]
    split
    · rfl
    · split
      · rfl
      · simp [mapInsert_turned (l := l)]

theorem allStoredMs_get : ∀ {ms : List (MInfo × Shape)} {i : Nat} {x}, allStoredMs ms = true → ms[i]? = some x → allStored x.2 = true
  | [], i, x, h, hx => by simp at hx
  | (j, sh) :: ms, 0, x, h, hx => by
    simp only [allStoredMs, Bool.and_eq_true] at h
    simp at hx; subst hx; exact h.1
  | (j, sh) :: ms, i + 1, x, h, hx => by
    simp only [allStoredMs, Bool.and_eq_true] at h
    exact allStoredMs_get h.2 (by simpa using hx)

/-! ### Outcomes -/

/-- If the one gives a result, so does the other, and they correspond; if the one is refused, so is the other. -/
def Turns {α β} (Q : α → β → Prop) (r : Except String α) (a : Eff β) : Prop :=
  ∀ l, match r with
    | .ok x => ∃ l' y, a l = (l', .ok y) ∧ Q x y
    | .error _ => ∃ l' e, a l = (l', .error e)

theorem Turns.bind {α β γ δ} {Q : α → β → Prop} {Q' : γ → δ → Prop} {r : Except String α} {a : Eff β} {f : α → Except String γ} {g : β → Eff δ}
    (h : Turns Q r a) (hf : ∀ x y, Q x y → Turns Q' (f x) (g y)) : Turns Q' (r.bind f) (a.bind g) := by
  intro l
  have h1 := h l
  cases r with
  | error e =>
    obtain ⟨l', e', h1⟩ := h1
    exact ⟨l', e', by unfold Eff.bind; rw [h1]⟩
  | ok x =>
    obtain ⟨l', y, h1, h2⟩ := h1
    have h3 := hf x y h2 l'
    have h4 : a.bind g l = g y l' := by unfold Eff.bind; rw [h1]
    simp only [Except.bind]
    cases hx : f x <;> rw [hx] at h3 <;> simp only [h4] <;> exact h3

theorem Turns.error {α β} {Q : α → β → Prop} {m m' : String} : Turns Q (.error m : Except String α) (Eff.error m' : Eff β) := fun l => ⟨l, _, rfl⟩

theorem Turns.ok {α β} {Q : α → β → Prop} {x : α} {y : β} (h : Q x y) : Turns Q (.ok x) (Eff.lift (.ok y)) := fun l => ⟨l, y, rfl, h⟩

theorem Turns.lift {α β} {Q : α → β → Prop} {r : Except String α} {r' : Except String β}
    (h : (∃ m m', r = .error m ∧ r' = .error m') ∨ ∃ x y, r = .ok x ∧ r' = .ok y ∧ Q x y) : Turns Q r (Eff.lift r') := by
  intro l
  rcases h with ⟨m, m', rfl, rfl⟩ | ⟨x, y, rfl, rfl, h⟩
  · exact ⟨l, .std m', rfl⟩
  · exact ⟨l, y, rfl, h⟩

/-- A finish callback that only watches. -/
theorem Turns.done {sh sh' p d' d} (hF : Builds F B R) (hb : B p = none) (hv : sh'.byValue = true ∨ ∃ st e, sh' = .map st e) (h : Turned B p sh d' d) :
    Turns (Turned B p sh) (.ok d') (Eff.done F sh' p d) := by
  intro l
  have key : ∃ l', Eff.done F sh' p d l = (l', .ok d) := by
    unfold Eff.done
    split
    · cases hf : F.onFinish p with
      | none => exact ⟨l, rfl⟩
      | some f =>
        have h1 := hF.others p f hb hf l d
        have : afterFinish sh' (f l d) d = d := by
          unfold afterFinish
          rcases hv with hv | ⟨st, e, rfl⟩
          · simp [hv]
          · simp [Shape.byValue, h1.2, popAll]
        simp only [h1.1, answerOf, this]
        exact ⟨_, rfl⟩
    · exact ⟨l, rfl⟩
  obtain ⟨l', key⟩ := key
  exact ⟨l', d, key, h⟩

theorem Turns.elem {p k d' d} {sh : Shape} {q} (hF : Builds F B R) (h : Turned B q sh d' d) : Turns (Turned B q sh) (.ok d') (Eff.elem F p k d) := by
  intro l
  have key : ∃ l', Eff.elem F p k d l = (l', .ok d) := by
    unfold Eff.elem
    cases hf : F.onElement p with
    | none => exact ⟨l, rfl⟩
    | some f =>
      have h1 := hF.elements p f hf l k d
      simp only [h1.1, answerOf, h1.2, popAll, List.foldl_nil]
      exact ⟨_, rfl⟩
  obtain ⟨l', key⟩ := key
  exact ⟨l', d, key, h⟩

/-- Pops of members leave an object an object with the same stored value. -/
theorem popAll_obj {v : Option Val} : ∀ {ps : List Path} {ds : List D}, [] ∉ ps → ∃ ds', popAll ps (.obj v ds) = .obj v ds'
  | [], ds, _ => ⟨ds, rfl⟩
  | r :: ps, ds, h => by
    simp only [List.mem_cons, not_or] at h
    have h1 : ∃ ds', popAt r.reverse (.obj v ds) = .obj v ds' := by
      cases hr : r.reverse with
      | nil => exact absurd (by simpa using hr) (fun e => h.1 (by simp [e]))
      | cons st r' =>
        cases st with
        | mem n => exact ⟨_, rfl⟩
        | elem => cases v <;> exact ⟨_, rfl⟩
        | ign => cases v <;> exact ⟨_, rfl⟩
    obtain ⟨ds', h1⟩ := h1
    obtain ⟨ds'', h2⟩ := popAll_obj (ps := ps) (ds := ds') h.2
    refine ⟨ds'', ?_⟩
    rw [← h2]
    unfold popAll
    rw [List.foldl_cons, h1]

theorem last_some {α} {l : List α} (h : l ≠ []) : ∃ x, l.getLast? = some x := ⟨l.getLast h, List.getLast?_eq_some_getLast h⟩

/-- The end of an object. -/
theorem Turns.finish {p u ms ne ds' ds} (hF : Builds F B R) (hR : R.at p = some (.object .auto u ms)) (h : TurnedL B p 0 ms ds' ds) :
    Turns (Turned B p (.object .auto u ms)) (finishObject .auto ms ds' ne)
      ((Eff.lift (finishObject (if (B p).isSome then .custom else .auto) (customizeMs B p 0 ms) ds ne)).bind
        (Eff.done F (customize B p (.object .auto u ms)) p)) := by
  rw [show finishObject .auto ms ds' ne = (finishObject .auto ms ds' ne).bind .ok by cases finishObject .auto ms ds' ne <;> rfl]
  cases hne : ne with
  | false =>
    refine Turns.bind (Q := fun d' d => d' = .unset ∧ d = .unset) (.lift (.inr ⟨.unset, .unset, rfl, rfl, rfl, rfl⟩)) ?_
    rintro _ _ ⟨rfl, rfl⟩
    intro l
    exact ⟨l, .unset, rfl, .inl ⟨rfl, rfl⟩⟩
  | true =>
  cases hb : B p with
  | none =>
    refine Turns.bind (Q := Turned B p (.object .auto u ms)) (.lift ?_) fun d' d hd => .done hF hb (.inl ?_) hd
    · simp only [Option.isSome_none, Bool.false_eq_true, if_false]
      have h1 := unfillable_turned h
      have h2 := memberValues_turned h
      by_cases h3 : unfillable ms ds' = []
      · right
        refine ⟨.val (.tup (memberValues ms ds')), .val (.tup (memberValues (customizeMs B p 0 ms) ds)), by simp [finishObject, h3, memberValues],
          by simp [finishObject, h1.2 h3, memberValues], .inr ⟨_, rfl, ?_⟩⟩
        simp only [D.value?, convert, hb]
        rw [h2]
      · left
        have h4 : unfillable (customizeMs B p 0 ms) ds ≠ [] := fun e => h3 (h1.1 e)
        obtain ⟨i, hi⟩ := last_some h3
        obtain ⟨i', hi'⟩ := last_some h4
        exact ⟨_, _, by simp [finishObject, hi]; rfl, by simp [finishObject, hi']; rfl⟩
    · simp [customize, hb, Shape.byValue]
  | some b =>
    obtain ⟨u1, ms1, f, h1, ho, hf, hcb⟩ := hF.building p b hb
    rw [hR] at h1; injection h1 with h1; injection h1 with _ h2 h3; subst h2; subst h3
    have h1 := missing_turned h ho
    have h2 := memberValues_turned h
    by_cases h3 : unfillable ms ds' = []
    · refine Turns.bind (Q := fun d' d => d' = .val (.tup (memberValues ms ds')) ∧ d = .obj (some .init) ds) (.lift (.inr ⟨_, _, ?_, ?_, rfl, rfl⟩)) ?_
      · simp [finishObject, h3, memberValues]
      · simp [finishObject, h1.2 h3]
      · rintro _ _ ⟨rfl, rfl⟩ l
        obtain ⟨hv, hn, hp⟩ := hcb l ds
        obtain ⟨ds'', hd⟩ := popAll_obj (v := some .init) (ds := ds) hp
        refine ⟨.finish p (.obj (some .init) ds) :: l, .obj (some (b (memberValues (customizeMs B p 0 ms) ds))) ds'', ?_, .inr ⟨_, rfl, ?_⟩⟩
        · unfold Eff.done
          simp only [D.isSet, if_true, hf, hv, answerOf]
          simp [afterFinish, customize, hb, Shape.byValue, hn, hd, D.assign]
        · simp only [D.value?, convert, hb]
          rw [h2]
    · have h4 : missing (customizeMs B p 0 ms) ds ≠ [] := fun e => h3 (h1.1 e)
      obtain ⟨i, hi⟩ := last_some h3
      obtain ⟨i', hi'⟩ := last_some h4
      have e1 : ∃ m, finishObject .auto ms ds' true = .error m := ⟨_, by simp [finishObject, hi]; rfl⟩
      have e2 : ∃ m, finishObject (if (some b).isSome = true then .custom else .auto) (customizeMs B p 0 ms) ds true = .error m :=
        ⟨_, by simp [finishObject, hi']; rfl⟩
      obtain ⟨m, e1⟩ := e1
      obtain ⟨m', e2⟩ := e2
      exact Turns.bind (Q := fun _ _ => False) (.lift (.inl ⟨m, m', e1, e2⟩)) fun _ _ h => h.elim

/-- The end of a union. -/
theorem Turns.finishUnion {p ty tm ms a d' d} {x : MInfo × Shape} (hx : ms[a]? = some x) (h : Turned B (.mem a :: p) x.2 d' d) :
    Turns (Turned B p (.union ty tm true ms)) (finishUnion true ms a d') (Eff.lift (finishUnion true (customizeMs B p 0 ms) a d)) := by
  have hx' : (customizeMs B p 0 ms)[a]? = some ({ x.1 with dflt := x.1.dflt.map (convert B (.mem a :: p) x.2) }, customize B (.mem a :: p) x.2) := by
    rw [customizeMs_get, hx]; simp
  have halt : ∀ n (i : Nat) (l : List (MInfo × Shape)) v, l[i]? = some x → convertAlt B p n l i v = convert B (.mem (n + i) :: p) x.2 v := by
    intro n i l
    induction l generalizing n i with
    | nil => intro v h; simp at h
    | cons y l ih =>
      intro v h
      obtain ⟨j, sh⟩ := y
      cases i with
      | zero => simp at h; subst h; simp [convertAlt]
      | succ i =>
        simp at h
        simp only [convertAlt]
        rw [ih _ _ _ h, show n + 1 + i = n + (i + 1) by omega]
  have halt' := fun v => halt 0 a ms v hx
  simp only [Nat.zero_add] at halt'
  refine .lift ?_
  simp only [SJ.finishUnion, hx, hx', Bool.not_true, Bool.false_eq_true, if_false, h.value]
  cases hv : d'.value? with
  | some v =>
    right
    refine ⟨_, _, rfl, rfl, .inr ⟨_, rfl, ?_⟩⟩
    simp [D.value?, convert, halt']
  | none =>
    simp only [Option.map_none]
    cases x.1.optional with
    | false => exact .inl ⟨_, _, rfl, rfl⟩
    | true =>
      cases hdf : x.1.dflt with
      | none => exact .inl ⟨_, _, rfl, rfl⟩
      | some v =>
        right
        refine ⟨_, _, rfl, rfl, .inr ⟨_, rfl, ?_⟩⟩
        simp [D.value?, convert, halt']

/-- An entry of a map. -/
theorem Turns.entry {p e k d' d ents} (h : Turned B (.elem :: p) e d' d) :
    Turns (fun a b => b = a.map fun kv => (kv.1, convert B (.elem :: p) e kv.2)) (storeEntry true k d' ents)
      (Eff.lift (storeEntry true k d (ents.map fun kv => (kv.1, convert B (.elem :: p) e kv.2)))) := by
  refine .lift ?_
  simp only [storeEntry, if_true, h.value]
  cases d'.value? with
  | none => exact .inl ⟨_, _, rfl, rfl⟩
  | some v => exact .inr ⟨_, _, rfl, rfl, mapInsert_turned⟩

/-! ### Documents -/

/-- The entries of a map so far. -/
def turnedEnts (B : Builders) (p : Path) (sh : Shape) (ents : List (String × Val)) : List (String × Val) :=
  match sh with
  | .map _ e => ents.map fun kv => (kv.1, convert B (.elem :: p) e kv.2)
  | _ => []

theorem turnedEnts_nil {p sh} : turnedEnts B p sh [] = [] := by cases sh <;> rfl

theorem not_built (hF : Builds F B R) {p sh} (hR : R.at p = some sh) (hs : ∀ u ms, sh ≠ .object .auto u ms) : B p = none := by
  cases hb : B p with
  | none => rfl
  | some b =>
    obtain ⟨u, ms, f, h, _⟩ := hF.building p b hb
    rw [hR] at h; injection h with h
    exact absurd h (hs u ms)

theorem turns_elem {p e l d' d} (ih : Turns (fun vs ws => ws = vs.map (convert B (.elem :: p) e)) (denElems F.fmtDbl true e l)
    (denElemsA F true (customize B (.elem :: p) e) p l)) (h : Turned B (.elem :: p) e d' d) :
    Turns (fun vs ws => ws = vs.map (convert B (.elem :: p) e))
      (match d'.value? with
        | some v => (denElems F.fmtDbl true e l).bind fun vs => .ok (v :: vs)
        | none => .error notSet)
      (match d.value? with
        | some v => (denElemsA F true (customize B (.elem :: p) e) p l).bind fun vs => .lift (.ok (v :: vs))
        | none => Eff.error notSet) := by
  rw [h.value]
  cases d'.value? with
  | none => exact .error
  | some v => exact .bind ih fun vs ws hvw => .ok (by simp [hvw])

mutual
theorem turns_value (hF : Builds F B R) : ∀ (j : Json) (sh : Shape) (p : Path), R.at p = some sh → allStored sh = true →
    Turns (Turned B p sh) (denote F.fmtDbl sh j) (denoteA F (customize B p sh) p j)
  | .null, sh, p, hR, hs => by
    simp only [denote, denoteA]
    exact .ok (.inl ⟨rfl, rfl⟩)
  | .sc x, sh, p, hR, hs => by
    cases sh with
    | value ty =>
      simp only [denote, denoteA, customize]
      split
      · exact .done hF (not_built hF hR (by simp)) (.inl rfl) (.inr ⟨_, rfl, rfl⟩)
      · exact .error
    | ignore => simp [allStored] at hs
    | _ => simp only [denote, denoteA, customize]; exact .error
  | .arr l, sh, p, hR, hs => by
    cases sh with
    | array st e =>
      simp only [allStored, Bool.and_eq_true] at hs
      obtain ⟨rfl, hs⟩ := hs
      simp only [denote, denoteA, customize, if_true]
      rw [show (denElems F.fmtDbl true e l).map (fun vs => D.val (.arr vs)) = (denElems F.fmtDbl true e l).bind fun vs => .ok (.val (.arr vs)) by
        cases denElems F.fmtDbl true e l <;> rfl]
      refine .bind (turns_elems hF l e p hR hs) fun vs ws hvw => ?_
      refine .done hF (not_built hF hR (by simp)) (.inl rfl) (.inr ⟨_, rfl, ?_⟩)
      simp [D.value?, convert, hvw]
    | ignore => simp [allStored] at hs
    | _ => simp only [denote, denoteA, customize]; exact .error
  | .obj fs, sh, p, hR, hs => by
    cases sh with
    | object k u ms =>
      simp only [denote, denoteA, customize]
      have h1 := turns_fields hF fs (.object k u ms) p (noSlots (.object k u ms)) (noSlots (.object k u ms)) [] false hR hs
        (fun k u ms h => by injection h with _ _ h; subst h; exact TurnedL.none)
      simpa [customize, noSlots, customizeMs_map, turnedEnts] using h1
    | map st e =>
      simp only [denote, denoteA, customize]
      have h1 := turns_fields hF fs (.map st e) p [] [] [] false hR hs (fun k u ms h => by simp at h)
      simpa [customize, noSlots, turnedEnts] using h1
    | union ty tm st ms =>
      simp only [denote, denoteA, customize]
      split
      · exact .error
      · have h1 := turns_fields hF fs (.union ty tm st ms) p [] [] [] false hR hs (fun k u ms h => by simp at h)
        simpa [customize, noSlots, turnedEnts] using h1
    | ignore => simp [allStored] at hs
    | _ => simp only [denote, denoteA, customize]; exact .error
theorem turns_fields (hF : Builds F B R) : ∀ (fs : List (String × Json)) (sh : Shape) (p : Path) (slots' slots : List D) (ents : List (String × Val)) (ne : Bool),
    R.at p = some sh → allStored sh = true → (∀ k u ms, sh = .object k u ms → TurnedL B p 0 ms slots' slots) →
    Turns (Turned B p sh) (denFields F.fmtDbl sh slots' ents ne fs) (denFieldsA F (customize B p sh) p slots (turnedEnts B p sh ents) ne fs)
  | [], sh, p, slots', slots, ents, ne, hR, hs, hd => by
    cases sh with
    | object k u ms =>
      simp only [allStored, Bool.and_eq_true, beq_iff_eq] at hs
      obtain ⟨rfl, hs⟩ := hs
      simp only [denFields, denFieldsA, customize]
      have := Turns.finish (ne := ne) hF hR (hd _ _ _ rfl)
      simpa only [customize] using this
    | map st e =>
      simp only [allStored, Bool.and_eq_true] at hs
      obtain ⟨rfl, hs⟩ := hs
      simp only [denFields, denFieldsA, customize]
      refine .done hF (not_built hF hR (by simp)) (.inr ⟨_, _, rfl⟩) (.inr ⟨_, rfl, ?_⟩)
      simp [finishMap, D.value?, convert, turnedEnts]
    | union ty tm st ms => simp only [denFields, denFieldsA, customize]; exact .ok (.inl ⟨rfl, rfl⟩)
    | _ => simp only [denFields, denFieldsA, customize]; exact .error
  | (k, v) :: fs, sh, p, slots', slots, ents, ne, hR, hs, hd => by
    cases sh with
    | value | ignore | array => simp only [denFields, denFieldsA, customize]; exact .error
    | object kd u ms =>
      have hs0 := hs
      simp only [allStored, Bool.and_eq_true, beq_iff_eq] at hs
      obtain ⟨rfl, hs⟩ := hs
      have hd0 := hd _ _ _ rfl
      simp only [denFields, denFieldsA, customize, customizeMs_lookup]
      cases hl : lookup (.str k) 0 ms with
      | none =>
        simp only [Option.map_none]
        split
        · exact .error
        · have := turns_fields hF fs (.object .auto u ms) p slots' slots [] true hR hs0 hd
          simpa only [customize, turnedEnts] using this
      | some nm =>
        obtain ⟨n, m⟩ := nm
        obtain ⟨i, hi⟩ := lookup_mem hl
        have hRm : R.at (.mem n :: p) = some m := by simp [Shape.at, hR, Shape.child, hi]
        have hsm : allStored m = true := allStoredMs_get hs hi
        simp only [Option.map_some, customize_embedded]
        cases he : embedded m v with
        | none =>
          simp only [Option.map_none]
          refine .bind (turns_value hF v m _ hRm hsm) fun d' d hdd => ?_
          have := turns_fields hF fs (.object .auto u ms) p (slots'.set n d') (slots.set n d) [] true hR hs0
            (fun k u ms h => by injection h with _ _ h; subst h; exact hd0.set hi (by simpa using hdd))
          simpa only [customize, turnedEnts] using this
        | some z =>
          obtain ⟨ty, st, ms', x⟩ := z
          obtain ⟨rfl, hx, _⟩ := embedded_some he
          have hsm0 := hsm
          simp only [allStored, Bool.and_eq_true] at hsm
          obtain ⟨rfl, hsm⟩ := hsm
          simp only [Option.map_some, selectAlt, customizeMs_lookup]
          cases hla : lookup x 0 ms' with
          | none => intro l; exact ⟨l, _, rfl⟩
          | some a =>
            obtain ⟨a, am⟩ := a
            obtain ⟨ia, hia⟩ := lookup_mem hla
            have hRa : R.at (.mem a :: .mem n :: p) = some am := by simp [Shape.at, hR, Shape.child, hi, hia]
            simp only [Option.map_some]
            refine Turns.bind (Q := fun y y' => y = (a, am) ∧ y' = (a, customize B (.mem a :: .mem n :: p) am)) (.lift (.inr ⟨_, _, rfl, rfl, rfl, rfl⟩)) ?_
            rintro _ _ ⟨rfl, rfl⟩
            simp only [customize_slots]
            have h1 := turns_fields hF fs am _ (noSlots am) (noSlots am) [] false hRa (allStoredMs_get hsm hia)
              (fun k u ms h => by subst h; exact TurnedL.none)
            rw [turnedEnts_nil] at h1
            refine .bind h1 fun d' d hdd => ?_
            refine .bind (Turns.finishUnion (ty := ty) (tm := "") hia hdd) fun d' d hdd => ?_
            rw [show finishObject .auto ms (slots'.set n d') true = (Except.ok d' : Except String D).bind fun d' => finishObject .auto ms (slots'.set n d') true from rfl]
            refine .bind (.done hF (not_built hF hRm (by simp)) (.inl rfl) hdd) fun d' d hdd => ?_
            have := Turns.finish (ne := true) hF hR (hd0.set hi (d' := d') (d := d) (by simpa using hdd))
            simpa only [customize] using this
    | union ty tm st ms =>
      have hs0 := hs
      simp only [allStored, Bool.and_eq_true] at hs
      obtain ⟨rfl, hs⟩ := hs
      simp only [denFields, denFieldsA, customize]
      split
      · exact .error
      · split
        · exact .error
        · cases v with
          | null | arr | obj => exact .error
          | sc x =>
            simp only
            split
            · simp only [selectAlt, customizeMs_lookup]
              cases hla : lookup x 0 ms with
              | none => intro l; exact ⟨l, _, rfl⟩
              | some a =>
                obtain ⟨a, am⟩ := a
                obtain ⟨ia, hia⟩ := lookup_mem hla
                have hRa : R.at (.mem a :: p) = some am := by simp [Shape.at, hR, Shape.child, hia]
                simp only [Option.map_some]
                refine Turns.bind (Q := fun y y' => y = (a, am) ∧ y' = (a, customize B (.mem a :: p) am)) (.lift (.inr ⟨_, _, rfl, rfl, rfl, rfl⟩)) ?_
                rintro _ _ ⟨rfl, rfl⟩
                simp only [customize_slots]
                have h1 := turns_fields hF fs am _ (noSlots am) (noSlots am) [] false hRa (allStoredMs_get hs hia)
                  (fun k u ms h => by subst h; exact TurnedL.none)
                rw [turnedEnts_nil] at h1
                refine .bind h1 fun d' d hdd => ?_
                rw [show SJ.finishUnion true ms a d' = (SJ.finishUnion true ms a d').bind .ok by cases SJ.finishUnion true ms a d' <;> rfl]
                exact .bind (Turns.finishUnion (ty := ty) (tm := tm) hia hdd) fun d' d hdd => .done hF (not_built hF hR (by simp)) (.inl rfl) hdd
            · exact .error
    | map st e =>
      have hs0 := hs
      simp only [allStored, Bool.and_eq_true] at hs
      obtain ⟨rfl, hs⟩ := hs
      have hRe : R.at (.elem :: p) = some e := by simp [Shape.at, hR, Shape.child]
      simp only [denFields, denFieldsA, customize, customize_embedded]
      cases he : embedded e v with
      | none =>
        simp only [Option.map_none]
        refine .bind (turns_value hF v e _ hRe hs) fun d' d hdd => ?_
        rw [show (storeEntry true k d' ents >>= fun ents => denFields F.fmtDbl (.map true e) [] ents true fs) =
          (Except.ok d' : Except String D).bind fun d' => (storeEntry true k d' ents).bind fun ents => denFields F.fmtDbl (.map true e) [] ents true fs from rfl]
        refine .bind (.elem hF hdd) fun d' d hdd => ?_
        refine .bind (Turns.entry hdd) fun a b hab => ?_
        have := turns_fields hF fs (.map true e) p [] [] a true hR hs0 (fun k u ms h => by simp at h)
        subst hab
        simpa only [customize, turnedEnts] using this
      | some z =>
        obtain ⟨ty, st, ms', x⟩ := z
        obtain ⟨rfl, hx, _⟩ := embedded_some he
        have hsm0 := hs
        simp only [allStored, Bool.and_eq_true] at hs
        obtain ⟨rfl, hsm⟩ := hs
        simp only [Option.map_some, selectAlt, customizeMs_lookup]
        cases hla : lookup x 0 ms' with
        | none => intro l; exact ⟨l, _, rfl⟩
        | some a =>
          obtain ⟨a, am⟩ := a
          obtain ⟨ia, hia⟩ := lookup_mem hla
          have hRa : R.at (.mem a :: .elem :: p) = some am := by simp [Shape.at, hR, Shape.child, hia]
          simp only [Option.map_some]
          refine Turns.bind (Q := fun y y' => y = (a, am) ∧ y' = (a, customize B (.mem a :: .elem :: p) am)) (.lift (.inr ⟨_, _, rfl, rfl, rfl, rfl⟩)) ?_
          rintro _ _ ⟨rfl, rfl⟩
          simp only [customize_slots]
          have h1 := turns_fields hF fs am _ (noSlots am) (noSlots am) [] false hRa (allStoredMs_get hsm hia)
            (fun k u ms h => by subst h; exact TurnedL.none)
          rw [turnedEnts_nil] at h1
          refine .bind h1 fun d' d hdd => ?_
          refine .bind (Turns.finishUnion (ty := ty) (tm := "") hia hdd) fun d' d hdd => ?_
          rw [show (storeEntry true k d' ents >>= fun ents => (Except.ok (finishMap true ents) : Except String D)) =
            (Except.ok d' : Except String D).bind fun d' => (Except.ok d' : Except String D).bind fun d' =>
              (storeEntry true k d' ents).bind fun ents => .ok (finishMap true ents) from rfl]
          refine .bind (.done hF (not_built hF hRe (by simp)) (.inl rfl) hdd) fun d' d hdd => ?_
          refine .bind (.elem hF hdd) fun d' d hdd => ?_
          refine .bind (Turns.entry hdd) fun a b hab => ?_
          refine .done hF (not_built hF hR (by simp)) (.inr ⟨_, _, rfl⟩) (.inr ⟨_, rfl, ?_⟩)
          simp [finishMap, D.value?, convert, hab]
theorem turns_elems (hF : Builds F B R) : ∀ (l : List Json) (e : Shape) (p : Path), R.at p = some (.array true e) → allStored e = true →
    Turns (fun vs ws => ws = vs.map (convert B (.elem :: p) e)) (denElems F.fmtDbl true e l) (denElemsA F true (customize B (.elem :: p) e) p l)
  | [], e, p, hR, hs => by simp only [denElems, denElemsA]; exact .ok rfl
  | .null :: l, e, p, hR, hs => by simp only [denElems, denElemsA]; exact turns_elems hF l e p hR hs
  | .sc x :: l, e, p, hR, hs => by
    simp only [denElems, denElemsA, if_true]
    refine .bind (turns_value hF (.sc x) e _ (by simp [Shape.at, hR, Shape.child]) hs) fun d' d hdd => ?_
    exact turns_elem (turns_elems hF l e p hR hs) hdd
  | .arr x :: l, e, p, hR, hs => by
    simp only [denElems, denElemsA, if_true]
    refine .bind (turns_value hF (.arr x) e _ (by simp [Shape.at, hR, Shape.child]) hs) fun d' d hdd => ?_
    exact turns_elem (turns_elems hF l e p hR hs) hdd
  | .obj x :: l, e, p, hR, hs => by
    simp only [denElems, denElemsA, if_true]
    refine .bind (turns_value hF (.obj x) e _ (by simp [Shape.at, hR, Shape.child]) hs) fun d' d hdd => ?_
    exact turns_elem (turns_elems hF l e p hR hs) hdd
end

/-! ### The customized tree is a proper one, and reads the same documents -/

theorem customize_user {p sh} : (customize B p sh).isUser = sh.isUser := by cases sh <;> rfl

mutual
theorem customize_okVal : ∀ (j : Json) (sh : Shape) (p : Path), okVal (customize B p sh) j = okVal sh j
  | .null, sh, p => by simp only [okVal]
  | .sc x, sh, p => by cases sh <;> simp only [okVal, customize]
  | .arr l, sh, p => by
    cases sh <;> simp only [okVal, customize]
    exact customize_okElems l _ _
  | .obj fs, sh, p => by
    cases sh <;> simp only [okVal, customize]
    · exact customize_okFields fs (.object _ _ _) p
    · split
      · rfl
      · exact customize_okFields fs (.union _ _ _ _) p
    · exact customize_okFields fs (.map _ _) p
theorem customize_okFields : ∀ (fs : List (String × Json)) (sh : Shape) (p : Path), okFields (customize B p sh) fs = okFields sh fs
  | [], sh, p => by simp only [okFields]
  | (k, v) :: fs, sh, p => by
    cases sh with
    | value | ignore | array => simp only [okFields, customize]
    | object kd u ms =>
      simp only [okFields, customize, customizeMs_lookup]
      cases hl : lookup (.str k) 0 ms with
      | none =>
        have := customize_okFields fs (.object kd u ms) p
        simp only [customize] at this
        simp only [Option.map_none, this]
      | some nm =>
        obtain ⟨n, m⟩ := nm
        simp only [Option.map_some, customize_embedded]
        cases he : embedded m v with
        | none =>
          have := customize_okFields fs (.object kd u ms) p
          simp only [customize] at this
          simp only [Option.map_none, this, customize_user, customize_okVal v m _]
        | some z =>
          obtain ⟨ty, st, ms', x⟩ := z
          simp only [Option.map_some, customizeMs_lookup]
          cases lookup x 0 ms' with
          | none => rfl
          | some a => simp only [Option.map_some]; exact customize_okFields fs _ _
    | union ty tm st ms =>
      simp only [okFields, customize]
      split
      · rfl
      · split
        · rfl
        · cases v with
          | null | arr | obj => rfl
          | sc x =>
            simp only
            split
            · simp only [customizeMs_lookup]
              cases lookup x 0 ms with
              | none => rfl
              | some a => simp only [Option.map_some]; exact customize_okFields fs _ _
            · rfl
    | map st e =>
      simp only [okFields, customize, customize_embedded]
      cases he : embedded e v with
      | none =>
        have := customize_okFields fs (.map st e) p
        simp only [customize] at this
        simp only [Option.map_none, this, customize_user, customize_okVal v e _]
      | some z =>
        obtain ⟨ty, st', ms', x⟩ := z
        simp only [Option.map_some, customizeMs_lookup]
        cases lookup x 0 ms' with
        | none => rfl
        | some a => simp only [Option.map_some]; exact customize_okFields fs _ _
theorem customize_okElems : ∀ (l : List Json) (e : Shape) (p : Path), okElems (customize B p e) l = okElems e l
  | [], e, p => by simp only [okElems]
  | j :: l, e, p => by
    simp only [okElems, customize_user, customize_okVal j e p, customize_okElems l e p]
    cases j with
    | null => cases e <;> rfl
    | _ => rfl
end

theorem allStored_storage {sh} (h : allStored sh = true) : sh.isStorage = true := by
  cases sh <;> simp_all [allStored, Shape.isStorage]

mutual
theorem convert_type : ∀ (sh : Shape) (p : Path) (v : Val), allStored sh = true → hasType sh v = true → hasType (customize B p sh) (convert B p sh v) = true
  | .value ty, p, v, hs, h => by simpa [customize, convert] using h
  | .ignore, p, v, hs, h => by simp [allStored] at hs
  | .object k u ms, p, v, hs, h => by
    simp only [allStored, Bool.and_eq_true, beq_iff_eq] at hs
    obtain ⟨rfl, hs⟩ := hs
    simp only [hasType] at h
    cases v <;> simp at h
    simp only [customize, convert]
    cases hb : B p with
    | some b => simp [hasType]
    | none => simpa [hasType] using convert_types ms p 0 _ hs h
  | .union ty tm st ms, p, v, hs, h => by
    simp only [allStored, Bool.and_eq_true] at hs
    obtain ⟨rfl, hs⟩ := hs
    simp only [hasType, Bool.true_and] at h
    cases v <;> simp at h
    simpa [customize, convert, hasType] using convert_altType ms p 0 _ _ hs h
  | .array st e, p, v, hs, h => by
    simp only [allStored, Bool.and_eq_true] at hs
    obtain ⟨rfl, hs⟩ := hs
    simp only [hasType, Bool.true_and] at h
    cases v <;> simp at h
    simp only [customize, convert, hasType, Bool.true_and, List.all_map, List.all_eq_true, Function.comp]
    exact fun x hx => convert_type e _ x hs (h x hx)
  | .map st e, p, v, hs, h => by
    simp only [allStored, Bool.and_eq_true] at hs
    obtain ⟨rfl, hs⟩ := hs
    simp only [hasType, Bool.true_and] at h
    cases v <;> simp at h
    simp only [customize, convert, hasType, Bool.true_and, List.all_map, List.all_eq_true, Function.comp]
    exact fun x hx => convert_type e _ x.2 hs (h x.1 x.2 hx)
theorem convert_types : ∀ (ms : List (MInfo × Shape)) (p : Path) (n : Nat) (vs : List Val), allStoredMs ms = true → hasTypes ms vs = true →
    hasTypes (customizeMs B p n ms) (convertMs B p n ms vs) = true
  | [], p, n, vs, hs, h => by cases vs <;> simp_all [hasTypes, customizeMs, convertMs]
  | (i, sh) :: ms, p, n, vs, hs, h => by
    cases vs with
    | nil => simp [hasTypes] at h
    | cons v vs =>
      simp only [allStoredMs, Bool.and_eq_true] at hs
      simp only [hasTypes, Bool.and_eq_true] at h
      simp only [customizeMs, convertMs, hasTypes, Bool.and_eq_true]
      exact ⟨convert_type sh _ v hs.1 h.1, convert_types ms p (n + 1) vs hs.2 h.2⟩
theorem convert_altType : ∀ (ms : List (MInfo × Shape)) (p : Path) (n a : Nat) (w : Val), allStoredMs ms = true → hasAltType ms a w = true →
    hasAltType (customizeMs B p n ms) a (convertAlt B p n ms a w) = true
  | [], p, n, a, w, hs, h => by simp [hasAltType] at h
  | (i, sh) :: ms, p, n, 0, w, hs, h => by
    simp only [allStoredMs, Bool.and_eq_true] at hs
    simp only [hasAltType] at h
    simp only [customizeMs, convertAlt, hasAltType]
    exact convert_type sh _ w hs.1 h
  | (i, sh) :: ms, p, n, a + 1, w, hs, h => by
    simp only [allStoredMs, Bool.and_eq_true] at hs
    simp only [hasAltType] at h
    simp only [customizeMs, convertAlt, hasAltType]
    exact convert_altType ms p (n + 1) a w hs.2 h
end

theorem customize_storage {p sh} (h : sh.isStorage = true) : (customize B p sh).isStorage = true := by
  cases sh <;> simp_all [customize, Shape.isStorage]
  split <;> simp_all

theorem wfMs_weaken : ∀ {ms : List (MInfo × Shape)} {ty}, wfMs ty true ms = true → wfMs ty false ms = true
  | [], ty, h => by simp [wfMs]
  | (i, sh) :: ms, ty, h => by
    simp only [wfMs, Bool.and_eq_true, Bool.not_false, Bool.true_or, and_true] at h ⊢
    exact ⟨⟨⟨h.1.1.1.1, h.1.1.1.2⟩, h.1.2⟩, wfMs_weaken h.2⟩

mutual
theorem customize_wf : ∀ (sh : Shape) (p : Path), allStored sh = true → sh.wf = true → (customize B p sh).wf = true
  | .value ty, p, hs, h => by simp [customize, Shape.wf]
  | .ignore, p, hs, h => by simp [allStored] at hs
  | .object k u ms, p, hs, h => by
    simp only [allStored, Bool.and_eq_true, beq_iff_eq] at hs
    obtain ⟨rfl, hs⟩ := hs
    simp only [Shape.wf] at h
    have h1 := customize_wfMs ms p 0 .str hs h
    simp only [customize, Shape.wf]
    cases hb : B p with
    | none => simpa using h1
    | some b => exact wfMs_weaken h1
  | .union ty tm st ms, p, hs, h => by
    simp only [allStored, Bool.and_eq_true] at hs
    obtain ⟨rfl, hs⟩ := hs
    simp only [Shape.wf] at h
    simp only [customize, Shape.wf]
    exact customize_wfMs ms p 0 ty hs h
  | .array st e, p, hs, h => by
    simp only [allStored, Bool.and_eq_true] at hs
    simp only [Shape.wf, Bool.and_eq_true] at h
    simp only [customize, Shape.wf, Bool.and_eq_true]
    exact ⟨customize_wf e _ hs.2 h.1, by simp [customize_storage (allStored_storage hs.2)]⟩
  | .map st e, p, hs, h => by
    simp only [allStored, Bool.and_eq_true] at hs
    simp only [Shape.wf, Bool.and_eq_true] at h
    simp only [customize, Shape.wf, Bool.and_eq_true]
    exact ⟨customize_wf e _ hs.2 h.1, by simp [customize_storage (allStored_storage hs.2)]⟩
theorem customize_wfMs : ∀ (ms : List (MInfo × Shape)) (p : Path) (n : Nat) (ty), allStoredMs ms = true → wfMs ty true ms = true →
    wfMs ty true (customizeMs B p n ms) = true
  | [], p, n, ty, hs, h => by simp [customizeMs, wfMs]
  | (i, sh) :: ms, p, n, ty, hs, h => by
    simp only [allStoredMs, Bool.and_eq_true] at hs
    simp only [wfMs, Bool.and_eq_true] at h
    simp only [customizeMs, wfMs, Bool.and_eq_true]
    refine ⟨⟨⟨⟨h.1.1.1.1, customize_wf sh _ hs.1 h.1.1.1.2⟩, by simp [customize_storage (allStored_storage hs.1)]⟩, ?_⟩, customize_wfMs ms p (n + 1) ty hs.2 h.2⟩
    have h1 := h.1.2
    cases hd : i.dflt with
    | none => simp
    | some v =>
      rw [hd] at h1
      simp only [Bool.and_eq_true] at h1
      simp only [Option.map_some, Bool.and_eq_true]
      exact ⟨⟨h1.1.1, customize_storage h1.1.2⟩, convert_type sh _ v hs.1 h1.2⟩
end

end SJ
