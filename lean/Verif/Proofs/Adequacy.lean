/-
The recursive-descent semantics computes `denote` (main induction).
-/
import Verif.Proofs.Denote
import Verif.Proofs.Lax

set_option linter.unusedVariables false

namespace SJ

variable {E : Env} {R : Shape}

/-! ### `denoteT` is `denote` with calls -/

@[simp] theorem W.result_bind {α β} (w : W α) (f : α → W β) : (w.bind f).result = w.result >>= fun a => (f a).result := by
  unfold W.bind; cases w.result <;> rfl
@[simp] theorem W.result_lift {α} (r : Except String α) : (W.lift r).result = r := rfl
@[simp] theorem W.result_error {α} (e : String) : (W.error e : W α).result = .error e := rfl
@[simp] theorem W.result_done (p d) : (W.done p d).result = .ok d := by unfold W.done; split <;> rfl
@[simp] theorem W.result_elem (p k d) : (W.elem p k d).result = .ok () := rfl

@[simp] theorem ex_bind_ok {α β} (a : α) (f : α → Except String β) : (Except.ok a >>= f) = f a := rfl
@[simp] theorem ex_bind_pure {α} (m : Except String α) : (m >>= fun a => Except.ok a) = m := by cases m <;> rfl

mutual
theorem denoteT_result (fmt) : ∀ (j : Json) (sh : Shape) (p : Path), (denoteT fmt sh p j).result = denote fmt sh j
  | .null, sh, p => by unfold denoteT denote; rfl
  | .sc x, sh, p => by
    unfold denoteT denote
    cases sh <;> simp only [W.result_error, W.result_lift]
    split <;> simp
  | .arr l, sh, p => by
    unfold denoteT denote
    cases sh <;> simp only [W.result_error, W.result_lift]
    rename_i st e
    rw [W.result_bind, denElemsT_result fmt l st e p]
    cases denElems fmt st e l <;> simp [Except.map]
    rfl
  | .obj fs, sh, p => by
    unfold denoteT denote
    cases sh <;> simp only [W.result_error, W.result_lift]
    · exact denFieldsT_result fmt fs _ _ _ _ _
    · split
      · rfl
      · exact denFieldsT_result fmt fs _ _ _ _ _
    · exact denFieldsT_result fmt fs _ _ _ _ _
theorem denFieldsT_result (fmt) : ∀ (fs : List (String × Json)) (sh : Shape) (p : Path) (slots ents ne),
    (denFieldsT fmt sh p slots ents ne fs).result = denFields fmt sh slots ents ne fs
  | [], sh, p, slots, ents, ne => by
    unfold denFieldsT denFields
    cases sh <;> simp
  | (k, v) :: fs, sh, p, slots, ents, ne => by
    have ihf := denFieldsT_result fmt fs
    have ihv := denoteT_result fmt v
    unfold denFieldsT denFields
    cases sh <;> simp only [W.result_error]
    case object kd u ms =>
      cases lookup (.str k) 0 ms with
      | none => simp only; split <;> simp [ihf]
      | some nm =>
        simp only
        cases embedded nm.2 v with
        | none => simp [ihf, ihv]
        | some z => simp [ihf]
    case union ty tm st ms =>
      split
      · rfl
      · split
        · rfl
        · cases v <;> simp only [W.result_error]
          split <;> simp [ihf]
    case map st e =>
      cases embedded e v with
      | none => simp [ihf, ihv]
      | some z => simp [ihf]
theorem denElemsT_result (fmt) : ∀ (l : List Json) (st : Bool) (e : Shape) (p : Path),
    (denElemsT fmt st e p l).result = denElems fmt st e l
  | [], st, e, p => by unfold denElemsT denElems; rfl
  | .null :: l, st, e, p => by unfold denElemsT denElems; exact denElemsT_result fmt l st e p
  | .sc x :: l, st, e, p => by
    unfold denElemsT denElems
    rw [W.result_bind, denoteT_result fmt (.sc x) e (.elem :: p)]
    refine congrArg _ (funext fun d => ?_)
    split
    · cases d.value? with
      | none => rfl
      | some v => simp [denElemsT_result fmt l st e p]; rfl
    · exact denElemsT_result fmt l st e p
  | .arr x :: l, st, e, p => by
    unfold denElemsT denElems
    rw [W.result_bind, denoteT_result fmt (.arr x) e (.elem :: p)]
    refine congrArg _ (funext fun d => ?_)
    split
    · cases d.value? with
      | none => rfl
      | some v => simp [denElemsT_result fmt l st e p]; rfl
    · exact denElemsT_result fmt l st e p
  | .obj x :: l, st, e, p => by
    unfold denElemsT denElems
    rw [W.result_bind, denoteT_result fmt (.obj x) e (.elem :: p)]
    refine congrArg _ (funext fun d => ?_)
    split
    · cases d.value? with
      | none => rfl
      | some v => simp [denElemsT_result fmt l st e p]; rfl
    · exact denElemsT_result fmt l st e p
end

theorem denoteT_fits {fmt j sh p d} (hw : sh.wf = true) (h : (denoteT fmt sh p j).result = .ok d) : sh.fits d = true :=
  denote_fits j sh d hw (by rw [← denoteT_result fmt j sh p]; exact h)

theorem denFieldsT_fits {fmt fs sh p d} (hw : sh.wf = true)
    (h : (denFieldsT fmt sh p (noSlots sh) [] false fs).result = .ok d) : sh.fits d = true :=
  denFields_fits fs sh _ _ _ d hw (AccFits.none _) (by rw [← denFieldsT_result fmt fs sh p]; exact h)

theorem complete_value (hE : Passive E) {p ty v} {s : St} (hv : (s.heap p).val = v) :
    Meets E (W.done p (.val v)) s.log (At p) (complete E (.value ty) p s) := by
  rw [complete_unfold]
  simp only [finish]
  rw [hE.finishVal]
  exact Meets.done (s := s) rfl rfl rfl (by simp [Holds, hv]) (.val v) rfl (by simp [hv])

theorem complete_array (hE : Passive E) {p st e vs} {s : St} (hv : st = true → (s.heap p).val = .arr vs) :
    Meets E (W.done p (if st then .val (.arr vs) else .done)) s.log (At p) (complete E (.array st e) p s) := by
  rw [complete_unfold]
  cases st with
  | true =>
    simp only [finish]
    rw [hE.finishVal]
    exact Meets.done (s := s) rfl rfl rfl (by simp [Holds, hv]) (.val (.arr vs)) rfl (by simp [hv])
  | false =>
    simp only [finish]
    rw [hE.finishParser]
    exact Meets.done (s := s) rfl rfl rfl (by simp [Holds]) (.parser _) (snap_shows _ _ _ (by simp [Shape.fits]) (by simp [Holds])) rfl

theorem complete_map (hE : Passive E) {p st e ents} {s : St} (hv : st = true → (s.heap p).val = .map ents)
    (ht : st = true → (ents.all fun kv => hasType e kv.2) = true) :
    Meets E (W.done p (finishMap st ents)) s.log (At p) (complete E (.map st e) p s) := by
  rw [complete_unfold]
  simp only [finish]
  rw [hE.finishParser]
  have hh : Holds (s.heap.upd p fun c => { c with set := true }) p (finishMap st ents) := by
    cases st <;> simp [finishMap, Holds, hv]
  exact Meets.done (s := s) rfl (by cases st <;> rfl) rfl hh (.parser _) (snap_shows _ _ _ (finishMap_fits ht) hh) rfl

theorem complete_ignore {p} {s : St} :
    complete E .ignore p s = .ok () { s with heap := s.heap.upd p fun c => { c with set := true } } := rfl

/-- Ignoring a value always succeeds. -/
theorem evalVal_ignore (p v) (s : St) : ∃ s', evalVal E .ignore p v s = .ok () s' ∧ s'.log = s.log := by
  unfold evalVal
  cases v <;> simp only
  · exact ⟨_, rfl, rfl⟩
  all_goals exact ⟨_, complete_ignore, rfl⟩

/-- What an array does with a complete element. -/
theorem arrChild_spec {st} {e : Shape} {p d acc} {s : St} (hd : Holds s.heap (.elem :: p) d) (hs : e.fits d = true)
    (hst : st = true → e.isStorage = true) (hacc : st = true → (s.heap p).val = .arr acc) :
    match (if st then d.value?.map (fun v => acc ++ [v]) else some acc) with
    | some acc' => ∃ s', arrChild st p s = .ok () s' ∧ s'.log = s.log ∧ (st = true → (s'.heap p).val = .arr acc')
    | none => ∃ s', arrChild st p s = .throw (.std notSet) s' ∧ s'.log = s.log := by
  cases st with
  | false => exact ⟨s, rfl, rfl, by simp⟩
  | true =>
    simp only [if_true]
    cases hv : d.value? with
    | some v =>
      have := hd.value hv
      simp only [Option.map_some]
      have hpop : popVal (.elem :: p) s = .ok v
          { s with heap := s.heap.upd (.elem :: p) fun c => { c with set := false, val := .moved } } := by
        unfold popVal; rw [if_pos this.1, this.2]
      unfold arrChild
      rw [if_pos rfl, bind_ok hpop]
      refine ⟨_, rfl, rfl, fun _ => ?_⟩
      simp only [upd_same]
      rw [upd_other (by simp), hacc rfl]; rfl
    | none =>
      simp only [Option.map_none]
      have hset : (s.heap (.elem :: p)).set = false := by
        rw [hd.set]
        cases hi : d.isSet with
        | false => rfl
        | true => obtain ⟨v, h⟩ := fits_store hs (hst rfl) hi; rw [hv] at h; simp at h
      have hpop : popVal (.elem :: p) s = .throw (.std notSet) s := by
        unfold popVal; rw [if_neg (by simp [hset])]; rfl
      exact ⟨s, by unfold arrChild; rw [if_pos rfl]; unfold M.bind; rw [hpop], rfl⟩

/-- What a map does with a complete element. -/
theorem mapChild_spec (hE : Passive E) {st e p d ents k} {s : St} (hd : Holds s.heap (.elem :: p) d) (hs : e.fits d = true)
    (hst : st = true → e.isStorage = true) (hk : (s.heap p).curKey = k)
    (hacc : st = true → (s.heap p).val = .map ents) :
    Meets E ((W.elem p k d).bind fun _ => W.lift (storeEntry st k d ents)) s.log
      (fun ents' s' => st = true → (s'.heap p).val = .map ents') (mapChild E st e p s) := by
  have hL := hE.element e p s
  have hsh : (snap s.heap (.elem :: p) e).shows d := snap_shows _ _ _ hs hd
  rw [hk] at hL
  have hlog : Logged E [.element p k d] s.log (elemLog E p k (snap s.heap (.elem :: p) e) s.log) := Logged.elem hsh
  generalize elemLog E p k (snap s.heap (.elem :: p) e) s.log = L at *
  cases st with
  | false =>
    exact ⟨{ s with log := L }, by unfold mapChild; rw [if_neg (by simp)]; exact hL, by simp, by simpa [W.bind, W.elem, W.lift] using hlog⟩
  | true =>
    unfold mapChild
    rw [if_pos rfl, bind_ok hL]
    cases hv : d.value? with
    | some v =>
      have := hd.value hv
      have hpop : popVal (.elem :: p) { s with log := L } = .ok v
          { s with log := L, heap := s.heap.upd (.elem :: p) fun c => { c with set := false, val := .moved } } := by
        unfold popVal; rw [if_pos this.1, this.2]
      have hse : storeEntry true k d ents = .ok (mapInsert k v ents) := by simp [storeEntry, hv]
      rw [hse, bind_ok hpop]
      refine ⟨_, rfl, fun _ => ?_, by simpa [W.bind, W.elem, W.lift] using hlog⟩
      simp only [upd_same]
      rw [upd_other (by simp), hacc rfl, hk]; rfl
    | none =>
      have hset : (s.heap (.elem :: p)).set = false := by
        rw [hd.set]
        cases hi : d.isSet with
        | false => rfl
        | true => obtain ⟨v, h⟩ := fits_store hs (hst rfl) hi; rw [hv] at h; simp at h
      have hpop : popVal (.elem :: p) { s with log := L } = .throw (.std notSet) { s with log := L } := by
        unfold popVal; rw [if_neg (by simp [hset])]; rfl
      have hse : storeEntry true k d ents = .error notSet := by simp [storeEntry, hv]
      rw [hse]
      exact ⟨{ s with log := L }, by unfold M.bind; rw [hpop], by simpa [W.bind, W.elem, W.lift] using hlog⟩

/-- State after the alternative of a union was selected. -/
theorem select_spec {ty tm st ms p x} (s : St) :
    match lookup x 0 ms with
    | none => ∃ s', select E ty tm st ms p x s = .throw (.std ("Unexpected member " ++ showName E.fmtDbl x)) s' ∧ s'.log = s.log
    | some a => ∃ s', select E ty tm st ms p x s = .ok a s' ∧ s'.log = s.log ∧ (s'.heap p).empty = false ∧ (s'.heap p).curId = a.1 ∧
        Acc a.2 s'.heap (.mem a.1 :: p) (noSlots a.2) [] false := by
  unfold select
  rw [bind_modH, setNotEmpty_def, bind_modC]
  cases hl : lookup x 0 ms with
  | none => simp only [throwStd, nameText_show]; exact ⟨_, rfl, rfl⟩
  | some a =>
    obtain ⟨a, ash⟩ := a
    simp only [bind_push, bind_modC]
    refine ⟨_, rfl, rfl, by simp, by simp, ?_⟩
    obtain ⟨i, hi⟩ := lookup_mem hl
    refine (Acc.reset ash (.mem a :: p) s.heap).congr fun q hq => ?_
    simp only
    rw [upd_other (ne_of_below_step hq), upd_other (ne_of_below_step hq)]
    exact resetH_union_member s.heap hi hq

/-- The calls and the result of a union, from its type value to the closing brace. -/
def denUnionT (fmt : Dbl → String) (st : Bool) (ms : List (MInfo × Shape)) (p : Path) (x : Scalar) (fs : List (String × Json)) : W D :=
  (W.lift (selectAlt fmt ms x)).bind fun a =>
  (denFieldsT fmt a.2 (.mem a.1 :: p) (noSlots a.2) [] false fs).bind fun d =>
  (W.lift (finishUnion st ms a.1 d)).bind fun d => .done p d

theorem denUnionT_fits {fmt ty tm st ms p x fs d} (hw : (Shape.union ty tm st ms).wf = true)
    (h : (denUnionT fmt st ms p x fs).result = .ok d) : (Shape.union ty tm st ms).fits d = true := by
  unfold denUnionT at h
  simp only [W.result_bind, W.result_lift, W.result_done] at h
  obtain ⟨a, h1, h⟩ := except_bind_ok h
  obtain ⟨d1, h2, h⟩ := except_bind_ok h
  obtain ⟨d2, h3, h⟩ := except_bind_ok h
  injection h with h; subst h
  have hla : lookup x 0 ms = some a := by
    unfold selectAlt at h1; split at h1
    · rename_i hl'; injection h1 with h1; subst h1; exact hl'
    · simp at h1
  obtain ⟨i', hi'⟩ := lookup_mem (a := a.1) (sh := a.2) hla
  exact finishUnion_fits hw hi' (denFieldsT_fits (wfMs_mem (wf_union hw) hi').2.1 h2) h3

/-- A union, from its type value to the closing brace. -/
theorem union_meets (hE : Passive E) {ty tm st ms p x fs} (s : St) (hR : R.at p = some (.union ty tm st ms))
    (hw : (Shape.union ty tm st ms).wf = true)
    (ih : ∀ a (s : St), lookup x 0 ms = some a → R.at (.mem a.1 :: p) = some a.2 → a.2.wf = true →
      Acc a.2 s.heap (.mem a.1 :: p) (noSlots a.2) [] false →
      Meets E (denFieldsT E.fmtDbl a.2 (.mem a.1 :: p) (noSlots a.2) [] false fs) s.log (At (.mem a.1 :: p))
        (evalFields E a.2 (.mem a.1 :: p) fs s)) :
    Meets E (denUnionT E.fmtDbl st ms p x fs) s.log (At p)
      (M.bind (select E ty tm st ms p x) (fun a =>
        M.bind (evalFields E a.2 (.mem a.1 :: p) fs) fun _ =>
        M.bind dropTop fun _ => complete E (.union ty tm st ms) p) s) := by
  have hsel := select_spec (E := E) (ty := ty) (tm := tm) (st := st) (ms := ms) (p := p) (x := x) s
  unfold denUnionT selectAlt
  cases hl : lookup x 0 ms with
  | none =>
    rw [hl] at hsel
    obtain ⟨s', h, hlog⟩ := hsel
    exact ⟨s', by unfold M.bind; rw [h], hlog⟩
  | some a =>
    rw [hl] at hsel
    obtain ⟨s1, h1, hlog, h2, h3, h4⟩ := hsel
    rw [bind_ok h1]
    obtain ⟨a, ash⟩ := a
    obtain ⟨i, hi⟩ := lookup_mem hl
    have hRa := at_mem_union hR hi
    have hwa := wfMs_mem (wf_union hw) hi
    simp only [W.lift_ok]
    rw [← hlog]
    refine Meets.bind rfl (ih (a, ash) s1 hl hRa hwa.2.1 h4) fun d s2 hd hok hh => ?_
    rw [bind_drop]
    have hk := (evalFields_keep fs ash _ hRa _ _ _ hok).2.frame p below_self_cons
    exact complete_union hE (by simp only; rw [hk]; exact h2) hw (by simp only; rw [hk]; exact h3) hi hh
      (denFieldsT_fits hwa.2.1 hd)

/-- What an array that has collected `acc` does with a complete element and with the rest. -/
theorem elem_step {st} {e : Shape} {p acc d} {s : St} {rest : M Unit} {r : W (List Val)}
    (hd : Holds s.heap (.elem :: p) d) (hs : e.fits d = true) (hst : st = true → e.isStorage = true)
    (hacc : st = true → (s.heap p).val = .arr acc)
    (ih : ∀ (s' : St) acc', (st = true → (s'.heap p).val = .arr acc') →
      Meets E r s'.log (fun vs s'' => st = true → (s''.heap p).val = .arr (acc' ++ vs)) (rest s')) :
    Meets E (if st then
        match d.value? with
        | some v => r.bind fun vs => .lift (.ok (v :: vs))
        | none => .error notSet
      else r) s.log (fun vs s'' => st = true → (s''.heap p).val = .arr (acc ++ vs)) (M.bind (arrChild st p) (fun _ => rest) s) := by
  have hc := arrChild_spec hd hs hst hacc
  cases st with
  | false =>
    simp only [Bool.false_eq_true, if_false] at hc ⊢
    obtain ⟨s', h1, hlog, h2⟩ := hc
    rw [bind_ok h1, ← hlog]
    have := ih s' acc (by simp)
    simpa using this
  | true =>
    rw [if_pos rfl] at hc ⊢
    cases hv : d.value? with
    | none =>
      rw [hv] at hc
      obtain ⟨s', h, hlog⟩ := hc
      exact ⟨s', by unfold M.bind; rw [h], hlog⟩
    | some v =>
      rw [hv] at hc
      obtain ⟨s', h1, hlog, h2⟩ := hc
      rw [bind_ok h1, ← hlog]
      have := ih s' _ h2
      unfold Meets at this ⊢
      unfold W.bind
      cases hr : r.result with
      | error m => rw [hr] at this; exact this
      | ok vs =>
        rw [hr] at this
        obtain ⟨s'', h3, h4, h5⟩ := this
        exact ⟨s'', h3, fun h => by rw [h4 h]; simp, by simpa [W.lift] using h5⟩

theorem user_of_wf {sh : Shape} (h : sh.wf = true) : sh ≠ .ignore := by rintro rfl; simp [Shape.wf] at h

theorem Meets.congr {α} {w w' : W α} {l Q m} (h : Meets E w l Q m) (e : w = w') : Meets E w' l Q m := e ▸ h

mutual
theorem den_val (hE : Passive E) : ∀ (j : Json) (sh : Shape) (p : Path) (s : St), R.at p = some sh → sh.wf = true →
    uokVal sh j = true → Meets E (denoteT E.fmtDbl sh p j) s.log (At p) (evalVal E sh p j s)
  | .null, sh, p, s, hR, hw, hok => by
    unfold denoteT evalVal
    exact .ok rfl (by simp only [Holds]; exact (resetH_self _ _ _).1) rfl
  | .sc x, sh, p, s, hR, hw, hok => by
    unfold denoteT evalVal
    cases sh with
    | value ty =>
      simp only
      split
      · rw [setNotEmpty_def, bind_modC, bind_modC]
        exact complete_value hE (s := { s with heap := _ }) (by simp)
      · exact Meets.error rfl
    | ignore => simp [Shape.wf] at hw
    | union ty tm st ms =>
      simp only [uokVal, bne_iff_ne, ne_eq] at hok
      simp only [if_neg hok]
      exact Meets.error rfl
    | _ => exact Meets.error rfl
  | .arr l, sh, p, s, hR, hw, hok => by
    unfold denoteT evalVal
    cases sh with
    | array st e =>
      simp only [uokVal] at hok
      simp only [bind_modH, bind_modC]
      refine Meets.bind (Q := fun vs s'' => st = true → (s''.heap p).val = .arr ([] ++ vs)) rfl
        (den_elems hE l st e p { s with heap := (resetH p (.array st e) s.heap).upd p fun c => { c with started := true } } []
        hR (wf_array hw).1 (wf_array hw).2 hok (by rintro rfl; simp [resetH])) fun vs s' hvs hok' hv => ?_
      rw [bind_modC]
      exact complete_array hE (s := { s' with heap := _ }) (by simpa using hv)
    | ignore => simp [Shape.wf] at hw
    | _ => exact Meets.error rfl
  | .obj fs, sh, p, s, hR, hw, hok => by
    unfold denoteT evalVal
    cases sh with
    | value | array => exact Meets.error rfl
    | ignore => simp [Shape.wf] at hw
    | object k u ms =>
      simp only [uokVal] at hok
      simp only [bind_modH]
      exact den_fields hE fs _ p { s with heap := _ } _ _ _ hR hw hok (Acc.reset _ _ _) (AccFits.none _)
    | map st e =>
      simp only [uokVal] at hok
      simp only [bind_modH]
      exact den_fields hE fs _ p { s with heap := _ } _ _ _ hR hw hok (Acc.reset _ _ _) (AccFits.none _)
    | union ty tm st ms =>
      simp only [uokVal] at hok
      simp only
      split
      · exact Meets.error rfl
      · rename_i htm
        rw [if_neg htm] at hok
        rw [bind_modH]
        exact den_fields hE fs _ p { s with heap := _ } _ _ _ hR hw hok (Acc.reset _ _ _) (AccFits.none _)
theorem den_fields (hE : Passive E) : ∀ (fs : List (String × Json)) (sh : Shape) (p : Path) (s : St) (slots ents ne),
    R.at p = some sh → sh.wf = true → uokFields sh fs = true → Acc sh s.heap p slots ents ne → AccFits sh slots ents →
    Meets E (denFieldsT E.fmtDbl sh p slots ents ne fs) s.log (At p) (evalFields E sh p fs s)
  | [], sh, p, s, slots, ents, ne, hR, hw, hok, hacc, hfit => by
    unfold denFieldsT evalFields
    cases sh with
    | value | ignore | array => exact Meets.error rfl
    | object k u ms =>
      exact complete_object hE hacc.1 hw hacc.2.1 hacc.2.2.1 hacc.2.2.2
    | map st e => exact complete_map hE hacc hfit
    | union ty tm st ms => exact complete_union_empty hacc
  | (k, v) :: fs, sh, p, s, slots, ents, ne, hR, hw, hok, hacc, hfit => by
    unfold uokFields at hok
    unfold denFieldsT evalFields
    cases sh with
    | value | ignore | array => exact Meets.error rfl
    | object kd u ms =>
      obtain ⟨ha1, ha2, ha3, ha4⟩ := hacc
      simp only
      rw [setNotEmpty_def, bind_modC]
      simp only at hok
      cases hl : lookup (.str k) 0 ms with
      | some nm =>
        obtain ⟨n, m⟩ := nm
        rw [hl] at hok
        simp only at hok
        obtain ⟨i, hi⟩ := lookup_mem hl
        have hRm := at_mem_object hR hi
        have hwm := wfMs_mem (wf_object hw) hi
        simp only [bind_push]
        -- what is left of the state after the member has been read
        have after : ∀ (s' : St) d, Frame (.mem n :: p) (s.heap.upd p fun c => { c with empty := false }) s'.heap →
            Holds s'.heap (.mem n :: p) d → m.fits d = true →
            Acc (.object kd u ms) s'.heap p (slots.set n d) [] true := by
          intro s' d hf hh hst
          have hp := hf p below_self_cons
          refine ⟨by rw [hp]; simp, ?_, fitsL_set ha3 hi hst, fun hc => by rw [hp]; simpa using ha4 hc⟩
          exact HoldsL.set (HoldsL.congr slots p 0 (fun q _ hn => upd_other hn) ha2) hf hh
        cases he : embedded m v with
        | some z =>
          obtain ⟨ty, st, ms', x⟩ := z
          rw [he] at hok
          obtain ⟨rfl, rfl, hx⟩ := embedded_some he
          simp only at hok ⊢
          have hu := union_meets (E := E) hE (fs := fs) (x := x)
            { s with heap := s.heap.upd p (fun c => { c with empty := false }), stack := (.mem n :: p) :: s.stack }
            hRm hwm.2.1 (fun a s' hla hRa hwa hacc' => den_fields hE fs a.2 _ s' _ _ _ hRa hwa (by
              rw [hla] at hok; exact hok) hacc' (AccFits.none _))
          have main := Meets.bind (Q' := At p) (f := fun d => (W.lift (finishObject kd ms (slots.set n d) true)).bind (.done p))
            (k := fun _ => M.bind dropTop fun _ => complete E (.object kd u ms) p) rfl hu (fun d s' hd hok' hh => ?_)
          · simp only [bind_assoc, denUnionT, W.bind_assoc] at main
            exact main
          rw [bind_drop]
          have hkeep : Frame (.mem n :: p) (s.heap.upd p fun c => { c with empty := false }) s'.heap := by
            refine (KeepM.select (R := R) (fun a hla => ?_) (fun a => (Loc.complete _ _).keep) _ _ _ (by
              simpa only [bind_assoc] using hok')).2.frame
            obtain ⟨i', hi'⟩ := lookup_mem hla
            exact (evalFields_keep fs a.2 _ (at_mem_union hRm hi')).up (Below.cons _ _)
          have := after s' d hkeep hh (denUnionT_fits hwm.2.1 hd)
          exact complete_object hE (s := { s' with stack := _ }) this.1 hw this.2.1 this.2.2.1 this.2.2.2
        | none =>
          rw [he] at hok
          simp only [Bool.and_eq_true] at hok
          simp only
          refine Meets.bind rfl (den_val hE v m _ { s with heap := _, stack := _ } hRm hwm.2.1 hok.1.2) fun d s' hd hok' hh => ?_
          rw [bind_drop]
          have hfit' := denoteT_fits hwm.2.1 hd
          refine den_fields hE fs _ p { s' with stack := _ } _ _ _ hR hw hok.2 ?_ (show AccFits (.object kd u ms) _ [] from fitsL_set ha3 hi hfit')
          exact after { s' with stack := s'.stack.tail } d (evalVal_keep v m _ hRm _ _ _ hok').2.frame hh hfit'
      | none =>
        rw [hl] at hok
        simp only at hok ⊢
        split
        · exact Meets.error rfl
        · rename_i hu
          rw [if_neg hu, Bool.and_eq_true] at hok
          rw [bind_push]
          obtain ⟨s', hs', hlog⟩ := evalVal_ignore (E := E) (.ign :: p) v { s with heap := s.heap.upd p (fun c => { c with empty := false }), stack := (.ign :: p) :: s.stack }
          rw [bind_ok hs', bind_drop]
          have hf := (evalVal_keep (R := R) v .ignore _ (at_ign_object hR) _ _ _ hs').2.frame
          have hlog : s'.log = s.log := hlog
          rw [← hlog]
          refine den_fields hE fs _ p { s' with stack := _ } _ _ _ hR hw hok.2 ?_ (show AccFits (.object kd u ms) slots [] from ha3)
          have hp := hf p below_self_cons
          refine ⟨by simp only; rw [hp]; simp, ?_, ha3, fun hc => by simp only; rw [hp]; simpa using ha4 hc⟩
          have h1 : HoldsL (s.heap.upd p fun c => { c with empty := false }) p 0 slots :=
            HoldsL.congr slots p 0 (fun q _ hn => upd_other hn) ha2
          apply HoldsL.intro
          intro m d hd
          have := h1.get hd
          refine Holds.congr d _ (fun q hq => hf q ?_) this
          exact below_disjoint (by simp) hq
    | union ty tm st ms =>
      simp only at hok ⊢
      split
      · exact Meets.error rfl
      · rename_i htm
        rw [if_neg htm] at hok
        split
        · exact Meets.error rfl
        · rename_i hkt
          rw [if_neg hkt] at hok
          cases v with
          | null => simp at hok
          | obj => simp at hok
          | arr => exact Meets.error rfl
          | sc x =>
            simp only at hok ⊢
            split
            · rename_i hx
              rw [if_pos hx] at hok
              exact union_meets hE s hR hw (fun a s' hla hRa hwa hacc' => den_fields hE fs a.2 _ s' _ _ _ hRa hwa (by
                rw [hla] at hok; exact hok) hacc' (AccFits.none _))
            · exact Meets.error rfl
    | map st e =>
      have hRe := at_elem_map hR
      have hwe := wf_map hw
      simp only at hok ⊢
      rw [setNotEmpty_def, bind_modC, bind_push, bind_modC]
      have after : ∀ (s' : St) d, Frame (.elem :: p) ((s.heap.upd p fun c => { c with empty := false }).upd p
            fun c => { c with curKey := k }) s'.heap →
          Holds s'.heap (.elem :: p) d → e.fits d = true →
          Meets E ((W.elem p k d).bind fun _ => W.lift (storeEntry st k d ents)) s'.log
            (fun ents' s'' => st = true → (s''.heap p).val = .map ents') (mapChild E st e p s') := by
        intro s' d hf hh hst
        have hp := hf p below_self_cons
        exact mapChild_spec hE hh hst hwe.2 (by rw [hp]; simp) (fun h => by rw [hp]; simpa using hacc h)
      cases he : embedded e v with
      | some z =>
        obtain ⟨ty, st', ms', x⟩ := z
        rw [he] at hok
        obtain ⟨rfl, rfl, hx⟩ := embedded_some he
        simp only at hok ⊢
        have hu := union_meets (E := E) hE (fs := fs) (x := x)
          { s with heap := (s.heap.upd p fun c => { c with empty := false }).upd p fun c => { c with curKey := k },
                   stack := (.elem :: p) :: s.stack }
          hRe hwe.1 (fun a s' hla hRa hwa hacc' => den_fields hE fs a.2 _ s' _ _ _ hRa hwa (by
            rw [hla] at hok; exact hok) hacc' (AccFits.none _))
        have main := Meets.bind (Q' := At p) (f := fun d => ((W.elem p k d).bind fun _ => W.lift (storeEntry st k d ents)).bind fun ents => .done p (finishMap st ents))
          (k := fun _ => M.bind dropTop fun _ => M.bind (mapChild E st (.union ty "" st' ms') p) fun _ =>
            complete E (.map st (.union ty "" st' ms')) p) rfl hu (fun d s' hd hok' hh => ?_)
        · simp only [bind_assoc, denUnionT, W.bind_assoc] at main
          exact main
        rw [bind_drop]
        have hkeep : Frame (.elem :: p) ((s.heap.upd p fun c => { c with empty := false }).upd p
            fun c => { c with curKey := k }) s'.heap := by
          refine (KeepM.select (R := R) (fun a hla => ?_) (fun a => (Loc.complete _ _).keep) _ _ _ (by
            simpa only [bind_assoc] using hok')).2.frame
          obtain ⟨i', hi'⟩ := lookup_mem hla
          exact (evalFields_keep fs a.2 _ (at_mem_union hRe hi')).up (Below.cons _ _)
        have hfd := denUnionT_fits hwe.1 hd
        have := after { s' with stack := s'.stack.tail } d hkeep hh hfd
        refine Meets.bind (s := { s' with stack := s'.stack.tail }) rfl this fun ents' s'' hse hok'' hv => ?_
        exact complete_map hE hv (storeEntry_types hfd hfit (by simpa using hse))
      | none =>
        rw [he] at hok
        simp only [Bool.and_eq_true] at hok
        simp only
        refine Meets.bind rfl (den_val hE v e _ { s with heap := _, stack := _ } hRe hwe.1 hok.1.2) fun d s' hd hok' hh => ?_
        rw [bind_drop]
        have hfd := denoteT_fits hwe.1 hd
        have := after { s' with stack := s'.stack.tail } d (evalVal_keep v e _ hRe _ _ _ hok').2.frame hh hfd
        refine Meets.congr (w := ((W.elem p k d).bind fun _ => W.lift (storeEntry st k d ents)).bind fun ents =>
            denFieldsT E.fmtDbl (.map st e) p [] ents true fs)
          (Meets.bind (s := { s' with stack := s'.stack.tail }) rfl this fun ents' s'' hse hok'' hv => ?_) (W.bind_assoc _ _ _)
        exact den_fields hE fs _ p s'' _ _ _ hR hw hok.2 hv
          (show AccFits (.map st e) [] ents' from storeEntry_types hfd hfit (by simpa using hse))
theorem den_elems (hE : Passive E) : ∀ (l : List Json) (st : Bool) (e : Shape) (p : Path) (s : St) (acc : List Val),
    R.at p = some (.array st e) → e.wf = true → (st = true → e.isStorage = true) → uokElems e l = true →
    (st = true → (s.heap p).val = .arr acc) →
    Meets E (denElemsT E.fmtDbl st e p l) s.log (fun vs s'' => st = true → (s''.heap p).val = .arr (acc ++ vs))
      (evalElems E st e p l s)
  | [], st, e, p, s, acc, hR, hw, hst, hok, hacc => by
    unfold denElemsT evalElems
    exact ⟨s, rfl, by simpa using hacc, rfl⟩
  | .null :: l, st, e, p, s, acc, hR, hw, hst, hok, hacc => by
    unfold uokElems at hok
    simp only [Bool.and_eq_true] at hok
    unfold denElemsT evalElems
    rw [bind_modH]
    exact den_elems hE l st e p { s with heap := _ } acc hR hw hst hok.2 (fun h => by
      simp only; rw [resetH_frame e _ _ p below_self_cons]; exact hacc h)
  | .sc x :: l, st, e, p, s, acc, hR, hw, hst, hok, hacc => by
    unfold uokElems at hok
    simp only [Bool.and_eq_true] at hok
    unfold denElemsT evalElems
    refine Meets.bind rfl (den_val hE (.sc x) e _ s (at_elem_array hR) hw hok.1.2) fun d s' hd hok' hh => ?_
    rw [setNotEmpty_def, bind_modC]
    have hf := (evalVal_keep (R := R) (.sc x) e _ (at_elem_array hR) _ _ _ hok').2.frame p below_self_cons
    exact elem_step (s := { s' with heap := _ }) (Holds.congr d _ (fun q hq => by simp only; exact upd_other (ne_of_below_step hq)) hh) (denoteT_fits hw hd) hst
      (fun h => by simp only [upd_same, hf]; exact hacc h) (fun s' acc' h => den_elems hE l st e p s' acc' hR hw hst hok.2 h)
  | .arr l' :: l, st, e, p, s, acc, hR, hw, hst, hok, hacc => by
    unfold uokElems at hok
    simp only [Bool.and_eq_true] at hok
    unfold denElemsT evalElems
    simp only [setNotEmpty_def, bind_modC, bind_modH, bind_push]
    refine Meets.bind rfl (den_val hE (.arr l') e _ { s with heap := _, stack := _ } (at_elem_array hR) hw hok.1.2) fun d s' hd hok' hh => ?_
    rw [bind_drop]
    have hf := (evalVal_keep (R := R) (.arr l') e _ (at_elem_array hR) _ _ _ hok').2.frame p below_self_cons
    exact elem_step (s := { s' with stack := _ }) hh (denoteT_fits hw hd) hst
      (fun h => by simp only [hf]; rw [setDispH_frame _ _ _ p below_self_cons]; simpa using hacc h)
      (fun s' acc' h => den_elems hE l st e p s' acc' hR hw hst hok.2 h)
  | .obj l' :: l, st, e, p, s, acc, hR, hw, hst, hok, hacc => by
    unfold uokElems at hok
    simp only [Bool.and_eq_true] at hok
    unfold denElemsT evalElems
    simp only [setNotEmpty_def, bind_modC, bind_modH, bind_push]
    refine Meets.bind rfl (den_val hE (.obj l') e _ { s with heap := _, stack := _ } (at_elem_array hR) hw hok.1.2) fun d s' hd hok' hh => ?_
    rw [bind_drop]
    have hf := (evalVal_keep (R := R) (.obj l') e _ (at_elem_array hR) _ _ _ hok').2.frame p below_self_cons
    exact elem_step (s := { s' with stack := _ }) hh (denoteT_fits hw hd) hst
      (fun h => by simp only [hf]; rw [setDispH_frame _ _ _ p below_self_cons]; simpa using hacc h)
      (fun s' acc' h => den_elems hE l st e p s' acc' hR hw hst hok.2 h)
end

end SJ
