/-
A parser does inside of another one what it does alone (C71).
-/
import Verif.SpecInside
import Verif.Proofs.Active
import Verif.Proofs.ActiveFacts
import Verif.Proofs.Context

set_option linter.unusedVariables false

namespace SJ

variable {F : Handlers} {R : Shape} {p : Path} {B : List Ev}

/-- The first computation, inside of a tree at `p`, does what the second one does alone. -/
def Mirrors {α} (p : Path) (B : List Ev) (a b : Eff α) : Prop :=
  ∀ l, a (l.map (Ev.under p) ++ B) = ((b l).1.map (Ev.under p) ++ B, (b l).2)

theorem Mirrors.bind {α β} {a a' : Eff α} {f f' : α → Eff β} (h : Mirrors p B a a') (hf : ∀ x, Mirrors p B (f x) (f' x)) : Mirrors p B (a.bind f) (a'.bind f') := by
  intro l
  unfold Eff.bind
  rw [h l]
  cases ha : a' l with
  | mk l' o =>
    cases o with
    | error e => rfl
    | ok x => exact hf x l'

theorem Mirrors.lift {α} (r : Except String α) : Mirrors p B (Eff.lift r) (Eff.lift r) := fun l => rfl
theorem Mirrors.error {α} (e : String) : Mirrors p B (Eff.error e : Eff α) (Eff.error e) := fun l => rfl

theorem Mirrors.done (sh : Shape) (q : Path) (d : D) : Mirrors p B (Eff.done F sh (q ++ p) d) (Eff.done (F.part p B) sh q d) := by
  intro l
  unfold Eff.done
  have e : (F.part p B).onFinish q = (F.onFinish (q ++ p)).map fun f l d => f (l.map (Ev.under p) ++ B) d := rfl
  rw [e]
  cases d.isSet with
  | false => rfl
  | true =>
    cases F.onFinish (q ++ p) with
    | none => rfl
    | some f => rfl

theorem Mirrors.elem (q : Path) (k : String) (d : D) : Mirrors p B (Eff.elem F (q ++ p) k d) (Eff.elem (F.part p B) q k d) := by
  intro l
  unfold Eff.elem
  have e : (F.part p B).onElement q = (F.onElement (q ++ p)).map fun f l k d => f (l.map (Ev.under p) ++ B) k d := rfl
  rw [e]
  cases F.onElement (q ++ p) with
  | none => rfl
  | some f => rfl

mutual
theorem denoteA_mirrors : ∀ (j : Json) (sh : Shape) (q : Path), Mirrors p B (denoteA F sh (q ++ p) j) (denoteA (F.part p B) sh q j)
  | .null, sh, q => by simp only [denoteA]; exact .lift _
  | .sc x, sh, q => by
    cases sh <;> simp only [denoteA]
    · split
      · exact .done _ q _
      · exact .error _
    all_goals first | exact .lift _ | exact .error _
  | .arr l, sh, q => by
    cases sh <;> simp only [denoteA]
    case array => exact .bind (denElemsA_mirrors l _ _ q) fun _ => .done _ q _
    all_goals first | exact .lift _ | exact .error _
  | .obj fs, sh, q => by
    have h := fun a b c => denFieldsA_mirrors fs sh q a b c
    cases sh <;> simp only [denoteA]
    case union =>
      split
      · exact .error _
      · exact h _ _ _
    all_goals first | exact h _ _ _ | exact .lift _ | exact .error _
theorem denFieldsA_mirrors : ∀ (fs : List (String × Json)) (sh : Shape) (q : Path) (slots ents ne),
    Mirrors p B (denFieldsA F sh (q ++ p) slots ents ne fs) (denFieldsA (F.part p B) sh q slots ents ne fs)
  | [], sh, q, slots, ents, ne => by
    cases sh <;> simp only [denFieldsA]
    case object => exact .bind (.lift _) fun _ => .done _ q _
    case map => exact .done _ q _
    all_goals first | exact .lift _ | exact .error _
  | (k, v) :: fs, sh, q, slots, ents, ne => by
    cases sh with
    | value | ignore | array => simp only [denFieldsA]; exact .error _
    | object kd u ms =>
      simp only [denFieldsA]
      cases hl : lookup (.str k) 0 ms with
      | none =>
        simp only
        split
        · exact .error _
        · exact denFieldsA_mirrors fs _ q _ _ _
      | some nm =>
        obtain ⟨n, m⟩ := nm
        simp only
        cases he : embedded m v with
        | none =>
          simp only
          exact .bind (denoteA_mirrors v m (.mem n :: q)) fun d => denFieldsA_mirrors fs _ q _ _ _
        | some z =>
          obtain ⟨ty, st, ms', x⟩ := z
          simp only
          exact .bind (.lift _) fun a => .bind (denFieldsA_mirrors fs _ (.mem a.1 :: .mem n :: q) _ _ _) fun d =>
            .bind (.lift _) fun d => .bind (.done _ (.mem n :: q) _) fun d => .bind (.lift _) fun d => .done _ q _
    | union ty tm st ms =>
      simp only [denFieldsA]
      split
      · exact .error _
      · split
        · exact .error _
        · cases v with
          | null | arr | obj => exact .error _
          | sc x =>
            simp only
            split
            · exact .bind (.lift _) fun a => .bind (denFieldsA_mirrors fs _ (.mem a.1 :: q) _ _ _) fun d => .bind (.lift _) fun d => .done _ q _
            · exact .error _
    | map st e =>
      simp only [denFieldsA]
      cases he : embedded e v with
      | none =>
        simp only
        exact .bind (denoteA_mirrors v e (.elem :: q)) fun d => .bind (.elem q _ _) fun d => .bind (.lift _) fun ents => denFieldsA_mirrors fs _ q _ _ _
      | some z =>
        obtain ⟨ty, st, ms', x⟩ := z
        simp only
        exact .bind (.lift _) fun a => .bind (denFieldsA_mirrors fs _ (.mem a.1 :: .elem :: q) _ _ _) fun d =>
          .bind (.lift _) fun d => .bind (.done _ (.elem :: q) _) fun d => .bind (.elem q _ _) fun d => .bind (.lift _) fun ents => .done _ q _
theorem denElemsA_mirrors : ∀ (l : List Json) (st : Bool) (e : Shape) (q : Path), Mirrors p B (denElemsA F st e (q ++ p) l) (denElemsA (F.part p B) st e q l)
  | [], st, e, q => by simp only [denElemsA]; exact .lift _
  | .null :: l, st, e, q => by simp only [denElemsA]; exact denElemsA_mirrors l st e q
  | .sc x :: l, st, e, q => by
    simp only [denElemsA]
    refine .bind (denoteA_mirrors (.sc x) e (.elem :: q)) fun d => ?_
    cases st with
    | false => exact denElemsA_mirrors l _ e q
    | true =>
      cases d.value? with
      | none => exact .error _
      | some v => exact .bind (denElemsA_mirrors l _ e q) fun vs => .lift _
  | .arr x :: l, st, e, q => by
    simp only [denElemsA]
    refine .bind (denoteA_mirrors (.arr x) e (.elem :: q)) fun d => ?_
    cases st with
    | false => exact denElemsA_mirrors l _ e q
    | true =>
      cases d.value? with
      | none => exact .error _
      | some v => exact .bind (denElemsA_mirrors l _ e q) fun vs => .lift _
  | .obj x :: l, st, e, q => by
    simp only [denElemsA]
    refine .bind (denoteA_mirrors (.obj x) e (.elem :: q)) fun d => ?_
    cases st with
    | false => exact denElemsA_mirrors l _ e q
    | true =>
      cases d.value? with
      | none => exact .error _
      | some v => exact .bind (denElemsA_mirrors l _ e q) fun vs => .lift _
end

/-- What reading a value does, anywhere in the tree, for callbacks that take part. -/
theorem parse_atA {s : St} {q sh j} (hx : Expecting R s q sh) (hw : sh.wf = true) (hok : okVal sh j = true) :
    match denoteA F sh q j (seenLog R s.log) with
    | (l, .ok d) => ∃ s1, Completes (F.env R) R s q j s1 ∧ Holds s1.heap q d ∧ seenLog R s1.log = l
    | (l, .error e) => ∃ s', run (F.env R) R (events j) s = .throw e s' ∧ seenLog R s'.log = l := by
  have hm := denA_val (R := R) (F := F) j sh q s hx.shape hw (okVal_uok _ _ hok)
  have hrun := parse_eval_at (E := F.env R) hx (user_of_wf hw) hok
  unfold MeetsA at hm
  cases hd : denoteA F sh q j (seenLog R s.log) with
  | mk l o =>
    rw [hd] at hm
    cases o with
    | error e =>
      obtain ⟨s', h, hl⟩ := hm
      exact ⟨s', by rw [hrun]; unfold M.bind; rw [h], hl⟩
    | ok d =>
      obtain ⟨s', h, ⟨hh, hf⟩, hl⟩ := hm
      have hk := evalVal_keep j sh q hx.shape s () s' h
      rw [bind_ok h] at hrun
      exact ⟨s', ⟨hrun, hk.1, hk.2.frame⟩, hh, hl⟩

end SJ
