/-
What the callbacks of streamed elements take out of their parsers makes no difference (C66).
-/
import Verif.SpecTake
import Verif.Proofs.ActiveFacts
import Verif.Proofs.Grow
import Verif.Proofs.Round
import Verif.Proofs.Fit

set_option linter.unusedVariables false

namespace SJ
namespace Tk

variable {R : Shape}

theorem without {F F' : Handlers} (h : SameButTaken R F F') (p : Path) : SameButTaken R (F.without p) (F'.without p) where
  fmt := h.fmt
  finish q := by
    by_cases hq : q = p
    · left; simp [Handlers.without, hq]
    · simpa [Handlers.without, hq] using h.finish q
  element q := h.element q

theorem without_same {F F' : Handlers} (p : Path) : (F.without p).onFinish p = (F'.without p).onFinish p := by simp [Handlers.without]

theorem not_streamed_mem {n p} : ¬ StreamedElement R (.mem n :: p) := by
  rintro ⟨q, e, h, _⟩; simp at h

theorem not_streamed_map {p st e} (hR : R.at p = some (.map st e)) : ¬ StreamedElement R (.elem :: p) := by
  rintro ⟨q, e', h, h'⟩
  simp only [List.cons.injEq, true_and] at h
  subst h; rw [hR] at h'; simp at h'

theorem not_streamed_array {p e} (hR : R.at p = some (.array true e)) : ¬ StreamedElement R (.elem :: p) := by
  rintro ⟨q, e', h, h'⟩
  simp only [List.cons.injEq, true_and] at h
  subst h; rw [hR] at h'; simp at h'

theorem same {F F' : Handlers} (h : SameButTaken R F F') {p} (hp : ¬ StreamedElement R p) : F.onFinish p = F'.onFinish p :=
  (h.finish p).resolve_right fun x => hp x.1

/-- After the finish callback of a streamed element nothing depends on what it has left. -/
theorem done_dropped {F F' : Handlers} (h : SameButTaken R F F') {e q d} {β} (K : Eff β) :
    (Eff.done F e q d).bind (fun _ => K) = (Eff.done F' e q d).bind (fun _ => K) := by
  rcases h.finish q with h | ⟨_, f, f', hf, hf', hv⟩
  · rw [Eff.done_congr h]
  · funext l
    unfold Eff.bind Eff.done
    cases d.isSet
    · rfl
    · simp only [if_true, hf, hf', hv l d]
      cases (f' l d).verdict <;> rfl

theorem elem_dropped {F F' : Handlers} (h : SameButTaken R F F') {q k d} {β} (K : Eff β) :
    (Eff.elem F q k d).bind (fun _ => K) = (Eff.elem F' q k d).bind (fun _ => K) := by
  rcases h.element q with h | ⟨_, f, f', hf, hf', hv⟩
  · rw [Eff.elem_congr h]
  · funext l
    unfold Eff.bind Eff.elem
    simp only [hf, hf', hv l k d]
    cases (f' l k d).verdict <;> rfl

/-- The element callback of a map, and the storing of the entry. -/
theorem entry_same {F F' : Handlers} (h : SameButTaken R F F') {p st e k d ents} (hR : R.at p = some (.map st e)) {β} {K K' : List (String × Val) → Eff β}
    (hK : ∀ x, K x = K' x) :
    ((Eff.elem F p k d).bind fun d => (Eff.lift (storeEntry st k d ents)).bind K) =
      (Eff.elem F' p k d).bind fun d => (Eff.lift (storeEntry st k d ents)).bind K' := by
  have : K = K' := funext hK
  subst this
  cases st with
  | false => simp only [storeEntry, Bool.false_eq_true, if_false]; exact elem_dropped h _
  | true =>
    have : F.onElement p = F'.onElement p := (h.element p).resolve_right (by rintro ⟨⟨e', h'⟩, _⟩; rw [hR] at h'; simp at h')
    rw [Eff.bind_congr (Eff.elem_congr this) fun _ => rfl]

theorem alt_at {p ty tm st ms} {fmt x a} (hR : R.at p = some (.union ty tm st ms)) (h : selectAlt fmt ms x = .ok a) : R.at (.mem a.1 :: p) = some a.2 := by
  obtain ⟨i, hi⟩ := selectAlt_get h
  exact at_mem_union hR hi

theorem lift_congr {α β} {r : Except String α} {K K' : α → Eff β} (h : ∀ a, r = .ok a → K a = K' a) : (Eff.lift r).bind K = (Eff.lift r).bind K' := by
  cases r with
  | error e => rfl
  | ok a => rw [Eff.lift_ok, Eff.lift_ok]; exact h a rfl

theorem one {F F' : Handlers} (j : Json) (h : SameButTaken R F F') {p st e} (hR : R.at p = some (.array st e)) (hw : R.wf = true)
    (h1 : SameButTaken R (F.without (.elem :: p)) (F'.without (.elem :: p)) →
      denoteA (F.without (.elem :: p)) e (.elem :: p) j = denoteA (F'.without (.elem :: p)) e (.elem :: p) j)
    (h2 : F.onFinish (.elem :: p) = F'.onFinish (.elem :: p) → denoteA F e (.elem :: p) j = denoteA F' e (.elem :: p) j) {K : Eff (List Val)} :
    ((denoteA F e (.elem :: p) j).bind fun d =>
      if st then match d.value? with
        | some v => K.bind fun vs => .lift (.ok (v :: vs))
        | none => .error notSet
      else K) =
    (denoteA F' e (.elem :: p) j).bind fun d =>
      if st then match d.value? with
        | some v => K.bind fun vs => .lift (.ok (v :: vs))
        | none => .error notSet
      else K := by
  cases st with
  | true => rw [h2 (same h (not_streamed_array hR))]
  | false =>
    have hu : e.isUser = true := wf_user (wf_array ((wf_at hw _ _ hR).resolve_right (by simp))).1
    simp only [Bool.false_eq_true, if_false]
    rw [denoteA_last (F := F) j e _ hu, denoteA_last (F := F') j e _ hu, h1 (without h _), Eff.bind_assoc, Eff.bind_assoc]
    exact Eff.bind_congr rfl fun d => done_dropped h K

mutual
theorem denoteA_taken : ∀ (j : Json) (sh : Shape) (p : Path) {F F' : Handlers}, SameButTaken R F F' → F.onFinish p = F'.onFinish p → R.at p = some sh →
    R.wf = true → denoteA F sh p j = denoteA F' sh p j
  | .null, sh, p, F, F', h, hp, hR, hw => by simp only [denoteA]
  | .sc x, sh, p, F, F', h, hp, hR, hw => by
    cases sh <;> simp only [denoteA]
    rw [Eff.done_congr hp]
  | .arr l, sh, p, F, F', h, hp, hR, hw => by
    cases sh with
    | array st e => simp only [denoteA]; exact Eff.bind_congr (denElemsA_taken l st e p h hR hw) fun _ => Eff.done_congr hp
    | _ => simp only [denoteA]
  | .obj fs, sh, p, F, F', h, hp, hR, hw => by
    cases sh with
    | object k u ms => simp only [denoteA]; exact denFieldsA_taken fs _ p _ _ _ h hp hR hw
    | map st e => simp only [denoteA]; exact denFieldsA_taken fs _ p _ _ _ h hp hR hw
    | union ty tm st ms =>
      simp only [denoteA]
      split
      · rfl
      · exact denFieldsA_taken fs _ p _ _ _ h hp hR hw
    | _ => simp only [denoteA]
theorem denFieldsA_taken : ∀ (fs : List (String × Json)) (sh : Shape) (p : Path) (slots ents ne) {F F' : Handlers}, SameButTaken R F F' →
    F.onFinish p = F'.onFinish p → R.at p = some sh → R.wf = true →
    denFieldsA F sh p slots ents ne fs = denFieldsA F' sh p slots ents ne fs
  | [], sh, p, slots, ents, ne, F, F', h, hp, hR, hw => by
    cases sh <;> simp only [denFieldsA]
    · exact Eff.bind_congr rfl fun _ => Eff.done_congr hp
    · exact Eff.done_congr hp
  | (k, v) :: fs, sh, p, slots, ents, ne, F, F', h, hp, hR, hw => by
    cases sh with
    | value | ignore | array => simp only [denFieldsA]
    | object kd u ms =>
      simp only [denFieldsA]
      cases hl : lookup (.str k) 0 ms with
      | none =>
        simp only
        split
        · rfl
        · exact denFieldsA_taken fs _ p _ _ _ h hp hR hw
      | some nm =>
        obtain ⟨n, m⟩ := nm
        obtain ⟨i, hi⟩ := lookup_mem hl
        have hRm := at_mem_object hR hi
        simp only
        cases he : embedded m v with
        | none =>
          simp only
          exact Eff.bind_congr (denoteA_taken v m _ h (same h not_streamed_mem) hRm hw) fun d => denFieldsA_taken fs _ p _ _ _ h hp hR hw
        | some z =>
          obtain ⟨ty, st, ms', x⟩ := z
          obtain ⟨rfl, rfl, _⟩ := embedded_some he
          simp only [h.fmt]
          exact lift_congr fun a ha => Eff.bind_congr (denFieldsA_taken fs _ _ _ _ _ h (same h not_streamed_mem) (alt_at hRm ha) hw) fun d =>
            Eff.bind_congr rfl fun d => Eff.bind_congr (Eff.done_congr (same h not_streamed_mem)) fun d =>
            Eff.bind_congr rfl fun d => Eff.done_congr hp
    | union ty tm st ms =>
      simp only [denFieldsA]
      split
      · rfl
      · split
        · rfl
        · cases v with
          | null | arr | obj => rfl
          | sc x =>
            simp only [h.fmt]
            split
            · exact lift_congr fun a ha => Eff.bind_congr (denFieldsA_taken fs _ _ _ _ _ h (same h not_streamed_mem) (alt_at hR ha) hw) fun d =>
                Eff.bind_congr rfl fun d => Eff.done_congr hp
            · rfl
    | map st e =>
      have hRe := at_elem_map hR
      have hns := same h (not_streamed_map hR)
      simp only [denFieldsA]
      cases he : embedded e v with
      | none =>
        simp only
        exact Eff.bind_congr (denoteA_taken v e _ h hns hRe hw) fun d => entry_same h hR fun ents => denFieldsA_taken fs _ p _ _ _ h hp hR hw
      | some z =>
        obtain ⟨ty, st', ms', x⟩ := z
        obtain ⟨rfl, rfl, _⟩ := embedded_some he
        simp only [h.fmt]
        exact lift_congr fun a ha => Eff.bind_congr (denFieldsA_taken fs _ _ _ _ _ h (same h not_streamed_mem) (alt_at hRe ha) hw) fun d =>
          Eff.bind_congr rfl fun d => Eff.bind_congr (Eff.done_congr hns) fun d => entry_same h hR fun ents => Eff.done_congr hp
theorem denElemsA_taken : ∀ (l : List Json) (st : Bool) (e : Shape) (p : Path) {F F' : Handlers}, SameButTaken R F F' → R.at p = some (.array st e) →
    R.wf = true → denElemsA F st e p l = denElemsA F' st e p l
  | [], st, e, p, F, F', h, hR, hw => by simp only [denElemsA]
  | .null :: l, st, e, p, F, F', h, hR, hw => by simp only [denElemsA]; exact denElemsA_taken l st e p h hR hw
  | .sc x :: l, st, e, p, F, F', h, hR, hw => by
    simp only [denElemsA]
    rw [denElemsA_taken l st e p h hR hw]
    exact one (.sc x) h hR hw (fun h' => denoteA_taken (.sc x) e _ h' (without_same _) (at_elem_array hR) hw)
      (fun hs => denoteA_taken (.sc x) e _ h hs (at_elem_array hR) hw)
  | .arr x :: l, st, e, p, F, F', h, hR, hw => by
    simp only [denElemsA]
    rw [denElemsA_taken l st e p h hR hw]
    exact one (.arr x) h hR hw (fun h' => denoteA_taken (.arr x) e _ h' (without_same _) (at_elem_array hR) hw)
      (fun hs => denoteA_taken (.arr x) e _ h hs (at_elem_array hR) hw)
  | .obj x :: l, st, e, p, F, F', h, hR, hw => by
    simp only [denElemsA]
    rw [denElemsA_taken l st e p h hR hw]
    exact one (.obj x) h hR hw (fun h' => denoteA_taken (.obj x) e _ h' (without_same _) (at_elem_array hR) hw)
      (fun hs => denoteA_taken (.obj x) e _ h hs (at_elem_array hR) hw)
end

end Tk
end SJ
