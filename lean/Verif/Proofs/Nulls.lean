/-
Documents that differ only in nulls that say nothing give the same (C68).
-/
import Verif.SpecNulls
import Verif.Proofs.Skip
import Verif.Proofs.ActiveFacts

set_option linter.unusedVariables false

namespace SJ

variable {F : Handlers}

theorem SameButNulls.null {e : Shape} {j : Json} (h : SameButNulls e .null j) : j = .null := by cases h; rfl

theorem SameButNulls.embedded {e : Shape} {v v' : Json} (h : SameButNulls e v v') (he : embedded e v = none) : SJ.embedded e v' = none := by
  cases h with
  | same => exact he
  | array st h => rfl
  | object h => cases e <;> rfl

theorem embedded_null (m : Shape) : embedded m .null = none := by cases m <;> rfl

theorem noSlots_set (sh : Shape) (n : Nat) (hn : n ∉ ([] : List Nat)) : (noSlots sh).set n .unset = noSlots sh := by
  cases sh <;> simp only [noSlots, List.set_nil]
  apply List.ext_getElem?
  intro i
  rw [List.getElem?_set]
  split
  · rename_i h; subst h
    split
    · rename_i h; simp only [List.length_map] at h; simp [h]
    · rename_i h; simp only [List.length_map, Nat.not_lt] at h; simp [h]
  · rfl

mutual
theorem denoteA_nulled : ∀ {sh : Shape} {j j' : Json}, SameButNulls sh j j' → ∀ p : Path, denoteA F sh p j = denoteA F sh p j'
  | _, _, _, .same sh j, p => rfl
  | _, _, _, .array st h, p => by
    simp only [denoteA]
    rw [denElemsA_nulled h st p]
  | sh, _, _, .object h, p => by
    have h1 := denFieldsA_nulled h p (noSlots sh) [] (noSlots_set sh)
    cases sh <;> simp only [denoteA, h1]
theorem denElemsA_nulled : ∀ {e : Shape} {l l' : List Json}, ElemsNulled e l l' → ∀ (st : Bool) (p : Path), denElemsA F st e p l = denElemsA F st e p l'
  | _, _, _, .nil e, st, p => rfl
  | e, _, _, .cons (j := j) (j' := j') (l := l) (l' := l') h h', st, p => by
    have h1 := denoteA_nulled h (.elem :: p)
    have h2 := denElemsA_nulled h' st p
    have hn : j = .null ↔ j' = .null := by
      constructor
      · rintro rfl; exact h.null
      · rintro rfl; cases h; rfl
    cases j with
    | null =>
      have := hn.1 rfl
      subst this
      simp only [denElemsA, h2]
    | sc x => cases j' <;> first | (simp at hn; done) | simp only [denElemsA, h1, h2]
    | arr x => cases j' <;> first | (simp at hn; done) | simp only [denElemsA, h1, h2]
    | obj x => cases j' <;> first | (simp at hn; done) | simp only [denElemsA, h1, h2]
  | _, _, _, .extra h, st, p => by rw [← denElemsA_nulled h st p]; simp only [denElemsA]
  | _, _, _, .missing h, st, p => by rw [denElemsA_nulled h st p]; simp only [denElemsA]
theorem denFieldsA_nulled : ∀ {sh : Shape} {b b' : Bool} {seen : List Nat} {fs fs' : List (String × Json)}, FieldsNulled sh b b' seen fs fs' →
    ∀ (p : Path) (slots : List D) (ents : List (String × Val)), (∀ n, n ∉ seen → slots.set n .unset = slots) →
    denFieldsA F sh p slots ents b fs = denFieldsA F sh p slots ents b' fs'
  | _, _, _, _, _, _, .same sh b seen fs, p, slots, ents, hs => rfl
  | _, _, _, _, _, _, .member (n := n) hl he h h', p, slots, ents, hs => by
    have h1 := fun n => denoteA_nulled h (.mem n :: p)
    have h2 := fun d => denFieldsA_nulled h' p (slots.set n d) [] (fun i hi => by
      simp only [List.mem_cons, not_or] at hi
      rw [List.set_comm _ _ (Ne.symm hi.1), hs i hi.2])
    have he' := h.embedded he
    simp only [denFieldsA, hl, he, he', h1, h2]
  | _, _, _, _, _, _, .embedded (n := n) (a := a) (m := m) hl hx h, p, slots, ents, hs => by
    have h1 := denFieldsA_nulled h (.mem a :: .mem n :: p) (noSlots m) [] (noSlots_set m)
    simp only [denFieldsA, hl, embedded, selectAlt, hx, and_self, if_true, Eff.lift_ok, h1]
  | _, _, _, _, _, _, .extra hl hn h, p, slots, ents, hs => by
    rw [denFieldsA_ents, denFieldsA_ents (ents := ents), ← denFieldsA_nulled h p slots [] hs]
    simp only [denFieldsA, hl, embedded_null, denoteA, Eff.lift_ok, hs _ hn]
  | _, _, _, _, _, _, .missing hl hn h, p, slots, ents, hs => by
    rw [denFieldsA_ents, denFieldsA_ents (ents := ents), denFieldsA_nulled h p slots [] hs]
    simp only [denFieldsA, hl, embedded_null, denoteA, Eff.lift_ok, hs _ hn]
  | _, _, _, _, _, _, .other hl h, p, slots, ents, hs => by
    have h2 := denFieldsA_nulled h p slots [] hs
    simp only [denFieldsA, hl, Bool.false_eq_true, if_false, h2]
  | _, _, _, _, _, _, .entry he h h', p, slots, ents, hs => by
    have h1 := denoteA_nulled h (.elem :: p)
    have h2 := fun ents => denFieldsA_nulled h' p [] ents (fun _ _ => rfl)
    have he' := h.embedded he
    simp only [denFieldsA, he, he', h1, h2]
  | _, _, _, _, _, _, .embeddedEntry (a := a) (m := m) hx h, p, slots, ents, hs => by
    have h1 := denFieldsA_nulled h (.mem a :: .elem :: p) (noSlots m) [] (noSlots_set m)
    simp only [denFieldsA, embedded, selectAlt, hx, and_self, if_true, Eff.lift_ok, h1]
  | _, _, _, _, _, _, .type (a := a) (m := m) hx h, p, slots, ents, hs => by
    have h1 := denFieldsA_nulled h (.mem a :: p) (noSlots m) [] (noSlots_set m)
    simp only [denFieldsA, selectAlt, hx, if_true, Eff.lift_ok, h1]
end

end SJ
