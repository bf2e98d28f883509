/-
Documents that differ only in ignored members give the same (C67).
-/
import Verif.SpecSkip
import Verif.Proofs.ActiveFacts

set_option linter.unusedVariables false

namespace SJ

variable {F : Handlers}

/-- An object has no entries. -/
theorem denFieldsA_ents {k u ms p slots ents ne} (fs : List (String × Json)) :
    denFieldsA F (.object k u ms) p slots ents ne fs = denFieldsA F (.object k u ms) p slots [] ne fs := by
  cases fs <;> simp only [denFieldsA]

theorem SameButSkipped.null {e : Shape} {j : Json} (h : SameButSkipped e .null j) : j = .null := by cases h; rfl

theorem SameButSkipped.embedded {e : Shape} {v v' : Json} (h : SameButSkipped e v v') (he : embedded e v = none) : SJ.embedded e v' = none := by
  cases h with
  | same => exact he
  | array st h => rfl
  | object h => cases e <;> rfl

mutual
theorem denoteA_skipped : ∀ {sh : Shape} {j j' : Json}, SameButSkipped sh j j' → ∀ p : Path, denoteA F sh p j = denoteA F sh p j'
  | _, _, _, .same sh j, p => rfl
  | _, _, _, .array st h, p => by
    simp only [denoteA]
    rw [denElemsA_skipped h st p]
  | sh, _, _, .object h, p => by
    have h1 := denFieldsA_skipped h p (noSlots sh) []
    cases sh <;> simp only [denoteA, h1]
theorem denElemsA_skipped : ∀ {e : Shape} {l l' : List Json}, ElemsSkipped e l l' → ∀ (st : Bool) (p : Path), denElemsA F st e p l = denElemsA F st e p l'
  | _, _, _, .nil e, st, p => rfl
  | e, _, _, .cons (j := j) (j' := j') (l := l) (l' := l') h h', st, p => by
    have h1 := denoteA_skipped h (.elem :: p)
    have h2 := denElemsA_skipped h' st p
    have hn : j = .null ↔ j' = .null := by
      constructor
      · rintro rfl; exact h.null
      · rintro rfl; cases h; rfl
    cases j with
    | null =>
      have := hn.1 rfl
      subst this
      simp only [denElemsA, h2]
    | sc x => cases j' <;> first | (simp at hn; done) | simp only [denElemsA, h1, h2]
    | arr x => cases j' <;> first | (simp at hn; done) | simp only [denElemsA, h1, h2]
    | obj x => cases j' <;> first | (simp at hn; done) | simp only [denElemsA, h1, h2]
theorem denFieldsA_skipped : ∀ {sh : Shape} {b b' : Bool} {fs fs' : List (String × Json)}, FieldsSkipped sh b b' fs fs' →
    ∀ (p : Path) (slots : List D) (ents : List (String × Val)), denFieldsA F sh p slots ents b fs = denFieldsA F sh p slots ents b' fs'
  | _, _, _, _, _, .same sh b fs, p, slots, ents => rfl
  | _, _, _, _, _, .member hl he h h', p, slots, ents => by
    have h1 := fun n => denoteA_skipped h (.mem n :: p)
    have h2 := fun slots => denFieldsA_skipped h' p slots []
    have he' := h.embedded he
    simp only [denFieldsA, hl, he, he', h1, h2]
  | _, _, _, _, _, .embedded (n := n) (a := a) (m := m) hl hx h, p, slots, ents => by
    have h1 := denFieldsA_skipped h (.mem a :: .mem n :: p) (noSlots m) []
    simp only [denFieldsA, hl, embedded, selectAlt, hx, and_self, if_true, Eff.lift_ok, h1]
  | _, _, _, _, _, .extra hl h, p, slots, ents => by
    rw [denFieldsA_ents, denFieldsA_ents (ents := ents), ← denFieldsA_skipped h p slots []]
    simp only [denFieldsA, hl, Bool.false_eq_true, if_false]
  | _, _, _, _, _, .missing hl h, p, slots, ents => by
    rw [denFieldsA_ents, denFieldsA_ents (ents := ents), denFieldsA_skipped h p slots []]
    simp only [denFieldsA, hl, Bool.false_eq_true, if_false]
  | _, _, _, _, _, .entry he h h', p, slots, ents => by
    have h1 := denoteA_skipped h (.elem :: p)
    have h2 := fun ents => denFieldsA_skipped h' p [] ents
    have he' := h.embedded he
    simp only [denFieldsA, he, he', h1, h2]
  | _, _, _, _, _, .embeddedEntry (a := a) (m := m) hx h, p, slots, ents => by
    have h1 := denFieldsA_skipped h (.mem a :: .elem :: p) (noSlots m) []
    simp only [denFieldsA, embedded, selectAlt, hx, and_self, if_true, Eff.lift_ok, h1]
  | _, _, _, _, _, .type (a := a) (m := m) hx h, p, slots, ents => by
    have h1 := denFieldsA_skipped h (.mem a :: p) (noSlots m) []
    simp only [denFieldsA, selectAlt, hx, if_true, Eff.lift_ok, h1]
end

end SJ
