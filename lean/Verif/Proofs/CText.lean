/-
Texts without zero bytes are read in full (`cText`).
-/
import Verif.Model.Basic

namespace SJ

/-- No zero byte in the text. -/
def Plain (s : String) : Prop := ∀ c ∈ s.toList, c ≠ '\x00'

instance (s : String) : Decidable (Plain s) := by unfold Plain; infer_instance

theorem takeWhile_all {α} {p : α → Bool} : ∀ {l : List α}, (∀ a ∈ l, p a = true) → l.takeWhile p = l
  | [], _ => rfl
  | a :: l, h => by
    rw [List.takeWhile_cons, if_pos (h a (List.mem_cons_self ..)), takeWhile_all fun b hb => h b (List.mem_cons_of_mem _ hb)]

theorem takeWhile_mem {α} {p : α → Bool} : ∀ {l : List α} {a}, a ∈ l.takeWhile p → p a = true
  | b :: l, a, h => by
    rw [List.takeWhile_cons] at h
    split at h
    · rename_i hb
      rcases List.mem_cons.1 h with h | h
      · rw [h]; exact hb
      · exact takeWhile_mem h
    · simp at h

theorem cText_plain {s : String} (h : Plain s) : cText s = s := by
  unfold cText
  rw [takeWhile_all (fun a ha => by simpa using h a ha), String.ofList_toList]

theorem plain_cText (s : String) : Plain (cText s) := by
  intro c hc
  unfold cText at hc
  rw [String.toList_ofList] at hc
  simpa using takeWhile_mem hc

theorem cText_idem (s : String) : cText (cText s) = cText s := cText_plain (plain_cText s)

theorem Plain.append {a b : String} (ha : Plain a) (hb : Plain b) : Plain (a ++ b) := by
  intro c hc
  rw [String.toList_append] at hc
  rcases List.mem_append.1 hc with h | h
  · exact ha c h
  · exact hb c h

theorem cText_append {a : String} (ha : Plain a) (b : String) : cText (a ++ b) = a ++ cText b := by
  unfold cText
  rw [String.toList_append, List.takeWhile_append_of_pos (fun c hc => by simpa using ha c hc), String.ofList_append, String.ofList_toList]

theorem takeWhile_rest {α} {p : α → Bool} : ∀ (l : List α), ∃ r, l = l.takeWhile p ++ r ∧ (r = [] ∨ ∃ a, r.head? = some a ∧ p a = false)
  | [] => ⟨[], rfl, Or.inl rfl⟩
  | a :: l => by
    cases h : p a with
    | true =>
      obtain ⟨r, h1, h2⟩ := takeWhile_rest (p := p) l
      exact ⟨r, by rw [List.takeWhile_cons, if_pos h, List.cons_append, ← h1], h2⟩
    | false => exact ⟨a :: l, by rw [List.takeWhile_cons, if_neg (by simp [h]), List.nil_append], Or.inr ⟨a, rfl, h⟩⟩

theorem cText_rest (s : String) : ∃ r, s = cText s ++ r ∧ (r = "" ∨ r.toList.head? = some '\x00') := by
  obtain ⟨r, h1, h2⟩ := takeWhile_rest (p := (fun c => decide (c ≠ '\x00'))) s.toList
  refine ⟨String.ofList r, ?_, ?_⟩
  · unfold cText
    rw [← String.ofList_append, ← h1, String.ofList_toList]
  · rcases h2 with h2 | ⟨a, h2, h3⟩
    · subst h2; exact Or.inl rfl
    · right; rw [String.toList_ofList, h2]; simp at h3; rw [h3]

theorem plain_nat (n : Nat) : Plain (toString n) := by
  intro c hc
  rw [Nat.toString_eq_repr, Nat.repr_eq_ofList_toDigits, String.toList_ofList] at hc
  have := Nat.isDigit_of_mem_toDigits (by decide) (by decide) hc
  intro h
  subst h
  exact absurd this (by decide)

theorem cText_mandatoryAlt (n : Nat) : cText ("Mandatory member #" ++ toString n ++ " is not present") =
    "Mandatory member #" ++ toString n ++ " is not present" :=
  cText_plain (((by decide +kernel : Plain "Mandatory member #").append (plain_nat n)).append (by decide +kernel))

theorem cText_noDefaultAlt (n : Nat) : cText ("Optional member #" ++ toString n ++ " does not have a default value") =
    "Optional member #" ++ toString n ++ " does not have a default value" :=
  cText_plain (((by decide +kernel : Plain "Optional member #").append (plain_nat n)).append (by decide +kernel))

end SJ
