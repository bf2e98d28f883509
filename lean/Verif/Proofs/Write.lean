/-
What `write` writes is a JSON text of the tree.
-/
import Verif.SpecText

namespace SJ

variable {dbl : List UInt8 → Option Dbl} {w : Dbl → List UInt8}

theorem control_text : ∀ n : Fin 32, hex4 48 48 (hexOf (n.val / 16)) (hexOf (n.val % 16)) = some n.val ∧ utf8 n.val = [UInt8.ofNat n.val] := by decide +kernel

theorem byte_text {b : UInt8} {raw out : List UInt8} (h : StrText raw out) : StrText (writeByte b ++ raw) (b :: out) := by
  unfold writeByte
  split
  · rename_i hb; subst hb; exact .escape rfl h
  split
  · rename_i hb; subst hb; exact .escape rfl h
  split
  · rename_i hb
    have hlt : b.toNat < 32 := hb
    obtain ⟨h1, h2⟩ := control_text ⟨b.toNat, hlt⟩
    have hh : isHigh b.toNat = false := by
      simp only [isHigh, Bool.and_eq_false_iff, decide_eq_false_iff_not]; left; omega
    have hl : isLow b.toNat = false := by
      simp only [isLow, Bool.and_eq_false_iff, decide_eq_false_iff_not]; left; omega
    have := StrText.unicode h1 hh hl h
    simp only at h2
    rw [h2] at this
    simpa using this
  · rename_i h1 h2 h3; exact .plain (UInt8.not_lt.mp h3) h1 h2 h

theorem bytes_text : ∀ bs : List UInt8, StrText (bs.flatMap writeByte) bs
  | [] => .nil
  | b :: bs => by rw [List.flatMap_cons]; exact byte_text (bytes_text bs)

theorem str_text (s : String) : Quoted s (writeStr s) := ⟨_, rfl, bytes_text _⟩

theorem digit_of : ∀ n : Fin 10, isDigit (UInt8.ofNat (48 + n.val)) = true ∧ (UInt8.ofNat (48 + n.val)).toNat - 48 = n.val ∧
    (n.val ≠ 0 → UInt8.ofNat (48 + n.val) ≠ 48) := by decide +kernel

theorem natOf_snoc (ds : List UInt8) (d : UInt8) : natOf (ds ++ [d]) = 10 * natOf ds + (d.toNat - 48) := by
  simp [natOf, List.foldl_append]

theorem nat_text (n : Nat) : Digits (writeNat n) ∧ natOf (writeNat n) = n ∧ (n ≠ 0 → (writeNat n).head? ≠ some 48) := by
  induction n using Nat.strongRecOn with
  | _ n ih =>
    unfold writeNat
    split
    · rename_i h
      obtain ⟨h1, h2, h3⟩ := digit_of ⟨n, h⟩
      refine ⟨⟨by simp, fun d hd => ?_⟩, ?_, fun h0 => by simpa using h3 h0⟩
      · simp only [List.mem_singleton] at hd; subst hd; exact h1
      · simpa [natOf] using h2
    · rename_i h
      obtain ⟨h1, h2, h3⟩ := ih (n / 10) (by omega)
      obtain ⟨g1, g2, _⟩ := digit_of ⟨n % 10, by omega⟩
      refine ⟨⟨by simp, fun d hd => ?_⟩, ?_, fun _ => ?_⟩
      · rcases List.mem_append.mp hd with hd | hd
        · exact h1.2 d hd
        · simp only [List.mem_singleton] at hd; subst hd; exact g1
      · simp only at g2
        rw [natOf_snoc, h2, g2]; omega
      · have := h3 (by omega)
        cases hw : writeNat (n / 10) with
        | nil => exact absurd hw h1.1
        | cons d ds => rw [hw] at this; exact this

theorem int_text {i : Int} (h : fits64 i) : ScalarText dbl (.int i) (writeInt i) := by
  obtain ⟨h1, h2, h3⟩ := nat_text i.natAbs
  have hd : IntDigits (writeNat i.natAbs) := by
    refine ⟨h1, ?_⟩
    by_cases h0 : i.natAbs = 0
    · left; rw [h0]; decide +kernel
    · exact .inr (h3 h0)
  unfold writeInt
  split
  · exact ⟨[45], _, rfl, .inr rfl, hd, by simp [intOf, h2]; omega, h⟩
  · exact ⟨[], _, rfl, .inl rfl, hd, by simp [intOf, h2]; omega, h⟩

theorem blank_nil : Blank [] := by intro b hb; cases hb

mutual
theorem value_text : ∀ (j : Json), Printable dbl w j → ValueText dbl j (write w j)
  | .null, _ => by simp only [ValueText, write]
  | .sc x, h => by
    simp only [ValueText, write]
    cases x with
    | bool b => cases b <;> rfl
    | int i => exact int_text h
    | dbl d => exact h
    | str s => exact str_text s
  | .arr l, h => by
    simp only [ValueText, write]
    refine ⟨_, rfl, ?_⟩
    cases l with
    | nil => exact .inl ⟨rfl, blank_nil⟩
    | cons j l => exact .inr (elems_text (j :: l) (by simp) h)
  | .obj fs, h => by
    simp only [ValueText, write]
    refine ⟨_, rfl, ?_⟩
    cases fs with
    | nil => exact .inl ⟨rfl, blank_nil⟩
    | cons f fs => exact .inr (fields_text (f :: fs) (by simp) h)
theorem elems_text : ∀ (l : List Json), l ≠ [] → PrintableL dbl w l → ElemsText dbl l (writeElems w l)
  | [], h, _ => absurd rfl h
  | j :: l, _, h => by
    simp only [ElemsText, writeElems]
    refine ⟨[], write w j, [], blank_nil, value_text j h.1, blank_nil, ?_⟩
    cases l with
    | nil => exact .inl ⟨rfl, by simp⟩
    | cons k l => exact .inr ⟨_, by simp, elems_text (k :: l) (by simp) h.2⟩
theorem fields_text : ∀ (l : List (String × Json)), l ≠ [] → PrintableF dbl w l → FieldsText dbl l (writeFields w l)
  | [], h, _ => absurd rfl h
  | (k, j) :: l, _, h => by
    simp only [FieldsText, writeFields]
    refine ⟨[], writeStr k, [], [], write w j, [], blank_nil, str_text k, blank_nil, blank_nil, value_text j h.1, blank_nil, ?_⟩
    cases l with
    | nil => exact .inl ⟨rfl, by simp⟩
    | cons f l => exact .inr ⟨_, by simp, fields_text (f :: l) (by simp) h.2⟩
end

/-- What `write` writes is a JSON text of the tree. -/
theorem write_text {j : Json} (h : Printable dbl w j) : JsonText dbl j (write w j) :=
  ⟨[], _, [], by simp, blank_nil, value_text j h, blank_nil⟩

end SJ
