/-
The comparison of doubles by their bits is the comparison of the numbers.
-/
import Verif.SpecDouble

namespace SJ

theorem and_hi (x : Nat) : x &&& 0x7ff0000000000000 = (x / 2 ^ 52 % 2 ^ 11) * 2 ^ 52 := by
  have h1 : (x &&& 0x7ff0000000000000) >>> 52 = x / 2 ^ 52 % 2 ^ 11 := by
    rw [Nat.shiftRight_and_distrib, show (0x7ff0000000000000 : Nat) >>> 52 = 2 ^ 11 - 1 from by decide, Nat.and_two_pow_sub_one_eq_mod,
      Nat.shiftRight_eq_div_pow]
  have h2 : (x &&& 0x7ff0000000000000) % 2 ^ 52 = 0 := by
    rw [Nat.and_mod_two_pow, show (0x7ff0000000000000 : Nat) % 2 ^ 52 = 0 from by decide, Nat.and_zero]
  rw [Nat.shiftRight_eq_div_pow] at h1
  omega

theorem Dbl.isNaN_iff (d : Dbl) : d.isNaN = true ↔ d.bits.toNat / 2 ^ 52 % 2 ^ 11 = 2047 ∧ d.bits.toNat % 2 ^ 52 ≠ 0 := by
  unfold Dbl.isNaN
  simp only [Bool.and_eq_true, beq_iff_eq, bne_iff_ne, ne_eq, ← UInt64.toNat_inj, UInt64.toNat_and]
  have e1 : (0x7ff0000000000000 : UInt64).toNat = 0x7ff0000000000000 := by decide
  have e2 : (0x000fffffffffffff : UInt64).toNat = 2 ^ 52 - 1 := by decide
  have e3 : (0 : UInt64).toNat = 0 := rfl
  rw [e1, e2, e3, Nat.and_two_pow_sub_one_eq_mod, and_hi]
  omega

theorem Dbl.isZero_iff (d : Dbl) : d.isZero = true ↔ d.bits.toNat / 2 ^ 52 % 2 ^ 11 = 0 ∧ d.bits.toNat % 2 ^ 52 = 0 := by
  unfold Dbl.isZero
  simp only [beq_iff_eq, ← UInt64.toNat_inj, UInt64.toNat_and]
  have e2 : (0x7fffffffffffffff : UInt64).toNat = 2 ^ 63 - 1 := by decide
  have e3 : (0 : UInt64).toNat = 0 := rfl
  rw [e2, e3, Nat.and_two_pow_sub_one_eq_mod]
  omega

theorem Num.of_nan {s e f : Nat} : Num.of s e f = .nan ↔ e = 2047 ∧ f ≠ 0 := by
  unfold Num.of
  by_cases h : e = 2047
  · rw [if_pos h]
    by_cases h' : f = 0 <;> simp [h, h']
  · rw [if_neg h]; simp [h]

/-- The absolute value of a finite double. -/
def mag (e f : Nat) : Nat := if e = 0 then f else (2 ^ 52 + f) * 2 ^ (e - 1)

theorem mag_zero {e f : Nat} : mag e f = 0 ↔ e = 0 ∧ f = 0 := by
  unfold mag
  by_cases h : e = 0
  · simp [h]
  · rw [if_neg h]
    have : 0 < (2 ^ 52 + f) * 2 ^ (e - 1) := Nat.mul_pos (by omega) (Nat.two_pow_pos _)
    omega

theorem mag_lt {e f e' f' : Nat} (hf : f < 2 ^ 52) (h : e < e') : mag e f < mag e' f' := by
  have h1 : mag e f < 2 ^ (52 + e) := by
    unfold mag
    by_cases h0 : e = 0
    · subst h0; simpa using hf
    · rw [if_neg h0, show 52 + e = 53 + (e - 1) from by omega, Nat.pow_add]
      exact Nat.mul_lt_mul_of_pos_right (by omega) (Nat.two_pow_pos _)
  have h2 : 2 ^ (52 + e) ≤ mag e' f' := by
    unfold mag
    rw [if_neg (by omega)]
    calc 2 ^ (52 + e) ≤ 2 ^ (52 + (e' - 1)) := Nat.pow_le_pow_right (by omega) (by omega)
      _ = 2 ^ 52 * 2 ^ (e' - 1) := Nat.pow_add ..
      _ ≤ (2 ^ 52 + f') * 2 ^ (e' - 1) := Nat.mul_le_mul_right _ (by omega)
  omega

theorem mag_inj {e f e' f' : Nat} (hf : f < 2 ^ 52) (hf' : f' < 2 ^ 52) (h : mag e f = mag e' f') : e = e' ∧ f = f' := by
  have he : e = e' := by
    rcases Nat.lt_trichotomy e e' with h1 | h1 | h1
    · have := mag_lt (f' := f') hf h1; omega
    · exact h1
    · have := mag_lt (f' := f) hf' h1; omega
  subst he
  refine ⟨rfl, ?_⟩
  unfold mag at h
  by_cases h0 : e = 0
  · simpa [h0] using h
  · rw [if_neg h0, if_neg h0] at h
    have := Nat.eq_of_mul_eq_mul_right (Nat.two_pow_pos _) h
    omega

theorem Num.of_eq {s e f s' e' f' : Nat} (hs : s < 2) (hs' : s' < 2) (hf : f < 2 ^ 52) (hf' : f' < 2 ^ 52) (h : Num.of s e f ≠ .nan) (h' : Num.of s' e' f' ≠ .nan) :
    Num.of s e f = Num.of s' e' f' ↔ (s = s' ∧ e = e' ∧ f = f') ∨ ((e = 0 ∧ f = 0) ∧ e' = 0 ∧ f' = 0) := by
  rw [ne_eq, Num.of_nan] at h h'
  constructor
  · intro heq
    unfold Num.of at heq
    by_cases h1 : e = 2047 <;> by_cases h2 : e' = 2047
    · have h3 : f = 0 := by omega
      have h4 : f' = 0 := by omega
      simp only [h1, h2, h3, h4, if_true, Num.inf.injEq] at heq
      left
      refine ⟨?_, by omega, by omega⟩
      rcases (by omega : s = 0 ∨ s = 1) with rfl | rfl <;> rcases (by omega : s' = 0 ∨ s' = 1) with rfl | rfl <;> simp at heq ⊢
    · rw [if_pos h1, if_neg h2] at heq
      split at heq <;> simp at heq
    · rw [if_neg h1, if_pos h2] at heq
      by_cases hf0 : f' = 0
      · rw [if_pos hf0] at heq; exact absurd heq (by simp)
      · rw [if_neg hf0] at heq; exact absurd heq (by simp)
    · rw [if_neg h1, if_neg h2] at heq
      injection heq with heq
      change (if s = 1 then -((mag e f : Nat) : Int) else (mag e f : Nat)) = (if s' = 1 then -((mag e' f' : Nat) : Int) else (mag e' f' : Nat)) at heq
      by_cases hz : mag e f = 0
      · right
        have hz' : mag e' f' = 0 := by split at heq <;> split at heq <;> omega
        exact ⟨mag_zero.1 hz, mag_zero.1 hz'⟩
      · left
        have hss : s = s' ∧ mag e f = mag e' f' := by split at heq <;> split at heq <;> omega
        exact ⟨hss.1, mag_inj hf hf' hss.2⟩
  · rintro (⟨rfl, rfl, rfl⟩ | ⟨⟨rfl, rfl⟩, rfl, rfl⟩)
    · rfl
    · simp [Num.of]

theorem Dbl.num_nan (d : Dbl) : d.num = .nan ↔ d.isNaN = true := by
  rw [Dbl.isNaN_iff]; exact Num.of_nan

/-- `==` of two doubles. -/
theorem Dbl.cppEq_iff (a b : Dbl) : a.cppEq b = true ↔ a.num = b.num ∧ a.num ≠ .nan := by
  unfold Dbl.cppEq
  simp only [Bool.and_eq_true, Bool.not_eq_true', Bool.or_eq_true, beq_iff_eq, Dbl.isZero_iff]
  have ha := Dbl.num_nan a
  have hb := Dbl.num_nan b
  by_cases h1 : a.isNaN = true
  · simp [h1, ha.2 h1]
  · by_cases h2 : b.isNaN = true
    · have h3 := hb.2 h2
      simp only [Bool.not_eq_true] at h1
      simp only [h1, h2, h3]
      simp
    · have h3 : a.num ≠ .nan := fun h => h1 (ha.1 h)
      have h4 : b.num ≠ .nan := fun h => h2 (hb.1 h)
      have la : a.bits.toNat < 2 ^ 64 := a.bits.toNat_lt
      have lb : b.bits.toNat < 2 ^ 64 := b.bits.toNat_lt
      have := Num.of_eq (s := a.bits.toNat / 2 ^ 63) (s' := b.bits.toNat / 2 ^ 63) (by omega) (by omega) (Nat.mod_lt _ (by omega)) (Nat.mod_lt _ (by omega)) h3 h4
      simp only [Bool.not_eq_true] at h1 h2
      have e : a.num = b.num ↔ _ := this
      rw [e, ← UInt64.toNat_inj]
      simp only [h1, h2, true_and]
      constructor
      · rintro (h | h)
        · exact ⟨.inl (by rw [h]; exact ⟨rfl, rfl, rfl⟩), h3⟩
        · exact ⟨.inr h, h3⟩
      · rintro ⟨⟨h5, h6, h7⟩ | h, _⟩
        · left; omega
        · exact .inr h

theorem sameScalar_iff {a b : Scalar} : a.cppEq b = true ↔ SameScalar a b := by
  constructor
  · intro h
    cases a <;> cases b <;> simp only [Scalar.cppEq, beq_iff_eq, Bool.false_eq_true] at h
    · subst h; exact .bool _
    · subst h; exact .int _
    · obtain ⟨h1, h2⟩ := (Dbl.cppEq_iff _ _).1 h; exact .dbl h1 h2
    · subst h; exact .str _
  · rintro (_ | _ | _ | ⟨h1, h2⟩)
    · simp [Scalar.cppEq]
    · simp [Scalar.cppEq]
    · simp [Scalar.cppEq]
    · exact (Dbl.cppEq_iff _ _).2 ⟨h1, h2⟩

end SJ
