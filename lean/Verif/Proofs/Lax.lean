/-
The conditions of `okVal` that do not concern nulls: a union is never given a bare scalar of its type where an object
is expected, nor null or an object as its type value.
-/
import Verif.Spec

namespace SJ

mutual
def uokVal (sh : Shape) : Json → Bool
  | .null => true
  | .sc x =>
    match sh with
    | .union ty _ _ _ => x.ty != ty
    | _ => true
  | .arr l =>
    match sh with
    | .array _ e => uokElems e l
    | _ => true
  | .obj fs =>
    match sh with
    | .ignore => true
    | .value _ => true
    | .array _ _ => true
    | .object _ _ _ => uokFields sh fs
    | .map _ _ => uokFields sh fs
    | .union _ tm _ _ => if tm = "" then true else uokFields sh fs
def uokFields (sh : Shape) : List (String × Json) → Bool
  | [] => true
  | (k, v) :: fs =>
    match sh with
    | .object _ u ms =>
      match lookup (.str k) 0 ms with
      | some (_, m) =>
        match embedded m v with
        | some (_, _, ms', x) =>
          match lookup x 0 ms' with
          | some (_, ash) => uokFields ash fs
          | none => true
        | none => m.isUser && uokVal m v && uokFields sh fs
      | none => if u then true else uokVal .ignore v && uokFields sh fs
    | .union ty tm _ ms =>
      if tm = "" then true
      else if k ≠ tm then true
      else match v with
        | .sc x =>
          if x.ty = ty then
            match lookup x 0 ms with
            | some (_, ash) => uokFields ash fs
            | none => true
          else true
        | .arr _ => true
        | _ => false
    | .map _ e =>
      match embedded e v with
      | some (_, _, ms', x) =>
        match lookup x 0 ms' with
        | some (_, ash) => uokFields ash fs
        | none => true
      | none => e.isUser && uokVal e v && uokFields sh fs
    | _ => true
def uokElems (e : Shape) : List Json → Bool
  | [] => true
  | j :: l => e.isUser && uokVal e j && uokElems e l
end

theorem uok_ignore : ∀ (j : Json), uokVal .ignore j = true
  | .null => by simp [uokVal]
  | .sc _ => by simp [uokVal]
  | .arr _ => by simp [uokVal]
  | .obj _ => by simp [uokVal]

mutual
theorem okVal_uok : ∀ (j : Json) (sh : Shape), okVal sh j = true → uokVal sh j = true
  | .null, sh, h => by simp [uokVal]
  | .sc x, sh, h => by cases sh <;> simp_all [uokVal, okVal]
  | .arr l, sh, h => by
    cases sh with
    | array st e => simp only [okVal] at h; simp only [uokVal]; exact okElems_uok l e h
    | _ => simp [uokVal]
  | .obj fs, sh, h => by
    cases sh with
    | object => simp only [okVal] at h; simp only [uokVal]; exact okFields_uok fs _ h
    | map => simp only [okVal] at h; simp only [uokVal]; exact okFields_uok fs _ h
    | union ty tm st ms =>
      simp only [okVal] at h; simp only [uokVal]
      split
      · rfl
      · rename_i ht; rw [if_neg ht] at h; exact okFields_uok fs _ h
    | _ => simp [uokVal]
theorem okFields_uok : ∀ (fs : List (String × Json)) (sh : Shape), okFields sh fs = true → uokFields sh fs = true
  | [], sh, h => by simp [uokFields]
  | (k, v) :: fs, sh, h => by
    unfold okFields at h
    unfold uokFields
    cases sh with
    | object kd u ms =>
      simp only at h ⊢
      cases hl : lookup (.str k) 0 ms with
      | some nm =>
        obtain ⟨n, m⟩ := nm
        rw [hl] at h; simp only at h ⊢
        cases he : embedded m v with
        | some y =>
          obtain ⟨a, b, ms', x⟩ := y
          rw [he] at h; simp only at h ⊢
          cases hx : lookup x 0 ms' with
          | some z => rw [hx] at h; exact okFields_uok fs _ h
          | none => rfl
        | none =>
          rw [he] at h; simp only [Bool.and_eq_true] at h ⊢
          exact ⟨⟨h.1.1, okVal_uok v m h.1.2⟩, okFields_uok fs _ h.2⟩
      | none =>
        rw [hl] at h; simp only at h ⊢
        cases u with
        | true => rfl
        | false =>
          simp only [Bool.false_eq_true, if_false, Bool.and_eq_true] at h ⊢
          exact ⟨uok_ignore v, okFields_uok fs _ h.2⟩
    | map st e =>
      simp only at h ⊢
      cases he : embedded e v with
      | some y =>
        obtain ⟨a, b, ms', x⟩ := y
        rw [he] at h; simp only at h ⊢
        cases hx : lookup x 0 ms' with
        | some z => rw [hx] at h; exact okFields_uok fs _ h
        | none => rfl
      | none =>
        rw [he] at h; simp only [Bool.and_eq_true] at h ⊢
        exact ⟨⟨h.1.1, okVal_uok v e h.1.2⟩, okFields_uok fs _ h.2⟩
    | union ty tm st ms =>
      simp only at h ⊢
      split
      · rfl
      · rename_i ht; rw [if_neg ht] at h
        split
        · rfl
        · rename_i hk; rw [if_neg hk] at h
          cases v with
          | sc x =>
            simp only at h ⊢
            split
            · rename_i hx; rw [if_pos hx] at h
              cases hl : lookup x 0 ms with
              | some z => rw [hl] at h; exact okFields_uok fs _ h
              | none => rfl
            · rfl
          | arr => rfl
          | null => exact h
          | obj => exact h
    | _ => rfl
theorem okElems_uok : ∀ (l : List Json) (e : Shape), okElems e l = true → uokElems e l = true
  | [], e, h => by simp [uokElems]
  | j :: l, e, h => by
    simp only [okElems, Bool.and_eq_true] at h
    simp only [uokElems, Bool.and_eq_true]
    exact ⟨⟨h.1.1.2, okVal_uok j e h.1.2⟩, okElems_uok l e h.2⟩
end

end SJ
