/-
Names and type values are compared by what they stand for (C14, C32); for doubles this is the number.
-/
import Verif.Props.Unions
import Verif.Props.Api
import Verif.Proofs.Double
import Verif.Proofs.Conform

namespace SJ

variable {E : Env} {R : Shape}

/-- C14_selected, with the alternative given by its name: the one whose name is the same as the type value is selected (its position `n` is `currentMemberId()`) and
reads the other fields. A double selects by the number that it stands for. -/
theorem C14_selected_name (hE : Passive E) {s : St} {p ty tm ms x} {n : Nat} {i m fs d} (hx : Expecting R s p (.union ty tm false ms))
    (hw : (Shape.union ty tm false ms).wf = true) (htm : tm ≠ "") (hdist : DistinctNames ms)
    (hok : okVal (.union ty tm false ms) (.obj ((tm, .sc x) :: fs)) = true)
    (hty : x.ty = ty) (hi : ms[n]? = some (i, m)) (hn : SameScalar i.name x) (hm : m.readsObjects = true)
    (hd : denote E.fmtDbl m (.obj fs) = .ok d) (hset : d.isSet = true ∨ i.optional = true) :
    ∃ s1, Completes E R s p (.obj ((tm, .sc x) :: fs)) s1 ∧ isSet p s1 = true ∧ currentMemberId p s1 = .ok n s1 ∧
      Holds s1.heap (.mem n :: p) d := by
  have hl : lookup x 0 ms = some (n, m) := by
    cases h : lookup x 0 ms with
    | none =>
      have := lookup_none.1 h _ (List.mem_of_getElem? hi)
      rw [sameScalar_iff.2 hn] at this; exact absurd this (by simp)
    | some r =>
      obtain ⟨a, sh⟩ := r
      obtain ⟨i', _, h2, h3⟩ := lookup_get h
      have := hdist a n _ _ (by simpa using h2) hi (cppEq_join h3 (sameScalar_iff.2 hn))
      subst this
      simp only [Nat.sub_zero] at h2
      rw [hi] at h2
      injection h2 with h2
      injection h2 with _ h2
      rw [h2]
  exact C14_selected hE hx hw htm hok hty hl hi hm hd hset

/-- C14: a type value that is no alternative's name is an error. -/
theorem C14_no_name (hE : Passive E) {s : St} {p ty tm st ms x fs} (hx : Expecting R s p (.union ty tm st ms))
    (hw : (Shape.union ty tm st ms).wf = true) (htm : tm ≠ "") (hty : x.ty = ty) (hun : ∀ y ∈ ms, ¬ SameScalar y.1.name x) :
    Fails E R s (.obj ((tm, .sc x) :: fs)) ("Unexpected member " ++ showName E.fmtDbl x) :=
  C14_type_value hE hx hw htm hty fun y hy => by
    cases h : y.1.name.cppEq x with
    | false => rfl
    | true => exact absurd (sameScalar_iff.1 h) (hun y hy)

/-- C32: the construction fails exactly if two members have the same name. -/
theorem C32_same (fmt : Dbl → String) (is : List MInfo) : (∃ e, construct fmt 0 is = .error e) ↔
    ∃ (a b : Nat) (x y : MInfo), a < b ∧ is[a]? = some x ∧ is[b]? = some y ∧ SameScalar x.name y.name := by
  constructor
  · rintro ⟨e, he⟩
    obtain ⟨a, _, _, ⟨b, x, y, h1, h2, h3, h4⟩, _⟩ := (C32_duplicate fmt is e).1 he
    exact ⟨a, b, x, y, h3, h1, h2, sameScalar_iff.1 h4⟩
  · rintro ⟨a, b, x, y, h1, h2, h3, h4⟩
    have last : ∀ k a b, is.length - a ≤ k → SameName is a b → ∃ a b, SameName is a b ∧ ∀ a' b', a < a' → ¬ SameName is a' b' := by
      intro k
      induction k with
      | zero =>
        rintro a b hk ⟨x, _, h, _⟩
        have := (List.getElem?_eq_some_iff.1 h).1
        omega
      | succ k ih =>
        intro a b hk h
        by_cases hn : ∃ a' b', a < a' ∧ SameName is a' b'
        · obtain ⟨a', b', h5, h6⟩ := hn
          exact ih a' b' (by omega) h6
        · exact ⟨a, b, h, fun a' b' h5 h6 => hn ⟨a', b', h5, h6⟩⟩
    obtain ⟨a, b, h5, h6⟩ := last _ a b (Nat.le_refl _) ⟨x, y, h2, h3, h1, sameScalar_iff.2 h4⟩
    have h7 := h5
    obtain ⟨x, _, h8, _⟩ := h5
    exact ⟨_, (C32_duplicate fmt is _).2 ⟨a, x, h8, ⟨b, h7⟩, h6, rfl⟩⟩

section Examples
open Demo

/-- 1.5, 0.0, -0.0, 3.0 -/
def d15 : Dbl := ⟨0x3ff8000000000000⟩
def d0 : Dbl := ⟨0⟩
def dm0 : Dbl := ⟨0x8000000000000000⟩
def dNaN : Dbl := ⟨0x7ff8000000000000⟩

/-- What they stand for; 1.5 is 3 * 2^1073 times 2^-1074. -/
example : d15.num = .fin (3 * 2 ^ 1073) ∧ d0.num = .fin 0 ∧ dm0.num = .fin 0 ∧ dNaN.num = .nan := by decide +kernel

/-- `{"type": 1.5, "r": int}` or `{"type": 0.0}` with optional `x`. -/
def numbered : List (MInfo × Shape) := [({ name := .dbl d15 }, circle), ({ name := .dbl d0, optional := true }, point)]
def byNumber : Shape := .union .dbl "type" false numbered

/-- C14_selected_name: `{"type": -0.0, "x": 3}` is the alternative 0.0. -/
example : ∃ s1, Completes accepting byNumber (St.init byNumber) [] (.obj [("type", .sc (.dbl dm0)), ("x", .sc (.int 3))]) s1 ∧
    currentMemberId [] s1 = .ok 1 s1 := by
  obtain ⟨s1, h1, _, h2, _⟩ := C14_selected_name (E := accepting) (R := byNumber) (tm := "type") (ms := numbered) (x := .dbl dm0) (n := 1)
    (fs := [("x", .sc (.int 3))]) (d := .val (.tup [.sc (.int 3)])) accepting_passive (Ready.init byNumber).expecting
    (by decide +kernel) (by decide) (distinctB_sound (by decide +kernel)) (by decide +kernel) rfl rfl (.dbl (by decide +kernel) (by decide +kernel)) rfl
    (sameR_eq (by decide +kernel)) (.inl rfl)
  exact ⟨s1, h1, h2⟩

/-- C14_no_name: a NaN is no name, not even its own. -/
example : Fails accepting byNumber (St.init byNumber) (.obj (("type", .sc (.dbl dNaN)) :: [])) ("Unexpected member " ++ showName accepting.fmtDbl (.dbl dNaN)) :=
  C14_no_name (tm := "type") (ms := numbered) accepting_passive (Ready.init byNumber).expecting (by decide +kernel) (by decide) rfl (by
    intro y hy h
    simp only [numbered, List.mem_cons, List.not_mem_nil, or_false] at hy
    rcases hy with rfl | rfl <;> (cases h with | dbl h1 _ => exact absurd h1 (by decide +kernel)))

/-- C32_same: 0.0 and -0.0 are the same name. -/
example : ∃ e, construct (fun _ => "0") 0 [{ name := .dbl d0 }, { name := .dbl d15 }, { name := .dbl dm0 }] = .error e :=
  (C32_same _ _).2 ⟨0, 2, _, _, by decide, rfl, rfl, .dbl (by decide +kernel) (by decide +kernel)⟩

end Examples

end SJ
