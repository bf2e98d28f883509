/-
What single tokens do, in any state of the parser tree: lemmas for `Verif/Props/Tokens.lean`.
-/
import Verif.Proofs.Main

set_option linter.unusedVariables false

namespace SJ

variable {E : Env} {R : Shape}

theorem bind_throws {α β} {m : M α} {f : α → M β} {s e s'} (h : m s = .throw e s') : M.bind m f s = .throw e s' := by
  unfold M.bind; rw [h]

theorem upd_other' {h : Heap} {p q f} (hne : q ≠ p) {s : St} (e : s.heap = h.upd p f) : s.heap q = h q := by
  rw [e, upd_other hne]

/-- Removing a parser whose removal is not noticed by anybody. -/
theorem pop_silent {s : St} {p rest} (hs : s.stack = p :: rest)
    (hq : rest = [] ∨ ∃ q r k u ms, rest = q :: r ∧ R.at q = some (.object k u ms)) :
    pop E R s = .ok () { s with stack := rest } := by
  rcases hq with rfl | ⟨q, r, k, u, ms, rfl, hR⟩
  · exact pop_one hs
  · rw [pop_cons hs, chP_object hR]; rfl

/-- The last element of a filtered list. -/
theorem getLast_filter {α} {P : α → Bool} : ∀ {l : List α} {n : Nat} {a}, l[n]? = some a → P a = true →
    (∀ n' b, n < n' → l[n']? = some b → P b = false) → (l.filter P).getLast? = some a
  | [], n, a, h, _, _ => by simp at h
  | b :: l, 0, a, h, hp, hl => by
    simp at h; subst h
    have : l.filter P = [] := by
      rw [List.filter_eq_nil_iff]
      intro c hc
      obtain ⟨n, hn⟩ := List.getElem?_of_mem hc
      simp [hl (n + 1) c (by omega) (by simpa using hn)]
    simp [hp, this]
  | b :: l, n + 1, a, h, hp, hl => by
    have ih := getLast_filter (l := l) (n := n) (a := a) (by simpa using h) hp
      (fun n' c h1 h2 => hl (n' + 1) c (by omega) (by simpa using h2))
    rw [List.filter_cons]
    split
    · rw [List.getLast?_cons, ih]; rfl
    · exact ih

/-- What the members of an object hold, read off the heap. -/
def slotsOf (h : Heap) (p : Path) (n : Nat) : List (MInfo × Shape) → List D
  | [] => []
  | _ :: ms => (if (h (.mem n :: p)).set then .val (h (.mem n :: p)).val else .unset) :: slotsOf h p (n + 1) ms

theorem slotsOf_length (h : Heap) (p) : ∀ n (ms : List (MInfo × Shape)), (slotsOf h p n ms).length = ms.length
  | n, [] => rfl
  | n, _ :: ms => by simp [slotsOf, slotsOf_length h p (n + 1) ms]

theorem slotsOf_holds (h : Heap) (p) : ∀ n (ms : List (MInfo × Shape)), HoldsL h p n (slotsOf h p n ms)
  | n, [] => trivial
  | n, _ :: ms => by
    refine ⟨?_, slotsOf_holds h p (n + 1) ms⟩
    split
    · rename_i e; exact ⟨e, rfl⟩
    · rename_i e; simpa [Holds] using e

theorem slotsOf_get (h : Heap) (p) : ∀ n (ms : List (MInfo × Shape)) (m : Nat), m < ms.length →
    (slotsOf h p n ms)[m]? = some (if (h (.mem (n + m) :: p)).set then .val (h (.mem (n + m) :: p)).val else .unset)
  | n, [], m, hm => by simp at hm
  | n, _ :: ms, 0, hm => by simp [slotsOf]
  | n, _ :: ms, m + 1, hm => by
    simp only [slotsOf, List.getElem?_cons_succ]
    rw [slotsOf_get h p (n + 1) ms m (by simpa using hm), show n + 1 + m = n + (m + 1) by omega]

theorem slotsOf_congr {h h' : Heap} {p} : ∀ n (ms : List (MInfo × Shape)),
    (∀ m, (h' (.mem m :: p)) = h (.mem m :: p)) → slotsOf h' p n ms = slotsOf h p n ms
  | n, [], _ => rfl
  | n, _ :: ms, he => by simp [slotsOf, he, slotsOf_congr (n + 1) ms he]

theorem zip_slots {h : Heap} {p} {ms : List (MInfo × Shape)} {n : Nat} {x} (hx : (ms.zip (slotsOf h p 0 ms))[n]? = some x) :
    ms[n]? = some x.1 ∧ x.2 = (if (h (.mem n :: p)).set then .val (h (.mem n :: p)).val else .unset) := by
  rw [List.getElem?_zip_eq_some] at hx
  refine ⟨hx.1, ?_⟩
  have hl : n < ms.length := by
    have := List.getElem?_eq_some_iff.1 hx.1; exact this.1
  rw [slotsOf_get h p 0 ms n hl, Nat.zero_add] at hx
  exact (Option.some.inj hx.2).symm

theorem zip_slots' {h : Heap} {p} {ms : List (MInfo × Shape)} {n : Nat} {x} (hx : ms[n]? = some x) :
    (ms.zip (slotsOf h p 0 ms))[n]? = some (x, if (h (.mem n :: p)).set then .val (h (.mem n :: p)).val else .unset) := by
  rw [List.getElem?_zip_eq_some]
  have hl : n < ms.length := (List.getElem?_eq_some_iff.1 hx).1
  exact ⟨hx, by rw [slotsOf_get h p 0 ms n hl, Nat.zero_add]⟩

/-- The last mandatory member that is not set. -/
theorem missing_last {h : Heap} {p} {ms : List (MInfo × Shape)} {n : Nat} {i m} (hn : ms[n]? = some (i, m))
    (ho : i.optional = false) (hu : (h (.mem n :: p)).set = false)
    (hl : ∀ n' i' m', n < n' → ms[n']? = some (i', m') → i'.optional = false → (h (.mem n' :: p)).set = true) :
    (missing ms (slotsOf h p 0 ms)).getLast? = some i := by
  unfold missing
  rw [List.getLast?_map, getLast_filter (n := n) (zip_slots' hn)]
  · rfl
  · simp [ho, hu, D.isSet]
  · intro n' x h1 h2
    obtain ⟨h3, h4⟩ := zip_slots h2
    have := hl n' x.1.1 x.1.2 h1 h3
    cases hx : x.1.1.optional with
    | true => simp
    | false => rw [h4, this hx]; simp [D.isSet]

theorem missing_none {h : Heap} {p} {ms : List (MInfo × Shape)}
    (hl : ∀ n i m, ms[n]? = some (i, m) → i.optional = false → (h (.mem n :: p)).set = true) :
    missing ms (slotsOf h p 0 ms) = [] := by
  unfold missing
  rw [List.map_eq_nil_iff, List.filter_eq_nil_iff]
  intro x hx
  obtain ⟨n, hn⟩ := List.getElem?_of_mem hx
  obtain ⟨h3, h4⟩ := zip_slots hn
  cases hx : x.1.1.optional with
  | true => simp
  | false => rw [h4, hl n _ _ h3 hx]; simp [D.isSet]

theorem unfillable_last {h : Heap} {p} {ms : List (MInfo × Shape)} {n : Nat} {i m} (hn : ms[n]? = some (i, m))
    (ho : i.optional = false ∨ i.dflt = none) (hu : (h (.mem n :: p)).set = false)
    (hl : ∀ n' i' m', n < n' → ms[n']? = some (i', m') → (i'.optional = false ∨ i'.dflt = none) → (h (.mem n' :: p)).set = true) :
    (unfillable ms (slotsOf h p 0 ms)).getLast? = some i := by
  unfold unfillable
  rw [List.getLast?_map, getLast_filter (n := n) (zip_slots' hn)]
  · rfl
  · rcases ho with ho | ho <;> simp [ho, hu, D.isSet]
  · intro n' x h1 h2
    obtain ⟨h3, h4⟩ := zip_slots h2
    have := hl n' x.1.1 x.1.2 h1 h3
    rw [h4]
    by_cases hc : x.1.1.optional = false ∨ x.1.1.dflt = none
    · simp [this hc, D.isSet]
    · cases h5 : x.1.1.optional <;> cases h6 : x.1.1.dflt <;> simp_all

theorem unfillable_none {h : Heap} {p} {ms : List (MInfo × Shape)}
    (hl : ∀ n i m, ms[n]? = some (i, m) → (i.optional = false ∨ i.dflt = none) → (h (.mem n :: p)).set = true) :
    unfillable ms (slotsOf h p 0 ms) = [] := by
  unfold unfillable
  rw [List.map_eq_nil_iff, List.filter_eq_nil_iff]
  intro x hx
  obtain ⟨n, hn⟩ := List.getElem?_of_mem hx
  obtain ⟨h3, h4⟩ := zip_slots hn
  rw [h4]
  by_cases hc : x.1.1.optional = false ∨ x.1.1.dflt = none
  · simp [hl n _ _ h3 hc, D.isSet]
  · cases h5 : x.1.1.optional <;> cases h6 : x.1.1.dflt <;> simp_all

theorem slotsOf_value {h : Heap} {p} {ms : List (MInfo × Shape)} (m : Nat) (i : MInfo) (sh : Shape) (d : D)
    (h1 : ms[m]? = some (i, sh)) (h2 : (slotsOf h p 0 ms)[m]? = some d) (h3 : d.isSet = true) : d.value?.isSome = true := by
  rw [slotsOf_get h p 0 ms m (List.getElem?_eq_some_iff.1 h1).1] at h2
  injection h2 with h2
  subst h2
  split at h3 <;> simp_all [D.isSet, D.value?]

end SJ
