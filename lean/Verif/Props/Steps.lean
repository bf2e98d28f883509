/-
C69: the work is proportional to the number of tokens.
-/
import Verif.Proofs.Steps
import Verif.Props.Alike

set_option linter.unusedVariables false

namespace SJ

variable {E : Env} {R : Shape}

/-- C69. Counting changes nothing: the counted run is the run. -/
theorem C69_same (ts : List Token) (s : St) : (Stp.run E R ts s).1 = run E R ts s := Stp.run_same ts s

/-- C69, amortised. Any callbacks, any tokens (accepted or not, complete or not), any state: the number of steps is at most 20 per token - times one more than the
number of arrays that are directly in each other - plus 14 for each parser that was on the stack before. It does not depend on how deep the tree and the document
are, and not on the number of members, elements or alternatives. -/
theorem C69_total {k : Nat} (hk : ChainsUpTo R k) (ts : List Token) (s : St) : (Stp.run E R ts s).2 ≤ 20 * (k + 1) * ts.length + 14 * s.stack.length := by
  have := Stp.run_paid (E := E) hk ts s
  omega

/-- C69. A document or any part of one, given to a parser between two documents. -/
theorem C69_document {k : Nat} (hk : ChainsUpTo R k) (ts : List Token) {s : St} (hs : s.stack.length ≤ 1) :
    (Stp.run E R ts s).2 ≤ 20 * (k + 1) * ts.length + 14 := by
  have := C69_total (E := E) hk ts s
  omega

theorem chain_height : ∀ sh : Shape, sh.chain ≤ sh.height
  | .array st e => by
    have := chain_height e
    have h2 := height_child (sh := .array st e) (st := .elem) (c := e) rfl
    simp only [Shape.chain]
    omega
  | .value _ | .ignore | .object _ _ _ | .union _ _ _ _ | .map _ _ => by simp [Shape.chain]

/-- There is such a number for every tree. -/
theorem chains_height (R : Shape) : ChainsUpTo R R.height := fun p sh h => by
  have := height_at p sh h
  have := chain_height sh
  omega

/-- C69, the worst case: after any history no token takes more steps than this, which depends only on the tree. -/
theorem C69_token {s : St} (h : History R s) (t : Token) : (Stp.dispatch E R t s).2 ≤ 34 * (R.height + 1) := by
  have h1 := Stp.dispatch_paid (E := E) (chains_height R) t s
  have h2 := (C30_stack h).2.2
  omega

/-- C69. The bound is right but for the factor: every token takes at least one step. -/
theorem C69_least : ∀ (ts : List Token) {s s1 : St}, run E R ts s = .ok () s1 → ts.length ≤ (Stp.run E R ts s).2
  | [], s, s1, _ => by simp
  | t :: ts, s, s1, h => by
    have h1 := Stp.dispatch_same (E := E) (R := R) t s
    simp only [run, M.bind] at h
    simp only [Stp.run, Stp.bind]
    cases hd : Stp.dispatch E R t s with
    | mk r n =>
      rw [hd] at h1
      simp only at h1
      rw [← h1] at h
      have hn : 1 ≤ n := by
        have : (Stp.dispatch E R t s).2 = n := by rw [hd]
        simp only [Stp.dispatch, Stp.call] at this
        omega
      cases r with
      | ok a s2 =>
        have := C69_least ts h
        simp only [List.length_cons]
        omega
      | throw e s2 => simp at h
      | ub => simp at h
      | fuel => simp at h

section Examples
open Demo

theorem chains_of {R : Shape} {k : Nat} (h : everyB (fun sh => decide (sh.chain ≤ k)) R = true) : ChainsUpTo R k := fun p sh hp => by
  have := everyB_sound (f := fun sh => decide (sh.chain ≤ k)) (by simp [Shape.chain]) h p sh hp
  simpa using this

/-- Three arrays directly in each other. -/
def cube : Shape := .array true (.array true (.array true (.value .int)))
theorem cube_chains : ChainsUpTo cube 3 := chains_height cube
def cubeDoc : Json := .arr [.arr [.arr [.sc (.int 1), .sc (.int 2)], .arr []], .arr []]

/-- The count of a run, and the bound. -/
example : (Stp.run noCb cube (events cubeDoc) (St.init cube)).2 = 125 ∧ (events cubeDoc).length = 12 ∧ fine noCb cube (events cubeDoc) (St.init cube) = true := by decide +kernel

/-- One token may complete many parsers: here the end of the object completes an alternative, the embedded union in it, the enclosing alternative, the embedded union
it is in, and the object - all of them were opened by tokens before. -/
def foldedUnion : Shape := .object .plain true [({ name := .str "a" }, .union .int "" false [({ name := .int 1 },
  .object .plain true [({ name := .str "b" }, .union .int "" false [({ name := .int 2 }, .object .plain true [({ name := .str "c" }, .value .int)])])])])]
def foldedDoc : Json := .obj [("a", .sc (.int 1)), ("b", .sc (.int 2)), ("c", .sc (.int 3))]
theorem folded_chains : ChainsUpTo foldedUnion 0 := chains_of (by decide +kernel)
example : fine noCb foldedUnion (events foldedDoc) (St.init foldedUnion) = true ∧
    (Stp.dispatch noCb foldedUnion .mapEnd (after noCb foldedUnion (events foldedDoc).dropLast (St.init foldedUnion))).2 = 35 ∧
    (Stp.run noCb foldedUnion (events foldedDoc) (St.init foldedUnion)).2 = 67 := by decide +kernel

/-- The theorems applied to these: 12 tokens of the cube, 8 of the other. -/
example : (Stp.run noCb cube (events cubeDoc) (St.init cube)).2 ≤ 80 * 12 + 14 := C69_document cube_chains _ (by decide +kernel)
example : (Stp.run noCb foldedUnion (events foldedDoc) (St.init foldedUnion)).2 ≤ 20 * 8 + 14 := C69_document folded_chains _ (by decide +kernel)
example : (events foldedDoc).length = 8 := by decide +kernel

end Examples

end SJ
