/-
C59: the order in which the standard library enumerates a hash table makes no difference.
-/
import Verif.Proofs.Hash
import Verif.Props.Shared

set_option linter.unusedVariables false

namespace SJ

variable {R : Shape} {ob : Path → Path}

/-- C59. `reset()` of a parser anywhere in a tree has one result, in whatever order the hash tables of the objects and unions in it are enumerated - each table, each time, in another order -,
also if parsers are shared between places of the tree. -/
theorem C59_reset (pl : Places R ob) {p : Path} {sh : Shape} (hR : R.at p = some sh) {h h1 h2 : Heap} (a : Resets ob p sh h h1) (b : Resets ob p sh h h2) : h1 = h2 :=
  (a.eq pl hR).trans (b.eq pl hR).symm

/-- C59. The same for `setDispatcher()`. -/
theorem C59_attach {p : Path} {sh : Shape} {h h1 h2 : Heap} (a : Attaches ob p sh h h1) (b : Attaches ob p sh h h2) : h1 = h2 := a.eq.trans b.eq.symm

theorem places_id (R : Shape) : Places R id := ⟨fun p q h => by rw [show p = q from h], fun p q st h => by rw [show p = q from h], fun _ => rfl⟩

/-- C59. So it is what the models say, which all the other theorems are about: those with one object at each place ... -/
theorem C59_model {p : Path} {sh : Shape} (hR : R.at p = some sh) (h h' : Heap) : (Resets id p sh h h' ↔ h' = resetH p sh h) ∧ (Attaches id p sh h h' ↔ h' = setDispH p sh h) := by
  refine ⟨⟨fun a => (a.eq (places_id R) hR).trans (Shd.resetH_id sh p h), ?_⟩, ⟨fun a => a.eq.trans (Shd.setDispH_id sh p h), ?_⟩⟩
  · rintro rfl; rw [← Shd.resetH_id]; exact Resets.exists id sh p h
  · rintro rfl; rw [← Shd.setDispH_id]; exact Attaches.exists id sh p h

/-- C59. ... and those with shared objects. -/
theorem C59_shared (pl : Places R ob) {p : Path} {sh : Shape} (hR : R.at p = some sh) (h h' : Heap) :
    (Resets ob p sh h h' ↔ h' = Shd.resetH ob p sh h) ∧ (Attaches ob p sh h h' ↔ h' = Shd.setDispH ob p sh h) :=
  ⟨⟨fun a => a.eq pl hR, fun e => e ▸ Resets.exists ob sh p h⟩, ⟨fun a => a.eq, fun e => e ▸ Attaches.exists ob sh p h⟩⟩

/-! ### Examples -/
section Examples
open Demo

/-- The second member before the first, and in it the second before the first. -/
def twoParts : Shape := .object .auto true [({ name := .str "a" }, .value .int), ({ name := .str "b" }, .object .auto false [({ name := .str "c" }, .value .str), ({ name := .str "d" }, .value .bool)])]

theorem twoParts_backwards (h : Heap) : ∃ h1 h2 h3 h4 h5 h6 h7 : Heap, h1 = h.upd [] Cell.baseReset ∧ h2 = h1.upd [.mem 1] Cell.baseReset ∧
    h3 = h2.upd [.mem 1, .mem 1] Cell.baseReset ∧ h4 = h3.upd [.mem 0, .mem 1] Cell.baseReset ∧
    h5 = (h4.upd [.ign, .mem 1] fun c => { c.baseReset with struct := [] }).upd [.mem 1] (fun c => { c with val := .init }) ∧
    h6 = h5.upd [.mem 0] Cell.baseReset ∧
    h7 = (h6.upd [.ign] fun c => { c.baseReset with struct := [] }).upd [] (fun c => { c with val := .init }) ∧ Resets id [] twoParts h h7 := by
  refine ⟨_, _, _, _, _, _, _, rfl, rfl, rfl, rfl, rfl, rfl, rfl, ?_⟩
  refine Resets.object (k := .auto) [(1, _), (0, _)] (List.Perm.swap _ _ _) (.cons (Resets.object (k := .auto) [(1, _), (0, _)] (List.Perm.swap _ _ _) (.cons .value (.cons .value .nil)) .ignore)
    (.cons .value .nil)) .ignore

/-- It is what the model says. -/
example (h : Heap) : ∃ h', Resets id [] twoParts h h' ∧ h' = resetH [] twoParts h := by
  obtain ⟨_, _, _, _, _, _, h7, _, _, _, _, _, _, _, hr⟩ := twoParts_backwards h
  exact ⟨h7, hr, (C59_model (R := twoParts) rfl h h7).1.1 hr⟩

end Examples

section SharedExample
open Demo Shd

/-- Two members with one parser between them: it is reset twice. -/
example (h h' : Heap) : Resets oneName [] names h h' ↔ h' = Shd.resetH oneName [] names h := (C59_shared oneName_places rfl h h').1

end SharedExample

end SJ
