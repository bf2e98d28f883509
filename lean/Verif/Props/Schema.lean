/-
C72: parsers with the same schema accept the same documents.
-/
import Verif.Proofs.Schema
import Verif.Props.Conform

set_option linter.unusedVariables false

namespace SJ

variable {E E' : Env} {R R' : Shape} {Y Y' : Yajl}

/-- C72. Two parsers with the same schema, each new or used before: a document is read by the one without exception if and only if it is by the other, and then both are
set or both are not. The documents are those outside of the known defects; which these are does not depend on the parser either. -/
theorem C72_tokens (hE : Passive E) (hE' : Passive E') (hw : R.wf = true) (hw' : R'.wf = true) (hd : AllDistinct R) (hd' : AllDistinct R') (h : SameSchema R R')
    {s s' : St} (hs : Survived R s) (hs' : Survived R' s') {j : Json} (hok : okVal R j = true) :
    ((∃ t, run E R (events j) s = .ok () t) ↔ ∃ t', run E' R' (events j) s' = .ok () t') ∧
    ∀ t t', run E R (events j) s = .ok () t → run E' R' (events j) s' = .ok () t' → isSet [] t = isSet [] t' := by
  have hok' := okVal_same j ⟨hw, hd⟩ ⟨hw', hd'⟩ h hok
  obtain ⟨a1, a2⟩ := C47_exact hE hw hd hs hok
  obtain ⟨b1, b2⟩ := C47_exact hE' hw' hd' hs' hok'
  refine ⟨by rw [a1, b1, conforms_iff h], fun t t' ht ht' => ?_⟩
  rw [(a2 t ht).2, (b2 t' ht').2, filled_same h]

/-- C72, as the user sees it: the same document, in any text and chunks, read by two parsers with the same schema. Either `parse()` and `finish()` return for both and both or none are set,
or both throw `ParsingError`. -/
theorem C72_document (hE : Passive E) (hE' : Passive E') (hw : R.wf = true) (hw' : R'.wf = true) (hd : AllDistinct R) (hd' : AllDistinct R') (h : SameSchema R R')
    {s : PSt Y} {s' : PSt Y'} (hs : ServedDocs Y R s) (hs' : ServedDocs Y' R' s') {cs cs' : List Chunk} (hne : cs ≠ []) (hne' : cs' ≠ [])
    {bs bs' : List UInt8} {j : Json} (hc : chunkBytes cs = some bs) (hc' : chunkBytes cs' = some bs') (hdoc : Y.Document bs (events j)) (hdoc' : Y'.Document bs' (events j))
    (hok : okVal R j = true) {m m' : Mem} (hm : ∀ c, cs.getLast? = some c → (m.read c.ptr c.len).isSome) (hm' : ∀ c, cs'.getLast? = some c → (m'.read c.ptr c.len).isSome) :
    (∃ t t', parseDocument Y E R cs m s = .ok () t ∧ parseDocument Y' E' R' cs' m' s' = .ok () t' ∧ isSet [] t.st = isSet [] t'.st) ∨
    (∃ e y e' y' t t', parseDocument Y E R cs m s = .throw (.parsing e y) t ∧ parseDocument Y' E' R' cs' m' s' = .throw (.parsing e' y') t') := by
  have hok' := okVal_same j ⟨hw, hd⟩ ⟨hw', hd'⟩ h hok
  rcases C47_document hE hw hd hs hne hc hdoc hok hm with ⟨a1, t, a2, a3⟩ | ⟨a1, e, y, t, a2⟩ <;>
    rcases C47_document hE' hw' hd' hs' hne' hc' hdoc' hok' hm' with ⟨b1, t', b2, b3⟩ | ⟨b1, e', y', t', b2⟩
  · exact .inl ⟨t, t', a2, b2, by rw [a3, b3, filled_same h]⟩
  · exact absurd ((conforms_iff h j).1 a1) b1
  · exact absurd ((conforms_iff h j).2 b1) a1
  · exact .inr ⟨e, y, e', y', t, t', a2, b2⟩

/-- C72: which documents are outside of the known defects is the same, too. -/
theorem C72_fit (hw : R.wf = true) (hw' : R'.wf = true) (hd : AllDistinct R) (hd' : AllDistinct R') (h : SameSchema R R') (j : Json) : okVal R j = okVal R' j := by
  cases h1 : okVal R j with
  | true => exact (okVal_same j ⟨hw, hd⟩ ⟨hw', hd'⟩ h h1).symm
  | false =>
    cases h2 : okVal R' j with
    | false => rfl
    | true => rw [okVal_same j ⟨hw', hd'⟩ ⟨hw, hd⟩ h.symm h2] at h1; simp at h1

/-- C72: having the same schema is an equivalence of parser trees. -/
theorem C72_equivalence : Equivalence SameSchema := ⟨SameSchema.refl, SameSchema.symm, fun h h' => h.trans h'⟩

/-- C72, `watertight` trees, without a restriction to the documents outside of the known defects: what the one accepts conforms to the other, too, so that the other accepts it,
unless it stumbles over a null (C05, C23). -/
theorem C72_watertight (hE : Passive E) (hE' : Passive E') (ht : R.watertight = true) (hw : R.wf = true) (hw' : R'.wf = true) (hd : AllDistinct R) (hd' : AllDistinct R')
    (h : SameSchema R R') {s t s' : St} (hs : Accepted R s) (hs' : Survived R' s') {j : Json} (hr : run E R (events j) s = .ok () t) :
    Conforms R' j ∧ (NullsFine R' j → ∃ t', run E' R' (events j) s' = .ok () t' ∧ t'.stack = [] ∧ isSet [] t' = isSet [] t) := by
  obtain ⟨h1, h2⟩ := C47_accepted_conforms hE ht hw hd hs hr
  have h3 := (conforms_iff h j).1 h1
  refine ⟨h3, fun hn => ?_⟩
  obtain ⟨t', a, b, c⟩ := C47_conforming_accepted hE' hw' hd' hs' h3 hn
  exact ⟨t', a, b, by rw [c, h2, filled_same h]⟩

/-! ### The hypotheses are met -/

section Examples
open Demo

/-- Exchange the two members of a list. -/
def swap2 (n : Nat) : Nat := 1 - n

theorem swap2_matching (a b a' b' : MInfo × Shape) : Matching swap2 swap2 [a, b] [a', b'] :=
  ⟨by simp [swap2]; omega, by simp [swap2]; omega, by simp [swap2]; omega, by simp [swap2]; omega⟩

/-- What holds of both pairs of members holds of all. -/
theorem swap2_each {a b a' b' : MInfo × Shape} {P : MInfo → Shape → MInfo → Shape → Prop} (h1 : P a.1 a.2 b'.1 b'.2) (h2 : P b.1 b.2 a'.1 a'.2) :
    ∀ n i m i' m', [a, b][n]? = some (i, m) → [a', b'][swap2 n]? = some (i', m') → P i m i' m' := by
  intro n i m i' m' h h'
  match n with
  | 0 => simp [swap2] at h h'; subst h h'; exact h1
  | 1 => simp [swap2] at h h'; subst h h'; exact h2
  | n + 2 => simp at h

/-- An object with a list of texts and another object, nothing stored: the user takes the values in callbacks. -/
def plainOrder : Shape := .object .plain true [({ name := .str "items" }, .array false (.value .str)),
  ({ name := .str "buyer", optional := true }, .object .plain true [({ name := .str "id" }, .value .int), ({ name := .str "text", optional := true }, .value .str)])]

/-- The same document, stored, with the members declared in another order. -/
def autoOrder : Shape := .object .auto true
  [({ name := .str "buyer", optional := true, dflt := some (.tup [.sc (.str ""), .sc (.int 0)]) },
    .object .auto true [({ name := .str "text", optional := true, dflt := some (.sc (.str "")) }, .value .str), ({ name := .str "id" }, .value .int)]),
   ({ name := .str "items" }, .array true (.value .str))]

theorem order_same : SameSchema plainOrder autoOrder := by
  refine .object swap2 swap2 (swap2_matching _ _ _ _) (swap2_each (P := fun i _ i' _ => i.name = i'.name) rfl rfl)
    (swap2_each (P := fun i _ i' _ => Dispensable (ObjKind.plain == .auto) i ↔ Dispensable (ObjKind.auto == .auto) i') (by simp [Dispensable]) (by simp [Dispensable]))
    (swap2_each (P := fun _ m _ m' => SameSchema m m') (.array (.value .str) (.inr rfl)) ?_)
  exact .object swap2 swap2 (swap2_matching _ _ _ _) (swap2_each (P := fun i _ i' _ => i.name = i'.name) rfl rfl)
    (swap2_each (P := fun i _ i' _ => Dispensable (ObjKind.plain == .auto) i ↔ Dispensable (ObjKind.auto == .auto) i') (by simp [Dispensable]) (by simp [Dispensable]))
    (swap2_each (P := fun _ m _ m' => SameSchema m m') (.value .int) (.value .str))

def orderDoc : Json := .obj [("buyer", .obj [("id", .sc (.int 1)), ("text", .sc (.str "a"))]), ("items", .arr [.sc (.str "x"), .sc (.str "y")])]
/-- A buyer without an id. -/
def badOrder : Json := .obj [("items", .arr [.sc (.str "x")]), ("buyer", .obj [("text", .sc (.str "a"))])]

/-- C72_tokens: accepted by the one, hence by the other. -/
example : ∃ t', run accepting autoOrder (events orderDoc) (St.init autoOrder) = .ok () t' :=
  (C72_tokens noCb_passive accepting_passive (by decide +kernel) (by decide +kernel) (allDistinct_of (by decide +kernel)) (allDistinct_of (by decide +kernel)) order_same
    .init .init (by decide +kernel)).1.1 ⟨_, after_ok (E := noCb) (R := plainOrder) (ts := events orderDoc) (s := St.init plainOrder) (by decide +kernel)⟩

/-- C72_tokens: refused by the one, hence by the other. -/
example : ¬ ∃ t', run accepting autoOrder (events badOrder) (St.init autoOrder) = .ok () t' := by
  rw [← (C72_tokens noCb_passive accepting_passive (by decide +kernel) (by decide +kernel) (allDistinct_of (by decide +kernel)) (allDistinct_of (by decide +kernel)) order_same
    .init .init (j := badOrder) (by decide +kernel)).1]
  rintro ⟨t, h⟩
  have : fine noCb plainOrder (events badOrder) (St.init plainOrder) = false := by decide +kernel
  simp [fine, h] at this

def orderText : String := "{\"buyer\": {\"id\": 1, \"text\": \"a\"}, \"items\": [\"x\", \"y\"]}"
def orderText' : String := "{ \"buyer\":{\"id\":1,\"text\":\"a\"},\"items\":[ \"x\",\"y\" ] }"

/-- C72_document: the same as text, in two ways of writing it. -/
example : ∃ t t', parseDocument yajl noCb plainOrder [chunk orderText] (buffer orderText) (PSt.init yajl plainOrder) = .ok () t ∧
    parseDocument yajl accepting autoOrder [chunk orderText'] (buffer orderText') (PSt.init yajl autoOrder) = .ok () t' ∧ isSet [] t.st = isSet [] t'.st := by
  rcases C72_document (Y := yajl) (Y' := yajl) noCb_passive accepting_passive (by decide +kernel) (by decide +kernel) (allDistinct_of (by decide +kernel))
    (allDistinct_of (by decide +kernel)) order_same ServedDocs.init ServedDocs.init (cs := [chunk orderText]) (cs' := [chunk orderText']) (by simp) (by simp)
    (j := orderDoc) (chunk_bytes _) (chunk_bytes _) (document_of (by decide +kernel) (by decide +kernel) (by decide +kernel)) (document_of (by decide +kernel) (by decide +kernel) (by decide +kernel)) (by decide +kernel)
    (m := buffer orderText) (m' := buffer orderText') (chunk_last _) (chunk_last _) with h | ⟨_, _, _, _, _, _, h, _⟩
  · exact h
  · exfalso
    have : returned (parseDocument yajl noCb plainOrder [chunk orderText] (buffer orderText) (PSt.init yajl plainOrder)) = true := by decide +kernel
    rw [h] at this
    simp [returned] at this

/-- C72: a union and a stored one, with the alternatives in another order. -/
def pickOne : Shape := .union .str "type" false [({ name := .str "circle" }, circle), ({ name := .str "note", optional := true }, .object .plain false [({ name := .str "text" }, .value .str)])]
def pickStored : Shape := .union .str "type" true [({ name := .str "note", optional := true, dflt := some (.tup [.sc (.str "")]) }, .object .auto false [({ name := .str "text" }, .value .str)]),
  ({ name := .str "circle" }, .object .auto true [({ name := .str "r" }, .value .int)])]

theorem pick_same : SameSchema pickOne pickStored := by
  refine .union swap2 swap2 (swap2_matching _ _ _ _) (swap2_each (P := fun i _ i' _ => i.name = i'.name) rfl rfl)
    (swap2_each (P := fun i _ i' _ => Dispensable false i ↔ Dispensable true i') (by simp [Dispensable]) (by simp [Dispensable]))
    (swap2_each (P := fun _ m _ m' => SameSchema m m') ?_ ?_)
  · refine .object id id ⟨fun _ h => h, fun _ h => h, fun _ _ => rfl, fun _ _ => rfl⟩ ?_ ?_ ?_ <;>
    · intro n i m i' m' h h'
      match n with
      | 0 => simp at h h'; obtain ⟨rfl, rfl⟩ := h; obtain ⟨rfl, rfl⟩ := h'; first | rfl | simp [Dispensable] | exact .value .int
      | n + 1 => simp at h
  · refine .object id id ⟨fun _ h => h, fun _ h => h, fun _ _ => rfl, fun _ _ => rfl⟩ ?_ ?_ ?_ <;>
    · intro n i m i' m' h h'
      match n with
      | 0 => simp at h h'; obtain ⟨rfl, rfl⟩ := h; obtain ⟨rfl, rfl⟩ := h'; first | rfl | simp [Dispensable] | exact .value .str
      | n + 1 => simp at h

example : ∃ t', run noCb pickStored (events (.obj [("type", .sc (.str "circle")), ("r", .sc (.int 3))])) (St.init pickStored) = .ok () t' :=
  (C72_tokens noCb_passive noCb_passive (by decide +kernel) (by decide +kernel) (allDistinct_of (by decide +kernel)) (allDistinct_of (by decide +kernel)) pick_same
    .init .init (by decide +kernel)).1.1 ⟨_, after_ok (E := noCb) (R := pickOne) (s := St.init pickOne) (by decide +kernel)⟩

/-- C72_equivalence: three ways to declare the same. -/
example : SameSchema autoOrder autoOrder := C72_equivalence.trans (C72_equivalence.symm order_same) order_same

/-- C72_watertight, with a null where a value may be missing. -/
example : ∃ t', run accepting autoOrder (events (.obj [("buyer", .null), ("items", .arr [.sc (.str "x")])])) (St.init autoOrder) = .ok () t' := by
  obtain ⟨_, h⟩ := C72_watertight noCb_passive accepting_passive (R := plainOrder) (by decide +kernel) (by decide +kernel) (by decide +kernel) (allDistinct_of (by decide +kernel))
    (allDistinct_of (by decide +kernel)) order_same .init (s' := St.init autoOrder) .init
    (after_ok (E := noCb) (R := plainOrder) (ts := events (.obj [("buyer", .null), ("items", .arr [.sc (.str "x")])])) (s := St.init plainOrder) (by decide +kernel))
  obtain ⟨t', h, _⟩ := h (.inr ⟨strict_of (by decide +kernel), by decide +kernel⟩)
  exact ⟨t', h⟩

/-- Why dispensable members must be the same: an optional member without a default value is not needed by `Object`, but by `SAutoObject`. -/
theorem C72_needs_defaults :
    let ms : List (MInfo × Shape) := [({ name := .str "a" }, .value .int), ({ name := .str "b", optional := true }, .value .int)]
    let j : Json := .obj [("a", .sc (.int 1))]
    fine noCb (.object .plain true ms) (events j) (St.init (.object .plain true ms)) = true ∧
    fine noCb (.object .auto true ms) (events j) (St.init (.object .auto true ms)) = false := by decide +kernel

/-- Why elements of `SArray` must have values: an empty object has none. -/
theorem C72_needs_values :
    let e : Shape := .object .auto true [({ name := .str "a", optional := true, dflt := some (.sc (.int 0)) }, .value .int)]
    let j : Json := .arr [.obj [("a", .sc (.int 1))], .obj []]
    fine noCb (.array false e) (events j) (St.init (.array false e)) = true ∧
    fine noCb (.array true e) (events j) (St.init (.array true e)) = false := by decide +kernel

end Examples

end SJ
