/-
C28, C29, C30: one token is handled in bounded time, without undefined behaviour, and the stack of current parsers follows
the tree - for every parser tree, all callbacks and every history of tokens, well-formed or not.
-/
import Verif.Proofs.Control
import Verif.Demo

set_option linter.unusedVariables false

namespace SJ

variable {E : Env} {R : Shape}

/-! ### C28 -/

def NoFuel {α} : Res α → Prop
  | .fuel => False
  | _ => True

theorem NoFuel.ne {α} {r : Res α} (h : NoFuel r) : r ≠ .fuel := by rintro rfl; exact h

theorem NoFuel.of_ne {α} {r : Res α} (h : r ≠ .fuel) : NoFuel r := by
  cases r with
  | fuel => exact h rfl
  | _ => trivial

theorem NoFuel.bind {α β} {m : M α} {f : α → M β} {s : St} (h : NoFuel (m s)) (hf : ∀ a s', NoFuel (f a s')) :
    NoFuel (M.bind m f s) := by
  unfold M.bind
  cases hc : m s with
  | ok a s' => exact hf a s'
  | throw e s' => trivial
  | ub => trivial
  | fuel => rw [hc] at h; exact h

theorem Loc.noFuel {α} {p} {m : M α} (h : Loc p m) (s : St) : NoFuel (m s) := by
  have := h s
  cases hm : m s with
  | fuel => rw [hm] at this; exact this
  | _ => trivial

theorem nullBase_noFuel (sh p) (s : St) : NoFuel (nullBase E R sh p s) := by
  unfold nullBase
  rw [bind_modH, bind_getC]
  split
  · exact NoFuel.of_ne pop_ne_fuel
  · trivial

theorem onMember_noFuel (u ms p x) (s : St) : NoFuel (onMember E u ms p x s) := by
  unfold onMember
  rw [setNotEmpty_def, bind_modC, bind_getC]
  cases lookup x 0 ms with
  | some a =>
    simp only
    split
    · trivial
    · trivial
  | none =>
    simp only
    split
    · trivial
    · split
      · trivial
      · trivial

theorem onF_noFuel (t : Token) (sh : Shape) : ∀ (p : Path) (s : St), NoFuel (onF E R sh p t s) := by
  induction sh using Shape.arrInd with
  | value ty =>
    intro p s
    cases t with
    | null => exact nullBase_noFuel _ _ _
    | scalar v =>
      simp only [onF]
      split
      · rw [setNotEmpty_def, bind_modC, bind_modC]; exact NoFuel.of_ne endP_ne_fuel
      · trivial
    | _ => trivial
  | ignore =>
    intro p s
    cases t with
    | null => exact nullBase_noFuel _ _ _
    | scalar v =>
      simp only [onF, bind_getC]
      split
      · exact NoFuel.of_ne endP_ne_fuel
      · trivial
    | mapStart => trivial
    | arrStart => trivial
    | mapKey k =>
      simp only [onF, bind_getC]
      match (s.heap p).struct with
      | true :: _ => trivial
      | false :: _ => trivial
      | [] => trivial
    | mapEnd =>
      simp only [onF, bind_getC]
      match (s.heap p).struct with
      | true :: r =>
        simp only [bind_modC]
        split
        · exact NoFuel.of_ne endP_ne_fuel
        · trivial
      | false :: _ => trivial
      | [] => trivial
    | arrEnd =>
      simp only [onF, bind_getC]
      match (s.heap p).struct with
      | false :: r =>
        simp only [bind_modC]
        split
        · exact NoFuel.of_ne endP_ne_fuel
        · trivial
      | true :: _ => trivial
      | [] => trivial
  | object k u ms =>
    intro p s
    cases t with
    | null => exact nullBase_noFuel _ _ _
    | mapKey key => exact NoFuel.bind (onMember_noFuel _ _ _ _ _) fun _ _ => trivial
    | mapEnd => exact NoFuel.of_ne endP_ne_fuel
    | _ => trivial
  | union ty tm b ms =>
    intro p s
    cases t with
    | null => exact nullBase_noFuel _ _ _
    | scalar v =>
      simp only [onF]
      split
      · rw [bind_modH]
        refine NoFuel.bind (onMember_noFuel _ _ _ _ _) fun r _ => ?_
        cases r <;> trivial
      · trivial
    | mapStart => simp only [onF]; split <;> trivial
    | mapKey key =>
      simp only [onF]
      split
      · trivial
      · split <;> trivial
    | mapEnd => exact NoFuel.of_ne endP_ne_fuel
    | _ => trivial
  | map st e =>
    intro p s
    cases t with
    | null => exact nullBase_noFuel _ _ _
    | mapKey key =>
      simp only [onF, setNotEmpty_def, bind_modC, bind_getC]
      split <;> trivial
    | mapEnd => exact NoFuel.of_ne endP_ne_fuel
    | _ => trivial
  | array st e ih =>
    intro p s
    cases t with
    | null =>
      simp only [onF, bind_getC]
      split
      · exact nullBase_noFuel _ _ _
      · exact ih _ _
    | scalar v =>
      simp only [onF, bind_getC]
      split
      · trivial
      · exact NoFuel.bind (ih _ _) fun _ s1 => NoFuel.bind trivial fun _ _ => NoFuel.of_ne chP_ne_fuel
    | mapStart =>
      simp only [onF, bind_getC]
      split
      · trivial
      · split
        · trivial
        · exact ih _ _
    | arrStart =>
      simp only [onF, bind_getC]
      split
      · trivial
      · split
        · trivial
        · exact ih _ _
    | arrEnd => exact NoFuel.of_ne endP_ne_fuel
    | _ => trivial

/-- C28. Every token is handled in finitely many steps: for every tree, all callbacks, every stack of parsers (reachable or
not) and every token, the mutual recursion popParser - childParsed - endParsing - end of object is never nested deeper
than four times the depth of the stack plus four: with this bound (`fuelFor`) the outcome is never "bound exhausted" ... -/
theorem C28_terminates (t : Token) (s : St) : dispatch E R t s ≠ .fuel := by
  match hs : s.stack with
  | [] => rw [dispatch_nil hs]; simp
  | p :: rest =>
    cases hR : R.at p with
    | none => unfold dispatch; simp only [hs, hR]; simp
    | some sh => rw [dispatch_cons hs hR]; exact (onF_noFuel t sh p s).ne

/-- ... and allowing a deeper recursion changes nothing. -/
theorem C28_bound (t : Token) (s : St) {p rest sh} (hs : s.stack = p :: rest) (hR : R.at p = some sh) (n : Nat)
    (hn : 4 * s.stack.length + 4 ≤ n) : on E R n sh p t s = dispatch E R t s := by
  rw [dispatch_cons hs hR]; exact on_eq sh p t hR n s hn

/-- Hence any sequence of tokens is. -/
theorem C28_run (ts : List Token) : ∀ s : St, run E R ts s ≠ .fuel := by
  suffices ∀ s, NoFuel (run E R ts s) from fun s => (this s).ne
  induction ts with
  | nil => intro s; trivial
  | cons t ts ih => intro s; exact NoFuel.bind (NoFuel.of_ne (C28_terminates t s)) fun _ s' => ih s'

/-! ### C29 -/

/-- C29. No undefined behaviour: unless some array of the tree has a union as its element parser, no token sequence - after
any history - makes a parser use a null dispatcher pointer or the dispatcher a dangling parser pointer. All callbacks,
well-formed documents or not. Partial: for the other trees see `C29_only_partial` and `C29_union_element`. -/
theorem C29_no_ub_partial {s : St} (h : History R s) (hu : ¬ HasUnionArray R) (ts : List Token) : run E R ts s ≠ .ub := by
  have := run_ctl (E := E) ts h.ctl
  intro hc; rw [hc] at this; exact hu this

/-- The array at `q`, and all arrays from there down to the one at `p`, each of which is the element parser of the one before, have got their opening bracket. -/
inductive OpenDown (R : Shape) (s : St) (q : Path) : Path → Prop
  | top {st e} : R.at q = some (.array st e) → (s.heap q).started = true → OpenDown R s q q
  | elem {p st e} : OpenDown R s q p → R.at (.elem :: p) = some (.array st e) → (s.heap (.elem :: p)).started = true → OpenDown R s q (.elem :: p)

/-- The token is a scalar that would select an alternative of a union; this union is the element parser of an array that is the
current parser (or reached from it through arrays), that has got its opening bracket, and that has not yet given the union its dispatcher. -/
def UnionElement (R : Shape) (s : St) (t : Token) : Prop :=
  ∃ v q rest p st ty tm b ms, t = .scalar v ∧ s.stack = q :: rest ∧ OpenDown R s q p ∧ R.at p = some (.array st (.union ty tm b ms)) ∧
    v.ty = ty ∧ (lookup v 0 ms).isSome = true ∧ (s.heap (.elem :: p)).disp = false

/-- C29, all trees: after any history, the only tokens that cause undefined behaviour are scalars as elements of an array of unions. -/
theorem C29_only_partial {s : St} (h : History R s) (t : Token) (hub : dispatch E R t s = .ub) : UnionElement R s t := by
  have hc := h.ctl
  match hs : s.stack with
  | [] => rw [dispatch_nil hs] at hub; simp at hub
  | q :: rest =>
    obtain ⟨⟨sh, hR⟩, _⟩ := hc.valid q (by simp [hs])
    rw [dispatch_cons hs hR] at hub
    have := onF_ctlU (E := E) t sh (UnionElement R s t) (OpenDown R s q) q q rest s
      (fun v p' st ty tm b ms h1 h2 h3 h4 h5 h6 h7 => ⟨v, q, rest, p', st, ty, tm, b, ms, h1, hs, h5, h3, h4, h7, h6⟩)
      (fun p' h1 ⟨st, e, h2⟩ h3 => by
        rcases h3 with rfl | ⟨p'', rfl, h3⟩
        · exact .top h2 h1
        · exact .elem h3 h2 h1) (fun _ _ h => absurd rfl h) hc hs hR (Or.inl rfl)
    rw [hub] at this
    exact this

theorem bind_ub {α β} {m : M α} {f : α → M β} {s : St} (h : m s = .ub) : M.bind m f s = .ub := by
  unfold M.bind; rw [h]

theorem union_ub {s : St} {p ty tm b ms v} (hv : v.ty = ty) (hl : (lookup v 0 ms).isSome = true) (hd : (s.heap p).disp = false) :
    onF E R (.union ty tm b ms) p (.scalar v) s = .ub := by
  obtain ⟨⟨n, m⟩, hl⟩ := Option.isSome_iff_exists.1 hl
  simp only [onF, if_pos hv]
  rw [bind_modH]
  simp only [onMember, setNotEmpty_def]
  have h1 : (resetH p (.union ty tm b ms) s.heap p).disp = false := by rw [(resetH_ctl _ _ _ _).1]; exact hd
  simp only [M.bind, modC, getC, hl, upd_same, h1, Bool.false_eq_true, if_false]

/-- The negation of the full C29: such a scalar does cause undefined behaviour, whenever the array is the current parser. -/
theorem C29_union_element {s : St} {p rest st ty tm b ms v} (hs : s.stack = p :: rest) (hR : R.at p = some (.array st (.union ty tm b ms)))
    (hst : (s.heap p).started = true) (hd : (s.heap (.elem :: p)).disp = false) (hv : v.ty = ty) (hl : (lookup v 0 ms).isSome = true) :
    dispatch E R (.scalar v) s = .ub := by
  rw [dispatch_cons hs hR]
  simp only [onF, bind_getC, hst, Bool.not_true, Bool.false_eq_true, if_false]
  exact bind_ub (union_ub (R := R) hv hl hd)

theorem down_ub {s : St} {q p : Path} {v} (h : OpenDown R s q p) : ∀ {st e}, R.at p = some (.array st e) → onF E R e (.elem :: p) (.scalar v) s = .ub →
    ∃ st' e', R.at q = some (.array st' e') ∧ onF E R (.array st' e') q (.scalar v) s = .ub := by
  induction h with
  | top h1 h2 =>
    intro st e hR hu
    refine ⟨st, e, hR, ?_⟩
    simp only [onF, bind_getC, h2, Bool.not_true, Bool.false_eq_true, if_false]
    exact bind_ub hu
  | @elem p st0 e0 h h1 h2 ih =>
    intro st e hR hu
    obtain ⟨st', e', hp⟩ : ∃ st' e', R.at p = some (.array st' e') := by
      cases h with
      | top h _ => exact ⟨_, _, h⟩
      | elem _ h _ => exact ⟨_, _, h⟩
    refine ih hp ?_
    have he : e' = .array st e := by
      have := at_elem_array hp
      rw [hR] at this; injection this with this; exact this.symm
    rw [he]
    simp only [onF, bind_getC, h2, Bool.not_true, Bool.false_eq_true, if_false]
    exact bind_ub hu

/-- C29, exactly: after any history a token causes undefined behaviour if and only if it is such a scalar. -/
theorem C29_exactly_partial {s : St} (h : History R s) (t : Token) : dispatch E R t s = .ub ↔ UnionElement R s t := by
  refine ⟨C29_only_partial h t, ?_⟩
  rintro ⟨v, q, rest, p, st, ty, tm, b, ms, rfl, hs, hdown, hR, hv, hl, hd⟩
  obtain ⟨st', e', hq, hu⟩ := down_ub (E := E) (v := v) hdown hR (union_ub hv hl hd)
  rw [dispatch_cons hs hq]; exact hu

/-! ### C30 -/

theorem heightMs_get : ∀ {ms : List (MInfo × Shape)} {n : Nat} {x : MInfo × Shape}, ms[n]? = some x → x.2.height ≤ heightMs ms
  | [], n, x, h => by simp at h
  | (i, sh) :: ms, 0, x, h => by
    simp at h; subst h; unfold heightMs; exact Nat.le_max_left _ _
  | (i, sh) :: ms, n + 1, x, h => by
    have := heightMs_get (ms := ms) (n := n) (x := x) (by simpa using h)
    unfold heightMs; exact Nat.le_trans this (Nat.le_max_right _ _)

theorem height_child {sh : Shape} {st c} (h : sh.child st = some c) : c.height + 1 ≤ sh.height := by
  cases sh with
  | value => simp [Shape.child] at h
  | ignore => simp [Shape.child] at h
  | array b e => cases st <;> simp [Shape.child] at h; subst h; simp only [Shape.height]; omega
  | map b e => cases st <;> simp [Shape.child] at h; subst h; simp only [Shape.height]; omega
  | object k u ms =>
    cases st with
    | mem n =>
      simp [Shape.child] at h
      obtain ⟨i, hi⟩ := h
      have := heightMs_get hi
      simp only [Shape.height] at this ⊢; omega
    | ign => simp [Shape.child] at h; subst h; simp only [Shape.height]; omega
    | elem => simp [Shape.child] at h
  | union ty tm b ms =>
    cases st with
    | mem n =>
      simp [Shape.child] at h
      obtain ⟨i, hi⟩ := h
      have := heightMs_get hi
      simp only [Shape.height] at this ⊢; omega
    | ign => simp [Shape.child] at h; subst h; simp only [Shape.height]; omega
    | elem => simp [Shape.child] at h

theorem height_at : ∀ (p : Path) (sh : Shape), R.at p = some sh → p.length + sh.height ≤ R.height
  | [], sh, h => by simp [Shape.at] at h; subst h; simp
  | st :: p, sh, h => by
    simp only [Shape.at, Option.bind_eq_some_iff] at h
    obtain ⟨sh', h1, h2⟩ := h
    have := height_at p sh' h1
    have := height_child h2
    simp only [List.length_cons]; omega

theorem Stacked.mono {rel rel' : Path → Path → Prop} (hr : ∀ p q, rel p q → rel' p q) : ∀ {l}, Stacked rel l → Stacked rel' l
  | [], _ => trivial
  | [p], h => h
  | p :: q :: r, h => ⟨hr _ _ h.1, Stacked.mono hr (l := q :: r) h.2⟩

theorem Link.inside {p q} (h : Link R p q) : InsideOf p q := by
  rcases h with ⟨st, rfl⟩ | ⟨_, h⟩
  · exact ⟨List.suffix_cons _ _, by intro h; have := congrArg List.length h; simp at this⟩
  · exact h

theorem Stacked.length : ∀ {l : List Path} {p r}, Stacked InsideOf l → l = p :: r → l.length ≤ p.length + 1
  | [], p, r, h, e => by simp at e
  | [a], p, r, h, e => by simp
  | a :: b :: l, p, r, h, e => by
    injection e with e1 e2; subst e1
    have h1 := Stacked.length (l := b :: l) h.2 rfl
    have h2 := h.1.1.length_le
    have h3 : a.length ≠ b.length := by
      intro h3
      exact h.1.2 (below_eq_of_len (Below.refl _) h.1.1 h3)
    simp only [List.length_cons] at h1 ⊢; omega

/-- C30. Stack discipline, for every history: the lowest current parser is the root, every other one is inside the one under
it, all are in the tree, and there are never more of them than the tree is deep plus one. -/
theorem C30_stack {s : St} (h : History R s) :
    Stacked InsideOf s.stack ∧ (∀ p ∈ s.stack, InTree R p) ∧ s.stack.length ≤ R.height + 1 := by
  have hc := h.ctl
  have h1 : Stacked InsideOf s.stack := hc.linked.mono fun _ _ => Link.inside
  refine ⟨h1, fun p hp => (hc.valid p hp).1, ?_⟩
  match hs : s.stack with
  | [] => simp
  | p :: r =>
    have h2 := Stacked.length (hs ▸ h1) rfl
    obtain ⟨sh, hR⟩ := (hc.valid p (by simp [hs])).1
    have := height_at p sh hR
    omega

/-- C28. No document can make the recursion deep: whatever was parsed before, however long and however deeply nested, and whatever the next token is,
the recursion popParser - childParsed - endParsing - end of object is never nested deeper than four times the depth of the parser tree
plus eight. -/
theorem C28_depth {s : St} (h : History R s) (t : Token) {p rest sh} (hs : s.stack = p :: rest) (hR : R.at p = some sh) (n : Nat)
    (hn : 4 * R.height + 8 ≤ n) : on E R n sh p t s = dispatch E R t s ∧ on E R n sh p t s ≠ .fuel := by
  have h1 := (C30_stack h).2.2
  have h2 := C28_bound (E := E) t s hs hR n (by omega)
  exact ⟨h2, h2 ▸ C28_terminates t s⟩

/-- C30. Unless an array has a union as its element parser, every current parser (but the root) is a member, the
element parser or the ignore parser of the one under it. -/
theorem C30_direct {s : St} (h : History R s) (hu : ¬ HasUnionArray R) : Stacked ChildOf s.stack :=
  h.ctl.linked.mono fun _ _ hl => hl.resolve_right fun x => hu x.1

/-! ### The hypotheses are met -/

section Examples
open Demo

/-- A history: a document, one that is refused in the middle, a `pop()`, tokens that no JSON text gives. -/
def sUsed : St := after noCb outer [.arrEnd, .mapKey "name"] (after noCb outer ([.mapStart, .mapKey "part", .mapStart, .arrStart])
  (after noCb outer (events doc) (St.init outer)).restart).restart

theorem sUsed_history : History outer sUsed := by
  refine .failed [.arrEnd, .mapKey "name"] (.std "Unexpected token array end") (.restart (.failed [.mapStart, .mapKey "part", .mapStart, .arrStart]
    (.std "Unexpected token array start") (.restart (.tokens (events doc) .init (after_ok ?_))) (after_throw ?_))) (after_throw ?_) <;> decide +kernel

mutual
/-- No array of unions, by evaluation. -/
def noUnionArray : Shape → Bool
  | .value _ => true
  | .ignore => true
  | .object _ _ ms => noUnionArrayMs ms
  | .union _ _ _ ms => noUnionArrayMs ms
  | .array _ e => (match e with | .union _ _ _ _ => false | _ => true) && noUnionArray e
  | .map _ e => noUnionArray e
def noUnionArrayMs : List (MInfo × Shape) → Bool
  | [] => true
  | (_, sh) :: ms => noUnionArray sh && noUnionArrayMs ms
end

theorem noUnionArrayMs_get : ∀ {ms : List (MInfo × Shape)} {n : Nat} {c : Shape}, noUnionArrayMs ms = true → ms[n]?.map (·.2) = some c → noUnionArray c = true
  | [], n, c, _, h => by simp at h
  | (i, sh) :: ms, 0, c, h1, h2 => by
    simp only [noUnionArrayMs, Bool.and_eq_true] at h1
    simp at h2; subst h2; exact h1.1
  | (i, sh) :: ms, n + 1, c, h1, h2 => by
    simp only [noUnionArrayMs, Bool.and_eq_true] at h1
    exact noUnionArrayMs_get h1.2 (by simpa using h2)

theorem noUnionArray_sound {R : Shape} (h : noUnionArray R = true) : ¬ HasUnionArray R := by
  have all : ∀ q sh, R.at q = some sh → noUnionArray sh = true := by
    intro q
    induction q with
    | nil => intro sh hs; simp [Shape.at] at hs; subst hs; exact h
    | cons st q ih =>
      intro sh hs
      cases hq : R.at q with
      | none => simp [Shape.at, hq] at hs
      | some sh' =>
        simp only [Shape.at, hq, Option.bind_some] at hs
        have := ih sh' hq
        cases sh' <;> cases st <;> simp only [Shape.child] at hs <;> simp only [noUnionArray, Bool.and_eq_true] at this
        all_goals first
          | (injection hs with hs; subst hs; first | rfl | exact this | exact this.2)
          | exact noUnionArrayMs_get this hs
          | simp at hs
  rintro ⟨q, st, ty, tm, b, ms, hq⟩
  have := all q _ hq
  simp [noUnionArray] at this

/-- C29_no_ub_partial, C30_stack, C30_direct -/
example : run noCb outer (events doc) sUsed ≠ .ub := C29_no_ub_partial sUsed_history (noUnionArray_sound (by decide +kernel)) _
example : sUsed.stack.length ≤ outer.height + 1 ∧ Stacked ChildOf sUsed.stack :=
  ⟨(C30_stack sUsed_history).2.2, C30_direct sUsed_history (noUnionArray_sound (by decide +kernel))⟩
/-- In the middle of `Demo.doc` four parsers are current. -/
example : (after noCb outer ((events doc).take 8) (St.init outer)).stack = [[.mem 1, .mem 1], [.mem 1], []] ∧ outer.height + 1 = 4 := by decide +kernel

/-- C28_bound: the bound is met with equality by `dispatch` itself, here with three current parsers. -/
example : on noCb outer 16 (.array true (.value .str)) [.mem 1, .mem 1] (.scalar (.str "b")) (after noCb outer ((events doc).take 8) (St.init outer)) =
    dispatch noCb outer (.scalar (.str "b")) (after noCb outer ((events doc).take 8) (St.init outer)) :=
  C28_bound _ _ (p := [.mem 1, .mem 1]) (rest := [[.mem 1], []]) (by decide +kernel) rfl 16 (by decide +kernel)

/-- C28_depth: the same state, reached by a history. -/
example : on noCb outer 20 (.array true (.value .str)) [.mem 1, .mem 1] (.scalar (.str "b")) (after noCb outer ((events doc).take 8) (St.init outer)) ≠ .fuel :=
  (C28_depth (.tokens ((events doc).take 8) .init (after_ok (by decide +kernel))) _ (p := [.mem 1, .mem 1]) (rest := [[.mem 1], []]) (by decide +kernel) rfl 20
    (by decide +kernel)).2

/-- C29_union_element: `["circle"]` given to an array of standalone unions. -/
example : dispatch noCb (.array false choice) (.scalar (.str "circle")) (after noCb (.array false choice) [.arrStart] (St.init (.array false choice))) = .ub :=
  C29_union_element (p := []) (rest := []) (by decide +kernel) rfl (by decide +kernel) (by decide +kernel) rfl rfl

/-- C29_exactly_partial: `["circle"` given to an array of standalone unions. -/
example : dispatch noCb (.array false choice) (.scalar (.str "circle")) (after noCb (.array false choice) [.arrStart] (St.init (.array false choice))) = .ub :=
  (C29_exactly_partial (.tokens [.arrStart] .init (after_ok (by decide +kernel))) _).2
    ⟨_, [], [], [], false, _, _, _, _, rfl, by decide +kernel, .top rfl (by decide +kernel), rfl, by decide +kernel, by decide +kernel, by decide +kernel⟩

end Examples

end SJ
