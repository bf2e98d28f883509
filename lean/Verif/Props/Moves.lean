/-
C33: parsers hold pointers into themselves; after any sequence of constructions, moves, move assignments and uses all of them
point where they should, and a moved parser has the content of the source.
-/
import Verif.Proofs.Moves

set_option linter.unusedVariables false

namespace SJ.Obj

/-- C33. However a parser came about (constructed from others, moved, assigned to, used), and whatever the rest of the memory
holds: the element pointer of every array in it points to that array's element parser, and every object and union in
it resolves exactly the names of its members, each to its own member parser, and knows all of its members. In particular no
pointer to the source of a move and no registration of the destination's previous content survives. -/
theorem C33_pointers {u : Bool} {a : Addr} {o : Parser} (h : Occurs u a o) {q : List Step} {o' : Parser} (hq : o.sub q = some o') (mem : Names) :
    Follows mem (a.down q) o' := linked_follows (linked_sub h.linked hq)

/-- C33. In every union in it whose members are different parsers, each member parser has the number of its place. -/
theorem C33_numbers {u : Bool} {a : Addr} {o : Parser} (h : Occurs u a o) {q : List Step} {ty tm st c cb t ids ign ms}
    (hq : o.sub q = some (.union ty tm st c cb t ids ign ms)) (hd : Distinct (a.down q) ms) {n : Nat} {x : MInfo × Slot} (hn : ms[n]? = some x) :
    idOf ids (x.2.addr ((a.down q).step (.mem n))) = some n := by
  obtain ⟨_, _, h3, _⟩ := linked_sub h.linked hq
  subst h3
  rw [idOf_setup, lastIdx_spec, addrs_mapIdx]
  refine ⟨Nat.zero_le _, by simp [hn], fun j hj hc => ?_⟩
  simp only [Nat.sub_zero, Nat.zero_add, List.getElem?_mapIdx, Option.map_eq_some_iff, Option.some.injEq] at hc
  obtain ⟨y, hy, he⟩ := hc
  have := hd j n y x hy hn he
  omega

/-- C33. The members held by value are always different parsers. -/
theorem C33_distinct {a : Addr} {ms : List (MInfo × Slot)} (h : ∀ x ∈ ms, ∃ o, x.2 = .own o) : Distinct a ms := by
  intro m n x y hx hy he
  obtain ⟨o, ho⟩ := h x (List.mem_of_getElem? hx)
  obtain ⟨o', ho'⟩ := h y (List.mem_of_getElem? hy)
  rw [ho, ho'] at he
  simp only [Slot.addr, Addr.step, Addr.mk.injEq, List.cons.injEq, Step.mem.injEq] at he
  exact he.2.1

/-- C33, a defect: if two members of a union were given the same parser by reference, its number is that of the last of them, so the
union reports the wrong member for the first one's type value. -/
theorem C33_shared_parser {u : Bool} {a : Addr} {o : Parser} (h : Occurs u a o) {q : List Step} {ty tm st c cb t ids ign ms}
    (hq : o.sub q = some (.union ty tm st c cb t ids ign ms)) {m n : Nat} {x y : MInfo × Slot} (hm : ms[m]? = some x) (hn : ms[n]? = some y)
    (hmn : m < n) {b : Addr} (hx : x.2 = .ref b) (hy : y.2 = .ref b) : idOf ids b ≠ some m := by
  obtain ⟨_, _, h3, _⟩ := linked_sub h.linked hq
  subst h3
  rw [idOf_setup, Ne, lastIdx_spec, addrs_mapIdx]
  rintro ⟨_, _, h3⟩
  exact h3 n hmn (by simp [hn, hy, Slot.addr])

/-- C33. A move-constructed parser and all parsers inside it have the content of those of the source: class, options, names,
defaults, callbacks, flags and values (only the key of a map that is being read is not moved). -/
theorem C33_moved_content (ρ : Addr → Shape) (mem : Names) (a : Addr) (o : Parser) (q : List Step) :
    ((move mem a o).sub q).map (Parser.content ρ) = (o.sub q).map (Parser.content ρ) := by
  rw [move_sub]
  cases o.sub q with
  | none => rfl
  | some o' => simp only [Option.map_some, move_content]

/-- C33. The same for move assignment; nothing of the destination's content remains. -/
theorem C33_assigned_content (ρ : Addr → Shape) (mem : Names) (a : Addr) {o dst : Parser} (ht : sameType o dst = true) (q : List Step) :
    ((assign mem a o dst).sub q).map (Parser.content ρ) = (o.sub q).map (Parser.content ρ) := by
  have h := assign_sub (mem := mem) (a := a) (q := q) ht
  cases ho : o.sub q with
  | none => rw [ho] at h; simp only [h]
  | some o1 =>
    rw [ho] at h
    obtain ⟨d1, _, h2, h3⟩ := h
    rw [h3]; simp only [Option.map_some, assign_content h2]

/-- C33. A parser that was assembled by any constructions, moves and assignments, but not used yet, put into a `Parser`, is in the
initial state of its tree; so every theorem about this state applies to it. (`ρ` and `σ`: trees and fields of parsers
given by reference, which were not used either.) -/
theorem C33_initial {a : Addr} {o : Parser} (h : Occurs false a o) (ρ : Addr → Shape) (σ : Addr → List Step → Cell)
    (hσ : ∀ b q, σ b q = {}) :
    ({ heap := attach (o.shape ρ) (o.heap σ), stack := [[]], log := [] } : St) = St.init (o.shape ρ) := by
  have : o.heap σ = Heap.fresh := by funext p; exact fresh_cells hσ h.fresh
  rw [this]; rfl

/-- C33. Resolving a name by the pointers is what the model of the parsing methods does with the tree. -/
theorem C33_lookup {u : Bool} {a : Addr} {o : Parser} (h : Occurs u a o) {q : List Step} {k err c cb t ign ms}
    (hq : o.sub q = some (.object k err c cb t ign ms)) (mem : Names) (ρ : Addr → Shape) (y : Scalar) :
    t.map.find (namesAt mem (a.down q) ms) y =
      (lookup y 0 (shapeMs ρ ms)).bind fun r => ms[r.1]?.map fun x => x.2.addr ((a.down q).step (.mem r.1)) := by
  have := (C33_pointers h hq mem).1 y
  rw [this, ← lookup_firstNamed (ρ := ρ)]
  cases lookup y 0 (shapeMs ρ ms) <;> rfl

theorem move_cell_disp {mem : Names} {a : Addr} {o : Parser} : (move mem a o).cell.disp = o.cell.disp ∧
    (o.cell.started = false → (move mem a o).cell.started = false) ∧ (move mem a o).ignCell.disp = o.ignCell.disp ∧
    (o.ignCell.started = false → (move mem a o).ignCell.started = false) := by
  cases o with
  | value => exact ⟨rfl, fun _ => rfl, rfl, fun _ => rfl⟩
  | array st => simp only [move]; cases st <;> exact ⟨rfl, id, rfl, fun _ => rfl⟩
  | map st => simp only [move]; cases st <;> exact ⟨rfl, fun _ => rfl, rfl, fun _ => rfl⟩
  | object k => simp only [move]; cases k <;> exact ⟨rfl, fun _ => rfl, rfl, fun _ => rfl⟩
  | union _ _ st => simp only [move]; cases st <;> exact ⟨rfl, fun _ => rfl, rfl, fun _ => rfl⟩

theorem move_cells {mem : Names} {σ : Addr → List Step → Cell} : ∀ {q : List Step} {a : Addr} {o : Parser},
    ((move mem a o).cells σ q).disp = (o.cells σ q).disp ∧ ((o.cells σ q).started = false → ((move mem a o).cells σ q).started = false)
  | [], a, o => ⟨move_cell_disp.1, move_cell_disp.2.1⟩
  | st :: q, a, o => by
    by_cases hi : st = .ign ∧ q = []
    · obtain ⟨rfl, rfl⟩ := hi; exact ⟨move_cell_disp.2.2.1, move_cell_disp.2.2.2⟩
    · have h1 := Parser.cells.eq_3 σ o st q fun h1 h2 => hi ⟨h1, h2⟩
      have h2 := Parser.cells.eq_3 σ (move mem a o) st q fun h1 h2 => hi ⟨h1, h2⟩
      rw [h1, h2, move_slot]
      cases o.slot st with
      | none => exact ⟨rfl, id⟩
      | some sl =>
        cases sl with
        | ref b => exact ⟨rfl, id⟩
        | own o' => simp only [Option.map_some, moveSlot]; exact move_cells

theorem Sane.attached {R : Shape} {h : Heap} (hs : Sane R [] h) (l : Log) : Ready R { heap := attach R h, stack := [[]], log := l } := by
  refine ⟨rfl, setDispH_self _ _ _, DClosed.setDispH hs.closed rfl, fun q hq => ?_, ?_⟩
  · show (attach R h q).started = false
    unfold attach; rw [(setDispH_only R [] h).started]; exact hs.started q hq
  · intro q st ty hb hR
    cases hd : (attach R h (.elem :: q)).disp with
    | false => rfl
    | true =>
      rcases setDispH_disp R [] h _ hd with h' | h'
      · rw [hs.velem q st ty hb hR] at h'; simp at h'
      · rcases h'.not_elem rfl with h | ⟨st', q', sh', h1, h2, h3⟩
        · simp at h
        · injection h1 with _ h1; subst h1
          rw [hR] at h2; injection h2 with h2
          exact absurd h2.symm (h3 _ _)

theorem move_sane {R : Shape} {mem : Names} {a : Addr} {o : Parser} {σ : Addr → List Step → Cell} (h : Sane R [] (o.heap σ)) :
    Sane R [] ((move mem a o).heap σ) := by
  have hd : ∀ q, ((move mem a o).heap σ q).disp = (o.heap σ q).disp := fun q => move_cells.1
  refine ⟨fun q sh st c h1 h2 h3 h4 => ?_, fun q hq => move_cells.2 (h.started q hq), fun q st ty hq hR => ?_⟩
  · rw [hd] at h2 ⊢; exact h.closed q sh st c h1 h2 h3 h4
  · rw [hd]; exact h.velem q st ty hq hR

/-- C33. A parser that was moved after it had read documents reads every further document like a new one: it holds what
`denote` says or fails with its error. (`hr`: the source was between documents; `C33_ready` shows that this is so after every
successful document.) -/
theorem C33_moved_reads {E : Env} (hE : Passive E) {o : Parser} {ρ : Addr → Shape} {σ : Addr → List Step → Cell} {l : Log}
    (hr : Ready (o.shape ρ) { heap := o.heap σ, stack := [[]], log := l }) (hw : (o.shape ρ).wf = true) (mem : Names) (a : Addr) {j : Json}
    (hok : okVal (o.shape ρ) j = true) :
    let R := (move mem a o).shape ρ
    let s : St := { heap := attach R ((move mem a o).heap σ), stack := [[]], log := l }
    match denote E.fmtDbl (o.shape ρ) j with
    | .ok d => ∃ s', run E R (events j) s = .ok () s' ∧ s'.stack = [] ∧ Holds s'.heap [] d
    | .error e => ∃ s', run E R (events j) s = .throw (.std e) s' := by
  intro R s
  have hR : R = o.shape ρ := move_shape
  have hs : Ready R s := Sane.attached (by rw [hR]; exact move_sane hr.sane) l
  have := parse_denote hE hs (by rw [hR]; exact hw) (j := j) (by rw [hR]; exact hok)
  rw [← hR]
  revert this
  cases denote E.fmtDbl R j with
  | error e => exact id
  | ok d => rintro ⟨s', h1, h2, h3, _⟩; exact ⟨s', h1, h2, h3⟩

/-- C33. After a document was read successfully (whatever the callbacks did), the parser is between documents. -/
theorem C33_ready {E : Env} {o : Parser} {ρ : Addr → Shape} {σ : Addr → List Step → Cell} {s s' : St} (hr : Ready (o.shape ρ) s)
    (hw : (o.shape ρ).wf = true) {j : Json} (hok : okVal (o.shape ρ) j = true) (h : run E (o.shape ρ) (events j) s = .ok () s')
    (ho : o.heap σ = s'.heap) (l : Log) : Ready (o.shape ρ) { heap := o.heap σ, stack := [[]], log := l } := by
  have := (hr.after (wf_user hw) hok h).2
  exact ⟨rfl, by simp only [ho]; exact this.disp, by simp only [ho]; exact this.sane⟩

/-! ### The hypotheses are met -/

/-- The constructor succeeds or fails as the one of the tables of C32 does, with the same text. -/
theorem construct_same {fmt nm a} : ∀ {ms : List (MInfo × Slot)} {n} {t : Tables}, Has nm a n ms → t.map = [] → t.arr.length = n + ms.length →
    match construct fmt nm a n ms t with
    | .error e => SJ.construct fmt n (ms.map (·.1)) = .error e
    | .ok _ => SJ.construct fmt n (ms.map (·.1)) = .ok (table n (ms.map (·.1)))
  | [], n, t, h, hm, hl => rfl
  | (i, sl) :: ms, n, t, h, hm, hl => by
    have hl' : t.arr.length = n + 1 + ms.length := by simp at hl; omega
    have ih := construct_same (fmt := fmt) h.tail hm hl'
    simp only [construct, List.map_cons, SJ.construct]
    cases hc : construct fmt nm a (n + 1) ms t with
    | error e => rw [hc] at ih; simp only at ih ⊢; rw [ih]
    | ok t' =>
      rw [hc] at ih; simp only at ih ⊢
      rw [ih]
      obtain ⟨_, rfl⟩ := construct_tables h.tail hm hl' hc
      have h1 := tbl_find_none (nm := nm) (y := i.name) h.tail
      have h2 := table_find_none (x := i.name) (n := n + 1) (is := ms.map (·.1))
      have h3 : (∀ x ∈ ms, x.1.name.cppEq i.name = false) ↔ ∀ x ∈ ms.map (·.1), x.name.cppEq i.name = false := by simp
      simp only [KeyMap.insert, NameMap.insert]
      cases hf : (tbl a (n + 1) ms).find nm i.name with
      | some q =>
        cases hg : (table (n + 1) (ms.map (·.1))).find i.name with
        | some r => rfl
        | none => rw [h1.2 (h3.2 (h2.1 hg))] at hf; cases hf
      | none =>
        cases hg : (table (n + 1) (ms.map (·.1))).find i.name with
        | some r => rw [h2.2 (h3.1 (h1.1 hf))] at hg; cases hg
        | none => rfl

/-- C32, for parsers in memory: the constructors of objects and unions throw exactly if two members have equal names (compared as `operator==` does), and
the text names the last member that has an equal one after it. -/
theorem C32_new_object (fmt : Dbl → String) (mem : Names) (a : Addr) (k : ObjKind) (err : Bool) (ms : List (MInfo × Slot)) (cb : Cbs) (e : String) :
    newObject fmt mem a k err ms cb = .error e ↔
    ∃ (n : Nat) (x : MInfo), (ms.map (·.1))[n]? = some x ∧ (∃ b, SameName (ms.map (·.1)) n b) ∧ (∀ n' b, n < n' → ¬ SameName (ms.map (·.1)) n' b) ∧
      e = "Member " ++ showName fmt x.name ++ " appears more, than once" := by
  rw [← C32_duplicate]
  have h := construct_same (fmt := fmt) (t := { arr := (moveMembers mem a 0 ms).map fun _ => none }) (has_namesAt mem a (moveMembers mem a 0 ms)) rfl (by simp)
  rw [moveMembers_names] at h
  simp only [newObject]
  cases hc : construct fmt (namesAt mem a (moveMembers mem a 0 ms)) a 0 (moveMembers mem a 0 ms) { arr := (moveMembers mem a 0 ms).map fun _ => none } with
  | error e' => rw [hc] at h; simp only at h; rw [h]; constructor <;> intro h' <;> cases h' <;> rfl
  | ok t => rw [hc] at h; simp only at h; rw [h]; simp

theorem C32_new_union (fmt : Dbl → String) (mem : Names) (a : Addr) (ty : ScalarTy) (tm : String) (st : Bool) (ms : List (MInfo × Slot)) (cb : Cbs) (e : String) :
    newUnion fmt mem a ty tm st ms cb = .error e ↔
    ∃ (n : Nat) (x : MInfo), (ms.map (·.1))[n]? = some x ∧ (∃ b, SameName (ms.map (·.1)) n b) ∧ (∀ n' b, n < n' → ¬ SameName (ms.map (·.1)) n' b) ∧
      e = "Member " ++ showName fmt x.name ++ " appears more, than once" := by
  rw [← C32_duplicate]
  have h := construct_same (fmt := fmt) (t := { arr := (moveMembers mem a 0 ms).map fun _ => none }) (has_namesAt mem a (moveMembers mem a 0 ms)) rfl (by simp)
  rw [moveMembers_names] at h
  simp only [newUnion]
  cases hc : construct fmt (namesAt mem a (moveMembers mem a 0 ms)) a 0 (moveMembers mem a 0 ms) { arr := (moveMembers mem a 0 ms).map fun _ => none } with
  | error e' => rw [hc] at h; simp only at h; rw [h]; constructor <;> intro h' <;> cases h' <;> rfl
  | ok t => rw [hc] at h; simp only at h; rw [h]; simp

section Examples

/-- C32_new_object -/
example (mem : Names) (a : Addr) (sl : Slot) (cb : Cbs) :
    newObject (fun _ => "") mem a .auto true [({ name := .str "a" }, sl), ({ name := .str "b" }, sl), ({ name := .str "a" }, sl)] cb =
      .error "Member a appears more, than once" :=
  (C32_new_object _ _ _ _ _ _ _ _).2 ⟨0, _, rfl, ⟨2, _, _, rfl, rfl, by decide, by simp only [Scalar.cppEq]; decide⟩, by
    intro a' b hlt ⟨x, y, hx, hy, hab, he⟩
    have hb : b < 3 := (List.getElem?_eq_some_iff.1 hy).1
    obtain rfl : a' = 1 := by omega
    obtain rfl : b = 2 := by omega
    cases hx; cases hy; revert he; simp only [Scalar.cppEq]; decide, rfl⟩

def nowhere : Names := fun _ _ => none
def at' (n : Nat) : Addr := ⟨n, []⟩
def fmt0 : Dbl → String := fun _ => ""

/-- `Value<int64_t>` and `SArray{Value<std::string>}`, then `Object{tuple{Member{"id", ...}, Member{"tags", ...}}}`, constructed at address 2. -/
def vInt : Parser := newValue .int { finish := some 1 }
def sTags : Parser := newArray nowhere (at' 1) true (.own (newValue .str {})) {}
def pair (id tags : String) : List (MInfo × Slot) := [({ name := .str id }, .own vInt), ({ name := .str tags, optional := true }, .own sTags)]
def pObj (n : Nat) (id tags : String) : Parser :=
  match newObject fmt0 nowhere (at' n) .plain true (pair id tags) {} with
  | .ok o => o
  | .error _ => vInt

theorem pair_occurs (id tags : String) : OccursMs false (pair id tags) :=
  .cons (.own (a := at' 0) .value) (.cons (.own (a := at' 1) (.array (.own (a := at' 0) .value))) .nil)

theorem pObj_occurs : Occurs false (at' 2) (pObj 2 "id" "tags") :=
  .object (fmt := fmt0) (mem := nowhere) (k := .plain) (err := true) (cb := {}) (pair_occurs "id" "tags") rfl
theorem pObj_occurs' : Occurs false (at' 5) (pObj 5 "nr" "id") :=
  .object (fmt := fmt0) (mem := nowhere) (k := .plain) (err := true) (cb := {}) (pair_occurs "nr" "id") rfl

/-- It is moved to address 3, from there into an `Array` at address 4; another object with other names is
constructed at address 5 and the one at 3 is assigned to it. -/
def arrOf : Parser := newArray nowhere (at' 4) false (.own (move nowhere (at' 3) (pObj 2 "id" "tags"))) {}
theorem arrOf_occurs : Occurs false (at' 4) arrOf := .array (.own (.moved (a := at' 3) pObj_occurs))
def assigned : Parser := assign nowhere (at' 5) (move nowhere (at' 3) (pObj 2 "id" "tags")) (pObj 5 "nr" "id")
theorem assigned_occurs : Occurs false (at' 5) assigned := .assigned (.moved (a := at' 3) pObj_occurs) pObj_occurs' rfl

/-- C33_pointers: in the array the object's name `id` leads to the member inside the array (not to the places the object was at before). -/
example : ∃ k err c cb t ign ms, arrOf.sub [.elem] = some (.object k err c cb t ign ms) ∧
    t.map.find (namesAt nowhere ((at' 4).down [.elem]) ms) (.str "id") = some ⟨4, [.mem 0, .elem]⟩ :=
  ⟨_, _, _, _, _, _, _, rfl, (C33_pointers arrOf_occurs (q := [.elem]) rfl nowhere).1 (.str "id")⟩
/-- After the assignment `id` is the first member, not the second one as before, and `nr` is unknown. -/
example : ∃ k err c cb t ign ms, assigned = .object k err c cb t ign ms ∧
    t.map.find (namesAt nowhere (at' 5) ms) (.str "id") = some ⟨5, [.mem 0]⟩ ∧
    t.map.find (namesAt nowhere (at' 5) ms) (.str "nr") = none :=
  ⟨_, _, _, _, _, _, _, rfl, (C33_pointers assigned_occurs (q := []) rfl nowhere).1 (.str "id"), (C33_pointers assigned_occurs (q := []) rfl nowhere).1 (.str "nr")⟩
/-- Without the look-up of the names at their new place (keys copied from the source) the name would be read from the old one. -/
example : (KeyMap.find (t := [(Key.view (at' 2) 0, ⟨5, [.mem 0]⟩)]) (namesAt nowhere (at' 5) (pair "id" "tags")) (.str "id")) = none := rfl
/-- C33_assigned_content, C33_initial. -/
example : (assigned.sub [.mem 1, .elem]).isSome = true := rfl
example : sameType (move nowhere (at' 3) (pObj 2 "id" "tags")) (pObj 5 "nr" "id") = true := rfl
example (σ : Addr → List Step → Cell) (h : ∀ b q, σ b q = {}) (ρ : Addr → Shape) :
    ({ heap := attach (assigned.shape ρ) (assigned.heap σ), stack := [[]], log := [] } : St) = St.init (assigned.shape ρ) :=
  C33_initial assigned_occurs ρ σ h

/-- C33_numbers, C33_shared_parser: a union with two parsers of its own, and one whose members refer to the same parser at address 9. -/
def uni (ms : List (MInfo × Slot)) : Parser :=
  match newUnion fmt0 nowhere (at' 6) .int "type" false ms {} with
  | .ok o => o
  | .error _ => vInt
def two : List (MInfo × Slot) := [({ name := .int 1 }, .own (pObj 2 "id" "tags")), ({ name := .int 2 }, .own (pObj 5 "nr" "id"))]
def twice : List (MInfo × Slot) := [({ name := .int 1 }, .ref (at' 9)), ({ name := .int 2 }, .ref (at' 9))]
theorem two_occurs : Occurs false (at' 6) (uni two) :=
  .union (fmt := fmt0) (mem := nowhere) (ty := .int) (tm := "type") (st := false) (ms := two) (cb := {}) (.cons (.own pObj_occurs) (.cons (.own pObj_occurs') .nil)) rfl
theorem twice_occurs : Occurs false (at' 6) (uni twice) :=
  .union (fmt := fmt0) (mem := nowhere) (ty := .int) (tm := "type") (st := false) (ms := twice) (cb := {}) (.cons .ref (.cons .ref .nil)) rfl
example : ∃ ids, (∃ ty tm st c cb t ign ms, (move nowhere (at' 7) (uni two)) = .union ty tm st c cb t ids ign ms) ∧
    idOf ids ⟨7, [.mem 1]⟩ = some 1 :=
  ⟨_, ⟨_, _, _, _, _, _, _, _, rfl⟩, C33_numbers (.moved (a := at' 7) two_occurs) (q := []) rfl
    (C33_distinct (by simp [moveMembers, two, moveSlot])) (n := 1) rfl⟩
example : ∃ ids, (∃ ty tm st c cb t ign ms, uni twice = .union ty tm st c cb t ids ign ms) ∧ idOf ids (at' 9) ≠ some 0 :=
  ⟨_, ⟨_, _, _, _, _, _, _, _, rfl⟩, C33_shared_parser twice_occurs (q := []) rfl (m := 0) (n := 1) rfl rfl (by omega) rfl rfl⟩

/-- C33_moved_reads: the array (of objects) above, unused. -/
example : Ready (arrOf.shape fun _ => .ignore) { heap := attach (arrOf.shape fun _ => .ignore) (arrOf.heap fun _ _ => {}), stack := [[]], log := [] } := by
  rw [C33_initial arrOf_occurs _ _ fun _ _ => rfl]; exact Ready.init _
example : (arrOf.shape fun _ => .ignore).wf = true ∧
    okVal (arrOf.shape fun _ => .ignore) (.arr [.obj [("id", .sc (.int 1)), ("tags", .arr [.sc (.str "a")])]]) = true := by decide +kernel

end Examples

end SJ.Obj
