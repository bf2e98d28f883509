/-
The pointers of every parser object follow the tree (`Verif/SpecMoves.lean`).
-/
import Verif.SpecMoves
import Verif.Props.Api

set_option linter.unusedVariables false

namespace SJ.Obj

/-! ## The tables -/

/-- No two members have equal names. -/
abbrev NoSame (ms : List (MInfo × Slot)) : Prop := ∀ a b, ¬ SameName (ms.map (·.1)) a b

/-- The entries a registration makes. -/
def tbl (a : Addr) (n : Nat) : List (MInfo × Slot) → KeyMap
  | [] => []
  | (i, sl) :: ms => (keyOf a n i.name, sl.addr (a.step (.mem n))) :: tbl a (n + 1) ms

/-- The addresses of the members. -/
def addrs (a : Addr) (n : Nat) : List (MInfo × Slot) → List (Option Addr)
  | [] => []
  | (i, sl) :: ms => some (sl.addr (a.step (.mem n))) :: addrs a (n + 1) ms

/-- `nm` has the names of the members `ms`, the first of which has index `n`. -/
def Has (nm : Names) (a : Addr) (n : Nat) (ms : List (MInfo × Slot)) : Prop :=
  ∀ (k : Nat) x, ms[k]? = some x → nm a (n + k) = some x.1.name

theorem Has.tail {nm a n x ms} (h : Has nm a n (x :: ms)) : Has nm a (n + 1) ms := fun k y hk => by
  have := h (k + 1) y (by simpa using hk)
  rw [← this]; congr 1; omega

theorem Has.head {nm a n x ms} (h : Has nm a n (x :: ms)) : nm a n = some x.1.name := h 0 x rfl

theorem has_namesAt (mem : Names) (a : Addr) (ms : List (MInfo × Slot)) : Has (namesAt mem a ms) a 0 ms := fun k x hk => by
  simp [namesAt, hk]

theorem keyOf_is {nm : Names} {a n name y} (h : nm a n = some name) : (keyOf a n name).is nm y = name.cppEq y := by
  cases name <;> simp [keyOf, Key.is, Key.read, h]

theorem tbl_find {nm y} : ∀ {ms : List (MInfo × Slot)} {a n}, Has nm a n ms → (tbl a n ms).find nm y =
    (firstNamed y n ms).bind fun k => ms[k - n]?.map fun x => x.2.addr (a.step (.mem k))
  | [], a, n, h => rfl
  | (i, sl) :: ms, a, n, h => by
    have ih := tbl_find (nm := nm) (y := y) h.tail
    have hk := keyOf_is (y := y) h.head
    unfold KeyMap.find at ih ⊢
    simp only [tbl, List.find?_cons, hk, firstNamed]
    cases hc : i.name.cppEq y with
    | true => simp
    | false =>
      simp only [Bool.false_eq_true, if_false, ih]
      have hge : ∀ (ms : List (MInfo × Slot)) (n k : Nat), firstNamed y n ms = some k → n ≤ k := by
        intro ms
        induction ms with
        | nil => intro n k h; simp [firstNamed] at h
        | cons x ms ih =>
          intro n k h
          simp only [firstNamed] at h
          split at h
          · injection h with h; omega
          · have := ih _ _ h; omega
      cases hf : firstNamed y (n + 1) ms with
      | none => rfl
      | some k =>
        have := hge _ _ _ hf
        simp only [Option.bind_some]
        obtain ⟨j, rfl⟩ : ∃ j, k = n + 1 + j := ⟨k - (n + 1), by omega⟩
        have e1 : n + 1 + j - (n + 1) = j := by omega
        have e2 : n + 1 + j - n = j + 1 := by omega
        rw [e1, e2]; simp

theorem tbl_find_none {nm y} : ∀ {ms : List (MInfo × Slot)} {a n}, Has nm a n ms →
    ((tbl a n ms).find nm y = none ↔ ∀ x ∈ ms, x.1.name.cppEq y = false)
  | [], a, n, h => by simp [tbl, KeyMap.find]
  | (i, sl) :: ms, a, n, h => by
    have ih := tbl_find_none (nm := nm) (y := y) h.tail
    have hk := keyOf_is (y := y) h.head
    unfold KeyMap.find at ih ⊢
    simp only [tbl, List.find?_cons, hk]
    cases hc : i.name.cppEq y with
    | true => simp [hc]
    | false => simp only [List.mem_cons, forall_eq_or_imp, hc, true_and]; exact ih

theorem noSame_tail {x ms} (h : NoSame (x :: ms)) : NoSame ms := fun a b hab => by
  obtain ⟨y, z, h1, h2, h3, h4⟩ := hab
  exact h (a + 1) (b + 1) ⟨y, z, by simpa using h1, by simpa using h2, by omega, h4⟩

theorem noSame_head {i sl ms} (h : NoSame ((i, sl) :: ms)) : ∀ x ∈ ms, x.1.name.cppEq i.name = false := by
  intro x hx
  obtain ⟨b, hb⟩ := List.getElem?_of_mem hx
  cases hc : x.1.name.cppEq i.name with
  | false => rfl
  | true => exact absurd ⟨i, x.1, by simp, by simp [hb], by omega, by rw [cppEq_comm]; exact hc⟩ (h 0 (b + 1))

theorem noSame_cons {i sl ms} (h : NoSame ms) (h1 : ∀ x ∈ ms, x.1.name.cppEq i.name = false) : NoSame ((i, sl) :: ms) := by
  rintro a b ⟨x, y, h2, h3, h4, h5⟩
  cases b with
  | zero => omega
  | succ b =>
    cases a with
    | zero =>
      simp at h2; subst h2
      simp only [List.map_cons, List.getElem?_cons_succ, List.getElem?_map, Option.map_eq_some_iff] at h3
      obtain ⟨z, h3, rfl⟩ := h3
      have := h1 z (List.mem_of_getElem? h3)
      rw [cppEq_comm] at this; simp [this] at h5
    | succ a => exact h a b ⟨x, y, by simpa using h2, by simpa using h3, by omega, h5⟩

theorem set_take {α} {l : List α} {n : Nat} {x : α} {r : List α} (h : n < l.length) : (l.take (n + 1) ++ r).set n x = l.take n ++ x :: r := by
  rw [List.take_succ_eq_append_getElem h, List.append_assoc, List.set_append]
  have : (l.take n).length = n := by simp; omega
  simp [this]

theorem register_tables {nm a} : ∀ {ms : List (MInfo × Slot)} {n} {t : Tables}, Has nm a n ms → NoSame ms → t.map = [] →
    t.arr.length = n + ms.length →
    registerParsers nm a n ms t = { arr := t.arr.take n ++ addrs a n ms, map := tbl a n ms }
  | [], n, t, h, hs, hm, hl => by
    cases t with
    | mk arr map =>
      simp only [List.length_nil, Nat.add_zero] at hl
      simp only [registerParsers, addrs, tbl, List.append_nil]
      simp only at hm hl
      subst hm; rw [← hl, List.take_length]
  | (i, sl) :: ms, n, t, h, hs, hm, hl => by
    have hl : t.arr.length = n + ms.length + 1 := by simp at hl; omega
    have ih := register_tables (t := t) h.tail (noSame_tail hs) hm (by omega)
    have hnone := (tbl_find_none (nm := nm) (y := i.name) h.tail).2 (noSame_head hs)
    simp only [registerParsers, ih, KeyMap.assign, hnone, tbl, addrs]
    rw [set_take (by omega)]

theorem construct_tables {fmt nm a} : ∀ {ms : List (MInfo × Slot)} {n} {t t' : Tables}, Has nm a n ms → t.map = [] →
    t.arr.length = n + ms.length → construct fmt nm a n ms t = .ok t' →
    NoSame ms ∧ t' = { arr := t.arr.take n ++ addrs a n ms, map := tbl a n ms }
  | [], n, t, t', h, hm, hl, hc => by
    refine ⟨fun a b hab => by obtain ⟨x, y, h1, _⟩ := hab; simp at h1, ?_⟩
    simp only [construct] at hc
    injection hc with hc; subst hc
    cases t with
    | mk arr map =>
      simp only [List.length_nil, Nat.add_zero] at hl
      simp only at hm hl
      subst hm; simp only [addrs, tbl, List.append_nil]; rw [← hl, List.take_length]
  | (i, sl) :: ms, n, t, t', h, hm, hl, hc => by
    have hl : t.arr.length = n + ms.length + 1 := by simp at hl; omega
    simp only [construct] at hc
    cases h0 : construct fmt nm a (n + 1) ms t with
    | error e => rw [h0] at hc; simp at hc
    | ok t0 =>
      rw [h0] at hc
      obtain ⟨h1, h2⟩ := construct_tables h.tail hm (by omega) h0
      subst h2
      simp only [KeyMap.insert] at hc
      cases hf : (tbl a (n + 1) ms).find nm i.name with
      | some p => rw [hf] at hc; simp at hc
      | none =>
        rw [hf] at hc
        simp only at hc
        injection hc with hc
        refine ⟨noSame_cons h1 ((tbl_find_none h.tail).1 hf), ?_⟩
        rw [← hc, set_take (by omega)]; rfl

theorem addrs_mapIdx : ∀ (ms : List (MInfo × Slot)) (a : Addr) (n : Nat),
    addrs a n ms = ms.mapIdx fun k x => some (x.2.addr (a.step (.mem (n + k))))
  | [], a, n => rfl
  | (i, sl) :: ms, a, n => by
    simp only [addrs, List.mapIdx_cons, addrs_mapIdx ms a (n + 1)]
    congr 1
    apply congrArg (fun f => List.mapIdx f ms)
    funext k x; congr 4; omega

theorem tbl_mapIdx : ∀ (ms : List (MInfo × Slot)) (a : Addr) (n : Nat),
    (tbl a n ms).map (·.2) = ms.mapIdx fun k x => x.2.addr (a.step (.mem (n + k)))
  | [], a, n => rfl
  | (i, sl) :: ms, a, n => by
    simp only [tbl, List.map_cons, List.mapIdx_cons, tbl_mapIdx ms a (n + 1)]
    congr 1
    apply congrArg (fun f => List.mapIdx f ms)
    funext k x; congr 3; omega

/-! ## The invariant -/

mutual
/-- No object or union in the tree has two members with equal names. -/
def NamesOk : Parser → Prop
  | .value _ _ _ => True
  | .array _ _ _ _ e => NamesOkSlot e
  | .map _ _ _ e => NamesOkSlot e
  | .object _ _ _ _ _ _ ms => NoSame ms ∧ NamesOkMs ms
  | .union _ _ _ _ _ _ _ _ ms => NoSame ms ∧ NamesOkMs ms
def NamesOkSlot : Slot → Prop
  | .own o => NamesOk o
  | .ref _ => True
def NamesOkMs : List (MInfo × Slot) → Prop
  | [] => True
  | (_, sl) :: ms => NamesOkSlot sl ∧ NamesOkMs ms
end

mutual
/-- All pointers in the tree at `a` are as set up for it. -/
def Linked (a : Addr) : Parser → Prop
  | .value _ _ _ => True
  | .array _ _ _ ptr e => ptr = some (e.addr (a.step .elem)) ∧ LinkedSlot (a.step .elem) e
  | .map _ _ _ e => LinkedSlot (a.step .elem) e
  | .object _ _ _ _ t _ ms => NoSame ms ∧ t = { arr := addrs a 0 ms, map := tbl a 0 ms } ∧ LinkedMs a 0 ms
  | .union _ _ _ _ _ t ids _ ms =>
    NoSame ms ∧ t = { arr := addrs a 0 ms, map := tbl a 0 ms } ∧ ids = setupIds (addrs a 0 ms) [] ∧ LinkedMs a 0 ms
def LinkedSlot (here : Addr) : Slot → Prop
  | .own o => Linked here o
  | .ref _ => True
def LinkedMs (a : Addr) (n : Nat) : List (MInfo × Slot) → Prop
  | [] => True
  | (_, sl) :: ms => LinkedSlot (a.step (.mem n)) sl ∧ LinkedMs a (n + 1) ms
end

mutual
theorem Linked.names {a : Addr} : ∀ {o : Parser}, Linked a o → NamesOk o
  | .value _ _ _, h => trivial
  | .array _ _ _ _ e, h => LinkedSlot.names h.2
  | .map _ _ _ e, h => LinkedSlot.names (by rw [Linked] at h; exact h)
  | .object _ _ _ _ _ _ ms, h => ⟨h.1, LinkedMs.names h.2.2⟩
  | .union _ _ _ _ _ _ _ _ ms, h => ⟨h.1, LinkedMs.names h.2.2.2⟩
theorem LinkedSlot.names {here : Addr} : ∀ {sl : Slot}, LinkedSlot here sl → NamesOkSlot sl
  | .own o, h => Linked.names (by rw [LinkedSlot] at h; exact h)
  | .ref _, h => trivial
theorem LinkedMs.names {a : Addr} : ∀ {n : Nat} {ms : List (MInfo × Slot)}, LinkedMs a n ms → NamesOkMs ms
  | n, [], h => trivial
  | n, (_, sl) :: ms, h => ⟨LinkedSlot.names h.1, LinkedMs.names h.2⟩
end

theorem moveMembers_names {mem : Names} {a : Addr} : ∀ {n : Nat} {ms : List (MInfo × Slot)},
    (moveMembers mem a n ms).map (·.1) = ms.map (·.1)
  | n, [] => by simp [moveMembers]
  | n, (i, sl) :: ms => by simp [moveMembers, moveMembers_names]

theorem setupIds_old (arr : List (Option Addr)) (old : List (Addr × Nat)) : setupIds arr old = setupIds arr [] := by
  have h : (old.filter fun _ => false) = [] := by simp
  simp only [setupIds, h, List.filter_nil]

theorem register_full {mem : Names} {a : Addr} {ms : List (MInfo × Slot)} (t : Tables) (hm : t.map = []) (hs : NoSame ms)
    (hl : t.arr.length = ms.length) :
    registerParsers (namesAt mem a ms) a 0 ms t = { arr := addrs a 0 ms, map := tbl a 0 ms } := by
  rw [register_tables (has_namesAt mem a ms) hs hm (by omega)]; simp

mutual
theorem move_linked {mem : Names} {a : Addr} : ∀ {o : Parser}, NamesOk o → Linked a (move mem a o)
  | .value _ _ _, h => by simp only [move, Linked]
  | .array _ _ _ _ e, h => by
    rw [NamesOk] at h
    simp only [move, Linked]
    exact ⟨trivial, moveSlot_linked h⟩
  | .map _ _ _ e, h => by
    rw [NamesOk] at h
    simp only [move, Linked]
    exact moveSlot_linked h
  | .object _ _ _ _ _ _ ms, h => by
    have hs : NoSame (moveMembers mem a 0 ms) := by rw [NoSame, moveMembers_names]; exact h.1
    simp only [move, Linked]
    exact ⟨hs, register_full _ rfl hs (by simp), moveMembers_linked h.2⟩
  | .union _ _ _ _ _ _ _ _ ms, h => by
    have hs : NoSame (moveMembers mem a 0 ms) := by rw [NoSame, moveMembers_names]; exact h.1
    simp only [move, Linked]
    rw [register_full _ rfl hs (by simp)]
    exact ⟨hs, rfl, rfl, moveMembers_linked h.2⟩
theorem moveSlot_linked {mem : Names} {here : Addr} : ∀ {sl : Slot}, NamesOkSlot sl → LinkedSlot here (moveSlot mem here sl)
  | .own o, h => by rw [NamesOkSlot] at h; simp only [moveSlot, LinkedSlot]; exact move_linked h
  | .ref _, h => by simp only [moveSlot, LinkedSlot]
theorem moveMembers_linked {mem : Names} {a : Addr} : ∀ {n : Nat} {ms : List (MInfo × Slot)}, NamesOkMs ms →
    LinkedMs a n (moveMembers mem a n ms)
  | n, [], h => by simp only [moveMembers, LinkedMs]
  | n, (_, sl) :: ms, h => by
    simp only [moveMembers, LinkedMs]
    exact ⟨moveSlot_linked h.1, moveMembers_linked h.2⟩
end

theorem assignMembers_names {mem : Names} {a : Addr} : ∀ {n : Nat} {ms ms' : List (MInfo × Slot)}, sameMembers ms ms' = true →
    (assignMembers mem a n ms ms').map (·.1) = ms.map (·.1)
  | n, [], [], h => by simp [assignMembers]
  | n, [], _ :: _, h => by simp [sameMembers] at h
  | n, _ :: _, [], h => by simp [sameMembers] at h
  | n, (i, sl) :: ms, (i', sl') :: ms', h => by
    simp only [sameMembers, Bool.and_eq_true] at h
    simp [assignMembers, assignMembers_names h.2]

theorem sameMembers_length : ∀ {ms ms' : List (MInfo × Slot)}, sameMembers ms ms' = true → ms.length = ms'.length
  | [], [], h => rfl
  | [], _ :: _, h => by simp [sameMembers] at h
  | _ :: _, [], h => by simp [sameMembers] at h
  | (i, sl) :: ms, (i', sl') :: ms', h => by
    simp only [sameMembers, Bool.and_eq_true] at h
    simp [sameMembers_length h.2]

theorem addrs_length {a : Addr} : ∀ {ms : List (MInfo × Slot)} {n}, (addrs a n ms).length = ms.length
  | [], n => rfl
  | (i, sl) :: ms, n => by simp [addrs, addrs_length]

theorem length_of_names {ms ms' : List (MInfo × Slot)} (h : ms.map (·.1) = ms'.map (·.1)) : ms.length = ms'.length := by
  have := congrArg List.length h; simpa using this

mutual
theorem assign_linked {mem : Names} {a : Addr} : ∀ {o dst : Parser}, NamesOk o → Linked a dst → sameType o dst = true →
    Linked a (assign mem a o dst)
  | .value _ _ _, dst, h, hd, ht => by
    cases dst <;> simp only [sameType, Bool.false_eq_true] at ht
    simp only [assign, Linked]
  | .array _ _ _ _ e, dst, h, hd, ht => by
    cases dst <;> simp only [sameType, Bool.false_eq_true, Bool.and_eq_true] at ht
    rw [NamesOk] at h
    simp only [assign, Linked]
    exact ⟨trivial, assignSlot_linked h hd.2 ht.2⟩
  | .map _ _ _ e, dst, h, hd, ht => by
    cases dst <;> simp only [sameType, Bool.false_eq_true, Bool.and_eq_true] at ht
    rw [NamesOk] at h
    rw [Linked] at hd
    simp only [assign, Linked]
    exact assignSlot_linked h hd ht.2
  | .object _ _ _ _ _ _ ms, dst, h, hd, ht => by
    cases dst <;> simp only [sameType, Bool.false_eq_true, Bool.and_eq_true] at ht
    rename_i ms'
    have hn := assignMembers_names (mem := mem) (a := a) (n := 0) ht.2
    have hs : NoSame (assignMembers mem a 0 ms ms') := by rw [NoSame, hn]; exact h.1
    obtain ⟨h1, h2, h3⟩ := hd
    subst h2
    have hl : (addrs a 0 ms').length = (assignMembers mem a 0 ms ms').length := by
      rw [addrs_length, ← sameMembers_length ht.2]; exact (length_of_names hn).symm
    simp only [assign, Linked]
    exact ⟨hs, register_full _ rfl hs hl, assignMembers_linked h.2 h3 ht.2⟩
  | .union _ _ _ _ _ _ _ _ ms, dst, h, hd, ht => by
    cases dst <;> simp only [sameType, Bool.false_eq_true, Bool.and_eq_true] at ht
    rename_i ms'
    have hn := assignMembers_names (mem := mem) (a := a) (n := 0) ht.2
    have hs : NoSame (assignMembers mem a 0 ms ms') := by rw [NoSame, hn]; exact h.1
    obtain ⟨h1, h2, _, h3⟩ := hd
    subst h2
    have hl : (addrs a 0 ms').length = (assignMembers mem a 0 ms ms').length := by
      rw [addrs_length, ← sameMembers_length ht.2]; exact (length_of_names hn).symm
    simp only [assign, Linked]
    rw [register_full _ rfl hs hl, setupIds_old]
    exact ⟨hs, rfl, rfl, assignMembers_linked h.2 h3 ht.2⟩
theorem assignSlot_linked {mem : Names} {here : Addr} : ∀ {sl sl' : Slot}, NamesOkSlot sl → LinkedSlot here sl' → sameSlot sl sl' = true →
    LinkedSlot here (assignSlot mem here sl sl')
  | .own o, .own o', h, hd, ht => by
    rw [NamesOkSlot] at h; rw [LinkedSlot] at hd; rw [sameSlot] at ht
    simp only [assignSlot, LinkedSlot]; exact assign_linked h hd ht
  | .own o, .ref _, h, hd, ht => by simp [sameSlot] at ht
  | .ref _, _, h, hd, ht => by simp [sameSlot] at ht
theorem assignMembers_linked {mem : Names} {a : Addr} : ∀ {n : Nat} {ms ms' : List (MInfo × Slot)}, NamesOkMs ms → LinkedMs a n ms' →
    sameMembers ms ms' = true → LinkedMs a n (assignMembers mem a n ms ms')
  | n, [], [], h, hd, ht => by simp only [assignMembers, LinkedMs]
  | n, [], _ :: _, h, hd, ht => by simp [sameMembers] at ht
  | n, _ :: _, [], h, hd, ht => by simp [sameMembers] at ht
  | n, (i, sl) :: ms, (i', sl') :: ms', h, hd, ht => by
    simp only [sameMembers, Bool.and_eq_true] at ht
    simp only [assignMembers, LinkedMs]
    exact ⟨assignSlot_linked h.1 hd.1 ht.1, assignMembers_linked h.2 hd.2 ht.2⟩
end

theorem sameMs_names : ∀ {ms ms' : List (MInfo × Slot)}, SameMs ms ms' → ms'.map (·.1) = ms.map (·.1)
  | _, _, .nil => rfl
  | _, _, .cons _ h => by simp [sameMs_names h]

theorem sameSlot_addr {here : Addr} : ∀ {sl sl' : Slot}, SameSlot sl sl' → sl'.addr here = sl.addr here
  | _, _, .own _ => rfl
  | _, _, .ref => rfl

theorem sameMs_tbl {a : Addr} : ∀ {n : Nat} {ms ms' : List (MInfo × Slot)}, SameMs ms ms' → tbl a n ms' = tbl a n ms ∧ addrs a n ms' = addrs a n ms
  | n, _, _, .nil => ⟨rfl, rfl⟩
  | n, _, _, .cons h1 h => by
    have := sameMs_tbl (a := a) (n := n + 1) h
    simp [tbl, addrs, this.1, this.2, sameSlot_addr h1]

mutual
theorem sameBut_linked {a : Addr} : ∀ {o o' : Parser}, SameBut o o' → Linked a o → Linked a o'
  | _, _, .value, h => by simp only [Linked]
  | _, _, .array hs, h => by
    simp only [Linked] at h ⊢
    rw [sameSlot_addr hs]; exact ⟨h.1, sameSlot_linked hs h.2⟩
  | _, _, .map hs, h => by simp only [Linked] at h ⊢; exact sameSlot_linked hs h
  | _, _, .object hs, h => by
    simp only [Linked] at h ⊢
    obtain ⟨h1, h2, h3⟩ := h
    rw [NoSame, sameMs_names hs, (sameMs_tbl hs).1, (sameMs_tbl hs).2]
    exact ⟨h1, h2, sameMs_linked hs h3⟩
  | _, _, .union hs, h => by
    simp only [Linked] at h ⊢
    obtain ⟨h1, h2, h3, h4⟩ := h
    rw [NoSame, sameMs_names hs, (sameMs_tbl hs).1, (sameMs_tbl hs).2]
    exact ⟨h1, h2, h3, sameMs_linked hs h4⟩
theorem sameSlot_linked {here : Addr} : ∀ {sl sl' : Slot}, SameSlot sl sl' → LinkedSlot here sl → LinkedSlot here sl'
  | _, _, .own hs, h => by simp only [LinkedSlot] at h ⊢; exact sameBut_linked hs h
  | _, _, .ref, h => by simp only [LinkedSlot]
theorem sameMs_linked {a : Addr} : ∀ {n : Nat} {ms ms' : List (MInfo × Slot)}, SameMs ms ms' → LinkedMs a n ms → LinkedMs a n ms'
  | n, _, _, .nil, h => h
  | n, _, _, .cons h1 h2, h => ⟨sameSlot_linked h1 h.1, sameMs_linked h2 h.2⟩
end

mutual
theorem Occurs.linked {u : Bool} : ∀ {a : Addr} {o : Parser}, Occurs u a o → Linked a o
  | _, _, .value => by simp only [newValue, Linked]
  | _, _, .array h => by simp only [newArray, Linked]; exact ⟨trivial, moveSlot_linked (OccursSlot.names h)⟩
  | _, _, .map h => by simp only [newMap, Linked]; exact moveSlot_linked (OccursSlot.names h)
  | a, _, .object (mem := mem) (ms := ms) h ho => by
    simp only [newObject] at ho
    split at ho
    · simp at ho
    · rename_i t ht
      injection ho with ho; subst ho
      obtain ⟨h1, h2⟩ := construct_tables (has_namesAt mem a _) rfl (by simp) ht
      simp only [Linked]
      exact ⟨h1, by rw [h2]; simp, moveMembers_linked (OccursMs.names h)⟩
  | a, _, .union (mem := mem) (ms := ms) h ho => by
    simp only [newUnion] at ho
    split at ho
    · simp at ho
    · rename_i t ht
      injection ho with ho; subst ho
      obtain ⟨h1, h2⟩ := construct_tables (has_namesAt mem a _) rfl (by simp) ht
      simp only [Linked]
      refine ⟨h1, by rw [h2]; simp, by rw [h2]; simp, moveMembers_linked (OccursMs.names h)⟩
  | _, _, .moved h => move_linked (Occurs.linked h).names
  | _, _, .assigned h h' ht => assign_linked (Occurs.linked h).names (Occurs.linked h') ht
  | _, _, .used _ h hs => sameBut_linked hs (Occurs.linked h)
theorem OccursSlot.names {u : Bool} : ∀ {sl : Slot}, OccursSlot u sl → NamesOkSlot sl
  | _, .own h => by simp only [NamesOkSlot]; exact (Occurs.linked h).names
  | _, .ref => by simp only [NamesOkSlot]
theorem OccursMs.names {u : Bool} : ∀ {ms : List (MInfo × Slot)}, OccursMs u ms → NamesOkMs ms
  | _, .nil => by simp only [NamesOkMs]
  | _, .cons h1 h2 => ⟨OccursSlot.names h1, OccursMs.names h2⟩
end

theorem linkedMs_get {a : Addr} : ∀ {n : Nat} {ms : List (MInfo × Slot)} {k : Nat} {x : MInfo × Slot}, LinkedMs a n ms → ms[k]? = some x →
    LinkedSlot (a.step (.mem (n + k))) x.2
  | n, [], k, x, h, hk => by simp at hk
  | n, (i, sl) :: ms, 0, x, h, hk => by simp at hk; subst hk; exact h.1
  | n, (i, sl) :: ms, k + 1, x, h, hk => by
    have := linkedMs_get h.2 (k := k) (x := x) (by simpa using hk)
    rw [show n + 1 + k = n + (k + 1) by omega] at this; exact this

theorem linked_slot {a : Addr} {o : Parser} {st sl} (h : Linked a o) (hs : o.slot st = some sl) : LinkedSlot (a.step st) sl := by
  cases o <;> cases st <;> simp only [Parser.slot, reduceCtorEq, Option.map_eq_some_iff, Option.some.injEq] at hs
  · subst hs; exact h.2
  · subst hs; rw [Linked] at h; exact h
  · obtain ⟨x, hx, rfl⟩ := hs; have := linkedMs_get h.2.2 hx; simpa using this
  · obtain ⟨x, hx, rfl⟩ := hs; have := linkedMs_get h.2.2.2 hx; simpa using this

theorem linked_sub : ∀ {q : List Step} {a : Addr} {o o' : Parser}, Linked a o → o.sub q = some o' → Linked (a.down q) o'
  | [], a, o, o', h, hs => by simp only [Parser.sub] at hs; injection hs with hs; subst hs; exact h
  | st :: q, a, o, o', h, hs => by
    simp only [Parser.sub] at hs
    split at hs
    · rename_i o1 h1
      have := linked_slot h h1
      rw [LinkedSlot] at this
      show Linked ((a.step st).down q) o'
      exact linked_sub this hs
    · simp at hs

theorem linked_follows {mem : Names} {a : Addr} {o : Parser} (h : Linked a o) : Follows mem a o := by
  have kv : ∀ (t : Tables) (ms : List (MInfo × Slot)), t = { arr := addrs a 0 ms, map := tbl a 0 ms } → Follows.FollowsKv mem a t ms := by
    rintro t ms rfl
    refine ⟨fun y => ?_, ?_, ?_⟩
    · have := tbl_find (y := y) (has_namesAt mem a ms)
      simpa using this
    · have := tbl_mapIdx ms a 0; simpa using this
    · have := addrs_mapIdx ms a 0; simpa using this
  cases o with
  | value => trivial
  | map => trivial
  | array => exact h.1
  | object => exact kv _ _ h.2.1
  | union => exact kv _ _ h.2.1

/-! ## The numbers of a union's members -/

theorem idOf_assign {ids : List (Addr × Nat)} {p q : Addr} {n : Nat} :
    idOf (idsAssign ids p n) q = if p = q then some n else idOf ids q := by
  unfold idsAssign
  have hmap : ∀ (l : List (Addr × Nat)), ((l.map fun e => if e.1 == p then (e.1, n) else e).find? fun e => e.1 == q).map (·.2) =
      if p = q then (l.find? fun e => e.1 == p).map fun _ => n else (l.find? fun e => e.1 == q).map (·.2) := by
    intro l
    induction l with
    | nil => simp
    | cons e l ih =>
      simp only [List.map_cons, List.find?_cons]
      by_cases hpq : p = q
      · subst hpq
        by_cases h : e.1 = p
        · simp [h]
        · simp only [beq_eq_false_iff_ne.2 h, Bool.false_eq_true, if_false, ih, if_true]
      · simp only [hpq, if_false] at ih ⊢
        by_cases h : e.1 = p
        · simp only [h, beq_self_eq_true, if_true]
          have : (p == q) = false := by simpa using hpq
          simp only [this, ih]
        · simp only [beq_eq_false_iff_ne.2 h, Bool.false_eq_true, if_false]
          split
          · rfl
          · exact ih
  split
  · rename_i v hv
    unfold idOf
    rw [hmap ids, hv]; simp
  · unfold idOf
    simp only [List.find?_cons]
    by_cases hpq : p = q
    · simp [hpq]
    · have : (p == q) = false := by simpa using hpq
      simp [this, hpq]

/-- The last index at which an address occurs. -/
def lastIdx (q : Addr) (n : Nat) : List (Option Addr) → Option Nat
  | [] => none
  | o :: l =>
    match lastIdx q (n + 1) l with
    | some k => some k
    | none => if o = some q then some n else none

theorem idOf_loop {q : Addr} : ∀ {arr : List (Option Addr)} {n ids}, idOf (idsLoop n arr ids) q = (lastIdx q n arr).or (idOf ids q)
  | [], n, ids => rfl
  | some p :: arr, n, ids => by
    simp only [idsLoop, idOf_loop, lastIdx, idOf_assign]
    cases lastIdx q (n + 1) arr with
    | some k => simp
    | none => by_cases h : p = q <;> simp [h]
  | none :: arr, n, ids => by
    simp only [idsLoop, idOf_loop, lastIdx]
    cases lastIdx q (n + 1) arr with
    | some k => simp
    | none => simp

theorem idOf_setup {q : Addr} {arr old} : idOf (setupIds arr old) q = lastIdx q 0 arr := by
  rw [setupIds_old]; simp only [setupIds, List.filter_nil, idOf_loop]; cases lastIdx q 0 arr <;> rfl

theorem lastIdx_spec {q : Addr} : ∀ {arr : List (Option Addr)} {n k : Nat}, lastIdx q n arr = some k ↔
    n ≤ k ∧ arr[k - n]? = some (some q) ∧ ∀ j, k < j → arr[j - n]? ≠ some (some q)
  | [], n, k => by simp [lastIdx]
  | o :: arr, n, k => by
    simp only [lastIdx]
    have ih : ∀ k, _ := fun k => lastIdx_spec (q := q) (arr := arr) (n := n + 1) (k := k)
    have shift : ∀ j, n < j → (o :: arr)[j - n]? = arr[j - (n + 1)]? := fun j hj => by
      rw [show j - n = j - (n + 1) + 1 by omega]; simp
    cases h : lastIdx q (n + 1) arr with
    | some k' =>
      obtain ⟨h1, h2, h3⟩ := (ih k').1 h
      simp only [Option.some.injEq]
      constructor
      · rintro rfl
        refine ⟨by omega, by rw [shift _ (by omega)]; exact h2, fun j hj => by rw [shift _ (by omega)]; exact h3 j hj⟩
      · rintro ⟨h4, h5, h6⟩
        by_cases hlt : k < k'
        · exact absurd (by rw [shift _ (by omega)]; exact h2) (h6 k' hlt)
        · by_cases hgt : k' < k
          · rw [shift _ (by omega)] at h5; exact absurd h5 (h3 k hgt)
          · omega
    | none =>
      have hno : ∀ j, n < j → (o :: arr)[j - n]? ≠ some (some q) := by
        intro j hj hc
        rw [shift _ hj] at hc
        -- there is a last occurrence at or after j
        have : ∀ (l : List (Option Addr)) (m i : Nat), l[i]? = some (some q) → lastIdx q m l ≠ none := by
          intro l
          induction l with
          | nil => intro m i h; simp at h
          | cons x l ihl =>
            intro m i h
            simp only [lastIdx]
            cases i with
            | zero =>
              simp at h; subst h
              cases lastIdx q (m + 1) l <;> simp
            | succ i =>
              have := ihl (m + 1) i (by simpa using h)
              cases h' : lastIdx q (m + 1) l with
              | none => exact absurd h' this
              | some k => simp
        exact this arr (n + 1) _ hc h
      constructor
      · intro hk
        by_cases ho : o = some q
        · simp only [ho, if_true, Option.some.injEq] at hk
          subst hk
          exact ⟨Nat.le_refl _, by simp [ho], fun j hj => hno j hj⟩
        · simp [ho] at hk
      · rintro ⟨h1, h2, h3⟩
        by_cases hk : n < k
        · exact absurd h2 (hno k hk)
        · have : k = n := by omega
          subst this
          simp at h2; simp [h2]

/-! ## The state -/

mutual
theorem move_shape {ρ : Addr → Shape} {mem : Names} {a : Addr} : ∀ {o : Parser}, (move mem a o).shape ρ = o.shape ρ
  | .value _ _ _ => by simp only [move, Parser.shape]
  | .array _ _ _ _ e => by simp only [move, Parser.shape, moveSlot_shape]
  | .map _ _ _ e => by simp only [move, Parser.shape, moveSlot_shape]
  | .object _ _ _ _ _ _ ms => by simp only [move, Parser.shape, moveMembers_shape]
  | .union _ _ _ _ _ _ _ _ ms => by simp only [move, Parser.shape, moveMembers_shape]
theorem moveSlot_shape {ρ : Addr → Shape} {mem : Names} {a : Addr} : ∀ {sl : Slot}, (moveSlot mem a sl).shape ρ = sl.shape ρ
  | .own o => by simp only [moveSlot, Slot.shape, move_shape]
  | .ref _ => by simp only [moveSlot, Slot.shape]
theorem moveMembers_shape {ρ : Addr → Shape} {mem : Names} {a : Addr} : ∀ {n : Nat} {ms : List (MInfo × Slot)},
    shapeMs ρ (moveMembers mem a n ms) = shapeMs ρ ms
  | n, [] => by simp only [moveMembers]
  | n, (_, sl) :: ms => by simp only [moveMembers, shapeMs, moveSlot_shape, moveMembers_shape]
end

mutual
theorem assign_shape {ρ : Addr → Shape} {mem : Names} {a : Addr} : ∀ {o dst : Parser}, sameType o dst = true →
    (assign mem a o dst).shape ρ = o.shape ρ
  | .value _ _ _, dst, ht => by
    cases dst <;> simp only [sameType, Bool.false_eq_true, decide_eq_true_eq] at ht
    simp only [assign, Parser.shape, ht]
  | .array _ _ _ _ e, dst, ht => by
    cases dst <;> simp only [sameType, Bool.false_eq_true, Bool.and_eq_true, beq_iff_eq] at ht
    simp only [assign, Parser.shape, ht.1, assignSlot_shape ht.2]
  | .map _ _ _ e, dst, ht => by
    cases dst <;> simp only [sameType, Bool.false_eq_true, Bool.and_eq_true, beq_iff_eq] at ht
    simp only [assign, Parser.shape, ht.1, assignSlot_shape ht.2]
  | .object _ _ _ _ _ _ ms, dst, ht => by
    cases dst <;> simp only [sameType, Bool.false_eq_true, Bool.and_eq_true, decide_eq_true_eq] at ht
    simp only [assign, Parser.shape, ht.1, assignMembers_shape ht.2]
  | .union _ _ _ _ _ _ _ _ ms, dst, ht => by
    cases dst <;> simp only [sameType, Bool.false_eq_true, Bool.and_eq_true, beq_iff_eq, decide_eq_true_eq] at ht
    simp only [assign, Parser.shape, ht.1, assignMembers_shape ht.2]
theorem assignSlot_shape {ρ : Addr → Shape} {mem : Names} {a : Addr} : ∀ {sl sl' : Slot}, sameSlot sl sl' = true →
    (assignSlot mem a sl sl').shape ρ = sl.shape ρ
  | .own o, .own o', ht => by rw [sameSlot] at ht; simp only [assignSlot, Slot.shape, assign_shape ht]
  | .own o, .ref _, ht => by simp [sameSlot] at ht
  | .ref _, _, ht => by simp [sameSlot] at ht
theorem assignMembers_shape {ρ : Addr → Shape} {mem : Names} {a : Addr} : ∀ {n : Nat} {ms ms' : List (MInfo × Slot)},
    sameMembers ms ms' = true → shapeMs ρ (assignMembers mem a n ms ms') = shapeMs ρ ms
  | n, [], [], ht => by simp only [assignMembers]
  | n, [], _ :: _, ht => by simp [sameMembers] at ht
  | n, _ :: _, [], ht => by simp [sameMembers] at ht
  | n, (i, sl) :: ms, (i', sl') :: ms', ht => by
    simp only [sameMembers, Bool.and_eq_true] at ht
    simp only [assignMembers, shapeMs, assignSlot_shape ht.1, assignMembers_shape ht.2]
end

theorem move_content {ρ : Addr → Shape} {mem : Names} {a : Addr} {o : Parser} : (move mem a o).content ρ = o.content ρ := by
  unfold Parser.content
  rw [move_shape]
  cases o with
  | value => simp only [move]; rfl
  | array st c cb ptr e => simp only [move]; cases st <;> rfl
  | map st c cb e => simp only [move]; cases st <;> rfl
  | object k err c cb t ign ms =>
    have := moveMembers_names (mem := mem) (a := a) (n := 0) (ms := ms)
    simp only [move, Parser.members, this]; cases k <;> rfl
  | union ty tm st c cb t ids ign ms =>
    have := moveMembers_names (mem := mem) (a := a) (n := 0) (ms := ms)
    simp only [move, Parser.members, this]; cases st <;> rfl

theorem assign_content {ρ : Addr → Shape} {mem : Names} {a : Addr} {o dst : Parser} (ht : sameType o dst = true) :
    (assign mem a o dst).content ρ = o.content ρ := by
  unfold Parser.content
  rw [assign_shape ht]
  cases o with
  | value ty c cb => cases dst <;> simp only [sameType, Bool.false_eq_true] at ht; rfl
  | array st c cb ptr e =>
    cases dst <;> simp only [sameType, Bool.false_eq_true, Bool.and_eq_true, beq_iff_eq] at ht
    simp only [assign, ← ht.1]; cases st <;> rfl
  | map st c cb e =>
    cases dst <;> simp only [sameType, Bool.false_eq_true, Bool.and_eq_true, beq_iff_eq] at ht
    simp only [assign, ← ht.1]; cases st <;> rfl
  | object k err c cb t ign ms =>
    cases dst <;> simp only [sameType, Bool.false_eq_true, Bool.and_eq_true, decide_eq_true_eq] at ht
    have := assignMembers_names (mem := mem) (a := a) (n := 0) ht.2
    simp only [assign, ← ht.1, Parser.members, this]; cases k <;> rfl
  | union ty tm st c cb t ids ign ms =>
    cases dst <;> simp only [sameType, Bool.false_eq_true, Bool.and_eq_true, decide_eq_true_eq, beq_iff_eq] at ht
    have := assignMembers_names (mem := mem) (a := a) (n := 0) ht.2
    simp only [assign, ← ht.1.2, Parser.members, this]; cases st <;> rfl

theorem assignMembers_get {mem : Names} {a : Addr} : ∀ {n : Nat} {ms ms' : List (MInfo × Slot)} {k : Nat}, sameMembers ms ms' = true →
    (assignMembers mem a n ms ms')[k]? = ms[k]?.bind fun x => ms'[k]?.map fun y => (x.1, assignSlot mem (a.step (.mem (n + k))) x.2 y.2)
  | n, [], [], k, ht => by simp [assignMembers]
  | n, [], _ :: _, k, ht => by simp [sameMembers] at ht
  | n, _ :: _, [], k, ht => by simp [sameMembers] at ht
  | n, (i, sl) :: ms, (i', sl') :: ms', 0, ht => by simp [assignMembers]
  | n, (i, sl) :: ms, (i', sl') :: ms', k + 1, ht => by
    simp only [sameMembers, Bool.and_eq_true] at ht
    simp only [assignMembers, List.getElem?_cons_succ, assignMembers_get ht.2]
    congr 1; funext x; rw [show n + 1 + k = n + (k + 1) by omega]

theorem sameMembers_get : ∀ {ms ms' : List (MInfo × Slot)} {k : Nat} {x : MInfo × Slot}, sameMembers ms ms' = true → ms[k]? = some x →
    ∃ y, ms'[k]? = some y ∧ sameSlot x.2 y.2 = true
  | [], [], k, x, ht, hk => by simp at hk
  | [], _ :: _, k, x, ht, hk => by simp [sameMembers] at ht
  | _ :: _, [], k, x, ht, hk => by simp [sameMembers] at ht
  | (i, sl) :: ms, (i', sl') :: ms', 0, x, ht, hk => by
    simp only [sameMembers, Bool.and_eq_true] at ht
    simp at hk; subst hk; exact ⟨_, rfl, ht.1⟩
  | (i, sl) :: ms, (i', sl') :: ms', k + 1, x, ht, hk => by
    simp only [sameMembers, Bool.and_eq_true] at ht
    simpa using sameMembers_get ht.2 (by simpa using hk)

theorem assign_slot {mem : Names} {a : Addr} {o dst : Parser} {st : Step} (ht : sameType o dst = true) :
    match o.slot st with
    | none => (assign mem a o dst).slot st = none
    | some sl => ∃ sl', dst.slot st = some sl' ∧ sameSlot sl sl' = true ∧ (assign mem a o dst).slot st = some (assignSlot mem (a.step st) sl sl') := by
  have kv : ∀ {ms ms' : List (MInfo × Slot)} {n : Nat}, sameMembers ms ms' = true →
      match ms[n]?.map (·.2) with
      | none => (assignMembers mem a 0 ms ms')[n]?.map (·.2) = none
      | some sl => ∃ sl', ms'[n]?.map (·.2) = some sl' ∧ sameSlot sl sl' = true ∧
          (assignMembers mem a 0 ms ms')[n]?.map (·.2) = some (assignSlot mem (a.step (.mem n)) sl sl') := by
    intro ms ms' n h
    rw [assignMembers_get h]
    cases hx : ms[n]? with
    | none => simp
    | some x =>
      obtain ⟨y, hy, hs⟩ := sameMembers_get h hx
      exact ⟨y.2, by simp [hy], hs, by simp [hy]⟩
  cases o with
  | value ty c cb =>
    cases dst <;> simp only [sameType, Bool.false_eq_true] at ht
    cases st <;> rfl
  | array st' c cb ptr e =>
    cases dst <;> simp only [sameType, Bool.false_eq_true, Bool.and_eq_true] at ht
    cases st <;> first | rfl | exact ⟨_, rfl, ht.2, by simp only [assign, Parser.slot]⟩ | simp only [assign, Parser.slot]
  | map st' c cb e =>
    cases dst <;> simp only [sameType, Bool.false_eq_true, Bool.and_eq_true] at ht
    cases st <;> first | rfl | exact ⟨_, rfl, ht.2, by simp only [assign, Parser.slot]⟩ | simp only [assign, Parser.slot]
  | object k err c cb t ign ms =>
    cases dst <;> simp only [sameType, Bool.false_eq_true, Bool.and_eq_true] at ht
    cases st <;> simp only [assign, Parser.slot]
    exact kv ht.2
  | union ty tm st' c cb t ids ign ms =>
    cases dst <;> simp only [sameType, Bool.false_eq_true, Bool.and_eq_true] at ht
    cases st <;> simp only [assign, Parser.slot]
    exact kv ht.2

theorem assign_sub {mem : Names} : ∀ {q : List Step} {a : Addr} {o dst : Parser}, sameType o dst = true →
    match o.sub q with
    | none => (assign mem a o dst).sub q = none
    | some o1 => ∃ d1, dst.sub q = some d1 ∧ sameType o1 d1 = true ∧ (assign mem a o dst).sub q = some (assign mem (a.down q) o1 d1)
  | [], a, o, dst, ht => ⟨dst, rfl, ht, rfl⟩
  | st :: q, a, o, dst, ht => by
    have h := assign_slot (mem := mem) (a := a) (st := st) ht
    simp only [Parser.sub]
    cases hs : o.slot st with
    | none => rw [hs] at h; simp only [h]
    | some sl =>
      rw [hs] at h
      obtain ⟨sl', h1, h2, h3⟩ := h
      rw [h1, h3]
      cases sl with
      | ref b => simp [sameSlot] at h2
      | own o' =>
        cases sl' with
        | ref b => simp [sameSlot] at h2
        | own d' =>
          rw [sameSlot] at h2
          simp only [assignSlot]
          exact assign_sub h2

theorem moveMembers_get {mem : Names} {a : Addr} : ∀ {n : Nat} {ms : List (MInfo × Slot)} {k : Nat},
    (moveMembers mem a n ms)[k]? = ms[k]?.map fun x => (x.1, moveSlot mem (a.step (.mem (n + k))) x.2)
  | n, [], k => by simp [moveMembers]
  | n, (i, sl) :: ms, 0 => by simp [moveMembers]
  | n, (i, sl) :: ms, k + 1 => by
    simp only [moveMembers, List.getElem?_cons_succ, moveMembers_get]
    congr 1; funext x; rw [show n + 1 + k = n + (k + 1) by omega]

theorem move_slot {mem : Names} {a : Addr} {o : Parser} {st : Step} : (move mem a o).slot st = (o.slot st).map (moveSlot mem (a.step st)) := by
  cases o <;> cases st <;> simp only [move, Parser.slot, Option.map_none, Option.map_some, moveMembers_get, Option.map_map]
  all_goals (congr 1; funext x; simp)

theorem move_sub {mem : Names} : ∀ {q : List Step} {a : Addr} {o : Parser}, (move mem a o).sub q = (o.sub q).map (move mem (a.down q))
  | [], a, o => rfl
  | st :: q, a, o => by
    simp only [Parser.sub, move_slot]
    cases o.slot st with
    | none => rfl
    | some sl =>
      cases sl with
      | ref b => simp [moveSlot]
      | own o' => simp only [Option.map_some, moveSlot]; exact move_sub

/-! ## Parsers that were not used yet -/

mutual
/-- All mutable fields in the tree have their initial values. -/
def Fresh : Parser → Prop
  | .value _ c _ => c = {}
  | .array _ c _ _ e => c = {} ∧ FreshSlot e
  | .map _ c _ e => c = {} ∧ FreshSlot e
  | .object _ _ c _ _ ign ms => c = {} ∧ ign = {} ∧ FreshMs ms
  | .union _ _ _ c _ _ _ ign ms => c = {} ∧ ign = {} ∧ FreshMs ms
def FreshSlot : Slot → Prop
  | .own o => Fresh o
  | .ref _ => True
def FreshMs : List (MInfo × Slot) → Prop
  | [] => True
  | (_, sl) :: ms => FreshSlot sl ∧ FreshMs ms
end

mutual
theorem move_fresh {mem : Names} {a : Addr} : ∀ {o : Parser}, Fresh o → Fresh (move mem a o)
  | .value _ _ _, h => by rw [Fresh] at h; subst h; simp only [move, Fresh]; rfl
  | .array st _ _ _ e, h => by
    obtain ⟨rfl, h⟩ := h
    simp only [move, Fresh]; exact ⟨by cases st <;> rfl, moveSlot_fresh h⟩
  | .map st _ _ e, h => by
    obtain ⟨rfl, h⟩ := h
    simp only [move, Fresh]; exact ⟨by cases st <;> rfl, moveSlot_fresh h⟩
  | .object k _ _ _ _ _ ms, h => by
    obtain ⟨rfl, rfl, h⟩ := h
    simp only [move, Fresh]; exact ⟨by cases k <;> rfl, rfl, moveMembers_fresh h⟩
  | .union _ _ st _ _ _ _ _ ms, h => by
    obtain ⟨rfl, rfl, h⟩ := h
    simp only [move, Fresh]; exact ⟨by cases st <;> rfl, rfl, moveMembers_fresh h⟩
theorem moveSlot_fresh {mem : Names} {a : Addr} : ∀ {sl : Slot}, FreshSlot sl → FreshSlot (moveSlot mem a sl)
  | .own o, h => by rw [FreshSlot] at h; simp only [moveSlot, FreshSlot]; exact move_fresh h
  | .ref _, h => by simp only [moveSlot, FreshSlot]
theorem moveMembers_fresh {mem : Names} {a : Addr} : ∀ {n : Nat} {ms : List (MInfo × Slot)}, FreshMs ms → FreshMs (moveMembers mem a n ms)
  | n, [], h => by simp only [moveMembers, FreshMs]
  | n, (_, sl) :: ms, h => by simp only [moveMembers, FreshMs]; exact ⟨moveSlot_fresh h.1, moveMembers_fresh h.2⟩
end

mutual
theorem assign_fresh {mem : Names} {a : Addr} : ∀ {o dst : Parser}, Fresh o → Fresh dst → sameType o dst = true → Fresh (assign mem a o dst)
  | .value _ _ _, dst, h, hd, ht => by
    cases dst <;> simp only [sameType, Bool.false_eq_true] at ht
    rw [Fresh] at h hd; subst h; subst hd; simp only [assign, Fresh]; rfl
  | .array _ _ _ _ e, dst, h, hd, ht => by
    cases dst <;> simp only [sameType, Bool.false_eq_true, Bool.and_eq_true] at ht
    rename_i st' _ _ _ _
    obtain ⟨rfl, h⟩ := h
    obtain ⟨rfl, hd⟩ := hd
    simp only [assign, Fresh]; exact ⟨by cases st' <;> rfl, assignSlot_fresh h hd ht.2⟩
  | .map _ _ _ e, dst, h, hd, ht => by
    cases dst <;> simp only [sameType, Bool.false_eq_true, Bool.and_eq_true] at ht
    rename_i st' _ _ _
    obtain ⟨rfl, h⟩ := h
    obtain ⟨rfl, hd⟩ := hd
    simp only [assign, Fresh]; exact ⟨by cases st' <;> rfl, assignSlot_fresh h hd ht.2⟩
  | .object _ _ _ _ _ _ ms, dst, h, hd, ht => by
    cases dst <;> simp only [sameType, Bool.false_eq_true, Bool.and_eq_true] at ht
    rename_i k' _ _ _ _ _ _
    obtain ⟨rfl, rfl, h⟩ := h
    obtain ⟨rfl, rfl, hd⟩ := hd
    simp only [assign, Fresh]; exact ⟨by cases k' <;> rfl, rfl, assignMembers_fresh h hd ht.2⟩
  | .union _ _ _ _ _ _ _ _ ms, dst, h, hd, ht => by
    cases dst <;> simp only [sameType, Bool.false_eq_true, Bool.and_eq_true] at ht
    rename_i _ _ st' _ _ _ _ _ _
    obtain ⟨rfl, rfl, h⟩ := h
    obtain ⟨rfl, rfl, hd⟩ := hd
    simp only [assign, Fresh]; exact ⟨by cases st' <;> rfl, rfl, assignMembers_fresh h hd ht.2⟩
theorem assignSlot_fresh {mem : Names} {a : Addr} : ∀ {sl sl' : Slot}, FreshSlot sl → FreshSlot sl' → sameSlot sl sl' = true →
    FreshSlot (assignSlot mem a sl sl')
  | .own o, .own o', h, hd, ht => by
    rw [FreshSlot] at h hd; rw [sameSlot] at ht; simp only [assignSlot, FreshSlot]; exact assign_fresh h hd ht
  | .own o, .ref _, h, hd, ht => by simp [sameSlot] at ht
  | .ref _, _, h, hd, ht => by simp [sameSlot] at ht
theorem assignMembers_fresh {mem : Names} {a : Addr} : ∀ {n : Nat} {ms ms' : List (MInfo × Slot)}, FreshMs ms → FreshMs ms' →
    sameMembers ms ms' = true → FreshMs (assignMembers mem a n ms ms')
  | n, [], [], h, hd, ht => by simp only [assignMembers, FreshMs]
  | n, [], _ :: _, h, hd, ht => by simp [sameMembers] at ht
  | n, _ :: _, [], h, hd, ht => by simp [sameMembers] at ht
  | n, (i, sl) :: ms, (i', sl') :: ms', h, hd, ht => by
    simp only [sameMembers, Bool.and_eq_true] at ht
    simp only [assignMembers, FreshMs]
    exact ⟨assignSlot_fresh h.1 hd.1 ht.1, assignMembers_fresh h.2 hd.2 ht.2⟩
end

mutual
theorem Occurs.fresh : ∀ {a : Addr} {o : Parser}, Occurs false a o → Fresh o
  | _, _, .value => by simp only [newValue, Fresh]
  | _, _, .array h => by simp only [newArray, Fresh]; exact ⟨trivial, moveSlot_fresh (OccursSlot.fresh h)⟩
  | _, _, .map h => by simp only [newMap, Fresh]; exact ⟨trivial, moveSlot_fresh (OccursSlot.fresh h)⟩
  | a, _, .object (mem := mem) (ms := ms) h ho => by
    simp only [newObject] at ho
    split at ho
    · simp at ho
    · injection ho with ho; subst ho
      simp only [Fresh]; exact ⟨trivial, trivial, moveMembers_fresh (OccursMs.fresh h)⟩
  | a, _, .union (mem := mem) (ms := ms) h ho => by
    simp only [newUnion] at ho
    split at ho
    · simp at ho
    · injection ho with ho; subst ho
      simp only [Fresh]; exact ⟨trivial, trivial, moveMembers_fresh (OccursMs.fresh h)⟩
  | _, _, .moved h => move_fresh (Occurs.fresh h)
  | _, _, .assigned h h' ht => assign_fresh (Occurs.fresh h) (Occurs.fresh h') ht
  | _, _, .used hu h hs => by simp at hu
theorem OccursSlot.fresh : ∀ {sl : Slot}, OccursSlot false sl → FreshSlot sl
  | _, .own h => by simp only [FreshSlot]; exact Occurs.fresh h
  | _, .ref => by simp only [FreshSlot]
theorem OccursMs.fresh : ∀ {ms : List (MInfo × Slot)}, OccursMs false ms → FreshMs ms
  | _, .nil => by simp only [FreshMs]
  | _, .cons h1 h2 => ⟨OccursSlot.fresh h1, OccursMs.fresh h2⟩
end

theorem freshMs_get : ∀ {ms : List (MInfo × Slot)} {k : Nat} {x : MInfo × Slot}, FreshMs ms → ms[k]? = some x → FreshSlot x.2
  | [], k, x, h, hk => by simp at hk
  | (i, sl) :: ms, 0, x, h, hk => by simp at hk; subst hk; exact h.1
  | (i, sl) :: ms, k + 1, x, h, hk => freshMs_get h.2 (by simpa using hk)

theorem fresh_slot {o : Parser} {st sl} (h : Fresh o) (hs : o.slot st = some sl) : FreshSlot sl := by
  cases o <;> cases st <;> simp only [Parser.slot, reduceCtorEq, Option.map_eq_some_iff, Option.some.injEq] at hs
  · subst hs; exact h.2
  · subst hs; exact h.2
  · obtain ⟨x, hx, rfl⟩ := hs; exact freshMs_get h.2.2 hx
  · obtain ⟨x, hx, rfl⟩ := hs; exact freshMs_get h.2.2 hx

theorem fresh_cell {o : Parser} (h : Fresh o) : o.cell = {} ∧ o.ignCell = {} := by
  cases o with
  | value => exact ⟨by rw [Fresh] at h; exact h, rfl⟩
  | array => exact ⟨h.1, rfl⟩
  | map => exact ⟨h.1, rfl⟩
  | object => exact ⟨h.1, h.2.1⟩
  | union => exact ⟨h.1, h.2.1⟩

theorem fresh_cells {ρ : Addr → List Step → Cell} (hρ : ∀ a q, ρ a q = {}) : ∀ {q : List Step} {o : Parser}, Fresh o → o.cells ρ q = {}
  | [], o, h => (fresh_cell h).1
  | st :: q, o, h => by
    by_cases hi : st = .ign ∧ q = []
    · obtain ⟨rfl, rfl⟩ := hi; exact (fresh_cell h).2
    · rw [Parser.cells]
      · split
        · rename_i h1
          have := fresh_slot h h1
          rw [FreshSlot] at this
          exact fresh_cells hρ this
        · exact hρ _ _
        · rfl
      · exact fun h1 h2 => hi ⟨h1, h2⟩

theorem lookup_firstNamed {ρ : Addr → Shape} {y : Scalar} : ∀ {ms : List (MInfo × Slot)} {n : Nat},
    (lookup y n (shapeMs ρ ms)).map (·.1) = firstNamed y n ms
  | [], n => rfl
  | (i, sl) :: ms, n => by
    simp only [shapeMs, lookup, firstNamed]
    split
    · rfl
    · exact lookup_firstNamed

end SJ.Obj
