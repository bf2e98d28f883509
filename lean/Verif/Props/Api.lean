/-
Properties of the public methods and of the construction and moving of object and union parsers: C17, C18, C32, C33.
-/
import Verif.Props.Objects

set_option linter.unusedVariables false

namespace SJ

variable {E : Env} {R : Shape}

/-! ### C18: the get/pop protocol -/

/-- A call of one of the two value methods. -/
inductive ApiOp where
  | get
  | pop

/-- What a sequence of calls on the parser at `p` returns: a value or the exception of every call, and the state after
them (an exception does not prevent the following calls). -/
def answers (p : Path) : List ApiOp → St → List (Except Exn Val) × St
  | [], s => ([], s)
  | op :: ops, s =>
    match (match op with | .get => get p s | .pop => pop' p s) with
    | .ok v s' => let r := answers p ops s'; (.ok v :: r.1, r.2)
    | .throw e s' => let r := answers p ops s'; (.error e :: r.1, r.2)
    | .ub => ([], s)
    | .fuel => ([], s)

/-- C18: `get()` of a set parser returns the value and changes nothing, no matter how often; of an unset parser it throws. -/
theorem C18_get (p : Path) (s : St) :
    get p s = if isSet p s then .ok (s.heap p).val s else .throw (.std "Can't get value, parser is unset") s := rfl

/-- C18: `pop()` returns what `get()` returns, or throws what `get()` throws; when it returns, the parser is unset, and
the state of every other parser, the stack and the calls made are as before; when it throws, nothing has changed. -/
theorem C18_pop (p : Path) (s : St) :
    match get p s with
    | .ok v s1 => s1 = s ∧ ∃ s', pop' p s = .ok v s' ∧ isSet p s' = false ∧ isEmpty p s' = isEmpty p s ∧
        (∀ q, q ≠ p → s'.heap q = s.heap q) ∧ s'.stack = s.stack ∧ s'.log = s.log
    | .throw e s1 => s1 = s ∧ e = .std "Can't get value, parser is unset" ∧ isSet p s = false ∧ pop' p s = .throw e s
    | _ => False := by
  unfold get
  cases h : (s.heap p).set with
  | true =>
    refine ⟨rfl, { s with heap := s.heap.upd p fun c => { c with set := false, val := .moved } }, ?_, ?_, ?_, ?_, rfl, rfl⟩
    · simp [pop', popVal, h]
    · simp [isSet, Heap.upd]
    · simp [isEmpty, Heap.upd]
    · intro q hq; simp [Heap.upd, hq]
  | false => exact ⟨rfl, rfl, h, by simp [pop', popVal, h, unsetMsg]⟩

theorem answers_unset {p : Path} : ∀ (ops : List ApiOp) (s : St), isSet p s = false →
    answers p ops s = (ops.map fun _ => .error (.std "Can't get value, parser is unset"), s)
  | [], s, h => rfl
  | op :: ops, s, h => by
    have ih := answers_unset ops s h
    have h' : (s.heap p).set = false := h
    cases op <;> simp [answers, get, pop', popVal, h', ih, unsetMsg]

/-- C18: any sequence of `get()` and `pop()` calls on a set parser: up to and including the first `pop()` every call
returns the value, after it every call throws. -/
theorem C18_sequence {p : Path} {s : St} (h : isSet p s = true) (n : Nat) (ops : List ApiOp) :
    answers p (List.replicate n .get) s = (List.replicate n (.ok (s.heap p).val), s) ∧
    (answers p (List.replicate n .get ++ .pop :: ops) s).1 =
      List.replicate (n + 1) (.ok (s.heap p).val) ++ ops.map fun _ => .error (.std "Can't get value, parser is unset") := by
  have h' : (s.heap p).set = true := h
  induction n with
  | zero =>
    refine ⟨rfl, ?_⟩
    simp only [List.replicate, List.nil_append, answers, pop', popVal, h']
    simp only [if_true]
    rw [answers_unset _ _ (by simp [isSet, Heap.upd])]
    rfl
  | succ n ih =>
    constructor
    · simp only [List.replicate_succ, answers, get, h', if_true, ih.1]
    · simp only [List.replicate_succ, List.cons_append, answers, get, h', if_true]
      rw [ih.2]; rfl

/-- C18 for a parser that is unset: every call throws and nothing changes. -/
theorem C18_unset {p : Path} {s : St} (h : isSet p s = false) (ops : List ApiOp) :
    answers p ops s = (ops.map fun _ => .error (.std "Can't get value, parser is unset"), s) := answers_unset ops s h

/-! ### C17: defaults -/

/-- C17: `get<n>()` is the member's value if the member is set, else its default if it has one, else it throws; it
changes nothing. -/
theorem C17_get (p : Path) (n : Nat) (d : Option Val) (s : St) :
    getN p n d s =
      if isSet (.mem n :: p) s then .ok (s.heap (.mem n :: p)).val s
      else match d with
        | some v => .ok v s
        | none => .throw (.std "Can't get value, parser is unset") s := by
  unfold getN get isSet
  cases h : (s.heap (.mem n :: p)).set <;> cases d <;> simp [unsetMsg]

/-- C17: `pop<n>()` returns what `get<n>()` returns, or throws what it throws, and leaves the member unset; no other parser
changes. -/
theorem C17_pop (p : Path) (n : Nat) (d : Option Val) (s : St) :
    match getN p n d s with
    | .ok v _ => ∃ s', popN p n d s = .ok v s' ∧ isSet (.mem n :: p) s' = false ∧
        (∀ q, q ≠ .mem n :: p → s'.heap q = s.heap q) ∧ s'.stack = s.stack ∧ s'.log = s.log
    | .throw e _ => popN p n d s = .throw e s ∧ isSet (.mem n :: p) s = false
    | _ => False := by
  rw [C17_get]
  unfold isSet popN popVal
  cases h : (s.heap (.mem n :: p)).set with
  | true =>
    simp only [if_true, Bool.not_true, Bool.false_and]
    exact ⟨_, rfl, by simp [Heap.upd], fun q hq => by simp [Heap.upd, hq], rfl, rfl⟩
  | false =>
    cases d with
    | none => simp
    | some v =>
      simp only [Bool.not_false, Bool.true_and, Option.isSome_some, if_true]
      exact ⟨s, rfl, h, fun _ _ => rfl, rfl, rfl⟩

/-- C17, the behaviour the documentation does not tell: after `pop<n>()` of a member with a default, `get<n>()` and
`pop<n>()` do not throw but return the default. -/
theorem C17_after_pop {p : Path} {n : Nat} {v : Val} {s s' : St} {w : Val} (h : popN p n (some v) s = .ok w s') :
    getN p n (some v) s' = .ok v s' ∧ popN p n (some v) s' = .ok v s' := by
  have h1 := C17_pop p n (some v) s
  have h2 : isSet (.mem n :: p) s' = false := by
    cases hg : getN p n (some v) s with
    | ok a b =>
      rw [hg] at h1; obtain ⟨s2, h3, h4, _⟩ := h1
      rw [h] at h3; injection h3 with _ h3; rw [h3]; exact h4
    | throw e b => rw [hg] at h1; rw [h] at h1; simp at h1
    | ub => rw [hg] at h1; exact h1.elim
    | fuel => rw [hg] at h1; exact h1.elim
  have h3 : (s'.heap (.mem n :: p)).set = false := h2
  exact ⟨by simp [C17_get, h2], by simp [popN, h3]⟩

/-- What `get<n>()` has to return after the fields `fs`: what the member's parser made of the last field with its
name, if it is a value; otherwise the default. -/
def memberValue (fmt : Dbl → String) (fs : List (String × Json)) (x : MInfo × Shape) : Option Val :=
  (memberHolds fmt fs x).value?.or x.1.dflt

theorem memberHolds_fits {fmt ty st ms fs} {n : Nat} {x : MInfo × Shape} (hw : wfMs ty st ms = true) (hn : ms[n]? = some x) :
    x.2.fits (memberHolds fmt fs x) = true := by
  have hwx := (wfMs_mem hw (i := x.1) (sh := x.2) hn).2.1
  unfold memberHolds
  split
  · split
    · exact fits_unset _
    · split
      · rename_i hd; exact denote_fits _ _ _ hwx hd
      · exact fits_unset _
  · exact fits_unset _

/-- C17 for whole documents: after an `Object` or `SCustomObject` read a JSON object, `get<n>()` of a member that stores values
returns the value of the last field with its name if this is not null (and not `{}` for an object member), else the
default, else it throws. -/
theorem C17_document (hE : Passive E) {s : St} {p k u ms fs} (hx : Expecting R s p (.object k u ms)) (hk : k ≠ .auto)
    (hw : (Shape.object k u ms).wf = true) (hdist : DistinctNames ms)
    (hok : okVal (.object k u ms) (.obj fs) = true) (hfs : fs ≠ []) (hf : FieldsOk E.fmtDbl u ms fs)
    (hall : ∀ (n : Nat) x, ms[n]? = some x → x.1.optional = false → (memberHolds E.fmtDbl fs x).isSet = true) :
    ∃ s1, Completes E R s p (.obj fs) s1 ∧ isSet p s1 = true ∧
      ∀ (n : Nat) x, ms[n]? = some x → x.2.isStorage = true → getN p n x.1.dflt s1 =
        match memberValue E.fmtDbl fs x with
        | some v => .ok v s1
        | none => .throw (.std "Can't get value, parser is unset") s1 := by
  obtain ⟨s1, h1, h2, h3⟩ := C03_object_accepted hE hx hk hw hdist hok hfs hf hall
  refine ⟨s1, h1, h2, fun n x hn hst => ?_⟩
  have hh := h3 n x hn
  have hfit : x.2.fits (memberHolds E.fmtDbl fs x) = true := memberHolds_fits (wf_object hw) hn
  rw [C17_get]
  unfold memberValue isSet
  cases hd : memberHolds E.fmtDbl fs x with
  | unset =>
    rw [hd] at hh
    have : (s1.heap (.mem n :: p)).set = false := hh
    rw [this]; simp only [D.value?]
    cases x.1.dflt <;> rfl
  | val v =>
    rw [hd] at hh
    have hh : _ ∧ _ := hh
    rw [hh.1, hh.2]; rfl
  | obj v ds =>
    rw [hd] at hh hfit
    have hv := fits_store hfit hst rfl
    simp only [D.value?] at hv
    obtain ⟨w, hw'⟩ := hv
    have hh : _ ∧ _ ∧ _ := hh
    rw [hh.1, hh.2.1 w hw', hw']; rfl
  | alt a d => rw [hd] at hfit; have := fits_store hfit hst rfl; simp [D.value?] at this
  | done => rw [hd] at hfit; have := fits_store hfit hst rfl; simp [D.value?] at this

/-! ### C32: duplicate names -/

/-- Members `a < b` of the list have equal names. -/
def SameName (is : List MInfo) (a b : Nat) : Prop :=
  ∃ x y, is[a]? = some x ∧ is[b]? = some y ∧ a < b ∧ x.name.cppEq y.name = true

/-- The table a constructor builds: every name with its own member, in declaration order. -/
def table (n : Nat) : List MInfo → NameMap
  | [] => []
  | i :: is => (i.name, n) :: table (n + 1) is

theorem table_find {x : Scalar} : ∀ {n : Nat} {is : List MInfo} (shs : List Shape), shs.length = is.length →
    (table n is).find x = (lookup x n (is.zip shs)).map (·.1)
  | n, [], shs, h => rfl
  | n, i :: is, [], h => by simp at h
  | n, i :: is, sh :: shs, h => by
    have ih := table_find (x := x) (n := n + 1) (is := is) shs (by simpa using h)
    unfold NameMap.find at ih ⊢
    simp only [table, List.find?_cons, List.zip_cons_cons, lookup]
    split
    · rename_i h'; simp [h']
    · rename_i h'; simp [h', ih]

theorem table_find_none {x : Scalar} : ∀ {n : Nat} {is : List MInfo}, (table n is).find x = none ↔ ∀ i ∈ is, i.name.cppEq x = false
  | n, [] => by simp [table, NameMap.find]
  | n, i :: is => by
    have ih := table_find_none (x := x) (n := n + 1) (is := is)
    unfold NameMap.find at ih ⊢
    simp only [table, List.find?_cons]
    cases h : i.name.cppEq x with
    | true => simp [h]
    | false => simp only [h, List.mem_cons, forall_eq_or_imp, true_and]; exact ih

theorem construct_table {fmt} : ∀ {is : List MInfo} {n}, (∀ a b, ¬ SameName is a b) → construct fmt n is = .ok (table n is)
  | [], n, h => rfl
  | i :: is, n, h => by
    have ih := construct_table (fmt := fmt) (is := is) (n := n + 1) fun a b hab => by
      obtain ⟨x, y, h1, h2, h3, h4⟩ := hab
      exact h (a + 1) (b + 1) ⟨x, y, by simpa using h1, by simpa using h2, by omega, h4⟩
    have hnone : (table (n + 1) is).find i.name = none := by
      rw [table_find_none]
      intro y hy
      obtain ⟨b, hb⟩ := List.getElem?_of_mem hy
      cases hc : y.name.cppEq i.name with
      | false => rfl
      | true => exact absurd ⟨i, y, rfl, by simpa using hb, by omega, by rw [cppEq_comm]; exact hc⟩ (h 0 (b + 1))
    simp only [construct, ih, NameMap.insert, hnone, table]

theorem construct_error {fmt} : ∀ {is : List MInfo} {n} {a : Nat} {x}, is[a]? = some x → (∃ b, SameName is a b) →
    (∀ a' b, a < a' → ¬ SameName is a' b) → construct fmt n is = .error ("Member " ++ showName fmt x.name ++ " appears more, than once")
  | [], n, a, x, hx, _, _ => by simp at hx
  | i :: is, n, 0, x, hx, ⟨b, hb⟩, hl => by
    have ht := construct_table (fmt := fmt) (is := is) (n := n + 1) fun a b hab => by
      obtain ⟨x, y, h1, h2, h3, h4⟩ := hab
      exact hl (a + 1) (b + 1) (by omega) ⟨x, y, by simpa using h1, by simpa using h2, by omega, h4⟩
    simp at hx; subst hx
    obtain ⟨x, y, h1, h2, h3, h4⟩ := hb
    simp at h1; subst h1
    have hsome : (table (n + 1) is).find i.name ≠ none := by
      intro hn
      rw [table_find_none] at hn
      cases b with
      | zero => omega
      | succ b =>
        have := hn y (List.mem_of_getElem? (by simpa using h2))
        rw [cppEq_comm] at this; simp [h4] at this
    have hs : nameText fmt i.name = showName fmt i.name := by cases i.name <;> rfl
    simp only [construct, ht, NameMap.insert]
    cases hf : (table (n + 1) is).find i.name with
    | none => exact absurd hf hsome
    | some m => simp [hs]
  | i :: is, n, a + 1, x, hx, ⟨b, hb⟩, hl => by
    have ih := construct_error (fmt := fmt) (is := is) (n := n + 1) (a := a) (x := x) (by simpa using hx)
      (by
        obtain ⟨x', y, h1, h2, h3, h4⟩ := hb
        cases b with
        | zero => omega
        | succ b => exact ⟨b, x', y, by simpa using h1, by simpa using h2, by omega, h4⟩)
      (fun a' b' h1 h2 => by
        obtain ⟨x', y, h3, h4, h5, h6⟩ := h2
        exact hl (a' + 1) (b' + 1) (by omega) ⟨x', y, by simpa using h3, by simpa using h4, by omega, h6⟩)
    simp only [construct, ih]

/-- Either no two names are equal, or there is a last member with an equal one after it. -/
theorem sameName_cases : ∀ (is : List MInfo), (∀ a b, ¬ SameName is a b) ∨
    ∃ (a : Nat) (x : MInfo), is[a]? = some x ∧ (∃ b, SameName is a b) ∧ ∀ a' b, a < a' → ¬ SameName is a' b
  | [] => .inl fun a b h => by obtain ⟨x, y, h1, _⟩ := h; simp at h1
  | i :: is => by
    have shift : ∀ {a b}, SameName (i :: is) (a + 1) b → ∃ b', b = b' + 1 ∧ SameName is a b' := by
      rintro a b ⟨x, y, h1, h2, h3, h4⟩
      cases b with
      | zero => omega
      | succ b => exact ⟨b, rfl, x, y, by simpa using h1, by simpa using h2, by omega, h4⟩
    have unshift : ∀ {a b}, SameName is a b → SameName (i :: is) (a + 1) (b + 1) := by
      rintro a b ⟨x, y, h1, h2, h3, h4⟩
      exact ⟨x, y, by simpa using h1, by simpa using h2, by omega, h4⟩
    rcases sameName_cases is with h | ⟨a, x, h1, ⟨b, h2⟩, h3⟩
    · by_cases h0 : ∃ b, SameName (i :: is) 0 b
      · refine .inr ⟨0, i, rfl, h0, fun a' b ha hs => ?_⟩
        obtain ⟨a'', rfl⟩ : ∃ c, a' = c + 1 := ⟨a' - 1, by omega⟩
        obtain ⟨b', _, hs'⟩ := shift hs
        exact h a'' b' hs'
      · refine .inl fun a b hs => ?_
        cases a with
        | zero => exact h0 ⟨b, hs⟩
        | succ a => obtain ⟨b', _, hs'⟩ := shift hs; exact h a b' hs'
    · refine .inr ⟨a + 1, x, by simpa using h1, ⟨b + 1, unshift h2⟩, fun a' b' ha hs => ?_⟩
      obtain ⟨a'', rfl⟩ : ∃ c, a' = c + 1 := ⟨a' - 1, by omega⟩
      obtain ⟨c, _, hs'⟩ := shift hs
      exact h3 a'' c (by omega) hs'

/-- C32: constructing an object or union parser throws exactly if two members have equal names; the message names the
last member that has an equal one after it. -/
theorem C32_duplicate (fmt : Dbl → String) (is : List MInfo) (e : String) : construct fmt 0 is = .error e ↔
    ∃ (a : Nat) (x : MInfo), is[a]? = some x ∧ (∃ b, SameName is a b) ∧ (∀ a' b, a < a' → ¬ SameName is a' b) ∧
      e = "Member " ++ showName fmt x.name ++ " appears more, than once" := by
  constructor
  · intro h
    rcases sameName_cases is with h0 | ⟨a, x, h1, h2, h3⟩
    · rw [construct_table h0] at h; simp at h
    · rw [construct_error h1 h2 h3] at h; injection h with h; exact ⟨a, x, h1, h2, h3, h.symm⟩
  · rintro ⟨a, x, h1, h2, h3, rfl⟩; exact construct_error h1 h2 h3

/-- C32: otherwise it succeeds, and then every name resolves to its own member (a NaN is equal to nothing, so it never
resolves), and any other name to nothing. -/
theorem C32_registered (fmt : Dbl → String) (is : List MInfo) (h : ∀ a b, ¬ SameName is a b) :
    ∃ m, construct fmt 0 is = .ok m ∧
      (∀ (a : Nat) x y, is[a]? = some x → x.name.cppEq y = true → (∀ (b : Nat) z, is[b]? = some z → z.name.cppEq y = true → b = a) →
        m.find y = some a) ∧
      (∀ y, (∀ x ∈ is, x.name.cppEq y = false) → m.find y = none) := by
  refine ⟨_, construct_table h, ?_, fun y hy => table_find_none.2 hy⟩
  intro a x y hx hxy hu
  suffices H : ∀ (is : List MInfo) (n a : Nat), is[a]? = some x → (∀ (b : Nat) z, is[b]? = some z → z.name.cppEq y = true → b = a) →
      (table n is).find y = some (n + a) by simpa using H is 0 a hx hu
  intro is
  induction is with
  | nil => intro n a h; simp at h
  | cons i is ih =>
    intro n a hx hu
    cases a with
    | zero => simp at hx; subst hx; simp [table, NameMap.find, hxy]
    | succ a =>
      have hi : i.name.cppEq y = false := by
        cases hc : i.name.cppEq y with
        | false => rfl
        | true => have := hu 0 i rfl hc; omega
      have := ih (n + 1) a (by simpa using hx) fun b z hb hz => by
        have := hu (b + 1) z (by simpa using hb) hz; omega
      unfold NameMap.find at this ⊢
      simp only [table, List.find?_cons, hi]
      rw [this]; congr 1; omega

/-- C32, C33: names that are text, integers or Booleans are equal exactly if they are the same; so if names are
distinct, every declared name resolves to its member, and the table answers as the parser's look-up does. -/
theorem C32_lookup (fmt : Dbl → String) (ms : List (MInfo × Shape)) (h : DistinctNames ms) :
    ∃ m, construct fmt 0 (ms.map (·.1)) = .ok m ∧ ∀ y, m.find y = (lookup y 0 ms).map (·.1) := by
  have hs : ∀ a b, ¬ SameName (ms.map (·.1)) a b := by
    rintro a b ⟨x, y, h1, h2, h3, h4⟩
    rw [List.getElem?_map, Option.map_eq_some_iff] at h1 h2
    obtain ⟨x', h1, rfl⟩ := h1
    obtain ⟨y', h2, rfl⟩ := h2
    have := h a b _ _ h1 h2 h4; omega
  refine ⟨_, construct_table hs, fun y => ?_⟩
  rw [table_find (ms.map (·.2)) (by simp)]
  congr 1; congr 1
  rw [List.zip_map']; simp

/-! ### C33: moving -/

theorem registerParsers_table : ∀ {is : List MInfo} {n}, (∀ a b, ¬ SameName is a b) → registerParsers n is [] = table n is
  | [], n, h => rfl
  | i :: is, n, h => by
    have ih := registerParsers_table (is := is) (n := n + 1) fun a b hab => by
      obtain ⟨x, y, h1, h2, h3, h4⟩ := hab
      exact h (a + 1) (b + 1) ⟨x, y, by simpa using h1, by simpa using h2, by omega, h4⟩
    have hnone : (table (n + 1) is).find i.name = none := by
      rw [table_find_none]
      intro y hy
      obtain ⟨b, hb⟩ := List.getElem?_of_mem hy
      cases hc : y.name.cppEq i.name with
      | false => rfl
      | true => exact absurd ⟨i, y, rfl, by simpa using hb, by omega, by rw [cppEq_comm]; exact hc⟩ (h 0 (b + 1))
    simp only [registerParsers, ih, NameMap.assign, hnone, table]

/-- C33: a move-constructed or move-assigned parser answers every name exactly as the table of the source did; in
particular nothing of the destination's previous table `old` survives. -/
theorem C33_moved (fmt : Dbl → String) (is : List MInfo) (src : NameMap) (h : construct fmt 0 is = .ok src) (old : NameMap) (y : Scalar) :
    (moveConstruct is).find y = src.find y ∧ (moveAssign old is).find y = src.find y := by
  have hs : ∀ a b, ¬ SameName is a b := by
    rcases sameName_cases is with h0 | ⟨a, x, h1, h2, h3⟩
    · exact h0
    · rw [construct_error h1 h2 h3] at h; simp at h
  rw [construct_table hs] at h; injection h with h
  have hf : (old.filter fun _ => false) = [] := by simp
  unfold moveConstruct moveAssign
  simp only [hf]
  rw [registerParsers_table hs, h]; exact ⟨rfl, rfl⟩

/-! ### The hypotheses are met -/

section Examples
open Demo

/-- `Demo.doc` has been read. -/
def sRead : St := after noCb outer (events doc) (St.init outer)

/-- C18_sequence, C18_unset: `part` is set, `limits` of a fresh parser is not. -/
example : isSet [.mem 1] sRead = true ∧ isSet [.mem 2] (St.init outer) = false := by decide +kernel
example : (answers [.mem 1] [.get, .pop, .get] sRead).1 = [.ok (sRead.heap [.mem 1]).val, .ok (sRead.heap [.mem 1]).val, .error (.std "Can't get value, parser is unset")] :=
  (C18_sequence (p := [.mem 1]) (s := sRead) (by decide +kernel) 1 [.get]).2

/-- C17_after_pop: a member with a default that was parsed, then popped: `{"id": 7, "tags": ["a"]}` read by an `Object` with these members. -/
def innerObject : Shape := match inner with | .object _ u ms => .object .plain u ms | sh => sh
def sPair : St := after noCb innerObject (events (.obj [("id", .sc (.int 7)), ("tags", .arr [.sc (.str "a")])])) (St.init innerObject)
example : ∃ w s', popN [] 1 (some (.arr [])) sPair = .ok w s' ∧ w = .arr [.sc (.str "a")] ∧ getN [] 1 (some (.arr [])) s' = .ok (.arr []) s' := by
  have h : isSet [.mem 1] sPair = true := by decide +kernel
  have hv : (sPair.heap [.mem 1]).val = .arr [.sc (.str "a")] := sameV_eq (by decide +kernel)
  have hp : ∃ s', popN [] 1 (some (.arr [])) sPair = .ok (.arr [.sc (.str "a")]) s' := by
    unfold isSet at h
    refine ⟨{ sPair with heap := sPair.heap.upd [.mem 1] fun c => { c with set := false, val := .moved } }, ?_⟩
    unfold popN popVal
    simp [h, hv]
  obtain ⟨s', hp⟩ := hp
  exact ⟨_, s', hp, rfl, (C17_after_pop hp).1⟩

/-- C17_document: `tags` has a default and is absent. -/
example : ∃ s1, Completes noCb innerObject (St.init innerObject) [] (.obj [("id", .sc (.int 7))]) s1 ∧ getN [] 1 (some (.arr [])) s1 = .ok (.arr []) s1 ∧
    getN [] 0 none s1 = .ok (.sc (.int 7)) s1 := by
  obtain ⟨s1, h1, _, h2⟩ := C17_document (E := noCb) (R := innerObject) (ms := innerMs) (fs := [("id", .sc (.int 7))]) noCb_passive (Ready.init innerObject).expecting (by decide)
    (by decide +kernel) (distinctB_sound (by decide +kernel)) (by decide +kernel) (by simp) (fieldsOkB_sound (by decide +kernel)) (by
      intro n x hn ho
      have := of_all (ms := innerMs) (fun x => x.1.optional || (memberHolds noCb.fmtDbl [("id", .sc (.int 7))] x).isSet) (by decide +kernel) n x hn
      simpa [ho] using this)
  exact ⟨s1, h1, h2 1 _ rfl rfl, h2 0 _ rfl rfl⟩

/-- C32_duplicate, C32_registered, C32_lookup, C33_moved: two equal names, and the names of `Demo.outer`. -/
example : construct (fun _ => "") 0 [{ name := .str "a" }, { name := .str "b" }, { name := .str "a" }] = .error "Member a appears more, than once" :=
  (C32_duplicate _ _ _).2 ⟨0, _, rfl, ⟨2, _, _, rfl, rfl, by decide, by decide⟩, by
    intro a' b hlt ⟨x, y, hx, hy, hab, he⟩
    have hb : b < 3 := (List.getElem?_eq_some_iff.1 hy).1
    obtain rfl : a' = 1 := by omega
    obtain rfl : b = 2 := by omega
    simp at hx hy; subst hx hy; revert he; decide, rfl⟩
example : ∃ m, construct (fun _ => "") 0 (outerMs.map (·.1)) = .ok m ∧ m.find (.str "part") = some 1 ∧ m.find (.str "other") = none ∧
    (moveAssign [(.str "other", 5)] (outerMs.map (·.1))).find (.str "part") = some 1 ∧
    (moveAssign [(.str "other", 5)] (outerMs.map (·.1))).find (.str "other") = none := by
  obtain ⟨m, h1, h2⟩ := C32_lookup (fun _ => "") outerMs (distinctB_sound (by decide +kernel))
  have hm := fun y => (C33_moved _ _ m h1 [(.str "other", 5)] y).2
  refine ⟨m, h1, ?_, ?_, ?_, ?_⟩
  · rw [h2]; rfl
  · rw [h2]; rfl
  · rw [hm, h2]; rfl
  · rw [hm, h2]; rfl
example : ∀ a b, ¬ SameName (outerMs.map (·.1)) a b := by
  intro a b ⟨x, y, hx, hy, hlt, he⟩
  simp only [List.getElem?_map, Option.map_eq_some_iff] at hx hy
  obtain ⟨x', hx', rfl⟩ := hx
  obtain ⟨y', hy', rfl⟩ := hy
  have := distinctB_sound (ms := outerMs) (by decide +kernel) a b x' y' hx' hy' he
  omega

end Examples

end SJ
