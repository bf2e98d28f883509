/-
Concrete parsers, documents and callbacks, used by the examples that accompany the theorems.
-/
import Verif.Spec
import Verif.SpecState
import Verif.SpecTyped
import Verif.SpecObjects

namespace SJ.Demo

/-- No callbacks. -/
def noCb : Env := { onFinish := fun _ => none, onElement := fun _ => none, fmtDbl := fun _ => "" }

/-- Every parser has a callback, which accepts. -/
def accepting : Env :=
  { onFinish := fun _ => some fun _ _ => {}, onElement := fun _ => some fun _ _ _ => {}, fmtDbl := fun _ => "" }

theorem noCb_passive : Passive noCb := ⟨fun p cb h => by simp [noCb] at h, fun p cb h => by simp [noCb] at h⟩

theorem accepting_passive : Passive accepting :=
  ⟨fun p cb h => by simp [accepting] at h; subst h; exact fun _ _ => ⟨rfl, rfl, rfl⟩,
   fun p cb h => by simp [accepting] at h; subst h; exact fun _ _ _ => ⟨rfl, rfl⟩⟩

/-- The state after the tokens `ts`, if all goes well. -/
def after (E : Env) (R : Shape) (ts : List Token) (s : St) : St :=
  match run E R ts s with
  | .ok _ s' => s'
  | .throw _ s' => s'
  | _ => s

/-- The run ended without an exception. -/
def fine (E : Env) (R : Shape) (ts : List Token) (s : St) : Bool :=
  match run E R ts s with
  | .ok _ _ => true
  | _ => false

/-- The exception that ended the run. -/
def failure (E : Env) (R : Shape) (ts : List Token) (s : St) : Option Exn :=
  match run E R ts s with
  | .throw e _ => some e
  | _ => none

theorem after_ok {E : Env} {R : Shape} {ts : List Token} {s : St} (h : fine E R ts s = true) : run E R ts s = .ok () (after E R ts s) := by
  unfold fine at h; unfold after
  cases hr : run E R ts s with
  | ok a s' => rfl
  | throw e s' => rw [hr] at h; simp at h
  | ub => rw [hr] at h; simp at h
  | fuel => rw [hr] at h; simp at h

theorem after_throw {E : Env} {R : Shape} {ts : List Token} {s : St} {e} (h : failure E R ts s = some e) :
    run E R ts s = .throw e (after E R ts s) := by
  unfold failure at h; unfold after
  cases hr : run E R ts s with
  | ok a s' => rw [hr] at h; simp at h
  | throw e s' => rw [hr] at h; simp at h; subst h; rfl
  | ub => rw [hr] at h; simp at h
  | fuel => rw [hr] at h; simp at h

theorem run_one {E : Env} {R : Shape} {t : Token} {s : St} : run E R [t] s = dispatch E R t s := by
  simp only [run, M.bind]
  cases dispatch E R t s <;> rfl

theorem after_token {E : Env} {R : Shape} {t : Token} {s : St} (h : fine E R [t] s = true) : dispatch E R t s = .ok () (after E R [t] s) := by
  rw [← run_one]; exact after_ok h

theorem after_token_throw {E : Env} {R : Shape} {t : Token} {s : St} {e} (h : failure E R [t] s = some e) :
    dispatch E R t s = .throw e (after E R [t] s) := by
  rw [← run_one]; exact after_throw h

/-- Several tokens in a row. -/
theorem feed {E : Env} {R : Shape} (hE : CleanCallbacks E) : ∀ {ts rest : List Token} {s s' : St}, Feeding R (ts ++ rest) s → run E R ts s = .ok () s' → Feeding R rest s'
  | [], rest, s, s', h, hr => by
    have : s = s' := by simp only [run, M.pure] at hr; injection hr
    subst this; exact h
  | t :: ts, rest, s, s', h, hr => by
    simp only [run, M.bind] at hr
    cases hd : dispatch E R t s with
    | ok a s1 => rw [hd] at hr; exact feed hE (ts := ts) (.token h hE hd) hr
    | throw e s1 => rw [hd] at hr; simp at hr
    | ub => rw [hd] at hr; simp at hr
    | fuel => rw [hd] at hr; simp at hr

/-- `{id: int, tags: [string] (optional), limits: {*: int} (optional, no default)}` as an `SAutoObject` in an `Object`, which also
has a name. -/
def inner : Shape := .object .auto true
  [({ name := .str "id" }, .value .int), ({ name := .str "tags", optional := true, dflt := some (.arr []) }, .array true (.value .str))]

def outer : Shape := .object .plain false
  [({ name := .str "name" }, .value .str), ({ name := .str "part", optional := true }, inner),
   ({ name := .str "limits", optional := true }, .map true (.value .int))]

/-- A standalone union: `{"type": "circle", "r": int}` or `{"type": "point"}` with optional `x` (default 0). -/
def circle : Shape := .object .plain true [({ name := .str "r" }, .value .int)]
def point : Shape := .object .auto true [({ name := .str "x", optional := true, dflt := some (.sc (.int 0)) }, .value .int)]
def choice : Shape := .union .str "type" false [({ name := .str "circle" }, circle), ({ name := .str "point", optional := true }, point)]
/-- The same as an `SUnion` (whose members store values). -/
def schoice : Shape := .union .str "type" true
  [({ name := .str "pair" }, inner), ({ name := .str "point", optional := true, dflt := some (.tup [.sc (.int 5)]) }, point)]
/-- `{"id": int, "kind": "circle" or "point", ...}`: an object with an embedded union. -/
def tagged : Shape := .object .plain true [({ name := .str "id" }, .value .int),
  ({ name := .str "kind" }, .union .str "" false [({ name := .str "circle" }, circle), ({ name := .str "point", optional := true }, point)])]
def stagged : Shape := .object .plain true [({ name := .str "id" }, .value .int),
  ({ name := .str "kind" }, .union .str "" true [({ name := .str "pair" }, inner), ({ name := .str "point", optional := true, dflt := some (.tup [.sc (.int 5)]) }, point)])]

/-- `{"name": "x", "part": {"tags": ["a","b"], "id": 7}, "limits": {"b": 2, "a": 1}, "more": [1]}` -/
def doc : Json := .obj [("name", .sc (.str "x")), ("part", .obj [("tags", .arr [.sc (.str "a"), .sc (.str "b")]), ("id", .sc (.int 7))]),
  ("limits", .obj [("b", .sc (.int 2)), ("a", .sc (.int 1))]), ("more", .arr [.sc (.int 1)])]

mutual
/-- No default value below is a moved-from one. -/
def cleanDflt : Shape → Bool
  | .object _ _ ms => cleanDfltMs ms
  | .union _ _ _ ms => cleanDfltMs ms
  | .array _ e => cleanDflt e
  | .map _ e => cleanDflt e
  | _ => true
def cleanDfltMs : List (MInfo × Shape) → Bool
  | [] => true
  | (i, sh) :: ms => (match i.dflt with | some v => v.clean | none => true) && cleanDflt sh && cleanDfltMs ms
end

theorem cleanDfltMs_mem : ∀ {ms : List (MInfo × Shape)}, cleanDfltMs ms = true → ∀ x ∈ ms, (∀ v, x.1.dflt = some v → v.clean = true) ∧ cleanDflt x.2 = true
  | [], _, x, hx => by simp at hx
  | (i, sh) :: ms, h, x, hx => by
    simp only [cleanDfltMs, Bool.and_eq_true] at h
    rcases List.mem_cons.1 hx with rfl | hx
    · exact ⟨fun v hv => by have := h.1.1; simp only at hv; rw [hv] at this; exact this, h.1.2⟩
    · exact cleanDfltMs_mem h.2 x hx

theorem cleanDflt_child {sh c : Shape} {st : Step} (h : cleanDflt sh = true) (hc : sh.child st = some c) : cleanDflt c = true := by
  have mem : ∀ (ms : List (MInfo × Shape)) (n : Nat), cleanDfltMs ms = true → ms[n]?.map (·.2) = some c → cleanDflt c = true := by
    intro ms n h1 h2
    cases hx : ms[n]? with
    | none => rw [hx] at h2; simp at h2
    | some x =>
      rw [hx] at h2; simp at h2
      rw [← h2]; exact (cleanDfltMs_mem h1 x (List.mem_of_getElem? hx)).2
  cases sh <;> cases st <;> simp only [Shape.child] at hc <;> simp only [cleanDflt] at h
  all_goals first
    | (injection hc with hc; subst hc; first | rfl | exact h)
    | exact mem _ _ h hc
    | simp at hc

theorem cleanDflt_sound {R : Shape} (h : cleanDflt R = true) : CleanDefaults R := by
  have all : ∀ q sh, R.at q = some sh → cleanDflt sh = true := by
    intro q
    induction q with
    | nil => intro sh hs; simp [Shape.at] at hs; subst hs; exact h
    | cons st q ih =>
      intro sh hs
      cases hq : R.at q with
      | none => simp [Shape.at, hq] at hs
      | some sh' => simp [Shape.at, hq] at hs; exact cleanDflt_child (ih sh' hq) hs
  intro q sh x v hR hx hv
  have := all q sh hR
  cases sh <;> simp only [Shape.members, List.not_mem_nil] at hx
  · exact (cleanDfltMs_mem (by simpa [cleanDflt] using this) x hx).1 v hv
  · exact (cleanDfltMs_mem (by simpa [cleanDflt] using this) x hx).1 v hv

mutual
/-- Every parser of the tree is as required by `f`. -/
def everyB (f : Shape → Bool) : Shape → Bool
  | .object k u ms => f (.object k u ms) && everyMsB f ms
  | .union ty tm st ms => f (.union ty tm st ms) && everyMsB f ms
  | .array st e => f (.array st e) && everyB f e
  | .map st e => f (.map st e) && everyB f e
  | .value ty => f (.value ty)
  | .ignore => f .ignore
def everyMsB (f : Shape → Bool) : List (MInfo × Shape) → Bool
  | [] => true
  | (_, sh) :: ms => everyB f sh && everyMsB f ms
end

theorem everyMsB_mem {f} : ∀ {ms : List (MInfo × Shape)}, everyMsB f ms = true → ∀ x ∈ ms, everyB f x.2 = true
  | [], _, x, hx => by simp at hx
  | (i, sh) :: ms, h, x, hx => by
    simp only [everyMsB, Bool.and_eq_true] at h
    rcases List.mem_cons.1 hx with rfl | hx
    · exact h.1
    · exact everyMsB_mem h.2 x hx

theorem everyB_child {f} (hi : f .ignore = true) {sh c : Shape} {st : Step} (h : everyB f sh = true) (hc : sh.child st = some c) : everyB f c = true := by
  have mem : ∀ (ms : List (MInfo × Shape)) (n : Nat), everyMsB f ms = true → ms[n]?.map (·.2) = some c → everyB f c = true := by
    intro ms n h1 h2
    cases hx : ms[n]? with
    | none => rw [hx] at h2; simp at h2
    | some x =>
      rw [hx] at h2; simp at h2
      rw [← h2]; exact everyMsB_mem h1 x (List.mem_of_getElem? hx)
  cases sh <;> cases st <;> simp only [Shape.child] at hc <;> simp only [everyB, Bool.and_eq_true] at h
  all_goals first
    | (injection hc with hc; subst hc; first | (simp only [everyB]; exact hi) | exact h.2)
    | exact mem _ _ h.2 hc
    | simp at hc

theorem everyB_sound {f : Shape → Bool} (hi : f .ignore = true) {R : Shape} (h : everyB f R = true) (q : Path) (sh : Shape) (hs : R.at q = some sh) : f sh = true := by
  have all : ∀ q sh, R.at q = some sh → everyB f sh = true := by
    intro q
    induction q with
    | nil => intro sh hs; simp [Shape.at] at hs; subst hs; exact h
    | cons st q ih =>
      intro sh hs
      cases hq : R.at q with
      | none => simp [Shape.at, hq] at hs
      | some sh' => simp [Shape.at, hq] at hs; exact everyB_child hi (ih sh' hq) hs
  have := all q sh hs
  cases sh <;> simp only [everyB, Bool.and_eq_true] at this
  all_goals first | exact this.1 | exact this

/-! Equality of values, decidable by evaluation. -/
mutual
def sameV : Val → Val → Bool
  | .sc a, .sc b => a = b
  | .arr a, .arr b => sameVs a b
  | .tup a, .tup b => sameVs a b
  | .map a, .map b => sameEs a b
  | .alt n a, .alt m b => n = m && sameV a b
  | .init, .init => true
  | .user x a, .user y b => x = y && sameVs a b
  | .moved, .moved => true
  | _, _ => false
def sameVs : List Val → List Val → Bool
  | [], [] => true
  | a :: l, b :: l' => sameV a b && sameVs l l'
  | _, _ => false
def sameEs : List (String × Val) → List (String × Val) → Bool
  | [], [] => true
  | (k, a) :: l, (k', b) :: l' => k = k' && sameV a b && sameEs l l'
  | _, _ => false
end

mutual
theorem sameV_eq : ∀ {a b : Val}, sameV a b = true → a = b
  | .sc a, b, h => by cases b <;> simp_all [sameV]
  | .arr a, b, h => by cases b <;> simp only [sameV] at h <;> first | (rw [sameVs_eq h]) | simp at h
  | .tup a, b, h => by cases b <;> simp only [sameV] at h <;> first | (rw [sameVs_eq h]) | simp at h
  | .map a, b, h => by cases b <;> simp only [sameV] at h <;> first | (rw [sameEs_eq h]) | simp at h
  | .alt n a, b, h => by
    cases b <;> simp only [sameV, Bool.and_eq_true, decide_eq_true_eq] at h <;> first | (rw [h.1, sameV_eq h.2]) | simp at h
  | .init, b, h => by cases b <;> simp_all [sameV]
  | .user n a, b, h => by
    cases b <;> simp only [sameV, Bool.and_eq_true, decide_eq_true_eq] at h <;> first | (rw [h.1, sameVs_eq h.2]) | simp at h
  | .moved, b, h => by cases b <;> simp_all [sameV]
theorem sameVs_eq : ∀ {a b : List Val}, sameVs a b = true → a = b
  | [], b, h => by cases b <;> simp_all [sameVs]
  | a :: l, b, h => by
    cases b with
    | nil => simp [sameVs] at h
    | cons b l' => simp only [sameVs, Bool.and_eq_true] at h; rw [sameV_eq h.1, sameVs_eq h.2]
theorem sameEs_eq : ∀ {a b : List (String × Val)}, sameEs a b = true → a = b
  | [], b, h => by cases b <;> simp_all [sameEs]
  | (k, a) :: l, b, h => by
    cases b with
    | nil => simp [sameEs] at h
    | cons b l' =>
      obtain ⟨k', b⟩ := b
      simp only [sameEs, Bool.and_eq_true, decide_eq_true_eq] at h; rw [h.1.1, sameV_eq h.1.2, sameEs_eq h.2]
end

/-! Checks by evaluation for hypotheses of the theorems. -/

/-- What holds of every member, by evaluation. -/
theorem of_all {ms : List (MInfo × Shape)} (f : MInfo × Shape → Bool) (h : ms.all f = true) (n : Nat) (x : MInfo × Shape) (hx : ms[n]? = some x) :
    f x = true := List.all_eq_true.1 h x (List.mem_of_getElem? hx)

def fieldsOkB (fmt : Dbl → String) (u : Bool) (ms : List (MInfo × Shape)) (fs : List (String × Json)) : Bool :=
  fs.all fun kv => match lookup (.str kv.1) 0 ms with
    | some (_, m) => (match denote fmt m kv.2 with | .ok _ => true | .error _ => false)
    | none => !u

theorem fieldsOkB_sound {fmt u ms fs} (h : fieldsOkB fmt u ms fs = true) : FieldsOk fmt u ms fs := by
  intro kv hkv
  have := List.all_eq_true.1 h kv hkv
  cases hl : lookup (.str kv.1) 0 ms with
  | none => rw [hl] at this; simpa using this
  | some a =>
    rw [hl] at this
    obtain ⟨n, m⟩ := a
    simp only at this ⊢
    cases hd : denote fmt m kv.2 with
    | ok d => exact ⟨d, rfl⟩
    | error e => rw [hd] at this; simp at this

def distinctB (ms : List (MInfo × Shape)) : Bool :=
  (List.range ms.length).all fun a => (List.range ms.length).all fun b =>
    match ms[a]?, ms[b]? with
    | some x, some y => !x.1.name.cppEq y.1.name || a == b
    | _, _ => true

theorem distinctB_sound {ms} (h : distinctB ms = true) : DistinctNames ms := by
  intro a b x y ha hb hxy
  have h1 := List.all_eq_true.1 h a (List.mem_range.2 (List.getElem?_eq_some_iff.1 ha).1)
  have h2 := List.all_eq_true.1 h1 b (List.mem_range.2 (List.getElem?_eq_some_iff.1 hb).1)
  rw [ha, hb] at h2
  simp only [hxy, Bool.not_true, Bool.false_or, beq_iff_eq] at h2
  exact h2

def noEmbeddedB (ms : List (MInfo × Shape)) : Bool := ms.all fun x => match x.2 with
  | .union _ tm _ _ => tm != ""
  | _ => true

theorem noEmbeddedB_sound {ms} (h : noEmbeddedB ms = true) : NoEmbedded ms := by
  intro x hx ty st ms' he
  have := List.all_eq_true.1 h x hx
  rw [he] at this
  simp at this

/-! Equality of what parsers hold, by evaluation. -/
mutual
def sameD : D → D → Bool
  | .unset, .unset => true
  | .val a, .val b => sameV a b
  | .obj none ds, .obj none ds' => sameDs ds ds'
  | .obj (some a) ds, .obj (some b) ds' => sameV a b && sameDs ds ds'
  | .alt n d, .alt m d' => n = m && sameD d d'
  | .done, .done => true
  | _, _ => false
def sameDs : List D → List D → Bool
  | [], [] => true
  | d :: ds, d' :: ds' => sameD d d' && sameDs ds ds'
  | _, _ => false
end

mutual
theorem sameD_eq : ∀ {a b : D}, sameD a b = true → a = b
  | .unset, b, h => by cases b <;> simp_all [sameD]
  | .val a, b, h => by cases b <;> simp only [sameD] at h <;> first | (rw [sameV_eq h]) | simp at h
  | .obj none ds, b, h => by
    cases b with
    | obj v ds' =>
      cases v with
      | none => simp only [sameD] at h; rw [sameDs_eq h]
      | some v => simp [sameD] at h
    | _ => simp [sameD] at h
  | .obj (some a) ds, b, h => by
    cases b with
    | obj v ds' =>
      cases v with
      | none => simp [sameD] at h
      | some v => simp only [sameD, Bool.and_eq_true] at h; rw [sameV_eq h.1, sameDs_eq h.2]
    | _ => simp [sameD] at h
  | .alt n a, b, h => by
    cases b <;> simp only [sameD, Bool.and_eq_true, decide_eq_true_eq] at h <;> first | (rw [h.1, sameD_eq h.2]) | simp at h
  | .done, b, h => by cases b <;> simp_all [sameD]
theorem sameDs_eq : ∀ {a b : List D}, sameDs a b = true → a = b
  | [], b, h => by cases b <;> simp_all [sameDs]
  | a :: l, b, h => by
    cases b with
    | nil => simp [sameDs] at h
    | cons b l' => simp only [sameDs, Bool.and_eq_true] at h; rw [sameD_eq h.1, sameDs_eq h.2]
end

/-- Equality of the results of `denote`. -/
def sameR : Except String D → Except String D → Bool
  | .ok a, .ok b => sameD a b
  | .error a, .error b => a = b
  | _, _ => false

theorem sameR_eq {a b : Except String D} (h : sameR a b = true) : a = b := by
  cases a <;> cases b <;> simp only [sameR, decide_eq_true_eq] at h
  · rw [h]
  · simp at h
  · simp at h
  · rw [sameD_eq h]

end SJ.Demo
