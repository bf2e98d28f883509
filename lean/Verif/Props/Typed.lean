/-
C19, C34, C36: what users and callbacks get out of storage parsers is of the right type and never the remains of an earlier pop;
a parser that fails half-way is unset.

All theorems are about arbitrary use of a parser: any documents in a row, complete or not, failed or not (also because memory ran out in the middle of a token),
with arbitrary callbacks and with values popped at any time.
-/
import Verif.Proofs.Short
import Verif.Demo

set_option linter.unusedVariables false

namespace SJ

variable {E : Env} {R : Shape}

/-- C19. `get()` never returns (or returns something that contains) a moved-from value. -/
theorem C19_get (hwf : R.wf = true) (hd : CleanDefaults R) {rest : List Token} {s s' : St} {p : Path} {sh : Shape} {v : Val}
    (h : Feeding R rest s) (hR : R.at p = some sh) (hst : sh.isStorage = true) (hg : get p s = .ok v s') : v.clean = true := by
  unfold get at hg
  split at hg
  · rename_i hs
    injection hg with h1 _
    subst h1
    exact (((h.fed hwf hd).inv.cells p sh hR).val hst hs).2
  · simp at hg

/-- C19. Nor does `pop()`. -/
theorem C19_pop (hwf : R.wf = true) (hd : CleanDefaults R) {rest : List Token} {s s' : St} {p : Path} {sh : Shape} {v : Val}
    (h : Feeding R rest s) (hR : R.at p = some sh) (hst : sh.isStorage = true) (hg : pop' p s = .ok v s') : v.clean = true := by
  obtain ⟨hs, rfl, _⟩ := popVal_ok hg
  exact (((h.fed hwf hd).inv.cells p sh hR).val hst hs).2

/-- C19, C36. No callback ever gets a moved-from value, a value of another type than that of its parser, or a parser through which it can
see such a value, or a union whose current member does not exist. -/
theorem C19_callbacks (hwf : R.wf = true) (hd : CleanDefaults R) {rest : List Token} {s : St}
    (h : Feeding R rest s) : ∀ c ∈ s.log, c.Proper R := (h.fed hwf hd).inv.log

/-- C19, C36. `get<n>()` and `pop<n>()` of an object return values of the member's type without moved-from parts. -/
theorem C19_members (hwf : R.wf = true) (hd : CleanDefaults R) {rest : List Token} {s s' : St} {p : Path} {k u ms}
    {n : Nat} {i : MInfo} {sh : Shape} {v : Val} (h : Feeding R rest s) (hR : R.at p = some (.object k u ms)) (hn : ms[n]? = some (i, sh))
    (hst : sh.isStorage = true) (hg : getN p n i.dflt s = .ok v s' ∨ popN p n i.dflt s = .ok v s') : hasType sh v = true ∧ v.clean = true := by
  have hN := Neat.without hwf hd
  have hcell := ((h.fed hwf hd).inv.cells (.mem n :: p) sh (at_mem_object hR hn)).val hst
  have hdf := (hN.object hR hn).2
  unfold getN popN at hg
  cases hdd : i.dflt with
  | none =>
    simp only [hdd, Option.isSome, Bool.and_false, Bool.false_eq_true, if_false] at hg
    rcases hg with hg | hg
    · simp only [get] at hg
      split at hg
      · rename_i hs; injection hg with h1 _; subst h1; exact hcell hs
      · simp at hg
    · obtain ⟨hs, rfl, _⟩ := popVal_ok hg
      exact hcell hs
  | some w =>
    simp only [hdd, Option.isSome, Bool.and_true] at hg
    by_cases hs : (s.heap (.mem n :: p)).set = true
    · simp only [hs, Bool.not_true, Bool.false_eq_true, if_false] at hg
      rcases hg with hg | hg
      · simp [get, hs] at hg; rw [← hg.1]; exact hcell hs
      · obtain ⟨_, rfl, _⟩ := popVal_ok hg
        exact hcell hs
    · have hs : (s.heap (.mem n :: p)).set = false := by simpa using hs
      simp only [hs, Bool.not_false, if_true] at hg
      have : w = v := by rcases hg with hg | hg <;> injection hg
      subst this
      exact hdf w hdd

/-- C36. `get()` and `pop()` return a value of the type of the parser. -/
theorem C36_get (hwf : R.wf = true) (hd : CleanDefaults R) {rest : List Token} {s s' : St} {p : Path} {sh : Shape} {v : Val}
    (h : Feeding R rest s) (hR : R.at p = some sh) (hst : sh.isStorage = true) (hg : get p s = .ok v s' ∨ pop' p s = .ok v s') :
    hasType sh v = true := by
  have hcell := ((h.fed hwf hd).inv.cells p sh hR).val hst
  rcases hg with hg | hg
  · unfold get at hg
    split at hg
    · rename_i hs; injection hg with h1 _; subst h1; exact (hcell hs).1
    · simp at hg
  · obtain ⟨hs, rfl, _⟩ := popVal_ok hg
    exact (hcell hs).1

/-- C36. `currentMemberId()` of a union is the number of one of its members. -/
theorem C36_current_member (hwf : R.wf = true) (hd : CleanDefaults R) {rest : List Token} {s s' : St} {p : Path} {ty tm st ms}
    {n : Nat} (h : Feeding R rest s) (hR : R.at p = some (.union ty tm st ms)) (hg : currentMemberId p s = .ok n s') : n < ms.length := by
  unfold currentMemberId at hg
  split at hg
  · rename_i hs
    injection hg with h1 _
    subst h1
    exact ((h.fed hwf hd).inv.cells p _ hR).cur _ _ _ _ rfl hs
  · simp at hg

/-- C34. A parser in the middle of an object or array is unset; so it is if the document ends here. -/
theorem C34_unset_inside (hwf : R.wf = true) (hd : CleanDefaults R) {rest : List Token} {s : St} {p : Path} {sh : Shape}
    (h : Reading R p rest s) (hR : R.at p = some sh) (hv : ∀ ty, sh ≠ .value ty) (hi : sh ≠ .ignore) : isSet p s = false := by
  refine (((h.entered hwf hd).2 sh hR).unset ?_)
  cases sh with
  | value ty => exact absurd rfl (hv ty)
  | ignore => exact absurd rfl hi
  | _ => rfl

/-- What is left of a parser in the middle of an object or array after an exception. -/
theorem unset_left (hwf : R.wf = true) (hd : CleanDefaults R) {t : Token} {rest : List Token} {s s' : St} {p : Path} {sh : Shape} (h : Reading R p (t :: rest) s)
    (hR : R.at p = some sh) (hv : ∀ ty, sh ≠ .value ty) (hi : sh ≠ .ignore)
    (hl : ∀ q below, s.stack = q :: below → EntL R below s.heap → ((∀ sh, R.at q = some sh → Entered sh (s.heap q)) ∨ Starts t) → Ctl R s → Inv R s →
      Left R (fun k => q.length < k.length ∨ (k = q ∧ ¬ ∀ sh, R.at q = some sh → Entered sh (s.heap q))) s.log.length s') :
    isSet p s' = false ∨ (∃ a l, s'.log = .finish p a :: l ∧ s.log.length ≤ l.length) ∨ p ∉ s'.stack := by
  have hc : sh.composite = true := by
    cases sh with
    | value ty => exact absurd rfl (hv ty)
    | ignore => exact absurd rfl hi
    | _ => rfl
  obtain ⟨hp, he⟩ := h.entered hwf hd
  have hf := h.feeding.fed hwf hd
  have hctl := hf.ctl (by simp)
  match hs : s.stack with
  | [] => rw [hs] at hp; simp at hp
  | q :: below =>
    obtain ⟨h1, h2⟩ := hf.next hs
    have := hl q below hs h1 h2 hctl hf.inv
    by_cases hp' : p ∈ s'.stack
    · rcases this.2 p hp' sh hR hc (by
        rintro (h3 | ⟨rfl, h3⟩)
        · rw [hs] at hp
          rcases List.mem_cons.1 hp with rfl | hp
          · omega
          · have := stacked_shorter (hs ▸ hctl.linked) p hp
            omega
        · exact h3 he) with h3 | h3
      · exact Or.inl h3
      · exact Or.inr (Or.inl h3)
    · exact Or.inr (Or.inr hp')

/-- C34. A token makes the parse fail while the parser at `p` is in the middle of an object or array: it is unset afterwards, unless the last
thing that happened was a call of its own finish callback (which rejected the complete value), or the parser was already finished and
removed (and the failure is that of a parser around it). -/
theorem C34_failed (hwf : R.wf = true) (hd : CleanDefaults R) (hcb : CleanCallbacks E) {t : Token} {rest : List Token} {s s' : St} {p : Path}
    {sh : Shape} {e : Exn} (h : Reading R p (t :: rest) s) (hR : R.at p = some sh) (hv : ∀ ty, sh ≠ .value ty) (hi : sh ≠ .ignore)
    (ht : dispatch E R t s = .throw e s') :
    isSet p s' = false ∨ (∃ a l, s'.log = .finish p a :: l ∧ s.log.length ≤ l.length) ∨ p ∉ s'.stack := by
  refine unset_left hwf hd h hR hv hi fun q below hs h1 h2 hctl hinv => ?_
  have := dispatch_tidy (E := E) ⟨hwf, hd, hcb⟩ t hctl hinv hs h1 h2
  rw [ht] at this
  exact this

/-- C34, C54, C57. The same if memory runs out, or an operation of a user's type throws, while the token is handled (whichever it is). -/
theorem C34_short {F : Faults} (hwf : R.wf = true) (hd : CleanDefaults R) (hcb : CleanCallbacks E) {t : Token} {rest : List Token} {s s' : St} {p : Path}
    {sh : Shape} {n : Nat} {e : Exn} (h : Reading R p (t :: rest) s) (hR : R.at p = some sh) (hv : ∀ ty, sh ≠ .value ty) (hi : sh ≠ .ignore)
    (ht : MA.dispatch F E R t n s = .fault e s') :
    isSet p s' = false ∨ (∃ a l, s'.log = .finish p a :: l ∧ s.log.length ≤ l.length) ∨ p ∉ s'.stack :=
  unset_left hwf hd h hR hv hi fun q below hs h1 h2 hctl hinv => MA.dispatch_oom (F := F) (E := E) ⟨hwf, hd, hcb⟩ t hctl hinv hs h1 h2 n e s' ht

/-- C54 (with C19, C36; and C57, for the other kind of failure). Memory runs out at any allocation of any token: whatever can be got out of any storage parser then, or after any further use of the parser, has the
type of the parser and no moved-from parts; nor was any callback called with anything else. -/
theorem C54_values {F : Faults} (hwf : R.wf = true) (hd : CleanDefaults R) (hcb : CleanCallbacks E) {t : Token} {rest : List Token} {s s' : St} {n : Nat} {e : Exn}
    (h : Feeding R (t :: rest) s) (ht : MA.dispatch F E R t n s = .fault e s') :
    (∀ (p : Path) (sh : Shape) (v : Val) (s'' : St), R.at p = some sh → sh.isStorage = true → (get p s' = .ok v s'' ∨ pop' p s' = .ok v s'') → Proper sh v) ∧
    (∀ c ∈ s'.log, c.Proper R) := by
  have hF := Feeding.short h hcb ht
  refine ⟨fun p sh v s'' hR hst hg => ⟨C36_get hwf hd hF hR hst hg, ?_⟩, C19_callbacks hwf hd hF⟩
  rcases hg with hg | hg
  · exact C19_get hwf hd hF hR hst hg
  · exact C19_pop hwf hd hF hR hst hg

/-! ### The hypotheses are met

The parser `Demo.outer` read `Demo.doc`, its member `limits` is popped, and then a second document is read up to the middle of
`part`, where it fails. -/

section Examples

open Demo

theorem outer_wf : outer.wf = true := by decide
theorem outer_clean : CleanDefaults outer := cleanDflt_sound (by decide +kernel)
theorem noCb_clean : CleanCallbacks noCb := fun p cb l a v h => by simp [noCb] at h

/-- The state after `Demo.doc`. -/
def sDoc : St := after noCb outer (events doc) (St.init outer)

theorem sDoc_feeding : Feeding outer [] sDoc :=
  feed noCb_clean (rest := []) (by rw [List.append_nil]; exact .init doc) (after_ok (by decide +kernel))

theorem sDoc_part : (sDoc.heap [.mem 1]).set = true := by decide +kernel

/-- The member `part` (an `SAutoObject`) can be read with `get()`, `pop()` and `get<1>()`; its value is `(7, ["a", "b"])`. -/
example : ∃ v, get [.mem 1] sDoc = .ok v sDoc ∧ getN [] 1 none sDoc = .ok v sDoc ∧ v.clean = true ∧ hasType inner v = true ∧
    v = .tup [.sc (.int 7), .arr [.sc (.str "a"), .sc (.str "b")]] := by
  have hg : get [.mem 1] sDoc = .ok (sDoc.heap [.mem 1]).val sDoc := by simp [get, sDoc_part]
  exact ⟨_, hg, by simp [getN, sDoc_part, hg], C19_get outer_wf outer_clean sDoc_feeding rfl rfl hg,
    C36_get outer_wf outer_clean sDoc_feeding rfl rfl (Or.inl hg), sameV_eq (by decide +kernel)⟩

/-- `{"name": "y", "part": {"id": 1, "zzz": ` -/
def begin2 : List Token := [.mapStart, .mapKey "name", .scalar (.str "y"), .mapKey "part"]
def end2 : List Token := [.mapKey "zzz", .scalar (.int 2), .mapEnd, .mapEnd]
def doc2 : Json := .obj [("name", .sc (.str "y")), ("part", .obj [("id", .sc (.int 1)), ("zzz", .sc (.int 2))])]

/-- After the pop of `limits`, a new document is read until the failure at the unknown member. -/
def s2 : St := after noCb outer begin2 (St.restart { sDoc with heap := sDoc.heap.upd [.mem 2] fun c => { c with set := false, val := .moved } })

example : ∃ s t rest e s', Reading outer [.mem 1] (t :: rest) s ∧ dispatch noCb outer t s = .throw e s' ∧ [.mem 1] ∈ s'.stack ∧
    isSet [.mem 1] s = false ∧ isSet [.mem 1] s' = false := by
  have hpop : pop' [.mem 2] sDoc = .ok (sDoc.heap [.mem 2]).val { sDoc with heap := sDoc.heap.upd [.mem 2] fun c => { c with set := false, val := .moved } } := by
    have : (sDoc.heap [.mem 2]).set = true := by decide +kernel
    simp [pop', popVal, this]
  have hdoc : events doc2 = begin2 ++ (.mapStart :: .mapKey "id" :: .scalar (.int 1) :: end2) := by decide +kernel
  have hF : Feeding outer (.mapStart :: .mapKey "id" :: .scalar (.int 1) :: end2) s2 := feed noCb_clean (ts := begin2)
    (hdoc ▸ .next doc2 (.pop (sh := .map true (.value .int)) sDoc_feeding rfl rfl hpop)) (after_ok (by decide +kernel))
  have h1 : Reading outer [.mem 1] (.mapKey "id" :: .scalar (.int 1) :: end2) _ := .start (t := .mapStart) (below := [[]]) hF (by decide +kernel) (Or.inl rfl) noCb_clean (after_token (by decide +kernel)) (by decide +kernel)
  have h2 : Reading outer [.mem 1] (.scalar (.int 1) :: end2) _ := .token (t := .mapKey "id") h1 noCb_clean (after_token (by decide +kernel)) (by decide +kernel)
  have h3 : Reading outer [.mem 1] end2 _ := .token (t := .scalar (.int 1)) h2 noCb_clean (after_token (by decide +kernel)) (by decide +kernel)
  exact ⟨_, .mapKey "zzz", _, .std "Unexpected member zzz", _, h3, after_token_throw (by decide +kernel), by decide +kernel, by decide +kernel, by decide +kernel⟩

/-- The state when memory runs out after `n` allocations of a token. -/
def shortAfter (R : Shape) (n : Nat) (t : Token) (s : St) : St :=
  match MA.dispatch .memory noCb R t n s with
  | .fault _ s' => s'
  | _ => s

def shortOf (R : Shape) (n : Nat) (t : Token) (s : St) : Bool :=
  match MA.dispatch .memory noCb R t n s with
  | .fault _ _ => true
  | _ => false

theorem shortAfter_eq {R : Shape} {n : Nat} {t : Token} {s : St} (h : shortOf R n t s = true) : ∃ e, MA.dispatch .memory noCb R t n s = .fault e (shortAfter R n t s) := by
  unfold shortOf at h
  unfold shortAfter
  cases hr : MA.dispatch .memory noCb R t n s with
  | fault e s' => exact ⟨e, rfl⟩
  | _ => rw [hr] at h; simp at h

/-- `{"name": "y", "part": {"id": 1}`: memory runs out at the first closing brace, when the default value of the missing member is copied (and the value of `id` is
already moved out of its parser): `part` is unset, and `name` has the value of this document. -/
def doc3 : Json := .obj [("name", .sc (.str "y")), ("part", .obj [("id", .sc (.int 1))])]
def s3 : St := after noCb outer [.mapStart, .mapKey "name", .scalar (.str "y"), .mapKey "part"] sDoc.restart

example : ∃ s t rest e s', Reading outer [.mem 1] (t :: rest) s ∧ MA.dispatch .memory noCb outer t 0 s = .fault e s' ∧ [.mem 1] ∈ s'.stack ∧
    isSet [.mem 1] s' = false ∧ isSet [.mem 0] s' = true ∧ ∀ v s'', get [.mem 0] s' = .ok v s'' → hasType (.value .str) v = true := by
  have hdoc : events doc3 = [.mapStart, .mapKey "name", .scalar (.str "y"), .mapKey "part"] ++ [.mapStart, .mapKey "id", .scalar (.int 1), .mapEnd, .mapEnd] := by decide +kernel
  have hF : Feeding outer [.mapStart, .mapKey "id", .scalar (.int 1), .mapEnd, .mapEnd] s3 := feed noCb_clean
    (ts := [.mapStart, .mapKey "name", .scalar (.str "y"), .mapKey "part"]) (hdoc ▸ .next doc3 sDoc_feeding) (after_ok (by decide +kernel))
  have h1 : Reading outer [.mem 1] [.mapKey "id", .scalar (.int 1), .mapEnd, .mapEnd] _ := .start (t := .mapStart) (below := [[]]) hF (by decide +kernel) (Or.inl rfl) noCb_clean (after_token (by decide +kernel)) (by decide +kernel)
  have h2 : Reading outer [.mem 1] [.scalar (.int 1), .mapEnd, .mapEnd] _ := .token (t := .mapKey "id") h1 noCb_clean (after_token (by decide +kernel)) (by decide +kernel)
  have h3 : Reading outer [.mem 1] [.mapEnd, .mapEnd] _ := .token (t := .scalar (.int 1)) h2 noCb_clean (after_token (by decide +kernel)) (by decide +kernel)
  obtain ⟨e, he⟩ := shortAfter_eq (R := outer) (n := 0) (t := .mapEnd)
    (s := after noCb outer [.scalar (.int 1)] (after noCb outer [.mapKey "id"] (after noCb outer [.mapStart] s3))) (by decide +kernel)
  exact ⟨_, .mapEnd, _, e, _, h3, he, by decide +kernel, by decide +kernel, by decide +kernel,
    fun v s'' hg => C36_get outer_wf outer_clean (.short h3.feeding noCb_clean he) rfl rfl (Or.inl hg)⟩

end Examples

end SJ
