/-
Two parsers of the same type with different pasts, side by side: the tokens.
-/
import Verif.Proofs.Alike
import Verif.Proofs.Acts

set_option linter.unusedVariables false

namespace SJ

variable {E : Env} {R : Shape} {L K : List Path}

theorem endP_len {sh p} {s s' : St} {a} (hd : (s.heap p).disp = true) (h : endP E R sh p s = .ok a s') : s'.stack.length ≤ s.stack.length - 1 := by
  rw [endP_pop hd] at h
  obtain ⟨_, s1, h1, h2⟩ := bind_ok_inv h
  have := pop_ok_len h2
  rw [complete_stack h1] at this; exact this

theorem endP_disp {sh p} {s s' : St} {a} (h : endP E R sh p s = .ok a s') (q) : (s'.heap q).disp = (s.heap q).disp := by
  have := endP_shrinks (E := E) (R := R) sh p s
  rw [h] at this; exact (this.2 q).1

theorem Alike.drop {s t : St} {p q r} (a : Alike R L K s t) (hs : s.stack = p :: q :: r) :
    Alike R L K { s with stack := q :: r } { t with stack := q :: r } :=
  ⟨rfl, a.log, a.heap, fun x hx => a.tree x (by rw [hs]; exact List.mem_cons_of_mem _ hx),
    fun x hx => a.dispS x (by rw [hs]; exact List.mem_cons_of_mem _ hx), fun x hx => a.dispT x (by rw [hs]; exact List.mem_cons_of_mem _ hx),
    by have := a.nested; rw [hs] at this; exact this.2, a.keys⟩

theorem Alike.val {s t : St} (a : Alike R L K s t) {p sh} (hR : R.at p = some sh) (hl : Live R L p) (hv : ∀ ty, sh ≠ .value ty) (hs : sh.isStorage = true) :
    (s.heap p).val = (t.heap p).val := (a.heap.cells p _ hR hl).val hs (Or.inl hv)

/-- The four mutually recursive methods. -/
theorem chain_alike (hw : R.wf = true) (hb : Blind R E) : ∀ n : Nat,
    (∀ s t : St, s.stack.length ≤ n → s.stack ≠ [] → Alike R L K s t → (∀ a ∈ s.stack, a ∈ L) → (∀ a ∈ s.stack.tail, a ∈ K) →
      Both (Alike R L K) (pop E R s) (pop E R t)) ∧
    (∀ (s t : St) p rest sh, s.stack.length ≤ n → Alike R L K s t → s.stack = p :: rest → (∀ a ∈ s.stack, a ∈ L) → (∀ a ∈ s.stack.tail, a ∈ K) →
      R.at p = some sh → (sh.isStorage = true → (s.heap p).val = (t.heap p).val) → Both (Alike R L K) (endP E R sh p s) (endP E R sh p t)) ∧
    (∀ s t : St, s.stack.length ≤ n → Alike R L K s t → (∀ a ∈ s.stack, a ∈ L) → (∀ a ∈ s.stack.tail, a ∈ K) →
      Both (Alike R L K) (mapEndD E R s) (mapEndD E R t)) ∧
    (∀ (s t : St) p rest, s.stack.length ≤ n → Alike R L K s t → s.stack = p :: rest → (∀ a ∈ s.stack, a ∈ L) → (∀ a ∈ s.stack, a ∈ K) →
      (∀ st e, R.at p = some (.map st e) → .elem :: p ∈ L) → Both (Alike R L K) (chP E R p s) (chP E R p t)) := by
  intro n
  induction n with
  | zero =>
    refine ⟨?_, ?_, ?_, ?_⟩
    · intro s t hl hne _; exact absurd (List.length_eq_zero_iff.1 (by omega)) hne
    · intro s t p rest sh hl _ hs; rw [hs] at hl; simp at hl
    · intro s t hl a _ _
      have : s.stack = [] := List.length_eq_zero_iff.1 (by omega)
      rw [mapEndD_nil this, mapEndD_nil (a.stack ▸ this)]; exact ⟨rfl, a⟩
    · intro s t p rest hl _ hs; rw [hs] at hl; simp at hl
  | succ n ih =>
    obtain ⟨ih1, ih2, ih3, ih4⟩ := ih
    have A : ∀ s t : St, s.stack.length ≤ n + 1 → s.stack ≠ [] → Alike R L K s t → (∀ a ∈ s.stack, a ∈ L) → (∀ a ∈ s.stack.tail, a ∈ K) →
        Both (Alike R L K) (pop E R s) (pop E R t) := by
      intro s t hl hne a hL hK
      match hs : s.stack with
      | [] => exact absurd hs hne
      | [p] =>
        rw [pop_one hs, pop_one (a.stack ▸ hs)]
        exact ⟨rfl, rfl, a.log, a.heap, fun x hx => (by simp at hx), fun x hx => (by simp at hx), fun x hx => (by simp at hx), trivial, a.keys⟩
      | p :: q :: r =>
        rw [pop_cons hs, pop_cons (a.stack ▸ hs)]
        rw [hs] at hL hK
        refine ih4 _ _ q r (by rw [hs] at hl; simp at hl ⊢; omega) (a.drop hs) rfl (fun x hx => hL x (List.mem_cons_of_mem _ hx)) (fun x hx => hK x hx) ?_
        intro st e hq
        have h1 := a.nested
        rw [hs] at h1
        obtain ⟨x, hx⟩ := h1.1
        obtain ⟨sh, hsh⟩ := a.tree p (by rw [hs]; simp)
        have : p = .elem :: q := by
          rw [hx] at hsh ⊢
          cases x with
          | elem => rfl
          | mem m => simp [Shape.at, hq, Shape.child] at hsh
          | ign => simp [Shape.at, hq, Shape.child] at hsh
        rw [← this]; exact hL p (by simp)
    have B : ∀ (s t : St) p rest sh, s.stack.length ≤ n + 1 → Alike R L K s t → s.stack = p :: rest → (∀ a ∈ s.stack, a ∈ L) → (∀ a ∈ s.stack.tail, a ∈ K) →
      R.at p = some sh → (sh.isStorage = true → (s.heap p).val = (t.heap p).val) → Both (Alike R L K) (endP E R sh p s) (endP E R sh p t) := by
      intro s t p rest sh hl a hs hL hK hR hv
      rw [endP_pop (a.dispS p (by simp [hs])), endP_pop (a.dispT p (by simp [hs]))]
      refine (complete_alike hw hb hR (.mem (hL p (by simp [hs]))) a hv).seq fun _ s1 t1 h1 _ a1 => ?_
      have h3 := complete_stack h1
      exact A s1 t1 (by rw [h3]; exact hl) (by rw [h3, hs]; simp) a1 (by rw [h3]; exact hL) (by rw [h3]; exact hK)
    have C : ∀ s t : St, s.stack.length ≤ n + 1 → Alike R L K s t → (∀ a ∈ s.stack, a ∈ L) → (∀ a ∈ s.stack.tail, a ∈ K) →
      Both (Alike R L K) (mapEndD E R s) (mapEndD E R t) := by
      intro s t hl a hL hK
      match hs : s.stack with
      | [] => rw [mapEndD_nil hs, mapEndD_nil (a.stack ▸ hs)]; exact ⟨rfl, a⟩
      | p :: r =>
        obtain ⟨sh, hR⟩ := a.tree p (by simp [hs])
        have ht := a.stack ▸ hs
        have hlp : Live R L p := .mem (hL p (by simp [hs]))
        cases sh with
        | value ty => rw [mapEndD_value hs hR, mapEndD_value ht hR]; exact ⟨rfl, a⟩
        | array st e => rw [mapEndD_array hs hR, mapEndD_array ht hR]; exact ⟨rfl, a⟩
        | object k u ms => rw [mapEndD_object hs hR, mapEndD_object ht hR]; exact B s t p r _ hl a hs hL hK hR (a.val hR hlp (by simp))
        | union ty tm st ms => rw [mapEndD_union hs hR, mapEndD_union ht hR]; exact B s t p r _ hl a hs hL hK hR (a.val hR hlp (by simp))
        | map st e => rw [mapEndD_map hs hR, mapEndD_map ht hR]; exact B s t p r _ hl a hs hL hK hR (a.val hR hlp (by simp))
        | ignore =>
          rw [mapEndD_ignore hs hR, mapEndD_ignore ht hR, ← (a.heap.cells p _ hR hlp).struct rfl]
          split
          · rename_i r' _
            have a1 := a.setStruct p (fun _ => r') (fun _ _ _ _ => rfl)
            dsimp only
            split
            · exact B _ _ p r _ hl a1 hs hL hK hR (by simp [Shape.isStorage])
            · exact ⟨rfl, a1⟩
          · exact ⟨rfl, a⟩
    refine ⟨A, B, C, ?_⟩
    intro s t p rest hl a hs hL hK hm
    obtain ⟨sh, hR⟩ := a.tree p (by simp [hs])
    have hlp : Live R L p := .mem (hL p (by simp [hs]))
    cases sh with
    | value ty => rw [chP_value hR]; exact ⟨rfl, a⟩
    | object k u ms => rw [chP_object hR]; exact ⟨rfl, a⟩
    | ignore => rw [chP_ignore hR]; exact ⟨rfl, a⟩
    | array st e => rw [chP_arrChild hR]; exact arrChild_alike hw hR hlp a
    | map st e => rw [chP_mapChild hR]; exact mapChild_alike hw hb hR hlp (.mem (hm _ _ hR)) (hK p (by simp [hs])) a
    | union ty tm st ms =>
      rw [chP_union hR]
      refine (B s t p rest _ hl a hs hL (fun x hx => hK x (List.mem_of_mem_tail hx)) hR (a.val hR hlp (by simp))).seq fun _ s1 t1 h1 h2 a1 => ?_
      split
      · have hd := a.dispS p (by simp [hs])
        have hd' := a.dispT p (by simp [hs])
        rw [bind_getC, bind_getC, endP_disp h1, endP_disp h2, hd, hd']
        simp only [if_true]
        have hsh := endP_shrinks (E := E) (R := R) (.union ty tm st ms) p s
        rw [h1] at hsh
        refine ih3 s1 t1 ?_ a1 (fun x hx => hL x (hsh.1.subset hx)) (fun x hx => hK x (hsh.1.subset (List.mem_of_mem_tail hx)))
        have := endP_len hd h1; omega
      · exact ⟨rfl, a1⟩

/-! ### Outcomes of one token -/

/-- The same outcome; the states after a normal end are related by `P`. -/
def Ends {α} (R : Shape) (P : St → St → Prop) : Res α → Res α → Prop
  | .ok a s, .ok b t => a = b ∧ P s t
  | .throw e s, .throw e' t => e = e' ∧ s.stack = t.stack ∧ Log.cut R s.log = Log.cut R t.log
  | .ub, .ub => True
  | .fuel, .fuel => True
  | _, _ => False

theorem Both.ends {α} {r r' : Res α} {P} (h : Both (Alike R L K) r r') (hP : ∀ a s t, r = .ok a s → r' = .ok a t → Alike R L K s t → P s t) : Ends R P r r' := by
  cases r <;> cases r' <;> try exact h.elim
  · obtain ⟨rfl, h⟩ := h; exact ⟨rfl, hP _ _ _ rfl rfl h⟩
  · exact ⟨h.1, h.2.stack, h.2.log⟩
  · trivial
  · trivial

theorem Ends.bindG {α β} {P Q : St → St → Prop} {m m' : M α} {f f' : α → M β} {s t : St} (h : Both P (m s) (m' t))
    (hx : ∀ s' t', P s' t' → s'.stack = t'.stack ∧ Log.cut R s'.log = Log.cut R t'.log)
    (hf : ∀ a s' t', m s = .ok a s' → m' t = .ok a t' → P s' t' → Ends R Q (f a s') (f' a t')) :
    Ends R Q (M.bind m f s) (M.bind m' f' t) := by
  unfold M.bind
  cases h1 : m s <;> cases h2 : m' t <;> rw [h1, h2] at h <;> try exact h.elim
  · obtain ⟨rfl, h⟩ := h; exact hf _ _ _ h1 h2 h
  · exact ⟨h.1, hx _ _ h.2⟩
  · trivial
  · trivial

theorem Ends.bindB {α β} {Q : St → St → Prop} {m m' : M α} {f f' : α → M β} {s t : St} (h : Both (Alike R L K) (m s) (m' t))
    (hf : ∀ a s' t', m s = .ok a s' → m' t = .ok a t' → Alike R L K s' t' → Ends R Q (f a s') (f' a t')) :
    Ends R Q (M.bind m f s) (M.bind m' f' t) := Ends.bindG h (fun _ _ a => ⟨a.stack, a.log⟩) hf

theorem Ends.throwStd {α} {P} (m : String) {s t : St} (a : Alike R L K s t) : Ends R P (throwStd m s : Res α) (throwStd m t) := ⟨rfl, a.stack, a.log⟩
theorem Ends.unexpected {α} {P} (x : Token) {s t : St} (a : Alike R L K s t) : Ends R P (unexpected x s : Res α) (unexpected x t) := ⟨rfl, a.stack, a.log⟩

/-- Between tokens. `exp`: the token before was a key (the parser on top may hold old data). -/
def Between2 (R : Shape) (exp : Bool) (s t : St) : Prop :=
  Alike R ([] :: if exp then s.stack.tail else s.stack) s.stack.tail s t

theorem Between2.of {s t : St} (a : Alike R L K s t) (h0 : Live R L []) (hL : ∀ x ∈ s.stack, Live R L x)
    (hK : ∀ x ∈ s.stack.tail, (∃ st e, R.at x = some (.map st e)) → x ∈ K) : Between2 R false s t := by
  refine a.mono (fun x hx => ?_) hK
  rcases List.mem_cons.1 hx with rfl | hx
  · exact h0
  · exact hL x hx

theorem Between2.exp {s t : St} (a : Alike R L K s t) (h0 : Live R L []) (hL : ∀ x ∈ s.stack.tail, Live R L x)
    (hK : ∀ x ∈ s.stack.tail, (∃ st e, R.at x = some (.map st e)) → x ∈ K) : Between2 R true s t := by
  refine a.mono (fun x hx => ?_) hK
  rcases List.mem_cons.1 hx with rfl | hx
  · exact h0
  · exact hL x hx

/-- A computation that only removes parsers. -/
theorem Both.settle {α} {s : St} {r r' : Res α} (h : Both (Alike R L K) r r') (hk : Shrinks s r) (h0 : [] ∈ L) (hL : ∀ x ∈ s.stack, x ∈ L)
    (hK : ∀ x ∈ s.stack.tail, x ∈ K) : Ends R (Between2 R false) r r' := by
  refine h.ends fun a s' t' h1 _ al => ?_
  rw [h1] at hk
  refine Between2.of al (.mem h0) (fun x hx => .mem (hL x (hk.1.subset hx))) fun x hx _ => hK x ?_
  obtain ⟨l, hl⟩ := hk.1
  rw [← hl]
  cases l with
  | nil => exact hx
  | cons y l => exact List.mem_append_right _ (List.mem_of_mem_tail hx)

theorem resetH_sedate {p sh} (hR : R.at p = some sh) (h : Heap) : Sedate h (resetH p sh h) := by
  intro q
  refine ⟨(resetH_ctl sh p h q).1, ?_⟩
  rcases resetH_rst sh p h hR q with e | ⟨sh', _, e⟩
  · rw [e]
  · rw [e]
    cases sh' with
    | object k u ms => cases k <;> rfl
    | _ => rfl

theorem Alike.reset {s t : St} (a : Alike R L K s t) {p sh} (hR : R.at p = some sh) :
    Alike R (p :: L) K { s with heap := resetH p sh s.heap } { t with heap := resetH p sh t.heap } :=
  a.locally a.log (a.heap.reset hR) (resetH_sedate hR _) (resetH_sedate hR _)

theorem Alike.push {s t : St} (a : Alike R L K s t) {p rest st} (hs : s.stack = p :: rest) (hR : InTree R (st :: p)) (h1 : (s.heap (st :: p)).disp = true)
    (h2 : (t.heap (st :: p)).disp = true) : Alike R L K { s with stack := (st :: p) :: s.stack } { t with stack := (st :: p) :: t.stack } := by
  refine ⟨?_, a.log, a.heap, ?_, ?_, ?_, ?_, a.keys⟩
  · dsimp only; rw [a.stack]
  · intro x hx; rcases List.mem_cons.1 hx with rfl | hx
    · exact hR
    · exact a.tree x hx
  · intro x hx; rcases List.mem_cons.1 hx with rfl | hx
    · exact h1
    · exact a.dispS x hx
  · intro x hx; rcases List.mem_cons.1 hx with rfl | hx
    · exact h2
    · exact a.dispT x hx
  · have := a.nested
    dsimp only
    rw [hs] at this ⊢
    exact ⟨⟨st, rfl⟩, this⟩

/-- The dispatcher has been passed on to the children of `p`. -/
def Passed (R : Shape) (p : Path) (s : St) : Prop := ∀ st, InTree R (st :: p) → (s.heap (st :: p)).disp = true

theorem onMember_alike {u ms x p rest} {s t : St} (a : Alike R L K s t) (hs : s.stack = p :: rest) (c1 : Passed R p s) (c2 : Passed R p t)
    (hmem : ∀ n sh, lookup x 0 ms = some (n, sh) → R.at (.mem n :: p) = some sh) (hign : R.at (.ign :: p) = some .ignore) :
    Both (fun s' t' => Alike R L K s' t' ∧ (s'.stack = s.stack ∨ ∃ st, s'.stack = (st :: p) :: s.stack)) (onMember E u ms p x s) (onMember E u ms p x t) := by
  unfold onMember
  have d1 := a.dispS p (by simp [hs])
  have d2 := a.dispT p (by simp [hs])
  rw [setNotEmpty_def, bind_modC, bind_modC, bind_getC, bind_getC]
  have a1 := a.notEmpty p
  have c : ∀ (h : Heap) st, ((h.upd p fun c => { c with empty := false }) (st :: p)).disp = (h (st :: p)).disp := fun h st => by
    rw [upd_other (by intro h; have := congrArg List.length h; simp at this)]
  simp only [upd_same, d1, d2, if_true]
  cases hlk : lookup x 0 ms with
  | some r =>
    obtain ⟨n, sh⟩ := r
    simp only
    have hm := hmem n sh hlk
    rw [bind_push, bind_push]
    have := a1.push (st := .mem n) hs ⟨_, hm⟩ (by simpa only [c] using c1 _ ⟨_, hm⟩) (by simpa only [c] using c2 _ ⟨_, hm⟩)
    exact ⟨rfl, this, Or.inr ⟨_, rfl⟩⟩
  | none =>
    simp only
    split
    · exact ⟨rfl, a1, Or.inl rfl⟩
    · rw [bind_push, bind_push]
      have := a1.push (st := .ign) hs ⟨_, hign⟩ (by simpa only [c] using c1 _ ⟨_, hign⟩) (by simpa only [c] using c2 _ ⟨_, hign⟩)
      exact ⟨rfl, this, Or.inr ⟨_, rfl⟩⟩

theorem pop_alike (hw : R.wf = true) (hb : Blind R E) {s t : St} (a : Alike R L K s t) (hne : s.stack ≠ []) (h0 : [] ∈ L) (hL : ∀ x ∈ s.stack, x ∈ L)
    (hK : ∀ x ∈ s.stack.tail, x ∈ K) : Ends R (Between2 R false) (pop E R s) (pop E R t) :=
  ((chain_alike hw hb _).1 s t (Nat.le_refl _) hne a hL hK).settle (pop_shrinks s) h0 hL hK

theorem endP_alike (hw : R.wf = true) (hb : Blind R E) {s t : St} (a : Alike R L K s t) {p rest sh} (hs : s.stack = p :: rest) (h0 : [] ∈ L)
    (hL : ∀ x ∈ s.stack, x ∈ L) (hK : ∀ x ∈ s.stack.tail, x ∈ K) (hR : R.at p = some sh) (hv : sh.isStorage = true → (s.heap p).val = (t.heap p).val) :
    Ends R (Between2 R false) (endP E R sh p s) (endP E R sh p t) :=
  ((chain_alike hw hb _).2.1 s t p rest sh (Nat.le_refl _) a hs hL hK hR hv).settle (endP_shrinks sh p s) h0 hL hK

theorem Alike.addLive {s t : St} (a : Alike R L K s t) {p} (h : Live R L p) : Alike R (p :: L) K s t :=
  a.mono (fun x hx => by rcases List.mem_cons.1 hx with rfl | hx; exact h; exact .mem hx) (fun _ h _ => h)

theorem value_no_child {p ty} (hR : R.at p = some (.value ty)) (st) : R.at (st :: p) = none := by
  cases st <;> simp [Shape.at, hR, Shape.child]

/-- A token that begins a value, for the parser on top, which is not an array in the middle of its elements. It may hold old data. -/
theorem opens_alike (hw : R.wf = true) (hb : Blind R E) {x : Token} (hx : x.opens = true) {s t : St} (a : Alike R L K s t) {p rest sh}
    (hs : s.stack = p :: rest) (hR : R.at p = some sh) (hL : ∀ y ∈ rest, y ∈ L) (hK : ∀ y ∈ rest, y ∈ K) (h0 : [] ∈ p :: L)
    (hst : (s.heap p).started = false) (hign : sh = .ignore → Live R L p) (c1 : (∀ b e, sh ≠ .array b e) → Passed R p s) (c2 : (∀ b e, sh ≠ .array b e) → Passed R p t) :
    Ends R (Between2 R false) (onF E R sh p x s) (onF E R sh p x t) := by
  have hst' : (t.heap p).started = false := by rw [← a.heap.started]; exact hst
  have d1 := a.dispS p (by simp [hs])
  have d2 := a.dispT p (by simp [hs])
  have hs' : t.stack = p :: rest := a.stack ▸ hs
  have hsub : ∀ y ∈ s.stack, y ∈ p :: L := by
    intro y hy; rw [hs] at hy
    rcases List.mem_cons.1 hy with rfl | hy
    · simp
    · exact List.mem_cons_of_mem _ (hL y hy)
  have htail : ∀ y ∈ s.stack.tail, y ∈ K := by rw [hs]; exact hK
  -- a reset without removing the parser
  have hreset : ∀ {α} (v : α), Ends R (Between2 R false) (.ok v { s with heap := resetH p sh s.heap }) (.ok v { t with heap := resetH p sh t.heap }) := by
    intro α v
    exact ⟨rfl, Between2.of (a.reset hR) (.mem h0) (fun y hy => .mem (hsub y hy)) fun y hy _ => htail y hy⟩
  have hnull : Ends R (Between2 R false) (nullBase E R sh p s) (nullBase E R sh p t) := by
    rw [nullBase_pop d1, nullBase_pop d2, bind_modH, bind_modH]
    exact pop_alike hw hb (a.reset hR) (by rw [hs]; simp) h0 hsub htail
  cases sh with
  | value ty =>
    cases x with
    | null => exact hnull
    | scalar v =>
      simp only [onF]
      split
      · rw [setNotEmpty_def, bind_modC, bind_modC, bind_modC, bind_modC, endP_pop (by simpa using d1), endP_pop (by simpa using d2)]
        unfold complete
        have e : ∀ (u : St), M.bind (M.bind (modC p fun c => { c with set := true }) fun _ => finish E (.value ty) p) (fun _ => pop E R) u =
            M.bind (finish E (.value ty) p) (fun _ => pop E R) { u with heap := u.heap.upd p fun c => { c with set := true } } := fun u => rfl
        rw [e, e]
        simp only [upd_upd]
        have a1 : Alike R (p :: L) K { s with heap := s.heap.upd p fun c => { c with empty := false, val := .sc v, set := true } }
            { t with heap := t.heap.upd p fun c => { c with empty := false, val := .sc v, set := true } } := by
          refine a.locally a.log (a.heap.add p _ _ hR (value_no_child hR) (a.heap.started p) ⟨rfl, rfl, fun _ _ => rfl, by simp, by simp⟩) ?_ ?_
          · exact Sedate.upd fun _ => ⟨rfl, rfl⟩
          · exact Sedate.upd fun _ => ⟨rfl, rfl⟩
        have hf := a1.finishCbVal hb (p := p) (by simp)
        refine Ends.bindB hf fun _ s1 t1 h1 h2 a2 => ?_
        have hst1 := ((Loc.finishCbVal (E := E) p).ok h1).1
        exact pop_alike hw hb a2 (by rw [hst1]; simp [hs]) h0 (by rw [hst1]; exact hsub) (by rw [hst1]; exact htail)
      · exact Ends.unexpected _ a
    | _ => exact Ends.unexpected _ a
  | ignore =>
    have hl := hign rfl
    have a1 := a.addLive hl
    have hstr := (a.heap.cells p _ hR hl).struct rfl
    cases x with
    | null => exact hnull
    | scalar v =>
      simp only [onF, bind_getC, hstr]
      split
      · exact endP_alike hw hb a1 hs h0 hsub htail hR (by simp [Shape.isStorage])
      · exact ⟨rfl, Between2.of a1 (.mem h0) (fun y hy => .mem (hsub y hy)) fun y hy _ => htail y hy⟩
    | mapStart =>
      refine ⟨rfl, Between2.of (a1.setStruct p (fun l => true :: l) fun _ _ _ _ => by rw [hstr]) (.mem h0) (fun y hy => .mem (hsub y hy)) fun y hy _ => htail y hy⟩
    | arrStart =>
      refine ⟨rfl, Between2.of (a1.setStruct p (fun l => false :: l) fun _ _ _ _ => by rw [hstr]) (.mem h0) (fun y hy => .mem (hsub y hy)) fun y hy _ => htail y hy⟩
    | _ => simp [Token.opens] at hx
  | object k u ms =>
    cases x with
    | null => exact hnull
    | mapStart => exact hreset ()
    | scalar v => exact Ends.unexpected _ a
    | arrStart => exact Ends.unexpected _ a
    | _ => simp [Token.opens] at hx
  | map b e =>
    cases x with
    | null => exact hnull
    | mapStart => exact hreset ()
    | scalar v => exact Ends.unexpected _ a
    | arrStart => exact Ends.unexpected _ a
    | _ => simp [Token.opens] at hx
  | array b e =>
    cases x with
    | null => simp only [onF, bind_getC, hst, hst', Bool.not_false, if_true]; exact hnull
    | mapStart => simp only [onF, bind_getC, hst, hst', Bool.not_false, if_true]; exact Ends.unexpected _ a
    | scalar v => simp only [onF, bind_getC, hst, hst', Bool.not_false, if_true]; exact Ends.unexpected _ a
    | arrStart =>
      simp only [onF, bind_getC, hst, hst', Bool.not_false, if_true]
      rw [bind_modH, bind_modH]
      have a1 := (a.reset hR).upd (p := p) (f := fun c => { c with started := true }) (g := fun c => { c with started := true }) (fun _ => ⟨rfl, rfl⟩)
        (fun _ => ⟨rfl, rfl⟩) rfl fun sh' hR' hl' => by
          have := (a.reset hR).heap.cells p _ hR' hl'
          exact ⟨this.set, this.empty, this.val, this.cur, this.struct⟩
      exact ⟨rfl, Between2.of a1 (.mem h0) (fun y hy => .mem (hsub y hy)) fun y hy _ => htail y hy⟩
    | _ => simp [Token.opens] at hx
  | union ty tm b ms =>
    have hnm : ∀ b e, R.at p ≠ some (.map b e) := fun b e h => by rw [hR] at h; simp at h
    cases x with
    | null => exact hnull
    | mapStart =>
      simp only [onF]
      split
      · exact Ends.throwStd _ a
      · exact hreset ()
    | arrStart => exact Ends.unexpected _ a
    | scalar v =>
      simp only [onF]
      split
      · rw [bind_modH, bind_modH]
        have hp : ∀ (u : St), Passed R p u → Passed R p { u with heap := resetH p (.union ty tm b ms) u.heap } := fun u h st hi => by
          rw [(resetH_ctl _ _ _ _).1]; exact h st hi
        have hm := onMember_alike (E := E) (u := true) (ms := ms) (x := v) (p := p) (rest := rest) (a.reset hR) hs (hp s (c1 (by simp))) (hp t (c2 (by simp)))
          (fun n sh hl => by obtain ⟨i, hi⟩ := lookup_mem hl; exact at_mem_union hR hi) (by simp [Shape.at, hR, Shape.child])
        refine Ends.bindG hm (fun _ _ h => ⟨h.1.stack, h.1.log⟩) fun r s1 t1 _ _ a1 => ?_
        obtain ⟨a1, hstk⟩ := a1
        have fin : ∀ (s1 t1 : St), Alike R (p :: L) K s1 t1 → (s1.stack = s.stack ∨ ∃ st, s1.stack = (st :: p) :: s.stack) → Between2 R false s1 t1 := by
          intro s1 t1 a1 hstk
          refine Between2.of a1 (.mem h0) (fun y hy => ?_) fun y hy hmap => ?_
          · rcases hstk with h | ⟨st, h⟩
            · rw [h] at hy; exact .mem (hsub y hy)
            · rw [h] at hy
              rcases List.mem_cons.1 hy with rfl | hy
              · exact Live.child (.mem (by simp)) hnm
              · exact .mem (hsub y hy)
          · rcases hstk with h | ⟨st, h⟩
            · rw [h] at hy; exact htail y hy
            · rw [h, List.tail_cons, hs] at hy
              rcases List.mem_cons.1 hy with rfl | hy
              · obtain ⟨b, e, h⟩ := hmap; exact absurd h (hnm b e)
              · exact hK y hy
        cases r with
        | none => exact ⟨rfl, fin s1 t1 a1 hstk⟩
        | some n => exact ⟨rfl, fin _ _ (a1.setCur p n) hstk⟩
      · exact Ends.unexpected _ a
    | _ => simp [Token.opens] at hx

end SJ
