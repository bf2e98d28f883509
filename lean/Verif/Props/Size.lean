/-
C56: how much a parser tree holds in memory.
-/
import Verif.Proofs.Stream
import Verif.Proofs.Linear
import Verif.Props.Control
import Verif.Props.Reuse
import Verif.Props.Shared
import Verif.Demo

set_option linter.unusedVariables false

namespace SJ

variable {R : Shape} {L V D : Nat}

theorem Streaming.history {rest} {s : St} (h : Streaming R L V D rest s) : History R s := by
  induction h with
  | init j _ _ => exact .init
  | next j _ _ _ ih => exact .restart ih
  | token _ _ hr ih => exact .tokens [_] ih (by rw [run_one]; exact hr)
  | failed _ _ hr ih => exact .failed [_] _ ih (by rw [run_one]; exact hr)
  | pop _ hR hst hp ih => exact .pop ih hR hst hp
  | reset _ hR ih => exact .reset ih hR

/-- C56. If there is no `SArray` and no `SMap` in the tree then, however many documents of whatever length it is fed, successfully or not, the parsers of the tree together never
hold more than an amount that depends only on the tree, the longest string, the deepest nesting and the largest value a callback assigns; nor are there more current parsers
than the tree is deep plus one. -/
theorem C56_bounded (hw : R.wf = true) (hs : R.streams = true) {rest : List Token} {s : St} (h : Streaming R L V D rest s) :
    held s.heap R [] ≤ capacity L V D R ∧ s.stack.length ≤ R.height + 1 :=
  ⟨(h.streamed hw).held hw hs, (C30_stack h.history).2.2⟩

/-- C56, for each parser of any tree: one to whose value no `SArray` or `SMap` contributes holds a bounded amount, whatever else there is in the tree. -/
theorem C56_parser (hw : R.wf = true) {rest : List Token} {s : St} (h : Streaming R L V D rest s) {p : Path} {sh : Shape} (hR : R.at p = some sh) (hf : sh.flat = true) :
    (s.heap p).val.size ≤ cap L V sh ∧ (s.heap p).curKey.utf8ByteSize ≤ L ∧ (s.heap p).struct.length ≤ D := by
  have h1 := h.streamed hw
  have pl : Places R id := ⟨fun p q h => by rw [show p = q from h], fun p q st h => by rw [show p = q from h], fun p => rfl⟩
  obtain ⟨h2, h3⟩ := h1.modest.slim pl p sh hR
  exact ⟨h2 hf, h3, h1.all p⟩

/-- C56, with parsers shared by reference and callbacks that take values out of any parser: the values (and keys) are bounded, for any tokens whatsoever. -/
theorem C56_shared {ob : Path → Path} (pl : Places R ob) {s : St} (h : Shd.Modest ob R L V s) {p : Path} {sh : Shape} (hR : R.at p = some sh) (hf : sh.flat = true) :
    (s.heap (ob p)).val.size ≤ cap L V sh ∧ (s.heap (ob p)).curKey.utf8ByteSize ≤ L :=
  ⟨(h.slim pl p sh hR).1 hf, (h.slim pl p sh hR).2⟩

/-- C56. The value that is read from a document (by any tree) is at most as large as the document, up to a factor: the number of parsers in the tree plus the sizes of the default
values. -/
theorem C56_linear {E : Env} (hE : Passive E) (hw : R.wf = true) {s s' s'' : St} (h : Survived R s) {j : Json} (hok : okVal R j = true) (hr : run E R (events j) s = .ok () s')
    {v : Val} (hst : R.isStorage = true) (hg : get [] s' = .ok v s'') : v.size ≤ R.weight * j.size := by
  have hd := parse_denote hE (h.ready hw) hw hok
  cases hden : denote E.fmtDbl R j with
  | error e => rw [hden] at hd; obtain ⟨_, h1⟩ := hd; rw [hr] at h1; cases h1
  | ok d =>
    rw [hden] at hd
    obtain ⟨t, h1, _, h2, _⟩ := hd
    rw [hr] at h1; injection h1 with _ h1; subst h1
    have hs := denote_size j R R.weight d (Nat.le_refl _) hden
    unfold get at hg
    split at hg
    · rename_i hset
      injection hg with hg _; subst hg
      rw [h2.set] at hset
      have hfit := denote_fits j R d hw hden
      cases hv : d.value? with
      | some v => rw [(h2.value hv).2]; rw [D.vsize_some hv] at hs; exact hs
      | none => obtain ⟨v, hv'⟩ := fits_store hfit hst hset; rw [hv] at hv'; cases hv'
    · cases hg

/-! ### The bounds need their hypotheses, and these can be met -/

section Examples
open Demo

theorem zeros_elems (fmt) (n : Nat) : denElems fmt true (.value .int) (List.replicate n (.sc (.int 0))) = .ok (List.replicate n (.sc (.int 0))) := by
  induction n with
  | zero => rfl
  | succ n ih =>
    rw [List.replicate_succ, denElems]
    · rw [ih]; rfl
    · simp

/-- The tokens of a stream, several at a time. -/
theorem Streaming.tokens {E : Env} (hE : E.Modest V) : ∀ {ts rest : List Token} {s s' : St}, Streaming R L V D (ts ++ rest) s → run E R ts s = .ok () s' → Streaming R L V D rest s'
  | [], rest, s, s', h, hr => by injection hr with _ hr; exact hr ▸ h
  | t :: ts, rest, s, s', h, hr => by
    rw [run_cons] at hr
    obtain ⟨_, s1, h1, h2⟩ := bind_ok_inv hr
    exact (Streaming.token h hE h1).tokens hE h2

theorem noCb_modest : noCb.Modest V := by intro p cb l a v h; simp [noCb] at h

def zeros (n : Nat) : Json := .arr (List.replicate n (.sc (.int 0)))

theorem zeros_nesting (n : Nat) : (zeros n).nesting ≤ 1 := by
  have : nestingL (List.replicate n (.sc (.int 0))) = 0 := by
    induction n with
    | zero => rfl
    | succ n ih => rw [List.replicate_succ, nestingL, ih]; rfl
  simp only [zeros, Json.nesting, this]; omega

theorem zeros_bytes (n : Nat) : ∀ t ∈ events (zeros n), t.bytes ≤ 0 := by
  have : ∀ t ∈ elemEvents (List.replicate n (.sc (.int 0))), t.bytes ≤ 0 := by
    induction n with
    | zero => intro t h; cases h
    | succ n ih =>
      intro t h
      rw [List.replicate_succ, elemEvents, List.mem_append] at h
      rcases h with h | h
      · simp [events] at h; subst h; exact Nat.le_refl _
      · exact ih t h
  intro t h
  simp only [zeros, events, List.mem_cons, List.mem_append, List.not_mem_nil, or_false] at h
  rcases h with rfl | h | rfl
  · exact Nat.le_refl _
  · exact this t h
  · exact Nat.le_refl _

theorem zeros_ok (n : Nat) : okVal (.array true (.value .int)) (zeros n) = true := by
  have : okElems (.value .int) (List.replicate n (.sc (.int 0))) = true := by
    induction n with
    | zero => rfl
    | succ n ih => rw [List.replicate_succ]; simp only [okElems, ih]; rfl
  simpa [zeros, okVal] using this

theorem zeros_size (n : Nat) : n ≤ (Val.arr (List.replicate n (.sc (.int 0)))).size := by
  have : sizeL (List.replicate n (Val.sc (.int 0))) = n := by
    induction n with
    | zero => rfl
    | succ n ih => rw [List.replicate_succ, sizeL, ih]; simp only [Val.size, Scalar.bytes]; omega
  rw [Val.size, this]; omega

/-- An `SArray` holds as much as the document contains: there is no bound. -/
theorem C56_needs_flat (n : Nat) : ∃ s v, Streaming (.array true (.value .int)) 0 0 1 [] s ∧ get [] s = .ok v s ∧ n ≤ v.size := by
  have h := parse_denote (E := noCb) noCb_passive (Ready.init (.array true (.value .int))) rfl (zeros_ok n)
  have hd : denote noCb.fmtDbl (.array true (.value .int)) (zeros n) = .ok (.val (.arr (List.replicate n (.sc (.int 0))))) := by
    rw [zeros, denote, zeros_elems]; rfl
  rw [hd] at h
  obtain ⟨s', h1, _, h2, _⟩ := h
  refine ⟨s', _, ?_, ?_, zeros_size n⟩
  · exact Streaming.tokens noCb_modest (ts := events (zeros n)) (rest := []) (by rw [List.append_nil]; exact .init _ (zeros_nesting n) (zeros_bytes n)) h1
  · simp only [get, h2.1, if_true, h2.2]

/-- `Object{tuple{Member{"items", Array{SAutoObject{tuple{Member{"id", Value<int64_t>{}}, Member{"note", Value<std::string>{}, Presence::Optional, ""}}}}}, Member{"tags",
Map{Value<std::string>{}}}}}`: everything is handled by callbacks, nothing accumulates. -/
def feedTree : Shape := .object .plain false [
  ({ name := .str "items" }, .array false (.object .auto false [({ name := .str "id" }, .value .int), ({ name := .str "note", optional := true, dflt := some (.sc (.str "")) }, .value .str)])),
  ({ name := .str "tags", optional := true }, .map false (.value .str))]

def feedDoc : Json := .obj [("items", .arr [.obj [("id", .sc (.int 1)), ("note", .sc (.str "abc"))], .obj [("id", .sc (.int 2)), ("x", .arr [.arr [.sc (.int 3)]])]]),
  ("tags", .obj [("k", .sc (.str "v"))])]

/-- A document, then one with a wrong type, then the first part of a third. -/
def feed1 : St := after noCb feedTree (events feedDoc) (St.init feedTree)
def feedBad : Json := .obj [("tags", .obj [("k", .sc (.int 5))])]
def feed2 : St := after noCb feedTree ((events feedBad).take 4) feed1.restart
def feed3 : St := after noCb feedTree [.scalar (.int 5)] feed2
def feed4 : St := after noCb feedTree ((events feedDoc).take 15) feed3.restart

theorem feed_streaming : Streaming feedTree 5 0 5 ((events feedDoc).drop 15) feed4 := by
  have h1 : Streaming feedTree 5 0 5 [] feed1 :=
    Streaming.tokens noCb_modest (ts := events feedDoc) (by rw [List.append_nil]; exact .init _ (by decide +kernel) (by decide +kernel)) (after_ok (by decide +kernel))
  have h2 : Streaming feedTree 5 0 5 ((events feedBad).drop 4) feed2 :=
    Streaming.tokens noCb_modest (ts := (events feedBad).take 4) (by rw [List.take_append_drop]; exact .next _ h1 (by decide +kernel) (by decide +kernel)) (after_ok (by decide +kernel))
  have h3 : Streaming feedTree 5 0 5 [] feed3 :=
    Streaming.failed (E := noCb) (t := .scalar (.int 5)) (rest := [.mapEnd, .mapEnd]) h2 noCb_modest (after_token_throw (e := .std "Unexpected token integer") (by decide +kernel))
  exact Streaming.tokens noCb_modest (ts := (events feedDoc).take 15) (by rw [List.take_append_drop]; exact .next _ h3 (by decide +kernel) (by decide +kernel)) (after_ok (by decide +kernel))

/-- In the middle of an ignored value, in an array, in the third document. -/
example : held feed4.heap feedTree [] ≤ 127 ∧ feed4.stack.length ≤ 4 ∧ (feed4.heap [.ign, .elem, .mem 0]).struct.length = 2 := by
  have h := C56_bounded (R := feedTree) (by decide +kernel) (by decide +kernel) feed_streaming
  have h1 : capacity 5 0 5 feedTree = 127 := by decide +kernel
  have h2 : feedTree.height = 3 := by decide +kernel
  rw [h1, h2] at h
  exact ⟨h.1, h.2, by decide +kernel⟩

example : (feed4.heap [.elem, .mem 0]).val.size ≤ cap 5 0 (.object .auto false [({ name := .str "id" }, .value .int),
    ({ name := .str "note", optional := true, dflt := some (.sc (.str "")) }, .value .str)]) :=
  (C56_parser (R := feedTree) (by decide +kernel) feed_streaming (p := [.elem, .mem 0]) rfl (by decide +kernel)).1

/-- The document costs at most its own size times that of the tree. -/
example {v s''} (h : get [] (after noCb inner (events (.obj [("tags", .arr [.sc (.str "a"), .sc (.str "b")]), ("id", .sc (.int 7))])) (St.init inner)) = .ok v s'') :
    v.size ≤ inner.weight * (Json.obj [("tags", .arr [.sc (.str "a"), .sc (.str "b")]), ("id", .sc (.int 7))]).size :=
  C56_linear (E := noCb) noCb_passive (by decide +kernel) .init (by decide +kernel) (after_ok (by decide +kernel)) (by decide +kernel) h

end Examples

section SharedExample
open Demo Shd

/-- Two members with one parser between them. -/
example : ((afterS oneName quiet names docFirst (Shd.init oneName names)).heap (oneName [.mem 1])).val.size ≤ 1 + 5 :=
  (C56_shared (L := 5) (V := 0) oneName_places (.tokens (E := quiet) docFirst .init (by decide +kernel) (by intro p cb l a h v hcb; simp [quiet] at hcb) (afterS_ok (by decide +kernel)))
    (p := [.mem 1]) (sh := .value .str) rfl rfl).1

end SharedExample

end SJ
