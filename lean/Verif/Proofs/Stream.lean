/-
Streams of documents: what all the parsers together hold.
-/
import Verif.Proofs.Size
import Verif.Proofs.SharedId
import Verif.Proofs.Wane

set_option linter.unusedVariables false

namespace SJ

variable {E : Env} {R : Shape} {L V D : Nat}

/-! ### Nesting -/

mutual
theorem events_within : ∀ (j : Json) {d : Nat} {ts : List Token}, d + j.nesting ≤ D → Within D d ts → Within D d (events j ++ ts)
  | .null, d, ts, h, hw => hw
  | .sc _, d, ts, h, hw => hw
  | .arr l, d, ts, h, hw => by
    simp only [Json.nesting] at h
    simp only [events, List.cons_append, List.append_assoc, List.nil_append, Within]
    exact ⟨by omega, elemEvents_within l (by omega) (by simpa [Within] using hw)⟩
  | .obj fs, d, ts, h, hw => by
    simp only [Json.nesting] at h
    simp only [events, List.cons_append, List.append_assoc, List.nil_append, Within]
    exact ⟨by omega, fieldEvents_within fs (by omega) (by simpa [Within] using hw)⟩
theorem elemEvents_within : ∀ (l : List Json) {d : Nat} {ts : List Token}, d + nestingL l ≤ D → Within D d ts → Within D d (elemEvents l ++ ts)
  | [], d, ts, h, hw => hw
  | j :: l, d, ts, h, hw => by
    simp only [nestingL] at h
    simp only [elemEvents, List.append_assoc]
    exact events_within j (by omega) (elemEvents_within l (by omega) hw)
theorem fieldEvents_within : ∀ (fs : List (String × Json)) {d : Nat} {ts : List Token}, d + nestingF fs ≤ D → Within D d ts → Within D d (fieldEvents fs ++ ts)
  | [], d, ts, h, hw => hw
  | (k, j) :: fs, d, ts, h, hw => by
    simp only [nestingF] at h
    simp only [fieldEvents, List.cons_append, List.append_assoc, Within]
    exact events_within j (by omega) (fieldEvents_within fs (by omega) hw)
end

theorem document_within (j : Json) (h : j.nesting ≤ D) : Within D 0 (events j) := by
  have := events_within (D := D) j (d := 0) (ts := []) (by omega) trivial
  simpa using this

/-- Everything known in the middle of a stream. -/
structure Streamed (R : Shape) (L V D : Nat) (rest : List Token) (s : St) : Prop where
  modest : Shd.Modest id R L V s
  bytes : ∀ t ∈ rest, t.bytes ≤ L
  adj : Adj rest
  shallow : (∃ d, Shallow R D d rest s ∧ Within D d rest) ∨ rest = [] ∧ ∀ q, (s.heap q).struct.length ≤ D

theorem Env.Modest.far (h : E.Modest V) : (far E).Modest V := by
  intro p cb l a hp v hcb hv
  simp only [SJ.far, Option.map_eq_some_iff] at hcb
  obtain ⟨cb', hcb', rfl⟩ := hcb
  exact h p cb' l a v hcb' hv

theorem Shallow.start {D j} {s : St} (hwf : R.wf = true) (h : ∀ q, (s.heap q).struct.length ≤ D) (hs : s.stack = [[]]) : Shallow R D 0 (events j) s where
  top := fun q r hq hi => by
    rw [hs] at hq; cases hq; simp only [Shape.at] at hi; cases hi; simp [Shape.wf] at hwf
  below := fun q hi hn hm => by
    rw [hs] at hn hm; simp at hm; subst hm; simp at hn
  use := Or.inr ⟨events_begins j, fun q hi hn hm => by rw [hs] at hm; simp at hm⟩
  all := h

theorem Streamed.all {rest} {s : St} (h : Streamed R L V D rest s) : ∀ q, (s.heap q).struct.length ≤ D := by
  rcases h.shallow with ⟨d, h1, _⟩ | ⟨_, h1⟩
  · exact h1.all
  · exact h1

theorem run_one (t : Token) (s : St) : SJ.run E R [t] s = SJ.dispatch E R t s := by
  rw [SJ.run, M.bind]
  cases SJ.dispatch E R t s <;> rfl

theorem Streaming.streamed (hwf : R.wf = true) {rest} {s : St} (h : Streaming R L V D rest s) : Streamed R L V D rest s := by
  induction h with
  | init j hn hb =>
    refine ⟨by rw [← Shd.init_id]; exact .init, hb, (events_adj j).1, Or.inl ⟨0, Shallow.start hwf (fun q => ?_) rfl, document_within j hn⟩⟩
    have := (setDispH_only R [] Heap.fresh).struct q
    simp only [St.init, attach]; rw [this]; simp [Heap.fresh]
  | next j h hn hb ih => exact ⟨.restart ih.modest, hb, (events_adj j).1, Or.inl ⟨0, Shallow.start hwf (fun q => ih.all q) rfl, document_within j hn⟩⟩
  | @token E t rest s s' h hE hr ih =>
    refine ⟨.tokens (E := far E) [t] ih.modest (by simpa using ih.bytes t (by simp)) hE.far (by rw [Shd.run_id, run_one]; exact hr), fun t' ht => ih.bytes t' (by simp [ht]), ih.adj.tail, ?_⟩
    rcases ih.shallow with ⟨d, h1, h2⟩ | ⟨h1, _⟩
    · have := h1.step (E := E) hwf ih.adj h2
      rw [hr] at this
      exact Or.inl ⟨_, this, h2.next.1⟩
    · cases h1
  | @failed E t rest s s' e h hE hr ih =>
    refine ⟨.failed (E := far E) [t] e ih.modest (by simpa using ih.bytes t (by simp)) hE.far (by rw [Shd.run_id, run_one]; exact hr), by simp, trivial, ?_⟩
    rcases ih.shallow with ⟨d, h1, h2⟩ | ⟨h1, _⟩
    · have := h1.step (E := E) hwf ih.adj h2
      rw [hr] at this
      exact Or.inr ⟨rfl, this⟩
    · cases h1
  | @pop rest s s' p sh v h hR hst hp ih =>
    have hl := (Loc.popVal p).ok (s := s) (a := v) (s' := s') hp
    refine ⟨.pop (p := p) ih.modest hR hst hp, ih.bytes, ih.adj, ?_⟩
    rcases ih.shallow with ⟨d, h1, h2⟩ | ⟨h1, h2⟩
    · refine Or.inl ⟨d, ⟨?_, ?_, ?_, ?_⟩, h2⟩
      · rw [hl.1]; intro q r hq hi; rw [hl.2.struct]; exact h1.top q r hq hi
      · rw [hl.1]; intro q hi hn hm; rw [hl.2.struct]; exact h1.below q hi hn hm
      · rw [hl.1]; simp only [hl.2.struct]; exact h1.use
      · intro q; rw [hl.2.struct]; exact h1.all q
    · exact Or.inr ⟨h1, fun q => by rw [hl.2.struct]; exact h2 q⟩
  | @reset rest s p sh h hR ih =>
    have hsub := resetH_sub sh p s.heap
    have hnil : ∀ q, (s.heap q).struct = [] → (SJ.resetH p sh s.heap q).struct = [] := fun q hq => by
      have := hsub q; rw [hq] at this; exact List.suffix_nil.1 this
    refine ⟨?_, ih.bytes, ih.adj, ?_⟩
    · have := Shd.Modest.reset (p := p) ih.modest hR
      rw [Shd.reset', Shd.resetH_id] at this
      exact this
    · rcases ih.shallow with ⟨d, h1, h2⟩ | ⟨h1, h2⟩
      · refine Or.inl ⟨d, ⟨?_, ?_, ?_, ?_⟩, h2⟩
        · exact fun q r hq hi => Nat.le_trans (hsub q).length_le (h1.top q r hq hi)
        · exact fun q hi hn hm => hnil q (h1.below q hi hn hm)
        · exact h1.use.imp (fun f q hi hn hm => hnil q (f q hi hn hm)) fun f => ⟨f.1, fun q hi hn hm => hnil q (f.2 q hi hn hm)⟩
        · exact fun q => Nat.le_trans (hsub q).length_le (h1.all q)
      · exact Or.inr ⟨h1, fun q => Nat.le_trans (hsub q).length_le (h2 q)⟩

/-! ### The total -/

mutual
theorem streams_flat : ∀ sh : Shape, sh.streams = true → sh.flat = true
  | .value _, _ => rfl
  | .ignore, _ => rfl
  | .object k _ ms, h => by
    cases k with
    | auto => exact streams_flatMs ms (by simpa [Shape.streams] using h)
    | plain => rfl
    | custom => rfl
  | .union _ _ st ms, h => by
    cases st with
    | true => exact streams_flatMs ms (by simpa [Shape.streams] using h)
    | false => rfl
  | .array st e, h => by cases st with
    | true => simp [Shape.streams] at h
    | false => rfl
  | .map st e, h => by cases st with
    | true => simp [Shape.streams] at h
    | false => rfl
theorem streams_flatMs : ∀ ms : List (MInfo × Shape), streamsMs ms = true → flatMs ms = true
  | [], _ => rfl
  | (_, sh) :: ms, h => by
    simp only [streamsMs, Bool.and_eq_true] at h
    simp only [flatMs, Bool.and_eq_true]
    exact ⟨streams_flat sh h.1, streams_flatMs ms h.2⟩
end

mutual
theorem held_le {h : Heap} (hc : ∀ p sh, R.at p = some sh → sh.flat = true → (h p).held ≤ cap L V sh + L + D) :
    ∀ (sh : Shape) (p : Path), R.at p = some sh → sh.streams = true → held h sh p ≤ capacity L V D sh
  | .value _, p, hR, hs => hc p _ hR rfl
  | .ignore, p, hR, hs => hc p _ hR rfl
  | .object k u ms, p, hR, hs => by
    have h1 := hc p _ hR (streams_flat _ hs)
    have h2 : (h (.ign :: p)).held ≤ 1 + L + D := hc (.ign :: p) .ignore (at_ign_object hR) rfl
    have h3 := heldMs_le hc ms p 0 (fun k i sh hk => by rw [Nat.zero_add]; exact at_mem_object hR hk) (by simpa [Shape.streams] using hs)
    simp only [held, capacity]; omega
  | .union ty tm st ms, p, hR, hs => by
    have h1 := hc p _ hR (streams_flat _ hs)
    have h2 : (h (.ign :: p)).held ≤ 1 + L + D := hc (.ign :: p) .ignore (by simp [Shape.at, hR, Shape.child]) rfl
    have h3 := heldMs_le hc ms p 0 (fun k i sh hk => by rw [Nat.zero_add]; exact at_mem_union hR hk) (by simpa [Shape.streams] using hs)
    simp only [held, capacity]; omega
  | .array st e, p, hR, hs => by
    have h1 := hc p _ hR (streams_flat _ hs)
    have h2 := held_le hc e (.elem :: p) (at_elem_array hR) (by simp [Shape.streams] at hs; exact hs.2)
    simp only [held, capacity]; omega
  | .map st e, p, hR, hs => by
    have h1 := hc p _ hR (streams_flat _ hs)
    have h2 := held_le hc e (.elem :: p) (at_elem_map hR) (by simp [Shape.streams] at hs; exact hs.2)
    simp only [held, capacity]; omega
theorem heldMs_le {h : Heap} (hc : ∀ p sh, R.at p = some sh → sh.flat = true → (h p).held ≤ cap L V sh + L + D) :
    ∀ (ms : List (MInfo × Shape)) (p : Path) (n : Nat), (∀ k i sh, ms[k]? = some (i, sh) → R.at (.mem (n + k) :: p) = some sh) → streamsMs ms = true →
      heldMs h ms p n ≤ capacityMs L V D ms
  | [], p, n, hR, hs => by simp [heldMs, capacityMs]
  | (i, sh) :: ms, p, n, hR, hs => by
    simp only [streamsMs, Bool.and_eq_true] at hs
    have h1 := held_le hc sh (.mem n :: p) (hR 0 i sh rfl) hs.1
    have h2 := heldMs_le hc ms p (n + 1) (fun k i' sh' hk => by rw [show n + 1 + k = n + (k + 1) by omega]; exact hR (k + 1) i' sh' (by simpa using hk)) hs.2
    simp only [heldMs, capacityMs]; omega
end

theorem Streamed.held (hwf : R.wf = true) {rest} {s : St} (h : Streamed R L V D rest s) (hs : R.streams = true) : SJ.held s.heap R [] ≤ capacity L V D R := by
  have pl : Places R id := ⟨fun p q h => by rw [show p = q from h], fun p q st h => by rw [show p = q from h], fun p => rfl⟩
  refine held_le (fun p sh hR hf => ?_) R [] rfl hs
  obtain ⟨h1, h2⟩ := h.modest.slim pl p sh hR
  have := h.all p
  have := h1 hf
  simp only [id] at *
  simp only [Cell.held]; omega

end SJ
