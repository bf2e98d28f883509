/-
C22, C25, C26, C27, C37, C38, C39 and parts of C21, C23, C24: `parse()` and `finish()`.
-/
import Verif.Proofs.Split
import Verif.Props.Reuse
import Verif.Props.Callbacks
import Verif.DemoYajl

set_option linter.unusedVariables false

namespace SJ

variable {Y : Yajl} {E : Env} {R : Shape}

/-! ### C22 -/

/-- C22. The bytes of a (part of a) document can be given to `parse()` in any number of chunks, some of them possibly empty, in different
buffers or in the same buffer one after the other: the outcome and the final state (of the parsers, of the history of callback
calls, of YAJL) are those of a single call. -/
theorem C22_chunks {s : PSt Y} (h : Used Y R s) {cs : List Chunk} (hne : cs ≠ []) {whole : Chunk} {bs : List UInt8}
    (hc : chunkBytes cs = some bs) (hw : whole.mem.read whole.ptr whole.len = some bs) :
    SameResult (parseAll Y E R cs s) (parse Y E R whole.mem whole.ptr whole.len s) := by
  have hk := h.facts.1
  rw [parseAll_opened hk hne none 0, parse_opened hk none 0]
  exact (parseAll_settle cs hc (s.opened_going none 0) (s.opened_going none 0) rfl).trans (parse_settle (s.opened_going none 0) hw).symm

/-- C22, what a call reads: given a pointer to a buffer that starts with the bytes `bs`, `parse(data, bs.length)` is given exactly those
bytes, whatever follows them in the buffer (possibly nothing); and the bytes of a call that claims more than the buffer has do not exist. -/
theorem C22_bytes {m : Mem} {a : Nat} {bs extra : List UInt8} (h : m a = some (bs ++ extra)) :
    chunkBytes [⟨m, some a, bs.length⟩] = some bs ∧ ∀ n, (bs ++ extra).length < n → chunkBytes [⟨m, some a, n⟩] = none := by
  have e : m.read (some a) bs.length = some bs := by
    unfold Mem.read
    by_cases hz : bs.length = 0
    · rw [if_pos hz, List.length_eq_zero_iff.1 hz]
    · simp [hz, h]
  refine ⟨by simp [chunkBytes, e], fun n hn => ?_⟩
  have e' : m.read (some a) n = none := by
    unfold Mem.read
    have : n ≠ 0 := by omega
    have hl : ¬ n ≤ (bs ++ extra).length := by omega
    simp only [this, if_false, h, hl]
  simp [chunkBytes, e']

/-- C22, for the pieces themselves: the piece `bs` is given as the first `bs.length` bytes at the address `a` of the caller's memory `m`
at that time. However a text was cut into pieces, and wherever the pieces are put, the calls behave like one call with the whole text. -/
theorem C22_pieces {s : PSt Y} (h : Used Y R s) {ps : List (Mem × Nat × List UInt8)} (hne : ps ≠ [])
    (hps : ∀ p ∈ ps, ∃ extra, p.1 p.2.1 = some (p.2.2 ++ extra)) {m : Mem} {a : Nat} {extra : List UInt8}
    (hw : m a = some ((ps.map (·.2.2)).flatten ++ extra)) :
    SameResult (parseAll Y E R (ps.map fun p => ⟨p.1, some p.2.1, p.2.2.length⟩) s)
      (parse Y E R m (some a) (ps.map (·.2.2)).flatten.length s) := by
  have hne' : ps.map (fun p => (⟨p.1, some p.2.1, p.2.2.length⟩ : Chunk)) ≠ [] := by simpa using hne
  refine C22_chunks h hne' (whole := ⟨m, some a, (ps.map (·.2.2)).flatten.length⟩) (bs := (ps.map (·.2.2)).flatten) ?_ ?_
  · clear hne hw hne'
    induction ps with
    | nil => rfl
    | cons p ps ih =>
      obtain ⟨x, hx⟩ := hps p (by simp)
      have e := (C22_bytes hx).1
      have r : p.1.read (some p.2.1) p.2.2.length = some p.2.2 := by
        revert e
        simp only [chunkBytes]
        cases p.1.read (some p.2.1) p.2.2.length <;> simp
      simp only [List.map_cons, chunkBytes, r, ih (fun q hq => hps q (by simp [hq])), List.flatten_cons]
  · have e := (C22_bytes hw).1
    revert e
    simp only [chunkBytes]
    cases m.read (some a) (ps.map (·.2.2)).flatten.length <;> simp

/-- C22, with the `finish()` at the end; the buffers last used still exist then. -/
theorem C22_document {s : PSt Y} (h : Used Y R s) {cs : List Chunk} (hne : cs ≠ []) {whole : Chunk} {bs : List UInt8}
    (hc : chunkBytes cs = some bs) (hw : whole.mem.read whole.ptr whole.len = some bs) {m m' : Mem}
    (hm : ∀ c, cs.getLast? = some c → (m.read c.ptr c.len).isSome) (hm' : (m'.read whole.ptr whole.len).isSome) :
    SameResult (parseDocument Y E R cs m s) (parseDocument Y E R [whole] m' s) := by
  have h1 := C22_chunks (E := E) h hne hc hw
  unfold parseDocument P.bind
  have e : parseAll Y E R [whole] s = parse Y E R whole.mem whole.ptr whole.len s := by
    simp only [parseAll, P.bind]
    cases parse Y E R whole.mem whole.ptr whole.len s <;> rfl
  rw [e]
  cases hp : parse Y E R whole.mem whole.ptr whole.len s with
  | ok a s' =>
    rw [hp] at h1
    cases hpa : parseAll Y E R cs s with
    | ok a s1 =>
      rw [hpa] at h1
      cases h1 with
      | ok h1 =>
        refine finish_same h1 ?_ ?_
        · cases hl : cs.getLast? with
          | none => simp at hl; exact absurd hl hne
          | some c =>
            obtain ⟨d1, d2⟩ := parseAll_data h.facts.1 hl hpa
            rw [d1, d2]; exact hm c hl
        · obtain ⟨d1, d2, _⟩ := parse_data h.facts.1 hp
          rw [d1, d2]; exact hm'
    | throw x s1 => rw [hpa] at h1; cases h1
    | ub => rw [hpa] at h1; cases h1
    | fuel => rw [hpa] at h1; cases h1
  | throw x s' =>
    rw [hp] at h1
    cases hpa : parseAll Y E R cs s with
    | throw x s1 => rw [hpa] at h1; exact h1
    | ok a s1 => rw [hpa] at h1; cases h1
    | ub => rw [hpa] at h1; cases h1
    | fuel => rw [hpa] at h1; cases h1
  | ub =>
    rw [hp] at h1
    cases hpa : parseAll Y E R cs s with
    | throw x s1 => rw [hpa] at h1; cases h1
    | ok a s1 => rw [hpa] at h1; cases h1
    | ub => exact .ub
    | fuel => rw [hpa] at h1; cases h1
  | fuel =>
    rw [hp] at h1
    cases hpa : parseAll Y E R cs s with
    | throw x s1 => rw [hpa] at h1; cases h1
    | ok a s1 => rw [hpa] at h1; cases h1
    | ub => rw [hpa] at h1; cases h1
    | fuel => exact .fuel

/-! ### C25 -/

theorem chunks_readable : ∀ {cs : List Chunk} {s s' : PSt Y}, parseAll Y E R cs s = .ok () s' → ∃ bs, chunkBytes cs = some bs
  | [], s, s', h => ⟨[], rfl⟩
  | c :: cs, s, s', h => by
    simp only [parseAll, P.bind] at h
    cases hp : parse Y E R c.mem c.ptr c.len s with
    | ok a s1 =>
      rw [hp] at h
      obtain ⟨bs, hbs⟩ := chunks_readable h
      cases hm : c.mem.read c.ptr c.len with
      | none => rw [parse_unreadable hm] at hp; simp at hp
      | some b => exact ⟨b ++ bs, by simp only [chunkBytes, hm, hbs]⟩
    | throw x s1 => rw [hp] at h; simp at h
    | ub => rw [hp] at h; simp at h
    | fuel => rw [hp] at h; simp at h

/-- C25. A document (given in chunks) is finished successfully if and only if YAJL finds that it is complete, the parser tree accepts
all its tokens, and no parser is left waiting (the root was completed). -/
theorem C25_document {s : PSt Y} (h : Between Y R s) {cs : List Chunk} (hne : cs ≠ []) {m : Mem}
    (hm : ∀ c, cs.getLast? = some c → (m.read c.ptr c.len).isSome) (st : St) :
    (∃ s', parseDocument Y E R cs m s = .ok () s' ∧ s'.st = st) ↔
    (∃ bs ts, chunkBytes cs = some bs ∧ Y.Document bs ts ∧ run E R ts s.st.restart = .ok () st ∧ st.stack = []) := by
  constructor
  · rintro ⟨s', hp, rfl⟩
    unfold parseDocument P.bind at hp
    cases hpa : parseAll Y E R cs s with
    | ok a s1 =>
      rw [hpa] at hp
      simp only at hp
      obtain ⟨bs, hbs⟩ := chunks_readable hpa
      obtain ⟨hu, hre, htr⟩ := h.facts
      have ha := parseAll_run (E := E) (R := R) hu.facts.1 hne hbs
      rw [hre, htr] at ha
      cases hr : run E R (Y.scan Y.alloc bs).2.1 s.st.restart with
      | ok a st1 =>
        rw [hr] at ha; simp only at ha
        by_cases hb : (Y.scan Y.alloc bs).2.2 = true
        · rw [if_pos hb] at ha
          obtain ⟨s2, hp2, hs2⟩ := ha
          rw [hpa] at hp2; injection hp2 with _ hp2; subst hp2
          have e1 : s1.alive = true := (congrArg (·.alive) hs2 :)
          have e2 : s1.handle = (Y.scan Y.alloc bs).1 := (congrArg (·.handle) hs2 :)
          have e3 : s1.st = st1 := (congrArg (·.st) hs2 :)
          have hf := finishDoc_run (E := E) (R := R) e1 m
          rw [e2, e3] at hf
          cases hr2 : run E R (Y.complete (Y.scan Y.alloc bs).1).2.1 st1 with
          | ok a st2 =>
            rw [hr2] at hf; simp only at hf
            by_cases hb2 : (Y.complete (Y.scan Y.alloc bs).1).2.2 = true
            · rw [if_pos hb2] at hf
              by_cases hs : st2.stack = []
              · rw [if_pos hs] at hf
                rw [hp] at hf; injection hf with _ hf; subst hf
                refine ⟨bs, (Y.scan Y.alloc bs).2.1 ++ (Y.complete (Y.scan Y.alloc bs).1).2.1, hbs,
                  ⟨(Y.scan Y.alloc bs).1, (Y.complete (Y.scan Y.alloc bs).1).1, _, _, ?_, ?_, rfl⟩, ?_, hs⟩
                · exact Prod.ext rfl (Prod.ext rfl hb)
                · exact Prod.ext rfl (Prod.ext rfl hb2)
                · rw [run_append']; unfold M.bind; rw [hr]; exact hr2
              · rw [if_neg hs] at hf; rw [hp] at hf; simp at hf
            · rw [if_neg hb2] at hf
              rw [hp] at hf
              split at hf <;> simp at hf
          | throw e st2 => rw [hr2] at hf; obtain ⟨h3, hf⟩ := hf; rw [hp] at hf; split at hf <;> simp at hf
          | ub => rw [hr2] at hf; simp only at hf; rw [hp] at hf; simp at hf
          | fuel => rw [hr2] at hf; simp only at hf; rw [hp] at hf; simp at hf
        · rw [if_neg hb] at ha
          obtain ⟨y, s2, hp2, _⟩ := ha
          rw [hpa] at hp2; simp at hp2
      | throw e st1 => rw [hr] at ha; obtain ⟨y, s2, hp2, _⟩ := ha; rw [hpa] at hp2; simp at hp2
      | ub => rw [hr] at ha; simp only at ha; rw [hpa] at ha; simp at ha
      | fuel => rw [hr] at ha; simp only at ha; rw [hpa] at ha; simp at ha
    | throw x s1 => rw [hpa] at hp; simp at hp
    | ub => rw [hpa] at hp; simp at hp
    | fuel => rw [hpa] at hp; simp at hp
  · rintro ⟨bs, ts, hbs, hd, hr, hs⟩
    have := parseDocument_run (E := E) (R := R) h hne hbs hd hm
    rw [hr] at this
    simp only at this
    rw [if_pos hs] at this
    exact this

/-- C25. In any state, `finish()` does not return normally while a parser is still on the dispatcher's stack. -/
theorem C25_no_leftover {s s' : PSt Y} {m : Mem} (h : finishDoc Y E R m s = .ok () s') : s'.st.stack = [] := by
  rcases finishDoc_out (E := E) (R := R) (s := s) (m := m) with ⟨st, h', ts, hr, hs, ha, he⟩ | ⟨st, h', ts, sj, y, hr, he | he⟩ | ⟨st, h', ts, e, y, hr, he⟩ | he | he
  all_goals rw [he] at h
  · injection h with _ h; subst h; exact hs
  all_goals simp at h

/-! ### C26 -/

/-- C26. Whatever `parse()` throws is a `ParsingError`. -/
theorem C26_parse {s s' : PSt Y} (h : Used Y R s) {m : Mem} {p : Ptr} {len : Nat} {x : Thrown} (hp : parse Y E R m p len s = .throw x s') :
    ∃ sj y, x = .parsing sj y := by
  rcases parse_out (E := E) (R := R) h.facts.1 (m := m) (p := p) (len := len) with ⟨st, h', ts, hr, he⟩ | ⟨st, h', ts, y, hr, he⟩ | ⟨st, h', ts, e, y, hr, he⟩ | he | he
  all_goals rw [he] at hp
  · simp at hp
  · injection hp with hp _; exact ⟨_, _, hp.symm⟩
  · injection hp with hp _; exact ⟨_, _, hp.symm⟩
  all_goals simp at hp

/-- C26. Whatever `finish()` throws is a `ParsingError`. -/
theorem C26_finish {s s' : PSt Y} {m : Mem} {x : Thrown} (hp : finishDoc Y E R m s = .throw x s') : ∃ sj y, x = .parsing sj y := by
  rcases finishDoc_out (E := E) (R := R) (s := s) (m := m) with ⟨st, h', ts, hr, hs, ha, he⟩ | ⟨st, h', ts, sj, y, hr, he | he⟩ | ⟨st, h', ts, e, y, hr, he⟩ | he | he
  all_goals rw [he] at hp
  · simp at hp
  · injection hp with hp _; exact ⟨_, _, hp.symm⟩
  · injection hp with hp _; exact ⟨_, _, hp.symm⟩
  · injection hp with hp _; exact ⟨_, _, hp.symm⟩
  all_goals simp at hp

/-- C26, C28, C29. `parse()` of a readable buffer returns or throws a `ParsingError`: nothing else can happen, whatever happened before,
whatever the bytes and the callbacks are (for parser trees without arrays of unions). -/
theorem C26_parse_total {s : PSt Y} (h : Used Y R s) (hu : ¬ HasUnionArray R) {m : Mem} {p : Ptr} {len : Nat} (hm : (m.read p len).isSome) :
    (∃ s', parse Y E R m p len s = .ok () s') ∨ (∃ sj y s', parse Y E R m p len s = .throw (.parsing sj y) s') := by
  obtain ⟨bs, hm⟩ := Option.isSome_iff_exists.1 hm
  have hp := parse_run (E := E) (R := R) h.facts.1 hm
  have hh := PSt.tree_history h.facts.2
  cases hr : run E R (Y.scan s.reader bs).2.1 s.tree with
  | ok a st =>
    rw [hr] at hp; simp only at hp
    by_cases hb : (Y.scan s.reader bs).2.2 = true
    · rw [if_pos hb] at hp; exact Or.inl ⟨_, hp⟩
    · rw [if_neg hb] at hp; exact Or.inr ⟨_, _, _, hp⟩
  | throw e st => rw [hr] at hp; obtain ⟨h', hp⟩ := hp; exact Or.inr ⟨_, _, _, hp⟩
  | ub => exact absurd hr (C29_no_ub_partial hh hu _)
  | fuel => exact absurd hr (C28_run _ _)

/-- C26, C28, C29. The same for `finish()`, as long as the buffer of the last `parse()` call exists. -/
theorem C26_finish_total {s : PSt Y} (h : Used Y R s) (hu : ¬ HasUnionArray R) {m : Mem} (hm : (m.read s.data s.len).isSome) :
    (∃ s', finishDoc Y E R m s = .ok () s') ∨ (∃ sj y s', finishDoc Y E R m s = .throw (.parsing sj y) s') := by
  obtain ⟨bs, hm⟩ := Option.isSome_iff_exists.1 hm
  rcases Bool.eq_false_or_eq_true s.alive with ha | ha
  · have hp := finishDoc_run (E := E) (R := R) ha m
    cases hr : run E R (Y.complete s.handle).2.1 s.st with
    | ok a st =>
      rw [hr] at hp; simp only at hp
      by_cases hb : (Y.complete s.handle).2.2 = true
      · rw [if_pos hb] at hp
        by_cases hs : st.stack = []
        · rw [if_pos hs] at hp; exact Or.inl ⟨_, hp⟩
        · rw [if_neg hs] at hp; exact Or.inr ⟨_, _, _, hp⟩
      · rw [if_neg hb, hm] at hp; exact Or.inr ⟨_, _, _, hp⟩
    | throw e st => rw [hr] at hp; obtain ⟨h', hp⟩ := hp; rw [hm] at hp; exact Or.inr ⟨_, _, _, hp⟩
    | ub => exact absurd hr (C29_no_ub_partial h.facts.2 hu _)
    | fuel => exact absurd hr (C28_run _ _)
  · have hp := finishDoc_dead (E := E) (R := R) ha m
    rw [hm] at hp; exact Or.inr ⟨_, _, _, hp⟩

/-! ### C27 -/

/-- C27. If `parse()` throws, then either the parser tree refused (by an exception `e`) one of the tokens that YAJL reported during this very
call, and `sjparserError()` is the text of this exception; or it accepted them all, YAJL found an error in these very bytes, and
`sjparserError()` is empty. In the first case `what()` is the text of `e` (unless it is empty), in the second it is YAJL's text. -/
theorem C27_parse {s s' : PSt Y} (h : Used Y R s) {m : Mem} {p : Ptr} {len : Nat} {sj y : String}
    (hp : parse Y E R m p len s = .throw (.parsing sj y) s') :
    ∃ bs, m.read p len = some bs ∧
      ((∃ e st, run E R (Y.scan s.reader bs).2.1 s.tree = .throw e st ∧ sj = e.text ∧ (e.text ≠ "" → parsingWhat sj y = e.text)) ∨
       (∃ st, run E R (Y.scan s.reader bs).2.1 s.tree = .ok () st ∧ (Y.scan s.reader bs).2.2 = false ∧ sj = "" ∧ parsingWhat sj y = y)) := by
  cases hm : m.read p len with
  | none => rw [parse_unreadable hm] at hp; simp at hp
  | some bs =>
    refine ⟨bs, rfl, ?_⟩
    have hr := parse_run (E := E) (R := R) h.facts.1 hm
    cases hrun : run E R (Y.scan s.reader bs).2.1 s.tree with
    | ok a st =>
      rw [hrun] at hr; simp only at hr
      by_cases hb : (Y.scan s.reader bs).2.2 = true
      · rw [if_pos hb] at hr; rw [hr] at hp; simp at hp
      · rw [if_neg hb] at hr; rw [hr] at hp
        injection hp with hp _
        injection hp with hp1 hp2
        refine Or.inr ⟨st, rfl, by simpa using hb, hp1.symm, ?_⟩
        rw [← hp1]; rfl
    | throw e st =>
      rw [hrun] at hr; obtain ⟨h', hr⟩ := hr
      rw [hr] at hp
      injection hp with hp _
      injection hp with hp1 hp2
      refine Or.inl ⟨e, st, rfl, hp1.symm, fun hne => ?_⟩
      rw [← hp1]; unfold parsingWhat; rw [if_pos hne]
    | ub => rw [hrun] at hr; simp only at hr; rw [hr] at hp; simp at hp
    | fuel => rw [hrun] at hr; simp only at hr; rw [hr] at hp; simp at hp

/-- C27. The same for a `finish()` that follows a successful `parse()`: the error reported is that of a token reported now; or none, and YAJL
did not find the document complete; or that parsers are left on the stack. (After a `parse()` that threw: `C37_finish_again`.) -/
theorem C27_finish {s₀ s s' : PSt Y} (h : Used Y R s₀) {m₀ m : Mem} {p : Ptr} {len : Nat} {sj y : String}
    (h0 : parse Y E R m₀ p len s₀ = .ok () s) (hp : finishDoc Y E R m s = .throw (.parsing sj y) s') :
    (∃ e st, run E R (Y.complete s.handle).2.1 s.st = .throw e st ∧ sj = e.text) ∨
    (∃ st, run E R (Y.complete s.handle).2.1 s.st = .ok () st ∧ (Y.complete s.handle).2.2 = false ∧ sj = "") ∨
    (∃ st, run E R (Y.complete s.handle).2.1 s.st = .ok () st ∧ (Y.complete s.handle).2.2 = true ∧ st.stack ≠ [] ∧
      sj = "Dispatcher parsers stack is not empty in the end" ∧ y = "") := by
  rcases parse_out (E := E) (R := R) h.facts.1 (m := m₀) (p := p) (len := len) with ⟨st, h', ts, hr, he⟩ | ⟨st, h', ts, y, hr, he⟩ | ⟨st, h', ts, e, y, hr, he⟩ | he | he
  all_goals rw [he] at h0
  rotate_left
  all_goals first
    | (simp at h0; done)
    | skip
  injection h0 with _ h0
  have ha : s.alive = true := by rw [← h0]; rfl
  have herr : s.err = "" := by rw [← h0]; rfl
  have hf := finishDoc_run (E := E) (R := R) ha m
  cases hr2 : run E R (Y.complete s.handle).2.1 s.st with
  | ok a st2 =>
    rw [hr2] at hf; simp only at hf
    by_cases hb2 : (Y.complete s.handle).2.2 = true
    · rw [if_pos hb2] at hf
      by_cases hs : st2.stack = []
      · rw [if_pos hs] at hf; rw [hf] at hp; simp at hp
      · rw [if_neg hs] at hf; rw [hf] at hp
        injection hp with hp _; injection hp with hp1 hp2
        exact Or.inr (Or.inr ⟨st2, rfl, hb2, hs, hp1.symm, hp2.symm⟩)
    · rw [if_neg hb2] at hf
      rw [hf] at hp
      split at hp
      · simp at hp
      · injection hp with hp _; injection hp with hp1 hp2
        exact Or.inr (Or.inl ⟨st2, rfl, by simpa using hb2, by rw [← hp1, herr]⟩)
  | throw e st2 =>
    rw [hr2] at hf; obtain ⟨h3, hf⟩ := hf
    rw [hf] at hp
    split at hp
    · simp at hp
    · injection hp with hp _; injection hp with hp1 hp2
      exact Or.inl ⟨e, st2, rfl, hp1.symm⟩
  | ub => rw [hr2] at hf; simp only at hf; rw [hf] at hp; simp at hp
  | fuel => rw [hr2] at hf; simp only at hf; rw [hf] at hp; simp at hp

/-- C27. The text reported is a C string: it contains no zero byte. If the exception's text has none, it is reported in full; otherwise (a member name
with the escape `\u0000`, an exception of a callback) the part before the first one is. -/
theorem C27_text {s s' : PSt Y} (h : Used Y R s) {m : Mem} {p : Ptr} {len : Nat} {sj y : String}
    (hp : parse Y E R m p len s = .throw (.parsing sj y) s') :
    (∀ c ∈ sj.toList, c ≠ '\x00') ∧
    ∀ bs msg st, m.read p len = some bs → run E R (Y.scan s.reader bs).2.1 s.tree = .throw (.std msg) st →
      (∃ rest, msg = sj ++ rest ∧ (rest = "" ∨ rest.toList.head? = some '\x00')) := by
  obtain ⟨bs, hb, h | h⟩ := C27_parse h hp
  · obtain ⟨e, st, hr, hsj, _⟩ := h
    constructor
    · rw [hsj]
      cases e with
      | std msg => exact plain_cText msg
      | other => exact (by decide +kernel : Plain "Unknown exception")
    · intro bs' msg st' hb' hr'
      rw [hb] at hb'; injection hb' with hb'; subst hb'
      rw [hr] at hr'; injection hr' with he _; subst he
      rw [hsj]
      exact cText_rest msg
  · obtain ⟨st, hr, _, hsj, _⟩ := h
    constructor
    · rw [hsj]; intro c hc; simp at hc
    · intro bs' msg st' hb' hr'
      rw [hb] at hb'; injection hb' with hb'; subst hb'
      rw [hr] at hr'; simp at hr'

/-! ### C37 -/

/-- C37. After a `parse()` that threw, `finish()` throws, with the same `sjparserError()`, and changes nothing: so every further `finish()` throws. -/
theorem C37_finish_again {s s' : PSt Y} (h : Used Y R s) {m m' : Mem} {p : Ptr} {len : Nat} {sj y : String}
    (hp : parse Y E R m p len s = .throw (.parsing sj y) s') (hm : (m'.read p len).isSome) :
    ∃ y', finishDoc Y E R m' s' = .throw (.parsing sj y') s' := by
  obtain ⟨bs, hm⟩ := Option.isSome_iff_exists.1 hm
  rcases parse_out (E := E) (R := R) h.facts.1 (m := m) (p := p) (len := len) with ⟨st, h', ts, hr, he⟩ | ⟨st, h', ts, y, hr, he⟩ | ⟨st, h', ts, e, y, hr, he⟩ | he | he
  all_goals rw [he] at hp
  · simp at hp
  · injection hp with hp1 hp2
    injection hp1 with hp1 _
    subst hp2
    have hf := finishDoc_dead (E := E) (R := R) (s := { s.opened p len with st := st, handle := h', alive := false, resetNeeded := true }) rfl m'
    rw [hf]
    dsimp only [PSt.opened]
    rw [hm, ← hp1]
    exact ⟨_, rfl⟩
  · injection hp with hp1 hp2
    injection hp1 with hp1 _
    subst hp2
    have hf := finishDoc_dead (E := E) (R := R) (s := { s.opened p len with st := st, err := e.text, handle := h', alive := false, resetNeeded := true }) rfl m'
    rw [hf]
    dsimp only [PSt.opened]
    rw [hm, ← hp1]
    exact ⟨_, rfl⟩
  all_goals simp at hp

/-- C37. Between documents - after a `parse()` that threw or a `finish()`, whatever its outcome - the next `parse()` is that of a parser
that was just constructed, except for the contents of the parser tree. -/
theorem C37_new_document {s : PSt Y} (h : Between Y R s) (m : Mem) (p : Ptr) (len : Nat) :
    parse Y E R m p len s = parse Y E R m p len (newDocument Y R s.st) := by
  obtain ⟨hu, h1, h2⟩ := h.facts
  have hk : Intact (newDocument Y R s.st) := ⟨fun h => by simp [newDocument, PSt.init] at h, fun h => by simp [newDocument, PSt.init] at h⟩
  unfold parse
  rw [hu.facts.1.renew, hk.renew]
  have : s.opened p len = (newDocument Y R s.st).opened p len := by
    unfold PSt.opened
    rw [h1, h2]
    rfl
  rw [this]

/-! ### C38 -/

/-- C38, part. A `finish()` that succeeds does not look at the caller's buffers: its result does not depend on what has become of them. -/
theorem C38_success_partial {s s' : PSt Y} {m : Mem} (h : finishDoc Y E R m s = .ok () s') (m' : Mem) : finishDoc Y E R m' s = .ok () s' := by
  rcases Bool.eq_false_or_eq_true s.alive with ha | ha
  · have h1 := finishDoc_run (E := E) (R := R) ha m
    have h2 := finishDoc_run (E := E) (R := R) ha m'
    cases hr : run E R (Y.complete s.handle).2.1 s.st with
    | ok a st =>
      rw [hr] at h1 h2; simp only at h1 h2
      by_cases hb : (Y.complete s.handle).2.2 = true
      · rw [if_pos hb] at h1 h2
        by_cases hs : st.stack = []
        · rw [if_pos hs] at h1 h2; rw [h2, ← h1, h]
        · rw [if_neg hs] at h1; rw [h1] at h; simp at h
      · rw [if_neg hb] at h1
        rw [h1] at h
        split at h <;> simp at h
    | throw e st => rw [hr] at h1; obtain ⟨h', h1⟩ := h1; rw [h1] at h; split at h <;> simp at h
    | ub => rw [hr] at h1; simp only at h1; rw [h1] at h; simp at h
    | fuel => rw [hr] at h1; simp only at h1; rw [h1] at h; simp at h
  · have h1 := finishDoc_dead (E := E) (R := R) ha m
    rw [h1] at h
    split at h <;> simp at h

/-- C38, exactly what happens when `finish()` fails: either the document was complete for YAJL but not for the parsers, then the error does not depend on the memory;
or the last buffer is read, and nothing else: if it is still there, unchanged, the error is the same, and if it is gone the behaviour is undefined. -/
theorem C38_failure_partial {s s' : PSt Y} {m : Mem} {x : Thrown} (hm : (m.read s.data s.len).isSome = true) (h : finishDoc Y E R m s = .throw x s') :
    (x = .parsing "Dispatcher parsers stack is not empty in the end" "" ∧ ∀ m', finishDoc Y E R m' s = .throw x s') ∨
    (∀ m' : Mem, m'.read s.data s.len = m.read s.data s.len → finishDoc Y E R m' s = .throw x s') ∧
      (∀ m' : Mem, m'.read s.data s.len = none → finishDoc Y E R m' s = .ub) := by
  obtain ⟨bs, hbs⟩ := Option.isSome_iff_exists.1 hm
  rcases Bool.eq_false_or_eq_true s.alive with ha | ha
  · have h1 := finishDoc_run (E := E) (R := R) ha m
    have h2 := fun m' => finishDoc_run (E := E) (R := R) ha m'
    cases hr : run E R (Y.complete s.handle).2.1 s.st with
    | ok a st =>
      rw [hr] at h1 h2; simp only at h1 h2
      by_cases hb : (Y.complete s.handle).2.2 = true
      · simp only [if_pos hb] at h1 h2
        by_cases hs : st.stack = []
        · rw [if_pos hs] at h1; rw [h1] at h; simp at h
        · simp only [if_neg hs] at h1 h2
          rw [h1] at h; injection h with e1 e2; subst e1 e2
          exact .inl ⟨rfl, h2⟩
      · simp only [if_neg hb] at h1 h2
        right
        refine ⟨fun m' hm' => ?_, fun m' hm' => ?_⟩
        · rw [h2 m', hm', ← h1, h]
        · rw [h2 m', hm']
    | throw e st =>
      rw [hr] at h1 h2
      right
      refine ⟨fun m' hm' => ?_, fun m' hm' => ?_⟩
      · have key : ∀ m : Mem, finishDoc Y E R m s = match m.read s.data s.len with
            | none => .ub
            | some bs => .throw (.parsing e.text (yajlText Y (Y.cancel (Y.complete s.handle).1) bs))
                { s with st := st, err := e.text, handle := Y.cancel (Y.complete s.handle).1, alive := false, resetNeeded := true } := by
          intro m
          unfold finishDoc P.bind yajlComplete
          simp only [ha, if_true, advance_run, hr, Bool.false_eq_true, if_false, throwParsingError]
          rfl
        rw [key m', hm', ← key m, h]
      · obtain ⟨h', h2⟩ := h2 m'
        rw [h2, hm']
    | ub => rw [hr] at h1; simp only at h1; rw [h1] at h; simp at h
    | fuel => rw [hr] at h1; simp only at h1; rw [h1] at h; simp at h
  · right
    have h1 := fun m' => finishDoc_dead (E := E) (R := R) ha m'
    refine ⟨fun m' hm' => ?_, fun m' hm' => ?_⟩
    · rw [h1 m', hm', ← h1 m, h]
    · rw [h1 m', hm']

/-- C38, part. `parse()` reads nothing but the buffer it is given: its result depends on no other part of the caller's memory. -/
theorem C38_parse_partial {s : PSt Y} (h : Used Y R s) {m m' : Mem} {p : Ptr} {len : Nat} (hm : m.read p len = m'.read p len) :
    parse Y E R m p len s = parse Y E R m' p len s := by
  have key : ∀ (m : Mem) bs, m.read p len = some bs → parse Y E R m p len s =
      P.bind (yajlParse Y E R bs) (fun good s1 => if good then .ok () s1 else .throw (.parsing s1.err (yajlText Y s1.handle bs)) { s1 with resetNeeded := true })
        (s.opened p len) := by
    intro m bs hm
    unfold parse
    simp only [hm, h.facts.1.renew]
    unfold P.bind
    have hr := yajlParse_run (E := E) (R := R) bs (s.opened p len) rfl
    cases hy : yajlParse Y E R bs (s.opened p len) with
    | ok good s1 =>
      have hd : s1.data = p ∧ s1.len = len := by
        rw [hy] at hr
        cases hr2 : run E R (Y.scan (s.opened p len).handle bs).2.1 (s.opened p len).st with
        | ok a st => rw [hr2] at hr; simp only at hr; injection hr with _ hr; subst hr; exact ⟨rfl, rfl⟩
        | throw e st => rw [hr2] at hr; obtain ⟨h', hr⟩ := hr; injection hr with _ hr; subst hr; exact ⟨rfl, rfl⟩
        | ub => rw [hr2] at hr; simp at hr
        | fuel => rw [hr2] at hr; simp at hr
      cases good with
      | true => rfl
      | false =>
        simp only [Bool.false_eq_true, if_false, throwParsingError, hd.1, hd.2, hm]
        rfl
    | throw x s1 => rfl
    | ub => rfl
    | fuel => rfl
  cases hm' : m'.read p len with
  | none => rw [parse_unreadable hm', parse_unreadable (hm.trans hm')]
  | some bs => rw [key m' bs hm', key m bs (hm.trans hm')]

/-! ### C21 -/

/-- C21, as the user sees it. If a `parse()` call threw, then every callback called meanwhile accepted, except possibly the last one; in this case
`sjparserError()` says that the (element) callback returned false, or is the text of the callback's exception ("Unknown exception" if
that is not an `std::exception`). -/
theorem C21_reported {s s' : PSt Y} (h : Used Y R s) {m : Mem} {p : Ptr} {len : Nat} {sj y : String}
    (hp : parse Y E R m p len s = .throw (.parsing sj y) s') :
    AllAccepted E s.st.log s'.st.log ∨
    ∃ c l v e, s'.st.log = c :: l ∧ AllAccepted E s.st.log l ∧ answer E l c = some v ∧ Refusal c v e ∧ sj = e.text := by
  have hl : s.tree.log = s.st.log := by unfold PSt.tree; split <;> rfl
  rcases parse_out (E := E) (R := R) h.facts.1 (m := m) (p := p) (len := len) with ⟨st, h', ts, hr, he⟩ | ⟨st, h', ts, y, hr, he⟩ | ⟨st, h', ts, e, y, hr, he⟩ | he | he
  all_goals rw [he] at hp
  · simp at hp
  · injection hp with hp1 hp2
    subst hp2
    have := C21_success hr
    rw [hl] at this
    exact Or.inl this
  · injection hp with hp1 hp2
    injection hp1 with hp1 _
    subst hp2
    have := C21_failure hr
    rw [hl] at this
    rcases this with h1 | ⟨c, l, v, h1, h2, h3, h4⟩
    · exact Or.inl h1
    · exact Or.inr ⟨c, l, v, e, h1, h2, h3, h4, hp1.symm⟩
  all_goals simp at hp

/-! ### C39 -/

/-- C39. A JSON document, read from the chunks of its text by a parser that was just constructed, gives what the pure description `denote` says: its result, or
its error text. -/
theorem C39_document (hE : Passive E) (hw : R.wf = true) {cs : List Chunk} (hne : cs ≠ []) {bs : List UInt8} {j : Json} (hc : chunkBytes cs = some bs)
    (hd : Y.Document bs (events j)) (hok : okVal R j = true) {m : Mem} (hm : ∀ c, cs.getLast? = some c → (m.read c.ptr c.len).isSome) :
    match denote E.fmtDbl R j with
    | .ok d => ∃ s', parseDocument Y E R cs m (PSt.init Y R) = .ok () s' ∧ Holds s'.st.heap [] d
    | .error e => ∃ y s', parseDocument Y E R cs m (PSt.init Y R) = .throw (.parsing (cText e) y) s' := by
  have h1 := parseDocument_run (E := E) (R := R) .init hne hc hd hm
  have h2 := parse_denote hE (Ready.init R) hw hok
  have hst : (PSt.init Y R).st.restart = St.init R := rfl
  rw [hst] at h1
  cases hd : denote E.fmtDbl R j with
  | ok d =>
    rw [hd] at h2
    obtain ⟨s', hr, hs, hh, _⟩ := h2
    rw [hr] at h1; simp only at h1
    rw [if_pos hs] at h1
    obtain ⟨s2, hp, rfl⟩ := h1
    exact ⟨s2, hp, hh⟩
  | error e =>
    rw [hd] at h2
    obtain ⟨s', hr⟩ := h2
    rw [hr] at h1
    obtain ⟨y, s2, hp, _⟩ := h1
    exact ⟨y, s2, hp⟩

/-! ### C23, C24 -/

/-- The outcomes of two documents agree: both `finish()` and `isSet()` and the value of the root are the same; or both fail with the same
`sjparserError()`. -/
def SameDocument (R : Shape) (r r' : PRes Y Unit) : Prop :=
  (∃ t t', r = .ok () t ∧ r' = .ok () t' ∧ isSet [] t.st = isSet [] t'.st ∧ (R.isStorage = true → (get [] t.st).value? = (get [] t'.st).value?)) ∨
  (∃ sj y y' t t', r = .throw (.parsing sj y) t ∧ r' = .throw (.parsing sj y') t')

theorem sameDocument {s : PSt Y} (hb' : Between Y R s)
    {cs : List Chunk} (hne : cs ≠ []) {bs : List UInt8} {j : Json} (hc : chunkBytes cs = some bs) (hd : Y.Document bs (events j))
    {m : Mem} (hm : ∀ c, cs.getLast? = some c → (m.read c.ptr c.len).isSome) (hs : SameOutcome E R j s.st.restart (St.init R)) :
    SameDocument R (parseDocument Y E R cs m s) (parseDocument Y E R cs m (PSt.init Y R)) := by
  have h1 := parseDocument_run (E := E) (R := R) hb' hne hc hd hm
  have h2 := parseDocument_run (E := E) (R := R) .init hne hc hd hm
  have hst : (PSt.init Y R).st.restart = St.init R := rfl
  rw [hst] at h2
  rcases hs with ⟨e, t, t', r1, r2, _, _⟩ | ⟨t, t', d, r1, r2, e1, e2, hset, hval, _⟩
  · rw [r1] at h1; rw [r2] at h2
    obtain ⟨y, s1, h1, _⟩ := h1
    obtain ⟨y', s2, h2, _⟩ := h2
    exact Or.inr ⟨_, y, y', s1, s2, h1, h2⟩
  · rw [r1] at h1; rw [r2] at h2
    simp only at h1 h2
    rw [if_pos e1] at h1; rw [if_pos e2] at h2
    obtain ⟨s1, h1, rfl⟩ := h1
    obtain ⟨s2, h2, rfl⟩ := h2
    exact Or.inl ⟨s1, s2, h1, h2, hset, hval⟩

/-- Between documents, all of which were read successfully. -/
inductive ServedDocs (Y : Yajl) (R : Shape) : PSt Y → Prop
  | init : ServedDocs Y R (PSt.init Y R)
  | doc {E : Env} {s s' : PSt Y} {cs : List Chunk} {bs : List UInt8} {m : Mem} (j : Json) : ServedDocs Y R s → cs ≠ [] → chunkBytes cs = some bs →
      Y.Document bs (events j) → okVal R j = true → parseDocument Y E R cs m s = .ok () s' → ServedDocs Y R s'
  | pop {s : PSt Y} {st : St} {p : Path} {sh : Shape} {v : Val} : ServedDocs Y R s → R.at p = some sh → sh.isStorage = true →
      pop' p s.st = .ok v st → ServedDocs Y R { s with st := st }
  | reset {s : PSt Y} {p : Path} {sh : Shape} : ServedDocs Y R s → R.at p = some sh → ServedDocs Y R { s with st := reset' p sh s.st }

theorem Used.parseAll : ∀ {cs : List Chunk} {s s' : PSt Y}, Used Y R s → SJ.parseAll Y E R cs s = .ok () s' → Used Y R s'
  | [], s, s', h, hp => by
    simp only [SJ.parseAll, P.pure] at hp
    injection hp with _ hp; subst hp; exact h
  | c :: cs, s, s', h, hp => by
    simp only [SJ.parseAll, P.bind] at hp
    cases h1 : parse Y E R c.mem c.ptr c.len s with
    | ok a s1 => rw [h1] at hp; exact Used.parseAll (.parsed h h1) hp
    | throw x s1 => rw [h1] at hp; simp at hp
    | ub => rw [h1] at hp; simp at hp
    | fuel => rw [h1] at hp; simp at hp

theorem Between.doc {s s' : PSt Y} {cs : List Chunk} {m : Mem} (h : Used Y R s) (hp : parseDocument Y E R cs m s = .ok () s') : Between Y R s' := by
  unfold parseDocument P.bind at hp
  cases h1 : SJ.parseAll Y E R cs s with
  | ok a s1 => rw [h1] at hp; exact .finished (Used.parseAll h h1) hp
  | throw x s1 => rw [h1] at hp; simp at hp
  | ub => rw [h1] at hp; simp at hp
  | fuel => rw [h1] at hp; simp at hp

/-- The conclusion of `parseDocument_run` without the assumption about the last buffer, for a document that succeeded. -/
theorem parseDocument_ok {s s' : PSt Y} (hb : Between Y R s) {cs : List Chunk} (hne : cs ≠ []) {bs ts} (hc : chunkBytes cs = some bs)
    (hd : Y.Document bs ts) {m : Mem} (hp : parseDocument Y E R cs m s = .ok () s') : run E R ts s.st.restart = .ok () s'.st ∧ s'.st.stack = [] := by
  obtain ⟨m', hm'⟩ : ∃ m' : Mem, ∀ c, cs.getLast? = some c → (m'.read c.ptr c.len).isSome := by
    cases hl : cs.getLast? with
    | none => exact ⟨fun _ => none, fun c hc => by simp at hc⟩
    | some c =>
      refine ⟨c.mem, fun c' hc' => ?_⟩
      injection hc' with hc'; subst hc'
      have : ∀ {cs : List Chunk} {bs}, chunkBytes cs = some bs → ∀ c ∈ cs, (c.mem.read c.ptr c.len).isSome := by
        intro cs
        induction cs with
        | nil => intro bs _ c hc; simp at hc
        | cons d cs ih =>
          intro bs hbs c hc
          simp only [chunkBytes] at hbs
          cases h1 : d.mem.read d.ptr d.len with
          | none => rw [h1] at hbs; simp at hbs
          | some b1 =>
            cases h2 : chunkBytes cs with
            | none => rw [h1, h2] at hbs; simp at hbs
            | some b2 =>
              rcases List.mem_cons.1 hc with rfl | hc
              · rw [h1]; rfl
              · exact ih h2 c hc
      exact this hc c (List.mem_of_getLast? hl)
  have hp' : parseDocument Y E R cs m' s = .ok () s' := by
    unfold parseDocument P.bind at hp ⊢
    cases h1 : SJ.parseAll Y E R cs s with
    | ok a s1 => rw [h1] at hp; exact C38_success_partial hp m'
    | throw x s1 => rw [h1] at hp; simp at hp
    | ub => rw [h1] at hp; simp at hp
    | fuel => rw [h1] at hp; simp at hp
  have h1 := parseDocument_run (E := E) (R := R) hb hne hc hd hm'
  cases hr : run E R ts s.st.restart with
  | ok a st =>
    rw [hr] at h1; simp only at h1
    by_cases hs : st.stack = []
    · rw [if_pos hs] at h1
      obtain ⟨s2, h1, rfl⟩ := h1
      rw [h1] at hp'; injection hp' with _ hp'; subst hp'
      exact ⟨rfl, hs⟩
    · rw [if_neg hs] at h1
      obtain ⟨y, s2, h1, _⟩ := h1
      rw [h1] at hp'; simp at hp'
  | throw e st => rw [hr] at h1; obtain ⟨y, s2, h1, _⟩ := h1; rw [h1] at hp'; simp at hp'
  | ub => rw [hr] at h1; simp only at h1; rw [h1] at hp'; simp at hp'
  | fuel => rw [hr] at h1; simp only at h1; rw [h1] at hp'; simp at hp'

theorem ServedDocs.facts {s : PSt Y} (h : ServedDocs Y R s) : Between Y R s ∧ Served R s.st.restart := by
  induction h with
  | init => exact ⟨.init, .init⟩
  | @doc E s s' cs bs m j hs hne hc hd hok hp ih =>
    obtain ⟨hb, hv⟩ := ih
    exact ⟨Between.doc hb.facts.1 hp, .doc j hv hok (parseDocument_ok hb hne hc hd hp).1⟩
  | @pop s st p sh v hs hR hst hp ih =>
    refine ⟨.pop ih.1 hR hst hp, ?_⟩
    refine Served.pop ih.2 (p := p) (v := v) ?_
    unfold pop' popVal at hp ⊢
    show (if (s.st.heap p).set then _ else _) = _
    by_cases hset : (s.st.heap p).set = true
    · rw [if_pos hset] at hp ⊢
      injection hp with h1 h2
      subst h1 h2; rfl
    · rw [if_neg hset] at hp; simp at hp
  | reset hs hR ih => exact ⟨.reset ih.1 hR, .reset ih.2 hR⟩

/-- C24, as the user sees it. After any number of documents, all read successfully, possibly in chunks, the next document has the outcome and the
root value that a parser just constructed would give. -/
theorem C24_documents_partial (hE : Passive E) (hw : R.wf = true) {s : PSt Y} (h : ServedDocs Y R s) {cs : List Chunk} (hne : cs ≠ []) {bs : List UInt8} {j : Json}
    (hc : chunkBytes cs = some bs) (hd : Y.Document bs (events j)) (hok : okVal R j = true) {m : Mem}
    (hm : ∀ c, cs.getLast? = some c → (m.read c.ptr c.len).isSome) :
    SameDocument R (parseDocument Y E R cs m s) (parseDocument Y E R cs m (PSt.init Y R)) :=
  sameDocument h.facts.1 hne hc hd hm (C24_reusable_partial hE h.facts.2 hw hok)

/-- C23, as the user sees it, for parser trees without arrays: whatever happened before - documents that failed or were never finished - a document read between
documents (that is, after `parse()` threw or `finish()` was called) has the outcome and the root value that a parser just constructed would give. -/
theorem C23_documents_partial (hE : Passive E) (ha : ArrFree R) (hw : R.wf = true) {s : PSt Y} (h : Between Y R s) {cs : List Chunk} (hne : cs ≠ [])
    {bs : List UInt8} {j : Json} (hc : chunkBytes cs = some bs) (hd : Y.Document bs (events j)) (hok : okVal R j = true) {m : Mem}
    (hm : ∀ c, cs.getLast? = some c → (m.read c.ptr c.len).isSome) :
    SameDocument R (parseDocument Y E R cs m s) (parseDocument Y E R cs m (PSt.init Y R)) :=
  sameDocument h hne hc hd hm (C23_array_free_partial hE ha h.facts.1.facts.2 hw hok)

/-! ### Examples -/

section Examples
open Demo

/-- The text of the document, read by the demonstration reader. -/
example : yajl.Document (bytes text) (events doc) := document_of (by decide +kernel) (by decide +kernel) (by decide +kernel)

/-- C22, C39: the hypotheses hold for a document in three pieces, cut inside a string, and it is read successfully. -/
example : chunkBytes pieces = some (bytes text) ∧ (chunk text).mem.read (chunk text).ptr (chunk text).len = some (bytes text) ∧
    okVal outer doc = true ∧ outer.wf = true ∧
    returned (parseDocument yajl accepting outer pieces (buffer text) (PSt.init yajl outer)) = true := by decide +kernel

/-- Two buffers. -/
def twoBuffers : Mem := fun a => if a = 1 then some (bytes "{\"name\"@@@@") else some (bytes ": \"x\"}!!")

/-- C22_bytes, C22_pieces: three pieces at different addresses, two of them with other bytes behind them, one of them empty. -/
example : ∃ m : Mem, chunkBytes [⟨m, some 1, 7⟩, ⟨m, some 2, 0⟩, ⟨m, some 2, 6⟩] = some (bytes "{\"name\": \"x\"}") ∧
    chunkBytes [⟨m, some 2, 20⟩] = none ∧
    SameResult (parseAll yajl accepting outer [⟨m, some 1, 7⟩, ⟨m, some 2, 0⟩, ⟨m, some 2, 6⟩] (PSt.init yajl outer))
      (parse yajl accepting outer (buffer "{\"name\": \"x\"}") (some 0) 13 (PSt.init yajl outer)) := by
  refine ⟨twoBuffers, by decide +kernel, ?_, ?_⟩
  · exact (C22_bytes (a := 2) (bs := bytes ": \"x\"}") (extra := bytes "!!") (by decide +kernel)).2 20 (by decide +kernel)
  · have := C22_pieces (Y := yajl) (E := accepting) (R := outer) .init
      (ps := [(twoBuffers, 1, bytes "{\"name\""), (twoBuffers, 2, []), (twoBuffers, 2, bytes ": \"x\"}")]) (by simp)
      (by
        intro p hp
        simp only [List.mem_cons, List.not_mem_nil, or_false] at hp
        rcases hp with rfl | rfl | rfl
        · exact ⟨bytes "@@@@", by decide +kernel⟩
        · exact ⟨bytes ": \"x\"}!!", by decide +kernel⟩
        · exact ⟨bytes "!!", by decide +kernel⟩)
      (m := buffer "{\"name\": \"x\"}") (a := 0) (extra := []) (by decide +kernel)
    rw [show (List.map (fun x : Mem × Nat × List UInt8 => x.2.2) [(twoBuffers, 1, bytes "{\"name\""), (twoBuffers, 2, []), (twoBuffers, 2, bytes ": \"x\"}")]).flatten.length = 13
      by decide +kernel] at this
    simp only [List.map_cons, List.map_nil, show (bytes "{\"name\"").length = 7 by decide +kernel,
      show (bytes ": \"x\"}").length = 6 by decide +kernel] at this
    exact this

/-- C22: and what is not a document fails in the same way. -/
example : thrown (parseDocument yajl noCb outer [chunk "{\"name\"", chunk ":1", chunk "2}"] (buffer "") (PSt.init yajl outer)) =
      some (.parsing "Unexpected token integer" "parse error near 2}") ∧
    thrown (parseDocument yajl noCb outer [chunk "{\"name\":12}"] (buffer "") (PSt.init yajl outer)) =
      some (.parsing "Unexpected token integer" "parse error near {\"name\":12}") := by decide +kernel

/-- C25: a number at the end of the input is only delivered by `finish()`. -/
example : returned (parseDocument yajl noCb (.value .int) [chunk "12"] (buffer "12") (PSt.init yajl (.value .int))) = true ∧
    ((left (feedText noCb (.value .int) "12" (PSt.init yajl (.value .int))) (PSt.init yajl (.value .int))).st.heap []).set = false := by decide +kernel

/-- C25: not complete for YAJL. -/
example : thrown (parseDocument yajl noCb outer [chunk "{\"name\": \"x\""] (buffer "{\"name\": \"x\"") (PSt.init yajl outer)) =
    some (.parsing "" "parse error near {\"name\": \"x\"") := by decide +kernel

/-- C25: complete for YAJL, but a standalone union that is given a bare value of its type member is left waiting. -/
example : thrown (parseDocument yajl noCb (.union .str "t" false [({ name := .str "a" }, outer)]) [chunk "\"a\""] nowhere
      (PSt.init yajl (.union .str "t" false [({ name := .str "a" }, outer)]))) =
    some (.parsing "Dispatcher parsers stack is not empty in the end" "") := by decide +kernel

/-- C21, C26, C27: a callback that throws something that is not an `std::exception`, a callback that rejects, an error of the text. -/
def thrower (v : Verdict) : Env := { noCb with onFinish := fun _ => some fun _ _ => { verdict := v } }

example : thrown (feedText (thrower (.throws .other)) outer "{\"name\": \"x\"}" (PSt.init yajl outer)) =
      some (.parsing "Unknown exception" "parse error near {\"name\": \"x\"}") ∧
    thrown (feedText (thrower (.throws (.std "no"))) outer "{\"name\": \"x\"}" (PSt.init yajl outer)) =
      some (.parsing "no" "parse error near {\"name\": \"x\"}") ∧
    thrown (feedText (thrower .reject) outer "{\"name\": \"x\"}" (PSt.init yajl outer)) =
      some (.parsing "Callback returned false" "parse error near {\"name\": \"x\"}") ∧
    thrown (feedText (thrower .accept) outer "{\"name\"; \"x\"}" (PSt.init yajl outer)) =
      some (.parsing "" "parse error near {\"name\"; \"x\"}") := by decide +kernel

/-- `C27_text`: an exception whose text contains a zero byte; one whose text begins with it, so that `what()` is the error of YAJL. -/
example : thrown (feedText (thrower (.throws (.std "no\x00 more"))) outer "{\"name\": \"x\"}" (PSt.init yajl outer)) =
      some (.parsing "no" "parse error near {\"name\": \"x\"}") ∧
    thrown (feedText (thrower (.throws (.std "\x00"))) outer "{\"name\": \"x\"}" (PSt.init yajl outer)) =
      some (.parsing "" "parse error near {\"name\": \"x\"}") := by decide +kernel

/-- C27, C37: a parser that failed is used again: `finish()` fails with the old error, then the next document is parsed and there is no trace of this
error. -/
example :
    let s := left (feedText noCb outer "{\"name\": 1}" (PSt.init yajl outer)) (PSt.init yajl outer)
    thrown (feedText noCb outer "{\"name\": 1}" (PSt.init yajl outer)) = some (.parsing "Unexpected token integer" "parse error near {\"name\": 1}") ∧
    thrown (finishDoc yajl noCb outer (buffer "{\"name\": 1}") s) = some (.parsing "Unexpected token integer" "parse error near {\"name\": 1}") ∧
    returned (parseDocument yajl noCb outer pieces nowhere s) = true ∧
    thrown (parseDocument yajl noCb outer [chunk "{\"name\""] (buffer "{\"name\"") s) = some (.parsing "" "parse error near {\"name\"") := by
  decide +kernel

/-- ... and this state is one of those `C37_finish_again`, `C37_new_document` and `C23_documents_partial` are about. -/
example : Between yajl outer (left (feedText noCb outer "{\"name\": 1}" (PSt.init yajl outer)) (PSt.init yajl outer)) :=
  .refused .init (left_throw (x := .parsing "Unexpected token integer" "parse error near {\"name\": 1}") (by decide +kernel))

/-- C24: a parser that read a document. -/
example : ServedDocs yajl outer (left (parseDocument yajl noCb outer pieces nowhere (PSt.init yajl outer)) (PSt.init yajl outer)) :=
  .doc doc .init (cs := pieces) (m := nowhere) (bs := bytes text) (by decide) (by decide +kernel)
    (document_of (by decide +kernel) (by decide +kernel) (by decide +kernel)) (by decide +kernel) (left_ok (by decide +kernel))

/-- C38 is false of this code: after `parse(std::string("{\"name\""))`, whose argument is gone, `finish()` has undefined behaviour, instead of
reporting that the document is not complete: it gives YAJL the pointer to the argument. -/
theorem C38_witness : ∃ s m, Used yajl outer s ∧ finishDoc yajl noCb outer m s = .ub ∧
    ∃ m' x s', finishDoc yajl noCb outer m' s = .throw x s' := by
  refine ⟨left (feedText noCb outer "{\"name\"" (PSt.init yajl outer)) (PSt.init yajl outer), nowhere, ?_, is_ub (by decide +kernel),
    buffer "{\"name\"", .parsing "" "parse error near {\"name\"", _, left_throw (d := PSt.init yajl outer) (by decide +kernel)⟩
  exact .parsed .init (left_ok (by decide +kernel))

/-- C38_failure_partial: the same `finish()`, as long as the buffer exists. -/
example :
    let s := left (feedText noCb outer "{\"name\"" (PSt.init yajl outer)) (PSt.init yajl outer)
    ∃ s', (Thrown.parsing "" "parse error near {\"name\"" = .parsing "Dispatcher parsers stack is not empty in the end" "" ∧
      ∀ m', finishDoc yajl noCb outer m' s = .throw (.parsing "" "parse error near {\"name\"") s') ∨
    (∀ m' : Mem, m'.read s.data s.len = (buffer "{\"name\"").read s.data s.len → finishDoc yajl noCb outer m' s = .throw (.parsing "" "parse error near {\"name\"") s') ∧
      (∀ m' : Mem, m'.read s.data s.len = none → finishDoc yajl noCb outer m' s = .ub) :=
  ⟨_, C38_failure_partial (by decide +kernel) (left_throw (d := PSt.init yajl outer) (by decide +kernel))⟩

end Examples

end SJ
