/-
The input may be cut into chunks anywhere.
-/
import Verif.Proofs.Session

set_option linter.unusedVariables false

namespace SJ

variable {Y : Yajl} {E : Env} {R : Shape}

/-- In the middle of a document, or at its beginning, without an error so far. -/
structure Going (s : PSt Y) : Prop where
  alive : s.alive = true
  cont : s.resetNeeded = false
  err : s.err = ""

theorem Going.kept {s : PSt Y} (h : Going s) : Intact s :=
  ⟨fun ha => by rw [h.alive] at ha; simp at ha, fun he => absurd h.err he⟩

theorem Going.opened {s : PSt Y} (h : Going s) (p : Ptr) (len : Nat) : s.opened p len = { s with data := p, len := len } := by
  unfold PSt.opened PSt.tree PSt.reader
  rw [h.cont]
  simp [h.alive, h.err]

theorem PSt.opened_going (s : PSt Y) (p : Ptr) (len : Nat) : Going (s.opened p len) := ⟨rfl, rfl, rfl⟩

/-- A result with the buffer pointer forgotten. -/
def PRes.forget {α} : PRes Y α → PRes Y α
  | .ok a s => .ok a s.unbuffered
  | .throw x s => .throw x s.unbuffered
  | .ub => .ub
  | .fuel => .fuel

theorem advance_forget (out) (s : PSt Y) : (advance Y E R out s).forget = advance Y E R out s.unbuffered := by
  rw [advance_run, advance_run]
  have : s.unbuffered.st = s.st := rfl
  rw [this]
  cases run E R out.2.1 s.st <;> rfl

theorem yajlParse_forget : ∀ (bs : List UInt8) (s : PSt Y), (yajlParse Y E R bs s).forget = yajlParse Y E R bs s.unbuffered
  | [], s => rfl
  | b :: bs, s => by
    have h1 : s.unbuffered.alive = s.alive := rfl
    have h2 : s.unbuffered.handle = s.handle := rfl
    simp only [yajlParse, h1, h2]
    by_cases ha : s.alive = true
    · rw [if_pos ha, if_pos ha]
      unfold P.bind
      rw [← advance_forget]
      cases hv : advance Y E R (Y.step s.handle b) s with
      | ok go s1 =>
        simp only [PRes.forget]
        cases go with
        | true => simp only [if_true]; exact yajlParse_forget bs s1
        | false => rfl
      | throw x s1 => rfl
      | ub => rfl
      | fuel => rfl
    · rw [if_neg ha, if_neg ha]; rfl

theorem yajlParse_same {bs : List UInt8} {s s' : PSt Y} (h : s.unbuffered = s'.unbuffered) :
    (yajlParse Y E R bs s).forget = (yajlParse Y E R bs s').forget := by
  rw [yajlParse_forget, yajlParse_forget, h]

theorem SameResult.symm {r r' : PRes Y Unit} (h : SameResult r r') : SameResult r' r := by
  cases h with
  | ok h => exact .ok h.symm
  | error h => exact .error h.symm
  | ub => exact .ub
  | fuel => exact .fuel

theorem SameResult.trans {r r' r'' : PRes Y Unit} (h : SameResult r r') (h' : SameResult r' r'') : SameResult r r'' := by
  cases h with
  | ok h => cases h' with | ok h' => exact .ok (h.trans h')
  | error h => cases h' with | error h' => exact .error (h.trans h')
  | ub => exact h'
  | fuel => exact h'

/-- What becomes of the answer of `yajl_parse`, without the text of YAJL's error. -/
def settle : PRes Y Bool → PRes Y Unit
  | .ok true s => .ok () s
  | .ok false s => .throw (.parsing s.err "") { s with resetNeeded := true }
  | .throw x s => .throw x s
  | .ub => .ub
  | .fuel => .fuel

theorem settle_same {r r' : PRes Y Bool} (hn : ∀ x s, r ≠ .throw x s) (h : r.forget = r'.forget) : SameResult (settle r) (settle r') := by
  cases r with
  | ok a s =>
    cases r' with
    | ok a' s' =>
      simp only [PRes.forget] at h
      injection h with h1 h2
      subst h1
      cases a with
      | true => exact .ok h2
      | false =>
        simp only [settle]
        have he : s.err = s'.err := congrArg (·.err) h2
        have hk := congrArg (fun s : PSt Y => { s with resetNeeded := true }) h2
        have := SameResult.error (sj := s.err) (y := "") (y' := "") (s := { s with resetNeeded := true }) (s' := { s' with resetNeeded := true }) hk
        rw [he] at this
        rw [← he] at this ⊢
        exact this
    | throw x s' => simp [PRes.forget] at h
    | ub => simp [PRes.forget] at h
    | fuel => simp [PRes.forget] at h
  | throw x s => exact absurd rfl (hn x s)
  | ub => cases r' <;> simp [PRes.forget] at h; exact .ub
  | fuel => cases r' <;> simp [PRes.forget] at h; exact .fuel

theorem yajlParse_no_throw (bs : List UInt8) {s : PSt Y} (ha : s.alive = true) : ∀ x s', yajlParse Y E R bs s ≠ .throw x s' := by
  intro x s' h
  have := yajlParse_run (E := E) (R := R) bs s ha
  cases hr : run E R (Y.scan s.handle bs).2.1 s.st with
  | ok a st => rw [hr] at this; simp only at this; rw [this] at h; simp at h
  | throw e st => rw [hr] at this; obtain ⟨h', this⟩ := this; rw [this] at h; simp at h
  | ub => rw [hr] at this; simp only at this; rw [this] at h; simp at h
  | fuel => rw [hr] at this; simp only at this; rw [this] at h; simp at h

theorem yajlParse_going {bs : List UInt8} {s s' : PSt Y} (hg : Going s) (h : yajlParse Y E R bs s = .ok true s') : Going s' := by
  have := yajlParse_run (E := E) (R := R) bs s hg.alive
  cases hr : run E R (Y.scan s.handle bs).2.1 s.st with
  | ok a st =>
    rw [hr] at this; simp only at this; rw [this] at h
    injection h with h1 h2
    subst h2
    exact ⟨h1, hg.cont, hg.err⟩
  | throw e st => rw [hr] at this; obtain ⟨h', this⟩ := this; rw [this] at h; simp at h
  | ub => rw [hr] at this; simp only at this; rw [this] at h; simp at h
  | fuel => rw [hr] at this; simp only at this; rw [this] at h; simp at h

theorem parse_settle {s : PSt Y} (hg : Going s) {m : Mem} {p : Ptr} {len : Nat} {bs} (hm : m.read p len = some bs) :
    SameResult (parse Y E R m p len s) (settle (yajlParse Y E R bs s)) := by
  have h1 : SameResult (parse Y E R m p len s) (settle (yajlParse Y E R bs (s.opened p len))) := by
    unfold parse
    simp only [hm, hg.kept.renew, P.bind]
    have hr := yajlParse_run (E := E) (R := R) bs (s.opened p len) rfl
    cases hy : yajlParse Y E R bs (s.opened p len) with
    | ok good s1 =>
      have hd : s1.data = p ∧ s1.len = len := by
        rw [hy] at hr
        cases hr2 : run E R (Y.scan (s.opened p len).handle bs).2.1 (s.opened p len).st with
        | ok a st => rw [hr2] at hr; simp only at hr; injection hr with _ hr; subst hr; exact ⟨rfl, rfl⟩
        | throw e st => rw [hr2] at hr; obtain ⟨h', hr⟩ := hr; injection hr with _ hr; subst hr; exact ⟨rfl, rfl⟩
        | ub => rw [hr2] at hr; simp at hr
        | fuel => rw [hr2] at hr; simp at hr
      cases good with
      | true => simp only [if_true, settle]; exact .ok rfl
      | false =>
        simp only [Bool.false_eq_true, if_false, settle, throwParsingError, hd.1, hd.2, hm]
        exact .error rfl
    | throw x s1 => exact absurd hy (yajlParse_no_throw bs rfl x s1)
    | ub => exact .ub
    | fuel => exact .fuel
  refine h1.trans (settle_same (yajlParse_no_throw bs rfl) (yajlParse_same ?_))
  rw [hg.opened]; rfl

theorem settle_append (xs ys : List UInt8) {s : PSt Y} (hg : Going s) :
    settle (yajlParse Y E R (xs ++ ys) s) =
      match yajlParse Y E R xs s with
      | .ok true s1 => settle (yajlParse Y E R ys s1)
      | r => settle r := by
  rw [yajlParse_append xs ys s hg.alive]
  unfold P.bind
  cases hy : yajlParse Y E R xs s with
  | ok go s1 => cases go <;> rfl
  | throw x s1 => rfl
  | ub => rfl
  | fuel => rfl

theorem parseAll_settle : ∀ (cs : List Chunk) {bs : List UInt8} {s s' : PSt Y}, chunkBytes cs = some bs → Going s → Going s' → s.unbuffered = s'.unbuffered →
    SameResult (parseAll Y E R cs s) (settle (yajlParse Y E R bs s'))
  | [], bs, s, s', hc, hg, hg', hu => by
    simp only [chunkBytes, Option.some.injEq] at hc
    subst hc
    simp only [parseAll, P.pure, yajlParse, hg'.alive, settle]
    exact .ok hu
  | c :: cs, bs, s, s', hc, hg, hg', hu => by
    simp only [chunkBytes] at hc
    cases h1 : c.mem.read c.ptr c.len with
    | none => rw [h1] at hc; simp at hc
    | some b1 =>
      cases h2 : chunkBytes cs with
      | none => rw [h1, h2] at hc; simp at hc
      | some b2 =>
        rw [h1, h2] at hc
        simp only [Option.some.injEq] at hc
        subst hc
        have hp := (parse_settle (E := E) (R := R) hg h1).trans (settle_same (yajlParse_no_throw b1 hg.alive) (yajlParse_same hu))
        rw [settle_append b1 b2 hg']
        simp only [parseAll, P.bind]
        have hnt := yajlParse_no_throw (E := E) (R := R) b1 hg'.alive
        cases hy : yajlParse Y E R b1 s' with
        | ok go s1 =>
          rw [hy] at hp
          cases go with
          | true =>
            simp only [settle] at hp ⊢
            cases hpp : parse Y E R c.mem c.ptr c.len s with
            | ok a s2 =>
              rw [hpp] at hp
              cases hp with
              | ok hp =>
                have hg1 := yajlParse_going hg' hy
                have hg2 : Going s2 := by
                  have e1 : s2.alive = s1.alive := congrArg (·.alive) hp
                  have e2 : s2.resetNeeded = s1.resetNeeded := congrArg (·.resetNeeded) hp
                  have e3 : s2.err = s1.err := congrArg (·.err) hp
                  exact ⟨e1.trans hg1.alive, e2.trans hg1.cont, e3.trans hg1.err⟩
                exact parseAll_settle cs h2 hg2 hg1 hp
            | throw x s2 => rw [hpp] at hp; cases hp
            | ub => rw [hpp] at hp; cases hp
            | fuel => rw [hpp] at hp; cases hp
          | false =>
            simp only [settle] at hp ⊢
            cases hpp : parse Y E R c.mem c.ptr c.len s with
            | ok a s2 => rw [hpp] at hp; cases hp
            | throw x s2 => rw [hpp] at hp; exact hp
            | ub => rw [hpp] at hp; cases hp
            | fuel => rw [hpp] at hp; cases hp
        | throw x s1 => exact absurd hy (hnt x s1)
        | ub =>
          rw [hy] at hp
          simp only [settle] at hp ⊢
          cases hpp : parse Y E R c.mem c.ptr c.len s with
          | ok a s2 => rw [hpp] at hp; cases hp
          | throw x s2 => rw [hpp] at hp; cases hp
          | ub => exact .ub
          | fuel => rw [hpp] at hp; cases hp
        | fuel =>
          rw [hy] at hp
          simp only [settle] at hp ⊢
          cases hpp : parse Y E R c.mem c.ptr c.len s with
          | ok a s2 => rw [hpp] at hp; cases hp
          | throw x s2 => rw [hpp] at hp; cases hp
          | ub => rw [hpp] at hp; cases hp
          | fuel => exact .fuel

/-- `parse()` only depends on where the document stands. -/
theorem parse_opened {s : PSt Y} (hk : Intact s) {m : Mem} {p : Ptr} {len : Nat} (q : Ptr) (n : Nat) :
    parse Y E R m p len s = parse Y E R m p len (s.opened q n) := by
  unfold parse
  rw [hk.renew, (PSt.opened_going s q n).kept.renew]
  rfl

theorem finish_same {s s' : PSt Y} (h : s.unbuffered = s'.unbuffered) {m m' : Mem} (g1 : (m.read s.data s.len).isSome)
    (g2 : (m'.read s'.data s'.len).isSome) : SameResult (finishDoc Y E R m s) (finishDoc Y E R m' s') := by
  obtain ⟨b1, h1⟩ := Option.isSome_iff_exists.1 g1
  obtain ⟨b2, h2⟩ := Option.isSome_iff_exists.1 g2
  obtain ⟨st, ha, al, da, le, rn, er⟩ := s
  obtain ⟨st', ha', al', da', le', rn', er'⟩ := s'
  simp only [PSt.unbuffered, PSt.mk.injEq, true_and] at h
  obtain ⟨rfl, rfl, rfl, rfl, rfl⟩ := h
  simp only at h1 h2
  unfold finishDoc P.bind yajlComplete
  simp only
  by_cases hal : al = true
  · subst hal
    simp only [if_true, advance_run]
    cases hr : run E R (Y.complete ha).2.1 st with
    | ok a st2 =>
      simp only
      cases hb : (Y.complete ha).2.2 with
      | true =>
        simp only [if_true, checkDispatcherStack]
        cases st2.stack with
        | nil => exact .ok rfl
        | cons a l => exact .error rfl
      | false =>
        simp only [Bool.false_eq_true, if_false, throwParsingError]
        rw [h1, h2]
        exact .error rfl
    | throw e st2 =>
      simp only [Bool.false_eq_true, if_false, throwParsingError]
      rw [h1, h2]
      exact .error rfl
    | ub => exact .ub
    | fuel => exact .fuel
  · have : al = false := by simpa using hal
    subst this
    simp only [Bool.false_eq_true, if_false, throwParsingError]
    rw [h1, h2]
    exact .error rfl

theorem parse_data {s s' : PSt Y} (hk : Intact s) {m : Mem} {p : Ptr} {len : Nat} (h : parse Y E R m p len s = .ok () s') :
    s'.data = p ∧ s'.len = len ∧ Intact s' := by
  rcases parse_out (E := E) (R := R) hk (m := m) (p := p) (len := len) with ⟨st, h', ts, hr, he⟩ | ⟨st, h', ts, y, hr, he⟩ | ⟨st, h', ts, e, y, hr, he⟩ | he | he
  · rw [he] at h; injection h with _ h; subst h
    exact ⟨rfl, rfl, ⟨fun h => by simp [PSt.opened] at h, fun h => by simp [PSt.opened] at h⟩⟩
  all_goals rw [he] at h; simp at h

theorem parseAll_data : ∀ {cs : List Chunk} {c : Chunk} {s s' : PSt Y}, Intact s → cs.getLast? = some c → parseAll Y E R cs s = .ok () s' →
    s'.data = c.ptr ∧ s'.len = c.len
  | [], c, s, s', hk, hl, h => by simp at hl
  | c :: cs, c', s, s', hk, hl, h => by
    simp only [parseAll, P.bind] at h
    cases hp : parse Y E R c.mem c.ptr c.len s with
    | ok a s1 =>
      rw [hp] at h
      obtain ⟨h1, h2, h3⟩ := parse_data hk hp
      match cs, hl, h with
      | [], hl, h =>
        simp only [parseAll, P.pure] at h
        injection h with _ h; subst h
        simp at hl; subst hl; exact ⟨h1, h2⟩
      | d :: cs, hl, h =>
        rw [List.getLast?_cons_cons] at hl
        exact parseAll_data h3 hl h
    | throw x s1 => rw [hp] at h; simp at h
    | ub => rw [hp] at h; simp at h
    | fuel => rw [hp] at h; simp at h

theorem parseAll_opened {s : PSt Y} (hk : Intact s) {cs : List Chunk} (hne : cs ≠ []) (q : Ptr) (n : Nat) :
    parseAll Y E R cs s = parseAll Y E R cs (s.opened q n) := by
  cases cs with
  | nil => exact absurd rfl hne
  | cons c cs => simp only [parseAll, P.bind]; rw [parse_opened hk q n]

/-- Several `parse()` calls in terms of the tokens YAJL reports. -/
theorem parseAll_run {s : PSt Y} (hk : Intact s) {cs : List Chunk} (hne : cs ≠ []) {bs} (hc : chunkBytes cs = some bs) :
    match run E R (Y.scan s.reader bs).2.1 s.tree with
    | .ok _ st =>
        if (Y.scan s.reader bs).2.2 then ∃ s', parseAll Y E R cs s = .ok () s' ∧
          s'.unbuffered = { s.opened none 0 with st := st, handle := (Y.scan s.reader bs).1 }
        else ∃ y s', parseAll Y E R cs s = .throw (.parsing "" y) s' ∧ s'.st = st
    | .throw e st => ∃ y s', parseAll Y E R cs s = .throw (.parsing e.text y) s' ∧ s'.st = st
    | .ub => parseAll Y E R cs s = .ub
    | .fuel => parseAll Y E R cs s = .fuel := by
  have h1 := parseAll_settle (E := E) (R := R) cs hc (s.opened_going none 0) (s.opened_going none 0) rfl
  rw [← parseAll_opened hk hne] at h1
  have hr := yajlParse_run (E := E) (R := R) bs (s.opened none 0) rfl
  have e1 : (s.opened none 0).handle = s.reader := rfl
  have e2 : (s.opened none 0).st = s.tree := rfl
  rw [e1, e2] at hr
  cases hrun : run E R (Y.scan s.reader bs).2.1 s.tree with
  | ok a st =>
    rw [hrun] at hr; simp only at hr ⊢
    rw [hr] at h1
    cases hb : (Y.scan s.reader bs).2.2 with
    | true =>
      rw [hb] at h1; simp only [settle] at h1
      rw [if_pos rfl]
      cases hp : parseAll Y E R cs s with
      | ok a s' => rw [hp] at h1; cases h1 with | ok h1 => exact ⟨s', rfl, h1⟩
      | throw x s' => rw [hp] at h1; cases h1
      | ub => rw [hp] at h1; cases h1
      | fuel => rw [hp] at h1; cases h1
    | false =>
      rw [hb] at h1; simp only [settle] at h1
      rw [if_neg (by simp)]
      cases hp : parseAll Y E R cs s with
      | ok a s' => rw [hp] at h1; cases h1
      | throw x s' => rw [hp] at h1; cases h1 with | error h1 => exact ⟨_, s', rfl, (congrArg (·.st) h1 :)⟩
      | ub => rw [hp] at h1; cases h1
      | fuel => rw [hp] at h1; cases h1
  | throw e st =>
    rw [hrun] at hr; obtain ⟨h', hr⟩ := hr
    rw [hr] at h1; simp only [settle] at h1 ⊢
    cases hp : parseAll Y E R cs s with
    | ok a s' => rw [hp] at h1; cases h1
    | throw x s' => rw [hp] at h1; cases h1 with | error h1 => exact ⟨_, s', rfl, (congrArg (·.st) h1 :)⟩
    | ub => rw [hp] at h1; cases h1
    | fuel => rw [hp] at h1; cases h1
  | ub =>
    rw [hrun] at hr; simp only at hr ⊢
    rw [hr] at h1; simp only [settle] at h1
    cases hp : parseAll Y E R cs s with
    | ub => rfl
    | ok a s' => rw [hp] at h1; cases h1
    | throw x s' => rw [hp] at h1; cases h1
    | fuel => rw [hp] at h1; cases h1
  | fuel =>
    rw [hrun] at hr; simp only at hr ⊢
    rw [hr] at h1; simp only [settle] at h1
    cases hp : parseAll Y E R cs s with
    | fuel => rfl
    | ok a s' => rw [hp] at h1; cases h1
    | throw x s' => rw [hp] at h1; cases h1
    | ub => rw [hp] at h1; cases h1

theorem Between.facts {s : PSt Y} (h : Between Y R s) : Used Y R s ∧ s.reader = Y.alloc ∧ s.tree = s.st.restart := by
  induction h with
  | init => exact ⟨.init, rfl, rfl⟩
  | @refused E s s' m p len x hu hp =>
    refine ⟨.refused hu hp, ?_⟩
    have hk := hu.facts.1
    rcases parse_out (E := E) (R := R) hk (m := m) (p := p) (len := len) with ⟨st, h', ts, hr, he⟩ | ⟨st, h', ts, y, hr, he⟩ | ⟨st, h', ts, e, y, hr, he⟩ | he | he
    all_goals rw [he] at hp
    · simp at hp
    · injection hp with _ hp; subst hp; exact ⟨rfl, rfl⟩
    · injection hp with _ hp; subst hp; exact ⟨rfl, rfl⟩
    all_goals simp at hp
  | @finished E s s' m hu hp =>
    refine ⟨.finished hu hp, ?_⟩
    rcases finishDoc_out (E := E) (R := R) (s := s) (m := m) with ⟨st, h, ts, hr, hs, ha, he⟩ | ⟨st, h, ts, sj, y, hr, he | he⟩ | ⟨st, h, ts, e, y, hr, he⟩ | he | he
    all_goals rw [he] at hp
    · injection hp with _ hp; subst hp; exact ⟨rfl, rfl⟩
    all_goals simp at hp
  | @unfinished E s s' m x hu hp =>
    refine ⟨.unfinished hu hp, ?_⟩
    rcases finishDoc_out (E := E) (R := R) (s := s) (m := m) with ⟨st, h, ts, hr, hs, ha, he⟩ | ⟨st, h, ts, sj, y, hr, he | he⟩ | ⟨st, h, ts, e, y, hr, he⟩ | he | he
    all_goals rw [he] at hp
    · simp at hp
    · injection hp with _ hp; subst hp; exact ⟨rfl, rfl⟩
    · injection hp with _ hp; subst hp; exact ⟨rfl, rfl⟩
    · injection hp with _ hp; subst hp; exact ⟨rfl, rfl⟩
    all_goals simp at hp
  | @pop s st p sh v hb hR hs hp ih =>
    obtain ⟨h1, h2, h3⟩ := ih
    refine ⟨.pop h1 hR hs hp, h2, ?_⟩
    have hst : st.stack = s.st.stack := ((Loc.popVal p).ok hp).1
    unfold PSt.tree at h3 ⊢
    by_cases hr : s.resetNeeded = true
    · simp only [hr, if_true]
    · rw [if_neg hr] at h3
      simp only [if_neg hr]
      have : s.st.stack = [[]] := by rw [h3]; rfl
      unfold St.restart
      rw [← this, ← hst]
  | @reset s p sh hb hR ih =>
    obtain ⟨h1, h2, h3⟩ := ih
    refine ⟨.reset h1 hR, h2, ?_⟩
    unfold PSt.tree at h3 ⊢
    by_cases hr : s.resetNeeded = true
    · simp only [hr, if_true]
    · rw [if_neg hr] at h3
      simp only [if_neg hr]
      have : s.st.stack = [[]] := by rw [h3]; rfl
      unfold St.restart reset'
      rw [← this]

/-- A whole document in terms of its tokens. -/
theorem parseDocument_run_of {s : PSt Y} (hi : Intact s) (hre : s.reader = Y.alloc) (htr : s.tree = s.st.restart) {cs : List Chunk} (hne : cs ≠ []) {bs ts} (hc : chunkBytes cs = some bs)
    (hd : Y.Document bs ts) {m : Mem} (hm : ∀ c, cs.getLast? = some c → (m.read c.ptr c.len).isSome) :
    match run E R ts s.st.restart with
    | .ok _ st =>
        if st.stack = [] then ∃ s', parseDocument Y E R cs m s = .ok () s' ∧ s'.st = st
        else ∃ y s', parseDocument Y E R cs m s = .throw (.parsing "Dispatcher parsers stack is not empty in the end" y) s' ∧ s'.st = st
    | .throw e st => ∃ y s', parseDocument Y E R cs m s = .throw (.parsing e.text y) s' ∧ s'.st = st
    | .ub => parseDocument Y E R cs m s = .ub
    | .fuel => parseDocument Y E R cs m s = .fuel := by
  obtain ⟨h, h', ts1, ts2, h1, h2, rfl⟩ := hd
  have ha := parseAll_run (E := E) (R := R) hi hne hc
  rw [hre, htr, h1] at ha
  simp only at ha
  unfold parseDocument P.bind
  rw [run_append']
  unfold M.bind
  cases hr : run E R ts1 s.st.restart with
  | ok a st =>
    rw [hr] at ha
    simp only [if_true] at ha
    obtain ⟨s1, hp, hs1⟩ := ha
    rw [hp]
    simp only
    have e1 : s1.alive = true := (congrArg (·.alive) hs1 :)
    have e2 : s1.handle = h := (congrArg (·.handle) hs1 :)
    have e3 : s1.st = st := (congrArg (·.st) hs1 :)
    have hf := finishDoc_run (E := E) (R := R) e1 m
    rw [e2, e3, h2] at hf
    simp only at hf
    cases hr2 : run E R ts2 st with
    | ok a st2 =>
      rw [hr2] at hf; simp only [if_true] at hf ⊢
      by_cases hs : st2.stack = []
      · rw [if_pos hs] at hf ⊢; exact ⟨_, hf, rfl⟩
      · rw [if_neg hs] at hf ⊢; exact ⟨_, _, hf, rfl⟩
    | throw e st2 =>
      rw [hr2] at hf; obtain ⟨h3, hf⟩ := hf
      have : (m.read s1.data s1.len).isSome := by
        cases hl : cs.getLast? with
        | none => simp at hl; exact absurd hl hne
        | some c =>
          obtain ⟨d1, d2⟩ := parseAll_data hi hl hp
          rw [d1, d2]; exact hm c hl
      obtain ⟨b, hb⟩ := Option.isSome_iff_exists.1 this
      rw [hb] at hf
      exact ⟨_, _, hf, rfl⟩
    | ub => rw [hr2] at hf; exact hf
    | fuel => rw [hr2] at hf; exact hf
  | throw e st => rw [hr] at ha; obtain ⟨y, s', hp, hs⟩ := ha; rw [hp]; exact ⟨y, s', rfl, hs⟩
  | ub => rw [hr] at ha; simp only at ha; rw [ha]
  | fuel => rw [hr] at ha; simp only at ha; rw [ha]

theorem parseDocument_run {s : PSt Y} (hb : Between Y R s) {cs : List Chunk} (hne : cs ≠ []) {bs ts} (hc : chunkBytes cs = some bs)
    (hd : Y.Document bs ts) {m : Mem} (hm : ∀ c, cs.getLast? = some c → (m.read c.ptr c.len).isSome) :
    match run E R ts s.st.restart with
    | .ok _ st =>
        if st.stack = [] then ∃ s', parseDocument Y E R cs m s = .ok () s' ∧ s'.st = st
        else ∃ y s', parseDocument Y E R cs m s = .throw (.parsing "Dispatcher parsers stack is not empty in the end" y) s' ∧ s'.st = st
    | .throw e st => ∃ y s', parseDocument Y E R cs m s = .throw (.parsing e.text y) s' ∧ s'.st = st
    | .ub => parseDocument Y E R cs m s = .ub
    | .fuel => parseDocument Y E R cs m s = .fuel := 
  parseDocument_run_of hb.facts.1.facts.1 hb.facts.2.1 hb.facts.2.2 hne hc hd hm

end SJ
