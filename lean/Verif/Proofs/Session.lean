/-
`parse()` and `finish()` in terms of the tokens YAJL reports.
-/
import Verif.SpecSession
import Verif.Props.Control

set_option linter.unusedVariables false

namespace SJ

variable {Y : Yajl} {E : Env} {R : Shape}

/-- The effect of reporting tokens. -/
theorem report_run : ∀ (ts : List Token) (s : PSt Y), report Y E R ts s =
    match run E R ts s.st with
    | .ok _ st => .ok true { s with st := st }
    | .throw e st => .ok false { s with st := st, err := e.text }
    | .ub => .ub
    | .fuel => .fuel
  | [], s => rfl
  | t :: ts, s => by
    simp only [report, P.bind, onToken, run, M.bind]
    cases hd : dispatch E R t s.st with
    | ok a st =>
      simp only [if_true]
      rw [report_run ts]
    | throw e st => cases e <;> rfl
    | ub => rfl
    | fuel => rfl

theorem advance_run (out : Y.H × List Token × Bool) (s : PSt Y) : advance Y E R out s =
    match run E R out.2.1 s.st with
    | .ok _ st => .ok out.2.2 { s with st := st, handle := out.1, alive := out.2.2 }
    | .throw e st => .ok false { s with st := st, err := e.text, handle := Y.cancel out.1, alive := false }
    | .ub => .ub
    | .fuel => .fuel := by
  unfold advance P.bind
  rw [report_run]
  cases hr : run E R out.2.1 s.st <;> simp

theorem run_append' (ts us : List Token) (s : St) : run E R (ts ++ us) s = M.bind (run E R ts) (fun _ => run E R us) s := by
  induction ts generalizing s with
  | nil => rfl
  | cons t ts ih =>
    simp only [List.cons_append, run, M.bind]
    cases hd : dispatch E R t s with
    | ok a s1 => simp only; rw [ih]; rfl
    | throw e s1 => rfl
    | ub => rfl
    | fuel => rfl

/-- The effect of `yajl_parse` on a handle that is still alive. -/
theorem yajlParse_run : ∀ (bs : List UInt8) (s : PSt Y), s.alive = true →
    match run E R (Y.scan s.handle bs).2.1 s.st with
    | .ok _ st => yajlParse Y E R bs s =
        .ok (Y.scan s.handle bs).2.2 { s with st := st, handle := (Y.scan s.handle bs).1, alive := (Y.scan s.handle bs).2.2 }
    | .throw e st => ∃ h, yajlParse Y E R bs s = .ok false { s with st := st, err := e.text, handle := h, alive := false }
    | .ub => yajlParse Y E R bs s = .ub
    | .fuel => yajlParse Y E R bs s = .fuel
  | [], s, ha => by
    simp only [Yajl.scan, run, M.pure, yajlParse]
    rw [ha]
    congr 1
    rw [← ha]
  | b :: bs, s, ha => by
    simp only [yajlParse, ha, if_true, P.bind, advance_run, Yajl.scan]
    rcases hs : Y.step s.handle b with ⟨h', ts, ok⟩
    cases ok with
    | false =>
      simp only
      cases hr : run E R ts s.st with
      | ok a st => simp [P.pure]
      | throw e st => exact ⟨Y.cancel h', by simp [P.pure]⟩
      | ub => simp
      | fuel => simp
    | true =>
      simp only [run_append', M.bind]
      cases hr : run E R ts s.st with
      | ok a st =>
        have ih := yajlParse_run bs { s with st := st, handle := h', alive := true } rfl
        simp only [if_true]
        simp only at ih
        cases hr2 : run E R (Y.scan h' bs).2.1 st with
        | ok a st2 => rw [hr2] at ih; exact ih
        | throw e st2 => rw [hr2] at ih; exact ih
        | ub => rw [hr2] at ih; exact ih
        | fuel => rw [hr2] at ih; exact ih
      | throw e st => exact ⟨Y.cancel h', by simp [P.pure]⟩
      | ub => simp
      | fuel => simp

theorem yajlParse_dead (bs : List UInt8) (s : PSt Y) (ha : s.alive = false) : yajlParse Y E R bs s = .ok false s := by
  cases bs <;> simp [yajlParse, ha]

/-- Cutting the input. -/
theorem yajlParse_append : ∀ (xs ys : List UInt8) (s : PSt Y), s.alive = true → yajlParse Y E R (xs ++ ys) s =
    P.bind (yajlParse Y E R xs) (fun go => if go then yajlParse Y E R ys else P.pure false) s
  | [], ys, s, ha => by simp [yajlParse, P.bind, ha]
  | x :: xs, ys, s, ha => by
    simp only [List.cons_append, yajlParse, ha, if_true, P.bind, advance_run]
    rcases hs : Y.step s.handle x with ⟨h', ts, ok⟩
    simp only
    cases hr : run E R ts s.st with
    | ok a st =>
      cases ok with
      | false => simp [P.pure]
      | true =>
        simp only [if_true]
        rw [yajlParse_append xs ys _ rfl]
        rfl
    | throw e st => simp [P.pure]
    | ub => simp
    | fuel => simp

theorem scan_good {h h' : Y.H} {x ts} (xs : List UInt8) (hs : Y.step h x = (h', ts, true)) :
    Y.scan h (x :: xs) = ((Y.scan h' xs).1, ts ++ (Y.scan h' xs).2.1, (Y.scan h' xs).2.2) := by
  simp only [Yajl.scan, hs]

theorem scan_bad {h h' : Y.H} {x ts} (xs : List UInt8) (hs : Y.step h x = (h', ts, false)) :
    Y.scan h (x :: xs) = (h', ts, false) := by
  simp only [Yajl.scan, hs]

theorem scan_append (Y : Yajl) : ∀ (xs ys : List UInt8) (h : Y.H), Y.scan h (xs ++ ys) =
    if (Y.scan h xs).2.2 then
      ((Y.scan (Y.scan h xs).1 ys).1, (Y.scan h xs).2.1 ++ (Y.scan (Y.scan h xs).1 ys).2.1, (Y.scan (Y.scan h xs).1 ys).2.2)
    else Y.scan h xs
  | [], ys, h => by simp [Yajl.scan]
  | x :: xs, ys, h => by
    obtain ⟨h', ts, ok, hs⟩ : ∃ h' ts ok, Y.step h x = (h', ts, ok) := ⟨_, _, _, rfl⟩
    cases ok with
    | false => rw [List.cons_append, scan_bad _ hs, scan_bad _ hs]; simp
    | true =>
      rw [List.cons_append, scan_good _ hs, scan_good _ hs, scan_append Y xs ys h']
      by_cases hb : (Y.scan h' xs).2.2 = true
      · simp [hb, List.append_assoc]
      · simp [hb]

/-! ### Invariants of use -/

/-- A handle that reported an error is not used for parsing any more; an error text belongs to such a handle. -/
structure Intact (s : PSt Y) : Prop where
  dead : s.alive = false → s.resetNeeded = true
  err : s.err ≠ "" → s.alive = false

/-- The parser at the beginning of the reading of a chunk. -/
def PSt.opened (s : PSt Y) (p : Ptr) (len : Nat) : PSt Y :=
  { st := s.tree, handle := s.reader, alive := true, data := p, len := len, resetNeeded := false, err := "" }

theorem Intact.renew {s : PSt Y} (h : Intact s) (p : Ptr) (len : Nat) : PSt.renew Y { s with data := p, len := len } = s.opened p len := by
  unfold PSt.renew PSt.opened PSt.tree PSt.reader
  cases hr : s.resetNeeded with
  | true => simp
  | false =>
    have ha : s.alive = true := by
      cases ha : s.alive with
      | true => rfl
      | false => have := h.dead ha; rw [hr] at this; simp at this
    have he : s.err = "" := by
      by_cases he : s.err = ""
      · exact he
      · have := h.err he; rw [ha] at this; simp at this
    simp [ha, he]

/-- The text `yajl_get_error` gives for a handle and the bytes of the buffer. -/
def yajlText (Y : Yajl) (h : Y.H) (bs : List UInt8) : String := (Y.message h bs).getD "Unknown YAJL error\n"

/-- `parse()` in terms of the tokens YAJL reports. -/
theorem parse_run {s : PSt Y} (hk : Intact s) {m : Mem} {p : Ptr} {len : Nat} {bs} (hm : m.read p len = some bs) :
    match run E R (Y.scan s.reader bs).2.1 s.tree with
    | .ok _ st =>
        if (Y.scan s.reader bs).2.2 then
          parse Y E R m p len s = .ok () { s.opened p len with st := st, handle := (Y.scan s.reader bs).1 }
        else parse Y E R m p len s = .throw (.parsing "" (yajlText Y (Y.scan s.reader bs).1 bs))
          { s.opened p len with st := st, handle := (Y.scan s.reader bs).1, alive := false, resetNeeded := true }
    | .throw e st => ∃ h, parse Y E R m p len s = .throw (.parsing e.text (yajlText Y h bs))
          { s.opened p len with st := st, err := e.text, handle := h, alive := false, resetNeeded := true }
    | .ub => parse Y E R m p len s = .ub
    | .fuel => parse Y E R m p len s = .fuel := by
  have hr := yajlParse_run (E := E) (R := R) bs (s.opened p len) rfl
  unfold parse
  simp only [hm, hk.renew, P.bind]
  have h1 : (s.opened p len).handle = s.reader := rfl
  have h2 : (s.opened p len).st = s.tree := rfl
  rw [h1, h2] at hr
  cases hrun : run E R (Y.scan s.reader bs).2.1 s.tree with
  | ok a st =>
    rw [hrun] at hr
    simp only at hr ⊢
    rw [hr]
    cases hb : (Y.scan s.reader bs).2.2 with
    | true => simp [PSt.opened]
    | false =>
      simp only [Bool.false_eq_true, if_false, throwParsingError]
      show (match m.read p len with | none => _ | some bs => _) = _
      rw [hm]; rfl
  | throw e st =>
    rw [hrun] at hr
    obtain ⟨h, hr⟩ := hr
    simp only
    rw [hr]
    refine ⟨h, ?_⟩
    simp only [Bool.false_eq_true, if_false, throwParsingError]
    show (match m.read p len with | none => _ | some bs => _) = _
    rw [hm]; rfl
  | ub => rw [hrun] at hr; simp only at hr ⊢; rw [hr]
  | fuel => rw [hrun] at hr; simp only at hr ⊢; rw [hr]

theorem parse_unreadable {s : PSt Y} {m : Mem} {p : Ptr} {len : Nat} (hm : m.read p len = none) : parse Y E R m p len s = .ub := by
  unfold parse; rw [hm]

/-- `finish()` in terms of the tokens YAJL reports, on a handle that is still alive. -/
theorem finishDoc_run {s : PSt Y} (ha : s.alive = true) (m : Mem) :
    match run E R (Y.complete s.handle).2.1 s.st with
    | .ok _ st =>
        if (Y.complete s.handle).2.2 then
          if st.stack = [] then
            finishDoc Y E R m s = .ok () { s with st := st, handle := (Y.complete s.handle).1, resetNeeded := true }
          else finishDoc Y E R m s = .throw (.parsing "Dispatcher parsers stack is not empty in the end" "")
            { s with st := st, handle := (Y.complete s.handle).1, resetNeeded := true }
        else finishDoc Y E R m s = match m.read s.data s.len with
          | none => .ub
          | some bs => .throw (.parsing s.err (yajlText Y (Y.complete s.handle).1 bs))
              { s with st := st, handle := (Y.complete s.handle).1, alive := false, resetNeeded := true }
    | .throw e st => ∃ h, finishDoc Y E R m s = match m.read s.data s.len with
          | none => .ub
          | some bs => .throw (.parsing e.text (yajlText Y h bs))
              { s with st := st, err := e.text, handle := h, alive := false, resetNeeded := true }
    | .ub => finishDoc Y E R m s = .ub
    | .fuel => finishDoc Y E R m s = .fuel := by
  unfold finishDoc P.bind yajlComplete
  simp only [ha, if_true, advance_run]
  cases hr : run E R (Y.complete s.handle).2.1 s.st with
  | ok a st =>
    simp only
    cases hb : (Y.complete s.handle).2.2 with
    | true =>
      simp only [if_true, checkDispatcherStack]
      by_cases hs : st.stack = []
      · rw [if_pos hs]; simp [hs]
      · rw [if_neg hs]
        cases hst : st.stack with
        | nil => exact absurd hst hs
        | cons a l => simp
    | false => simp only [Bool.false_eq_true, if_false, throwParsingError]; rfl
  | throw e st =>
    simp only
    exact ⟨Y.cancel (Y.complete s.handle).1, by simp only [Bool.false_eq_true, if_false, throwParsingError]; rfl⟩
  | ub => rfl
  | fuel => rfl

theorem finishDoc_dead {s : PSt Y} (ha : s.alive = false) (m : Mem) :
    finishDoc Y E R m s = match m.read s.data s.len with
      | none => .ub
      | some bs => .throw (.parsing s.err (yajlText Y s.handle bs)) { s with resetNeeded := true } := by
  unfold finishDoc P.bind yajlComplete
  simp only [ha, Bool.false_eq_true, if_false, throwParsingError]; rfl

/-- All that can come out of `parse()`. -/
theorem parse_out {s : PSt Y} (hk : Intact s) {m : Mem} {p : Ptr} {len : Nat} :
    (∃ st h ts, run E R ts s.tree = .ok () st ∧ parse Y E R m p len s = .ok () { s.opened p len with st := st, handle := h }) ∨
    (∃ st h ts y, run E R ts s.tree = .ok () st ∧
      parse Y E R m p len s = .throw (.parsing "" y) { s.opened p len with st := st, handle := h, alive := false, resetNeeded := true }) ∨
    (∃ st h ts e y, run E R ts s.tree = .throw e st ∧ parse Y E R m p len s = .throw (.parsing e.text y)
      { s.opened p len with st := st, err := e.text, handle := h, alive := false, resetNeeded := true }) ∨
    parse Y E R m p len s = .ub ∨ parse Y E R m p len s = .fuel := by
  cases hm : m.read p len with
  | none => exact Or.inr (Or.inr (Or.inr (Or.inl (parse_unreadable hm))))
  | some bs =>
    have h := parse_run (E := E) (R := R) hk hm
    cases hr : run E R (Y.scan s.reader bs).2.1 s.tree with
    | ok a st =>
      rw [hr] at h; simp only at h
      by_cases hb : (Y.scan s.reader bs).2.2 = true
      · rw [if_pos hb] at h; exact Or.inl ⟨_, _, _, hr, h⟩
      · rw [if_neg hb] at h; exact Or.inr (Or.inl ⟨_, _, _, _, hr, h⟩)
    | throw e st =>
      rw [hr] at h; obtain ⟨h', h⟩ := h; exact Or.inr (Or.inr (Or.inl ⟨_, _, _, _, _, hr, h⟩))
    | ub => rw [hr] at h; exact Or.inr (Or.inr (Or.inr (Or.inl h)))
    | fuel => rw [hr] at h; exact Or.inr (Or.inr (Or.inr (Or.inr h)))

/-- All that can come out of `finish()`. -/
theorem finishDoc_out {s : PSt Y} {m : Mem} :
    (∃ st h ts, run E R ts s.st = .ok () st ∧ st.stack = [] ∧ s.alive = true ∧
      finishDoc Y E R m s = .ok () { s with st := st, handle := h, resetNeeded := true }) ∨
    (∃ st h ts sj y, run E R ts s.st = .ok () st ∧ (finishDoc Y E R m s = .throw (.parsing sj y) { s with st := st, handle := h, resetNeeded := true } ∨
      finishDoc Y E R m s = .throw (.parsing sj y) { s with st := st, handle := h, alive := false, resetNeeded := true })) ∨
    (∃ st h ts e y, run E R ts s.st = .throw e st ∧ finishDoc Y E R m s = .throw (.parsing e.text y)
      { s with st := st, err := e.text, handle := h, alive := false, resetNeeded := true }) ∨
    finishDoc Y E R m s = .ub ∨ finishDoc Y E R m s = .fuel := by
  rcases Bool.eq_false_or_eq_true s.alive with ha | ha
  rotate_left
  · have h := finishDoc_dead (E := E) (R := R) ha m
    cases hm : m.read s.data s.len with
    | none => rw [hm] at h; exact Or.inr (Or.inr (Or.inr (Or.inl h)))
    | some bs =>
      rw [hm] at h
      exact Or.inr (Or.inl ⟨s.st, s.handle, [], _, _, rfl, Or.inl h⟩)
  · have h := finishDoc_run (E := E) (R := R) ha m
    cases hr : run E R (Y.complete s.handle).2.1 s.st with
    | ok a st =>
      rw [hr] at h; simp only at h
      by_cases hb : (Y.complete s.handle).2.2 = true
      · rw [if_pos hb] at h
        by_cases hs : st.stack = []
        · rw [if_pos hs] at h; exact Or.inl ⟨_, _, _, hr, hs, ha, h⟩
        · rw [if_neg hs] at h; exact Or.inr (Or.inl ⟨_, _, _, _, _, hr, Or.inl h⟩)
      · rw [if_neg hb] at h
        cases hm : m.read s.data s.len with
        | none => rw [hm] at h; exact Or.inr (Or.inr (Or.inr (Or.inl h)))
        | some bs => rw [hm] at h; exact Or.inr (Or.inl ⟨_, _, _, _, _, hr, Or.inr h⟩)
    | throw e st =>
      rw [hr] at h; obtain ⟨h', h⟩ := h
      cases hm : m.read s.data s.len with
      | none => rw [hm] at h; exact Or.inr (Or.inr (Or.inr (Or.inl h)))
      | some bs => rw [hm] at h; exact Or.inr (Or.inr (Or.inl ⟨_, _, _, _, _, hr, h⟩))
    | ub => rw [hr] at h; exact Or.inr (Or.inr (Or.inr (Or.inl h)))
    | fuel => rw [hr] at h; exact Or.inr (Or.inr (Or.inr (Or.inr h)))

theorem PSt.tree_history {s : PSt Y} (h : History R s.st) : History R s.tree := by
  unfold PSt.tree; split
  · exact .restart h
  · exact h

theorem Used.facts {s : PSt Y} (h : Used Y R s) : Intact s ∧ History R s.st := by
  induction h with
  | init => exact ⟨⟨fun h => by simp [PSt.init] at h, fun h => by simp [PSt.init] at h⟩, .init⟩
  | @parsed E s s' m p len hu hp ih =>
    obtain ⟨hk, hh⟩ := ih
    rcases parse_out (E := E) (R := R) hk (m := m) (p := p) (len := len) with ⟨st, h, ts, hr, he⟩ | ⟨st, h, ts, y, hr, he⟩ | ⟨st, h, ts, e, y, hr, he⟩ | he | he
    all_goals rw [he] at hp
    · injection hp with _ hp; subst hp
      exact ⟨⟨fun h => by simp [PSt.opened] at h, fun h => by simp [PSt.opened] at h⟩, .tokens _ (PSt.tree_history hh) hr⟩
    all_goals simp at hp
  | @refused E s s' m p len x hu hp ih =>
    obtain ⟨hk, hh⟩ := ih
    rcases parse_out (E := E) (R := R) hk (m := m) (p := p) (len := len) with ⟨st, h, ts, hr, he⟩ | ⟨st, h, ts, y, hr, he⟩ | ⟨st, h, ts, e, y, hr, he⟩ | he | he
    all_goals rw [he] at hp
    · simp at hp
    · injection hp with _ hp; subst hp
      exact ⟨⟨fun _ => rfl, fun _ => rfl⟩, .tokens _ (PSt.tree_history hh) hr⟩
    · injection hp with _ hp; subst hp
      exact ⟨⟨fun _ => rfl, fun _ => rfl⟩, .failed _ _ (PSt.tree_history hh) hr⟩
    all_goals simp at hp
  | @finished E s s' m hu hp ih =>
    obtain ⟨hk, hh⟩ := ih
    rcases finishDoc_out (E := E) (R := R) (s := s) (m := m) with ⟨st, h, ts, hr, hs, ha, he⟩ | ⟨st, h, ts, sj, y, hr, he | he⟩ | ⟨st, h, ts, e, y, hr, he⟩ | he | he
    all_goals rw [he] at hp
    · injection hp with _ hp; subst hp
      exact ⟨⟨fun _ => rfl, fun h => hk.err h⟩, .tokens _ hh hr⟩
    all_goals simp at hp
  | @unfinished E s s' m x hu hp ih =>
    obtain ⟨hk, hh⟩ := ih
    rcases finishDoc_out (E := E) (R := R) (s := s) (m := m) with ⟨st, h, ts, hr, hs, ha, he⟩ | ⟨st, h, ts, sj, y, hr, he | he⟩ | ⟨st, h, ts, e, y, hr, he⟩ | he | he
    all_goals rw [he] at hp
    · simp at hp
    · injection hp with _ hp; subst hp
      exact ⟨⟨fun _ => rfl, fun h => hk.err h⟩, .tokens _ hh hr⟩
    · injection hp with _ hp; subst hp
      exact ⟨⟨fun _ => rfl, fun _ => rfl⟩, .tokens _ hh hr⟩
    · injection hp with _ hp; subst hp
      exact ⟨⟨fun _ => rfl, fun _ => rfl⟩, .failed _ _ hh hr⟩
    all_goals simp at hp
  | pop hu hR hs hp ih => exact ⟨⟨ih.1.dead, ih.1.err⟩, .pop ih.2 hR hs hp⟩
  | reset hu hR ih => exact ⟨⟨ih.1.dead, ih.1.err⟩, .reset ih.2 hR⟩

end SJ
