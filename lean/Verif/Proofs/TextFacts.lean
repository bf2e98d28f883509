/-
A JSON text is a text of one tree only; what can come out of parsing any bytes.
-/
import Verif.Proofs.ReaderOnly
import Verif.Proofs.Write
import Verif.Props.Session

namespace SJ

mutual
/-- The tokens of a value tell where it ends. -/
theorem events_cancel : ∀ (j j' : Json) {ts ts' : List Token}, events j ++ ts = events j' ++ ts' → j = j' ∧ ts = ts'
  | .null, j', ts, ts', h => by
    cases j' <;> simp [events] at h
    exact ⟨rfl, h⟩
  | .sc x, j', ts, ts', h => by
    cases j' <;> simp [events] at h
    exact ⟨by rw [h.1], h.2⟩
  | .arr l, j', ts, ts', h => by
    cases j' with
    | arr l' =>
      simp only [events, List.cons_append, List.append_assoc, List.cons.injEq, true_and] at h
      obtain ⟨rfl, h⟩ := elemEvents_cancel l l' h
      exact ⟨rfl, by simpa using h⟩
    | _ => simp [events] at h
  | .obj l, j', ts, ts', h => by
    cases j' with
    | obj l' =>
      simp only [events, List.cons_append, List.append_assoc, List.cons.injEq, true_and] at h
      obtain ⟨rfl, h⟩ := fieldEvents_cancel l l' h
      exact ⟨rfl, by simpa using h⟩
    | _ => simp [events] at h
theorem elemEvents_cancel : ∀ (l l' : List Json) {ts ts' : List Token}, elemEvents l ++ ([.arrEnd] ++ ts) = elemEvents l' ++ ([.arrEnd] ++ ts') → l = l' ∧ ts = ts'
  | [], [], ts, ts', h => by simpa [elemEvents] using h
  | [], j :: l, ts, ts', h => by cases j <;> simp [elemEvents, events] at h
  | j :: l, [], ts, ts', h => by cases j <;> simp [elemEvents, events] at h
  | j :: l, j' :: l', ts, ts', h => by
    simp only [elemEvents, List.append_assoc] at h
    obtain ⟨h1, h2⟩ := events_cancel j j' h
    obtain ⟨h3, h4⟩ := elemEvents_cancel l l' h2
    exact ⟨by rw [h1, h3], h4⟩
theorem fieldEvents_cancel : ∀ (l l' : List (String × Json)) {ts ts' : List Token},
    fieldEvents l ++ ([.mapEnd] ++ ts) = fieldEvents l' ++ ([.mapEnd] ++ ts') → l = l' ∧ ts = ts'
  | [], [], ts, ts', h => by simpa [fieldEvents] using h
  | [], (k, j) :: l, ts, ts', h => by simp [fieldEvents] at h
  | (k, j) :: l, [], ts, ts', h => by simp [fieldEvents] at h
  | (k, j) :: l, (k', j') :: l', ts, ts', h => by
    simp only [fieldEvents, List.cons_append, List.append_assoc, List.cons.injEq, Token.mapKey.injEq] at h
    obtain ⟨h0, h⟩ := h
    obtain ⟨h1, h2⟩ := events_cancel j j' h
    obtain ⟨h3, h4⟩ := fieldEvents_cancel l l' h2
    exact ⟨by rw [h0, h1, h3], h4⟩
end

theorem events_inj {j j' : Json} (h : events j = events j') : j = j' :=
  (events_cancel j j' (ts := []) (ts' := []) (by rw [h])).1

theorem Document_unique {Y : Yajl} {bs ts ts'} (h : Y.Document bs ts) (h' : Y.Document bs ts') : ts = ts' := by
  obtain ⟨a, b, c, d, h1, h2, rfl⟩ := h
  obtain ⟨a', b', c', d', h3, h4, rfl⟩ := h'
  rw [h1] at h3; cases h3
  rw [h2] at h4; cases h4
  rfl

/-- The grammar is unambiguous. -/
theorem JsonText_unique {dbl : List UInt8 → Option Dbl} {j j' : Json} {bs : List UInt8} (h : JsonText dbl j bs) (h' : JsonText dbl j' bs) : j = j' :=
  events_inj (Document_unique (Read.reader_reads dbl j bs h) (Read.reader_reads dbl j' bs h'))

variable {Y : Yajl} {E : Env} {R : Shape}

theorem parseAll_used : ∀ {cs : List Chunk} {s s' : PSt Y}, Used Y R s → parseAll Y E R cs s = .ok () s' → Used Y R s'
  | [], s, s', h, hp => by injection hp with _ hp; subst hp; exact h
  | c :: cs, s, s', h, hp => by
    unfold parseAll P.bind at hp
    cases hc : parse Y E R c.mem c.ptr c.len s with
    | ok a s1 => rw [hc] at hp; exact parseAll_used (.parsed h hc) hp
    | throw x s1 => rw [hc] at hp; simp at hp
    | ub => rw [hc] at hp; simp at hp
    | fuel => rw [hc] at hp; simp at hp

theorem parseAll_total (hu : ¬ HasUnionArray R) : ∀ {cs : List Chunk} {bs : List UInt8} {s : PSt Y}, Used Y R s → chunkBytes cs = some bs →
    (∃ s', parseAll Y E R cs s = .ok () s' ∧ (∀ c, cs.getLast? = some c → s'.data = c.ptr ∧ s'.len = c.len)) ∨
    (∃ sj y s', parseAll Y E R cs s = .throw (.parsing sj y) s')
  | [], bs, s, h, _ => .inl ⟨s, rfl, fun c hc => by simp at hc⟩
  | c :: cs, bs, s, h, hc => by
    simp only [chunkBytes] at hc
    split at hc
    · rename_i b1 b2 h1 h2
      rcases C26_parse_total (E := E) h hu (m := c.mem) (p := c.ptr) (len := c.len) (by rw [h1]; rfl) with ⟨s1, hp⟩ | ⟨sj, y, s1, hp⟩
      · have hd : s1.data = c.ptr ∧ s1.len = c.len := by
          rcases parse_out (E := E) (R := R) h.facts.1 (m := c.mem) (p := c.ptr) (len := c.len) with ⟨st, h', ts, hr, he⟩ | ⟨st, h', ts, y, hr, he⟩ | ⟨st, h', ts, e, y, hr, he⟩ | he | he
          all_goals rw [he] at hp
          · injection hp with _ hp; subst hp; exact ⟨rfl, rfl⟩
          all_goals simp at hp
        rcases parseAll_total hu (.parsed h hp) h2 with ⟨s2, hp2, hl⟩ | ⟨sj, y, s2, hp2⟩
        · refine .inl ⟨s2, by unfold parseAll P.bind; rw [hp]; exact hp2, ?_⟩
          intro c' hc'
          cases cs with
          | nil =>
            injection hp2 with _ hp2; subst hp2
            simp at hc'; subst hc'; exact hd
          | cons x xs => exact hl c' (by rw [← hc']; simp)
        · exact .inr ⟨sj, y, s2, by unfold parseAll P.bind; rw [hp]; exact hp2⟩
      · exact .inr ⟨sj, y, s1, by unfold parseAll P.bind; rw [hp]⟩
    · cases hc

/-- Reading any bytes as a document ends normally or by `ParsingError`. -/
theorem parseDocument_total (hu : ¬ HasUnionArray R) {cs : List Chunk} (hne : cs ≠ []) {bs : List UInt8} {s : PSt Y} (h : Used Y R s) (hc : chunkBytes cs = some bs)
    {m : Mem} (hm : ∀ c, cs.getLast? = some c → (m.read c.ptr c.len).isSome) :
    (∃ s', parseDocument Y E R cs m s = .ok () s') ∨ (∃ sj y s', parseDocument Y E R cs m s = .throw (.parsing sj y) s') := by
  unfold parseDocument P.bind
  rcases parseAll_total (E := E) hu h hc with ⟨s1, hp, hl⟩ | ⟨sj, y, s1, hp⟩
  · rw [hp]
    obtain ⟨c, hcl⟩ : ∃ c, cs.getLast? = some c := by
      cases h : cs.getLast? with
      | none => exact absurd (List.getLast?_eq_none_iff.mp h) hne
      | some c => exact ⟨c, rfl⟩
    obtain ⟨e1, e2⟩ := hl c hcl
    exact C26_finish_total (parseAll_used h hp) hu (by rw [e1, e2]; exact hm c hcl)
  · rw [hp]; exact .inr ⟨sj, y, s1, rfl⟩

end SJ
