/-
C64: errors are reported at the earliest possible moment. As long as there was no error, what has been read is the beginning of a document that is accepted.
-/
import Verif.Proofs.Ahead
import Verif.Props.Conform
import Verif.Props.Streaming

set_option linter.unusedVariables false

namespace SJ

variable {Y : Yajl} {E : Env} {R : Shape}

/-- A run over the beginning of a document ends by returning or by an exception of the library. -/
theorem beginning_run (hE : Passive E) (hw : R.wf = true) (hd : AllDistinct R) {s : St} (h : Ready R s) {j : Json} (hok : okVal R j = true) {a b : List Token}
    (hj : events j = a ++ b) : (∃ s', run E R a s = .ok () s') ∨ ∃ e s', run E R a s = .throw (.std e) s' := by
  have h1 := C47_exact_ready hE hw hd h hok
  rw [hj, run_append', M.bind] at h1
  cases hr : run E R a s with
  | ok u s' => exact .inl ⟨s', rfl⟩
  | throw e s' =>
    rw [hr] at h1
    simp only at h1
    rcases h1 with ⟨_, _, h1, _⟩ | ⟨_, e', s1, h1⟩
    · cases h1
    · injection h1 with h1 h2; subst h1; exact .inr ⟨e', s', rfl⟩
  | ub => rw [hr] at h1; simp at h1
  | fuel => rw [hr] at h1; simp at h1

theorem begins_ok (hE : Passive E) (hw : R.wf = true) (hd : AllDistinct R) {s : St} (h : Ready R s) {a : List Token} {j' : Json} (hok : okVal R j' = true)
    (hc : Conforms R j') (hb : BeginsWith j' a) : ∃ s', run E R a s = .ok () s' := by
  obtain ⟨b, hb⟩ := hb
  rcases beginning_run hE hw hd h hok hb with h1 | ⟨e, s', h1⟩
  · exact h1
  · rcases C47_exact_ready hE hw hd h hok with ⟨_, t, h2, _⟩ | ⟨h2, _⟩
    · rw [hb, run_append', M.bind, h1] at h2; cases h2
    · exact absurd hc h2

theorem ahead_ready (hE : Passive E) (hw : R.wf = true) (hd : AllDistinct R) (hcm : R.completable = true) {s s' : St} (h : Ready R s) {j : Json} (hok : okVal R j = true)
    {a b : List Token} (hj : events j = a ++ b) (hr : run E R a s = .ok () s') : ∃ j', okVal R j' = true ∧ Conforms R j' ∧ BeginsWith j' a ∧ (b ≠ [] → filled R j' = true) := by
  by_cases hb : b = []
  · subst hb
    refine ⟨j, hok, ?_, ⟨[], hj⟩, fun h => absurd rfl h⟩
    rcases C47_exact_ready hE hw hd h hok with ⟨hc, _⟩ | ⟨_, e, t, h2⟩
    · exact hc
    · rw [hj, List.append_nil, hr] at h2; cases h2
  · obtain ⟨j', b', _, h1, h2, h3, h4⟩ := more_val hE j R [] [] a b s s' rfl h.stack h.disp h.sane ⟨hw, hd⟩ hcm hok hj hb hr
    exact ⟨j', h2, h3, ⟨b', h1⟩, fun _ => h4⟩

/-- C64. The tokens read so far are part of some document outside the known defects, and there was no error: then there are tokens `b'` that complete a
document which is accepted, and of which the root parser then holds a value. -/
theorem C64_completable (hE : Passive E) (hw : R.wf = true) (hd : AllDistinct R) (hcm : R.completable = true) {s s' : St} (h : Survived R s) {j : Json}
    (hok : okVal R j = true) {a b : List Token} (hj : events j = a ++ b) (hb : b ≠ []) (hr : run E R a s = .ok () s') :
    ∃ j' b' t, events j' = a ++ b' ∧ Conforms R j' ∧ run E R b' s' = .ok () t ∧ t.stack = [] ∧ isSet [] t = true := by
  obtain ⟨j', h1, h2, ⟨b', h3⟩, h4⟩ := ahead_ready hE hw hd hcm (h.ready hw) hok hj hr
  rcases C47_exact_ready hE hw hd (h.ready hw) h1 with ⟨_, t, h5, h6, h7⟩ | ⟨h5, _⟩
  · rw [h3, run_append', M.bind, hr] at h5
    exact ⟨j', b', t, h3, h2, h5, h6, by rw [h7]; exact h4 hb⟩
  · exact absurd h2 h5

/-- C64. There is no error by now if and only if what has been read is the beginning of a conforming document. -/
theorem C64_exact (hE : Passive E) (hw : R.wf = true) (hd : AllDistinct R) (hcm : R.completable = true) {s : St} (h : Survived R s) {j : Json}
    (hok : okVal R j = true) {a b : List Token} (hj : events j = a ++ b) :
    (∃ s', run E R a s = .ok () s') ↔ ∃ j', okVal R j' = true ∧ Conforms R j' ∧ BeginsWith j' a := by
  constructor
  · rintro ⟨s', hr⟩
    obtain ⟨j', h1, h2, h3, _⟩ := ahead_ready hE hw hd hcm (h.ready hw) hok hj hr
    exact ⟨j', h1, h2, h3⟩
  · rintro ⟨j', h1, h2, h3⟩
    exact begins_ok hE hw hd (h.ready hw) h1 h2 h3

/-- C64. The token at which the error is reported is the first with which no conforming document goes on: after `a` one could have followed, after `a`
and `t` none can. -/
theorem C64_earliest (hE : Passive E) (hw : R.wf = true) (hd : AllDistinct R) (hcm : R.completable = true) {s : St} (h : Survived R s) {j : Json}
    (hok : okVal R j = true) {a b : List Token} {t : Token} (hj : events j = a ++ t :: b) :
    (∃ s1 e s2, run E R a s = .ok () s1 ∧ dispatch E R t s1 = .throw (.std e) s2) ↔
      (∃ j', okVal R j' = true ∧ Conforms R j' ∧ BeginsWith j' a) ∧ ∀ j', okVal R j' = true → BeginsWith j' (a ++ [t]) → ¬ Conforms R j' := by
  have hj' : events j = (a ++ [t]) ++ b := by rw [hj]; simp
  have one : ∀ s1, run E R a s = .ok () s1 → run E R (a ++ [t]) s = dispatch E R t s1 := by
    intro s1 h1
    rw [run_append', M.bind, h1]
    simp only [run, M.bind, M.pure]
    cases dispatch E R t s1 <;> rfl
  constructor
  · rintro ⟨s1, e, s2, h1, h2⟩
    refine ⟨(C64_exact hE hw hd hcm h hok hj).1 ⟨s1, h1⟩, fun j' h3 h4 h5 => ?_⟩
    obtain ⟨s3, h6⟩ := begins_ok hE hw hd (h.ready hw) h3 h5 h4
    rw [one s1 h1, h2] at h6; cases h6
  · rintro ⟨h1, h2⟩
    obtain ⟨s1, h3⟩ := (C64_exact hE hw hd hcm h hok hj).2 h1
    rcases beginning_run hE hw hd (h.ready hw) hok hj' with h4 | ⟨e, s2, h4⟩
    · obtain ⟨j', g1, g2, g3⟩ := (C64_exact hE hw hd hcm h hok hj').1 h4
      exact absurd g2 (h2 j' g1 g3)
    · exact ⟨s1, e, s2, h3, by rw [← one s1 h3]; exact h4⟩

/-- C64, as the user sees it. The beginning of a JSON text comes in any number of pieces. Either `parse()` returns for all of them, and the tokens YAJL has
reported are the beginning of a conforming document; or it throws `ParsingError`, and they are not. -/
theorem C64_text (hE : Passive E) (hw : R.wf = true) (hd : AllDistinct R) (hcm : R.completable = true) {s : PSt Y} (h : ServedDocs Y R s) {cs : List Chunk} (hne : cs ≠ [])
    {bs rest : List UInt8} {j : Json} (hc : chunkBytes cs = some bs) (hdoc : Y.Document (bs ++ rest) (events j)) (hok : okVal R j = true) :
    ((∃ s', parseAll Y E R cs s = .ok () s') ∧ ∃ j', okVal R j' = true ∧ Conforms R j' ∧ BeginsWith j' (Y.scan Y.alloc bs).2.1) ∨
    ((∃ sj y s', parseAll Y E R cs s = .throw (.parsing sj y) s') ∧ ∀ j', okVal R j' = true → BeginsWith j' (Y.scan Y.alloc bs).2.1 → ¬ Conforms R j') := by
  obtain ⟨f1, f2⟩ := h.facts
  have hrun := parseAll_run (E := E) (R := R) f1.facts.1.facts.1 hne hc
  rw [f1.facts.2.1, f1.facts.2.2] at hrun
  obtain ⟨hh, hh', ts1, ts2, d1, d2, d3⟩ := hdoc
  rw [scan_append] at d1
  have hpre : (Y.scan Y.alloc bs).2.2 = true ∧ ∃ b, events j = (Y.scan Y.alloc bs).2.1 ++ b := by
    split at d1
    next hf =>
      simp only [Prod.mk.injEq] at d1
      exact ⟨hf, (Y.scan (Y.scan Y.alloc bs).1 rest).2.1 ++ ts2, by rw [d3, ← d1.2.1, List.append_assoc]⟩
    next hf => exact absurd (by rw [d1]) hf
  obtain ⟨hf, b, hb⟩ := hpre
  have hready := f2.ready (wf_user hw)
  rcases beginning_run hE hw hd hready hok hb with ⟨st, hr⟩ | ⟨e, st, hr⟩
  · rw [hr] at hrun
    simp only [hf, if_true] at hrun
    obtain ⟨s', g1, _⟩ := hrun
    obtain ⟨j', h1, h2, h3, _⟩ := ahead_ready hE hw hd hcm hready hok hb hr
    exact .inl ⟨⟨s', g1⟩, j', h1, h2, h3⟩
  · rw [hr] at hrun
    obtain ⟨y, s', g1, _⟩ := hrun
    refine .inr ⟨⟨_, y, s', g1⟩, fun j' h1 h2 h3 => ?_⟩
    obtain ⟨s2, h4⟩ := begins_ok hE hw hd hready h1 h3 h2
    rw [hr] at h4; cases h4

section Examples
open Demo

/-- The first tokens of `{"name": "x", "part": {"tags": ["a", "b"], "id": 7}, ...`: inside `part`, whose member `id` is still missing. -/
def partly : List Token := (events doc).take 9

example : (events doc).drop 9 ≠ [] := by decide +kernel
example : outer.completable = true ∧ choice.completable = true ∧ schoice.completable = true := by decide +kernel

example : ∃ j' b' t, events j' = partly ++ b' ∧ Conforms outer j' ∧ run accepting outer b' (after accepting outer partly (St.init outer)) = .ok () t ∧ t.stack = [] ∧ isSet [] t = true :=
  C64_completable accepting_passive (by decide +kernel) (allDistinct_of (by decide +kernel)) (by decide +kernel) Survived.init (j := doc) (by decide +kernel)
    (b := (events doc).drop 9) (List.take_append_drop 9 (events doc)).symm (by decide +kernel) (after_ok (by decide +kernel))

/-- `{"name": 3`: the number is refused at once, as no document of `outer` begins like that. -/
def misnamed : Json := .obj [("name", .sc (.int 3)), ("more", .null)]

example : ∀ j', okVal outer j' = true → BeginsWith j' ([.mapStart, .mapKey "name"] ++ [.scalar (.int 3)]) → ¬ Conforms outer j' := by
  have hrun : ∃ s1 e s2, run accepting outer [.mapStart, .mapKey "name"] (St.init outer) = .ok () s1 ∧ dispatch accepting outer (.scalar (.int 3)) s1 = .throw (.std e) s2 :=
    ⟨_, _, _, rfl, rfl⟩
  exact ((C64_earliest accepting_passive (by decide +kernel) (allDistinct_of (by decide +kernel)) (by decide +kernel) Survived.init (j := misnamed) (by decide +kernel)
    (a := [.mapStart, .mapKey "name"]) (t := .scalar (.int 3)) (b := [.mapKey "more", .null, .mapEnd]) rfl).1 hrun).2

/-- With an embedded union (no `completable` tree) the error may come late. `{"kind": "circle"` is read without error, ... -/
def lateTokens : List Token := [.mapStart, .mapKey "kind", .scalar (.str "circle")]

example : tagged.completable = false := by decide +kernel
theorem C64_late_read : ∃ s', run accepting tagged lateTokens (St.init tagged) = .ok () s' := ⟨_, rfl⟩

/-- ... but all that follows belongs to the circle, so the mandatory member `id` cannot come any more: no document that begins like that conforms. -/
theorem C64_late_dead {j : Json} (h : BeginsWith j lateTokens) : ¬ Conforms tagged j := by
  obtain ⟨b, hb⟩ := h
  intro hc
  have nosc : ∀ {ty tm st ms x}, ¬ Conforms (.union ty tm st ms) (.sc x) := fun h => by cases h
  cases j with
  | null => simp [events, lateTokens] at hb
  | sc x => simp [events, lateTokens] at hb
  | arr l => simp [events, lateTokens] at hb
  | obj fs =>
    cases fs with
    | nil => simp [events, fieldEvents, lateTokens] at hb
    | cons kv fs =>
      obtain ⟨k, v⟩ := kv
      simp only [events, fieldEvents, lateTokens, List.cons_append, List.cons.injEq, true_and, Token.mapKey.injEq] at hb
      obtain ⟨rfl, hb⟩ := hb
      cases v with
      | null => simp [events] at hb
      | arr l => simp [events] at hb
      | obj l => simp [events] at hb
      | sc x =>
        cases hc with
        | object own hf =>
          generalize hfs : ("kind", Json.sc x) :: fs = all at hf
          unfold tagged at hf
          cases hf with
          | object known fields complete =>
            subst hfs
            exact nosc (fields ("kind", .sc x) (by simp) 1 _ _ ⟨rfl, rfl⟩)
          | @embedding _ _ _ before key y after n i ty st alts a ai alt known fields member type choice rest chosen complete =>
            cases before with
            | nil =>
              have hn : n ≠ 0 := by
                rintro rfl
                have := member.here
                simp at this
              rcases complete 0 _ (Ne.symm hn) rfl with h | h
              · simp [filledBy, lastField] at h
              · simpa using h.1
            | cons kv before =>
              simp only [List.cons_append, List.cons.injEq] at hfs
              obtain ⟨rfl, _⟩ := hfs
              exact nosc (fields ("kind", .sc x) (by simp) 1 _ _ ⟨rfl, rfl⟩)

end Examples

end SJ
