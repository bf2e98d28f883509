/-
Documents without defects (`okVal`) never bring an array of other parsers than `Value`s into the situations of `Hazard`.
-/
import Verif.Proofs.Open
import Verif.SpecAlike

set_option linter.unusedVariables false

namespace SJ

variable {E : Env} {R : Shape}

open Classical in
/-- `run`, stopped in a way of its own where there is a hazard. -/
noncomputable def runW (E : Env) (R : Shape) : List Token → M Unit
  | [] => M.pure ()
  | t :: ts => fun s => if Hazard R t s then .fuel else M.bind (dispatch E R t) (fun _ => runW E R ts) s

theorem runW_arrives : ∀ (a : List Token) {x b} {s s' : St}, run E R a s = .ok () s' → Hazard R x s' → runW E R (a ++ x :: b) s = .fuel
  | [], x, b, s, s', h, hz => by
    injection h with _ h; subst h
    simp only [List.nil_append, runW]
    rw [if_pos hz]
  | y :: a, x, b, s, s', h, hz => by
    simp only [List.cons_append, runW]
    split
    · rfl
    · rw [run_cons] at h
      obtain ⟨_, s1, h1, h2⟩ := bind_ok_inv h
      rw [M.bind, h1]
      exact runW_arrives a h2 hz

/-- No hazard for the parser on top. -/
def Serene (sh : Shape) (c : Cell) (t : Token) : Prop := ∀ st e, sh = .array st e → c.started = true →
  (t = .null → ∃ ty, e = .value ty) ∧ (∀ v ty tm b ms, t = .scalar v → e = .union ty tm b ms → v.ty ≠ ty)

theorem serene_token {sh c t} (h1 : t ≠ .null) (h2 : ∀ v, t ≠ .scalar v) : Serene sh c t := fun _ _ _ _ => ⟨fun h => absurd h h1, fun v _ _ _ _ h => absurd h (h2 v)⟩
theorem serene_shape {sh c t} (h : ∀ st e, sh ≠ .array st e) : Serene sh c t := fun _ _ h' => absurd h' (h _ _)
theorem serene_idle {sh c t} (h : c.started = false) : Serene sh c t := fun _ _ _ h' => by rw [h] at h'; simp at h'

macro "serene_tac" : tactic => `(tactic| first | (refine serene_shape ?_ <;> simp <;> done) | (refine serene_token ?_ ?_ <;> simp <;> done))

theorem runW_dispatch {t ts} {s : St} {p stk sh} (hR : R.at p = some sh) (hs : s.stack = p :: stk) (hc : Serene sh (s.heap p) t) :
    runW E R (t :: ts) s = M.bind (onF E R sh p t) (fun _ => runW E R ts) s := by
  simp only [runW]
  rw [if_neg]
  · exact bind_congr (dispatch_cons hs hR) fun _ _ _ => rfl
  · rintro (⟨q, rest, st, e, h1, h2, h3, h4, h5⟩ | ⟨q, rest, st, ty, tm, b, ms, v, h1, h2, h3, h4, h5⟩)
    · rw [hs] at h1; injection h1 with h1 _; subst h1
      rw [hR] at h2; injection h2 with h2
      obtain ⟨ty, h⟩ := (hc st e h2 h3).1 h4
      exact h5 ty h
    · rw [hs] at h1; injection h1 with h1 _; subst h1
      rw [hR] at h2; injection h2 with h2
      exact (hc st _ h2 h3).2 v ty tm b ms h4 rfl h5

mutual
theorem wignore_val {p} (hR : R.at p = some .ignore) : ∀ (j : Json) (ts : List Token) (s : St) (stk),
    j.noNull = true → s.stack = p :: stk → (s.heap p).struct ≠ [] → runW E R (events j ++ ts) s = runW E R ts s
  | .null, ts, s, stk, hj, hs, hst => by simp [Json.noNull] at hj
  | .sc x, ts, s, stk, hj, hs, hst => by
    simp only [events, List.cons_append, List.nil_append]
    rw [runW_dispatch hR hs (by serene_tac)]
    simp only [onF]
    rw [bind_assoc, bind_getC, if_neg hst]; rfl
  | .arr l, ts, s, stk, hj, hs, hst => by
    simp only [events, List.cons_append, List.append_assoc, List.nil_append]
    rw [runW_dispatch hR hs (by serene_tac)]
    simp only [onF]
    rw [bind_modC]
    refine (wignore_elems hR l _ _ stk (by simpa [Json.noNull] using hj) ?_ ?_).trans ?_
    · exact hs
    · simp
    refine (runW_dispatch (stk := stk) hR ?_ (by serene_tac)).trans ?_
    · exact hs
    simp only [onF, bind_assoc, bind_getC, upd_same]
    rw [bind_modC, if_neg hst]
    simp only [upd_upd, bind_pure_left]
    rw [upd_id rfl]
  | .obj l, ts, s, stk, hj, hs, hst => by
    simp only [events, List.cons_append, List.append_assoc, List.nil_append]
    rw [runW_dispatch hR hs (by serene_tac)]
    simp only [onF]
    rw [bind_modC]
    refine (wignore_fields hR l _ _ stk (by simpa [Json.noNull] using hj) ?_ ?_).trans ?_
    · exact hs
    · exact ⟨_, by simp; rfl⟩
    refine (runW_dispatch (stk := stk) hR ?_ (by serene_tac)).trans ?_
    · exact hs
    simp only [onF, bind_assoc, bind_getC, upd_same]
    rw [bind_modC, if_neg hst]
    simp only [upd_upd, bind_pure_left]
    rw [upd_id rfl]
theorem wignore_elems {p} (hR : R.at p = some .ignore) : ∀ (l : List Json) (ts : List Token) (s : St) (stk),
    noNullL l = true → s.stack = p :: stk → (s.heap p).struct ≠ [] →
    runW E R (elemEvents l ++ ts) s = runW E R ts s
  | [], ts, s, stk, hj, hs, hst => rfl
  | j :: l, ts, s, stk, hj, hs, hst => by
    simp only [noNullL, Bool.and_eq_true] at hj
    simp only [elemEvents, List.append_assoc]
    rw [wignore_val hR j _ s stk hj.1 hs hst, wignore_elems hR l _ s stk hj.2 hs hst]
theorem wignore_fields {p} (hR : R.at p = some .ignore) : ∀ (l : List (String × Json)) (ts : List Token) (s : St)
    (stk), noNullF l = true → s.stack = p :: stk → (∃ r, (s.heap p).struct = true :: r) →
    runW E R (fieldEvents l ++ ts) s = runW E R ts s
  | [], ts, s, stk, hj, hs, hst => rfl
  | (k, j) :: l, ts, s, stk, hj, hs, hst => by
    simp only [noNullF, Bool.and_eq_true] at hj
    simp only [fieldEvents, List.cons_append, List.append_assoc]
    obtain ⟨r, hr⟩ := hst
    rw [runW_dispatch hR hs (by serene_tac)]
    simp only [onF]
    rw [bind_assoc, bind_getC, hr]
    simp only [bind_pure_left]
    rw [wignore_val hR j _ s stk hj.1 hs (by simp [hr]), wignore_fields hR l _ s stk hj.2 hs ⟨r, hr⟩]
end

/-- The ignore parser reads one value that has no null strictly inside. -/
theorem wignore_sim {p} (hR : R.at p = some .ignore) (j : Json) (ts : List Token) (s : St) (stk)
    (hj : j.skippable = true) (hs : s.stack = p :: stk) (hst : (s.heap p).struct = [])
    (hd : (s.heap p).disp = true) :
    runW E R (events j ++ ts) s =
      M.bind (evalVal E .ignore p j) (fun _ => M.bind (pop E R) fun _ => runW E R ts) s := by
  cases j with
  | null =>
    simp only [events, List.cons_append, List.nil_append]
    rw [runW_dispatch hR hs (by serene_tac)]
    simp only [onF, evalVal, ← bind_assoc]
    exact bind_congr (nullBase_pop hd) fun _ _ _ => rfl
  | sc x =>
    simp only [events, List.cons_append, List.nil_append]
    rw [runW_dispatch hR hs (by serene_tac)]
    simp only [onF, evalVal]
    rw [bind_assoc, bind_getC, if_pos hst, ← bind_assoc]
    exact bind_congr (endP_pop hd) fun _ _ _ => rfl
  | arr l =>
    simp only [events, List.cons_append, List.append_assoc, List.nil_append]
    rw [runW_dispatch hR hs (by serene_tac)]
    simp only [onF, evalVal]
    rw [bind_modC]
    refine (wignore_elems hR l _ _ stk (by simpa [Json.skippable, Json.noNull] using hj) ?_ ?_).trans ?_
    · exact hs
    · simp
    refine (runW_dispatch (stk := stk) hR ?_ (by serene_tac)).trans ?_
    · exact hs
    simp only [onF, bind_assoc, bind_getC, upd_same]
    rw [bind_modC, if_pos hst]
    simp only [upd_upd]
    rw [upd_id rfl, ← bind_assoc]
    exact bind_congr (endP_pop hd) fun _ _ _ => rfl
  | obj l =>
    simp only [events, List.cons_append, List.append_assoc, List.nil_append]
    rw [runW_dispatch hR hs (by serene_tac)]
    simp only [onF, evalVal]
    rw [bind_modC]
    refine (wignore_fields hR l _ _ stk (by simpa [Json.skippable, Json.noNull] using hj) ?_ ?_).trans ?_
    · exact hs
    · exact ⟨_, by simp; rfl⟩
    refine (runW_dispatch (stk := stk) hR ?_ (by serene_tac)).trans ?_
    · exact hs
    simp only [onF, bind_assoc, bind_getC, upd_same]
    rw [bind_modC, if_pos hst]
    simp only [upd_upd]
    rw [upd_id rfl, ← bind_assoc]
    exact bind_congr (endP_pop hd) fun _ _ _ => rfl

mutual
theorem wsim_val : ∀ (j : Json) (sh : Shape) (p : Path) (stk : List Path) (ts : List Token) (s : St),
    R.at p = some sh → s.stack = p :: stk → (s.heap p).disp = true → Sane R p s.heap →
    (sh = .ignore → (s.heap p).struct = []) → okVal sh j = true →
    runW E R (events j ++ ts) s =
      M.bind (evalVal E sh p j) (fun _ => M.bind (pop E R) fun _ => runW E R ts) s
  | .null, sh, p, stk, ts, s, hR, hs, hd, hsane, hig, hok => by
    simp only [events, List.cons_append, List.nil_append]
    rw [runW_dispatch hR hs (serene_idle (hsane.started p (Below.refl _)))]
    have key : onF E R sh p .null s = nullBase E R sh p s := by
      cases sh with
      | array st e =>
        simp only [onF, bind_getC, hsane.started p (Below.refl _)]; rfl
      | _ => rfl
    unfold evalVal
    rw [← bind_assoc]
    exact bind_congr (key.trans (nullBase_pop hd)) fun _ _ _ => rfl
  | .sc x, sh, p, stk, ts, s, hR, hs, hd, hsane, hig, hok => by
    cases sh with
    | ignore => exact wignore_sim hR _ ts s stk rfl hs (hig rfl) hd
    | value ty =>
      simp only [events, List.cons_append, List.nil_append]
      rw [runW_dispatch hR hs (by serene_tac)]
      simp only [onF, evalVal]
      by_cases hx : x.ty = ty
      · simp only [if_pos hx, bind_assoc, setNotEmpty_def, bind_modC]
        rw [← bind_assoc (complete _ _ _)]
        refine bind_congr (endP_pop ?_) fun _ _ _ => rfl
        simpa using hd
      · simp only [if_neg hx, bind_unexpected]
    | union ty tm st ms =>
      simp only [events, List.cons_append, List.nil_append]
      rw [runW_dispatch hR hs (by serene_tac)]
      have hx : ¬ x.ty = ty := by simpa [okVal] using hok
      simp only [onF, evalVal, if_neg hx, bind_unexpected]
    | array st e =>
      simp only [events, List.cons_append, List.nil_append]
      rw [runW_dispatch hR hs (serene_idle (hsane.started p (Below.refl _)))]
      simp only [onF, evalVal, bind_assoc, bind_getC, hsane.started p (Below.refl _)]
      rfl
    | _ =>
      simp only [events, List.cons_append, List.nil_append]
      rw [runW_dispatch hR hs (by serene_tac)]
      simp only [onF, evalVal, bind_unexpected]
  | .arr l, sh, p, stk, ts, s, hR, hs, hd, hsane, hig, hok => by
    cases sh with
    | ignore => exact wignore_sim hR _ ts s stk (by simpa [okVal, Json.skippable, Json.noNull] using hok) hs (hig rfl) hd
    | array st e =>
      simp only [events, List.cons_append, List.append_assoc, List.nil_append]
      rw [runW_dispatch hR hs (by serene_tac)]
      simp only [onF, evalVal, bind_assoc, bind_getC, hsane.started p (Below.refl _)]
      simp only [Bool.not_false, if_true, bind_assoc, bind_modH, bind_modC]
      have hk : Keep R p s.heap (resetH p (.array st e) s.heap) := Keep.reset _ _ _
      have hsane1 := hsane.keep hk
      refine (wsim_elems l st e p stk (.arrEnd :: ts) _ hR ?_ ?_ ?_ ?_ ?_ ?_).trans ?_
      · exact hs
      · simp
      · simpa using hk.mono p hd
      · refine ⟨hsane1.closed.congr upd_started_disp, fun q hq => ?_, fun q st ty hq hRq => ?_⟩
        · simp only
          rw [upd_other (ne_of_below_step hq)]; exact hsane1.started q hq.step
        · simp only
          rw [upd_started_disp]; exact hsane1.velem q st ty hq.step hRq
      · rintro ty rfl
        simp only
        rw [upd_started_disp]; exact hsane1.velem p st ty (Below.refl _) hR
      · simpa [okVal] using hok
      · refine bind_congr rfl fun _ s1 h1 => ?_
        have h1' := evalElems_keep l st e p hR _ _ _ h1
        have hs1 : s1.stack = p :: stk := by rw [h1'.1]; exact hs
        rw [runW_dispatch hR hs1 (by serene_tac)]
        simp only [onF, bind_assoc, bind_modC]
        rw [← bind_assoc (complete _ _ _)]
        refine bind_congr (endP_pop ?_) fun _ _ _ => rfl
        simp only [upd_same]
        refine h1'.2.mono p ?_
        simpa using hk.mono p hd
    | _ =>
      simp only [events, List.cons_append]
      rw [runW_dispatch hR hs (by serene_tac)]
      simp only [onF, evalVal, bind_unexpected]
  | .obj fs, sh, p, stk, ts, s, hR, hs, hd, hsane, hig, hok => by
    have fields : ∀ sh', sh' = sh → okFields sh fs = true →
        (M.bind (modH (resetH p sh)) fun _ => runW E R (fieldEvents fs ++ (.mapEnd :: ts))) s =
        (M.bind (modH (resetH p sh)) fun _ => M.bind (evalFields E sh p fs) fun _ =>
          M.bind (pop E R) fun _ => runW E R ts) s := by
      intro _ _ hokf
      rw [bind_modH, bind_modH]
      have hk : Keep R p s.heap (resetH p sh s.heap) := Keep.reset _ _ _
      exact wsim_fields fs sh p stk ts _ hR hs (hk.mono p hd) (hsane.keep hk) (resetH_ignOk _ _ _) hokf
    cases sh with
    | ignore => exact wignore_sim hR _ ts s stk (by simpa [okVal, Json.skippable, Json.noNull] using hok) hs (hig rfl) hd
    | array st e =>
      simp only [events, List.cons_append, List.append_assoc, List.nil_append]
      rw [runW_dispatch hR hs (by serene_tac)]
      simp only [onF, evalVal, bind_assoc, bind_getC, hsane.started p (Below.refl _)]
      rfl
    | value ty =>
      simp only [events, List.cons_append, List.append_assoc, List.nil_append]
      rw [runW_dispatch hR hs (by serene_tac)]
      simp only [onF, evalVal, bind_unexpected]
    | union ty tm st ms =>
      simp only [events, List.cons_append, List.append_assoc, List.nil_append]
      rw [runW_dispatch hR hs (by serene_tac)]
      simp only [onF, evalVal]
      by_cases ht : tm = ""
      · simp only [if_pos ht, bind_throw]
      · simp only [if_neg ht, bind_assoc]
        exact fields _ rfl (by simpa [okVal, ht] using hok)
    | object k u ms =>
      simp only [events, List.cons_append, List.append_assoc, List.nil_append]
      rw [runW_dispatch hR hs (by serene_tac)]
      simp only [onF, evalVal, bind_assoc]
      exact fields _ rfl (by simpa [okVal] using hok)
    | map st e =>
      simp only [events, List.cons_append, List.append_assoc, List.nil_append]
      rw [runW_dispatch hR hs (by serene_tac)]
      simp only [onF, evalVal, bind_assoc]
      exact fields _ rfl (by simpa [okVal] using hok)
theorem wsim_fields : ∀ (fs : List (String × Json)) (sh : Shape) (p : Path) (stk : List Path) (ts : List Token)
    (s : St), R.at p = some sh → s.stack = p :: stk → (s.heap p).disp = true → Sane R p s.heap →
    IgnOk sh p s.heap → okFields sh fs = true →
    runW E R (fieldEvents fs ++ (.mapEnd :: ts)) s =
      M.bind (evalFields E sh p fs) (fun _ => M.bind (pop E R) fun _ => runW E R ts) s
  | [], sh, p, stk, ts, s, hR, hs, hd, hsane, hig, hok => by
    simp only [fieldEvents, List.nil_append]
    rw [runW_dispatch hR hs (by serene_tac)]
    cases sh with
    | ignore =>
      have hst : (s.heap p).struct = [] := hig
      simp only [onF, evalFields, bind_assoc, bind_getC, hst, bind_unexpected]
    | value => simp only [onF, evalFields, bind_unexpected]
    | array => simp only [onF, evalFields, bind_unexpected]
    | _ =>
      simp only [onF, evalFields]
      rw [← bind_assoc]
      exact bind_congr (endP_pop hd) fun _ _ _ => rfl
  | (k, v) :: fs, sh, p, stk, ts, s, hR, hs, hd, hsane, hig, hok => by
    simp only [fieldEvents, List.cons_append, List.append_assoc]
    rw [runW_dispatch hR hs (by serene_tac)]
    cases sh with
    | ignore =>
      have hst : (s.heap p).struct = [] := hig
      simp only [onF, evalFields, bind_assoc, bind_getC, hst, bind_unexpected]
    | value => simp only [onF, evalFields, bind_unexpected]
    | array => simp only [onF, evalFields, bind_unexpected]
    | object kd u ms =>
      simp only [onF, onMember, evalFields, bind_assoc, setNotEmpty_def, bind_modC, bind_getC]
      have hq : Quiet p s.heap (s.heap.upd p fun c => { c with empty := false }) := by
        apply Quiet.upd; exact fun _ => ⟨rfl, rfl, rfl⟩
      have hd1 : ((s.heap.upd p fun c => { c with empty := false }) p).disp = true := by
        rw [(hq.ctl p).1]; exact hd
      have hsane1 := hsane.keep (p' := p) hq.keep
      have hig1 := hig.quiet hq
      generalize s.heap.upd p (fun c => { c with empty := false }) = h1 at *
      simp only [hd1, if_true]
      cases hl : lookup (.str k) 0 ms with
      | none =>
        simp only
        cases u with
        | true => simp only [if_true, bind_throw]; rfl
        | false =>
          simp only [Bool.false_eq_true, if_false, bind_assoc, bind_push, bind_pure_left]
          simp only [okFields, hl, Bool.false_eq_true, if_false, Bool.and_eq_true] at hok
          have hRi := at_ign_object hR
          refine (wsim_val v .ignore (.ign :: p) (p :: stk) _ _ hRi ?_ ?_ ?_ ?_ hok.1).trans ?_
          · simp [hs]
          · exact hsane1.closed p _ .ign .ignore hR hd1 (by simp) rfl
          · exact hsane1.down (Below.cons _ _)
          · intro _; exact hig1
          · refine bind_congr rfl fun _ s2 h2 => ?_
            have h2' := evalVal_ok hRi h2
            have hs2 : s2.stack = (.ign :: p) :: p :: stk := by rw [h2'.1]; simp [hs]
            rw [bind_congr (pop_to hs2) fun _ _ _ => rfl, bind_assoc, bind_drop, bind_drop, chP_object hR]
            simp only [bind_pure_left]
            refine wsim_fields fs _ p stk ts _ hR ?_ ?_ ?_ ?_ hok.2
            · simp [hs2]
            · exact h2'.2.mono p hd1
            · exact hsane1.keep h2'.2
            · have : (s2.heap (.ign :: p)).struct = [] := by
                cases v with
                | null =>
                  simp only [evalVal] at h2; injection h2 with _ h2; subst h2; simp [resetH]
                | _ =>
                  simp only [evalVal] at h2
                  rw [((Loc.complete _ _).ok h2).2.struct]; exact hig1
              exact this
      | some b =>
        obtain ⟨n, m⟩ := b
        obtain ⟨i, hi⟩ := lookup_mem hl
        have hRm := at_mem_object hR hi
        have hdm : (h1 (.mem n :: p)).disp = true :=
          hsane1.closed p _ (.mem n) m hR hd1 (by simp) (by simp [Shape.child, hi])
        simp only [bind_assoc, bind_push, bind_pure_left]
        cases he : embedded m v with
        | some y =>
          obtain ⟨ty, st, ms', x⟩ := y
          obtain ⟨rfl, rfl, hty⟩ := embedded_some he
          simp only [okFields, hl, he] at hok
          simp only [events, List.cons_append, List.nil_append]
          refine (runW_dispatch hRm rfl (by serene_tac)).trans ?_
          rw [bind_congr (onF_select hty hdm) fun _ _ _ => rfl, bind_assoc]
          simp only [bind_assoc, bind_pure_left]
          refine bind_congr rfl fun a s2 h2 => ?_
          obtain ⟨hla, hs2, hk2, hig2⟩ := select_ok (R := R) h2
          obtain ⟨a, ash⟩ := a
          simp only [hla] at hok
          obtain ⟨i', hi'⟩ := lookup_mem hla
          have hRa := at_mem_union hRm hi'
          have hsane2 := (hsane1.keep hk2)
          have hdm2 := hk2.mono _ hdm
          refine (wsim_fields fs ash _ ((.mem n :: p) :: s.stack) ts s2 hRa ?_ ?_ ?_ hig2 hok).trans ?_
          · rw [hs2]
          · exact hsane2.closed _ _ (.mem a) ash hRm hdm2 (by simp) (by simp [Shape.child, hi'])
          · exact hsane2.down ((Below.cons _ _).trans (Below.cons _ _))
          · refine bind_congr rfl fun _ s3 h3 => ?_
            have h3' := evalFields_keep fs ash _ hRa _ _ _ h3
            have hs3 : s3.stack = (.mem a :: .mem n :: p) :: (.mem n :: p) :: p :: stk := by
              rw [h3'.1, hs2]; simp [hs]
            rw [bind_congr (embedded_end_object hR hRm hs3 (h3'.2.mono _ (hk2.mono _ hd1)) (h3'.2.mono _ hdm2))
              fun _ _ _ => rfl]
            simp only [bind_assoc]
        | none =>
          simp only [okFields, hl, he, Bool.and_eq_true] at hok
          simp only [bind_assoc]
          refine (wsim_val v m (.mem n :: p) (p :: stk) _ _ hRm ?_ hdm (hsane1.down (Below.cons _ _)) ?_ hok.1.2).trans ?_
          · simp [hs]
          · rintro rfl; simp [Shape.isUser] at hok
          · refine bind_congr rfl fun _ s2 h2 => ?_
            have h2' := evalVal_ok hRm h2
            have hs2 : s2.stack = (.mem n :: p) :: p :: stk := by rw [h2'.1]; simp [hs]
            rw [bind_congr (pop_to hs2) fun _ _ _ => rfl, bind_assoc, bind_drop, bind_drop, chP_object hR]
            simp only [bind_pure_left]
            refine wsim_fields fs _ p stk ts _ hR ?_ ?_ ?_ ?_ hok.2
            · simp [hs2]
            · exact h2'.2.mono p hd1
            · exact hsane1.keep h2'.2
            · exact hig1.frame h2'.2.frame
    | map st e =>
      simp only [onF, evalFields, bind_assoc, setNotEmpty_def, bind_modC, bind_getC]
      have hq : Quiet p s.heap (s.heap.upd p fun c => { c with empty := false }) := by
        apply Quiet.upd; exact fun _ => ⟨rfl, rfl, rfl⟩
      have hd1 : ((s.heap.upd p fun c => { c with empty := false }) p).disp = true := by
        rw [(hq.ctl p).1]; exact hd
      have hsane1 := hsane.keep (p' := p) hq.keep
      generalize s.heap.upd p (fun c => { c with empty := false }) = h1 at *
      simp only [hd1, if_true, bind_assoc, bind_push, bind_modC]
      have hq2 : Quiet p h1 (h1.upd p fun c => { c with curKey := k }) := by
        apply Quiet.upd; exact fun _ => ⟨rfl, rfl, rfl⟩
      have hd2 : ((h1.upd p fun c => { c with curKey := k }) p).disp = true := by
        rw [(hq2.ctl p).1]; exact hd1
      have hsane2 := hsane1.keep (p' := p) hq2.keep
      generalize h1.upd p (fun c => { c with curKey := k }) = h2 at *
      have hRe := at_elem_map hR
      have hde : (h2 (.elem :: p)).disp = true :=
        hsane2.closed p _ .elem e hR hd2 (by simp) (by simp [Shape.child])
      have hch : chP E R p = mapChild E st e p := by
        cases st
        · rw [chP_map hR]; rfl
        · rw [chP_smap hR]; rfl
      cases he : embedded e v with
      | some y =>
        obtain ⟨ty, st', ms', x⟩ := y
        obtain ⟨rfl, rfl, hty⟩ := embedded_some he
        simp only [okFields, he] at hok
        simp only [events, List.cons_append, List.nil_append]
        refine (runW_dispatch hRe rfl (by serene_tac)).trans ?_
        rw [bind_congr (onF_select hty hde) fun _ _ _ => rfl, bind_assoc]
        simp only [bind_assoc, bind_pure_left]
        refine bind_congr rfl fun a s2 h2 => ?_
        obtain ⟨hla, hs2, hk2, hig2⟩ := select_ok (R := R) h2
        obtain ⟨a, ash⟩ := a
        simp only [hla] at hok
        obtain ⟨i', hi'⟩ := lookup_mem hla
        have hRa := at_mem_union hRe hi'
        have hsane3 := (hsane2.keep hk2)
        have hde2 := hk2.mono _ hde
        refine (wsim_fields fs ash _ ((.elem :: p) :: s.stack) ts s2 hRa ?_ ?_ ?_ hig2 hok).trans ?_
        · rw [hs2]
        · exact hsane3.closed _ _ (.mem a) ash hRe hde2 (by simp) (by simp [Shape.child, hi'])
        · exact hsane3.down ((Below.cons _ _).trans (Below.cons _ _))
        · refine bind_congr rfl fun _ s3 h3 => ?_
          have h3' := evalFields_keep fs ash _ hRa _ _ _ h3
          have hs3 : s3.stack = (.mem a :: .elem :: p) :: (.elem :: p) :: p :: stk := by
            rw [h3'.1, hs2]; simp [hs]
          rw [bind_congr (embedded_end_map hR hs3 (h3'.2.mono _ (hk2.mono _ hd2)) (h3'.2.mono _ hde2))
            fun _ _ _ => rfl]
          simp only [bind_assoc]
      | none =>
        simp only [okFields, he, Bool.and_eq_true] at hok
        simp only [bind_assoc]
        refine (wsim_val v e (.elem :: p) (p :: stk) _ _ hRe ?_ hde (hsane2.down (Below.cons _ _)) ?_ hok.1.2).trans ?_
        · simp [hs]
        · rintro rfl; simp [Shape.isUser] at hok
        · refine bind_congr rfl fun _ s2 h2 => ?_
          have h2' := evalVal_ok hRe h2
          have hs2 : s2.stack = (.elem :: p) :: p :: stk := by rw [h2'.1]; simp [hs]
          rw [bind_congr (pop_to hs2) fun _ _ _ => rfl, bind_assoc, bind_drop, bind_drop, hch]
          refine bind_congr rfl fun _ s3 h3 => ?_
          have h3' := (Loc.mapChild _ _ _).ok h3
          refine wsim_fields fs _ p stk ts _ hR ?_ ?_ ?_ trivial hok.2
          · rw [h3'.1]; simp [hs2]
          · exact (h3'.2.keep (R := R)).mono p (h2'.2.mono p hd2)
          · exact (hsane2.keep h2'.2).keep (h3'.2.keep (R := R))
    | union ty tm st ms =>
      simp only [onF, evalFields]
      by_cases ht : tm = ""
      · simp only [if_pos ht, bind_throw]
      · by_cases hk : k = tm
        · subst hk
          simp only [if_neg ht, ne_eq, not_true_eq_false, if_false, bind_pure_left]
          simp only [okFields, if_neg ht, ne_eq, not_true_eq_false, if_false] at hok
          cases v with
          | null => simp at hok
          | obj => simp at hok
          | arr l =>
            simp only [events, List.cons_append]
            rw [runW_dispatch hR hs (by serene_tac)]
            simp only [onF, bind_unexpected]
          | sc x =>
            simp only [events, List.cons_append, List.nil_append] at hok ⊢
            rw [runW_dispatch hR hs (by serene_tac)]
            by_cases hty : x.ty = ty
            · simp only [if_pos hty] at hok ⊢
              rw [bind_congr (onF_select hty hd) fun _ _ _ => rfl, bind_assoc]
              simp only [bind_assoc, bind_pure_left]
              refine bind_congr rfl fun a s2 h2 => ?_
              obtain ⟨hla, hs2, hk2, hig2⟩ := select_ok (R := R) h2
              obtain ⟨a, ash⟩ := a
              simp only [hla] at hok
              obtain ⟨i', hi'⟩ := lookup_mem hla
              have hRa := at_mem_union hR hi'
              have hsane3 := (hsane.keep hk2)
              have hd2 := hk2.mono _ hd
              refine (wsim_fields fs ash _ s.stack ts s2 hRa ?_ ?_ ?_ hig2 hok).trans ?_
              · rw [hs2]
              · exact hsane3.closed _ _ (.mem a) ash hR hd2 (by simp) (by simp [Shape.child, hi'])
              · exact hsane3.down (Below.cons _ _)
              · refine bind_congr rfl fun _ s3 h3 => ?_
                have h3' := evalFields_keep fs ash _ hRa _ _ _ h3
                have hs3 : s3.stack = (.mem a :: p) :: p :: stk := by rw [h3'.1, hs2]; simp [hs]
                rw [bind_congr (pop_to hs3) fun _ _ _ => rfl, bind_assoc, bind_drop, bind_drop, chP_union hR, if_neg ht]
                simp only [bind_assoc, bind_pure_left]
                rw [← bind_assoc (complete _ _ _)]
                exact bind_congr (endP_pop (h3'.2.mono _ hd2)) fun _ _ _ => rfl
            · simp only [onF, if_neg hty, bind_unexpected]
        · simp only [if_neg ht, ne_eq, hk, not_false_eq_true, if_true, bind_throw]
theorem wsim_elems : ∀ (l : List Json) (st : Bool) (e : Shape) (p : Path) (stk : List Path) (ts : List Token)
    (s : St), R.at p = some (.array st e) → s.stack = p :: stk → (s.heap p).started = true →
    (s.heap p).disp = true → Sane R (.elem :: p) s.heap → (∀ ty, e = .value ty → (s.heap (.elem :: p)).disp = false) →
    okElems e l = true →
    runW E R (elemEvents l ++ ts) s = M.bind (evalElems E st e p l) (fun _ => runW E R ts) s
  | [], st, e, p, stk, ts, s, hR, hs, hst, hd, hsane, hv, hok => rfl
  | j :: l, st, e, p, stk, ts, s, hR, hs, hst, hd, hsane, hv, hok => by
    simp only [elemEvents, List.append_assoc]
    have hRe := at_elem_array hR
    have hch : chP E R p = arrChild st p := by
      cases st
      · rw [chP_array hR]; rfl
      · rw [chP_sarray hR]; rfl
    simp only [okElems, Bool.and_eq_true] at hok
    obtain ⟨⟨⟨hn, huser⟩, hokj⟩, hokl⟩ := hok
    have composite : (∀ x, j ≠ .sc x) → j ≠ .null →
        runW E R (events j ++ (elemEvents l ++ ts)) s =
        (M.bind (setNotEmpty p) fun _ => M.bind (modH (setDispH (.elem :: p) e)) fun _ =>
          M.bind (pushParser (.elem :: p)) fun _ => M.bind (evalVal E e (.elem :: p) j) fun _ =>
          M.bind dropTop fun _ => M.bind (arrChild st p) fun _ => M.bind (evalElems E st e p l) fun _ =>
          runW E R ts) s := by
      intro hsc hnn
      rw [setNotEmpty_def, bind_modC, bind_modH, bind_push]
      have hq : Quiet p s.heap (s.heap.upd p fun c => { c with empty := false }) := by
        apply Quiet.upd; exact fun _ => ⟨rfl, rfl, rfl⟩
      have start : runW E R (events j ++ (elemEvents l ++ ts)) s = runW E R (events j ++ (elemEvents l ++ ts))
          { s with heap := setDispH (.elem :: p) e (s.heap.upd p fun c => { c with empty := false }),
                   stack := (.elem :: p) :: s.stack } := by
        cases j with
        | null => exact absurd rfl hnn
        | sc x => exact absurd rfl (hsc x)
        | arr l' =>
          simp only [events, List.cons_append]
          rw [runW_dispatch hR hs (by serene_tac)]
          refine Eq.trans ?_ (runW_dispatch hRe rfl (by serene_tac)).symm
          simp only [onF, bind_assoc, bind_getC, hst, hd, Bool.not_true, Bool.false_eq_true, if_false,
            setNotEmpty_def, bind_modC, bind_modH, bind_push]
        | obj l' =>
          simp only [events, List.cons_append]
          rw [runW_dispatch hR hs (by serene_tac)]
          refine Eq.trans ?_ (runW_dispatch hRe rfl (by serene_tac)).symm
          simp only [onF, bind_assoc, bind_getC, hst, hd, Bool.not_true, Bool.false_eq_true, if_false,
            setNotEmpty_def, bind_modC, bind_modH, bind_push]
      rw [start]
      by_cases he : ∃ ty, e = .value ty
      · obtain ⟨ty, rfl⟩ := he
        cases j with
        | null => exact absurd rfl hnn
        | sc x => exact absurd rfl (hsc x)
        | arr l' =>
          simp only [events, List.cons_append]
          refine (runW_dispatch hRe rfl (by serene_tac)).trans ?_
          simp only [onF, evalVal, bind_unexpected]
        | obj l' =>
          simp only [events, List.cons_append]
          refine (runW_dispatch hRe rfl (by serene_tac)).trans ?_
          simp only [onF, evalVal, bind_unexpected]
      · have hk : Keep R p s.heap (setDispH (.elem :: p) e (s.heap.upd p fun c => { c with empty := false })) :=
          hq.keep.trans (Keep.setDisp hR fun ty h => he ⟨ty, h⟩)
        have hsane1 := hsane.keep hk
        have hst1 : (setDispH (.elem :: p) e (s.heap.upd p fun c => { c with empty := false }) p).started = true := by
          rw [(setDispH_only _ _ _).started, (hq.ctl p).2]; exact hst
        have hde : (setDispH (.elem :: p) e (s.heap.upd p fun c => { c with empty := false }) (.elem :: p)).disp = true :=
          setDispH_self _ _ _
        generalize setDispH (.elem :: p) e (s.heap.upd p fun c => { c with empty := false }) = h1 at *
        refine (wsim_val j e (.elem :: p) (p :: stk) _ _ hRe ?_ hde hsane1 ?_ hokj).trans ?_
        · simp [hs]
        · rintro rfl; simp [Shape.isUser] at huser
        · refine bind_congr rfl fun _ s2 h2 => ?_
          have h2' := evalVal_ok hRe h2
          have hs2 : s2.stack = (.elem :: p) :: p :: stk := by rw [h2'.1]; simp [hs]
          rw [bind_congr (pop_to hs2) fun _ _ _ => rfl, bind_assoc, bind_drop, bind_drop, hch]
          refine bind_congr rfl fun _ s3 h3 => ?_
          have h3' := (Loc.arrChild _ _).ok h3
          refine wsim_elems l st e p stk ts s3 hR ?_ ?_ ?_ ?_ ?_ hokl
          · rw [h3'.1]; simp [hs2]
          · rw [(h3'.2.ctl p).2]
            simp only
            rw [h2'.2.frame p below_self_cons]; exact hst1
          · rw [(h3'.2.ctl p).1]
            exact h2'.2.mono p (hk.mono p hd)
          · exact (hsane1.keep h2'.2).keep (h3'.2.keep (R := R))
          · intro ty h; exact absurd ⟨ty, h⟩ he
    cases j with
    | arr l' =>
      rw [composite (by simp) (by simp)]
      simp only [evalElems, bind_assoc]
    | obj l' =>
      rw [composite (by simp) (by simp)]
      simp only [evalElems, bind_assoc]
    | null =>
      cases e with
      | value ty =>
        simp only [events, List.cons_append, List.nil_append, evalElems, bind_assoc]
        rw [runW_dispatch hR hs (fun _ _ h _ => ⟨fun _ => by injection h with _ h; exact ⟨_, h.symm⟩, fun _ _ _ _ _ h => by simp at h⟩)]
        simp only [onF, bind_assoc, bind_getC, hst, Bool.not_true, Bool.false_eq_true, if_false, nullBase, bind_modH]
        have hd' : (resetH (.elem :: p) (.value ty) s.heap (.elem :: p)).disp = false := by
          rw [(resetH_ctl _ _ _ _).1]; exact hv ty rfl
        have hk : Keep R p s.heap (resetH (.elem :: p) (.value ty) s.heap) :=
          (Keep.reset _ _ _).up (Below.cons _ _)
        simp only [hd', Bool.false_eq_true, if_false, bind_pure_left]
        refine wsim_elems l st (.value ty) p stk ts _ hR hs ?_ (hk.mono p hd) (hsane.keep hk) ?_ hokl
        · simp only; rw [(resetH_ctl _ _ _ _).2]; exact hst
        · intro ty' h'; exact hd'
      | _ => simp at hn
    | sc x =>
      simp only [events, List.cons_append, List.nil_append, evalElems, bind_assoc]
      rw [runW_dispatch hR hs (fun _ _ h _ => ⟨fun h => by simp at h, fun v ty tm b ms h1 h2 => by injection h with _ h; subst h h2; injection h1 with h1; subst h1; simpa [okVal] using hokj⟩)]
      simp only [onF, bind_assoc, bind_getC, hst, Bool.not_true, Bool.false_eq_true, if_false]
      have key : onF E R e (.elem :: p) (.scalar x) s = evalVal E e (.elem :: p) (.sc x) s := by
        cases e with
        | ignore => simp [Shape.isUser] at huser
        | value ty =>
          simp only [onF, evalVal]
          by_cases hx : x.ty = ty
          · simp only [if_pos hx, setNotEmpty_def, bind_modC, endP_eq]
            have : complete E (.value ty) (.elem :: p) = M.bind (complete E (.value ty) (.elem :: p)) fun _ => M.pure () := by
              funext s; unfold M.bind; cases complete E (.value ty) (.elem :: p) s <;> rfl
            rw [this, bind_assoc]
            refine bind_congr rfl fun _ s1 h1 => ?_
            have h1' := ((Loc.complete _ _).ok h1).2.ctl (.elem :: p) |>.1
            simp only [upd_same] at h1'
            rw [bind_pure_left, bind_getC, h1', hv ty rfl]; rfl
          · simp only [if_neg hx]
        | union ty tm st' ms =>
          have hx : ¬ x.ty = ty := by simpa [okVal] using hokj
          simp only [onF, evalVal, if_neg hx]
        | array st' e' =>
          simp only [onF, evalVal, bind_getC, hsane.started _ (Below.refl _)]
          rfl
        | _ => rfl
      refine bind_congr key fun _ s1 h1 => ?_
      have h1' := evalVal_ok hRe h1
      rw [setNotEmpty_def, bind_modC, bind_modC, hch]
      have hq : Quiet p s1.heap (s1.heap.upd p fun c => { c with empty := false }) := by
        apply Quiet.upd; exact fun _ => ⟨rfl, rfl, rfl⟩
      refine bind_congr rfl fun _ s3 h3 => ?_
      have h3' := (Loc.arrChild _ _).ok h3
      refine wsim_elems l st e p stk ts s3 hR ?_ ?_ ?_ ?_ ?_ hokl
      · rw [h3'.1, ← hs, ← h1'.1]
      · rw [(h3'.2.ctl p).2, (hq.ctl p).2, h1'.2.frame p below_self_cons]; exact hst
      · rw [(h3'.2.ctl p).1, (hq.ctl p).1]; exact h1'.2.mono p hd
      · exact ((hsane.keep h1'.2).keep (hq.keep (R := R))).keep (h3'.2.keep (R := R))
      · rintro ty rfl
        rw [(h3'.2.ctl _).1, (hq.ctl _).1, h1'.2.velem p st ty hR]; exact hv ty rfl
end

/-- Such a document meets no hazard. -/
theorem ok_no_hazard {s : St} (hr : Ready R s) (hu : R.isUser = true) {j} (hok : okVal R j = true) : ¬ Arrives E R (Hazard R) (events j) s := by
  rintro ⟨a, x, b, s', h1, h2, h3⟩
  have hf := runW_arrives (b := b) a h2 h3
  have hi : R = .ignore → (s.heap []).struct = [] := by rintro rfl; simp [Shape.isUser] at hu
  have e1 := wsim_val (E := E) (R := R) j R [] [] [] s rfl hr.stack hr.disp hr.sane hi hok
  have e2 := sim_val (E := E) (R := R) j R [] [] [] s rfl hr.stack hr.disp hr.sane hi hok
  rw [List.append_nil] at e1 e2
  rw [← h1, e1] at hf
  have : run E R (events j) s = .fuel := by rw [e2]; exact hf
  exact absurd this (by
    have h := run_ctl (E := E) (events j) hr.opened.op.ctl
    intro hc; rw [hc] at h; exact h)

theorem Arrives.append {bad} {a b : List Token} {s : St} (h : Arrives E R bad a s) : Arrives E R bad (a ++ b) s := by
  obtain ⟨a', x, b', s', rfl, h2, h3⟩ := h
  exact ⟨a', x, b' ++ b, s', by simp, h2, h3⟩

end SJ
