/-
Every accepted document is one that the parser tree describes, whatever nulls it has, for watertight trees.
-/
import Verif.Proofs.Track

set_option linter.unusedVariables false

namespace SJ

variable {E : Env} {R : Shape}

mutual
theorem tight_uok : ∀ (j : Json) (sh : Shape), sh.tight = true → sh.wf = true →
    (∀ x ty tm st ms, j = .sc x → sh = .union ty tm st ms → x.ty ≠ ty) → uokVal sh j = true
  | .null, sh, ht, hw, hn => by simp [uokVal]
  | .sc x, sh, ht, hw, hn => by
    cases sh with
    | union ty tm st ms => simpa [uokVal] using hn x ty tm st ms rfl rfl
    | _ => simp [uokVal]
  | .arr l, sh, ht, hw, hn => by
    cases sh with
    | array st e =>
      simp only [Shape.tight, Shape.wf, Bool.and_eq_true, Bool.not_eq_true'] at ht hw
      simp only [uokVal]
      exact tight_uokElems l e ht.1.1.1 hw.1 ht.1.2
    | _ => simp [uokVal]
  | .obj fs, sh, ht, hw, hn => by
    cases sh with
    | object => simp only [uokVal]; exact tight_uokFields fs _ ht hw
    | map => simp only [uokVal]; exact tight_uokFields fs _ ht hw
    | union ty tm st ms =>
      simp only [Shape.tight, Bool.and_eq_true, beq_iff_eq] at ht
      simp [uokVal, ht.1.1]
    | _ => simp [uokVal]
theorem tight_uokFields : ∀ (fs : List (String × Json)) (sh : Shape), sh.tight = true → sh.wf = true → uokFields sh fs = true
  | [], sh, ht, hw => by simp [uokFields]
  | (k, v) :: fs, sh, ht, hw => by
    have alt : ∀ (m : Shape), m.tight = true → m.wf = true → ∀ ty st ms' x, embedded m v = some (ty, st, ms', x) →
        (match lookup x 0 ms' with
          | some (_, ash) => uokFields ash fs
          | none => true) = true := by
      intro m hmt hmw ty st ms' x he
      obtain ⟨rfl, rfl, hty⟩ := embedded_some he
      cases hl : lookup x 0 ms' with
      | none => rfl
      | some a =>
        obtain ⟨n, ash⟩ := a
        obtain ⟨i, hi⟩ := lookup_mem hl
        simp only [Shape.tight, Shape.wf, Bool.and_eq_true] at hmt hmw
        exact tight_uokFields fs ash (tightMs_mem hmt.2 _ (List.mem_of_getElem? hi)) (wf_at_mem hmw hi)
    have plain : ∀ (m : Shape), m.tight = true → m.wf = true → embedded m v = none → uokVal m v = true := by
      intro m hmt hmw he
      refine tight_uok v m hmt hmw ?_
      rintro x ty tm st ms rfl rfl hx
      simp only [Shape.tight, Bool.and_eq_true, beq_iff_eq] at hmt
      simp [embedded, hmt.1.1, hx] at he
    unfold uokFields
    cases sh with
    | object kd u ms =>
      simp only
      cases hl : lookup (.str k) 0 ms with
      | some nm =>
        obtain ⟨n, m⟩ := nm
        obtain ⟨i, hi⟩ := lookup_mem hl
        have ht' := ht
        have hw' := hw
        simp only [Shape.tight, Shape.wf] at ht' hw'
        have hmt := tightMs_mem ht' _ (List.mem_of_getElem? hi)
        have hmw := wf_at_mem hw' hi
        simp only
        cases he : embedded m v with
        | some y => obtain ⟨a, b, ms', x⟩ := y; exact alt m hmt hmw _ _ _ _ he
        | none =>
          simp only [Bool.and_eq_true]
          exact ⟨⟨wf_user hmw, plain m hmt hmw he⟩, tight_uokFields fs _ ht hw⟩
      | none =>
        cases u with
        | true => rfl
        | false =>
          simp only [Bool.false_eq_true, if_false, Bool.and_eq_true]
          exact ⟨uok_ignore v, tight_uokFields fs _ ht hw⟩
    | map st e =>
      have ht' := ht
      have hw' := hw
      simp only [Shape.tight, Shape.wf, Bool.and_eq_true] at ht' hw'
      simp only
      cases he : embedded e v with
      | some y => obtain ⟨a, b, ms', x⟩ := y; exact alt e ht' hw'.1 _ _ _ _ he
      | none =>
        simp only [Bool.and_eq_true]
        exact ⟨⟨wf_user hw'.1, plain e ht' hw'.1 he⟩, tight_uokFields fs _ ht hw⟩
    | union ty tm st ms =>
      simp only [Shape.tight, Bool.and_eq_true, beq_iff_eq] at ht
      simp [ht.1.1]
    | _ => rfl
theorem tight_uokElems : ∀ (l : List Json) (e : Shape), e.tight = true → e.wf = true → e.isUnion = false → uokElems e l = true
  | [], e, ht, hw, hu => by simp [uokElems]
  | j :: l, e, ht, hw, hu => by
    simp only [uokElems, Bool.and_eq_true]
    refine ⟨⟨wf_user hw, tight_uok j e ht hw ?_⟩, tight_uokElems l e ht hw hu⟩
    rintro x ty tm st ms rfl rfl
    simp [Shape.isUnion] at hu
end

theorem watertight_uok (ht : R.watertight = true) (hw : R.wf = true) (j : Json) : uokVal R j = true := by
  simp only [Shape.watertight, Bool.and_eq_true, Bool.not_eq_true'] at ht
  refine tight_uok j R ht.1.1 hw ?_
  rintro x ty tm st ms rfl rfl
  simp [Shape.isUnion] at ht

/-- What the tokens of an accepted document did, for any callbacks. -/
theorem accepted_eval (ht : R.watertight = true) (hw : R.wf = true) {s s' : St} (hr : Ready R s) {j}
    (h : run E R (events j) s = .ok () s') : ∃ s1, evalVal E R [] j s = .ok () s1 ∧ s' = { s1 with stack := [] } := by
  have hsm := runM_smooth _ (ready_smooth ht hw hr h)
  have hsim := tsim_val (E := E) (R := R) j R [] [] [] s rfl hr.stack hr.disp hr.sane
    (by rintro rfl; simp [Shape.wf] at hw) (watertight_uok ht hw j)
  rw [List.append_nil] at hsim
  obtain ⟨_, s1, h1, h2⟩ := bind_ok_inv (hsim _ _ (hsm.trans h))
  have hk := evalVal_keep j R [] rfl s () s1 h1
  obtain ⟨_, s2, h3, h4⟩ := bind_ok_inv h2
  rw [Ready.pop_done (hk.1.trans hr.stack)] at h3
  injection h3 with _ h3
  injection h4 with _ h4
  exact ⟨s1, h1, by rw [← h4, ← h3]⟩

/-- An accepted document is one that `denote` accepts, and with the same effects. -/
theorem accepted_denote (hE : Passive E) (ht : R.watertight = true) (hw : R.wf = true) {s s' : St} (hr : Ready R s) {j}
    (h : run E R (events j) s = .ok () s') :
    ∃ d, denote E.fmtDbl R j = .ok d ∧ s'.stack = [] ∧ Holds s'.heap [] d ∧ Ready R s'.restart ∧
      Logged E (denoteT E.fmtDbl R [] j).calls s.log s'.log := by
  obtain ⟨s1, h1, rfl⟩ := accepted_eval ht hw hr h
  have hk := evalVal_keep j R [] rfl s () s1 h1
  have hm := den_val (R := R) hE j R [] s rfl hw (watertight_uok ht hw j)
  unfold Meets at hm
  rw [denoteT_result] at hm
  cases hd : denote E.fmtDbl R j with
  | error e =>
    rw [hd] at hm
    obtain ⟨s', h, hl⟩ := hm
    rw [h1] at h; cases h
  | ok d =>
    rw [hd] at hm
    obtain ⟨s2, h2, hh, hl⟩ := hm
    rw [h1] at h2; injection h2 with _ h2; subst h2
    exact ⟨d, rfl, rfl, hh, ⟨rfl, hk.2.mono _ hr.disp, hr.sane.keep hk.2⟩, hl⟩

end SJ
