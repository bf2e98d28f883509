/-
Which callbacks reading a document calls, for arbitrary callbacks.
-/
import Verif.SpecCalls
import Verif.Proofs.Calls
import Verif.Proofs.Main

set_option linter.unusedVariables false

namespace SJ

variable {E : Env} {R : Shape}

theorem Called.refl (l : Log) : Called [] l l := ⟨[], rfl, rfl⟩
theorem Called.trans {es es' : List End} {l l' l'' : Log} (h : Called es l l') (h' : Called es' l' l'') : Called (es ++ es') l l'' := by
  obtain ⟨n, h1, h2⟩ := h
  obtain ⟨n', h3, h4⟩ := h'
  refine ⟨n' ++ n, by rw [h3, h1, List.append_assoc], ?_⟩
  rw [List.reverse_append, List.map_append, h2, h4]

/-- `r` calls `es`, or the beginning of it if it throws. -/
def TracesR {α} (E : Env) (es : List End) (l : Log) : Res α → Prop
  | .ok _ s' => Called (withCallback E es) l s'.log
  | .throw _ s' => ∃ pre, pre <+: withCallback E es ∧ Called pre l s'.log
  | .ub => True
  | .fuel => True

theorem withCallback_append (es es' : List End) : withCallback E (es ++ es') = withCallback E es ++ withCallback E es' := by
  simp [withCallback]

theorem TracesR.bind {α β} {es es' : List End} {m : M α} {f : α → M β} {s : St} (h : TracesR E es s.log (m s))
    (hf : ∀ a s', m s = .ok a s' → TracesR E es' s'.log (f a s')) : TracesR E (es ++ es') s.log (M.bind m f s) := by
  unfold M.bind
  cases hm : m s with
  | ok a s' =>
    rw [hm] at h
    have h2 := hf a s' hm
    dsimp only
    cases hc : f a s' with
    | ok b s'' =>
      rw [hc] at h2
      show Called _ _ _
      rw [withCallback_append]; exact Called.trans h h2
    | throw e s'' =>
      rw [hc] at h2
      obtain ⟨pre, hp, h3⟩ := h2
      refine ⟨withCallback E es ++ pre, ?_, Called.trans h h3⟩
      rw [withCallback_append]
      obtain ⟨t, ht⟩ := hp
      exact ⟨t, by rw [List.append_assoc, ht]⟩
    | ub => trivial
    | fuel => trivial
  | throw e s' =>
    rw [hm] at h
    obtain ⟨pre, hp, h3⟩ := h
    exact ⟨pre, hp.trans (by rw [withCallback_append]; exact List.prefix_append _ _), h3⟩
  | ub => trivial
  | fuel => trivial

/-- Two steps of which the second calls nothing. -/
theorem Silent.traces {α} {m : M α} (h : Silent m) (s : St) : TracesR E [] s.log (m s) := by
  have := h s
  cases hm : m s with
  | ok a s' => rw [hm] at this; show Called _ _ _; rw [this]; exact Called.refl _
  | throw e s' => rw [hm] at this; exact ⟨[], List.nil_prefix, by rw [this]; exact Called.refl _⟩
  | ub => trivial
  | fuel => trivial

/-- A silent first step. -/
theorem TracesR.silent {α β} {es : List End} {m : M α} {f : α → M β} {s : St} (h : Silent m)
    (hf : ∀ a s', m s = .ok a s' → TracesR E es s'.log (f a s')) : TracesR E es s.log (M.bind m f s) := by
  have := TracesR.bind (h.traces (E := E) s) hf
  simpa using this

theorem TracesR.throwing {α} {es : List End} {m : M α} (h : Silent m) {s : St} (hn : ∀ a s', m s ≠ .ok a s') : TracesR E es s.log (m s) := by
  have := h s
  cases hm : m s with
  | ok a s' => exact absurd hm (hn a s')
  | throw e s' => rw [hm] at this; exact ⟨[], List.nil_prefix, by rw [this]; exact Called.refl _⟩
  | ub => trivial
  | fuel => trivial

theorem TracesR.unexp {es : List End} {t : Token} {s : St} : TracesR E es s.log (unexpected t s : Res Unit) :=
  TracesR.throwing (Silent.unexpected t) fun a s' h => by simp [unexpected, throwStd] at h

theorem TracesR.throwStd {α} {es : List End} {t : String} {s : St} : TracesR E es s.log (throwStd t s : Res α) :=
  TracesR.throwing (Silent.throwStd t) fun a s' h => by simp [SJ.throwStd] at h

/-- The end of a callback. -/
theorem verdict_traces {c : Call} {l : Log} {v w} {s : St} (hl : s.log = c :: l) {es : List End} (he : withCallback E es = [c.name]) :
    TracesR E es l (verdict v w s) := by
  have h : Called [c.name] l s.log := ⟨[c], hl, rfl⟩
  cases v with
  | accept => show Called _ _ _; rw [he]; exact h
  | reject => exact ⟨_, by rw [he]; exact List.prefix_refl _, h⟩
  | throws e => exact ⟨_, by rw [he]; exact List.prefix_refl _, h⟩

theorem finishCbVal_traces (p) (s : St) : TracesR E [.finish p] s.log (finishCbVal E p s) := by
  unfold finishCbVal
  cases hcb : E.onFinish p with
  | none => show Called _ _ _; simp only [withCallback, List.filter, hcb]; exact Called.refl _
  | some cb => exact verdict_traces (c := .finish p _) rfl (by simp [withCallback, List.filter, hcb, Call.name])

theorem finishCbParser_traces (sh c p) (s : St) : TracesR E [.finish p] s.log (finishCbParser E sh c p s) := by
  unfold finishCbParser
  cases hcb : E.onFinish p with
  | none => show Called _ _ _; simp only [withCallback, List.filter, hcb]; exact Called.refl _
  | some cb => exact verdict_traces (c := .finish p _) rfl (by simp [withCallback, List.filter, hcb, Call.name])

theorem elementCb_traces (e p) (s : St) : TracesR E [.element p (s.heap p).curKey] s.log (elementCb E e p s) := by
  unfold elementCb
  cases hcb : E.onElement p with
  | none => show Called _ _ _; simp only [withCallback, List.filter, hcb]; exact Called.refl _
  | some cb => exact verdict_traces (c := .element p _ _) rfl (by simp [withCallback, List.filter, hcb, Call.name])

/-- What completing a parser calls. -/
def ownEnd (sh : Shape) (p : Path) (empty : Bool) : List End :=
  match sh with
  | .ignore => []
  | .object _ _ _ => if empty then [] else [.finish p]
  | .union _ _ _ _ => if empty then [] else [.finish p]
  | _ => [.finish p]

theorem unlessEmpty_traces {p} {m : M Unit} {s : St} (h : TracesR E [.finish p] s.log (m s)) :
    TracesR E (if (s.heap p).empty then [] else [.finish p]) s.log (unlessEmpty p m s) := by
  unfold unlessEmpty
  rw [bind_getC]
  cases (s.heap p).empty with
  | true => exact (Silent.modC _ _).traces s
  | false => exact h

theorem finish_traces (sh p) (s : St) : TracesR E (ownEnd sh p (s.heap p).empty) s.log (finish E sh p s) := by
  cases sh with
  | value ty => exact finishCbVal_traces p s
  | ignore => exact (Silent.pure ()).traces s
  | object k u ms =>
    have check : TracesR E (if (s.heap p).empty then [] else [.finish p]) s.log ((unlessEmpty p <|
      M.bind (unsetOnThrow p fun s =>
        match checkMembers s.heap p 0 ms with
        | some e => .throw (.std e) s
        | none => .ok () s) fun _ =>
      finishCbParser E (.object k u ms) (k == .custom) p) s) := by
      refine unlessEmpty_traces (TracesR.silent (Silent.unsetOnThrow ?_) fun _ s' _ => finishCbParser_traces _ _ _ _)
      intro s
      dsimp only
      cases checkMembers s.heap p 0 ms <;> simp
    cases k with
    | auto =>
      exact unlessEmpty_traces (TracesR.silent (Silent.wrapOnThrow (Silent.setValues p ms 0)) fun vs s' _ =>
        TracesR.silent (Silent.modC _ _) fun _ s' _ => finishCbVal_traces p _)
    | plain => exact check
    | custom => exact check
  | union ty tm st ms =>
    cases st with
    | false => exact unlessEmpty_traces (TracesR.silent (Silent.unsetOnThrow (Silent.checkAlt p ms 0)) fun _ _ _ => finishCbParser_traces _ _ _ _)
    | true =>
      refine unlessEmpty_traces (TracesR.silent (Silent.wrapOnThrow (Silent.setAlt p ms 0)) fun r _ _ => ?_)
      refine TracesR.silent ?_ fun _ _ _ => finishCbVal_traces p _
      cases r with
      | none => exact Silent.pure _
      | some v => exact Silent.modC _ _
  | array st e =>
    cases st with
    | true => exact finishCbVal_traces p s
    | false => exact finishCbParser_traces (.array false e) false p s
  | map st e => exact finishCbParser_traces (.map st e) false p s

theorem complete_traces (sh p) (s : St) : TracesR E (ownEnd sh p (s.heap p).empty) s.log (complete E sh p s) := by
  refine TracesR.silent (Silent.modC _ _) fun _ s' h => ?_
  injection h with _ h
  have := finish_traces (E := E) sh p s'
  have he : (s'.heap p).empty = (s.heap p).empty := by subst h; simp
  rwa [he] at this

theorem Silent.dropTop : Silent dropTop := fun s => rfl

theorem Silent.arrChild (st p) : Silent (arrChild st p) := by
  unfold SJ.arrChild
  split
  · exact (Silent.popVal _).bind fun _ => Silent.modC _ _
  · exact Silent.pure _

theorem mapChild_traces (st e p) (s : St) : TracesR E [.element p (s.heap p).curKey] s.log (mapChild E st e p s) := by
  unfold mapChild
  cases st with
  | false => exact elementCb_traces e p s
  | true =>
    have := TracesR.bind (es' := []) (elementCb_traces (E := E) e p s)
      (fun _ s' _ => ((Silent.popVal (.elem :: p)).bind fun v => Silent.modC p fun c => { c with val := .map (mapInsert c.curKey v c.val.entries) }).traces (E := E) s')
    simpa using this

theorem Silent.select (ty tm st ms p x) : Silent (select E ty tm st ms p x) := by
  unfold SJ.select
  refine (Silent.modH _).bind fun _ => Silent.bind (Silent.modC _ _) fun _ => ?_
  cases lookup x 0 ms with
  | none => exact Silent.throwStd _
  | some a => exact (Silent.push _).bind fun _ => (Silent.modC _ _).bind fun _ => Silent.pure _

/-- The state after an alternative was selected. -/
theorem select_empty {ty tm st ms p x} {s s' : St} {a : Nat × Shape} (h : select E ty tm st ms p x s = .ok a s') :
    lookup x 0 ms = some a ∧ (s'.heap p).empty = false ∧ ∀ i, ms[a.1]? = some (i, a.2) → (s'.heap (.mem a.1 :: p)).empty = true := by
  unfold select at h
  rw [bind_modH, setNotEmpty_def, bind_modC] at h
  cases hl : lookup x 0 ms with
  | none => rw [hl] at h; simp [throwStd] at h
  | some b =>
    rw [hl] at h
    dsimp only at h
    obtain ⟨_, s1, h1, h⟩ := bind_ok_inv h
    injection h1 with _ h1; subst h1
    rw [bind_modC] at h
    injection h with h2 h3
    subst h2; subst h3
    refine ⟨rfl, by simp, fun i hi => ?_⟩
    dsimp only
    rw [upd_other (by simp), upd_other (by simp), resetH_union_member _ hi (Below.refl _)]
    exact (resetH_self _ _ _).2

/-- Whether the parser, which is reading fields, has seen one. -/
def Begun (sh : Shape) (p : Path) (ne : Bool) (h : Heap) : Prop :=
  match sh with
  | .object _ _ _ => (h p).empty = !ne
  | .union _ _ _ _ => (h p).empty = true
  | _ => True

theorem Begun.reset (sh p h) : Begun sh p false (resetH p sh h) := by
  unfold Begun
  cases sh <;> first | exact (resetH_self _ _ _).2 | trivial

theorem Begun.of_empty {sh p} {h : Heap} (he : (h p).empty = true) : Begun sh p false h := by
  unfold Begun
  cases sh <;> first | exact he | trivial

theorem keep_self {q : Step} {p} {h h' : Heap} (hk : Keep R (q :: p) h h') : h' p = h p := hk.frame p below_self_cons

mutual
theorem evalVal_traces : ∀ (j : Json) (sh : Shape) (p : Path) (s : St), R.at p = some sh →
    TracesR E (ends sh p j) s.log (evalVal E sh p j s)
  | .null, sh, p, s, hR => by unfold evalVal ends; exact (Silent.modH _).traces s
  | .sc x, sh, p, s, hR => by
    unfold evalVal ends
    cases sh with
    | value ty =>
      dsimp only
      split
      · exact TracesR.silent (Silent.modC _ _) fun _ _ _ => TracesR.silent (Silent.modC _ _) fun _ s' _ => complete_traces (.value ty) p s'
      · exact TracesR.unexp
    | ignore => exact complete_traces .ignore p s
    | union ty tm st ms =>
      dsimp only
      split
      · trivial
      · exact TracesR.unexp
    | _ => exact TracesR.unexp
  | .arr l, sh, p, s, hR => by
    unfold evalVal ends
    cases sh with
    | array st e =>
      refine TracesR.silent (Silent.modH _) fun _ _ _ => TracesR.silent (Silent.modC _ _) fun _ s1 _ => ?_
      refine TracesR.bind (evalElems_traces l st e p s1 hR) fun _ _ _ => ?_
      exact TracesR.silent (Silent.modC _ _) fun _ s' _ => complete_traces (.array st e) p s'
    | ignore => exact complete_traces .ignore p s
    | _ => exact TracesR.unexp
  | .obj fs, sh, p, s, hR => by
    unfold evalVal ends
    cases sh with
    | object k u ms =>
      refine TracesR.silent (Silent.modH _) fun _ s' h => evalFields_traces fs _ p false s' hR ?_
      injection h with _ h; subst h; exact Begun.reset _ _ _
    | map st e =>
      refine TracesR.silent (Silent.modH _) fun _ s' h => evalFields_traces fs _ p false s' hR ?_
      injection h with _ h; subst h; exact Begun.reset _ _ _
    | union ty tm st ms =>
      dsimp only
      split
      · exact TracesR.throwStd
      · refine TracesR.silent (Silent.modH _) fun _ s' h => evalFields_traces fs _ p false s' hR ?_
        injection h with _ h; subst h; exact Begun.reset _ _ _
    | ignore =>
      have : endsFields .ignore p false fs = [] := by cases fs <;> simp [endsFields]
      rw [this]; exact complete_traces .ignore p s
    | value ty => exact TracesR.unexp
    | array st e => exact TracesR.unexp
theorem evalFields_traces : ∀ (fs : List (String × Json)) (sh : Shape) (p : Path) (ne : Bool) (s : St), R.at p = some sh → Begun sh p ne s.heap →
    TracesR E (endsFields sh p ne fs) s.log (evalFields E sh p fs s)
  | [], sh, p, ne, s, hR, hb => by
    unfold evalFields endsFields
    cases sh with
    | object k u ms =>
      have := complete_traces (E := E) (.object k u ms) p s
      rw [show (s.heap p).empty = !ne from hb] at this
      cases ne <;> exact this
    | union ty tm st ms =>
      have := complete_traces (E := E) (.union ty tm st ms) p s
      rw [show (s.heap p).empty = true from hb] at this
      exact this
    | map st e => exact complete_traces (.map st e) p s
    | _ => exact TracesR.unexp
  | (k, v) :: fs, sh, p, ne, s, hR, hb => by
    unfold evalFields endsFields
    cases sh with
    | object kd u ms =>
      dsimp only
      refine TracesR.silent (Silent.modC _ _) fun _ s1 h1 => ?_
      have he1 : (s1.heap p).empty = false := by injection h1 with _ h1; subst h1; simp
      cases hl : lookup (.str k) 0 ms with
      | none =>
        dsimp only
        split
        · exact TracesR.throwStd
        · refine TracesR.silent (Silent.push _) fun _ s2 h2 => ?_
          have hRi := at_ign_object hR
          have hnil : ends .ignore (.ign :: p) v = [] := by
            cases v with
            | obj fs => cases fs <;> simp [ends, endsFields]
            | _ => simp [ends]
          have hv := evalVal_traces v .ignore (.ign :: p) s2 hRi
          rw [hnil] at hv
          have := TracesR.bind (es' := endsFields (.object kd u ms) p true fs) hv (f := fun _ => M.bind dropTop fun _ => evalFields E (.object kd u ms) p fs) (fun _ s3 h3 => by
            refine TracesR.silent Silent.dropTop fun _ s4 h4 => evalFields_traces fs _ p true s4 hR ?_
            have hk := (evalVal_keep v .ignore (.ign :: p) hRi s2 _ s3 h3).2
            injection h2 with _ h2; injection h4 with _ h4
            subst h2; subst h4
            show (s3.heap p).empty = false
            rw [keep_self hk]; exact he1)
          simpa using this
      | some nm =>
        obtain ⟨n, m⟩ := nm
        obtain ⟨i, hi⟩ := lookup_mem hl
        have hRm := at_mem_object hR hi
        dsimp only
        refine TracesR.silent (Silent.push _) fun _ s2 h2 => ?_
        have he2 : (s2.heap p).empty = false := by injection h2 with _ h2; subst h2; exact he1
        cases hem : embedded m v with
        | none =>
          dsimp only
          refine TracesR.bind (evalVal_traces v m (.mem n :: p) s2 hRm) fun _ s3 h3 => ?_
          refine TracesR.silent Silent.dropTop fun _ s4 h4 => evalFields_traces fs _ p true s4 hR ?_
          have hk := (evalVal_keep v m (.mem n :: p) hRm s2 _ s3 h3).2
          injection h4 with _ h4
          subst h4
          show (s3.heap p).empty = false
          rw [keep_self hk]; exact he2
        | some q =>
          obtain ⟨ty, st, ms', x⟩ := q
          have hmu : m = .union ty "" st ms' ∧ v = .sc x := ⟨(embedded_some hem).1, (embedded_some hem).2.1⟩
          obtain ⟨rfl, rfl⟩ := hmu
          dsimp only
          refine TracesR.silent (Silent.select _ _ _ _ _ _) fun a s3 h3 => ?_
          obtain ⟨hla, he3, hea⟩ := select_empty h3
          rw [hla]
          dsimp only
          obtain ⟨i', hi'⟩ := lookup_mem (a := a.1) (sh := a.2) hla
          have hk3 : Keep R (.mem n :: p) s2.heap s3.heap := (select_ok (R := R) h3).2.2.1
          have hRa := at_mem_union hRm hi'
          refine TracesR.bind (evalFields_traces fs a.2 (.mem a.1 :: .mem n :: p) false s3 hRa (Begun.of_empty (hea i' hi'))) fun _ s4 h4 => ?_
          have hk4 := (evalFields_keep fs a.2 _ hRa s3 _ s4 h4).2
          have he4 : (s4.heap (.mem n :: p)).empty = false := by rw [keep_self hk4]; exact he3
          refine TracesR.silent Silent.dropTop fun _ s5 h5 => ?_
          injection h5 with _ h5; subst h5
          have hc := complete_traces (E := E) (.union ty "" st ms') (.mem n :: p) { s4 with stack := s4.stack.tail }
          have hc' : TracesR E [.finish (.mem n :: p)] s4.log (complete E (.union ty "" st ms') (.mem n :: p) { s4 with stack := s4.stack.tail }) := by
            simp only [ownEnd, he4, Bool.false_eq_true, if_false] at hc; exact hc
          refine TracesR.bind (es := [.finish (.mem n :: p)]) (es' := [.finish p]) hc' fun _ s6 h6 => ?_
          refine TracesR.silent Silent.dropTop fun _ s7 h7 => ?_
          injection h7 with _ h7; subst h7
          have hk6 := ((Loc.complete (E := E) (.union ty "" st ms') (.mem n :: p)).keep (R := R) _ _ _ h6).2
          have he7 : (s6.heap p).empty = false := by
            rw [keep_self hk6]
            show (s4.heap p).empty = false
            rw [hk4.frame p fun hbel => below_self_cons (Below.step hbel), keep_self hk3]; exact he2
          have := complete_traces (E := E) (.object kd u ms) p { s6 with stack := s6.stack.tail }
          simp only [ownEnd, he7, Bool.false_eq_true, if_false] at this; exact this
    | union ty tm st ms =>
      dsimp only
      by_cases h1 : tm = ""
      · rw [if_pos h1]; exact TracesR.throwStd
      · rw [if_neg h1]
        by_cases h2 : k ≠ tm
        · rw [if_pos h2]; exact TracesR.throwStd
        · rw [if_neg h2]
          cases v with
          | sc x =>
            dsimp only
            by_cases h5 : x.ty = ty
            · rw [if_pos h5]
              refine TracesR.silent (Silent.select _ _ _ _ _ _) fun a s3 h3 => ?_
              obtain ⟨hla, he3, hea⟩ := select_empty h3
              rw [hla]
              dsimp only
              obtain ⟨i', hi'⟩ := lookup_mem (a := a.1) (sh := a.2) hla
              have hRa := at_mem_union hR hi'
              refine TracesR.bind (evalFields_traces fs a.2 (.mem a.1 :: p) false s3 hRa (Begun.of_empty (hea i' hi'))) fun _ s4 h4 => ?_
              have hk4 := (evalFields_keep fs a.2 _ hRa s3 _ s4 h4).2
              have he4 : (s4.heap p).empty = false := by rw [keep_self hk4]; exact he3
              refine TracesR.silent Silent.dropTop fun _ s5 h5 => ?_
              injection h5 with _ h5; subst h5
              have hc := complete_traces (E := E) (.union ty tm st ms) p { s4 with stack := s4.stack.tail }
              simp only [ownEnd, he4, Bool.false_eq_true, if_false] at hc; exact hc
            · rw [if_neg h5]; exact TracesR.unexp
          | arr l => exact TracesR.unexp
          | null => trivial
          | obj => trivial
    | map st e =>
      dsimp only
      have hRe := at_elem_map hR
      refine TracesR.silent (Silent.modC _ _) fun _ s0 h0 => ?_
      refine TracesR.silent (Silent.push _) fun _ s1 h1 => ?_
      refine TracesR.silent (Silent.modC _ _) fun _ s2 h2 => ?_
      have hk2 : (s2.heap p).curKey = k := by injection h2 with _ h2; subst h2; simp
      cases hem : embedded e v with
      | none =>
        dsimp only
        refine TracesR.bind (evalVal_traces v e (.elem :: p) s2 hRe) fun _ s3 h3 => ?_
        refine TracesR.silent Silent.dropTop fun _ s4 h4 => ?_
        have hk := (evalVal_keep v e (.elem :: p) hRe s2 _ s3 h3).2
        injection h4 with _ h4; subst h4
        have hmc := mapChild_traces (E := E) st e p { s3 with stack := s3.stack.tail }
        have hck : (s3.heap p).curKey = k := by rw [keep_self hk]; exact hk2
        dsimp only at hmc
        rw [hck] at hmc
        exact TracesR.bind (es := [.element p k]) (s := { s3 with stack := s3.stack.tail }) hmc fun _ s5 h5 => evalFields_traces fs _ p true s5 hR trivial
      | some q =>
        obtain ⟨ty, st', ms', x⟩ := q
        have hmu : e = .union ty "" st' ms' ∧ v = .sc x := ⟨(embedded_some hem).1, (embedded_some hem).2.1⟩
        obtain ⟨rfl, rfl⟩ := hmu
        dsimp only
        refine TracesR.silent (Silent.select _ _ _ _ _ _) fun a s3 h3 => ?_
        obtain ⟨hla, he3, hea⟩ := select_empty h3
        rw [hla]
        dsimp only
        obtain ⟨i', hi'⟩ := lookup_mem (a := a.1) (sh := a.2) hla
        have hk3 : Keep R (.elem :: p) s2.heap s3.heap := (select_ok (R := R) h3).2.2.1
        have hRa := at_mem_union hRe hi'
        refine TracesR.bind (evalFields_traces fs a.2 (.mem a.1 :: .elem :: p) false s3 hRa (Begun.of_empty (hea i' hi'))) fun _ s4 h4 => ?_
        have hk4 := (evalFields_keep fs a.2 _ hRa s3 _ s4 h4).2
        have he4 : (s4.heap (.elem :: p)).empty = false := by rw [keep_self hk4]; exact he3
        refine TracesR.silent Silent.dropTop fun _ s5 h5 => ?_
        injection h5 with _ h5; subst h5
        have hc := complete_traces (E := E) (.union ty "" st' ms') (.elem :: p) { s4 with stack := s4.stack.tail }
        have hc' : TracesR E [.finish (.elem :: p)] s4.log (complete E (.union ty "" st' ms') (.elem :: p) { s4 with stack := s4.stack.tail }) := by
          simp only [ownEnd, he4, Bool.false_eq_true, if_false] at hc; exact hc
        refine TracesR.bind (es := [.finish (.elem :: p)]) (es' := [.element p k, .finish p]) hc' fun _ s6 h6 => ?_
        refine TracesR.silent Silent.dropTop fun _ s7 h7 => ?_
        injection h7 with _ h7; subst h7
        have hk6 := ((Loc.complete (E := E) (.union ty "" st' ms') (.elem :: p)).keep (R := R) _ _ _ h6).2
        have he7 : (s6.heap p).curKey = k := by
          rw [keep_self hk6]
          show (s4.heap p).curKey = k
          rw [hk4.frame p fun hbel => below_self_cons (Below.step hbel), keep_self hk3]; exact hk2
        have hmc := mapChild_traces (E := E) st (.union ty "" st' ms') p { s6 with stack := s6.stack.tail }
        dsimp only at hmc
        rw [he7] at hmc
        exact TracesR.bind (es := [.element p k]) (es' := [.finish p]) (s := { s6 with stack := s6.stack.tail }) hmc fun _ s8 h8 => complete_traces (.map st _) p s8
    | value ty => exact TracesR.unexp
    | ignore => exact TracesR.unexp
    | array st e => exact TracesR.unexp
theorem evalElems_traces : ∀ (l : List Json) (st : Bool) (e : Shape) (p : Path) (s : St), R.at p = some (.array st e) →
    TracesR E (endsElems e p l) s.log (evalElems E st e p l s)
  | [], st, e, p, s, hR => by unfold evalElems endsElems; exact (Silent.pure _).traces s
  | .null :: l, st, e, p, s, hR => by
    unfold evalElems endsElems
    rw [show ends e (.elem :: p) .null = [] by simp [ends], List.nil_append]
    exact TracesR.silent (Silent.modH _) fun _ s' _ => evalElems_traces l st e p s' hR
  | .sc x :: l, st, e, p, s, hR => by
    unfold evalElems endsElems
    refine TracesR.bind (evalVal_traces (.sc x) e (.elem :: p) s (at_elem_array hR)) fun _ s1 _ => ?_
    exact TracesR.silent (Silent.modC _ _) fun _ s2 _ => TracesR.silent (Silent.arrChild _ _) fun _ s3 _ => evalElems_traces l st e p s3 hR
  | .arr l' :: l, st, e, p, s, hR => by
    unfold evalElems endsElems
    refine TracesR.silent (Silent.modC _ _) fun _ s1 _ => TracesR.silent (Silent.modH _) fun _ s2 _ => TracesR.silent (Silent.push _) fun _ s3 _ => ?_
    refine TracesR.bind (evalVal_traces (.arr l') e (.elem :: p) s3 (at_elem_array hR)) fun _ s4 _ => ?_
    exact TracesR.silent Silent.dropTop fun _ s2 _ => TracesR.silent (Silent.arrChild _ _) fun _ s3 _ => evalElems_traces l st e p s3 hR
  | .obj fs :: l, st, e, p, s, hR => by
    unfold evalElems endsElems
    refine TracesR.silent (Silent.modC _ _) fun _ s1 _ => TracesR.silent (Silent.modH _) fun _ s2 _ => TracesR.silent (Silent.push _) fun _ s3 _ => ?_
    refine TracesR.bind (evalVal_traces (.obj fs) e (.elem :: p) s3 (at_elem_array hR)) fun _ s4 _ => ?_
    exact TracesR.silent Silent.dropTop fun _ s2 _ => TracesR.silent (Silent.arrChild _ _) fun _ s3 _ => evalElems_traces l st e p s3 hR
end

end SJ
