/-
The model with shared objects, when nothing is shared and the callbacks keep to their arguments, is the model of `Verif/Model/Parsers.lean`.
-/
import Verif.Proofs.Shared

set_option linter.unusedVariables false

namespace SJ

namespace Shd

variable {E : Env} {R : Shape}

mutual
theorem resetH_id : ∀ (sh : Shape) (p : Path) (h : Heap), resetH id p sh h = SJ.resetH p sh h
  | .value _, p, h => rfl
  | .ignore, p, h => rfl
  | .object k _ ms, p, h => by cases k <;> simp only [resetH, SJ.resetH, resetMs_id ms, id]
  | .union _ _ st ms, p, h => by simp only [resetH, SJ.resetH, resetMs_id ms, id]
  | .array st e, p, h => by simp only [resetH, SJ.resetH, resetH_id e, id]
  | .map st e, p, h => rfl
theorem resetMs_id : ∀ (ms : List (MInfo × Shape)) (p : Path) (n : Nat) (h : Heap), resetMs id p n ms h = SJ.resetMs p n ms h
  | [], p, n, h => rfl
  | (_, sh) :: ms, p, n, h => by simp only [resetMs, SJ.resetMs, resetH_id sh, resetMs_id ms]
end

mutual
theorem setDispH_id : ∀ (sh : Shape) (p : Path) (h : Heap), setDispH id p sh h = SJ.setDispH p sh h
  | .value _, p, h => rfl
  | .ignore, p, h => rfl
  | .array _ _, p, h => rfl
  | .object _ _ ms, p, h => by simp only [setDispH, SJ.setDispH, setDispMs_id ms, id]
  | .union _ _ _ ms, p, h => by simp only [setDispH, SJ.setDispH, setDispMs_id ms, id]
  | .map _ e, p, h => by simp only [setDispH, SJ.setDispH, setDispH_id e, id]
theorem setDispMs_id : ∀ (ms : List (MInfo × Shape)) (p : Path) (n : Nat) (h : Heap), setDispMs id p n ms h = SJ.setDispMs p n ms h
  | [], p, n, h => rfl
  | (_, sh) :: ms, p, n, h => by simp only [setDispMs, SJ.setDispMs, setDispH_id sh, setDispMs_id ms]
end

theorem at_append (R : Shape) (p : Path) : ∀ rel : Path, R.at (rel ++ p) = (R.at p).bind (·.at rel)
  | [] => by cases h : R.at p <;> simp [Shape.at, h]
  | st :: rel => by
    have := at_append R p rel
    simp only [List.cons_append, Shape.at, this]
    cases R.at p <;> rfl

theorem cbActs_id {p : Path} {sh : Shape} (hR : R.at p = some sh) :
    ∀ (ps : List Path) (h : Heap), cbActs id R (ps.map fun rel => .pop (rel ++ p)) h = SJ.cbPops sh p ps h
  | [], h => rfl
  | rel :: ps, h => by
    have := at_append R p rel
    rw [hR] at this
    simp only [List.map_cons, cbActs, SJ.cbPops, this, Option.bind, id, cbActs_id hR ps]
    cases sh.at rel <;> rfl

theorem finishCbVal_id (p : Path) : finishCbVal id (far E) R p = SJ.finishCbVal E p := by
  funext s
  unfold finishCbVal SJ.finishCbVal
  simp only [far, id]
  cases E.onFinish p <;> simp [cbActs]

theorem finishCbParser_id {p : Path} {sh : Shape} (hR : R.at p = some sh) (c : Bool) :
    finishCbParser id (far E) R sh c p = SJ.finishCbParser E sh c p := by
  funext s
  unfold finishCbParser SJ.finishCbParser
  simp only [far, id, snap]
  cases E.onFinish p with
  | none => rfl
  | some cb => (simp only [Option.map, cbActs_id hR]; rfl)

theorem elementCb_id {p : Path} {e : Shape} (hR : R.at (.elem :: p) = some e) :
    elementCb id (far E) R e p = SJ.elementCb E e p := by
  funext s
  unfold elementCb SJ.elementCb
  simp only [far, id, snap]
  cases E.onElement p with
  | none => rfl
  | some cb => simp only [Option.map, cbActs_id hR]

theorem checkMembers_id (h : Heap) (p : Path) : ∀ (ms : List (MInfo × Shape)) (n : Nat), checkMembers id h p n ms = SJ.checkMembers h p n ms
  | [], n => rfl
  | (i, _) :: ms, n => by simp only [checkMembers, SJ.checkMembers, checkMembers_id h p ms, id]; rfl

theorem setValues_id (p : Path) : ∀ (ms : List (MInfo × Shape)) (n : Nat), setValues id p n ms = SJ.setValues p n ms
  | [], n => rfl
  | (i, _) :: ms, n => by simp only [setValues, SJ.setValues, setValues_id p ms, id]; rfl

theorem checkAlt_id (p : Path) : ∀ (ms : List (MInfo × Shape)) (n : Nat), checkAlt id p n ms = SJ.checkAlt p n ms
  | [], n => rfl
  | (i, _) :: ms, n => by simp only [checkAlt, SJ.checkAlt, checkAlt_id p ms, id]

theorem setAlt_id (p : Path) : ∀ (ms : List (MInfo × Shape)) (n : Nat), setAlt id p n ms = SJ.setAlt p n ms
  | [], n => rfl
  | (i, _) :: ms, n => by simp only [setAlt, SJ.setAlt, setAlt_id p ms, id]; rfl

theorem finish_id {p : Path} {sh : Shape} (hR : R.at p = some sh) : finish id (far E) R sh p = SJ.finish E sh p := by
  cases sh with
  | value | ignore => simp only [finish, SJ.finish, finishCbVal_id]
  | object k u ms =>
    cases k <;> simp only [finish, SJ.finish, finishCbVal_id, finishCbParser_id hR, checkMembers_id, setValues_id, id] <;> rfl
  | union ty tm st ms =>
    cases st <;> simp only [finish, SJ.finish, finishCbVal_id, finishCbParser_id hR, checkAlt_id, setAlt_id, id] <;> rfl
  | array st e => cases st <;> simp only [finish, SJ.finish, finishCbVal_id, finishCbParser_id hR]
  | map st e => simp only [finish, SJ.finish, finishCbParser_id hR]

theorem chain_id : ∀ n : Nat,
    popParser id (far E) R n = SJ.popParser E R n ∧
    (∀ p, childParsed id (far E) R n p = SJ.childParsed E R n p) ∧
    (∀ sh p, R.at p = some sh → endParsing id (far E) R n sh p = SJ.endParsing E R n sh p) ∧
    dispatchMapEnd id (far E) R n = SJ.dispatchMapEnd E R n := by
  intro n
  induction n with
  | zero => exact ⟨rfl, fun _ => rfl, fun _ _ _ => rfl, rfl⟩
  | succ n ih =>
    obtain ⟨h1, h2, h3, h4⟩ := ih
    refine ⟨?_, ?_, ?_, ?_⟩
    · funext s
      simp only [popParser, SJ.popParser, h2]
      rcases s.stack with _ | ⟨_, _ | ⟨_, _⟩⟩ <;> rfl
    · intro p
      cases hR : R.at p with
      | none => simp only [childParsed, SJ.childParsed, hR]
      | some sh =>
        cases sh with
        | array st e => cases st <;> simp only [childParsed, SJ.childParsed, hR, id]
        | map st e => cases st <;> simp only [childParsed, SJ.childParsed, hR, id, elementCb_id (at_elem_map hR)]
        | union ty tm st ms => simp only [childParsed, SJ.childParsed, hR, h3 _ _ hR, h4, id]
        | _ => simp only [childParsed, SJ.childParsed, hR]
    · intro sh p hR
      simp only [endParsing, SJ.endParsing, h1, finish_id hR, id]
    · funext s
      simp only [dispatchMapEnd, SJ.dispatchMapEnd]
      rcases hs : s.stack with _ | ⟨p, r⟩
      · rfl
      · cases hR : R.at p with
        | none => simp only [hR]
        | some sh =>
          cases sh with
          | ignore =>
            simp only [hR, h3 _ _ hR, id]
            rcases (s.heap p).struct with _ | ⟨_ | _, _⟩ <;> rfl
          | object k u ms => simp only [hR, h3 _ _ hR]
          | union ty tm st ms => simp only [hR, h3 _ _ hR]
          | map st e => simp only [hR, h3 _ _ hR]
          | _ => simp only [hR]

variable {f : Nat}

theorem endParsing_id {sh p} (hR : R.at p = some sh) : endParsing id (far E) R f sh p = SJ.endParsing E R f sh p :=
  (chain_id f).2.2.1 sh p hR

theorem onNullBase_id {sh p} : onNullBase id (far E) R f sh p = SJ.onNullBase E R f sh p := by
  simp only [onNullBase, SJ.onNullBase, (chain_id f).1, id]
  congr 1
  funext s; simp only [modH, resetH_id]

theorem onMember_id (u ms p x) : onMember id (far E) u ms p x = SJ.onMember E u ms p x := by
  unfold onMember SJ.onMember
  rfl

theorem memberId_id (p : Path) (n : Nat) : ∀ k, n < k → memberId id p (.mem n :: p) k = n
  | 0, h => by omega
  | k + 1, h => by
    unfold memberId
    by_cases hk : k = n
    · subst hk; simp
    · rw [if_neg (by simp [hk])]
      exact memberId_id p n k (by omega)

theorem modH_congr {f g : Heap → Heap} (h : ∀ x, f x = g x) : modH f = modH g := by
  have : f = g := funext h
  rw [this]

theorem on_id (t : Token) (sh : Shape) : ∀ (p : Path), R.at p = some sh → on id (far E) R f sh p t = SJ.on E R f sh p t := by
  have hr : ∀ sh p, modH (resetH id p sh) = modH (SJ.resetH p sh) := fun sh p => modH_congr fun _ => resetH_id _ _ _
  have hd : ∀ sh p, modH (setDispH id p sh) = modH (SJ.setDispH p sh) := fun sh p => modH_congr fun _ => setDispH_id _ _ _
  induction sh using Shape.arrInd with
  | value ty =>
    intro p hR
    cases t <;> simp only [on, SJ.on, onNullBase_id, endParsing_id hR, id]
  | ignore =>
    intro p hR
    cases t <;> simp only [on, SJ.on, onNullBase_id, endParsing_id hR, id] <;>
      (funext s; rw [bind_getC, bind_getC]; rcases (s.heap p).struct with _ | ⟨_ | _, _⟩ <;> rfl)
  | object k u ms =>
    intro p hR
    cases t <;> simp only [on, SJ.on, onNullBase_id, endParsing_id hR, onMember_id, hr]
  | union ty tm st ms =>
    intro p hR
    cases t with
    | scalar v =>
      simp only [on, SJ.on, onMember_id, hr]
      split
      · funext s
        rw [bind_modH, bind_modH]
        unfold M.bind
        cases hm : SJ.onMember E true ms p v { s with heap := SJ.resetH p (.union ty tm st ms) s.heap } with
        | ok r s' =>
          cases r with
          | none => rfl
          | some n =>
            have : n < ms.length := by
              unfold SJ.onMember at hm
              rw [setNotEmpty_def, bind_modC, bind_getC] at hm
              cases hl : lookup v 0 ms with
              | none =>
                rw [hl] at hm; simp only at hm
                cases hm
              | some a =>
                obtain ⟨m, sh⟩ := a
                rw [hl] at hm; simp only at hm
                split at hm
                · rw [bind_push] at hm
                  cases hm
                  obtain ⟨i, hi⟩ := lookup_mem hl
                  exact (List.getElem?_eq_some_iff.1 hi).1
                · cases hm
            simp only [id]
            rw [memberId_id p n _ this]
        | _ => rfl
      · rfl
    | null => simp only [on, SJ.on, onNullBase_id]
    | mapEnd => simp only [on, SJ.on, endParsing_id hR]
    | _ => simp only [on, SJ.on, hr]
  | map st e =>
    intro p hR
    cases t <;> simp only [on, SJ.on, onNullBase_id, endParsing_id hR, hr, id]
  | array st e ih =>
    intro p hR
    have ihe := ih (.elem :: p) (at_elem_array hR)
    cases t <;> simp only [on, SJ.on, onNullBase_id, endParsing_id hR, hr, hd, ihe, (chain_id f).2.1, id]

theorem dispatch_id (t : Token) : dispatch id (far E) R t = SJ.dispatch E R t := by
  funext s
  unfold dispatch SJ.dispatch
  rcases hs : s.stack with _ | ⟨p, r⟩
  · rfl
  · cases hR : R.at p with
    | none => simp only [hR]
    | some sh => simp only [hR, on_id t sh p hR]

theorem run_id : ∀ ts : List Token, run id (far E) R ts = SJ.run E R ts
  | [] => rfl
  | t :: ts => by simp only [run, SJ.run, dispatch_id, run_id ts]

theorem init_id : init id R = St.init R := by
  simp only [init, St.init, attach, setDispH_id]

variable {Y : Yajl}

theorem report_id : ∀ ts : List Token, report id (far E) R Y ts = SJ.report Y E R ts
  | [] => rfl
  | t :: ts => by
    have h1 : onToken id (far E) R Y t = SJ.onToken Y E R t := by
      funext s; simp only [onToken, SJ.onToken, dispatch_id]; rfl
    simp only [report, SJ.report, h1, report_id ts]

theorem advance_id (out) : advance id (far E) R Y out = SJ.advance Y E R out := by
  simp only [advance, SJ.advance, report_id]

theorem yajlParse_id : ∀ bs, yajlParse id (far E) R Y bs = SJ.yajlParse Y E R bs
  | [] => rfl
  | b :: bs => by
    funext s
    simp only [yajlParse, SJ.yajlParse, advance_id, yajlParse_id bs]

theorem parse_id (m p len) : parse id (far E) R Y m p len = SJ.parse Y E R m p len := by
  funext s
  simp only [parse, SJ.parse, yajlParse_id]
  cases m.read p len <;> rfl

theorem finishDoc_id (m) : finishDoc id (far E) R Y m = SJ.finishDoc Y E R m := by
  have h : yajlComplete id (far E) R Y = SJ.yajlComplete Y E R := by
    funext s
    simp only [yajlComplete, SJ.yajlComplete, advance_id]
  funext s
  simp only [finishDoc, SJ.finishDoc, h]

theorem start_id : start id R Y = PSt.init Y R := by
  simp only [start, PSt.init, init_id]

end Shd

end SJ
