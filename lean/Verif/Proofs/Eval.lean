/-
A recursive-descent reading of the state machine: what the parser tree does with a whole JSON value. It
is defined by recursion on the JSON tree and uses none of `popParser`, `childParsed`, `endParsing`,
`on`, `dispatch`, `run`. `Verif/Proofs/Sim.lean` proves that it agrees with the state machine.
-/
import Verif.Proofs.Equations
import Verif.Spec

namespace SJ

variable (E : Env)

/-- Removes the top of the stack without telling anybody. -/
def dropTop : M Unit := fun s => .ok () { s with stack := s.stack.tail }

/-- What an array does when an element is complete. -/
def arrChild (stored : Bool) (p : Path) : M Unit :=
  if stored then
    M.bind (popVal (.elem :: p)) fun v => modC p fun c => { c with val := .arr (c.val.vec ++ [v]) }
  else M.pure ()

/-- What a map does when an element is complete. -/
def mapChild (stored : Bool) (e : Shape) (p : Path) : M Unit :=
  if stored then
    M.bind (elementCb E e p) fun _ =>
    M.bind (popVal (.elem :: p)) fun v =>
    modC p fun c => { c with val := .map (mapInsert c.curKey v c.val.entries) }
  else elementCb E e p

/-- The type value of a union was read: select the alternative. -/
def select (ty : ScalarTy) (tm : String) (st : Bool) (ms : List (MInfo × Shape)) (p : Path) (x : Scalar) :
    M (Nat × Shape) :=
  M.bind (modH (resetH p (.union ty tm st ms))) fun _ =>
  M.bind (setNotEmpty p) fun _ =>
  match lookup x 0 ms with
  | none => throwStd ("Unexpected member " ++ nameText E.fmtDbl x)
  | some (a, ash) =>
    M.bind (pushParser (.mem a :: p)) fun _ =>
    M.bind (modC p fun c => { c with curId := a }) fun _ => M.pure (a, ash)

mutual
/-- The parser `sh` at `p`, on top of the stack, reads the value `j`; it stays on the stack. -/
def evalVal (sh : Shape) (p : Path) : Json → M Unit
  | .null => modH (resetH p sh)
  | .sc x =>
    match sh with
    | .value ty =>
      if x.ty = ty then
        M.bind (setNotEmpty p) fun _ =>
        M.bind (modC p fun c => { c with val := .sc x }) fun _ => complete E sh p
      else unexpected (.scalar x)
    | .ignore => complete E .ignore p
    | .union ty _ _ _ => if x.ty = ty then fun _ => .ub else unexpected (.scalar x)
    | _ => unexpected (.scalar x)
  | .arr l =>
    match sh with
    | .array st e =>
      M.bind (modH (resetH p (.array st e))) fun _ =>
      M.bind (modC p fun c => { c with started := true }) fun _ =>
      M.bind (evalElems st e p l) fun _ =>
      M.bind (modC p fun c => { c with started := false }) fun _ =>
      complete E sh p
    | .ignore => complete E .ignore p
    | _ => unexpected .arrStart
  | .obj fs =>
    match sh with
    | .object _ _ _ => M.bind (modH (resetH p sh)) fun _ => evalFields sh p fs
    | .map _ _ => M.bind (modH (resetH p sh)) fun _ => evalFields sh p fs
    | .union _ tm _ _ =>
      if tm = "" then throwStd "Union with an empty type member can't parse this"
      else M.bind (modH (resetH p sh)) fun _ => evalFields sh p fs
    | .ignore => complete E .ignore p
    | _ => unexpected .mapStart
/-- The parser `sh` at `p` reads the fields `fs` and the closing brace. -/
def evalFields (sh : Shape) (p : Path) : List (String × Json) → M Unit
  | [] =>
    match sh with
    | .object _ _ _ => complete E sh p
    | .map _ _ => complete E sh p
    | .union _ _ _ _ => complete E sh p
    | _ => unexpected .mapEnd
  | (k, v) :: fs =>
    match sh with
    | .object _ u ms =>
      M.bind (setNotEmpty p) fun _ =>
      match lookup (.str k) 0 ms with
      | some (n, m) =>
        M.bind (pushParser (.mem n :: p)) fun _ =>
        match embedded m v with
        | some (ty, st, ms', x) =>
          M.bind (select E ty "" st ms' (.mem n :: p) x) fun a =>
          M.bind (evalFields a.2 (.mem a.1 :: .mem n :: p) fs) fun _ =>
          M.bind dropTop fun _ =>
          M.bind (complete E m (.mem n :: p)) fun _ =>
          M.bind dropTop fun _ =>
          complete E sh p
        | none =>
          M.bind (evalVal m (.mem n :: p) v) fun _ =>
          M.bind dropTop fun _ =>
          evalFields sh p fs
      | none =>
        if u then throwStd ("Unexpected member " ++ k)
        else
          M.bind (pushParser (.ign :: p)) fun _ =>
          M.bind (evalVal .ignore (.ign :: p) v) fun _ =>
          M.bind dropTop fun _ =>
          evalFields sh p fs
    | .union ty tm st ms =>
      if tm = "" then throwStd "Union with an empty type member can't parse this"
      else if k ≠ tm then throwStd ("Unexpected member " ++ k)
      else match v with
        | .sc x =>
          if x.ty = ty then
            M.bind (select E ty tm st ms p x) fun a =>
            M.bind (evalFields a.2 (.mem a.1 :: p) fs) fun _ =>
            M.bind dropTop fun _ =>
            complete E sh p
          else unexpected (.scalar x)
        | .arr _ => unexpected .arrStart
        | _ => fun _ => .ub
    | .map st e =>
      M.bind (setNotEmpty p) fun _ =>
      M.bind (pushParser (.elem :: p)) fun _ =>
      M.bind (modC p fun c => { c with curKey := k }) fun _ =>
      match embedded e v with
      | some (ty, st', ms', x) =>
        M.bind (select E ty "" st' ms' (.elem :: p) x) fun a =>
        M.bind (evalFields a.2 (.mem a.1 :: .elem :: p) fs) fun _ =>
        M.bind dropTop fun _ =>
        M.bind (complete E e (.elem :: p)) fun _ =>
        M.bind dropTop fun _ =>
        M.bind (mapChild E st e p) fun _ =>
        complete E sh p
      | none =>
        M.bind (evalVal e (.elem :: p) v) fun _ =>
        M.bind dropTop fun _ =>
        M.bind (mapChild E st e p) fun _ =>
        evalFields sh p fs
    | _ => unexpected (.mapKey k)
/-- An array at `p` with element parser `e` reads its elements. -/
def evalElems (st : Bool) (e : Shape) (p : Path) : List Json → M Unit
  | [] => M.pure ()
  | .null :: l => M.bind (modH (resetH (.elem :: p) e)) fun _ => evalElems st e p l
  | .sc x :: l =>
    M.bind (evalVal e (.elem :: p) (.sc x)) fun _ =>
    M.bind (setNotEmpty p) fun _ =>
    M.bind (arrChild st p) fun _ => evalElems st e p l
  | j :: l =>
    M.bind (setNotEmpty p) fun _ =>
    M.bind (modH (setDispH (.elem :: p) e)) fun _ =>
    M.bind (pushParser (.elem :: p)) fun _ =>
    M.bind (evalVal e (.elem :: p) j) fun _ =>
    M.bind dropTop fun _ =>
    M.bind (arrChild st p) fun _ => evalElems st e p l
end

end SJ
