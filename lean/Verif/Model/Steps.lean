/-
The methods of `Verif/Model/Parsers.lean` that call each other, once more, with a count of the steps (C69): every call of one of them - `Dispatcher::popParser`,
`Dispatcher::on`, `childParsed`, `endParsing`, `on(token)` - is a step, and so is every other operation they perform, which concerns one parser with what is inside of it:
`reset`, `setDispatcher`, `finish` (with the checks of the members and the user's callback), `onMember`, `pushParser`, looking at or changing fields, moving a value.
That the result is the same as without counting is `C69_same`.

All file references are relative to /repo/library/sjparser/.
-/
import Verif.Model.Parsers

namespace SJ
namespace Stp

/-- A computation that also counts its steps. -/
abbrev MS (α : Type) := St → Res α × Nat

/-- One operation, one step. -/
def op {α} (m : M α) : MS α := fun s => (m s, 1)

/-- Nothing is done. -/
def pure {α} (a : α) : MS α := fun s => (.ok a s, 0)

/-- One after the other; the second only if the first returns. -/
def bind {α β} (m : MS α) (f : α → MS β) : MS β := fun s =>
  match m s with
  | (.ok a s', n) => ((f a s').1, n + (f a s').2)
  | (.throw e s', n) => (.throw e s', n)
  | (.ub, n) => (.ub, n)
  | (.fuel, n) => (.fuel, n)

/-- A method call is a step. -/
def call {α} (m : MS α) : MS α := fun s => ((m s).1, (m s).2 + 1)

variable (E : Env) (R : Shape)

mutual
/-- `Dispatcher::popParser` (internals/dispatcher.cpp 38-47) -/
def popParser : Nat → MS Unit
  | 0 => fun _ => (.fuel, 0)
  | n + 1 => call fun s =>
    match s.stack with
    | [] => (.throw (.std "Can not pop parser, parsers stack is empty") s, 0)
    | [_] => (.ok () { s with stack := [] }, 0)
    | _ :: q :: r => childParsed n q { s with stack := q :: r }

/-- The virtual `childParsed()` (internals/token_parser.cpp 91, s_array.h 189-191, map.h 234-238, s_map.h 244-251, union.h 340-348) -/
def childParsed : Nat → Path → MS Unit
  | 0, _ => fun _ => (.fuel, 0)
  | n + 1, p => call <|
    match R.at p with
    | none => fun _ => (.ub, 0)
    | some (.array true _) =>
      bind (op (popVal (.elem :: p))) fun v =>
      op (modC p fun c => { c with val := .arr (c.val.vec ++ [v]) })
    | some (.map false e) => op (elementCb E e p)
    | some (.map true e) =>
      bind (op (elementCb E e p)) fun _ =>
      bind (op (popVal (.elem :: p))) fun v =>
      op (modC p fun c => { c with val := .map (mapInsert c.curKey v c.val.entries) })
    | some (.union ty tm stored ms) =>
      bind (endParsing n (.union ty tm stored ms) p) fun _ =>
      if tm = "" then
        bind (op (getC p)) fun c =>
        if c.disp then dispatchMapEnd n else fun _ => (.ub, 0)
      else pure ()
    | some _ => pure ()

/-- `TokenParser::endParsing` (internals/token_parser.cpp 38-45) -/
def endParsing : Nat → Shape → Path → MS Unit
  | 0, _, _ => fun _ => (.fuel, 0)
  | n + 1, sh, p => call <|
    bind (op (modC p fun c => { c with set := true })) fun _ =>
    bind (op (finish E sh p)) fun _ =>
    bind (op (getC p)) fun c =>
    if c.disp then popParser n else pure ()

/-- `Dispatcher::on(MapEndT)` (internals/dispatcher.h 51-56) followed by the virtual `on(MapEndT)` (internals/token_parser.cpp 79-81, internals/ignore.cpp 66-75,
internals/key_value_parser.h 226-229, map.h 230-232) -/
def dispatchMapEnd : Nat → MS Unit
  | 0 => fun _ => (.fuel, 0)
  | n + 1 => call fun s =>
    match s.stack with
    | [] => (.throw (.std "Parsers stack is empty") s, 0)
    | p :: _ =>
      match R.at p with
      | none => (.ub, 0)
      | some .ignore =>
        match (s.heap p).struct with
        | true :: r =>
          let s' := { s with heap := s.heap.upd p fun c => { c with struct := r } }
          if r = [] then endParsing n .ignore p s' else (.ok () s', 0)
        | _ => op (unexpected .mapEnd) s
      | some (.object k u ms) => endParsing n (.object k u ms) p s
      | some (.union ty tm st ms) => endParsing n (.union ty tm st ms) p s
      | some (.map st e) => endParsing n (.map st e) p s
      | some _ => op (unexpected .mapEnd) s
end

/-- `TokenParser::on(NullT)` (internals/token_parser.cpp 47-53) -/
def onNullBase (f : Nat) (sh : Shape) (p : Path) : MS Unit :=
  bind (op (modH (resetH p sh))) fun _ =>
  bind (op (getC p)) fun c =>
  if c.disp then popParser E R f else pure ()

/-- The virtual `on(token)` of the parser `sh` at `p` (internals/token_parser.cpp 47-89, value.cpp 60-64, internals/ignore.cpp 34-90, internals/key_value_parser.h 221-229,
object.h 254-256, union.h 311-338, internals/array_parser.cpp 35-105, map.h 220-232) -/
def on (f : Nat) : Shape → Path → Token → MS Unit
  | .value ty, p, t =>
    call <| match t with
    | .null => onNullBase E R f (.value ty) p
    | .scalar v =>
      if v.ty = ty then
        bind (op (setNotEmpty p)) fun _ =>
        bind (op (modC p fun c => { c with val := .sc v })) fun _ =>
        endParsing E R f (.value ty) p
      else op (unexpected t)
    | _ => op (unexpected t)
  | .ignore, p, t =>
    call <| match t with
    | .null => onNullBase E R f .ignore p
    | .scalar _ =>
      bind (op (getC p)) fun c =>
      if c.struct = [] then endParsing E R f .ignore p else pure ()
    | .mapStart => op (modC p fun c => { c with struct := true :: c.struct })
    | .arrStart => op (modC p fun c => { c with struct := false :: c.struct })
    | .mapKey _ =>
      bind (op (getC p)) fun c =>
      match c.struct with
      | true :: _ => pure ()
      | _ => op (unexpected t)
    | .mapEnd =>
      bind (op (getC p)) fun c =>
      match c.struct with
      | true :: r =>
        bind (op (modC p fun c => { c with struct := r })) fun _ =>
        if r = [] then endParsing E R f .ignore p else pure ()
      | _ => op (unexpected t)
    | .arrEnd =>
      bind (op (getC p)) fun c =>
      match c.struct with
      | false :: r =>
        bind (op (modC p fun c => { c with struct := r })) fun _ =>
        if r = [] then endParsing E R f .ignore p else pure ()
      | _ => op (unexpected t)
  | .object k u ms, p, t =>
    call <| match t with
    | .null => onNullBase E R f (.object k u ms) p
    | .mapStart => op (modH (resetH p (.object k u ms)))
    | .mapKey key => bind (op (onMember E u ms p (.str key))) fun _ => pure ()
    | .mapEnd => endParsing E R f (.object k u ms) p
    | _ => op (unexpected t)
  | .union ty tm st ms, p, t =>
    call <| match t with
    | .null => onNullBase E R f (.union ty tm st ms) p
    | .scalar v =>
      if v.ty = ty then
        bind (op (modH (resetH p (.union ty tm st ms)))) fun _ =>
        bind (op (onMember E true ms p v)) fun r =>
        match r with
        | some n => op (modC p fun c => { c with curId := n })
        | none => pure ()
      else op (unexpected t)
    | .mapStart =>
      if tm = "" then op (throwStd "Union with an empty type member can't parse this")
      else op (modH (resetH p (.union ty tm st ms)))
    | .mapKey key =>
      if tm = "" then op (throwStd "Union with an empty type member can't parse this")
      else if key ≠ tm then op (throwStd ("Unexpected member " ++ key))
      else pure ()
    | .mapEnd => endParsing E R f (.union ty tm st ms) p
    | _ => op (unexpected t)
  | .array st e, p, t =>
    call <| match t with
    | .null =>
      bind (op (getC p)) fun c =>
      if !c.started then onNullBase E R f (.array st e) p else on f e (.elem :: p) .null
    | .scalar v =>
      bind (op (getC p)) fun c =>
      if !c.started then op (unexpected t)
      else
        bind (on f e (.elem :: p) (.scalar v)) fun _ =>
        bind (op (setNotEmpty p)) fun _ =>
        childParsed E R f p
    | .mapStart =>
      bind (op (getC p)) fun c =>
      if !c.started then op (unexpected t)
      else if !c.disp then fun _ => (.ub, 0)
      else
        bind (op (setNotEmpty p)) fun _ =>
        bind (op (modH (setDispH (.elem :: p) e))) fun _ =>
        bind (op (pushParser (.elem :: p))) fun _ =>
        on f e (.elem :: p) .mapStart
    | .arrStart =>
      bind (op (getC p)) fun c =>
      if !c.started then
        bind (op (modH (resetH p (.array st e)))) fun _ =>
        op (modC p fun c => { c with started := true })
      else if !c.disp then fun _ => (.ub, 0)
      else
        bind (op (setNotEmpty p)) fun _ =>
        bind (op (modH (setDispH (.elem :: p) e))) fun _ =>
        bind (op (pushParser (.elem :: p))) fun _ =>
        on f e (.elem :: p) .arrStart
    | .arrEnd =>
      bind (op (modC p fun c => { c with started := false })) fun _ =>
      endParsing E R f (.array st e) p
    | _ => op (unexpected t)
  | .map st e, p, t =>
    call <| match t with
    | .null => onNullBase E R f (.map st e) p
    | .mapStart => op (modH (resetH p (.map st e)))
    | .mapKey key =>
      bind (op (setNotEmpty p)) fun _ =>
      bind (op (getC p)) fun c =>
      if c.disp then
        bind (op (pushParser (.elem :: p))) fun _ =>
        op (modC p fun c => { c with curKey := key })
      else fun _ => (.ub, 0)
    | .mapEnd => endParsing E R f (.map st e) p
    | _ => op (unexpected t)

/-- `Dispatcher::on` (internals/dispatcher.h 51-56) -/
def dispatch (t : Token) : MS Unit := call fun s =>
  match s.stack with
  | [] => (.throw (.std "Parsers stack is empty") s, 0)
  | p :: _ =>
    match R.at p with
    | none => (.ub, 0)
    | some sh => on E R (fuelFor s.stack.length) sh p t s

/-- A sequence of tokens; stops at the first exception. -/
def run : List Token → MS Unit
  | [] => pure ()
  | t :: ts => bind (dispatch E R t) fun _ => run ts

end Stp
end SJ
