/-
The parser classes and the Dispatcher, method by method.

All file references are relative to /repo/library/sjparser/.
-/
import Verif.Model.Basic

namespace SJ

/-! ## Methods that only touch the heap and cannot throw -/

/-- `TokenParser::reset` (internals/token_parser.cpp 33-36) -/
def Cell.baseReset (c : Cell) : Cell := { c with set := false, empty := true }

mutual
/-- The virtual `reset()`:
* `TokenParser::reset` for `Value` (internals/token_parser.cpp 33-36; no override in value.h)
* `Ignore::reset` (internals/ignore.cpp 28-32)
* `KeyValueParser::reset` (internals/key_value_parser.h 210-219), extended by `SAutoObject::reset`
  (s_auto_object.h 269-272) and `SCustomObject::reset` (s_custom_object.h 316-320): `_value = {}`
* `Union::reset` (union.h 305-309), `SUnion::reset` (s_union.h 295-299)
* `ArrayParser::reset` (internals/array_parser.cpp 29-33; does not touch `_started`),
  `SArray::reset` (s_array.h 199-202)
* `Map` has no override (so the element parser is not reset); `SMap::reset` (s_map.h 259-262).
Simplification: members are reset in index order, not in the hash order of `_parsers_map`; the
members' subtrees are disjoint, so the order is irrelevant (proved: C59). -/
def resetH (p : Path) : Shape → Heap → Heap
  | .value _, h => h.upd p Cell.baseReset
  | .ignore, h => h.upd p fun c => { c.baseReset with struct := [] }
  | .object k _ ms, h =>
    let h := resetMs p 0 ms (h.upd p Cell.baseReset)
    let h := h.upd (.ign :: p) fun c => { c.baseReset with struct := [] }
    match k with
    | .plain => h
    | _ => h.upd p fun c => { c with val := .init }
  | .union _ _ stored ms, h =>
    let h := h.upd p fun c => { c with curId := 0 }
    let h := resetMs p 0 ms (h.upd p Cell.baseReset)
    let h := h.upd (.ign :: p) fun c => { c.baseReset with struct := [] }
    if stored then h.upd p fun c => { c with val := .init } else h
  | .array stored e, h =>
    let h := resetH (.elem :: p) e (h.upd p Cell.baseReset)
    if stored then h.upd p fun c => { c with val := .arr [] } else h
  | .map stored _, h =>
    let h := h.upd p Cell.baseReset
    if stored then h.upd p fun c => { c with val := .map [] } else h
/-- The loop over the members in `KeyValueParser::reset` (internals/key_value_parser.h 214-216). -/
def resetMs (p : Path) (n : Nat) : List (MInfo × Shape) → Heap → Heap
  | [], h => h
  | (_, sh) :: ms, h => resetMs p (n + 1) ms (resetH (.mem n :: p) sh h)
end

mutual
/-- The virtual `setDispatcher(d)` with `d != nullptr`: `TokenParser::setDispatcher`
(internals/token_parser.cpp 29-31; also used by arrays, which do not pass it on),
`KeyValueParser::setDispatcher` (internals/key_value_parser.h 199-208), `Map::setDispatcher`
(map.h 210-214). Order of members as in `resetH`. -/
def setDispH (p : Path) : Shape → Heap → Heap
  | .object _ _ ms, h =>
    (setDispMs p 0 ms (h.upd p fun c => { c with disp := true })).upd (.ign :: p)
      fun c => { c with disp := true }
  | .union _ _ _ ms, h =>
    (setDispMs p 0 ms (h.upd p fun c => { c with disp := true })).upd (.ign :: p)
      fun c => { c with disp := true }
  | .map _ e, h => setDispH (.elem :: p) e (h.upd p fun c => { c with disp := true })
  | .value _, h => h.upd p fun c => { c with disp := true }
  | .ignore, h => h.upd p fun c => { c with disp := true }
  | .array _ _, h => h.upd p fun c => { c with disp := true }
/-- The loop of `KeyValueParser::setDispatcher` (internals/key_value_parser.h 203-205). -/
def setDispMs (p : Path) (n : Nat) : List (MInfo × Shape) → Heap → Heap
  | [], h => h
  | (_, sh) :: ms, h => setDispMs p (n + 1) ms (setDispH (.mem n :: p) sh h)
end

mutual
/-- What the public interface shows of the parser at `p` and of the parsers below it: `isSet`, `isEmpty`
(internals/token_parser.h 99-105), `get()` of a set storage parser, `currentMemberId()` of a set
union (union.h 299-303), `parser<n>()` (internals/key_value_parser.h 268-274), `parser()`
(array.h 148-151, map.h 205-208). -/
def snap (h : Heap) (p : Path) : Shape → Snap
  | .value _ => .node (h p).set (h p).empty (if (h p).set then some (h p).val else none) none []
  | .ignore => .node (h p).set (h p).empty none none []
  | .object k _ ms =>
    .node (h p).set (h p).empty (if k != .plain && (h p).set then some (h p).val else none) none
      (snapMs h p 0 ms)
  | .union _ _ stored ms =>
    .node (h p).set (h p).empty (if stored && (h p).set then some (h p).val else none)
      (if (h p).set then some (h p).curId else none) (snapMs h p 0 ms)
  | .array stored e =>
    .node (h p).set (h p).empty (if stored && (h p).set then some (h p).val else none) none
      [snap h (.elem :: p) e]
  | .map stored e =>
    .node (h p).set (h p).empty (if stored && (h p).set then some (h p).val else none) none
      [snap h (.elem :: p) e]
/-- The member parsers of `snap`. -/
def snapMs (h : Heap) (p : Path) (n : Nat) : List (MInfo × Shape) → List Snap
  | [] => []
  | (_, sh) :: ms => snap h (.mem n :: p) sh :: snapMs h p (n + 1) ms
end

/-! ## Helpers -/

/-- `unset()` (internals/token_parser.h 113-115) -/
def unset (p : Path) : M Unit := modC p fun c => { c with set := false }

/-- `setNotEmpty()` (internals/token_parser.h 121-123) -/
def setNotEmpty (p : Path) : M Unit := modC p fun c => { c with empty := false }

/-- `pop()` of every storage parser: `checkSet(); unset(); return std::move(_value);`
(value.cpp 77-81, s_array.h 182-187, s_map.h 237-242, s_auto_object.h 241-246,
s_custom_object.h 289-295, s_union.h 265-271; `checkSet` internals/token_parser.h 107-111) -/
def popVal (p : Path) : M Val := fun s =>
  if (s.heap p).set then
    .ok (s.heap p).val { s with heap := s.heap.upd p fun c => { c with set := false, val := .moved } }
  else .throw (.std "Can't get value, parser is unset") s

/-- The pops a callback performs on the parsers reachable from its argument. A pop of an unset parser
throws in C++; here it has no effect, the callback (which can see that it is unset) may
then throw itself. -/
def cbPops (sh : Shape) (p : Path) : List Path → Heap → Heap
  | [], h => h
  | rel :: ps, h =>
    match sh.at rel with
    | some sh' =>
      if sh'.isStorage && (h (rel ++ p)).set then
        cbPops sh p ps (h.upd (rel ++ p) fun c => { c with set := false, val := .moved })
      else cbPops sh p ps h
    | none => cbPops sh p ps h

/-- A returning or throwing callback, `what` being the error of the calling method. -/
def verdict (v : Verdict) (what : String) : M Unit :=
  match v with
  | .accept => M.pure ()
  | .reject => throwStd what
  | .throws e => fun s => .throw e s

variable (E : Env) (R : Shape)

/-- `if (_on_finish && !_on_finish(arg)) throw std::runtime_error("Callback returned false");`
for callbacks that get the stored value (value.cpp 67-69, s_array.h 194-196, s_auto_object.h 264-266,
s_union.h 290-292). -/
def finishCbVal (p : Path) : M Unit := fun s =>
  match E.onFinish p with
  | none => .ok () s
  | some cb =>
    let arg := Arg.val (s.heap p).val
    verdict (cb s.log arg).verdict "Callback returned false" { s with log := .finish p arg :: s.log }

/-- The same for callbacks that get a reference to the parser (object.h 271-273, union.h 364-366,
array.h 154-156, map.h 241-243, s_map.h 254-256) and, for `SCustomObject`, also a mutable reference to the
stored value (s_custom_object.h 311-313). -/
def finishCbParser (sh : Shape) (custom : Bool) (p : Path) : M Unit := fun s =>
  match E.onFinish p with
  | none => .ok () s
  | some cb =>
    let arg := Arg.parser (snap s.heap p sh)
    let out := cb s.log arg
    let h := cbPops sh p out.pops s.heap
    let h := match custom, out.newVal with
      | true, some v => h.upd p fun c => { c with val := v }
      | _, _ => h
    verdict out.verdict "Callback returned false" { s with heap := h, log := .finish p arg :: s.log }

/-- `if (_on_element && !_on_element(_current_key, _parser)) throw ...` of `Map::childParsed`
(map.h 235-237) and `SMap::childParsed` (s_map.h 245-248). -/
def elementCb (e : Shape) (p : Path) : M Unit := fun s =>
  match E.onElement p with
  | none => .ok () s
  | some cb =>
    let arg := snap s.heap (.elem :: p) e
    let out := cb s.log (s.heap p).curKey arg
    verdict out.verdict "Element callback returned false"
      { s with
        heap := cbPops e (.elem :: p) out.pops s.heap
        log := .element p (s.heap p).curKey arg :: s.log }

/-- How a name is printed by `operator<<` into a `std::stringstream`
(internals/key_value_parser.h 242-244, 326-328); `bool` is printed as 1 or 0. -/
def nameText (fmt : Dbl → String) : Scalar → String
  | .bool b => if b then "1" else "0"
  | .int i => toString i
  | .dbl d => fmt d
  | .str s => s

/-- `Object::MemberChecker` (object.h 276-287; s_custom_object.h 305): members are checked from the
last to the first (base classes are constructed first). Returns the error text. -/
def checkMembers (h : Heap) (p : Path) (n : Nat) : List (MInfo × Shape) → Option String
  | [] => none
  | (i, _) :: ms =>
    match checkMembers h p (n + 1) ms with
    | some e => some e
    | none =>
      if !(h (.mem n :: p)).set && !i.optional then
        some ("Mandatory member " ++ nameText (fun _ => "") i.name ++ " is not present")
      else none

/-- `SAutoObject::ValueSetter` (s_auto_object.h 274-293), last member first. Simplification: the tuple
is returned as a whole instead of being assigned slot by slot; if an exception interrupts the
assignment the parser is unset (s_auto_object.h 257), so a partially assigned tuple is not
observable. -/
def setValues (p : Path) (n : Nat) : List (MInfo × Shape) → M (List Val)
  | [] => M.pure []
  | (i, _) :: ms =>
    M.bind (setValues p (n + 1) ms) fun vs =>
    M.bind (getC (.mem n :: p)) fun c =>
    if c.set then M.bind (popVal (.mem n :: p)) fun v => M.pure (v :: vs)
    else if i.optional then
      match i.dflt with
      | none => throwStd ("Optional member " ++ nameText (fun _ => "") i.name
                            ++ " does not have a default value")
      | some d => M.pure (d :: vs)
    else throwStd ("Mandatory member " ++ nameText (fun _ => "") i.name ++ " is not present")

/-- `currentMemberId()` (union.h 299-303) -/
def currentMemberId (p : Path) : M Nat := fun s =>
  if (s.heap p).set then .ok (s.heap p).curId s
  else .throw (.std "Can't get value, parser is unset") s

/-- `Union::MemberChecker` (union.h 369-385), last member first. -/
def checkAlt (p : Path) (n : Nat) : List (MInfo × Shape) → M Unit
  | [] => M.pure ()
  | (i, _) :: ms =>
    M.bind (checkAlt p (n + 1) ms) fun _ =>
    M.bind (currentMemberId p) fun id =>
    if id ≠ n then M.pure ()
    else M.bind (getC (.mem n :: p)) fun c =>
      if !c.set && !i.optional then
        throwStd ("Mandatory member #" ++ toString n ++ " is not present")
      else M.pure ()

/-- `SUnion::ValueSetter` (s_union.h 301-326), last member first; the result is what is assigned to
`_value`, if anything. -/
def setAlt (p : Path) (n : Nat) : List (MInfo × Shape) → M (Option Val)
  | [] => M.pure none
  | (i, _) :: ms =>
    M.bind (setAlt p (n + 1) ms) fun r =>
    M.bind (currentMemberId p) fun id =>
    if id ≠ n then M.pure r
    else M.bind (getC (.mem n :: p)) fun c =>
      if c.set then M.bind (popVal (.mem n :: p)) fun v => M.pure (some (.alt n v))
      else if i.optional then
        match i.dflt with
        | none => throwStd ("Optional member #" ++ toString n ++ " does not have a default value")
        | some d => M.pure (some (.alt n d))
      else throwStd ("Mandatory member #" ++ toString n ++ " is not present")

/-- `try { m } catch (std::exception &e) { unset(); throw; }` (object.h 264-269, union.h 357-362,
s_custom_object.h 304-309). -/
def unsetOnThrow {α} (p : Path) (m : M α) : M α := fun s =>
  match m s with
  | .throw e s' => .throw e { s' with heap := s'.heap.upd p fun c => { c with set := false } }
  | r => r

/-- `try { m } catch (std::exception &e) { unset(); throw runtime_error("Can not set value: " + e.what()); }
catch (...) { unset(); throw runtime_error("Can not set value: unknown exception"); }`
(s_auto_object.h 254-262, s_union.h 280-288). -/
def wrapOnThrow {α} (p : Path) (m : M α) : M α := fun s =>
  match m s with
  | .throw e s' =>
    .throw (.std (match e with
      | .std msg => "Can not set value: " ++ cText msg
      | .other => "Can not set value: unknown exception"))
      { s' with heap := s'.heap.upd p fun c => { c with set := false } }
  | r => r

/-- `if (isEmpty()) { unset(); return; } rest` (object.h 259-262, union.h 352-355,
s_auto_object.h 249-252, s_custom_object.h 299-302, s_union.h 275-278). -/
def unlessEmpty (p : Path) (m : M Unit) : M Unit :=
  M.bind (getC p) fun c => if c.empty then unset p else m

/-- The virtual `finish()`: value.cpp 66-70, internals/ignore.cpp 92, object.h 258-274,
s_auto_object.h 248-267, s_custom_object.h 297-314, union.h 350-367, s_union.h 273-293,
array.h 153-157, s_array.h 193-197, map.h 240-244, s_map.h 253-257. -/
def finish (sh : Shape) (p : Path) : M Unit :=
  match sh with
  | .value _ => finishCbVal E p
  | .ignore => M.pure ()
  | .object .auto _ ms =>
    unlessEmpty p <|
      M.bind (wrapOnThrow p (setValues p 0 ms)) fun vs =>
      M.bind (modC p fun c => { c with val := .tup vs }) fun _ =>
      finishCbVal E p
  | .object k _ ms =>
    unlessEmpty p <|
      M.bind (unsetOnThrow p fun s =>
        match checkMembers s.heap p 0 ms with
        | some e => .throw (.std e) s
        | none => .ok () s) fun _ =>
      finishCbParser E sh (k == .custom) p
  | .union _ _ false ms =>
    unlessEmpty p <|
      M.bind (unsetOnThrow p (checkAlt p 0 ms)) fun _ =>
      finishCbParser E sh false p
  | .union _ _ true ms =>
    unlessEmpty p <|
      M.bind (wrapOnThrow p (setAlt p 0 ms)) fun r =>
      M.bind (match r with
        | some v => modC p fun c => { c with val := v }
        | none => M.pure ()) fun _ =>
      finishCbVal E p
  | .array true _ => finishCbVal E p
  | .array false _ => finishCbParser E sh false p
  | .map _ _ => finishCbParser E sh false p

/-! ## Methods that work on the dispatcher's stack

`popParser` calls the parent's `childParsed`, which for a union calls `endParsing`, which calls
`popParser`; an embedded union then sends an "end of object" token through the dispatcher. The
first argument bounds the depth of this recursion; `Verif/Proofs/Fuel.lean` proves that the bound used
by `dispatch` is never reached. -/

/-- `Dispatcher::pushParser` (internals/dispatcher.cpp 34-36) -/
def pushParser (p : Path) : M Unit := fun s => .ok () { s with stack := p :: s.stack }

mutual
/-- `Dispatcher::popParser` (internals/dispatcher.cpp 38-47) -/
def popParser : Nat → M Unit
  | 0 => fun _ => .fuel
  | n + 1 => fun s =>
    match s.stack with
    | [] => .throw (.std "Can not pop parser, parsers stack is empty") s
    | [_] => .ok () { s with stack := [] }
    | _ :: q :: r => childParsed n q { s with stack := q :: r }

/-- The virtual `childParsed()`: no-op (internals/token_parser.cpp 91) for values, objects, plain
arrays and `Ignore`; `SArray::childParsed` (s_array.h 189-191); `Map::childParsed` (map.h 234-238);
`SMap::childParsed` (s_map.h 244-251); `Union::childParsed` (union.h 340-348, inherited by `SUnion`).
The shape is looked up by the address; an address outside the tree would be a dangling pointer. -/
def childParsed : Nat → Path → M Unit
  | 0, _ => fun _ => .fuel
  | n + 1, p =>
    match R.at p with
    | none => fun _ => .ub
    | some (.array true _) =>
      M.bind (popVal (.elem :: p)) fun v =>
      modC p fun c => { c with val := .arr (c.val.vec ++ [v]) }
    | some (.map false e) => elementCb E e p
    | some (.map true e) =>
      M.bind (elementCb E e p) fun _ =>
      M.bind (popVal (.elem :: p)) fun v =>
      modC p fun c => { c with val := .map (mapInsert c.curKey v c.val.entries) }
    | some (.union ty tm stored ms) =>
      M.bind (endParsing n (.union ty tm stored ms) p) fun _ =>
      if tm = "" then
        M.bind (getC p) fun c =>
        if c.disp then dispatchMapEnd n else fun _ => .ub
      else M.pure ()
    | some _ => M.pure ()

/-- `TokenParser::endParsing` (internals/token_parser.cpp 38-45) -/
def endParsing : Nat → Shape → Path → M Unit
  | 0, _, _ => fun _ => .fuel
  | n + 1, sh, p =>
    M.bind (modC p fun c => { c with set := true }) fun _ =>
    M.bind (finish E sh p) fun _ =>
    M.bind (getC p) fun c =>
    if c.disp then popParser n else M.pure ()

/-- `Dispatcher::on(MapEndT)` (internals/dispatcher.h 51-56) followed by the virtual `on(MapEndT)`:
`TokenParser` (internals/token_parser.cpp 79-81), `Ignore` (internals/ignore.cpp 66-75),
`KeyValueParser` (internals/key_value_parser.h 226-229), `Map` (map.h 230-232). -/
def dispatchMapEnd : Nat → M Unit
  | 0 => fun _ => .fuel
  | n + 1 => fun s =>
    match s.stack with
    | [] => .throw (.std "Parsers stack is empty") s
    | p :: _ =>
      match R.at p with
      | none => .ub
      | some .ignore =>
        match (s.heap p).struct with
        | true :: r =>
          let s' := { s with heap := s.heap.upd p fun c => { c with struct := r } }
          if r = [] then endParsing n .ignore p s' else .ok () s'
        | _ => unexpected .mapEnd s
      | some (.object k u ms) => endParsing n (.object k u ms) p s
      | some (.union ty tm st ms) => endParsing n (.union ty tm st ms) p s
      | some (.map st e) => endParsing n (.map st e) p s
      | some _ => unexpected .mapEnd s
end

/-- `TokenParser::on(NullT)` (internals/token_parser.cpp 47-53) -/
def onNullBase (f : Nat) (sh : Shape) (p : Path) : M Unit :=
  M.bind (modH (resetH p sh)) fun _ =>
  M.bind (getC p) fun c =>
  if c.disp then popParser E R f else M.pure ()

/-- `KeyValueParser::onMember` (internals/key_value_parser.h 231-248). Returns the index of the member
found. `dispatcher()->pushParser` with a null dispatcher is undefined behaviour. -/
def onMember (unknownErr : Bool) (ms : List (MInfo × Shape)) (p : Path) (name : Scalar) :
    M (Option Nat) :=
  M.bind (setNotEmpty p) fun _ =>
  M.bind (getC p) fun c =>
  match lookup name 0 ms with
  | some (n, _) =>
    if c.disp then M.bind (pushParser (.mem n :: p)) fun _ => M.pure (some n) else fun _ => .ub
  | none =>
    if unknownErr then throwStd ("Unexpected member " ++ nameText E.fmtDbl name)
    else if c.disp then M.bind (pushParser (.ign :: p)) fun _ => M.pure none else fun _ => .ub

/-- The virtual `on(token)` of the parser `sh` at `p`:
* defaults of `TokenParser` (internals/token_parser.cpp 47-89)
* `Value::on` (value.cpp 60-64)
* `Ignore::on` (internals/ignore.cpp 34-90)
* `KeyValueParser::on` (internals/key_value_parser.h 221-229), `Object::on(MapKeyT)` (object.h 254-256)
* `Union::on` (union.h 311-338); unions always use the default options, i.e. Reaction::Error
  (union.h 255)
* `ArrayParser::on` (internals/array_parser.cpp 35-105)
* `Map::on` (map.h 220-232).
`f` bounds the recursion in `popParser`. -/
def on (f : Nat) : Shape → Path → Token → M Unit
  | .value ty, p, t =>
    match t with
    | .null => onNullBase E R f (.value ty) p
    | .scalar v =>
      if v.ty = ty then
        M.bind (setNotEmpty p) fun _ =>
        M.bind (modC p fun c => { c with val := .sc v }) fun _ =>
        endParsing E R f (.value ty) p
      else unexpected t
    | _ => unexpected t
  | .ignore, p, t =>
    match t with
    | .null => onNullBase E R f .ignore p
    | .scalar _ =>
      M.bind (getC p) fun c =>
      if c.struct = [] then endParsing E R f .ignore p else M.pure ()
    | .mapStart => modC p fun c => { c with struct := true :: c.struct }
    | .arrStart => modC p fun c => { c with struct := false :: c.struct }
    | .mapKey _ =>
      M.bind (getC p) fun c =>
      match c.struct with
      | true :: _ => M.pure ()
      | _ => unexpected t
    | .mapEnd =>
      M.bind (getC p) fun c =>
      match c.struct with
      | true :: r =>
        M.bind (modC p fun c => { c with struct := r }) fun _ =>
        if r = [] then endParsing E R f .ignore p else M.pure ()
      | _ => unexpected t
    | .arrEnd =>
      M.bind (getC p) fun c =>
      match c.struct with
      | false :: r =>
        M.bind (modC p fun c => { c with struct := r }) fun _ =>
        if r = [] then endParsing E R f .ignore p else M.pure ()
      | _ => unexpected t
  | .object k u ms, p, t =>
    match t with
    | .null => onNullBase E R f (.object k u ms) p
    | .mapStart => modH (resetH p (.object k u ms))
    | .mapKey key => M.bind (onMember E u ms p (.str key)) fun _ => M.pure ()
    | .mapEnd => endParsing E R f (.object k u ms) p
    | _ => unexpected t
  | .union ty tm st ms, p, t =>
    match t with
    | .null => onNullBase E R f (.union ty tm st ms) p
    | .scalar v =>
      if v.ty = ty then
        M.bind (modH (resetH p (.union ty tm st ms))) fun _ =>
        M.bind (onMember E true ms p v) fun r =>
        match r with
        | some n => modC p fun c => { c with curId := n }
        | none => M.pure ()
      else unexpected t
    | .mapStart =>
      if tm = "" then throwStd "Union with an empty type member can't parse this"
      else modH (resetH p (.union ty tm st ms))
    | .mapKey key =>
      if tm = "" then throwStd "Union with an empty type member can't parse this"
      else if key ≠ tm then throwStd ("Unexpected member " ++ key)
      else M.pure ()
    | .mapEnd => endParsing E R f (.union ty tm st ms) p
    | _ => unexpected t
  | .array st e, p, t =>
    match t with
    | .null =>
      M.bind (getC p) fun c =>
      if !c.started then onNullBase E R f (.array st e) p else on f e (.elem :: p) .null
    | .scalar v =>
      M.bind (getC p) fun c =>
      if !c.started then unexpected t
      else
        M.bind (on f e (.elem :: p) (.scalar v)) fun _ =>
        M.bind (setNotEmpty p) fun _ =>
        childParsed E R f p
    | .mapStart =>
      M.bind (getC p) fun c =>
      if !c.started then unexpected t
      else if !c.disp then fun _ => .ub
      else
        M.bind (setNotEmpty p) fun _ =>
        M.bind (modH (setDispH (.elem :: p) e)) fun _ =>
        M.bind (pushParser (.elem :: p)) fun _ =>
        on f e (.elem :: p) .mapStart
    | .arrStart =>
      M.bind (getC p) fun c =>
      if !c.started then
        M.bind (modH (resetH p (.array st e))) fun _ =>
        modC p fun c => { c with started := true }
      else if !c.disp then fun _ => .ub
      else
        M.bind (setNotEmpty p) fun _ =>
        M.bind (modH (setDispH (.elem :: p) e)) fun _ =>
        M.bind (pushParser (.elem :: p)) fun _ =>
        on f e (.elem :: p) .arrStart
    | .arrEnd =>
      M.bind (modC p fun c => { c with started := false }) fun _ =>
      endParsing E R f (.array st e) p
    | _ => unexpected t
  | .map st e, p, t =>
    match t with
    | .null => onNullBase E R f (.map st e) p
    | .mapStart => modH (resetH p (.map st e))
    | .mapKey key =>
      M.bind (setNotEmpty p) fun _ =>
      M.bind (getC p) fun c =>
      if c.disp then
        M.bind (pushParser (.elem :: p)) fun _ =>
        modC p fun c => { c with curKey := key }
      else fun _ => .ub
    | .mapEnd => endParsing E R f (.map st e) p
    | _ => unexpected t

/-- Recursion bound used for a stack of `len` parsers. -/
def fuelFor (len : Nat) : Nat := 4 * len + 4

/-- `Dispatcher::on` (internals/dispatcher.h 51-56) -/
def dispatch (t : Token) : M Unit := fun s =>
  match s.stack with
  | [] => .throw (.std "Parsers stack is empty") s
  | p :: _ =>
    match R.at p with
    | none => .ub
    | some sh => on E R (fuelFor s.stack.length) sh p t s

/-- A sequence of tokens; stops at the first exception. -/
def run : List Token → M Unit
  | [] => M.pure ()
  | t :: ts => M.bind (dispatch E R t) fun _ => run ts

/-- The constructor `Dispatcher::Dispatcher` (internals/dispatcher.cpp 29-32) on parser objects with heap
`h`. -/
def attach (h : Heap) : Heap := setDispH [] R h

/-- A freshly constructed parser tree with a dispatcher (parser.h 72-80). -/
def St.init : St := { heap := attach R Heap.fresh, stack := [[]], log := [] }

/-- `Dispatcher::reset` (internals/dispatcher.cpp 53-56): the parsers themselves are left as they are. -/
def St.restart (s : St) : St := { s with stack := [[]] }

end SJ
