/-
What may fail in the middle of a token, apart from what the library refuses itself. The methods of `Verif/Model/Parsers.lean` once more, with every place where
* the library allocates memory: there `std::bad_alloc` may be thrown (`Faults.memory`),
* an operation of a user's type is called - the type of an `SCustomObject`, the types of default values: there anything may be thrown (`Faults.user`).
The number `n` says how many more of these operations succeed. The first that fails is followed by the end of the token.

The places where memory is allocated are:
* `std::deque::push_back` in `Dispatcher::pushParser` (internals/dispatcher.cpp 35),
* the assignment of a `std::string` in `Value<std::string>::on` (value.cpp 62) and in `Map::on(MapKeyT)` (map.h 227),
* `push_back` on the structure of `Ignore` (internals/ignore.cpp 55, 78),
* `push_back` in `SArray::childParsed` (s_array.h 190), `insert` in `SMap::childParsed` (s_map.h 249-250),
* copying a default value in `SAutoObject` (s_auto_object.h 288) and `SUnion` (s_union.h 319),
* making any exception (`std::runtime_error` allocates its text).

The places where operations of a user's type are called are:
* moving the value out of a member parser in `SAutoObject::ValueSetter` (s_auto_object.h 281) and `SUnion::ValueSetter` (s_union.h 312), or copying the default value instead
  (s_auto_object.h 288, s_union.h 319),
* moving it out of the element parser in `SArray::childParsed` (s_array.h 190) and `SMap::childParsed` (s_map.h 249-250),
* `_value = {}` in the `reset()` of the storage parsers (s_auto_object.h 271, s_custom_object.h 319, s_union.h 298).
`pop()` only returns a reference, after the parser was unset (s_custom_object.h 289-295).

All of them leave the container that should have grown as it was (`std::vector` guarantees this, unless its elements can neither be copied nor be moved without an exception).
Not included: what the user's callbacks do (a callback may throw anything anyway, see `Verdict`),
what YAJL allocates (`Verif/Model/Alloc.lean` has `yajl_alloc`), the assignment to `_sjparser_error` (yajl_parser.h 150, 153; the method is `noexcept`, so a failure there
ends the program), the making of `ParsingError`, and destructors (which must not throw).

All file references are relative to /repo/library/sjparser/.
-/
import Verif.Model.Yajl

namespace SJ

/-- What may fail. `memory`: allocations. `user x U`: an operation of a user's type, which throws `x`; if it fails in the middle of a `reset()`, `U` says what was done until then
to each parser: nothing, everything but `_value = {}`, or everything. (The order depends on the hashes of the names, internals/key_value_parser.h 214-216; any `U` is allowed here.) -/
inductive Faults where
  | memory
  | user (x : Exn) (U : Path → Option Bool)

/-- As `Res`, with the number of operations that still succeed; `fault`: an exception whose cause is that one of them failed. -/
inductive ResA (α : Type) where
  | ok (a : α) (n : Nat) (s : St)
  | throw (e : Exn) (n : Nat) (s : St)
  | fault (e : Exn) (s : St)
  | ub
  | fuel

abbrev MA (α : Type) := Nat → St → ResA α

namespace MA

def pure {α} (a : α) : MA α := fun n s => .ok a n s

def bind {α β} (m : MA α) (f : α → MA β) : MA β := fun n s =>
  match m n s with
  | .ok a n' s' => f a n' s'
  | .throw e n' s' => .throw e n' s'
  | .fault e s' => .fault e s'
  | .ub => .ub
  | .fuel => .fuel

/-- `std::bad_alloc` with its `what()`. -/
def badAlloc : Exn := .std "std::bad_alloc"

/-- An operation that may throw `x`. -/
def may (x : Exn) : MA Unit := fun n s =>
  match n with
  | 0 => .fault x s
  | n + 1 => .ok () n s

variable (F : Faults)

/-- An allocation. -/
def alloc : MA Unit :=
  match F with
  | .memory => may badAlloc
  | .user _ _ => pure ()

/-- An operation of a user's type that allocates no memory of the library. -/
def move : MA Unit :=
  match F with
  | .memory => pure ()
  | .user x _ => may x

/-- An operation that does both: copying a user's value, growing a container of such values. -/
def store : MA Unit :=
  match F with
  | .memory => may badAlloc
  | .user x _ => may x

/-- A method without such operations; it needs memory if it throws. -/
def lift {α} (m : M α) : MA α := fun n s =>
  match m s with
  | .ok a s' => .ok a n s'
  | .throw e s' =>
    match F with
    | .memory =>
      match n with
      | 0 => .fault badAlloc s'
      | n + 1 => .throw e n s'
    | .user _ _ => .throw e n s'
  | .ub => .ub
  | .fuel => .fuel

/-- The heap after a `reset()` that was interrupted. -/
def resetPart (U : Path → Option Bool) (old new : Heap) : Heap := fun q =>
  match U q with
  | none => old q
  | some false => { new q with val := (old q).val }
  | some true => new q

/-- The virtual `reset()`, as `SJ.resetH`. Simplification: one operation, of which it is not known how much of it was done if it fails. -/
def reset (p : Path) (sh : Shape) : MA Unit :=
  match F with
  | .memory => lift F (modH (resetH p sh))
  | .user x U => fun n s =>
    match n with
    | 0 => .fault x { s with heap := resetPart U s.heap (resetH p sh s.heap) }
    | n + 1 => .ok () n { s with heap := resetH p sh s.heap }

variable (E : Env) (R : Shape)

/-- `SAutoObject::ValueSetter` (s_auto_object.h 274-293), as `SJ.setValues`. -/
def setValues (p : Path) (n : Nat) : List (MInfo × Shape) → MA (List Val)
  | [] => pure []
  | (i, _) :: ms =>
    bind (setValues p (n + 1) ms) fun vs =>
    bind (lift F (getC (.mem n :: p))) fun c =>
    if c.set then bind (lift F (popVal (.mem n :: p))) fun v => bind (move F) fun _ => pure (v :: vs)
    else if i.optional then
      match i.dflt with
      | none => lift F (throwStd ("Optional member " ++ nameText (fun _ => "") i.name
                            ++ " does not have a default value"))
      | some d => bind (store F) fun _ => pure (d :: vs)
    else lift F (throwStd ("Mandatory member " ++ nameText (fun _ => "") i.name ++ " is not present"))

/-- `SUnion::ValueSetter` (s_union.h 301-326), as `SJ.setAlt`. -/
def setAlt (p : Path) (n : Nat) : List (MInfo × Shape) → MA (Option Val)
  | [] => pure none
  | (i, _) :: ms =>
    bind (setAlt p (n + 1) ms) fun r =>
    bind (lift F (currentMemberId p)) fun id =>
    if id ≠ n then pure r
    else bind (lift F (getC (.mem n :: p))) fun c =>
      if c.set then bind (lift F (popVal (.mem n :: p))) fun v => bind (move F) fun _ => pure (some (.alt n v))
      else if i.optional then
        match i.dflt with
        | none => lift F (throwStd ("Optional member #" ++ toString n ++ " does not have a default value"))
        | some d => bind (store F) fun _ => pure (some (.alt n d))
      else lift F (throwStd ("Mandatory member #" ++ toString n ++ " is not present"))

/-- The `catch` clauses of s_auto_object.h 254-262 and s_union.h 280-288, as `SJ.wrapOnThrow`: `std::bad_alloc` is a `std::exception`, too; the new
exception needs memory again. -/
def wrapOnThrow {α} (p : Path) (m : MA α) : MA α := fun n s =>
  let text (e : Exn) : Exn := .std (match e with
    | .std msg => "Can not set value: " ++ cText msg
    | .other => "Can not set value: unknown exception")
  let unset (s' : St) : St := { s' with heap := s'.heap.upd p fun c => { c with set := false } }
  match m n s with
  | .throw e n' s' =>
    match F with
    | .memory =>
      match n' with
      | 0 => .fault badAlloc (unset s')
      | n' + 1 => .throw (text e) n' (unset s')
    | .user _ _ => .throw (text e) n' (unset s')
  | .fault e s' => .fault (text e) (unset s')
  | r => r

/-- As `SJ.unsetOnThrow` (object.h 264-269, union.h 357-362, s_custom_object.h 304-309). -/
def unsetOnThrow {α} (p : Path) (m : MA α) : MA α := fun n s =>
  let unset (s' : St) : St := { s' with heap := s'.heap.upd p fun c => { c with set := false } }
  match m n s with
  | .throw e n' s' => .throw e n' (unset s')
  | .fault e s' => .fault e (unset s')
  | r => r

/-- As `SJ.unlessEmpty`. -/
def unlessEmpty (p : Path) (m : MA Unit) : MA Unit :=
  bind (lift F (getC p)) fun c => if c.empty then lift F (SJ.unset p) else m

/-- The virtual `finish()`, as `SJ.finish`. -/
def finish (sh : Shape) (p : Path) : MA Unit :=
  match sh with
  | .value _ => lift F (finishCbVal E p)
  | .ignore => pure ()
  | .object .auto _ ms =>
    unlessEmpty F p <|
      bind (wrapOnThrow F p (setValues F p 0 ms)) fun vs =>
      bind (lift F (modC p fun c => { c with val := .tup vs })) fun _ =>
      lift F (finishCbVal E p)
  | .object k _ ms =>
    unlessEmpty F p <|
      bind (unsetOnThrow p (lift F fun s =>
        match checkMembers s.heap p 0 ms with
        | some e => .throw (.std e) s
        | none => .ok () s)) fun _ =>
      lift F (finishCbParser E sh (k == .custom) p)
  | .union _ _ false ms =>
    unlessEmpty F p <|
      bind (unsetOnThrow p (lift F (checkAlt p 0 ms))) fun _ =>
      lift F (finishCbParser E sh false p)
  | .union _ _ true ms =>
    unlessEmpty F p <|
      bind (wrapOnThrow F p (setAlt F p 0 ms)) fun r =>
      bind (match r with
        | some v => lift F (modC p fun c => { c with val := v })
        | none => pure ()) fun _ =>
      lift F (finishCbVal E p)
  | .array true _ => lift F (finishCbVal E p)
  | .array false _ => lift F (finishCbParser E sh false p)
  | .map _ _ => lift F (finishCbParser E sh false p)

/-- `Dispatcher::pushParser` (internals/dispatcher.cpp 34-36) -/
def pushParser (p : Path) : MA Unit := bind (alloc F) fun _ => lift F (SJ.pushParser p)

mutual
/-- `Dispatcher::popParser` (internals/dispatcher.cpp 38-47), as `SJ.popParser`. -/
def popParser : Nat → MA Unit
  | 0 => fun _ _ => .fuel
  | n + 1 => fun left s =>
    match s.stack with
    | [] => lift F (throwStd "Can not pop parser, parsers stack is empty") left s
    | [_] => .ok () left { s with stack := [] }
    | _ :: q :: r => childParsed n q left { s with stack := q :: r }

/-- The virtual `childParsed()`, as `SJ.childParsed`. The element parser is unset by `pop()` before the container grows (its value is moved only after that, which
makes no difference: nobody can look at the value of a parser that is not set). -/
def childParsed : Nat → Path → MA Unit
  | 0, _ => fun _ _ => .fuel
  | n + 1, p =>
    match R.at p with
    | none => fun _ _ => .ub
    | some (.array true _) =>
      bind (lift F (popVal (.elem :: p))) fun v =>
      bind (store F) fun _ =>
      lift F (modC p fun c => { c with val := .arr (c.val.vec ++ [v]) })
    | some (.map false e) => lift F (elementCb E e p)
    | some (.map true e) =>
      bind (lift F (elementCb E e p)) fun _ =>
      bind (lift F (popVal (.elem :: p))) fun v =>
      bind (store F) fun _ =>
      lift F (modC p fun c => { c with val := .map (mapInsert c.curKey v c.val.entries) })
    | some (.union ty tm stored ms) =>
      bind (endParsing n (.union ty tm stored ms) p) fun _ =>
      if tm = "" then
        bind (lift F (getC p)) fun c =>
        if c.disp then dispatchMapEnd n else fun _ _ => .ub
      else pure ()
    | some _ => pure ()

/-- `TokenParser::endParsing` (internals/token_parser.cpp 38-45), as `SJ.endParsing`. -/
def endParsing : Nat → Shape → Path → MA Unit
  | 0, _, _ => fun _ _ => .fuel
  | n + 1, sh, p =>
    bind (lift F (modC p fun c => { c with set := true })) fun _ =>
    bind (finish F E sh p) fun _ =>
    bind (lift F (getC p)) fun c =>
    if c.disp then popParser n else pure ()

/-- `Dispatcher::on(MapEndT)`, as `SJ.dispatchMapEnd`. -/
def dispatchMapEnd : Nat → MA Unit
  | 0 => fun _ _ => .fuel
  | n + 1 => fun left s =>
    match s.stack with
    | [] => lift F (throwStd "Parsers stack is empty") left s
    | p :: _ =>
      match R.at p with
      | none => .ub
      | some .ignore =>
        match (s.heap p).struct with
        | true :: r =>
          let s' := { s with heap := s.heap.upd p fun c => { c with struct := r } }
          if r = [] then endParsing n .ignore p left s' else .ok () left s'
        | _ => lift F (unexpected .mapEnd) left s
      | some (.object k u ms) => endParsing n (.object k u ms) p left s
      | some (.union ty tm st ms) => endParsing n (.union ty tm st ms) p left s
      | some (.map st e) => endParsing n (.map st e) p left s
      | some _ => lift F (unexpected .mapEnd) left s
end

/-- `TokenParser::on(NullT)` (internals/token_parser.cpp 47-53) -/
def onNullBase (f : Nat) (sh : Shape) (p : Path) : MA Unit :=
  bind (reset F p sh) fun _ =>
  bind (lift F (getC p)) fun c =>
  if c.disp then popParser F E R f else pure ()

/-- `KeyValueParser::onMember` (internals/key_value_parser.h 231-248), as `SJ.onMember`. -/
def onMember (unknownErr : Bool) (ms : List (MInfo × Shape)) (p : Path) (name : Scalar) :
    MA (Option Nat) :=
  bind (lift F (setNotEmpty p)) fun _ =>
  bind (lift F (getC p)) fun c =>
  match lookup name 0 ms with
  | some (n, _) =>
    if c.disp then bind (pushParser F (.mem n :: p)) fun _ => pure (some n) else fun _ _ => .ub
  | none =>
    if unknownErr then lift F (throwStd ("Unexpected member " ++ nameText E.fmtDbl name))
    else if c.disp then bind (pushParser F (.ign :: p)) fun _ => pure none else fun _ _ => .ub

/-- The virtual `on(token)`, as `SJ.on`. -/
def on (f : Nat) : Shape → Path → Token → MA Unit
  | .value ty, p, t =>
    match t with
    | .null => onNullBase F E R f (.value ty) p
    | .scalar v =>
      if v.ty = ty then
        bind (lift F (setNotEmpty p)) fun _ =>
        bind (if ty = .str then alloc F else pure ()) fun _ =>
        bind (lift F (modC p fun c => { c with val := .sc v })) fun _ =>
        endParsing F E R f (.value ty) p
      else lift F (unexpected t)
    | _ => lift F (unexpected t)
  | .ignore, p, t =>
    match t with
    | .null => onNullBase F E R f .ignore p
    | .scalar _ =>
      bind (lift F (getC p)) fun c =>
      if c.struct = [] then endParsing F E R f .ignore p else pure ()
    | .mapStart => bind (alloc F) fun _ => lift F (modC p fun c => { c with struct := true :: c.struct })
    | .arrStart => bind (alloc F) fun _ => lift F (modC p fun c => { c with struct := false :: c.struct })
    | .mapKey _ =>
      bind (lift F (getC p)) fun c =>
      match c.struct with
      | true :: _ => pure ()
      | _ => lift F (unexpected t)
    | .mapEnd =>
      bind (lift F (getC p)) fun c =>
      match c.struct with
      | true :: r =>
        bind (lift F (modC p fun c => { c with struct := r })) fun _ =>
        if r = [] then endParsing F E R f .ignore p else pure ()
      | _ => lift F (unexpected t)
    | .arrEnd =>
      bind (lift F (getC p)) fun c =>
      match c.struct with
      | false :: r =>
        bind (lift F (modC p fun c => { c with struct := r })) fun _ =>
        if r = [] then endParsing F E R f .ignore p else pure ()
      | _ => lift F (unexpected t)
  | .object k u ms, p, t =>
    match t with
    | .null => onNullBase F E R f (.object k u ms) p
    | .mapStart => reset F p (.object k u ms)
    | .mapKey key => bind (onMember F E u ms p (.str key)) fun _ => pure ()
    | .mapEnd => endParsing F E R f (.object k u ms) p
    | _ => lift F (unexpected t)
  | .union ty tm st ms, p, t =>
    match t with
    | .null => onNullBase F E R f (.union ty tm st ms) p
    | .scalar v =>
      if v.ty = ty then
        bind (reset F p (.union ty tm st ms)) fun _ =>
        bind (onMember F E true ms p v) fun r =>
        match r with
        | some n => lift F (modC p fun c => { c with curId := n })
        | none => pure ()
      else lift F (unexpected t)
    | .mapStart =>
      if tm = "" then lift F (throwStd "Union with an empty type member can't parse this")
      else reset F p (.union ty tm st ms)
    | .mapKey key =>
      if tm = "" then lift F (throwStd "Union with an empty type member can't parse this")
      else if key ≠ tm then lift F (throwStd ("Unexpected member " ++ key))
      else pure ()
    | .mapEnd => endParsing F E R f (.union ty tm st ms) p
    | _ => lift F (unexpected t)
  | .array st e, p, t =>
    match t with
    | .null =>
      bind (lift F (getC p)) fun c =>
      if !c.started then onNullBase F E R f (.array st e) p else on f e (.elem :: p) .null
    | .scalar v =>
      bind (lift F (getC p)) fun c =>
      if !c.started then lift F (unexpected t)
      else
        bind (on f e (.elem :: p) (.scalar v)) fun _ =>
        bind (lift F (setNotEmpty p)) fun _ =>
        childParsed F E R f p
    | .mapStart =>
      bind (lift F (getC p)) fun c =>
      if !c.started then lift F (unexpected t)
      else if !c.disp then fun _ _ => .ub
      else
        bind (lift F (setNotEmpty p)) fun _ =>
        bind (lift F (modH (setDispH (.elem :: p) e))) fun _ =>
        bind (pushParser F (.elem :: p)) fun _ =>
        on f e (.elem :: p) .mapStart
    | .arrStart =>
      bind (lift F (getC p)) fun c =>
      if !c.started then
        bind (reset F p (.array st e)) fun _ =>
        lift F (modC p fun c => { c with started := true })
      else if !c.disp then fun _ _ => .ub
      else
        bind (lift F (setNotEmpty p)) fun _ =>
        bind (lift F (modH (setDispH (.elem :: p) e))) fun _ =>
        bind (pushParser F (.elem :: p)) fun _ =>
        on f e (.elem :: p) .arrStart
    | .arrEnd =>
      bind (lift F (modC p fun c => { c with started := false })) fun _ =>
      endParsing F E R f (.array st e) p
    | _ => lift F (unexpected t)
  | .map st e, p, t =>
    match t with
    | .null => onNullBase F E R f (.map st e) p
    | .mapStart => reset F p (.map st e)
    | .mapKey key =>
      bind (lift F (setNotEmpty p)) fun _ =>
      bind (lift F (getC p)) fun c =>
      if c.disp then
        bind (pushParser F (.elem :: p)) fun _ =>
        bind (alloc F) fun _ =>
        lift F (modC p fun c => { c with curKey := key })
      else fun _ _ => .ub
    | .mapEnd => endParsing F E R f (.map st e) p
    | _ => lift F (unexpected t)

/-- `Dispatcher::on` (internals/dispatcher.h 51-56) -/
def dispatch (t : Token) : MA Unit := fun n s =>
  match s.stack with
  | [] => lift F (throwStd "Parsers stack is empty") n s
  | p :: _ =>
    match R.at p with
    | none => .ub
    | some sh => on F E R (fuelFor s.stack.length) sh p t n s

/-- A sequence of tokens; stops at the first exception. -/
def run : List Token → MA Unit
  | [] => pure ()
  | t :: ts => bind (dispatch F E R t) fun _ => run ts

end MA

/-! ## `YajlParser` -/

/-- As `PRes`, with the number of allocations that are left (0, if one has failed). -/
inductive PResA (Y : Yajl) (α : Type) where
  | ok (a : α) (n : Nat) (s : PSt Y)
  | throw (x : Thrown) (n : Nat) (s : PSt Y)
  | ub
  | fuel

abbrev PA (Y : Yajl) (α : Type) := Nat → PSt Y → PResA Y α

namespace PA

def pure {Y α} (a : α) : PA Y α := fun n s => .ok a n s

def bind {Y α β} (m : PA Y α) (f : α → PA Y β) : PA Y β := fun n s =>
  match m n s with
  | .ok a n' s' => f a n' s'
  | .throw e n' s' => .throw e n' s'
  | .ub => .ub
  | .fuel => .fuel

/-- A method that allocates nothing. -/
def lift {Y α} (m : P Y α) : PA Y α := fun n s =>
  match m s with
  | .ok a s' => .ok a n s'
  | .throw e s' => .throw e n s'
  | .ub => .ub
  | .fuel => .fuel

variable (Y : Yajl) (F : Faults) (E : Env) (R : Shape)

/-- `YajlParser::on` (yajl_parser.h 146-157), as `SJ.onToken`: `std::bad_alloc` is one of the exceptions that are caught. -/
def onToken (t : Token) : PA Y Bool := fun n s =>
  let err (e : Exn) : String := match e with
    | .std msg => cText msg
    | .other => "Unknown exception"
  match MA.dispatch F E R t n s.st with
  | .ok _ n' st => .ok true n' { s with st := st }
  | .throw e n' st => .ok false n' { s with st := st, err := err e }
  | .fault e st => .ok false 0 { s with st := st, err := err e }
  | .ub => .ub
  | .fuel => .fuel

/-- As `SJ.report` (yajl_parser.cpp 97-140). -/
def report : List Token → PA Y Bool
  | [] => pure true
  | t :: ts => bind (onToken Y F E R t) fun go => if go then report ts else pure false

/-- As `SJ.advance`. -/
def advance (out : Y.H × List Token × Bool) : PA Y Bool :=
  bind (report Y F E R out.2.1) fun go n s =>
    if go then .ok out.2.2 n { s with handle := out.1, alive := out.2.2 }
    else .ok false n { s with handle := Y.cancel out.1, alive := false }

/-- `yajl_parse`, as `SJ.yajlParse`. -/
def yajlParse : List UInt8 → PA Y Bool
  | [], n, s => .ok s.alive n s
  | b :: bs, n, s =>
    if s.alive then bind (advance Y F E R (Y.step s.handle b)) (fun go => if go then yajlParse bs else pure false) n s
    else .ok false n s

/-- `yajl_complete_parse`, as `SJ.yajlComplete`. -/
def yajlComplete : PA Y Bool := fun n s =>
  if s.alive then advance Y F E R (Y.complete s.handle) n s else .ok false n s

/-- `YajlParser::parse` (yajl_parser.cpp 48-64), as `SJ.parse`. -/
def parse (m : Mem) (p : Ptr) (len : Nat) : PA Y Unit := fun n s =>
  match m.read p len with
  | none => .ub
  | some bs =>
    bind (yajlParse Y F E R bs) (fun good => lift fun s =>
      if good then .ok () s else throwParsingError Y m { s with resetNeeded := true })
      n (PSt.renew Y { s with data := p, len := len })

/-- `YajlParser::finish` (yajl_parser.cpp 66-74), as `SJ.finishDoc`. -/
def finishDoc (m : Mem) : PA Y Unit := fun n s =>
  bind (yajlComplete Y F E R) (fun good => lift (if good then checkDispatcherStack Y else throwParsingError Y m))
    n { s with resetNeeded := true }

end PA

end SJ
