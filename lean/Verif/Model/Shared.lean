/-
Parsers given by reference, and callbacks that reach everywhere. The methods of `Verif/Model/Parsers.lean` once more, without two of its simplifications:
* A parser can be given to a member, an array, a map or a union by lvalue reference (member.h 47-57, 63-87; array.h 47; map.h 57; parser.h 50), so the same parser object may stand
  at several places of the tree. `ob p` is the object that stands at the place `p`; objects are named by one of their places.
* A callback may have captured references to parsers it is not called with: it can look at all of them, and pop or reset any of them, also those that are in the middle of a value.

The shape `R` and the places are as before. The stack holds places instead of addresses (the object is `ob p`; what an object does depends on its shape and its own
members only). Two parsers of which one contains the other are never the same object: the C++ type of a parser contains the types of its members.

All file references are relative to /repo/library/sjparser/.
-/
import Verif.Model.Yajl

namespace SJ

/-- One thing a callback does to the object at a place: `pop()` or `reset()`. -/
inductive FarAct where
  | pop (q : Path)
  | reset (q : Path)
deriving DecidableEq, Repr

/-- What a callback does: it pops and resets objects, in this order (a pop of an object that is not set throws, see `cbActs`), possibly assigns the stored value of
`SCustomObject`, then returns or throws. -/
structure FarOut where
  verdict : Verdict := .accept
  acts : List FarAct := []
  newVal : Option Val := none

/-- The callbacks of the objects. A callback gets to see the calls so far, its argument and (an overestimate) the state of all objects. -/
structure FarEnv where
  onFinish : Path → Option (Log → Arg → Heap → FarOut)
  onElement : Path → Option (Log → String → Snap → Heap → FarOut)
  fmtDbl : Dbl → String

namespace Shd

variable (ob : Path → Path)

mutual
/-- The virtual `reset()`, as `SJ.resetH`. Members that share an object reset it more than once, to the same effect. -/
def resetH (p : Path) : Shape → Heap → Heap
  | .value _, h => h.upd (ob p) Cell.baseReset
  | .ignore, h => h.upd (ob p) fun c => { c.baseReset with struct := [] }
  | .object k _ ms, h =>
    let h := resetMs p 0 ms (h.upd (ob p) Cell.baseReset)
    let h := h.upd (ob (.ign :: p)) fun c => { c.baseReset with struct := [] }
    match k with
    | .plain => h
    | _ => h.upd (ob p) fun c => { c with val := .init }
  | .union _ _ stored ms, h =>
    let h := h.upd (ob p) fun c => { c with curId := 0 }
    let h := resetMs p 0 ms (h.upd (ob p) Cell.baseReset)
    let h := h.upd (ob (.ign :: p)) fun c => { c.baseReset with struct := [] }
    if stored then h.upd (ob p) fun c => { c with val := .init } else h
  | .array stored e, h =>
    let h := resetH (.elem :: p) e (h.upd (ob p) Cell.baseReset)
    if stored then h.upd (ob p) fun c => { c with val := .arr [] } else h
  | .map stored _, h =>
    let h := h.upd (ob p) Cell.baseReset
    if stored then h.upd (ob p) fun c => { c with val := .map [] } else h
/-- The loop over the members in `KeyValueParser::reset` (internals/key_value_parser.h 214-216). -/
def resetMs (p : Path) (n : Nat) : List (MInfo × Shape) → Heap → Heap
  | [], h => h
  | (_, sh) :: ms, h => resetMs p (n + 1) ms (resetH (.mem n :: p) sh h)
end

/-- The user's call of `reset()` on the parser `sh` at `p`. -/
def reset' (p : Path) (sh : Shape) (s : St) : St := { s with heap := resetH ob p sh s.heap }

mutual
/-- The virtual `setDispatcher(d)` with `d != nullptr`, as `SJ.setDispH`. -/
def setDispH (p : Path) : Shape → Heap → Heap
  | .object _ _ ms, h =>
    (setDispMs p 0 ms (h.upd (ob p) fun c => { c with disp := true })).upd (ob (.ign :: p))
      fun c => { c with disp := true }
  | .union _ _ _ ms, h =>
    (setDispMs p 0 ms (h.upd (ob p) fun c => { c with disp := true })).upd (ob (.ign :: p))
      fun c => { c with disp := true }
  | .map _ e, h => setDispH (.elem :: p) e (h.upd (ob p) fun c => { c with disp := true })
  | .value _, h => h.upd (ob p) fun c => { c with disp := true }
  | .ignore, h => h.upd (ob p) fun c => { c with disp := true }
  | .array _ _, h => h.upd (ob p) fun c => { c with disp := true }
/-- The loop of `KeyValueParser::setDispatcher` (internals/key_value_parser.h 203-205). -/
def setDispMs (p : Path) (n : Nat) : List (MInfo × Shape) → Heap → Heap
  | [], h => h
  | (_, sh) :: ms, h => setDispMs p (n + 1) ms (setDispH (.mem n :: p) sh h)
end

/-- What the public interface shows of the parser at `p` and of the parsers below it: the objects at these places, seen as in `SJ.snap`. -/
def snap (h : Heap) (p : Path) (sh : Shape) : Snap := SJ.snap (fun q => h (ob q)) p sh

/-- The pops and resets a callback performs, on any objects. As in `SJ.cbPops`, a pop of an object that is not set (or stores nothing) has no effect here;
in C++ it throws and the callback, which can see this, may throw as well. -/
def cbActs (R : Shape) : List FarAct → Heap → Heap
  | [], h => h
  | .pop q :: qs, h =>
    match R.at q with
    | some sh =>
      if sh.isStorage && (h (ob q)).set then
        cbActs R qs (h.upd (ob q) fun c => { c with set := false, val := .moved })
      else cbActs R qs h
    | none => cbActs R qs h
  | .reset q :: qs, h =>
    match R.at q with
    | some sh => cbActs R qs (resetH ob q sh h)
    | none => cbActs R qs h

variable (E : FarEnv) (R : Shape)

/-- As `SJ.finishCbVal` (value.cpp 67-69, s_array.h 194-196, s_auto_object.h 264-266, s_union.h 290-292). -/
def finishCbVal (p : Path) : M Unit := fun s =>
  match E.onFinish (ob p) with
  | none => .ok () s
  | some cb =>
    let arg := Arg.val (s.heap (ob p)).val
    let out := cb s.log arg s.heap
    verdict out.verdict "Callback returned false"
      { s with heap := cbActs ob R out.acts s.heap, log := .finish (ob p) arg :: s.log }

/-- As `SJ.finishCbParser` (object.h 271-273, union.h 364-366, array.h 154-156, map.h 241-243, s_map.h 254-256, s_custom_object.h 311-313). -/
def finishCbParser (sh : Shape) (custom : Bool) (p : Path) : M Unit := fun s =>
  match E.onFinish (ob p) with
  | none => .ok () s
  | some cb =>
    let arg := Arg.parser (snap ob s.heap p sh)
    let out := cb s.log arg s.heap
    let h := cbActs ob R out.acts s.heap
    let h := match custom, out.newVal with
      | true, some v => h.upd (ob p) fun c => { c with val := v }
      | _, _ => h
    verdict out.verdict "Callback returned false" { s with heap := h, log := .finish (ob p) arg :: s.log }

/-- As `SJ.elementCb` (map.h 235-237, s_map.h 245-248). -/
def elementCb (e : Shape) (p : Path) : M Unit := fun s =>
  match E.onElement (ob p) with
  | none => .ok () s
  | some cb =>
    let arg := snap ob s.heap (.elem :: p) e
    let out := cb s.log (s.heap (ob p)).curKey arg s.heap
    verdict out.verdict "Element callback returned false"
      { s with
        heap := cbActs ob R out.acts s.heap
        log := .element (ob p) (s.heap (ob p)).curKey arg :: s.log }

/-- `Object::MemberChecker` (object.h 276-287; s_custom_object.h 305), as `SJ.checkMembers`. -/
def checkMembers (h : Heap) (p : Path) (n : Nat) : List (MInfo × Shape) → Option String
  | [] => none
  | (i, _) :: ms =>
    match checkMembers h p (n + 1) ms with
    | some e => some e
    | none =>
      if !(h (ob (.mem n :: p))).set && !i.optional then
        some ("Mandatory member " ++ nameText (fun _ => "") i.name ++ " is not present")
      else none

/-- `SAutoObject::ValueSetter` (s_auto_object.h 274-293), as `SJ.setValues`. -/
def setValues (p : Path) (n : Nat) : List (MInfo × Shape) → M (List Val)
  | [] => M.pure []
  | (i, _) :: ms =>
    M.bind (setValues p (n + 1) ms) fun vs =>
    M.bind (getC (ob (.mem n :: p))) fun c =>
    if c.set then M.bind (popVal (ob (.mem n :: p))) fun v => M.pure (v :: vs)
    else if i.optional then
      match i.dflt with
      | none => throwStd ("Optional member " ++ nameText (fun _ => "") i.name
                            ++ " does not have a default value")
      | some d => M.pure (d :: vs)
    else throwStd ("Mandatory member " ++ nameText (fun _ => "") i.name ++ " is not present")

/-- `Union::MemberChecker` (union.h 369-385), as `SJ.checkAlt`. -/
def checkAlt (p : Path) (n : Nat) : List (MInfo × Shape) → M Unit
  | [] => M.pure ()
  | (i, _) :: ms =>
    M.bind (checkAlt p (n + 1) ms) fun _ =>
    M.bind (currentMemberId (ob p)) fun id =>
    if id ≠ n then M.pure ()
    else M.bind (getC (ob (.mem n :: p))) fun c =>
      if !c.set && !i.optional then
        throwStd ("Mandatory member #" ++ toString n ++ " is not present")
      else M.pure ()

/-- `SUnion::ValueSetter` (s_union.h 301-326), as `SJ.setAlt`. -/
def setAlt (p : Path) (n : Nat) : List (MInfo × Shape) → M (Option Val)
  | [] => M.pure none
  | (i, _) :: ms =>
    M.bind (setAlt p (n + 1) ms) fun r =>
    M.bind (currentMemberId (ob p)) fun id =>
    if id ≠ n then M.pure r
    else M.bind (getC (ob (.mem n :: p))) fun c =>
      if c.set then M.bind (popVal (ob (.mem n :: p))) fun v => M.pure (some (.alt n v))
      else if i.optional then
        match i.dflt with
        | none => throwStd ("Optional member #" ++ toString n ++ " does not have a default value")
        | some d => M.pure (some (.alt n d))
      else throwStd ("Mandatory member #" ++ toString n ++ " is not present")

/-- The virtual `finish()`, as `SJ.finish`. -/
def finish (sh : Shape) (p : Path) : M Unit :=
  match sh with
  | .value _ => finishCbVal ob E R p
  | .ignore => M.pure ()
  | .object .auto _ ms =>
    unlessEmpty (ob p) <|
      M.bind (wrapOnThrow (ob p) (setValues ob p 0 ms)) fun vs =>
      M.bind (modC (ob p) fun c => { c with val := .tup vs }) fun _ =>
      finishCbVal ob E R p
  | .object k _ ms =>
    unlessEmpty (ob p) <|
      M.bind (unsetOnThrow (ob p) fun s =>
        match checkMembers ob s.heap p 0 ms with
        | some e => .throw (.std e) s
        | none => .ok () s) fun _ =>
      finishCbParser ob E R sh (k == .custom) p
  | .union _ _ false ms =>
    unlessEmpty (ob p) <|
      M.bind (unsetOnThrow (ob p) (checkAlt ob p 0 ms)) fun _ =>
      finishCbParser ob E R sh false p
  | .union _ _ true ms =>
    unlessEmpty (ob p) <|
      M.bind (wrapOnThrow (ob p) (setAlt ob p 0 ms)) fun r =>
      M.bind (match r with
        | some v => modC (ob p) fun c => { c with val := v }
        | none => M.pure ()) fun _ =>
      finishCbVal ob E R p
  | .array true _ => finishCbVal ob E R p
  | .array false _ => finishCbParser ob E R sh false p
  | .map _ _ => finishCbParser ob E R sh false p

mutual
/-- `Dispatcher::popParser` (internals/dispatcher.cpp 38-47), as `SJ.popParser`. -/
def popParser : Nat → M Unit
  | 0 => fun _ => .fuel
  | n + 1 => fun s =>
    match s.stack with
    | [] => .throw (.std "Can not pop parser, parsers stack is empty") s
    | [_] => .ok () { s with stack := [] }
    | _ :: q :: r => childParsed n q { s with stack := q :: r }

/-- The virtual `childParsed()`, as `SJ.childParsed`. -/
def childParsed : Nat → Path → M Unit
  | 0, _ => fun _ => .fuel
  | n + 1, p =>
    match R.at p with
    | none => fun _ => .ub
    | some (.array true _) =>
      M.bind (popVal (ob (.elem :: p))) fun v =>
      modC (ob p) fun c => { c with val := .arr (c.val.vec ++ [v]) }
    | some (.map false e) => elementCb ob E R e p
    | some (.map true e) =>
      M.bind (elementCb ob E R e p) fun _ =>
      M.bind (popVal (ob (.elem :: p))) fun v =>
      modC (ob p) fun c => { c with val := .map (mapInsert c.curKey v c.val.entries) }
    | some (.union ty tm stored ms) =>
      M.bind (endParsing n (.union ty tm stored ms) p) fun _ =>
      if tm = "" then
        M.bind (getC (ob p)) fun c =>
        if c.disp then dispatchMapEnd n else fun _ => .ub
      else M.pure ()
    | some _ => M.pure ()

/-- `TokenParser::endParsing` (internals/token_parser.cpp 38-45), as `SJ.endParsing`. -/
def endParsing : Nat → Shape → Path → M Unit
  | 0, _, _ => fun _ => .fuel
  | n + 1, sh, p =>
    M.bind (modC (ob p) fun c => { c with set := true }) fun _ =>
    M.bind (finish ob E R sh p) fun _ =>
    M.bind (getC (ob p)) fun c =>
    if c.disp then popParser n else M.pure ()

/-- `Dispatcher::on(MapEndT)`, as `SJ.dispatchMapEnd`. -/
def dispatchMapEnd : Nat → M Unit
  | 0 => fun _ => .fuel
  | n + 1 => fun s =>
    match s.stack with
    | [] => .throw (.std "Parsers stack is empty") s
    | p :: _ =>
      match R.at p with
      | none => .ub
      | some .ignore =>
        match (s.heap (ob p)).struct with
        | true :: r =>
          let s' := { s with heap := s.heap.upd (ob p) fun c => { c with struct := r } }
          if r = [] then endParsing n .ignore p s' else .ok () s'
        | _ => unexpected .mapEnd s
      | some (.object k u ms) => endParsing n (.object k u ms) p s
      | some (.union ty tm st ms) => endParsing n (.union ty tm st ms) p s
      | some (.map st e) => endParsing n (.map st e) p s
      | some _ => unexpected .mapEnd s
end

/-- `TokenParser::on(NullT)` (internals/token_parser.cpp 47-53) -/
def onNullBase (f : Nat) (sh : Shape) (p : Path) : M Unit :=
  M.bind (modH (resetH ob p sh)) fun _ =>
  M.bind (getC (ob p)) fun c =>
  if c.disp then popParser ob E R f else M.pure ()

/-- `KeyValueParser::onMember` (internals/key_value_parser.h 231-248), as `SJ.onMember`. -/
def onMember (unknownErr : Bool) (ms : List (MInfo × Shape)) (p : Path) (name : Scalar) :
    M (Option Nat) :=
  M.bind (setNotEmpty (ob p)) fun _ =>
  M.bind (getC (ob p)) fun c =>
  match lookup name 0 ms with
  | some (n, _) =>
    if c.disp then M.bind (pushParser (.mem n :: p)) fun _ => M.pure (some n) else fun _ => .ub
  | none =>
    if unknownErr then throwStd ("Unexpected member " ++ nameText E.fmtDbl name)
    else if c.disp then M.bind (pushParser (.ign :: p)) fun _ => M.pure none else fun _ => .ub

/-- `_members_ids_map[parser]`, the map being built by `Union::setupIdsMap` (union.h 284-292): the number of the last of the first `k` members that is the object `o`. -/
def memberId (p : Path) (o : Path) : Nat → Nat
  | 0 => 0
  | k + 1 => if ob (.mem k :: p) = o then k else memberId p o k

/-- The virtual `on(token)`, as `SJ.on`. `Union::on` (union.h 311-316) looks the number of the member up by the member's address. -/
def on (f : Nat) : Shape → Path → Token → M Unit
  | .value ty, p, t =>
    match t with
    | .null => onNullBase ob E R f (.value ty) p
    | .scalar v =>
      if v.ty = ty then
        M.bind (setNotEmpty (ob p)) fun _ =>
        M.bind (modC (ob p) fun c => { c with val := .sc v }) fun _ =>
        endParsing ob E R f (.value ty) p
      else unexpected t
    | _ => unexpected t
  | .ignore, p, t =>
    match t with
    | .null => onNullBase ob E R f .ignore p
    | .scalar _ =>
      M.bind (getC (ob p)) fun c =>
      if c.struct = [] then endParsing ob E R f .ignore p else M.pure ()
    | .mapStart => modC (ob p) fun c => { c with struct := true :: c.struct }
    | .arrStart => modC (ob p) fun c => { c with struct := false :: c.struct }
    | .mapKey _ =>
      M.bind (getC (ob p)) fun c =>
      match c.struct with
      | true :: _ => M.pure ()
      | _ => unexpected t
    | .mapEnd =>
      M.bind (getC (ob p)) fun c =>
      match c.struct with
      | true :: r =>
        M.bind (modC (ob p) fun c => { c with struct := r }) fun _ =>
        if r = [] then endParsing ob E R f .ignore p else M.pure ()
      | _ => unexpected t
    | .arrEnd =>
      M.bind (getC (ob p)) fun c =>
      match c.struct with
      | false :: r =>
        M.bind (modC (ob p) fun c => { c with struct := r }) fun _ =>
        if r = [] then endParsing ob E R f .ignore p else M.pure ()
      | _ => unexpected t
  | .object k u ms, p, t =>
    match t with
    | .null => onNullBase ob E R f (.object k u ms) p
    | .mapStart => modH (resetH ob p (.object k u ms))
    | .mapKey key => M.bind (onMember ob E u ms p (.str key)) fun _ => M.pure ()
    | .mapEnd => endParsing ob E R f (.object k u ms) p
    | _ => unexpected t
  | .union ty tm st ms, p, t =>
    match t with
    | .null => onNullBase ob E R f (.union ty tm st ms) p
    | .scalar v =>
      if v.ty = ty then
        M.bind (modH (resetH ob p (.union ty tm st ms))) fun _ =>
        M.bind (onMember ob E true ms p v) fun r =>
        match r with
        | some n => modC (ob p) fun c => { c with curId := memberId ob p (ob (.mem n :: p)) ms.length }
        | none => M.pure ()
      else unexpected t
    | .mapStart =>
      if tm = "" then throwStd "Union with an empty type member can't parse this"
      else modH (resetH ob p (.union ty tm st ms))
    | .mapKey key =>
      if tm = "" then throwStd "Union with an empty type member can't parse this"
      else if key ≠ tm then throwStd ("Unexpected member " ++ key)
      else M.pure ()
    | .mapEnd => endParsing ob E R f (.union ty tm st ms) p
    | _ => unexpected t
  | .array st e, p, t =>
    match t with
    | .null =>
      M.bind (getC (ob p)) fun c =>
      if !c.started then onNullBase ob E R f (.array st e) p else on f e (.elem :: p) .null
    | .scalar v =>
      M.bind (getC (ob p)) fun c =>
      if !c.started then unexpected t
      else
        M.bind (on f e (.elem :: p) (.scalar v)) fun _ =>
        M.bind (setNotEmpty (ob p)) fun _ =>
        childParsed ob E R f p
    | .mapStart =>
      M.bind (getC (ob p)) fun c =>
      if !c.started then unexpected t
      else if !c.disp then fun _ => .ub
      else
        M.bind (setNotEmpty (ob p)) fun _ =>
        M.bind (modH (setDispH ob (.elem :: p) e)) fun _ =>
        M.bind (pushParser (.elem :: p)) fun _ =>
        on f e (.elem :: p) .mapStart
    | .arrStart =>
      M.bind (getC (ob p)) fun c =>
      if !c.started then
        M.bind (modH (resetH ob p (.array st e))) fun _ =>
        modC (ob p) fun c => { c with started := true }
      else if !c.disp then fun _ => .ub
      else
        M.bind (setNotEmpty (ob p)) fun _ =>
        M.bind (modH (setDispH ob (.elem :: p) e)) fun _ =>
        M.bind (pushParser (.elem :: p)) fun _ =>
        on f e (.elem :: p) .arrStart
    | .arrEnd =>
      M.bind (modC (ob p) fun c => { c with started := false }) fun _ =>
      endParsing ob E R f (.array st e) p
    | _ => unexpected t
  | .map st e, p, t =>
    match t with
    | .null => onNullBase ob E R f (.map st e) p
    | .mapStart => modH (resetH ob p (.map st e))
    | .mapKey key =>
      M.bind (setNotEmpty (ob p)) fun _ =>
      M.bind (getC (ob p)) fun c =>
      if c.disp then
        M.bind (pushParser (.elem :: p)) fun _ =>
        modC (ob p) fun c => { c with curKey := key }
      else fun _ => .ub
    | .mapEnd => endParsing ob E R f (.map st e) p
    | _ => unexpected t

/-- `Dispatcher::on` (internals/dispatcher.h 51-56) -/
def dispatch (t : Token) : M Unit := fun s =>
  match s.stack with
  | [] => .throw (.std "Parsers stack is empty") s
  | p :: _ =>
    match R.at p with
    | none => .ub
    | some sh => on ob E R (fuelFor s.stack.length) sh p t s

/-- A sequence of tokens; stops at the first exception. -/
def run : List Token → M Unit
  | [] => M.pure ()
  | t :: ts => M.bind (dispatch ob E R t) fun _ => run ts

/-- A freshly constructed parser tree with a dispatcher (parser.h 72-80, internals/dispatcher.cpp 29-32). -/
def init : St := { heap := setDispH ob [] R Heap.fresh, stack := [[]], log := [] }

/-! ## `YajlParser` -/

variable (Y : Yajl)

/-- `YajlParser::on` (yajl_parser.h 146-157), as `SJ.onToken`. -/
def onToken (t : Token) : P Y Bool := fun s =>
  match dispatch ob E R t s.st with
  | .ok _ st => .ok true { s with st := st }
  | .throw (.std msg) st => .ok false { s with st := st, err := cText msg }
  | .throw .other st => .ok false { s with st := st, err := "Unknown exception" }
  | .ub => .ub
  | .fuel => .fuel

/-- As `SJ.report` (yajl_parser.cpp 97-140). -/
def report : List Token → P Y Bool
  | [] => P.pure true
  | t :: ts => P.bind (onToken ob E R Y t) fun go => if go then report ts else P.pure false

/-- As `SJ.advance`. -/
def advance (out : Y.H × List Token × Bool) : P Y Bool :=
  P.bind (report ob E R Y out.2.1) fun go s =>
    if go then .ok out.2.2 { s with handle := out.1, alive := out.2.2 }
    else .ok false { s with handle := Y.cancel out.1, alive := false }

/-- `yajl_parse`, as `SJ.yajlParse`. -/
def yajlParse : List UInt8 → P Y Bool
  | [], s => .ok s.alive s
  | b :: bs, s =>
    if s.alive then P.bind (advance ob E R Y (Y.step s.handle b)) (fun go => if go then yajlParse bs else P.pure false) s
    else .ok false s

/-- `yajl_complete_parse`, as `SJ.yajlComplete`. -/
def yajlComplete : P Y Bool := fun s =>
  if s.alive then advance ob E R Y (Y.complete s.handle) s else .ok false s

/-- `YajlParser::parse` (yajl_parser.cpp 48-64), as `SJ.parse`. -/
def parse (m : Mem) (p : Ptr) (len : Nat) : P Y Unit := fun s =>
  match m.read p len with
  | none => .ub
  | some bs =>
    P.bind (yajlParse ob E R Y bs) (fun good s =>
      if good then .ok () s else throwParsingError Y m { s with resetNeeded := true })
      (PSt.renew Y { s with data := p, len := len })

/-- `YajlParser::finish` (yajl_parser.cpp 66-74), as `SJ.finishDoc`. -/
def finishDoc (m : Mem) : P Y Unit := fun s =>
  P.bind (yajlComplete ob E R Y) (fun good => if good then checkDispatcherStack Y else throwParsingError Y m)
    { s with resetNeeded := true }

/-- The constructors, as `PSt.init`. -/
def start : PSt Y :=
  { st := init ob R, handle := Y.alloc, alive := true, data := none, len := 0, resetNeeded := false, err := "" }

end Shd

end SJ
