/-
What a document gives when the callbacks take part in it: they may reject, throw, pop the values of the parsers they are given and assign the value of an
`SCustomObject`, depending on everything that happened before. `denote`, extended by these effects. Nothing here refers to the dispatcher, its stack, or
heap cells.
-/
import Verif.SpecState

namespace SJ

/-- The user's callbacks, as functions of the calls so far (latest first) and of what the parser (the element parser) holds. -/
structure Handlers where
  onFinish : Path → Option (List Ev → D → CbOut)
  onElement : Path → Option (List Ev → String → D → CbOut)
  fmtDbl : Dbl → String

/-! ## The effects of a callback -/

/-- What is left of `d` after `pop()` of the parser that is reached by these steps (outermost first). Only a parser that holds a value can be popped. -/
def popAt : List Step → D → D
  | [], .val _ => .unset
  | [], .obj (some _) _ => .unset
  | .mem n :: r, .obj v ds => .obj v (ds.modify n (popAt r))
  | .mem n :: r, .alt m d => if n = m then .alt m (popAt r d) else .alt m d
  | _, d => d

/-- Several pops; each path is given innermost step first, as in `CbOut`. -/
def popAll (ps : List Path) (d : D) : D := ps.foldl (fun d r => popAt r.reverse d) d

/-- The stored value of an `SCustomObject` is assigned. -/
def D.assign (d : D) (v : Val) : D :=
  match d with
  | .obj (some _) ds => .obj (some v) ds
  | d => d

/-- The finish callback is given a (constant) value and not the parser: `Value`, `SAutoObject`, `SUnion`, `SArray`. -/
def Shape.byValue : Shape → Bool
  | .value _ => true
  | .ignore => false
  | .object k _ _ => k == .auto
  | .union _ _ st _ => st
  | .array st _ => st
  | .map _ _ => false

/-- What the parser holds after its finish callback. -/
def afterFinish (sh : Shape) (out : CbOut) (d : D) : D :=
  if sh.byValue then d
  else match sh, out.newVal with
    | .object .custom _ _, some v => (popAll out.pops d).assign v
    | _, _ => popAll out.pops d

/-! ## Reading with callbacks -/

/-- A computation that adds to the calls so far and gives a result or an exception. -/
abbrev Eff (α : Type) := List Ev → List Ev × Except Exn α

def Eff.bind {α β} (a : Eff α) (f : α → Eff β) : Eff β := fun l =>
  match a l with
  | (l, .error e) => (l, .error e)
  | (l, .ok x) => f x l

def Eff.lift {α} (r : Except String α) : Eff α := fun l =>
  (l, match r with
    | .error e => .error (.std e)
    | .ok x => .ok x)

def Eff.error {α} (e : String) : Eff α := fun l => (l, .error (.std e))

/-- The outcome of a callback: `x`, unless it refuses. -/
def answerOf {α} (v : Verdict) (what : String) (x : α) : Except Exn α :=
  match v with
  | .accept => .ok x
  | .reject => .error (.std what)
  | .throws e => .error e

/-- The parser `sh` at `p` is complete and holds `d`: its finish callback, if there is one and the parser is set. -/
def Eff.done (F : Handlers) (sh : Shape) (p : Path) (d : D) : Eff D := fun l =>
  if d.isSet then
    match F.onFinish p with
    | none => (l, .ok d)
    | some f => (.finish p d :: l, answerOf (f l d).verdict "Callback returned false" (afterFinish sh (f l d) d))
  else (l, .ok d)

/-- The element callback of the map at `p`, the element parser of which holds `d`; the result is what it holds then. -/
def Eff.elem (F : Handlers) (p : Path) (k : String) (d : D) : Eff D := fun l =>
  match F.onElement p with
  | none => (l, .ok d)
  | some f => (.element p k d :: l, answerOf (f l k d).verdict "Element callback returned false" (popAll (f l k d).pops d))

mutual
/-- What the parser `sh` at `p` makes of a value. Compare `denote`. -/
def denoteA (F : Handlers) (sh : Shape) (p : Path) : Json → Eff D
  | .null => .lift (.ok .unset)
  | .sc x =>
    match sh with
    | .value ty =>
      if x.ty = ty then .done F sh p (.val (.sc x)) else .error ("Unexpected token " ++ (Token.scalar x).kind)
    | .ignore => .lift (.ok .done)
    | _ => .error ("Unexpected token " ++ (Token.scalar x).kind)
  | .arr l =>
    match sh with
    | .array st e => (denElemsA F st e p l).bind fun vs => .done F sh p (if st then .val (.arr vs) else .done)
    | .ignore => .lift (.ok .done)
    | _ => .error ("Unexpected token " ++ Token.arrStart.kind)
  | .obj fs =>
    match sh with
    | .object _ _ _ => denFieldsA F sh p (noSlots sh) [] false fs
    | .map _ _ => denFieldsA F sh p (noSlots sh) [] false fs
    | .union _ tm _ _ => if tm = "" then .error noEmbedded else denFieldsA F sh p (noSlots sh) [] false fs
    | .ignore => .lift (.ok .done)
    | _ => .error ("Unexpected token " ++ Token.mapStart.kind)
/-- The rest of a JSON object. Compare `denFields`. -/
def denFieldsA (F : Handlers) (sh : Shape) (p : Path) (slots : List D) (ents : List (String × Val)) (ne : Bool) :
    List (String × Json) → Eff D
  | [] =>
    match sh with
    | .object k _ ms => (Eff.lift (finishObject k ms slots ne)).bind (.done F sh p)
    | .map st _ => .done F sh p (finishMap st ents)
    | .union _ _ _ _ => .lift (.ok .unset)
    | _ => .error ("Unexpected token " ++ Token.mapEnd.kind)
  | (k, v) :: fs =>
    match sh with
    | .object kd u ms =>
      match lookup (.str k) 0 ms with
      | some (n, m) =>
        match embedded m v with
        | some (_, st, ms', x) =>
          (Eff.lift (selectAlt F.fmtDbl ms' x)).bind fun a =>
          (denFieldsA F a.2 (.mem a.1 :: .mem n :: p) (noSlots a.2) [] false fs).bind fun d =>
          (Eff.lift (finishUnion st ms' a.1 d)).bind fun d =>
          (Eff.done F m (.mem n :: p) d).bind fun d =>
          (Eff.lift (finishObject kd ms (slots.set n d) true)).bind (.done F sh p)
        | none =>
          (denoteA F m (.mem n :: p) v).bind fun d => denFieldsA F sh p (slots.set n d) [] true fs
      | none =>
        if u then .error ("Unexpected member " ++ k)
        else denFieldsA F sh p slots [] true fs
    | .union ty tm st ms =>
      if tm = "" then .error noEmbedded
      else if k ≠ tm then .error ("Unexpected member " ++ k)
      else match v with
        | .sc x =>
          if x.ty = ty then
            (Eff.lift (selectAlt F.fmtDbl ms x)).bind fun a =>
            (denFieldsA F a.2 (.mem a.1 :: p) (noSlots a.2) [] false fs).bind fun d =>
            (Eff.lift (finishUnion st ms a.1 d)).bind (.done F sh p)
          else .error ("Unexpected token " ++ (Token.scalar x).kind)
        | .arr _ => .error ("Unexpected token " ++ Token.arrStart.kind)
        | _ => .error ""
    | .map st e =>
      match embedded e v with
      | some (_, st', ms', x) =>
        (Eff.lift (selectAlt F.fmtDbl ms' x)).bind fun a =>
        (denFieldsA F a.2 (.mem a.1 :: .elem :: p) (noSlots a.2) [] false fs).bind fun d =>
        (Eff.lift (finishUnion st' ms' a.1 d)).bind fun d =>
        (Eff.done F e (.elem :: p) d).bind fun d =>
        (Eff.elem F p k d).bind fun d =>
        (Eff.lift (storeEntry st k d ents)).bind fun ents => .done F sh p (finishMap st ents)
      | none =>
        (denoteA F e (.elem :: p) v).bind fun d =>
        (Eff.elem F p k d).bind fun d =>
        (Eff.lift (storeEntry st k d ents)).bind fun ents => denFieldsA F sh p [] ents true fs
    | _ => .error ("Unexpected token " ++ (Token.mapKey k).kind)
/-- The elements of an array. Compare `denElems`. -/
def denElemsA (F : Handlers) (stored : Bool) (e : Shape) (p : Path) : List Json → Eff (List Val)
  | [] => .lift (.ok [])
  | .null :: l => denElemsA F stored e p l
  | j :: l =>
    (denoteA F e (.elem :: p) j).bind fun d =>
    if stored then
      match d.value? with
      | some v => (denElemsA F stored e p l).bind fun vs => .lift (.ok (v :: vs))
      | none => .error notSet
    else denElemsA F stored e p l
end

/-! ## The callbacks as the library calls them -/

mutual
/-- What a reference to the parser `sh` tells a callback about what the parser holds. -/
def Snap.seen : Shape → Snap → D
  | .value _, .node set _ val _ _ => if set then .val (val.getD .init) else .unset
  | .ignore, .node set _ _ _ _ => if set then .done else .unset
  | .object k _ ms, .node set _ val _ kids =>
    if set then
      match k with
      | .auto => .val (val.getD .init)
      | .custom => .obj (some (val.getD .init)) (Snap.seenL ms kids)
      | .plain => .obj none (Snap.seenL ms kids)
    else .unset
  | .union _ _ stored ms, .node set _ val cur kids =>
    if set then
      if stored then .val (val.getD .init) else .alt (cur.getD 0) (Snap.seenAlt ms kids (cur.getD 0))
    else .unset
  | .array stored _, .node set _ val _ _ => if set then (if stored then .val (val.getD .init) else .done) else .unset
  | .map stored _, .node set _ val _ _ => if set then (if stored then .val (val.getD .init) else .done) else .unset
def Snap.seenL : List (MInfo × Shape) → List Snap → List D
  | (_, sh) :: ms, k :: ks => Snap.seen sh k :: Snap.seenL ms ks
  | _, _ => []
def Snap.seenAlt : List (MInfo × Shape) → List Snap → Nat → D
  | (_, sh) :: _, k :: _, 0 => Snap.seen sh k
  | _ :: ms, _ :: ks, n + 1 => Snap.seenAlt ms ks n
  | _, _, _ => .unset
end

/-- The same for the argument of a finish callback. -/
def Arg.seen (sh : Shape) : Arg → D
  | .val v => .val v
  | .parser s => s.seen sh

/-- The parser at a path of the tree `R`. -/
def Shape.place (R : Shape) (p : Path) : Shape := (R.at p).getD .ignore

/-- A call, in terms of what the parser held. -/
def Call.seen (R : Shape) : Call → Ev
  | .finish p a => .finish p (a.seen (R.place p))
  | .element p k s => .element p k (s.seen (R.place (.elem :: p)))

def seenLog (R : Shape) (l : Log) : List Ev := l.map (Call.seen R)

/-- The callbacks of the tree `R` that do what the handlers say. -/
def Handlers.env (F : Handlers) (R : Shape) : Env where
  onFinish p := (F.onFinish p).map fun f l a => f (seenLog R l) (a.seen (R.place p))
  onElement p := (F.onElement p).map fun f l k s => f (seenLog R l) k (s.seen (R.place (.elem :: p)))
  fmtDbl := F.fmtDbl

/-! ## Vocabulary -/

/-- Without the finish callback of the parser at `p`. -/
def Handlers.without (F : Handlers) (p : Path) : Handlers := { F with onFinish := fun q => if q = p then none else F.onFinish q }

/-- The callbacks at and below `p` accept and change nothing. -/
def Watching (F : Handlers) (p : Path) : Prop :=
  ∀ q, p <:+ q → (∀ f, F.onFinish q = some f → ∀ l d, (f l d).verdict = .accept ∧ (f l d).pops = [] ∧ (f l d).newVal = none) ∧
    (∀ f, F.onElement q = some f → ∀ l k d, (f l k d).verdict = .accept ∧ (f l k d).pops = [])

/-- The call is made: there is such a callback. -/
def Handlers.called (F : Handlers) : Ev → Bool
  | .finish p _ => (F.onFinish p).isSome
  | .element p _ _ => (F.onElement p).isSome

end SJ
