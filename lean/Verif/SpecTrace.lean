/-
Which callbacks are called while a JSON value is parsed: `denote`, extended by the list of calls.
-/
import Verif.Spec

namespace SJ

/-- One expected callback invocation: the finish callback of the parser at `p`, when this parser holds `d`; or the
element callback of the map at `p` for a key, when the element parser holds `d`. -/
inductive Ev where
  | finish (p : Path) (d : D)
  | element (p : Path) (key : String) (d : D)

/-- A list of calls, then a result or an error. -/
structure W (α : Type) where
  calls : List Ev
  result : Except String α

def W.bind {α β} (w : W α) (f : α → W β) : W β :=
  match w.result with
  | .error e => ⟨w.calls, .error e⟩
  | .ok a => ⟨w.calls ++ (f a).calls, (f a).result⟩

/-- No calls. -/
def W.lift {α} (r : Except String α) : W α := ⟨[], r⟩

def W.error {α} (e : String) : W α := ⟨[], .error e⟩

/-- A parser that holds `d` at its end calls its finish callback, unless it is left unset. -/
def W.done (p : Path) (d : D) : W D := if d.isSet then ⟨[.finish p d], .ok d⟩ else ⟨[], .ok d⟩

/-- The call of the element callback of a map. -/
def W.elem (p : Path) (k : String) (d : D) : W Unit := ⟨[.element p k d], .ok ()⟩

mutual
/-- `denote` with calls, of the parser `sh` at `p`. -/
def denoteT (fmt : Dbl → String) (sh : Shape) (p : Path) : Json → W D
  | .null => .lift (.ok .unset)
  | .sc x =>
    match sh with
    | .value ty =>
      if x.ty = ty then .done p (.val (.sc x)) else .error ("Unexpected token " ++ (Token.scalar x).kind)
    | .ignore => .lift (.ok .done)
    | _ => .error ("Unexpected token " ++ (Token.scalar x).kind)
  | .arr l =>
    match sh with
    | .array st e => (denElemsT fmt st e p l).bind fun vs => .done p (if st then .val (.arr vs) else .done)
    | .ignore => .lift (.ok .done)
    | _ => .error ("Unexpected token " ++ Token.arrStart.kind)
  | .obj fs =>
    match sh with
    | .object _ _ _ => denFieldsT fmt sh p (noSlots sh) [] false fs
    | .map _ _ => denFieldsT fmt sh p (noSlots sh) [] false fs
    | .union _ tm _ _ => if tm = "" then .error noEmbedded else denFieldsT fmt sh p (noSlots sh) [] false fs
    | .ignore => .lift (.ok .done)
    | _ => .error ("Unexpected token " ++ Token.mapStart.kind)
/-- `denFields` with calls. -/
def denFieldsT (fmt : Dbl → String) (sh : Shape) (p : Path) (slots : List D) (ents : List (String × Val)) (ne : Bool) :
    List (String × Json) → W D
  | [] =>
    match sh with
    | .object k _ ms => (W.lift (finishObject k ms slots ne)).bind (.done p)
    | .map st _ => .done p (finishMap st ents)
    | .union _ _ _ _ => .lift (.ok .unset)
    | _ => .error ("Unexpected token " ++ Token.mapEnd.kind)
  | (k, v) :: fs =>
    match sh with
    | .object kd u ms =>
      match lookup (.str k) 0 ms with
      | some (n, m) =>
        match embedded m v with
        | some (_, st, ms', x) =>
          (W.lift (selectAlt fmt ms' x)).bind fun a =>
          (denFieldsT fmt a.2 (.mem a.1 :: .mem n :: p) (noSlots a.2) [] false fs).bind fun d =>
          (W.lift (finishUnion st ms' a.1 d)).bind fun d =>
          (W.done (.mem n :: p) d).bind fun d =>
          (W.lift (finishObject kd ms (slots.set n d) true)).bind (.done p)
        | none =>
          (denoteT fmt m (.mem n :: p) v).bind fun d => denFieldsT fmt sh p (slots.set n d) [] true fs
      | none =>
        if u then .error ("Unexpected member " ++ k)
        else denFieldsT fmt sh p slots [] true fs
    | .union ty tm st ms =>
      if tm = "" then .error noEmbedded
      else if k ≠ tm then .error ("Unexpected member " ++ k)
      else match v with
        | .sc x =>
          if x.ty = ty then
            (W.lift (selectAlt fmt ms x)).bind fun a =>
            (denFieldsT fmt a.2 (.mem a.1 :: p) (noSlots a.2) [] false fs).bind fun d =>
            (W.lift (finishUnion st ms a.1 d)).bind fun d => .done p d
          else .error ("Unexpected token " ++ (Token.scalar x).kind)
        | .arr _ => .error ("Unexpected token " ++ Token.arrStart.kind)
        | _ => .error ""
    | .map st e =>
      match embedded e v with
      | some (_, st', ms', x) =>
        (W.lift (selectAlt fmt ms' x)).bind fun a =>
        (denFieldsT fmt a.2 (.mem a.1 :: .elem :: p) (noSlots a.2) [] false fs).bind fun d =>
        (W.lift (finishUnion st' ms' a.1 d)).bind fun d =>
        (W.done (.elem :: p) d).bind fun d =>
        (W.elem p k d).bind fun _ =>
        (W.lift (storeEntry st k d ents)).bind fun ents => .done p (finishMap st ents)
      | none =>
        (denoteT fmt e (.elem :: p) v).bind fun d =>
        (W.elem p k d).bind fun _ =>
        (W.lift (storeEntry st k d ents)).bind fun ents => denFieldsT fmt sh p [] ents true fs
    | _ => .error ("Unexpected token " ++ (Token.mapKey k).kind)
/-- `denElems` with calls. -/
def denElemsT (fmt : Dbl → String) (stored : Bool) (e : Shape) (p : Path) : List Json → W (List Val)
  | [] => .lift (.ok [])
  | .null :: l => denElemsT fmt stored e p l
  | j :: l =>
    (denoteT fmt e (.elem :: p) j).bind fun d =>
    if stored then
      match d.value? with
      | some v => (denElemsT fmt stored e p l).bind fun vs => .lift (.ok (v :: vs))
      | none => .error notSet
    else denElemsT fmt stored e p l
end

/-! ## What a callback is given -/

mutual
/-- The parser reference a callback received shows that the parser holds `d`. -/
def Snap.shows : D → Snap → Prop
  | .unset, .node set _ _ _ _ => set = false
  | .val v, .node set _ val _ _ => set = true ∧ val = some v
  | .obj v ds, .node set _ val _ kids => set = true ∧ (∀ w, v = some w → val = some w) ∧ Snap.showsL ds kids
  | .alt n d, .node set _ _ cur kids => set = true ∧ cur = some n ∧ ∃ k, kids[n]? = some k ∧ Snap.shows d k
  | .done, .node set _ _ _ _ => set = true
def Snap.showsL : List D → List Snap → Prop
  | [], [] => True
  | d :: ds, k :: ks => Snap.shows d k ∧ Snap.showsL ds ks
  | _, _ => False
end

/-- The argument of a finish callback shows that the parser holds `d`. -/
def Arg.shows (d : D) : Arg → Prop
  | .val v => d = .val v
  | .parser s => s.shows d

/-- The log grew by the call `e`, if the callback is set. -/
def LogStep (E : Env) (l : Log) : Ev → Log → Prop
  | .finish p d, l' =>
    match E.onFinish p with
    | none => l' = l
    | some _ => ∃ a, l' = .finish p a :: l ∧ a.shows d
  | .element p k d, l' =>
    match E.onElement p with
    | none => l' = l
    | some _ => ∃ sn, l' = .element p k sn :: l ∧ sn.shows d

/-- The log grew by exactly the calls `evs` (of the callbacks that are set), in this order. -/
def Logged (E : Env) : List Ev → Log → Log → Prop
  | [], l, l' => l' = l
  | e :: es, l, l' => ∃ l1, LogStep E l e l1 ∧ Logged E es l1 l'

end SJ
