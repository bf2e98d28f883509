/-
Vocabulary about callbacks: their verdicts (C21), and which of them a document causes to be called, in which order (C20).
-/
import Verif.Model.Api
import Verif.Spec

namespace SJ

/-- What the callback that was invoked by `c`, after the invocations `l`, answered; nothing if there is no such callback. -/
def answer (E : Env) (l : Log) : Call → Option Verdict
  | .finish p a => (E.onFinish p).map fun cb => (cb l a).verdict
  | .element p k sn => (E.onElement p).map fun cb => (cb l k sn).verdict

/-- The log grew from the first to the second one by calls that were all accepted. -/
inductive AllAccepted (E : Env) (l : Log) : Log → Prop
  | nil : AllAccepted E l l
  | cons {c : Call} {l' : Log} : AllAccepted E l l' → answer E l' c = some .accept → AllAccepted E l (c :: l')

/-- The exception by which a parse fails whose callback `c` answered `v`. -/
def Refusal : Call → Verdict → Exn → Prop
  | .finish _ _, .reject, e => e = .std "Callback returned false"
  | .element _ _ _, .reject, e => e = .std "Element callback returned false"
  | _, .throws e', e => e = e'
  | _, .accept, _ => False

/-! ## Which callbacks are called -/

/-- The name of a callback invocation: the finish callback of the parser at `p`; the element callback of the map at `p`, with a key. -/
inductive End where
  | finish (p : Path)
  | element (p : Path) (key : String)
deriving DecidableEq, Repr

def Call.name : Call → End
  | .finish p _ => .finish p
  | .element p k _ => .element p k

mutual
/-- The parsers that complete a value while the parser `sh` at `p` reads the JSON value, in the order of the ends of
these values in the document: every scalar read by a `Value`, every array, every object read by a map, every non-empty object read
by an object or union parser; null is not a value. Ignored values do not count. The values of a map are followed by the
map's element call. -/
def ends (sh : Shape) (p : Path) : Json → List End
  | .null => []
  | .sc _ =>
    match sh with
    | .value _ => [.finish p]
    | _ => []
  | .arr l =>
    match sh with
    | .array _ e => endsElems e p l ++ [.finish p]
    | _ => []
  | .obj fs => endsFields sh p false fs
/-- The same for the rest of an object; `ne`: there was a field before. An embedded union takes over the rest of the fields; it ends,
and the enclosing parser ends, at the closing brace, after the selected alternative. -/
def endsFields (sh : Shape) (p : Path) (ne : Bool) : List (String × Json) → List End
  | [] =>
    match sh with
    | .object _ _ _ => if ne then [.finish p] else []
    | .map _ _ => [.finish p]
    | _ => []
  | (k, v) :: fs =>
    match sh with
    | .object _ _ ms =>
      match lookup (.str k) 0 ms with
      | none => endsFields sh p true fs
      | some (n, m) =>
        match embedded m v with
        | none => ends m (.mem n :: p) v ++ endsFields sh p true fs
        | some (_, _, ms', x) =>
          match lookup x 0 ms' with
          | none => []
          | some (a, alt) => endsFields alt (.mem a :: .mem n :: p) false fs ++ [.finish (.mem n :: p), .finish p]
    | .union _ _ _ ms =>
      match v with
      | .sc x =>
        match lookup x 0 ms with
        | none => []
        | some (a, alt) => endsFields alt (.mem a :: p) false fs ++ [.finish p]
      | _ => []
    | .map _ e =>
      match embedded e v with
      | none => ends e (.elem :: p) v ++ .element p k :: endsFields sh p true fs
      | some (_, _, ms', x) =>
        match lookup x 0 ms' with
        | none => []
        | some (a, alt) =>
          endsFields alt (.mem a :: .elem :: p) false fs ++ [.finish (.elem :: p), .element p k, .finish p]
    | _ => []
def endsElems (e : Shape) (p : Path) : List Json → List End
  | [] => []
  | j :: l => ends e (.elem :: p) j ++ endsElems e p l
end

/-- Those for which there is a callback. -/
def withCallback (E : Env) (es : List End) : List End := es.filter fun
  | .finish p => (E.onFinish p).isSome
  | .element p _ => (E.onElement p).isSome

/-- Between the logs `l` and `l'` exactly the callbacks `es` were called, in this order. -/
def Called (es : List End) (l l' : Log) : Prop := ∃ new : Log, l' = new ++ l ∧ new.reverse.map Call.name = es

end SJ
