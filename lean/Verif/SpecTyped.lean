/-
Vocabulary for type soundness and for moved-from values (C19, C34, C36): values without moved-from parts, typed callback
arguments, and everything that can be done with a parser to which a JSON reader delivers documents.
-/
import Verif.SpecHistory
import Verif.Model.Memory
import Verif.Spec

namespace SJ

mutual
/-- The value is not, and does not contain, the moved-from remains of an earlier `pop()`. -/
def Val.clean : Val → Bool
  | .sc _ => true
  | .arr l => cleanL l
  | .tup l => cleanL l
  | .map l => cleanE l
  | .alt _ v => v.clean
  | .init => true
  | .user _ l => cleanL l
  | .moved => false
def cleanL : List Val → Bool
  | [] => true
  | v :: l => v.clean && cleanL l
def cleanE : List (String × Val) → Bool
  | [] => true
  | (_, v) :: l => v.clean && cleanE l
end

/-- A value of the type the parser `sh` stores, without moved-from parts. -/
def Proper (sh : Shape) (v : Val) : Prop := hasType sh v = true ∧ v.clean = true

/-- The number of members of a union. -/
def Shape.alternatives : Shape → Nat
  | .union _ _ _ ms => ms.length
  | _ => 0

mutual
/-- Everything a callback can see of a parser of shape `sh` that it was given is proper: the values of this parser and of all
parsers below it that are set, and the current member number of unions. -/
def Snap.Proper : Shape → Snap → Prop
  | sh, .node _ _ val cur kids =>
    (∀ v, val = some v → SJ.Proper sh v) ∧ (∀ n, cur = some n → n < sh.alternatives) ∧
    (match sh with
     | .object _ _ ms => Snap.ProperL ms kids
     | .union _ _ _ ms => Snap.ProperL ms kids
     | .array _ e => Snap.Proper1 e kids
     | .map _ e => Snap.Proper1 e kids
     | _ => True)
def Snap.ProperL : List (MInfo × Shape) → List Snap → Prop
  | [], [] => True
  | (_, sh) :: ms, k :: ks => Snap.Proper sh k ∧ Snap.ProperL ms ks
  | _, _ => False
def Snap.Proper1 : Shape → List Snap → Prop
  | e, [k] => Snap.Proper e k
  | _, _ => False
end

/-- The arguments of a callback invocation are proper. -/
def Call.Proper (R : Shape) : Call → Prop
  | .finish p (.val v) => ∀ sh, R.at p = some sh → SJ.Proper sh v
  | .finish p (.parser sn) => ∀ sh, R.at p = some sh → Snap.Proper sh sn
  | .element p _ sn => ∀ sh, R.at (.elem :: p) = some sh → Snap.Proper sh sn

/-- Members of an object or union. -/
def Shape.members : Shape → List (MInfo × Shape)
  | .object _ _ ms => ms
  | .union _ _ _ ms => ms
  | _ => []

/-- No default value is a moved-from one. -/
def CleanDefaults (R : Shape) : Prop :=
  ∀ q sh x v, R.at q = some sh → x ∈ sh.members → x.1.dflt = some v → v.clean = true

/-- No callback stores a moved-from value. -/
def CleanCallbacks (E : Env) : Prop :=
  ∀ p cb l a v, E.onFinish p = some cb → (cb l a).newVal = some v → v.clean = true

/-- The parser `R` is in state `s`, and the tokens `rest` of the current document have not been delivered yet.
After its construction and whenever a new document is started (at any time) these are all the tokens of a JSON
document; an exception ends the document (the JSON reader is then cancelled), which includes that memory runs out or an operation of a user's type throws (`short`, after `n` successful such operations); between any two tokens the user may
`pop()` values out of any storage parsers, call `reset()` of any parser and replace the callbacks (by `setFinishCallback()`, `setElementCallback()`): each token may find
other ones. No callback stores a moved-from value. -/
inductive Feeding (R : Shape) : List Token → St → Prop
  | init (j : Json) : Feeding R (events j) (St.init R)
  | next {rest : List Token} {s : St} (j : Json) : Feeding R rest s → Feeding R (events j) s.restart
  | token {E : Env} {t : Token} {rest : List Token} {s s' : St} : Feeding R (t :: rest) s → CleanCallbacks E → dispatch E R t s = .ok () s' →
      Feeding R rest s'
  | failed {E : Env} {t : Token} {rest : List Token} {s s' : St} {e : Exn} : Feeding R (t :: rest) s → CleanCallbacks E → dispatch E R t s = .throw e s' →
      Feeding R [] s'
  | short {F : Faults} {E : Env} {t : Token} {rest : List Token} {n : Nat} {s s' : St} {e : Exn} : Feeding R (t :: rest) s → CleanCallbacks E → MA.dispatch F E R t n s = .fault e s' →
      Feeding R [] s'
  | pop {rest : List Token} {s s' : St} {p : Path} {sh : Shape} {v : Val} : Feeding R rest s → R.at p = some sh →
      sh.isStorage = true → pop' p s = .ok v s' → Feeding R rest s'
  | reset {rest : List Token} {s : St} {p : Path} {sh : Shape} : Feeding R rest s → R.at p = some sh → Feeding R rest (reset' p sh s)

/-- The parser at `p` is in the middle of reading a JSON object or array: it was the current one when the opening brace or
bracket arrived, and has been on the stack ever since. -/
inductive Reading (R : Shape) (p : Path) : List Token → St → Prop
  | start {E : Env} {t : Token} {rest : List Token} {s s' : St} {below : List Path} : Feeding R (t :: rest) s → s.stack = p :: below →
      (t = .mapStart ∨ t = .arrStart) → CleanCallbacks E → dispatch E R t s = .ok () s' → p ∈ s'.stack → Reading R p rest s'
  | token {E : Env} {t : Token} {rest : List Token} {s s' : St} : Reading R p (t :: rest) s → CleanCallbacks E → dispatch E R t s = .ok () s' → p ∈ s'.stack →
      Reading R p rest s'
  | pop {rest : List Token} {s s' : St} {q : Path} {sh : Shape} {v : Val} : Reading R p rest s → R.at q = some sh →
      sh.isStorage = true → pop' q s = .ok v s' → Reading R p rest s'
  | reset {rest : List Token} {s : St} {q : Path} {sh : Shape} : Reading R p rest s → R.at q = some sh → Reading R p rest (reset' q sh s)

end SJ
