/-
Histories of use of a parser: everything a user can do with it after its construction. And vocabulary about the shape of a
parser tree and about the stack of current parsers.
-/
import Verif.Model.Api

namespace SJ

/-- The state `s` is reachable by using the parser `R`: it was constructed; tokens arrived (of a
well-formed document or not), with or without an exception; a new document was started; the user took a
value out of a storage parser with `pop()`, or called `reset()` of any parser. The callbacks `E` may be others each time (`setFinishCallback()`, `setElementCallback()`: value.cpp 55-58,
array.h 142-146, s_array.h 170-174, map.h 194-203, s_map.h 220-229, object.h 248-252, s_auto_object.h 229-233, s_custom_object.h 276-280, union.h 293-297,
s_union.h 252-256; they only replace the `std::function` that is stored). -/
inductive History (R : Shape) : St → Prop
  | init : History R (St.init R)
  | tokens {E : Env} {s s' : St} (ts : List Token) : History R s → run E R ts s = .ok () s' → History R s'
  | failed {E : Env} {s s' : St} (ts : List Token) (e : Exn) : History R s → run E R ts s = .throw e s' → History R s'
  | restart {s : St} : History R s → History R s.restart
  | pop {s s' : St} {p : Path} {sh : Shape} {v : Val} : History R s → R.at p = some sh → sh.isStorage = true →
      pop' p s = .ok v s' → History R s'
  | reset {s : St} {p : Path} {sh : Shape} : History R s → R.at p = some sh → History R (reset' p sh s)

/-- There is an array (or `SArray`) in the tree whose element parser is a union (or `SUnion`). -/
def HasUnionArray (R : Shape) : Prop := ∃ q st ty tm b ms, R.at q = some (.array st (.union ty tm b ms))

/-- There is no array in the tree. -/
def ArrFree (R : Shape) : Prop := ∀ q st e, R.at q ≠ some (.array st e)

mutual
/-- The number of levels of the tree below its root; an object or union has at least the level of its ignore parser. -/
def Shape.height : Shape → Nat
  | .value _ => 0
  | .ignore => 0
  | .object _ _ ms => 1 + heightMs ms
  | .union _ _ _ ms => 1 + heightMs ms
  | .array _ e => 1 + e.height
  | .map _ e => 1 + e.height
def heightMs : List (MInfo × Shape) → Nat
  | [] => 0
  | (_, sh) :: ms => max sh.height (heightMs ms)
end

/-- `q` is the root of the tree, or a parser in the tree. -/
def InTree (R : Shape) (p : Path) : Prop := ∃ sh, R.at p = some sh

/-- The parser at `p` is a member, the element parser or the ignore parser of the one at `q`. -/
def ChildOf (p q : Path) : Prop := ∃ st : Step, p = st :: q

/-- The parser at `p` is strictly inside the one at `q`. -/
def InsideOf (p q : Path) : Prop := q <:+ p ∧ p ≠ q

/-- Each parser of the stack is related to the one under it; the lowest is the root. -/
def Stacked (rel : Path → Path → Prop) : List Path → Prop
  | [] => True
  | [p] => p = []
  | p :: q :: r => rel p q ∧ Stacked rel (q :: r)

/-- The current parser is an array in the middle of its elements, these are no `Value`s, and the token is a null. (What the code does then depends
on whether there was an element before: it may remove the array itself from the stack.) -/
def NullElement (R : Shape) (t : Token) (s : St) : Prop :=
  ∃ p rest st e, s.stack = p :: rest ∧ R.at p = some (.array st e) ∧ (s.heap p).started = true ∧ t = .null ∧ ∀ ty, e ≠ .value ty

/-- The current parser is an array of unions in the middle of its elements, and the token is a scalar of the type that selects a member. -/
def ScalarForUnion (R : Shape) (t : Token) (s : St) : Prop :=
  ∃ p rest st ty tm b ms v, s.stack = p :: rest ∧ R.at p = some (.array st (.union ty tm b ms)) ∧ (s.heap p).started = true ∧ t = .scalar v ∧ v.ty = ty

/-- When the tokens `ts` are fed to the parser in state `s`, at some point the next token and the state are as described by `bad`. -/
def Arrives (E : Env) (R : Shape) (bad : Token → St → Prop) (ts : List Token) (s : St) : Prop :=
  ∃ a x b s', ts = a ++ x :: b ∧ run E R a s = .ok () s' ∧ bad x s'

end SJ
