/-
C65: values pass through the library untouched and unseen. What it means that two documents, stored values, parsers or callbacks differ in the scalars only:
`r` relates the scalars of one to those of the other.
-/
import Verif.Spec

namespace SJ

variable (r : Scalar → Scalar → Prop)

/-! ## Documents -/

mutual
/-- The same JSON value but for its scalars. -/
inductive JsonAlike : Json → Json → Prop
  | null : JsonAlike .null .null
  | sc {x y} : r x y → JsonAlike (.sc x) (.sc y)
  | arr {l l'} : ElemsAlike l l' → JsonAlike (.arr l) (.arr l')
  | obj {fs fs'} : FieldsAlike fs fs' → JsonAlike (.obj fs) (.obj fs')
inductive ElemsAlike : List Json → List Json → Prop
  | nil : ElemsAlike [] []
  | cons {j j' l l'} : JsonAlike j j' → ElemsAlike l l' → ElemsAlike (j :: l) (j' :: l')
inductive FieldsAlike : List (String × Json) → List (String × Json) → Prop
  | nil : FieldsAlike [] []
  | cons {k j j' l l'} : JsonAlike j j' → FieldsAlike l l' → FieldsAlike ((k, j) :: l) ((k, j') :: l')
end

/-- The same token, or two scalars. -/
inductive TokenAlike : Token → Token → Prop
  | scalar {x y} : r x y → TokenAlike (.scalar x) (.scalar y)
  | same {t} : (∀ x, t ≠ .scalar x) → TokenAlike t t

/-- The same tokens but for the scalars. -/
inductive TokensAlike : List Token → List Token → Prop
  | nil : TokensAlike [] []
  | cons {t t' ts ts'} : TokenAlike r t t' → TokensAlike ts ts' → TokensAlike (t :: ts) (t' :: ts')

/-! ## Stored values, parsers, callbacks -/

mutual
/-- The same stored value but for its scalars. -/
inductive ValAlike : Val → Val → Prop
  | sc {x y} : r x y → ValAlike (.sc x) (.sc y)
  | arr {l l'} : ValsAlike l l' → ValAlike (.arr l) (.arr l')
  | tup {l l'} : ValsAlike l l' → ValAlike (.tup l) (.tup l')
  | map {l l'} : EntriesAlike l l' → ValAlike (.map l) (.map l')
  | alt {n v v'} : ValAlike v v' → ValAlike (.alt n v) (.alt n v')
  | init : ValAlike .init .init
  | user {tag l l'} : ValsAlike l l' → ValAlike (.user tag l) (.user tag l')
  | moved : ValAlike .moved .moved
inductive ValsAlike : List Val → List Val → Prop
  | nil : ValsAlike [] []
  | cons {v v' l l'} : ValAlike v v' → ValsAlike l l' → ValsAlike (v :: l) (v' :: l')
inductive EntriesAlike : List (String × Val) → List (String × Val) → Prop
  | nil : EntriesAlike [] []
  | cons {k v v' l l'} : ValAlike v v' → EntriesAlike l l' → EntriesAlike ((k, v) :: l) ((k, v') :: l')
end

/-- Both are values that are alike, or none is one. -/
inductive OptAlike : Option Val → Option Val → Prop
  | none : OptAlike none none
  | some {v v'} : ValAlike r v v' → OptAlike (some v) (some v')

mutual
/-- What is seen of a parser is the same but for the scalars. -/
inductive SnapAlike : Snap → Snap → Prop
  | node {set empty val val' cur kids kids'} : OptAlike r val val' → SnapsAlike kids kids' → SnapAlike (.node set empty val cur kids) (.node set empty val' cur kids')
inductive SnapsAlike : List Snap → List Snap → Prop
  | nil : SnapsAlike [] []
  | cons {a a' l l'} : SnapAlike a a' → SnapsAlike l l' → SnapsAlike (a :: l) (a' :: l')
end

/-- The argument of a finish callback. -/
inductive ArgAlike : Arg → Arg → Prop
  | val {v v'} : ValAlike r v v' → ArgAlike (.val v) (.val v')
  | parser {a a'} : SnapAlike r a a' → ArgAlike (.parser a) (.parser a')

/-- The same callback is called, with arguments that are alike. -/
inductive CallAlike : Call → Call → Prop
  | finish {p a a'} : ArgAlike r a a' → CallAlike (.finish p a) (.finish p a')
  | element {p k a a'} : SnapAlike r a a' → CallAlike (.element p k a) (.element p k a')

/-- The same calls in the same order, with arguments that are alike. -/
inductive LogAlike : Log → Log → Prop
  | nil : LogAlike [] []
  | cons {c c' l l'} : CallAlike r c c' → LogAlike l l' → LogAlike (c :: l) (c' :: l')

/-- The callbacks do the same: both return true, both return false or both throw the same exception; they take the values of the same parsers; and the value
one assigns to its `SCustomObject` is like the one the other assigns. -/
structure AnswerAlike (o o' : CbOut) : Prop where
  verdict : o.verdict = o'.verdict
  pops : o.pops = o'.pops
  newVal : OptAlike r o.newVal o'.newVal

/-- The same parsers have callbacks, and after calls that are alike, with arguments that are alike, these do the same. -/
structure EnvAlike (E E' : Env) : Prop where
  finish : ∀ p, (E.onFinish p = none ∧ E'.onFinish p = none) ∨
    ∃ cb cb', E.onFinish p = some cb ∧ E'.onFinish p = some cb' ∧ ∀ l l' a a', LogAlike r l l' → ArgAlike r a a' → AnswerAlike r (cb l a) (cb' l' a')
  element : ∀ p, (E.onElement p = none ∧ E'.onElement p = none) ∨
    ∃ cb cb', E.onElement p = some cb ∧ E'.onElement p = some cb' ∧ ∀ l l' k a a', LogAlike r l l' → SnapAlike r a a' → AnswerAlike r (cb l k a) (cb' l' k a')
  fmt : E.fmtDbl = E'.fmtDbl

/-- A parser object is in the same state but for the scalars of its value. -/
structure CellAlike (c c' : Cell) : Prop where
  disp : c.disp = c'.disp
  set : c.set = c'.set
  empty : c.empty = c'.empty
  val : ValAlike r c.val c'.val
  started : c.started = c'.started
  curKey : c.curKey = c'.curKey
  curId : c.curId = c'.curId
  struct : c.struct = c'.struct

/-- All parser objects, the dispatcher and the calls so far. -/
structure StateAlike (s s' : St) : Prop where
  stack : s.stack = s'.stack
  cells : ∀ p, CellAlike r (s.heap p) (s'.heap p)
  calls : LogAlike r s.log s'.log

/-- The same exception; only a type value that a union does not know is quoted as it is. -/
inductive ErrorAlike (fmt : Dbl → String) : Exn → Exn → Prop
  | same {e} : ErrorAlike fmt e e
  | unknown {x y} : r x y → ErrorAlike fmt (.std ("Unexpected member " ++ showName fmt x)) (.std ("Unexpected member " ++ showName fmt y))

/-- The same outcome but for the scalars: results related by `P` or exceptions related by `Q`, and states that are alike. -/
inductive ResultAlike (Q : Exn → Exn → Prop) {α β : Type} (P : α → β → Prop) : Res α → Res β → Prop
  | ok {a b s s'} : P a b → StateAlike r s s' → ResultAlike Q P (.ok a s) (.ok b s')
  | throw {e e' s s'} : Q e e' → StateAlike r s s' → ResultAlike Q P (.throw e s) (.throw e' s')
  | ub : ResultAlike Q P .ub .ub
  | fuel : ResultAlike Q P .fuel .fuel

/-! ## Parser trees -/

/-- The members of an object or the alternatives of a union. -/
def Shape.declared : Shape → List (MInfo × Shape)
  | .object _ _ ms => ms
  | .union _ _ _ ms => ms
  | _ => []

/-- The parser tree cannot tell related scalars apart: they are of the same type, they select the same alternative of every union, and the default values
are related to themselves. -/
structure Unseen (R : Shape) : Prop where
  type : ∀ x y, r x y → x.ty = y.ty
  choice : ∀ p ty tm st ms, R.at p = some (.union ty tm st ms) → ∀ i sh, (i, sh) ∈ ms → ∀ x y, r x y → i.name.cppEq x = i.name.cppEq y
  default : ∀ p sh, R.at p = some sh → ∀ i m v, (i, m) ∈ sh.declared → i.dflt = some v → ValAlike r v v

/-- Scalars of the same type between which no union of the tree chooses. -/
def Indistinguishable (R : Shape) (x y : Scalar) : Prop :=
  x.ty = y.ty ∧ ∀ p ty tm st ms, R.at p = some (.union ty tm st ms) → ∀ i sh, (i, sh) ∈ ms → i.name.cppEq x = i.name.cppEq y

/-! ## Replacing scalars -/

mutual
/-- All scalars replaced. -/
def Json.replace (f : Scalar → Scalar) : Json → Json
  | .null => .null
  | .sc x => .sc (f x)
  | .arr l => .arr (replaceL f l)
  | .obj fs => .obj (replaceF f fs)
def replaceL (f : Scalar → Scalar) : List Json → List Json
  | [] => []
  | j :: l => j.replace f :: replaceL f l
def replaceF (f : Scalar → Scalar) : List (String × Json) → List (String × Json)
  | [] => []
  | (k, j) :: l => (k, j.replace f) :: replaceF f l
end

mutual
/-- All scalars of a stored value replaced. -/
def Val.replace (f : Scalar → Scalar) : Val → Val
  | .sc x => .sc (f x)
  | .arr l => .arr (replaceVs f l)
  | .tup l => .tup (replaceVs f l)
  | .map l => .map (replaceEs f l)
  | .alt n v => .alt n (v.replace f)
  | .init => .init
  | .user tag l => .user tag (replaceVs f l)
  | .moved => .moved
def replaceVs (f : Scalar → Scalar) : List Val → List Val
  | [] => []
  | v :: l => v.replace f :: replaceVs f l
def replaceEs (f : Scalar → Scalar) : List (String × Val) → List (String × Val)
  | [] => []
  | (k, v) :: l => (k, v.replace f) :: replaceEs f l
end

end SJ
