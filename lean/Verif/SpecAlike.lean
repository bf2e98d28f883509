/-
When two parsers of the same type, with different histories, behave alike. The only thing a callback can see of the past of a
parser is what the element parser of a `Map` held (`Map` does not reset its element parser), so callbacks that look at it
are set apart.
-/
import Verif.SpecState
import Verif.SpecHistory
import Verif.SpecSession

namespace SJ

mutual
/-- What is seen of a parser of shape `sh` if one does not look at the element parsers of maps. -/
def Snap.cut : Shape → Snap → Snap
  | .map _ _, .node a b c d _ => .node a b c d []
  | .array _ e, .node a b c d ks => .node a b c d (ks.map (Snap.cut e))
  | .object _ _ ms, .node a b c d ks => .node a b c d (cutMs ms ks)
  | .union _ _ _ ms, .node a b c d ks => .node a b c d (cutMs ms ks)
  | .value _, s => s
  | .ignore, s => s
/-- The same for the members. -/
def cutMs : List (MInfo × Shape) → List Snap → List Snap
  | (_, sh) :: ms, k :: ks => k.cut sh :: cutMs ms ks
  | _, ks => ks
end

/-- A callback invocation without what it shows of the element parsers of maps. -/
def Call.cut (R : Shape) : Call → Call
  | .finish p (.val v) => .finish p (.val v)
  | .finish p (.parser s) => .finish p (.parser (match R.at p with | some sh => s.cut sh | none => s))
  | .element p key s => .element p key (match R.at (.elem :: p) with | some sh => s.cut sh | none => s)

def Log.cut (R : Shape) (l : Log) : Log := l.map (Call.cut R)

/-- What the callbacks do does not depend on what they are shown of the element parsers of maps (the element callback of a map does get
its element parser, and may look at it; but not at those of maps inside it). -/
structure Blind (R : Shape) (E : Env) : Prop where
  fin : ∀ p cb, E.onFinish p = some cb → ∀ l l' a a', Log.cut R l = Log.cut R l' → (Call.finish p a).cut R = (Call.finish p a').cut R →
    cb l a = cb l' a'
  elem : ∀ p cb, E.onElement p = some cb → ∀ l l' k a a', Log.cut R l = Log.cut R l' →
    (Call.element p k a).cut R = (Call.element p k a').cut R → cb l k a = cb l' k a'

/-- There is no map in the tree. -/
def MapFree (R : Shape) : Prop := ∀ q st e, R.at q ≠ some (.map st e)

/-- The token begins a value, or is a complete one. -/
def Token.opens : Token → Bool
  | .null => true
  | .scalar _ => true
  | .mapStart => true
  | .arrStart => true
  | _ => false

/-- Two rules that any sequence of tokens coming from JSON text follows: the first token, if `exp`, and the token after each
key begin a value. -/
def Sequenced : Bool → List Token → Prop
  | _, [] => True
  | exp, t :: ts => (exp = true → t.opens = true) ∧ Sequenced (match t with | .mapKey _ => true | _ => false) ts

/-- A null arrives as an element of an array of other parsers than `Value`s, or a scalar of the selecting type as an element of an array
of unions. What the code does then depends on whether there was an element before. -/
def Hazard (R : Shape) (t : Token) (s : St) : Prop := NullElement R t s ∨ ScalarForUnion R t s

/-- The same outcome in the same state as far as it can be seen: the same result or the same exception; the same current
parsers; the same callback invocations, and everything (but the element parsers of maps) that the root parser shows is the same. -/
inductive SameRun (R : Shape) : Res Unit → Res Unit → Prop
  | ok {s t : St} : s.stack = t.stack → Log.cut R s.log = Log.cut R t.log → (snap s.heap [] R).cut R = (snap t.heap [] R).cut R → SameRun R (.ok () s) (.ok () t)
  | throw {e : Exn} {s t : St} : s.stack = t.stack → Log.cut R s.log = Log.cut R t.log → SameRun R (.throw e s) (.throw e t)
  | ub : SameRun R .ub .ub

/-- The same, and the element parsers of maps are also the same. -/
inductive EqualRun (R : Shape) : Res Unit → Res Unit → Prop
  | ok {s t : St} : s.stack = t.stack → s.log = t.log → snap s.heap [] R = snap t.heap [] R → EqualRun R (.ok () s) (.ok () t)
  | throw {e : Exn} {s t : St} : s.stack = t.stack → s.log = t.log → EqualRun R (.throw e s) (.throw e t)
  | ub : EqualRun R .ub .ub

/-- The same outcome of a document as far as it can be seen: both were read, and everything (but the element parsers of maps) that the root parser shows is the
same; or both failed with the same `sjparserError()`. In both cases the callback invocations are the same. -/
inductive SameReading {Y : Yajl} (R : Shape) : PRes Y Unit → PRes Y Unit → Prop
  | ok {s t : PSt Y} : Log.cut R s.st.log = Log.cut R t.st.log → (snap s.st.heap [] R).cut R = (snap t.st.heap [] R).cut R → SameReading R (.ok () s) (.ok () t)
  | throw {sj y y' : String} {s t : PSt Y} : Log.cut R s.st.log = Log.cut R t.st.log → SameReading R (.throw (.parsing sj y) s) (.throw (.parsing sj y') t)
  | ub : SameReading R .ub .ub

/-- A parser just constructed. `l` are the callback invocations of other parsers so far. -/
def PSt.new (Y : Yajl) (R : Shape) (l : Log) : PSt Y := { PSt.init Y R with st := { St.init R with log := l } }

end SJ
