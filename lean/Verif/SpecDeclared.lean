/-
The order in which members are declared (C63): what the user compares.
-/
import Verif.SpecObjects
import Verif.SpecState
import Verif.Model.Api

namespace SJ

/-- What the public methods of two parsers of the same kind `sh` show is the same: `isSet()`, for a parser that stores its value `get()` (a value or an
exception), and likewise (through `d`) everything about the members inside. -/
def ShowSame (sh : Shape) (s : St) (p : Path) (t : St) (q : Path) : Prop :=
  isSet p s = isSet q t ∧ (sh.isStorage = true → (get p s).value? = (get q t).value?) ∧ ∃ d, Holds s.heap p d ∧ Holds t.heap q d

/-- Two object parsers that declare the same members in different orders, `ms` and `ms'`, show the same: both are set or neither; of two `SAutoObject`s the
tuples have the same value for each member; otherwise the parsers of each member show the same. -/
def ObjectsAgree (k : ObjKind) (ms ms' : List (MInfo × Shape)) (s : St) (p : Path) (t : St) (q : Path) : Prop :=
  isSet p s = isSet q t ∧ (isSet p s = true →
    if k = .auto then ∃ vs vs', get p s = .ok (.tup vs) s ∧ get q t = .ok (.tup vs') t ∧ vs.length = ms.length ∧ vs'.length = ms'.length ∧
      ∀ (n n' : Nat) y, ms[n]? = some y → ms'[n']? = some y → vs[n]? = vs'[n']?
    else ∀ (n n' : Nat) y, ms[n]? = some y → ms'[n']? = some y → ShowSame y.2 s (.mem n :: p) t (.mem n' :: q))

/-- Two unions that declare the same alternatives in different orders show the same: both are set or neither; the same alternative is selected (under its two
numbers); its parser (`Union`) or its value (`SUnion`) is the same. -/
def UnionsAgree (st : Bool) (ms ms' : List (MInfo × Shape)) (s : St) (p : Path) (t : St) (q : Path) : Prop :=
  isSet p s = isSet q t ∧ (isSet p s = true → ∃ n n' y, ms[n]? = some y ∧ ms'[n']? = some y ∧
    if st = true then ∃ v, get p s = .ok (.alt n v) s ∧ get q t = .ok (.alt n' v) t
    else currentMemberId p s = .ok n s ∧ currentMemberId q t = .ok n' t ∧ ShowSame y.2 s (.mem n :: p) t (.mem n' :: q))

end SJ
