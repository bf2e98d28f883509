/-
/repo/tests/src/sautoobject.cpp and standalone_sunion.cpp: the two tests in which the assignment operator of a user's type throws. They run on `Verif/Model/Memory.lean`; the number says
which of the operations is the one that throws (the operations before it are the `reset()`s of the two objects).
-/
import Verif.Suite.Harness
import Verif.SpecMemory

namespace SJ.Suite
open SJ.Demo (bytes buffer)

/-- `parser.parse(buf)` with `throw 10` in the `n`-th operation of a user's type; `sjparserError()` and `parser.parser().isSet()`. -/
def parseThrowing (R : Shape) (text : String) (n : Nat) : Option (String × Bool) :=
  match PA.parse Y (.user .other fun _ => none) { onFinish := fun _ => none, onElement := fun _ => none, fmtDbl := fun _ => "" } R (buffer text) (some 0) (bytes text).length n (PSt.init Y R) with
  | .throw (.parsing e _) _ s => some (e, isSet [] s.st)
  | _ => none

/-- SAutoObject.UnknownExceptionInValueSetter -/
example : parseThrowing (auto [mem "object" (custom [mem "integer" int, mem "string" str])])
    "{\n  \"object\": {\n    \"integer\": 1,\n    \"string\": \"in_value\"\n  }\n}" 2 = some ("Can not set value: unknown exception", false) := by decide +kernel

/-- StandaloneSUnion.UnknownExceptionInValueSetter -/
example : parseThrowing (sunion .int [memI 1 (custom [mem "bool" bool]), memI 2 (auto [mem "int" int])])
    "{\"type\": 1, \"bool\": true}" 2 = some ("Can not set value: unknown exception", false) := by decide +kernel

end SJ.Suite
