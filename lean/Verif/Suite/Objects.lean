/-
/repo/tests/src/object.cpp, sautoobject.cpp, scustomobject.cpp. SAutoObject.UnknownExceptionInValueSetter is in `Verif/Suite/UserTypes.lean`. The assertions that no copy constructor is used have no counterpart in the model.
A parser given by reference is treated as a parser of the tree; a moved parser as the parser it was moved from (`Verif/Model/Moves.lean` has the moves).
-/
import Verif.Suite.Harness

namespace SJ.Suite

/-- `std::tuple{Member{"bool", Value<bool>{}}, Member{"string", Value<std::string>{}}}` -/
def boolString : List (MInfo × Shape) := [mem "bool" bool, mem "string" str]

def trueValue : String := "{\"bool\": true, \"string\": \"value\"}"
def withError : String := "{\"error\": true, \"bool\": true, \"string\": \"value\"}"

/-! ## object.cpp -/

/-- Object.Empty -/
example : test quiet (obj boolString) [.parse "{}", .finish, .isSet [] false, .isEmpty [] true] = true := by decide +kernel
/-- Object.Null -/
example : test quiet (obj boolString) [.parse "null", .finish, .isSet [] false, .isEmpty [] true] = true := by decide +kernel
/-- Object.Reset -/
example : test quiet (obj boolString) [.parse trueValue, .finish, .getN [] 0 (b true), .getN [] 1 (s "value"), .parse "null", .finish, .isSet [] false] = true := by
  decide +kernel
/-- Object.UnexpectedMember -/
example : test quiet (obj boolString) [.parseFails withError "Unexpected member error", .isSet [] false] = true := by decide +kernel
/-- Object.IgnoredUnexpectedMember -/
example : test quiet (ignoring (obj boolString)) [.parse withError, .finish, .getN [] 0 (b true), .getN [] 1 (s "value")] = true := by decide +kernel
/-- Object.MembersWithCallbackError -/
example : test (env [(at_ [0], no), (at_ [1], yes)]) (obj boolString) [.parseFails trueValue "Callback returned false", .isSet [] false] = true := by decide +kernel
/-- Object.ObjectWithCallback -/
example : test (env [([], yes)]) (obj boolString)
    [.parse trueValue, .finish, .getN [] 0 (b true), .getN [] 1 (s "value"), .saw [.parser [] [some (b true), some (s "value")]]] = true := by
  decide +kernel
/-- Object.ObjectWithOptionsAndCallback -/
example : test (env [([], yes)]) (ignoring (obj boolString))
    [.parse withError, .finish, .getN [] 0 (b true), .getN [] 1 (s "value"), .saw [.parser [] [some (b true), some (s "value")]]] = true := by
  decide +kernel
/-- Object.ObjectWithCallbackError -/
example : test (env [([], no)]) (obj boolString) [.parseFails trueValue "Callback returned false", .isSet [] true] = true := by decide +kernel
/-- Object.StdStringiMemberNames -/
example : test quiet (obj [mem "string" str, mem "integer" int])
    [.parse "{\"string\": \"value\", \"integer\": 10}", .finish, .getN [] 0 (s "value"), .getN [] 1 (i 10)] = true := by
  decide +kernel
/-- Object.ObjectWithUnexpectedObject -/
example : test quiet (obj [mem "string" str, mem "object" (obj [mem "integer" int])])
    [.parseFails "\n{\n  \"string\": \"value\",\n  \"object\": {\n    \"error\": 1\n  }\n}" "Unexpected member error", .isSet [] false] = true := by
  decide +kernel
/-- Object.Move -/
example : test quiet (obj [mem "object" (custom [mem "integer" int, mem "string" str])])
    [.callbacks (env [(at_ [0], build)]),
     .parse "\n{\n  \"object\": {\n    \"integer\": 1,\n    \"string\": \"in_value\"\n  }\n}", .finish,
     .popN [] 0 (.user "struct" [i 1, s "in_value"]), .isSet (at_ [0]) false,
     .parse "\n{\n  \"object\": {\n    \"integer\": 10,\n    \"string\": \"in_value2\"\n  }\n}", .finish,
     .popN [] 0 (.user "struct" [i 10, s "in_value2"]), .isSet (at_ [0]) false] = true := by
  decide +kernel
/-- Object.RepeatingMembers -/
example : constructFails [.str "member", .str "member"] "Member member appears more, than once" = true := by decide +kernel
/-- Object.ObjectWithParserReference -/
example : test quiet (obj [mem "string" str, mem "integer" int, mem "array" (sarray str)])
    [.parse "\n{\n  \"string\": \"value\",\n  \"integer\": 10,\n  \"array\": [\n    \"elt1\",\n    \"elt2\",\n    \"elt3\"\n  ]\n}", .finish,
     .getN [] 0 (s "value"), .getN [] 1 (i 10), .getN [] 2 (.arr [s "elt1", s "elt2", s "elt3"])] = true := by
  decide +kernel
/-- Object.MissingMember -/
example : test quiet (obj boolString) [.parseFails "{\"bool\": true}" "Mandatory member string is not present", .isSet [] false] = true := by decide +kernel
/-- Object.OptionalMember -/
example : test quiet (obj [mem "bool" bool, opt (mem "string" str)]) [.parse "{\"bool\": true}", .finish, .getN [] 0 (b true), .isSet (at_ [1]) false] = true := by
  decide +kernel
/-- Object.OptionalMemberWithDefaultValue -/
example : test quiet (obj [mem "bool" bool, optD (mem "string" str) (s "value")])
    [.parse "{\"bool\": true}", .finish, .getN [] 0 (b true), .isSet (at_ [1]) false, .getN [] 1 (s "value"), .popN [] 1 (s "value")] = true := by
  decide +kernel
/-- Object.MoveAssignment -/
example : test quiet (obj boolString) [.parse trueValue, .finish, .getN [] 0 (b true), .getN [] 1 (s "value")] = true := by decide +kernel
/-- Object.StructuredBindings -/
example : test quiet (obj [mem "bool" bool, mem "string" str, mem "object" (obj [mem "integer" int])])
    [.parse "\n{\n  \"bool\": true,\n  \"string\": \"value\",\n  \"object\": {\n    \"integer\": 10\n  }\n}", .finish,
     .getN [] 0 (b true), .getN [] 1 (s "value"), .getN (at_ [2]) 0 (i 10)] = true := by
  decide +kernel

/-! ## sautoobject.cpp -/

/-- SAutoObject.Empty -/
example : test quiet (auto boolString) [.parse "{}", .finish, .isSet [] false, .isEmpty [] true] = true := by decide +kernel
/-- SAutoObject.Null -/
example : test quiet (auto boolString) [.parse "null", .finish, .isSet [] false, .isEmpty [] true] = true := by decide +kernel
/-- SAutoObject.Reset -/
example : test quiet (auto boolString) [.parse trueValue, .finish, .get [] (.tup [b true, s "value"]), .parse "null", .finish, .isSet [] false] = true := by decide +kernel
/-- SAutoObject.UnexpectedMember -/
example : test quiet (auto boolString) [.parseFails withError "Unexpected member error", .isSet [] false] = true := by decide +kernel
/-- SAutoObject.IgnoredUnexpectedMember -/
example : test quiet (ignoring (auto boolString)) [.parse withError, .finish, .get [] (.tup [b true, s "value"])] = true := by decide +kernel
/-- SAutoObject.MembersWithCallbackError -/
example : test (env [(at_ [0], no), (at_ [1], yes)]) (auto boolString) [.parseFails trueValue "Callback returned false", .isSet [] false] = true := by decide +kernel
/-- SAutoObject.SAutoObjectWithCallback -/
example : test (env [([], yes)]) (auto boolString) [.parse trueValue, .finish, .saw [.value [] (.tup [b true, s "value"])]] = true := by decide +kernel
/-- SAutoObject.SAutoObjectWithCallbackError -/
example : test quiet (auto boolString) [.callbacks (env [([], no)]), .parseFails trueValue "Callback returned false", .isSet [] true] = true := by decide +kernel
/-- SAutoObject.Move -/
example : test quiet (auto [mem "object" (custom [mem "integer" int, mem "string" str])])
    [.callbacks (env [(at_ [0], build)]),
     .parse "\n{\n  \"object\": {\n    \"integer\": 1,\n    \"string\": \"in_value\"\n  }\n}", .finish,
     .pop [] (.tup [.user "struct" [i 1, s "in_value"]]), .isSet [] false,
     .parse "\n{\n  \"object\": {\n    \"integer\": 10,\n    \"string\": \"in_value2\"\n  }\n}", .finish,
     .pop [] (.tup [.user "struct" [i 10, s "in_value2"]]), .isSet [] false] = true := by
  decide +kernel
/-- SAutoObject.SAutoObjectWithParserReference -/
example : test quiet (auto [mem "string" str, mem "integer" int, mem "array" (sarray str)])
    [.parse "\n{\n  \"string\": \"value\",\n  \"integer\": 10,\n  \"array\": [\n    \"elt1\",\n    \"elt2\",\n    \"elt3\"\n  ]\n}", .finish,
     .get [] (.tup [s "value", i 10, .arr [s "elt1", s "elt2", s "elt3"]])] = true := by
  decide +kernel
/-- SAutoObject.MissingMember -/
example : test quiet (auto boolString) [.parseFails "{\"bool\": true}" "Can not set value: Mandatory member string is not present", .isSet [] false] = true := by
  decide +kernel
/-- SAutoObject.OptionalMember -/
example : test quiet (auto [mem "bool" bool, opt (mem "string" str)])
    [.parseFails "{\"bool\": true}" "Can not set value: Optional member string does not have a default value", .isSet [] false] = true := by
  decide +kernel
/-- SAutoObject.OptionalMemberWithDefaultValue -/
example : test quiet (auto [mem "bool" bool, optD (mem "string" str) (s "value")])
    [.parse "{\"bool\": true}", .finish, .isSet (at_ [1]) false, .get [] (.tup [b true, s "value"])] = true := by
  decide +kernel
/-- SAutoObject.MoveAssignment -/
example : test quiet (auto boolString) [.parse trueValue, .finish, .get [] (.tup [b true, s "value"])] = true := by decide +kernel

/-! ## scustomobject.cpp -/

/-- `std::tuple{Member{"string", Value<std::string>{}}, Member{"integer", Value<int64_t>{}}}` -/
def stringInteger : List (MInfo × Shape) := [mem "string" str, mem "integer" int]

/-- SCustomObject.Empty -/
example : test (env [([], yes)]) (custom stringInteger) [.parse "{}", .finish, .isSet [] false, .isEmpty [] true] = true := by decide +kernel
/-- SCustomObject.Null -/
example : test (env [([], yes)]) (custom stringInteger) [.parse "null", .finish, .isSet [] false, .isEmpty [] true] = true := by decide +kernel
/-- SCustomObject.Reset -/
example : test (env [([], build)]) (custom boolString)
    [.parse trueValue, .finish, .get [] (.user "struct" [b true, s "value"]), .parse "null", .finish, .isSet [] false] = true := by
  decide +kernel
/-- SCustomObject.UnexpectedMember -/
example : test quiet (custom boolString) [.parseFails withError "Unexpected member error", .isSet [] false] = true := by decide +kernel
/-- SCustomObject.IgnoredUnexpectedMember -/
example : test quiet (ignoring (custom boolString)) [.callbacks (env [([], build)]), .parse withError, .finish, .get [] (.user "struct" [b true, s "value"])] = true := by
  decide +kernel
/-- SCustomObject.MembersWithCallbackError -/
example : test (env [(at_ [0], no), (at_ [1], yes)]) (custom boolString) [.parseFails trueValue "Callback returned false"] = true := by decide +kernel
/-- SCustomObject.SCustomObjectWithCallbackError -/
example : test quiet (custom boolString) [.callbacks (env [([], no)]), .parseFails trueValue "Callback returned false"] = true := by decide +kernel
/-- SCustomObject.PopValue -/
example : test quiet (custom stringInteger)
    [.callbacks (env [([], build)]), .parse "{\"string\": \"value\", \"integer\": 10}", .finish, .isSet [] true, .pop [] (.user "struct" [s "value", i 10]),
     .isSet [] false] = true := by
  decide +kernel
/-- SCustomObject.Move -/
example : test quiet (custom [mem "integer" int, mem "string" str])
    [.callbacks (env [([], build)]), .parse "\n{\n  \"integer\": 1,\n  \"string\": \"in_value\"\n}", .finish, .pop [] (.user "struct" [i 1, s "in_value"]), .isSet [] false,
     .parse "\n{\n  \"integer\": 10,\n  \"string\": \"in_value2\"\n}", .finish, .pop [] (.user "struct" [i 10, s "in_value2"]), .isSet [] false] = true := by
  decide +kernel
/-- SCustomObject.SCustomObjectWithParserReference -/
example : test quiet (custom [mem "string" str, mem "integer" int, mem "array" (sarray str)])
    [.callbacks (env [([], build)]),
     .parse "\n{\n  \"string\": \"value\",\n  \"integer\": 10,\n  \"array\": [\n    \"elt1\",\n    \"elt2\",\n    \"elt3\"\n  ]\n}", .finish,
     .get [] (.user "struct" [s "value", i 10, .arr [s "elt1", s "elt2", s "elt3"]])] = true := by
  decide +kernel
/-- SCustomObject.MissingMember -/
example : test quiet (custom boolString) [.parseFails "{\"bool\": true}" "Mandatory member string is not present", .isSet [] false] = true := by decide +kernel
/-- SCustomObject.OptionalMember -/
example : test quiet (custom [mem "bool" bool, opt (mem "string" str)]) [.parse "{\"bool\": true}", .finish, .getN [] 0 (b true), .isSet (at_ [1]) false] = true := by
  decide +kernel
/-- SCustomObject.OptionalMemberWithDefaultValue -/
example : test quiet (custom [mem "bool" bool, optD (mem "string" str) (s "value")])
    [.parse "{\"bool\": true}", .finish, .getN [] 0 (b true), .isSet (at_ [1]) false, .getN [] 1 (s "value")] = true := by
  decide +kernel
/-- SCustomObject.MoveAssignmenteset -/
example : test (env [([], build)]) (custom boolString) [.parse trueValue, .finish, .get [] (.user "struct" [b true, s "value"])] = true := by decide +kernel

end SJ.Suite
