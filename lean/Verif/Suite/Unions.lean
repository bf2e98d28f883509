/-
/repo/tests/src/standalone_union.cpp, embedded_union.cpp, standalone_sunion.cpp, embedded_sunion.cpp. StandaloneSUnion.UnknownExceptionInValueSetter is in
`Verif/Suite/UserTypes.lean`.
-/
import Verif.Suite.Harness

namespace SJ.Suite

/-- `Object{std::tuple{Member{"bool", Value<bool>{}}}}` and so on -/
def oBool : Shape := obj [mem "bool" bool]
def oInt : Shape := obj [mem "int" int]
def oBoolInteger : Shape := obj [mem "bool" bool, mem "integer" int]
def oDoubleString : Shape := obj [mem "double" dbl, mem "string" str]
def aBool : Shape := auto [mem "bool" bool]
def aInt : Shape := auto [mem "int" int]
def aBoolInteger : Shape := auto [mem "bool" bool, mem "integer" int]
def aDoubleString : Shape := auto [mem "double" dbl, mem "string" str]
def aBoolString : Shape := auto [mem "bool" bool, mem "string" str]

def type1 : String := "{\"type\": 1}"
def type1Both : String := "{\"type\": 1, \"bool\": true, \"integer\": 10}"
def type2Both : String := "{\"type\": 2, \"double\": 11.5, \"string\": \"value\"}"
def type1Bool : String := "\n{\n  \"type\": 1,\n  \"bool\": true\n}"
def type2Int : String := "\n{\n  \"type\": 2,\n  \"int\": 100\n}"
def typeS1Bool : String := "\n{\n  \"type\": \"1\",\n  \"bool\": true\n}"
def typeS2Int : String := "\n{\n  \"type\": \"2\",\n  \"int\": 100\n}"
def type3 : String := "\n{\n  \"type\": 3,\n  \"bool\": true\n}"
def error1 : String := "\n{\n  \"error\": 1,\n  \"bool\": true\n}"
def type1Error : String := "\n{\n  \"type\": 1,\n  \"error\": true\n}"
def type1String : String := "\n{\n  \"type\": 1,\n  \"bool\": true,\n  \"string\": \"value\"\n}"

/-! ## standalone_union.cpp -/

/-- The union of most of these tests. -/
def U : Shape := union .int [memI 1 oBool, memI 2 oInt]

/-- StandaloneUnion.Empty -/
example : test quiet U [.parse "{}", .finish, .isSet [] false, .isEmpty [] true] = true := by decide +kernel
/-- StandaloneUnion.EmptyWithType -/
example : test quiet U [.parseFails type1 "Mandatory member #0 is not present", .isSet [] false] = true := by decide +kernel
/-- StandaloneUnion.OptionalMember -/
example : test quiet (union .int [opt (memI 1 oBool), memI 2 oInt])
    [.parse type1, .finish, .isSet [] true, .isEmpty [] false, .currentMemberId [] 0, .isSet (at_ [0]) false] = true := by
  decide +kernel
/-- StandaloneUnion.OptionalMemberWithDefaultValue -/
example : test quiet (union .int [optD (memI 1 aBool) (.tup [b false]), memI 2 oInt])
    [.parse type1, .finish, .isSet [] true, .isEmpty [] false, .currentMemberId [] 0, .isSet (at_ [0]) false, .getN [] 0 (.tup [b false])] = true := by
  decide +kernel
/-- StandaloneUnion.Null -/
example : test quiet U [.parse "null", .finish, .isSet [] false, .isEmpty [] true] = true := by decide +kernel
/-- StandaloneUnion.Reset -/
example : test quiet (union .int [memI 1 oBoolInteger, memI 2 oBool])
    [.parse type1Both, .finish, .isSet (at_ [0]) true, .isEmpty [] false, .isSet (at_ [1]) false, .currentMemberId [] 0, .getN (at_ [0]) 0 (b true), .getN (at_ [0]) 1 (i 10),
     .parse "null", .finish, .isSet [] false, .isEmpty [] true] = true := by
  decide +kernel
/-- StandaloneUnion.AllValuesMembers -/
example : test quiet (union .int [memI 1 oBoolInteger, memI 2 oDoubleString])
    [.parse type1Both, .finish, .isSet (at_ [0]) true, .isSet (at_ [1]) false, .currentMemberId [] 0, .getN (at_ [0]) 0 (b true), .getN (at_ [0]) 1 (i 10),
     .parse type2Both, .finish, .isSet (at_ [0]) false, .isSet (at_ [1]) true, .currentMemberId [] 1, .getN (at_ [1]) 0 (d "11.5"), .getN (at_ [1]) 1 (s "value")] = true := by
  decide +kernel
/-- StandaloneUnion.StringType -/
example : test quiet (union .str [mem "1" oBool, mem "2" oInt])
    [.parse typeS1Bool, .finish, .isSet (at_ [0]) true, .isSet (at_ [1]) false, .currentMemberId [] 0, .getN (at_ [0]) 0 (b true),
     .parse typeS2Int, .finish, .isSet (at_ [0]) false, .isSet (at_ [1]) true, .currentMemberId [] 1, .getN (at_ [1]) 0 (i 100)] = true := by
  decide +kernel
/-- StandaloneUnion.IncorrectTypeType -/
example : test quiet U [.parseFails typeS1Bool "Unexpected token string", .isSet [] false] = true := by decide +kernel
/-- StandaloneUnion.IncorrectTypeValue -/
example : test quiet U [.parseFails type3 "Unexpected member 3", .isSet [] false] = true := by decide +kernel
/-- StandaloneUnion.IncorrectTypeMember -/
example : test quiet U [.parseFails error1 "Unexpected member error", .isSet [] false] = true := by decide +kernel
/-- StandaloneUnion.MembersWithCallbackError -/
example : test quiet U
    [.callbacks (env [(at_ [0], no), (at_ [1], no)]), .parseFails type1Bool "Callback returned false", .isSet [] false, .parseFails type2Int "Callback returned false",
     .isSet [] false] = true := by
  decide +kernel
/-- StandaloneUnion.UnionWithCallback -/
example : test quiet U
    [.callbacks (env [([], yes)]), .parse type1Bool, .finish, .getN (at_ [0]) 0 (b true), .saw [.alt [] 0 [some (b true)]],
     .parse type2Int, .finish, .getN (at_ [1]) 0 (i 100), .saw [.alt [] 0 [some (b true)], .alt [] 1 [some (i 100)]]] = true := by
  decide +kernel
/-- StandaloneUnion.UnionWithCallbackError -/
example : test quiet U [.callbacks (env [([], no)]), .parseFails type1Bool "Callback returned false", .isSet [] true] = true := by decide +kernel
/-- StandaloneUnion.UnionWithUnexpectedObject -/
example : test quiet U [.parseFails type1Error "Unexpected member error", .isSet [] false] = true := by decide +kernel
/-- StandaloneUnion.RepeatingMembers -/
example : constructFails [.int 1, .int 1] "Member 1 appears more, than once" = true := by decide +kernel
/-- StandaloneUnion.StandaloneUnionWithParserReference -/
example : test quiet (union .int [memI 1 aBoolString, memI 2 oInt])
    [.parse type1String, .finish, .getN [] 0 (.tup [b true, s "value"]), .parse type2Int, .finish, .getN (at_ [1]) 0 (i 100)] = true := by
  decide +kernel
/-- StandaloneUnion.MoveAssignment -/
example : test quiet (union .int [memI 1 oBoolInteger, memI 2 oDoubleString])
    [.parse type1Both, .finish, .isSet (at_ [0]) true, .isSet (at_ [1]) false, .currentMemberId [] 0, .getN (at_ [0]) 0 (b true), .getN (at_ [0]) 1 (i 10)] = true := by
  decide +kernel

/-! ## embedded_union.cpp -/

/-- `Object{std::tuple{Member{"type", union}}}` -/
def inObject (u : Shape) : Shape := obj [mem "type" u]

def EU : Shape := embedded .int [memI 1 oBool, memI 2 oInt]

/-- EmbeddedUnion.Empty -/
example : test quiet (inObject EU) [.parseFails type1 "Mandatory member #0 is not present", .isSet (at_ [0]) false] = true := by decide +kernel
/-- EmbeddedUnion.OptionalMember -/
example : test quiet (inObject (embedded .int [opt (memI 1 oBool), memI 2 oInt]))
    [.parse type1, .finish, .isSet (at_ [0]) true, .isEmpty (at_ [0]) false, .currentMemberId (at_ [0]) 0, .isSet (at_ [0, 0]) false] = true := by
  decide +kernel
/-- EmbeddedUnion.OptionalMemberWithDefaultValue -/
example : test quiet (inObject (embedded .int [optD (memI 1 aBool) (.tup [b false]), memI 2 oInt]))
    [.parse type1, .finish, .isSet (at_ [0]) true, .isEmpty (at_ [0]) false, .currentMemberId (at_ [0]) 0, .isSet (at_ [0, 0]) false,
     .getN (at_ [0]) 0 (.tup [b false])] = true := by
  decide +kernel
/-- EmbeddedUnion.Reset -/
example : test quiet (inObject (embedded .int [memI 1 oBoolInteger, memI 2 oBool]))
    [.parse type1Both, .finish, .isSet (at_ [0, 0]) true, .isEmpty (at_ [0]) false, .isSet (at_ [0, 1]) false, .currentMemberId (at_ [0]) 0,
     .getN (at_ [0, 0]) 0 (b true), .getN (at_ [0, 0]) 1 (i 10), .parse "null", .finish, .isSet (at_ [0]) false, .isEmpty (at_ [0]) true] = true := by
  decide +kernel
/-- EmbeddedUnion.AllValuesMembers -/
example : test quiet (inObject (embedded .int [memI 1 oBoolInteger, memI 2 oDoubleString]))
    [.parse type1Both, .finish, .isSet (at_ [0, 0]) true, .isSet (at_ [0, 1]) false, .currentMemberId (at_ [0]) 0, .getN (at_ [0, 0]) 0 (b true), .getN (at_ [0, 0]) 1 (i 10),
     .parse type2Both, .finish, .isSet (at_ [0, 0]) false, .isSet (at_ [0, 1]) true, .currentMemberId (at_ [0]) 1, .getN (at_ [0, 1]) 0 (d "11.5"),
     .getN (at_ [0, 1]) 1 (s "value")] = true := by
  decide +kernel
/-- EmbeddedUnion.StringType -/
example : test quiet (inObject (embedded .str [mem "1" oBool, mem "2" oInt]))
    [.parse typeS1Bool, .finish, .isSet (at_ [0, 0]) true, .isSet (at_ [0, 1]) false, .currentMemberId (at_ [0]) 0, .getN (at_ [0, 0]) 0 (b true),
     .parse typeS2Int, .finish, .isSet (at_ [0, 0]) false, .isSet (at_ [0, 1]) true, .currentMemberId (at_ [0]) 1, .getN (at_ [0, 1]) 0 (i 100)] = true := by
  decide +kernel
/-- EmbeddedUnion.IncorrectTypeType -/
example : test quiet (inObject EU) [.parseFails typeS1Bool "Unexpected token string", .isSet (at_ [0]) false] = true := by decide +kernel
/-- EmbeddedUnion.IncorrectTypeValue -/
example : test quiet (inObject EU) [.parseFails type3 "Unexpected member 3", .isSet (at_ [0]) false] = true := by decide +kernel
/-- EmbeddedUnion.MembersWithCallbackError -/
example : test quiet (inObject EU)
    [.callbacks (env [(at_ [0, 0], no), (at_ [0, 1], no)]), .parseFails type1Bool "Callback returned false", .isSet (at_ [0]) false,
     .parseFails type2Int "Callback returned false", .isSet (at_ [0]) false] = true := by
  decide +kernel
/-- EmbeddedUnion.UnionWithCallback -/
example : test quiet (inObject EU)
    [.callbacks (env [(at_ [0], yes)]), .parse type1Bool, .finish, .getN (at_ [0, 0]) 0 (b true), .saw [.alt (at_ [0]) 0 [some (b true)]],
     .parse type2Int, .finish, .getN (at_ [0, 1]) 0 (i 100), .saw [.alt (at_ [0]) 0 [some (b true)], .alt (at_ [0]) 1 [some (i 100)]]] = true := by
  decide +kernel
/-- EmbeddedUnion.UnionWithCallbackError -/
example : test quiet (inObject EU) [.callbacks (env [(at_ [0], no)]), .parseFails type1Bool "Callback returned false", .isSet (at_ [0]) true] = true := by decide +kernel
/-- EmbeddedUnion.UnionWithUnexpectedObject -/
example : test quiet (inObject EU) [.parseFails type1Error "Unexpected member error", .isSet (at_ [0]) false] = true := by decide +kernel
/-- EmbeddedUnion.UnionWithUnexpectedMapStart -/
example : test quiet EU [.parseFails type1Bool "Union with an empty type member can't parse this", .isSet [] false] = true := by decide +kernel
/-- EmbeddedUnion.UnionWithUnexpectedMapKey -/
example : test quiet EU [.onFails (.mapKey "test") "Union with an empty type member can't parse this", .isSet [] false] = true := by decide +kernel
/-- EmbeddedUnion.EmbeddedUnionWithParserReference -/
example : test quiet (inObject (embedded .int [memI 1 aBoolString, memI 2 oInt]))
    [.parse type1String, .finish, .getN (at_ [0]) 0 (.tup [b true, s "value"]), .parse type2Int, .finish, .getN (at_ [0, 1]) 0 (i 100)] = true := by
  decide +kernel

/-! ## standalone_sunion.cpp -/

def SU : Shape := sunion .int [memI 1 aBool, memI 2 aInt]

/-- StandaloneSUnion.Empty -/
example : test quiet SU [.parse "{}", .finish, .isSet [] false, .isEmpty [] true] = true := by decide +kernel
/-- StandaloneSUnion.EmptyWithType -/
example : test quiet SU [.parseFails type1 "Can not set value: Mandatory member #0 is not present", .isSet [] false] = true := by decide +kernel
/-- StandaloneSUnion.OptionalMember -/
example : test quiet (sunion .int [opt (memI 1 aBool), memI 2 aInt])
    [.parseFails type1 "Can not set value: Optional member #0 does not have a default value", .isSet [] false] = true := by
  decide +kernel
/-- StandaloneSUnion.OptionalMemberWithDefaultValue -/
example : test quiet (sunion .int [optD (memI 1 aBool) (.tup [b false]), memI 2 aInt]) [.parse type1, .finish, .get [] (.alt 0 (.tup [b false]))] = true := by decide +kernel
/-- StandaloneSUnion.Null -/
example : test quiet SU [.parse "null", .finish, .isSet [] false, .isEmpty [] true] = true := by decide +kernel
/-- StandaloneSUnion.Reset -/
example : test quiet (sunion .int [memI 1 aBoolInteger, memI 2 aBool])
    [.parse type1Both, .finish, .get [] (.alt 0 (.tup [b true, i 10])), .parse "null", .finish, .isSet [] false, .isEmpty [] true] = true := by
  decide +kernel
/-- StandaloneSUnion.AllValuesMembers -/
example : test quiet (sunion .int [memI 1 aBoolInteger, memI 2 aDoubleString])
    [.parse type1Both, .finish, .get [] (.alt 0 (.tup [b true, i 10])), .parse type2Both, .finish, .get [] (.alt 1 (.tup [d "11.5", s "value"]))] = true := by
  decide +kernel
/-- StandaloneSUnion.StringType -/
example : test quiet (sunion .str [mem "1" aBool, mem "2" aInt])
    [.parse typeS1Bool, .finish, .get [] (.alt 0 (.tup [b true])), .parse typeS2Int, .finish, .get [] (.alt 1 (.tup [i 100]))] = true := by
  decide +kernel
/-- StandaloneSUnion.IncorrectTypeType -/
example : test quiet SU [.parseFails typeS1Bool "Unexpected token string", .isSet [] false] = true := by decide +kernel
/-- StandaloneSUnion.IncorrectTypeValue -/
example : test quiet SU [.parseFails type3 "Unexpected member 3", .isSet [] false] = true := by decide +kernel
/-- StandaloneSUnion.IncorrectTypeMember -/
example : test quiet SU [.parseFails error1 "Unexpected member error", .isSet [] false] = true := by decide +kernel
/-- StandaloneSUnion.MembersWithCallbackError: here the values have the callbacks -/
example : test (env [(at_ [0, 0], no), (at_ [1, 0], no)]) SU
    [.parseFails type1Bool "Callback returned false", .isSet [] false, .parseFails type2Int "Callback returned false", .isSet [] false] = true := by
  decide +kernel
/-- StandaloneSUnion.SUnionWithCallback -/
example : test quiet SU
    [.callbacks (env [([], yes)]), .parse type1Bool, .finish, .get [] (.alt 0 (.tup [b true])), .saw [.value [] (.alt 0 (.tup [b true]))],
     .parse type2Int, .finish, .get [] (.alt 1 (.tup [i 100])), .saw [.value [] (.alt 0 (.tup [b true])), .value [] (.alt 1 (.tup [i 100]))]] = true := by
  decide +kernel
/-- StandaloneSUnion.SUnionWithCallbackError -/
example : test quiet SU [.callbacks (env [([], no)]), .parseFails type1Bool "Callback returned false", .isSet [] true] = true := by decide +kernel
/-- StandaloneSUnion.SUnionWithUnexpectedObject -/
example : test quiet SU [.parseFails type1Error "Unexpected member error", .isSet [] false] = true := by decide +kernel
/-- StandaloneSUnion.Move -/
example : test quiet (sunion .int [memI 1 (custom [mem "bool" bool, mem "integer" int]), memI 2 (custom [mem "double" dbl, mem "string" str])])
    [.callbacks (env [(at_ [0], build), (at_ [1], build)]), .parse type1Both, .finish, .pop [] (.alt 0 (.user "struct" [b true, i 10])), .isSet [] false,
     .parse type2Both, .finish, .pop [] (.alt 1 (.user "struct" [d "11.5", s "value"])), .isSet [] false] = true := by
  decide +kernel
/-- StandaloneSUnion.StandaloneSUnionWithParserReference -/
example : test quiet (sunion .int [memI 1 aBoolString, memI 2 aInt])
    [.parse type1String, .finish, .get [] (.alt 0 (.tup [b true, s "value"])), .parse type2Int, .finish, .get [] (.alt 1 (.tup [i 100]))] = true := by
  decide +kernel
/-- StandaloneSUnion.MoveAssignment -/
example : test quiet (sunion .int [memI 1 aBoolInteger, memI 2 aDoubleString]) [.parse type1Both, .finish, .get [] (.alt 0 (.tup [b true, i 10]))] = true := by decide +kernel

/-! ## embedded_sunion.cpp -/

def ESU : Shape := sembedded .int [memI 1 aBool, memI 2 aInt]

/-- EmbeddedSUnion.Empty -/
example : test quiet (inObject ESU) [.parseFails type1 "Can not set value: Mandatory member #0 is not present", .isSet (at_ [0]) false] = true := by decide +kernel
/-- EmbeddedSUnion.OptionalMember -/
example : test quiet (inObject (sembedded .int [opt (memI 1 aBool), memI 2 aInt]))
    [.parseFails type1 "Can not set value: Optional member #0 does not have a default value", .isSet (at_ [0]) false] = true := by
  decide +kernel
/-- EmbeddedSUnion.OptionalMemberWithDefaultValue -/
example : test quiet (inObject (sembedded .int [optD (memI 1 aBool) (.tup [b false]), memI 2 aInt]))
    [.parse type1, .finish, .isSet (at_ [0]) true, .isEmpty (at_ [0]) false, .getN [] 0 (.alt 0 (.tup [b false]))] = true := by
  decide +kernel
/-- EmbeddedSUnion.Reset -/
example : test quiet (inObject (sembedded .int [memI 1 aBoolInteger, memI 2 aBool]))
    [.parse type1Both, .finish, .isSet (at_ [0]) true, .isEmpty (at_ [0]) false, .getN [] 0 (.alt 0 (.tup [b true, i 10])),
     .parse "null", .finish, .isSet [] false, .isSet (at_ [0]) false, .isEmpty (at_ [0]) true] = true := by
  decide +kernel
/-- EmbeddedSUnion.AllValuesMembers -/
example : test quiet (inObject (sembedded .int [memI 1 aBoolInteger, memI 2 aDoubleString]))
    [.parse type1Both, .finish, .getN [] 0 (.alt 0 (.tup [b true, i 10])), .parse type2Both, .finish, .getN [] 0 (.alt 1 (.tup [d "11.5", s "value"]))] = true := by
  decide +kernel
/-- EmbeddedSUnion.StringType -/
example : test quiet (inObject (sembedded .str [mem "1" aBool, mem "2" aInt]))
    [.parse typeS1Bool, .finish, .getN [] 0 (.alt 0 (.tup [b true])), .parse typeS2Int, .finish, .getN [] 0 (.alt 1 (.tup [i 100]))] = true := by
  decide +kernel
/-- EmbeddedSUnion.IncorrectTypeType -/
example : test quiet (inObject ESU) [.parseFails typeS1Bool "Unexpected token string", .isSet (at_ [0]) false] = true := by decide +kernel
/-- EmbeddedSUnion.IncorrectTypeValue -/
example : test quiet (inObject ESU) [.parseFails type3 "Unexpected member 3", .isSet (at_ [0]) false] = true := by decide +kernel
/-- EmbeddedSUnion.MembersWithCallbackError -/
example : test (env [(at_ [0, 0, 0], no), (at_ [0, 1, 0], no)]) (inObject ESU)
    [.parseFails type1Bool "Callback returned false", .isSet (at_ [0]) false, .parseFails type2Int "Callback returned false", .isSet (at_ [0]) false] = true := by
  decide +kernel
/-- EmbeddedSUnion.SUnionWithCallback -/
example : test quiet (inObject ESU)
    [.callbacks (env [(at_ [0], yes)]), .parse type1Bool, .finish, .getN [] 0 (.alt 0 (.tup [b true])), .saw [.value (at_ [0]) (.alt 0 (.tup [b true]))],
     .parse type2Int, .finish, .getN [] 0 (.alt 1 (.tup [i 100])), .saw [.value (at_ [0]) (.alt 0 (.tup [b true])), .value (at_ [0]) (.alt 1 (.tup [i 100]))]] = true := by
  decide +kernel
/-- EmbeddedSUnion.SUnionWithCallbackError -/
example : test quiet (inObject ESU) [.callbacks (env [(at_ [0], no)]), .parseFails type1Bool "Callback returned false", .isSet (at_ [0]) true] = true := by decide +kernel
/-- EmbeddedSUnion.SUnionWithUnexpectedObject -/
example : test quiet (inObject ESU) [.parseFails type1Error "Unexpected member error", .isSet (at_ [0]) false] = true := by decide +kernel
/-- EmbeddedSUnion.SUnionWithUnexpectedMapStart -/
example : test quiet ESU [.parseFails type1Bool "Union with an empty type member can't parse this", .isSet [] false] = true := by decide +kernel
/-- EmbeddedSUnion.SUnionWithUnexpectedMapKey -/
example : test quiet ESU [.onFails (.mapKey "test") "Union with an empty type member can't parse this", .isSet [] false] = true := by decide +kernel
/-- EmbeddedSUnion.EmbeddedSUnionWithParserReference -/
example : test quiet (inObject (sembedded .int [memI 1 aBoolString, memI 2 aInt]))
    [.parse type1String, .finish, .getN [] 0 (.alt 0 (.tup [b true, s "value"])), .parse type2Int, .finish, .getN [] 0 (.alt 1 (.tup [i 100]))] = true := by
  decide +kernel

end SJ.Suite
