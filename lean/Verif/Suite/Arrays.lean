/-
/repo/tests/src/array.cpp, sarray.cpp. Left out: Array.ArrayWithArrayReference and SArray.SArrayWithSArrayReference, which only check that the constructor compiles.
A parser given by reference is treated as a parser of the tree (`Verif/Model/Shared.lean` has the general case); a moved parser as the parser it was moved from.
-/
import Verif.Suite.Harness

namespace SJ.Suite

/-! ## array.cpp -/

/-- The callback of the elements. -/
def elementCb : Env := env [([.elem], yes)]

/-- Array.Empty -/
example : test elementCb (array bool) [.parse "[]", .finish, .saw [], .isSet [] true, .isEmpty [] true] = true := by decide +kernel
/-- Array.Null -/
example : test elementCb (array bool) [.parse "null", .finish, .saw [], .isSet [] false, .isEmpty [] true] = true := by decide +kernel
/-- Array.Reset -/
example : test elementCb (array bool) [.parse "[true]", .finish, .saw [.value [.elem] (b true)], .isSet [] true, .isEmpty [] false, .parse "null", .finish, .isSet [] false,
    .isEmpty [] true] = true := by
  decide +kernel
/-- Array.ArrayOfBooleans -/
example : test elementCb (array bool) [.parse "[true, false]", .finish, .saw [.value [.elem] (b true), .value [.elem] (b false)], .isSet [] true] = true := by decide +kernel
/-- Array.ArrayOfIntegers -/
example : test elementCb (array int) [.parse "[10, 11]", .finish, .saw [.value [.elem] (i 10), .value [.elem] (i 11)], .isSet [] true] = true := by decide +kernel
/-- Array.ArrayOfDoubles -/
example : test elementCb (array dbl) [.parse "[10.5, 11.2]", .finish, .saw [.value [.elem] (d "10.5"), .value [.elem] (d "11.2")], .isSet [] true] = true := by decide +kernel
/-- Array.ArrayOfStrings -/
example : test elementCb (array str) [.parse "[\"value1\", \"value2\"]", .finish, .saw [.value [.elem] (s "value1"), .value [.elem] (s "value2")], .isSet [] true] = true := by
  decide +kernel
/-- Array.ArrayWithNull -/
example : test elementCb (array bool) [.parse "[null]", .finish, .saw [], .isSet [] true] = true := by decide +kernel
/-- Array.ArrayWithNullAndValues -/
example : test elementCb (array bool) [.parse "[null, true, null, false]", .finish, .saw [.value [.elem] (b true), .value [.elem] (b false)], .isSet [] true] = true := by
  decide +kernel
/-- Array.UnexpectedBoolean -/
example : test elementCb (array bool) [.parseFails "true" "Unexpected token boolean", .isSet [] false] = true := by decide +kernel
/-- Array.UnexpectedInteger -/
example : test elementCb (array int) [.parse "10", .finishFails "Unexpected token integer", .isSet [] false] = true := by decide +kernel
/-- Array.UnexpectedDouble -/
example : test elementCb (array dbl) [.parse "10.5", .finishFails "Unexpected token double", .isSet [] false] = true := by decide +kernel
/-- Array.UnexpectedString -/
example : test elementCb (array str) [.parseFails "\"value\"" "Unexpected token string", .isSet [] false] = true := by decide +kernel
/-- Array.ArrayOfObjects -/
example : test (env [([.elem], pops [0, 1])]) (array (obj [mem "key" str, mem "key2" int]))
    [.parse "[{\"key\": \"value\", \"key2\": 10}, {\"key\": \"value2\", \"key2\": 20}]", .finish,
     .saw [.parser [.elem] [some (s "value"), some (i 10)], .parser [.elem] [some (s "value2"), some (i 20)]]] = true := by
  decide +kernel
/-- Array.UnexpectedMapStart -/
example : test quiet (array bool) [.parseFails "{}" "Unexpected token map start", .isSet [] false] = true := by decide +kernel
/-- Array.ArrayWithUnexpectedType -/
example : test elementCb (array str) [.parseFails "[true]" "Unexpected token boolean", .isSet [] false] = true := by decide +kernel
/-- Array.ArrayWithElementCallbackError -/
example : test (env [([.elem], no)]) (array bool) [.parseFails "[true, false]" "Callback returned false", .isSet [] false] = true := by decide +kernel
/-- Array.ArrayWithCallback -/
example : test (env [([.elem], yes), ([], yes)]) (array bool)
    [.parse "[true, false]", .finish, .saw [.value [.elem] (b true), .value [.elem] (b false), .parser [] [some (b false)]], .isSet [] true] = true := by
  decide +kernel
/-- Array.ArrayWithCallbackError -/
example : test elementCb (array bool) [.callbacks (env [([.elem], yes), ([], no)]), .parseFails "[true, false]" "Callback returned false", .isSet [] true] = true := by
  decide +kernel
/-- Array.ArrayOfArrays -/
example : test (env [([.elem, .elem], yes), ([.elem], yes)]) (array (array bool))
    [.parse "[[true, true], [false, false]]", .finish,
     .saw [.value [.elem, .elem] (b true), .value [.elem, .elem] (b true), .parser [.elem] [some (b true)],
          .value [.elem, .elem] (b false), .value [.elem, .elem] (b false), .parser [.elem] [some (b false)]]] = true := by
  decide +kernel
/-- Array.ArrayWithParserReference -/
example : test quiet (array (sarray int)) [.parse "[[13, 15, 16]]", .finish, .get [.elem] (.arr [i 13, i 15, i 16])] = true := by decide +kernel
/-- Array.MoveAssignment -/
example : test elementCb (array int) [.parse "[10, 11]", .finish, .saw [.value [.elem] (i 10), .value [.elem] (i 11)], .isSet [] true] = true := by decide +kernel

/-! ## sarray.cpp -/

/-- SArray.Empty -/
example : test quiet (sarray bool) [.parse "[]", .finish, .get [] (.arr []), .isSet [] true, .isEmpty [] true] = true := by decide +kernel
/-- SArray.Null -/
example : test quiet (sarray bool) [.parse "null", .finish, .isSet [] false, .isEmpty [] true] = true := by decide +kernel
/-- SArray.Reset -/
example : test quiet (sarray bool) [.parse "[true]", .finish, .isSet [] true, .isEmpty [] false, .get [] (.arr [b true]), .parse "null", .finish, .isSet [] false,
    .isEmpty [] true] = true := by
  decide +kernel
/-- SArray.SArrayWithValues -/
example : test quiet (sarray bool) [.parse "[true, false]", .finish, .get [] (.arr [b true, b false]), .isSet [] true] = true := by decide +kernel
/-- SArray.SArrayWithNull -/
example : test quiet (sarray bool) [.parse "[null]", .finish, .get [] (.arr []), .isSet [] true] = true := by decide +kernel
/-- SArray.SArrayWithNullAndValues -/
example : test quiet (sarray bool) [.parse "[null, true, null, false]", .finish, .get [] (.arr [b true, b false]), .isSet [] true] = true := by decide +kernel
/-- SArray.UnexpectedType -/
example : test quiet (sarray bool) [.parseFails "true" "Unexpected token boolean", .isSet [] false] = true := by decide +kernel
/-- SArray.UnexpectedMapStart -/
example : test quiet (sarray bool) [.parseFails "{}" "Unexpected token map start", .isSet [] false] = true := by decide +kernel
/-- SArray.SArrayWithUnexpectedType -/
example : test quiet (sarray str) [.parseFails "[true]" "Unexpected token boolean", .isSet [] false] = true := by decide +kernel
/-- SArray.SArrayWithElementCallbackError -/
example : test (env [([.elem], no)]) (sarray bool) [.parseFails "[true, false]" "Callback returned false", .isSet [] false] = true := by decide +kernel
/-- SArray.SArrayWithCallback -/
example : test (env [([], yes)]) (sarray bool)
    [.parse "[true, false]", .finish, .get [] (.arr [b true, b false]), .saw [.value [] (.arr [b true, b false])], .isSet [] true] = true := by
  decide +kernel
/-- SArray.SArrayWithCallbackError -/
example : test quiet (sarray bool) [.callbacks (env [([], no)]), .parseFails "[true, false]" "Callback returned false", .isSet [] true] = true := by decide +kernel
/-- SArray.SArrayOfSArrays -/
example : test quiet (sarray (sarray bool)) [.parse "[[true, true], [false, false]]", .finish, .get [] (.arr [.arr [b true, b true], .arr [b false, b false]])] = true := by
  decide +kernel
/-- SArray.Move -/
example : test quiet (sarray str) [.parse "[\"value1\", \"value2\"]", .finish, .pop [] (.arr [s "value1", s "value2"]), .isSet [] false] = true := by decide +kernel
/-- SArray.SArrayWithParserReference -/
example : test quiet (sarray (sarray int)) [.parse "[[13, 15, 16]]", .finish, .get [] (.arr [.arr [i 13, i 15, i 16]])] = true := by decide +kernel
/-- SArray.MoveAssignment -/
example : test quiet (sarray int) [.parse "[10, 11]", .finish, .get [] (.arr [i 10, i 11]), .isSet [] true] = true := by decide +kernel

end SJ.Suite
