/-
/repo/tests/src/map.cpp, smap.cpp. Left out: Map.MapWithMapReference and SMap.SMapWithMapReference, which only check that the constructor compiles.
-/
import Verif.Suite.Harness

namespace SJ.Suite

/-- An element callback that is set and returns true. -/
def keyCb : Env := env [] [([], {})]

def nested : String :=
  "{\n  \"1\": {\n    \"1\": [10, 20],\n    \"2\": [30, 40]\n  },\n  \"2\": {\n    \"1\": [11, 21],\n    \"2\": [31, 41]\n  }\n}"

def twoArrays : String := "{\n  \"1\": [10, 20],\n  \"2\": [30, 40]\n}"

/-! ## map.cpp -/

/-- Map.Empty -/
example : test quiet (map bool) [.parse "{}", .finish, .isSet [] true, .isEmpty [] true] = true := by decide +kernel
/-- Map.EmptyWithCallbacks -/
example : test quiet (map bool) [.callbacks (env [([], yes)] [([], {})]), .parse "{}", .finish, .isSet [] true, .saw [.parser [] [none]]] = true := by decide +kernel
/-- Map.Null -/
example : test quiet (map bool) [.parse "null", .finish, .isSet [] false, .isEmpty [] true] = true := by decide +kernel
/-- Map.Reset -/
example : test quiet (map bool)
    [.callbacks keyCb, .parse "{\"1\": true}", .finish, .saw [.element [] "1" (some (b true))], .isSet [] true, .isEmpty [] false, .parse "null", .finish, .isSet [] false,
     .isEmpty [] true] = true := by
  decide +kernel
/-- Map.SeveralKeys -/
example : test quiet (map int)
    [.callbacks keyCb, .parse "{\"1\": 10, \"2\": 15}", .finish, .saw [.element [] "1" (some (i 10)), .element [] "2" (some (i 15))]] = true := by
  decide +kernel
/-- Map.InternalCallbackError -/
example : test (env [([.elem], no)]) (map int) [.parseFails "{\"1\": 10}" "Callback returned false", .isSet [] false] = true := by decide +kernel
/-- Map.KeyCallbackError -/
example : test (env [] [([], { verdict := .reject })]) (map int) [.parseFails "{\"1\": 10}" "Element callback returned false", .isSet [] false] = true := by decide +kernel
/-- Map.FinishCallbackError -/
example : test quiet (map int) [.callbacks (env [([], no)]), .parseFails "{\"1\": 10}" "Callback returned false", .isSet [] true] = true := by decide +kernel
/-- Map.MapOfMaps: the inner callback pops the array -/
example : test quiet (map (map (sarray int)))
    [.callbacks (env [] [([.elem], { pops := [[]] }), ([], {})]), .parse nested, .finish,
     .saw [.element [.elem] "1" (some (.arr [i 10, i 20])), .element [.elem] "2" (some (.arr [i 30, i 40])), .element [] "1" none,
           .element [.elem] "1" (some (.arr [i 11, i 21])), .element [.elem] "2" (some (.arr [i 31, i 41])), .element [] "2" none]] = true := by
  decide +kernel
/-- Map.MapWithParserReference -/
example : test quiet (map (sarray int))
    [.callbacks (env [] [([], { pops := [[]] })]), .parse twoArrays, .finish,
     .saw [.element [] "1" (some (.arr [i 10, i 20])), .element [] "2" (some (.arr [i 30, i 40]))]] = true := by
  decide +kernel
/-- Map.MoveAssignment -/
example : test keyCb (map int) [.parse "{\"1\": 10, \"2\": 15}", .finish, .saw [.element [] "1" (some (i 10)), .element [] "2" (some (i 15))]] = true := by decide +kernel

/-! ## smap.cpp -/

/-- SMap.Empty -/
example : test quiet (smap bool) [.parse "{}", .finish, .get [] (.map []), .isSet [] true, .isEmpty [] true] = true := by decide +kernel
/-- SMap.EmptyWithCallbacks -/
example : test quiet (smap bool) [.callbacks (env [([], yes)] [([], {})]), .parse "{}", .finish, .get [] (.map []), .isSet [] true, .saw [.parser [] [none]]] = true := by
  decide +kernel
/-- SMap.Null -/
example : test quiet (smap bool) [.parse "null", .finish, .isSet [] false, .isEmpty [] true] = true := by decide +kernel
/-- SMap.Reset -/
example : test quiet (smap bool)
    [.callbacks keyCb, .parse "{\"1\": true}", .finish, .saw [.element [] "1" (some (b true))], .isSet [] true, .isEmpty [] false, .get [] (.map [("1", b true)]),
     .parse "null", .finish, .isSet [] false, .isEmpty [] true] = true := by
  decide +kernel
/-- SMap.SeveralKeys -/
example : test quiet (smap int) [.parse "{\"1\": 10, \"2\": 15}", .finish, .get [] (.map [("1", i 10), ("2", i 15)])] = true := by decide +kernel
/-- SMap.KeyCallbackError -/
example : test (env [] [([], { verdict := .reject })]) (smap int) [.parseFails "{\"1\": 10}" "Element callback returned false", .isSet [] false] = true := by decide +kernel
/-- SMap.FinishCallbackError -/
example : test quiet (smap int) [.callbacks (env [([], no)]), .parseFails "{\"1\": 10}" "Callback returned false", .isSet [] true] = true := by decide +kernel
/-- SMap.SMapOfSMaps -/
example : test quiet (smap (smap (sarray int)))
    [.parse nested, .finish,
     .get [] (.map [("1", .map [("1", .arr [i 10, i 20]), ("2", .arr [i 30, i 40])]), ("2", .map [("1", .arr [i 11, i 21]), ("2", .arr [i 31, i 41])])])] = true := by
  decide +kernel
/-- SMap.SMapWithParserReference -/
example : test quiet (smap (sarray int)) [.parse twoArrays, .finish, .get [] (.map [("1", .arr [i 10, i 20]), ("2", .arr [i 30, i 40])])] = true := by decide +kernel
/-- SMap.MoveAssignment -/
example : test quiet (smap int) [.parse "{\"1\": 10, \"2\": 15}", .finish, .get [] (.map [("1", i 10), ("2", i 15)])] = true := by decide +kernel

end SJ.Suite
