/-
/repo/tests/src/value.cpp, ignore.cpp, member.cpp, dispatcher.cpp, parser.cpp, parsing_error.cpp, yajl_parser.cpp.
Left out: YajlParser.NoneEmtyParsersStackOnFinish (a parser class of the test itself, derived from `TokenParser`); the assertions of member.cpp about C++ types (its other
assertions, that a member has the name, the presence and the default value it was given, are what `mem`, `opt` and `optD` are by definition).
-/
import Verif.Suite.Harness

namespace SJ.Suite

/-! ## value.cpp -/

/-- Value.Boolean -/
example : test quiet bool [.isSet [] false, .parse "true", .finish, .isSet [] true, .isEmpty [] false, .get [] (b true), .isSet [] true, .pop [] (b true), .isSet [] false] = true := by
  decide +kernel
/-- Value.Integer -/
example : test quiet int [.isSet [] false, .parse "10", .finish, .isSet [] true, .isEmpty [] false, .get [] (i 10), .isSet [] true, .pop [] (i 10), .isSet [] false] = true := by
  decide +kernel
/-- Value.Double -/
example : test quiet dbl [.isSet [] false, .parse "1.3", .finish, .isSet [] true, .isEmpty [] false, .get [] (d "1.3"), .isSet [] true, .pop [] (d "1.3"), .isSet [] false] = true := by
  decide +kernel
/-- Value.String -/
example : test quiet str [.isSet [] false, .parse "\"value\"", .finish, .isSet [] true, .isEmpty [] false, .get [] (s "value"), .isSet [] true, .pop [] (s "value"),
    .isSet [] false] = true := by
  decide +kernel
/-- Value.Null -/
example : test quiet bool [.parse "null", .finish, .isSet [] false, .isEmpty [] true] = true := by decide +kernel
/-- Value.Reset -/
example : test quiet bool [.parse "true", .finish, .isSet [] true, .isEmpty [] false, .get [] (b true), .parse "null", .finish, .isSet [] false, .isEmpty [] true] = true := by
  decide +kernel
/-- Value.UnexpectedBoolean -/
example : test quiet str [.parseFails "true" "Unexpected token boolean", .isSet [] false] = true := by decide +kernel
/-- Value.UnexpectedString -/
example : test quiet bool [.parseFails "\"error\"" "Unexpected token string", .isSet [] false] = true := by decide +kernel
/-- Value.UnexpectedInteger -/
example : test quiet bool [.parse "10", .finishFails "Unexpected token integer", .isSet [] false] = true := by decide +kernel
/-- Value.UnexpectedDouble -/
example : test quiet bool [.parse "10.5", .finishFails "Unexpected token double", .isSet [] false] = true := by decide +kernel
/-- Value.UnexpectedMapStart -/
example : test quiet bool [.parseFails "{" "Unexpected token map start", .isSet [] false] = true := by decide +kernel
/-- Value.UnexpectedMapKey -/
example : test quiet bool [.onFails (.mapKey "test") "Unexpected token map key"] = true := by decide +kernel
/-- Value.UnexpectedMapEnd -/
example : test quiet bool [.onFails .mapEnd "Unexpected token map end"] = true := by decide +kernel
/-- Value.UnexpectedArrayStart -/
example : test quiet bool [.parseFails "[" "Unexpected token array start", .isSet [] false] = true := by decide +kernel
/-- Value.UnexpectedArrayEnd -/
example : test quiet bool [.onFails .arrEnd "Unexpected token array end"] = true := by decide +kernel
/-- Value.UnsetValue -/
example : test quiet bool [.isSet [] false, .getFails [] "Can't get value, parser is unset"] = true := by decide +kernel
/-- Value.ValueWithCallback -/
example : test (env [([], yes)]) str [.parse "\"value\"", .finish, .isSet [] true, .get [] (s "value"), .saw [.value [] (s "value")]] = true := by decide +kernel
/-- Value.ValueWithCallbackError -/
example : test quiet str [.callbacks (env [([], no)]), .parseFails "\"value\"" "Callback returned false"] = true := by decide +kernel
/-- Value.MoveAssignment -/
example : test quiet int [.parse "10", .finish, .isSet [] true, .isEmpty [] false, .get [] (i 10)] = true := by decide +kernel

/-! ## ignore.cpp -/

/-- Ignore.Boolean -/
example : test quiet .ignore [.isSet [] false, .parse "true", .finish, .isSet [] true] = true := by decide +kernel
/-- Ignore.Integer -/
example : test quiet .ignore [.isSet [] false, .parse "10", .finish, .isSet [] true] = true := by decide +kernel
/-- Ignore.Double -/
example : test quiet .ignore [.isSet [] false, .parse "1.3", .finish, .isSet [] true] = true := by decide +kernel
/-- Ignore.String -/
example : test quiet .ignore [.isSet [] false, .parse "\"value\"", .finish, .isSet [] true] = true := by decide +kernel
/-- Ignore.Null -/
example : test quiet .ignore [.isSet [] false, .parse "null", .finish, .isSet [] false] = true := by decide +kernel
/-- Ignore.Reset -/
example : test quiet .ignore [.parse "true", .finish, .isSet [] true, .parse "null", .finish, .isSet [] false] = true := by decide +kernel
/-- Ignore.Object -/
example : test quiet .ignore [.parse "{\"bool\": true, \"string\": \"value\"}", .finish, .isSet [] true] = true := by decide +kernel
/-- Ignore.Array -/
example : test quiet .ignore [.parse "[\"value1\", \"value2\"]", .finish, .isSet [] true] = true := by decide +kernel
/-- Ignore.UnexpectedMapKey -/
example : test quiet .ignore [.onFails (.mapKey "test") "Unexpected token map key"] = true := by decide +kernel
/-- Ignore.UnexpectedMapEnd -/
example : test quiet .ignore [.onFails .mapEnd "Unexpected token map end"] = true := by decide +kernel
/-- Ignore.UnexpectedArrayEnd -/
example : test quiet .ignore [.onFails .arrEnd "Unexpected token array end"] = true := by decide +kernel

/-! ## dispatcher.cpp, on `Value<bool>` -/

/-- What `popParser(); popParser();` throws. -/
def popTwice : Option Exn :=
  match M.bind (popParser quiet bool 2) (fun _ => popParser quiet bool 2) (St.init bool) with
  | .throw e _ => some e
  | _ => none

/-- What `popParser(); on(true);` throws. -/
def popThenOn : Option Exn :=
  match M.bind (popParser quiet bool 2) (fun _ => dispatch quiet bool (.scalar (.bool true))) (St.init bool) with
  | .throw e _ => some e
  | _ => none

/-- Dispatcher.PopParserError -/
example : popTwice = some (.std "Can not pop parser, parsers stack is empty") := by decide +kernel
/-- Dispatcher.EmptyParserStack -/
example : popThenOn = some (.std "Parsers stack is empty") := by decide +kernel

/-! ## parser.cpp -/

/-- Parser.ParserWithParserReference -/
example : test quiet (sarray int) [.parse "[13, 15, 16]", .finish, .get [] (.arr [i 13, i 15, i 16])] = true := by decide +kernel

/-! ## parsing_error.cpp -/

/-- ParsingError.SjparserError -/
example : parsingWhat "Test error" "" = "Test error" := by decide +kernel
/-- ParsingError.ParserError -/
example : parsingWhat "" "Parser error" = "Parser error" := by decide +kernel
/-- ParsingError.BothErrors -/
example : parsingWhat "Test error" "Parser error" = "Test error" := by decide +kernel

/-! ## yajl_parser.cpp -/

/-- YajlParser.OnUnknownException -/
example : test (env [([], throws10)]) str [.parseFails "\"value\"" "Unknown exception"] = true := by decide +kernel

end SJ.Suite
