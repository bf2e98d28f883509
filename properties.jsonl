{"id": "C01", "title": "Value<T> accepts exactly the scalars of its type", "statement": "A Value<T> parser that is the current parser accepts a scalar token iff the token has type T; it then stores exactly that value, becomes set and non-empty. Any other non-null token throws 'Unexpected token <kind>' and leaves the stored value unchanged. In particular an integer is not accepted where a double is expected and vice versa.", "quantifier": "all four scalar types, all tokens, all prior states of the parser (fresh, set, popped, after an error)", "why_tests_cant": "The value domain is infinite and the prior state ranges over every parse history; tests sample a handful of literals on fresh parsers.", "anchors": ["library/sjparser/value.cpp: Value::on, Value::finish", "library/sjparser/internals/token_parser.cpp: TokenParser::on"]}
{"id": "C02", "title": "null is accepted by every parser that expects a value and leaves it unset", "statement": "Whenever a whole value is expected (root, object member, map value), the JSON value null is accepted for every kind of parser; the parser becomes unset and empty, no finish callback of that parser fires, and an enclosing object then treats the member as absent.", "quantifier": "all parser kinds and nesting, all prior states in which no array is left half-parsed, all enclosing documents", "why_tests_cant": "Holds for every composition of parsers and every earlier state; compositions are unboundedly many.", "anchors": ["library/sjparser/internals/token_parser.cpp: TokenParser::on(NullT)", "library/sjparser/internals/array_parser.cpp: ArrayParser::on(NullT)"]}
{"id": "C03", "title": "Object acceptance: a mandatory member that is missing or null is an error", "statement": "When an Object (or SCustomObject) reaches the end of a non-empty JSON object, it succeeds iff every non-optional member is set, and otherwise fails with 'Mandatory member <name> is not present' naming the unset mandatory member with the highest declaration index, leaving the object unset. The finish callback is not called on failure.", "quantifier": "all member lists, all subsets of members present, all orders and repetitions of fields, all prior states. For documents outside the known defect classes (DESIGN.md section 5: a null strictly inside an ignored value, a null element of an array of anything but Value, a scalar where a standalone union is expected or a null/object as its type value) and for user callbacks that accept and only observe (C21 says what rejecting ones do).", "why_tests_cant": "2^n subsets times all orders of fields for unbounded n.", "anchors": ["library/sjparser/object.h: Object::finish, MemberChecker", "library/sjparser/s_custom_object.h: SCustomObject::finish"]}
{"id": "C04", "title": "Unknown members: Reaction::Error rejects", "statement": "With the default ObjectOptions an object field whose name is not a declared member makes parsing fail with 'Unexpected member <name>' at that field, whatever precedes it successfully and whatever its value is.", "quantifier": "all objects, all member lists, all field positions, all field values. For the fields before it: outside the known defect classes (DESIGN.md section 5) and accepted and for user callbacks that accept and only observe.", "why_tests_cant": "Infinite set of keys, positions and values.", "anchors": ["library/sjparser/internals/key_value_parser.h: KeyValueParser::onMember", "library/sjparser/options.h: Reaction"]}
{"id": "C05", "title": "Unknown members: Reaction::Ignore skips the whole value", "statement": "With Reaction::Ignore an unknown member with any JSON value is skipped: the rest of the object is parsed exactly as if the field had not been there, except that an object with only skipped fields counts as non-empty. (False of this code when the skipped value contains a null at depth at least one: the Ignore parser then stops early; proved for the other values, with the negation shown by a witness.)", "quantifier": "all JSON values of the unknown member of any depth, all objects, all states. For documents outside the known defect classes (DESIGN.md section 5: a null strictly inside an ignored value, a null element of an array of anything but Value, a scalar where a standalone union is expected or a null/object as its type value) and for user callbacks that accept and only observe (C21 says what rejecting ones do).", "why_tests_cant": "Values nest without bound; the failing case is precisely one the test-suite misses.", "anchors": ["library/sjparser/internals/ignore.cpp: Ignore::on*", "library/sjparser/internals/token_parser.cpp: TokenParser::on(NullT)", "library/sjparser/internals/key_value_parser.h: KeyValueParser::onMember"]}
{"id": "C06", "title": "Ignore consumes exactly one value", "statement": "The skipping parser, started on any JSON value not containing a nested null, stays the current parser for every token of this value except the last, is removed exactly at its last token, and changes no other parser's state and calls no callback.", "quantifier": "all JSON values of any depth and width", "why_tests_cant": "Unbounded nesting; bracket matching is an inductive property.", "anchors": ["library/sjparser/internals/ignore.cpp", "library/sjparser/internals/ignore.h"]}
{"id": "C07", "title": "An empty JSON object leaves an object parser unset without checks", "statement": "Parsing {} with Object, SCustomObject, SAutoObject, Union or SUnion (standalone) succeeds, even if it has mandatory members, leaves it unset and does not call its finish callback.", "quantifier": "all member lists, options and prior states", "why_tests_cant": "Holds for every shape and prior state.", "anchors": ["library/sjparser/object.h: Object::finish", "library/sjparser/s_auto_object.h: SAutoObject::finish", "library/sjparser/union.h: Union::finish"]}
{"id": "C08", "title": "Field order does not matter", "statement": "For two documents that differ only by the order of fields of JSON objects, at any depth (fields of the same name keep their order; type fields of unions and members that are embedded unions keep their place; no map has embedded unions as elements), any parser tree gives the same outcome: both fail, or both succeed and leave the parser with the same content - for a storing parser the same get() value.", "quantifier": "all reorderings of the objects at any depth of all documents, all parser trees, any place in a document, any texts and chunkings of the two documents. For documents outside the known defect classes (DESIGN.md section 5: a null strictly inside an ignored value, a null element of an array of anything but Value, a scalar where a standalone union is expected or a null/object as its type value) and for user callbacks that accept and only observe (C21 says what rejecting ones do).", "why_tests_cant": "n! permutations, unbounded n.", "anchors": ["library/sjparser/internals/key_value_parser.h: onMember", "library/sjparser/s_auto_object.h: ValueSetter", "library/sjparser/s_map.h: childParsed"]}
{"id": "C09", "title": "SArray stores exactly the parsed elements, in order", "statement": "After a successful parse of a JSON array, SArray<P>.get() is the list of the values produced by P for the elements, in document order, with the same length (nulls of scalar element parsers contribute nothing); an empty array gives an empty list; the parser is set.", "quantifier": "all arrays of any length, all storage element parsers, arbitrary nesting. For documents outside the known defect classes (DESIGN.md section 5: a null strictly inside an ignored value, a null element of an array of anything but Value, a scalar where a standalone union is expected or a null/object as its type value) and for user callbacks that accept and only observe (C21 says what rejecting ones do).", "why_tests_cant": "Unbounded length and nesting.", "anchors": ["library/sjparser/s_array.h: SArray::childParsed", "library/sjparser/internals/array_parser.cpp"]}
{"id": "C10", "title": "SMap keeps the first value of every key, sorted by key", "statement": "After a successful parse of a JSON object, SMap<P>.get() has exactly the keys of the document, strictly increasing, and maps each key to the value of its first occurrence.", "quantifier": "all objects with any number of fields and any duplicates. For documents outside the known defect classes (DESIGN.md section 5: a null strictly inside an ignored value, a null element of an array of anything but Value, a scalar where a standalone union is expected or a null/object as its type value) and for user callbacks that accept and only observe (C21 says what rejecting ones do).", "why_tests_cant": "Unbounded field lists and duplicate patterns.", "anchors": ["library/sjparser/s_map.h: SMap::childParsed", "library/sjparser/map.h"]}
{"id": "C11", "title": "SMap rejects a value that leaves its element parser unset", "statement": "If a value of the map is null (or {} for an object element parser), SMap fails with \"Can't get value, parser is unset\"; Map accepts it and calls the element callback with an unset parser.", "quantifier": "all maps, all positions of the null value. For documents outside the known defect classes (DESIGN.md section 5: a null strictly inside an ignored value, a null element of an array of anything but Value, a scalar where a standalone union is expected or a null/object as its type value) and for user callbacks that accept and only observe (C21 says what rejecting ones do).", "why_tests_cant": "All positions and all sibling fields.", "anchors": ["library/sjparser/s_map.h: SMap::childParsed", "library/sjparser/value.cpp: Value::pop"]}
{"id": "C12", "title": "SAutoObject yields the tuple of its members, defaults filled in", "statement": "After a successful parse of a non-empty object SAutoObject.get() is the tuple whose n-th component is what the last field of member n gave or else (absent, or null the last time) its default; the member parsers are unset afterwards.", "quantifier": "all member lists, all documents. For documents outside the known defect classes (DESIGN.md section 5: a null strictly inside an ignored value, a null element of an array of anything but Value, a scalar where a standalone union is expected or a null/object as its type value) and for user callbacks that accept and only observe (C21 says what rejecting ones do).", "why_tests_cant": "Unbounded member lists, all presence subsets.", "anchors": ["library/sjparser/s_auto_object.h: SAutoObject::finish, ValueSetter"]}
{"id": "C13", "title": "SAutoObject errors name the highest-index offending member", "statement": "If at the end of a non-empty object some member is unset and either mandatory or optional without default, SAutoObject fails with 'Can not set value: Mandatory member <name> is not present' or 'Can not set value: Optional member <name> does not have a default value' for the offending member with the highest index, and is unset.", "quantifier": "all member lists and presence subsets. For documents outside the known defect classes (DESIGN.md section 5: a null strictly inside an ignored value, a null element of an array of anything but Value, a scalar where a standalone union is expected or a null/object as its type value) and for user callbacks that accept and only observe (C21 says what rejecting ones do).", "why_tests_cant": "All subsets of unset members.", "anchors": ["library/sjparser/s_auto_object.h: ValueSetter"]}
{"id": "C14", "title": "Standalone union: the first field selects the member", "statement": "A standalone Union/SUnion succeeds on an object only if its first field is named type_member and its value is a scalar of the type-member type equal to a declared name; the remaining fields are parsed by exactly that member's parser, and currentMemberId() is its index. A different first field name fails with 'Unexpected member <name>', an undeclared type value fails with 'Unexpected member <value>'. A null or an empty object is accepted and leaves the union unset, and currentMemberId() then throws. A type value selects the alternative whose name is the same Boolean, integer, string or - for doubles - the same number (0.0 and -0.0 are the same, NaN is never selected).", "quantifier": "all unions, all type values, all remaining fields. For documents outside the known defect classes (DESIGN.md section 5: a null strictly inside an ignored value, a null element of an array of anything but Value, a scalar where a standalone union is expected or a null/object as its type value) and for user callbacks that accept and only observe (C21 says what rejecting ones do).", "why_tests_cant": "Infinite value domain and unbounded members.", "anchors": ["library/sjparser/union.h: Union::on, childParsed, currentMemberId"]}
{"id": "C15", "title": "Embedded union: takes the rest of the enclosing object", "statement": "When a member of an object is an embedded Union/SUnion, the value of its field selects the alternative, all later fields of the same JSON object go to the alternative, and the closing brace finishes the alternative, then the union, then the enclosing object, in this order. The same when the embedded union is the element of a Map or SMap: the entry's value selects the alternative, all later entries go to it, and the closing brace finishes the alternative, the union, the element callback (with the entry's key) and the map.", "quantifier": "all objects, all positions of the union field, all later fields. For documents outside the known defect classes (DESIGN.md section 5: a null strictly inside an ignored value, a null element of an array of anything but Value, a scalar where a standalone union is expected or a null/object as its type value) and for user callbacks that accept and only observe (C21 says what rejecting ones do).", "why_tests_cant": "Unbounded field lists; three parsers finish on one token.", "anchors": ["library/sjparser/union.h: Union::childParsed"]}
{"id": "C16", "title": "SUnion stores the selected alternative's value", "statement": "After a successful parse SUnion.get() is the variant whose index is the selected member and whose content is this member parser's value or, if it is unset, its default; errors are 'Can not set value: ... member #n ...'.", "quantifier": "all unions, all documents. For documents outside the known defect classes (DESIGN.md section 5: a null strictly inside an ignored value, a null element of an array of anything but Value, a scalar where a standalone union is expected or a null/object as its type value) and for user callbacks that accept and only observe (C21 says what rejecting ones do).", "why_tests_cant": "Infinite domain.", "anchors": ["library/sjparser/s_union.h: SUnion::finish, ValueSetter"]}
{"id": "C17", "title": "Default values: get<n>/pop<n> return the default exactly when the member is unset", "statement": "get<n>() on an Object returns the parsed value if member n is set, else the default if one is declared, else throws \"Can't get value, parser is unset\"; pop<n>() returns the same value and unsets the member. (So after pop<n>() of a member with a default, get<n>() returns the default and does not throw, contrary to the documentation.)", "quantifier": "all states of an object, all members. For documents outside the known defect classes (DESIGN.md section 5: a null strictly inside an ignored value, a null element of an array of anything but Value, a scalar where a standalone union is expected or a null/object as its type value) and for user callbacks that accept and only observe (C21 says what rejecting ones do).", "why_tests_cant": "All states reachable by parsing, popping and reparsing.", "anchors": ["library/sjparser/internals/key_value_parser.h: get, pop"]}
{"id": "C18", "title": "get/pop protocol of storage parsers", "statement": "On every storage parser get() and pop() return the stored value iff the parser is set and otherwise throw \"Can't get value, parser is unset\"; get() changes nothing; pop() unsets it so that a following get() or pop() throws.", "quantifier": "all storage parsers and states, all call sequences", "why_tests_cant": "All call sequences of unbounded length.", "anchors": ["library/sjparser/value.cpp", "library/sjparser/s_array.h", "library/sjparser/s_map.h", "library/sjparser/s_auto_object.h", "library/sjparser/s_custom_object.h", "library/sjparser/s_union.h", "library/sjparser/internals/token_parser.h: checkSet, unset"]}
{"id": "C19", "title": "A moved-from value is never handed out", "statement": "No value returned by get()/pop() or passed to a callback is, or contains, the moved-from remains of an earlier pop, whatever documents were parsed before, successfully or not, and whenever the user popped values.", "quantifier": "all token streams, all shapes, all callbacks (including popping ones)", "why_tests_cant": "All histories; moved-from strings often look right in a test.", "anchors": ["library/sjparser/value.cpp: Value::pop", "library/sjparser/s_array.h: SArray::pop", "library/sjparser/s_map.h: SMap::pop"]}
{"id": "C20", "title": "Callbacks: exactly once per completed value, children before parents, in document order", "statement": "In a successful parse, whatever the callbacks do besides accepting, the finish callbacks are called exactly once for every non-null value (and, for object and union parsers, non-empty object) parsed by a parser, in the order in which the values end in the document, and the element callbacks of maps once per entry right after its value; in a failed parse a prefix of this sequence is called.", "quantifier": "all documents, all shapes, all accepting callbacks. For documents outside the known defect classes (DESIGN.md section 5: a null strictly inside an ignored value, a null element of an array of anything but Value, a scalar where a standalone union is expected or a null/object as its type value); callbacks may pop values and may reject or throw.", "why_tests_cant": "Unbounded documents.", "anchors": ["library/sjparser/internals/token_parser.cpp: endParsing", "library/sjparser/internals/dispatcher.cpp: popParser"]}
{"id": "C21", "title": "A rejecting callback stops parsing", "statement": "When a callback returns false, parsing fails with 'Callback returned false' (finish) or 'Element callback returned false' (map element); when it throws, parsing fails with the exception's text ('Unknown exception' if it is not a std::exception); no callback is called afterwards in this parse.", "quantifier": "all callbacks, all points at which one may reject", "why_tests_cant": "All rejection points in unbounded documents.", "anchors": ["library/sjparser/value.cpp: finish", "library/sjparser/object.h: finish", "library/sjparser/map.h: childParsed", "library/sjparser/yajl_parser.h: YajlParser::on"]}
{"id": "C22", "title": "Result does not depend on how the input is split into parse() calls", "statement": "Feeding a document in any split into consecutive parse(data,len) calls (including empty chunks, reused buffers) followed by finish() gives the same final parser state, the same callbacks and the same outcome as a single parse call, up to the text of the underlying parser's error.", "quantifier": "all byte strings, all splits, all shapes", "why_tests_cant": "2^(n-1) splits of every n-byte string.", "anchors": ["library/sjparser/yajl_parser.cpp: YajlParser::parse, finish"]}
{"id": "C23", "title": "After a ParsingError the parser can be used again", "statement": "After parse() or finish() threw ParsingError, parsing a document gives the same outcome and value as a fresh parser. (False of this code if an array was being parsed when the error occurred: its started flag is never reset; proved for parsers without arrays after any history, and for all parsers if no array was being read when the errors occurred, with the negation shown by a witness.)", "quantifier": "all failing inputs and failure points, all shapes, all following documents. For the document whose outcome is compared: outside the known defect classes (DESIGN.md section 5), any callbacks that do not look at the element parser of a map, also rejecting, throwing, popping and assigning ones; the earlier documents may have been parsed with other callbacks.", "why_tests_cant": "Every failure point of every document; the failing case is one the test-suite misses.", "anchors": ["library/sjparser/yajl_parser.cpp: parse", "library/sjparser/internals/dispatcher.cpp: reset", "library/sjparser/internals/array_parser.cpp: reset"]}
{"id": "C24", "title": "After a successful parse the parser can be used again", "statement": "After a successfully finished document, parsing another document gives the same outcome and the same root value as a fresh parser, also for parsers with arrays.", "quantifier": "all sequences of successfully parsed documents. For the document whose outcome is compared: outside the known defect classes (DESIGN.md section 5), any callbacks that do not look at the element parser of a map, also rejecting, throwing, popping and assigning ones; the earlier documents may have been parsed with other callbacks.", "why_tests_cant": "All histories.", "anchors": ["library/sjparser/yajl_parser.cpp: parse, finish", "library/sjparser/internals/key_value_parser.h: reset"]}
{"id": "C25", "title": "finish() succeeds only after one complete value was consumed by the parser tree", "statement": "finish() returns normally only if the underlying parser reports a complete document and the root parser has been completed (nothing is left on the dispatcher's stack); otherwise it throws ParsingError.", "quantifier": "all byte sequences, all shapes, all earlier histories", "why_tests_cant": "All truncation points of all documents.", "anchors": ["library/sjparser/yajl_parser.cpp: finish, checkDispatcherStack"]}
{"id": "C26", "title": "Only ParsingError escapes from parse() and finish()", "statement": "Whatever tokens arrive and whatever callbacks throw, parse() and finish() either return or throw ParsingError (allocation failure aside); no other exception escapes.", "quantifier": "all inputs, all callbacks, all states", "why_tests_cant": "All inputs and all throwing callbacks.", "anchors": ["library/sjparser/yajl_parser.h: YajlParser::on", "library/sjparser/yajl_parser.cpp: throwParsingError"]}
{"id": "C27", "title": "ParsingError::what() prefers the sjparser error and never mixes parses", "statement": "what() is the sjparser error if it is non-empty and the underlying parser's error otherwise; the sjparser error reported is the one raised in the current parse, never one left over from an earlier parse. The sjparser error is the exception's what() read as a C string: the text up to its first zero byte (member names may contain \\u0000), and in full if there is none.", "quantifier": "all sequences of parses and failures", "why_tests_cant": "All histories.", "anchors": ["library/sjparser/parsing_error.cpp: what", "library/sjparser/yajl_parser.cpp: parse"]}
{"id": "C28", "title": "Every token is handled in finitely many steps", "statement": "Processing one token terminates for every parser tree, every stack and every state: the mutual recursion pop - child parsed - end parsing - end of object is bounded by four times the stack depth plus four. Hence, whatever was parsed before, no document (however long or deeply nested) makes it deeper than four times the depth of the parser tree plus eight.", "quantifier": "all shapes, all stacks and states, all tokens", "why_tests_cant": "Termination is a property of all inputs.", "anchors": ["library/sjparser/internals/dispatcher.cpp: popParser", "library/sjparser/union.h: childParsed", "library/sjparser/internals/token_parser.cpp: endParsing"]}
{"id": "C29", "title": "No undefined behaviour: the dispatcher pointer is never null when used", "statement": "For every token sequence, no parser dereferences a null dispatcher. (False of this code for an array whose element parser is a union and whose element is a scalar; proved for all other shapes, with the negation shown by a witness.)", "quantifier": "all shapes without an array of unions, all token streams, grammatical or not, all callbacks, any number of restarts", "why_tests_cant": "All token streams; UB may pass silently in a test.", "anchors": ["library/sjparser/internals/array_parser.cpp", "library/sjparser/internals/key_value_parser.h: onMember", "library/sjparser/union.h: on"]}
{"id": "C30", "title": "Dispatcher stack discipline", "statement": "At every moment each parser on the dispatcher's stack (except the root at the bottom) is a member, element or ignore-parser of the one below it (or, if the tree has an array of unions, inside of it); hence the depth never exceeds the nesting depth of the parser tree plus one.", "quantifier": "all token streams, all shapes", "why_tests_cant": "All token streams.", "anchors": ["library/sjparser/internals/dispatcher.cpp", "library/sjparser/internals/key_value_parser.h: onMember", "library/sjparser/internals/array_parser.cpp"]}
{"id": "C31", "title": "Duplicate fields: the last one wins in objects", "statement": "If a declared member occurs several times in an object, its value after parsing is that of the last occurrence (and the member counts as absent if the last occurrence is null).", "quantifier": "all field lists with any duplication. For documents outside the known defect classes (DESIGN.md section 5: a null strictly inside an ignored value, a null element of an array of anything but Value, a scalar where a standalone union is expected or a null/object as its type value) and for user callbacks that accept and only observe (C21 says what rejecting ones do).", "why_tests_cant": "All duplication patterns.", "anchors": ["library/sjparser/internals/key_value_parser.h: onMember", "library/sjparser/value.cpp"]}
{"id": "C32", "title": "Duplicate member names are rejected at construction", "statement": "Constructing an object or union parser throws 'Member <name> appears more, than once' iff two members have equal names; otherwise every name is registered and maps to its own member's parser. Names of type double are equal if they stand for the same number.", "quantifier": "all member lists", "why_tests_cant": "All lists of names of any length.", "anchors": ["library/sjparser/internals/key_value_parser.h: MemberParser::MemberParser"]}
{"id": "C33", "title": "Parsers can be moved, assigned and nested freely: all inner pointers follow", "statement": "However a parser came about - constructed, moved any number of times (also into members, arrays, maps, other objects), move-assigned, used in between - every array in it delivers elements to its own element parser, every object and union resolves exactly its own member names, each to its own member parser with the right number, never to a parser or a name text at the source of a move or to a registration of the destination's previous content; flags, values, names, defaults, options and callbacks are those of the source, and a moved parser reads every further document like a new one.", "quantifier": "all parser trees, all sequences of constructions, moves, move assignments and uses, all contents of the rest of the memory, all documents read afterwards", "why_tests_cant": "The pointers are set by hand in each constructor and assignment operator; a test moves one or two parsers of one type. Text keys are string_views into the moved object, so mistakes depend on string lengths and memory contents.", "anchors": ["library/sjparser/internals/key_value_parser.h: KeyValueParser(KeyValueParser&&), operator=, registerParsers, MemberParser", "library/sjparser/union.h: setupIdsMap, Union(Union&&), operator=", "library/sjparser/array.h: Array(Array&&), operator=", "library/sjparser/internals/array_parser.h: setParserPtr", "library/sjparser/map.h: Map(Map&&), operator=", "library/sjparser/value.cpp: Value(Value&&), operator="]}
{"id": "C34", "title": "A failed parse never yields a half-built object value", "statement": "If the parse of an object-like parser fails after its start (at any field, for any reason including a failed allocation), it is unset afterwards, unless the failure was a callback rejecting the complete value, or a parser outside this object.", "quantifier": "all failure points, all shapes", "why_tests_cant": "Every failure point.", "anchors": ["library/sjparser/object.h: finish", "library/sjparser/s_auto_object.h: finish", "library/sjparser/internals/key_value_parser.h: reset"]}
{"id": "C35", "title": "Non-array parsers reject wrong container tokens, naming the token", "statement": "When a whole value is expected by Value, Object, Map, Union or Array and a value of another JSON kind arrives, parsing fails with 'Unexpected token <kind of the first token>'.", "quantifier": "all shapes and all mismatching JSON values", "why_tests_cant": "All shapes times all values.", "anchors": ["library/sjparser/internals/token_parser.cpp", "library/sjparser/internals/array_parser.cpp"]}
{"id": "C36", "title": "Type soundness of stored values", "statement": "A value obtained from a storage parser after a successful parse has the static type of the parser: Value<T> a T, SArray a vector of element values, SMap a string-keyed map, SAutoObject a tuple of the right arity and component types, SUnion a variant with a declared index and its member's type.", "quantifier": "all storage shapes, all documents", "why_tests_cant": "All shapes and documents.", "anchors": ["library/sjparser/s_array.h", "library/sjparser/s_map.h", "library/sjparser/s_auto_object.h", "library/sjparser/s_union.h"]}
{"id": "C37", "title": "finish() and parse() after a failure", "statement": "After a failed parse() every further finish() fails too until a new parse() starts from a clean stack; after finish() (success or failure) the next parse() starts a new document.", "quantifier": "all inputs and call sequences", "why_tests_cant": "All call sequences.", "anchors": ["library/sjparser/yajl_parser.cpp: parse, finish"]}
{"id": "C38", "title": "finish() does not read the caller's buffer after it may be gone", "statement": "finish() does not access the data pointer of the last parse() call. (False of this code: throwParsingError passes _data to yajl_get_error; shown by a witness.)", "quantifier": "all call sequences", "why_tests_cant": "Use-after-free reads usually look fine in a test.", "anchors": ["library/sjparser/yajl_parser.cpp: finish, throwParsingError"]}
{"id": "C39", "title": "A JSON text gives what its tree says", "statement": "If the underlying parser reports the tokens of a JSON tree for a text, then parse() of this text (in chunks) and finish() succeed or fail exactly as a recursive description of the parser tree says, with its value and with its error text as sjparserError().", "quantifier": "all parser trees, all JSON trees outside the known defects, all splits of the text, all underlying parsers. For documents outside the known defect classes (DESIGN.md section 5: a null strictly inside an ignored value, a null element of an array of anything but Value, a scalar where a standalone union is expected or a null/object as its type value) and for user callbacks that accept and only observe (C21 says what rejecting ones do).", "why_tests_cant": "tests cover single documents; this is for all documents, parser trees and splits", "anchors": ["library/sjparser/yajl_parser.cpp: YajlParser::parse, YajlParser::finish", "library/sjparser/internals/dispatcher.h: Dispatcher::on"]}
{"id": "C40", "title": "Nothing is accepted silently", "statement": "Whatever document is given to a parser tree that has no Array (non-storing) of arrays, no array of unions and no standalone unions: if it is accepted (parse() and finish() return), it is a document that the tree describes, every parser holds the value that it describes and exactly the callbacks that it describes were called; a document that the tree does not describe is refused with a ParsingError. The known defects (nulls inside skipped values, null elements of arrays of composite values) therefore only ever cause a refusal. (If an error occurred inside an array, or for trees with an Array of arrays or a standalone union this is false of the code: witnesses.)", "quantifier": "all well-formed parser trees of the class named, all JSON documents with nulls anywhere, all histories of documents accepted, refused or truncated while no array was being read (for trees without arrays: all histories whatsoever), pops in between, all splits of the text", "why_tests_cant": "the property excludes every wrong acceptance, over unboundedly many documents; tests can only show refusals of chosen ones", "anchors": ["library/sjparser/internals/token_parser.cpp: TokenParser::on(NullT)", "library/sjparser/internals/ignore.cpp: Ignore::on", "library/sjparser/internals/array_parser.cpp: ArrayParser::on(NullT)", "library/sjparser/internals/dispatcher.cpp: Dispatcher::popParser"]}
{"id": "C41", "title": "A parse takes exactly one value", "statement": "The value is complete with its last token and not before: if some tokens are accepted, then after any smaller number of them the parser is not complete and finish() would throw 'Dispatcher parsers stack is not empty in the end'; and any token after a complete value is refused with 'Parsers stack is empty' without any effect on a parser and without any callback.", "quantifier": "all parser trees, states, token sequences and callbacks; all splits of the text into parse() calls", "why_tests_cant": "every proper prefix and every continuation of every accepted token sequence is excluded, for every parser tree and every history", "anchors": ["library/sjparser/internals/dispatcher.h: Dispatcher::on", "library/sjparser/internals/dispatcher.cpp: Dispatcher::emptyParsersStack", "library/sjparser/yajl_parser.cpp: YajlParser::checkDispatcherStack"]}
{"id": "C42", "title": "Every value of the stored type can be read: writing and parsing is the identity", "statement": "For a tree of Value, SArray, SMap, SAutoObject (with at least one member) and SUnion parsers and any value v of the type it stores, parsing the document that writes v in the obvious way (vectors as arrays, maps and tuples as objects, variants as objects with their type field; an embedded union spliced into the enclosing object as its last member) succeeds and get() returns exactly v. Hence a value read from any document, written and read again, is the same.", "quantifier": "all such parser trees, all values of their type, all histories of documents read before, all splits of the text", "why_tests_cant": "the set of parser trees and of values of their types is infinite; a loss for one combination of nesting would not be seen", "anchors": ["library/sjparser/s_auto_object.h: SAutoObject", "library/sjparser/s_array.h: SArray", "library/sjparser/s_map.h: SMap", "library/sjparser/s_union.h: SUnion", "library/sjparser/value.cpp: Value"]}
{"id": "C43", "title": "Reading changes nothing but the parsers that read", "statement": "One token, after any history and with any callbacks, whether accepted or refused, changes no parser but the one that was current, the one that is current afterwards and those inside them. So as long as a parser is reading its value nothing outside it changes: a value already stored in another member of the object stays what it is. And whole fields of an object change no member (nor anything inside it) that has no field among them (for objects without embedded unions).", "quantifier": "all parser trees, all histories of tokens, failures and documents, all callbacks, all parsers and all token sequences", "why_tests_cant": "a test looks at some members after some documents; this excludes interference between any two parsers of any tree after any history, including failed tokens", "anchors": ["library/sjparser/internals/dispatcher.h: Dispatcher::on, Dispatcher::pushParser, Dispatcher::popParser", "library/sjparser/internals/key_value_parser.h: KeyValueParser::on", "library/sjparser/internals/token_parser.h: TokenParser::endParsing", "library/sjparser/internals/array_parser.cpp: ArrayParser::on"]}
{"id": "C44", "title": "A used parser cannot be told from a new one", "statement": "A parser that has read other documents, successfully or not, and has been emptied by any pops, treats every following sequence of tokens, complete or cut off or malformed, exactly as a parser just constructed: the same exception or none after the same tokens, the same callbacks in the same order with the same arguments, and the same observable contents of the root parser and all parsers in it. The callbacks may do anything (reject, throw, pop, assign, depend on everything before). Exceptions, each shown by a witness: an array was left open by a failure; a null or scalar arrives as an element of an array of composite parsers; a callback looks at the element parser of a map that has not read an element in this document.", "quantifier": "all parser trees, all histories of documents and failures outside arrays, all token sequences that begin with a value and have a value after each key, all callbacks; for trees without arrays all histories", "why_tests_cant": "it compares the behaviour after every history on every continuation under every callback; stale state that only shows for a particular pair would escape tests", "anchors": ["library/sjparser/internals/token_parser.h: TokenParser::reset, TokenParser::setDispatcher", "library/sjparser/internals/array_parser.cpp: ArrayParser::reset, ArrayParser::on", "library/sjparser/internals/key_value_parser.h: KeyValueParser::reset", "library/sjparser/map.h: Map", "library/sjparser/internals/dispatcher.cpp: Dispatcher::reset", "library/sjparser/yajl_parser.cpp: YajlParser::parse, resetYajlHandle"]}
{"id": "C45", "title": "Callbacks are called as soon as their value is complete", "statement": "While a document is being read, after any of its tokens exactly the callbacks of those values have been called that end at or before this token, in the order of these ends: each callback is called at the token that ends its value (the scalar itself, the closing bracket or brace; the element callback of a map at the end of the element; at a brace that ends an embedded union: alternative, union, enclosing parser), not earlier and not later, whatever follows in the document and whether it will be accepted or not. So after parse() has returned for a first part of a text, all values in the part seen by YAJL have been delivered.", "quantifier": "all parser trees, all documents outside the defect classes of C24, all prefixes of their tokens, all ways to cut the text, all callbacks, all earlier documents", "why_tests_cant": "a test looks at a few cuts of a few documents; a callback that is delayed or early for one combination of nesting and cut escapes", "anchors": ["library/sjparser/internals/token_parser.cpp: TokenParser::endParsing", "library/sjparser/internals/dispatcher.cpp: Dispatcher::popParser", "library/sjparser/internals/token_parser.h: TokenParser::childParsed", "library/sjparser/map.h: Map::childParsed", "library/sjparser/union.h: Union::childParsed", "library/sjparser/yajl_parser.cpp: YajlParser::parse"]}
{"id": "C46", "title": "Relaxing a schema takes nothing away", "statement": "If a parser is changed only by ignoring unknown members instead of refusing them, by making mandatory members optional and by giving members default values, at any places of the tree, then everything that was accepted still is, with the same values, the same current member ids and the same callbacks with the same arguments in the same order; every exception remains the same, after the same part of the input, unless it is a complaint about an unknown or a missing member (or a missing default value). This holds for single parse() and finish() calls, too.", "quantifier": "all pairs of parser trees so related, all token sequences (also malformed ones), all texts and ways to cut them, all callbacks, all states (any history)", "why_tests_cant": "it relates two parsers on every input, state and callback behaviour; tests compare them on a few documents", "anchors": ["library/sjparser/internals/key_value_parser.h: KeyValueParser::onMember", "library/sjparser/object.h: Object::MemberChecker", "library/sjparser/s_auto_object.h: SAutoObject::ValueSetter", "library/sjparser/union.h: Union::MemberChecker", "library/sjparser/s_union.h: SUnion::ValueSetter", "library/sjparser/member.h: Presence"]}
{"id": "C47", "title": "Exactly the documents that conform are accepted", "statement": "Which documents a parser accepts is given by a few rules about the document alone: null conforms to everything; a scalar of its type to a Value; an array of conforming elements to an Array (for SArray each must hold a value); an object to an Object if all its fields are known (or ignored), each field of a known member conforms to it, and each member holds a value by its last field or may be absent (and for SAutoObject has a default); an object to a Map if its values conform; an object to a union if its first field is the type member whose value names an alternative to which all the fields that follow conform; likewise for embedded unions from the field that selects the alternative on. parse() and finish() return normally exactly for conforming documents and throw ParsingError for the others; afterwards isSet() of the root is false only for null and for {} read by an object or union.", "quantifier": "all parser trees, all JSON documents outside the defect classes (conforming documents need only be without null, or, for parsers that ignore nothing, without null as array element; for watertight trees no non-conforming document at all is accepted), all ways to cut the text, all earlier documents", "why_tests_cant": "both directions range over all documents and all trees: a wrongly accepted or refused combination of nesting, duplicates, optional members and unions escapes any test set", "anchors": ["library/sjparser/internals/dispatcher.h: Dispatcher::on", "library/sjparser/internals/key_value_parser.h: KeyValueParser::onMember", "library/sjparser/object.h: Object::finish, Object::MemberChecker", "library/sjparser/s_auto_object.h: SAutoObject::finish", "library/sjparser/internals/array_parser.cpp: ArrayParser::on", "library/sjparser/s_array.h: SArray::childParsed", "library/sjparser/map.h: Map::childParsed", "library/sjparser/s_map.h: SMap::childParsed", "library/sjparser/union.h: Union::on, Union::childParsed", "library/sjparser/value.h: Value::on"]}
{"id": "C48", "title": "A schema can grow: new optional members and new alternatives are backward compatible", "statement": "If objects that refuse unknown members (and, anywhere, unions) are extended by further optional members (for SAutoObject: with default values) and further union alternatives, appended after the existing ones at any places of the tree, then every document the old parser accepted is accepted by the new one, isSet() of the root is the same, and get() gives the same value with the default values of the new members at the end of the tuples they belong to (union member ids are unchanged). For objects that ignore unknown members this is false, because a field that was ignored may now be read and refused.", "quantifier": "all pairs of parser trees so related, all accepted documents outside the defect classes, all texts and ways to cut them, all earlier documents of either parser", "why_tests_cant": "it relates two parsers for every document, tree and history; tests compare them on a few documents", "anchors": ["library/sjparser/internals/key_value_parser.h: KeyValueParser::onMember", "library/sjparser/object.h: Object::MemberChecker", "library/sjparser/s_auto_object.h: SAutoObject::ValueSetter", "library/sjparser/union.h: Union::on, Union::childParsed", "library/sjparser/s_union.h: SUnion::finish"]}
{"id": "C49", "title": "Documents with callbacks that take part", "statement": "Callbacks may reject, throw, take values (pop()) out of the parsers they are given and assign the value of an SCustomObject, depending on all earlier calls and on what their parser holds. A document then gives exactly what the pure recursive description says in which each callback acts when its value is complete: the same result (with the taken values unset and the assigned values in place), or the exception of the callback or of the parser, and the same calls in the same order. In particular get() of an SCustomObject returns what its callback computed from the members, an SArray of SCustomObjects stores these values in document order, and a value that its callback has taken is missing for the enclosing parser. If all callbacks only observe, this is the description without callbacks (C39).", "quantifier": "all parser trees, all callback behaviours that are functions of the earlier calls and of what the parser holds, all documents outside the defect classes, all texts and ways to cut them, all earlier documents", "why_tests_cant": "the effects of a callback depend on the whole history and spread to every enclosing parser; tests fix a few callbacks and documents", "anchors": ["library/sjparser/s_custom_object.h: SCustomObject::finish", "library/sjparser/object.h: Object::finish", "library/sjparser/s_map.h: SMap::childParsed", "library/sjparser/map.h: Map::childParsed", "library/sjparser/s_array.h: SArray::childParsed", "library/sjparser/internals/token_parser.h: TokenParser::endParsing"]}
{"id": "C50", "title": "Callbacks that only watch change nothing and can be replaced at any time", "statement": "Adding finish and element callbacks that only watch (accept, take nothing, assign nothing), in places that had none, to a parser with any other callbacks changes nothing but that they are called: for every sequence of tokens and every text, from every state, the outcome, the error texts, all stored values and the arguments and the order of the other callbacks' calls are the same. Two sets of watching callbacks see the same sequence of reports, each restricted to the places where it has callbacks. With setFinishCallback() and setElementCallback() they may also be added, removed and replaced in the middle of a document.", "quantifier": "all parser trees, all states, all token sequences (well-formed or not), all texts and ways to cut them, all sets of callbacks (with effects, as long as they do not react to the calls of the added ones) and all watching ones, all moments of replacement", "why_tests_cant": "tests register callbacks in a few places and compare a few documents; that a callback is only an observer concerns every document, error and position", "anchors": ["library/sjparser/value.cpp: Value::setFinishCallback, Value::finish", "library/sjparser/map.h: Map::setElementCallback, Map::childParsed", "library/sjparser/s_map.h: SMap::setElementCallback, SMap::childParsed", "library/sjparser/object.h: Object::setFinishCallback, Object::finish", "library/sjparser/union.h: Union::setFinishCallback", "library/sjparser/s_custom_object.h: SCustomObject::setFinishCallback"]}
{"id": "C51", "title": "A failed allocation of the JSON reader leaves no traces", "statement": "If yajl_alloc fails, parse() throws std::runtime_error(\"Can not allocate YAJL handle\") (and so does the constructor, then there is no parser); no stored value, flag or parser changes and no callback is called. The next parse() does exactly what it would have done without the failed call. Memory is needed only by the first parse() after finish() or after an error, and in no reachable state does parse() use the null handle. (finish() instead of parse() after such a failure does use it.)", "quantifier": "all parser trees, all histories of parse(), finish() and pop() with any callbacks and any pattern of failing allocations, all texts", "why_tests_cant": "the allocation does not fail in tests (the lines are excluded from coverage); the claim is about every history before and every text after the failure", "anchors": ["library/sjparser/yajl_parser.cpp: YajlParser::resetYajlHandle, YajlParser::parse, YajlParser::finish"]}
{"id": "C52", "title": "isEmpty() says whether the last value was empty", "statement": "Every parser of a new Parser is empty and not set. After parse() and finish() of a document return normally, isEmpty() of every parser in the tree is true iff the last value it got in that document is null, {} or an array of nothing but nulls, or if it got none (the parsers inside maps excepted, which may still show an earlier element). At every moment, in the middle of documents and after failures too, a Value, Object or Union that is set is not empty.", "quantifier": "all parser trees, all documents outside the defect classes and ways to cut them, all callbacks, all earlier histories, all positions in the tree", "why_tests_cant": "tests look at isEmpty() of a few parsers after a few documents; the claim is about every position of every tree, duplicated and nested fields and embedded unions", "anchors": ["library/sjparser/internals/token_parser.h: TokenParser::isEmpty, setNotEmpty", "library/sjparser/internals/token_parser.cpp: TokenParser::reset, endParsing, on(NullT)", "library/sjparser/internals/array_parser.cpp: ArrayParser::on", "library/sjparser/internals/key_value_parser.h: KeyValueParser::onMember"]}
{"id": "C53", "title": "Exactly the JSON texts of conforming documents are accepted", "statement": "Said of bytes instead of tokens, with the grammar of RFC 8259 (whitespace, numbers, strings with escapes and surrogate pairs, UTF-8) and the rules of C47: if the underlying parser reads JSON and only JSON, then bytes given to parse() in any chunks, followed by finish(), are accepted if and only if they are a JSON text of a document that conforms to the parser tree (and the parsers then hold its value); bytes that are no JSON text are refused with ParsingError; and every value of a stored type, written as text, is read back as the same value. A text has one tree only, so the value does not depend on how it is read.", "quantifier": "all byte sequences, all splits into chunks, all parser trees (watertight as in C40 for the converse direction), all documents served before, all underlying parsers that satisfy the stated assumption (one is constructed, so there are some)", "why_tests_cant": "the set of byte sequences and of documents is infinite; a test checks single texts", "anchors": ["library/sjparser/yajl_parser.cpp: parse, finish, yajlOnInt, yajlOnDouble, yajlOnString, yajlOnMapKey", "library/sjparser/parser.h: Parser", "library/sjparser/internals/dispatcher.cpp"]}
{"id": "C54", "title": "Running out of memory at any point is an ordinary parsing error", "statement": "If any allocation that the library makes while it handles a token fails, parse() (or finish()) throws a ParsingError whose sjparserError() is \"std::bad_alloc\" (or \"Can not set value: std::bad_alloc\"); the callbacks called until then, with their arguments, are the first of those that would have been called with enough memory; with enough memory the outcome is that of C01-C53. Whatever the pattern of such failures, parse() and finish() never do anything but return or throw a ParsingError (trees without arrays of unions), and afterwards the parser can be used again exactly as after any other error: always if the tree has no arrays, otherwise if and only if no array was left in the middle of its elements. Right after such a failure, and after any further use, every value that get() or pop() returns has the type of its parser and no moved-from parts, and an object or array in the middle of which memory ran out is unset (as after any other error).", "quantifier": "all parser trees, all texts and chunkings, all callbacks, every allocation as the first one that fails, all earlier histories of parse(), finish() and pop() with failures at any points", "why_tests_cant": "allocations do not fail in tests, and every allocation of every call is another crash point", "anchors": ["library/sjparser/internals/dispatcher.cpp: Dispatcher::pushParser, popParser", "library/sjparser/yajl_parser.h: YajlParser::on", "library/sjparser/yajl_parser.cpp: YajlParser::parse, finish, throwParsingError", "library/sjparser/value.cpp", "library/sjparser/s_array.h: childParsed", "library/sjparser/s_map.h: childParsed", "library/sjparser/s_auto_object.h: ValueSetter", "library/sjparser/s_union.h: ValueSetter", "library/sjparser/internals/ignore.cpp"]}
{"id": "C55", "title": "Parsers shared by reference and callbacks that reach everywhere keep the library in order", "statement": "A parser object may be given by lvalue reference to several members, arrays, maps or unions of a tree, and callbacks may look at, pop and reset any parser they captured (also the one they belong to, or one that is in the middle of a value). After any such use: every call of parse() (of a readable buffer) and finish() (while the last buffer exists) ends, and returns or throws a ParsingError, without undefined behaviour unless the tree has an array of unions; the parsers that are current form a path from the root, never more than the tree is deep plus one, and no parser object is among them twice; after finish() returned none is left. A union reports, for the selected alternative, the greatest number of an alternative with the same parser object. A parser object has no identity beyond the places it stands at: only which places share an object matters. If nothing is shared and the callbacks keep to their arguments, everything is as stated in the other properties.", "quantifier": "all parser trees, all ways to share parser objects of the same type between places, all callbacks (popping any parsers, at any moment), all texts, chunkings and histories of parse(), finish() and pop()", "why_tests_cant": "the ways to share parsers and the moments at which a callback can interfere are unbounded; the tests never share a parser between two places", "anchors": ["library/sjparser/member.h: Member", "library/sjparser/array.h: Array::Array", "library/sjparser/map.h: Map::Map", "library/sjparser/parser.h: Parser::Parser", "library/sjparser/union.h: Union::setupIdsMap, Union::on", "library/sjparser/internals/dispatcher.cpp", "library/sjparser/internals/token_parser.cpp", "library/sjparser/internals/key_value_parser.h: KeyValueParser::setDispatcher, reset, onMember"]}
{"id": "C56", "title": "Streaming parsers need bounded memory", "statement": "If no SArray and no SMap contributes to the value of a parser, then what that parser holds (its value, its current key, the brackets remembered while ignoring a value) is bounded by an amount that depends only on the parser tree, the longest string, the deepest nesting and the largest value a callback assigns - however many documents of whatever length are fed, whether they succeed or fail. If the tree has no SArray or SMap at all, all its parsers together are so bounded, and there are never more current parsers than the tree is deep plus one. For any tree, the value obtained from a document is at most as large as the document times the size of the tree (its parsers and default values).", "quantifier": "all parser trees, all sequences of documents of any length (complete, failing or abandoned), all callbacks, pops at any time; for values also parsers shared by reference and arbitrary tokens", "why_tests_cant": "a bound over all lengths of input and all histories; a test can only observe particular sizes", "anchors": ["library/sjparser/array.h: Array", "library/sjparser/map.h: Map::on(MapKeyT)", "library/sjparser/value.h: Value::on", "library/sjparser/s_auto_object.h: SAutoObject::finish, SAutoObject::reset", "library/sjparser/s_union.h: SUnion::finish", "library/sjparser/internals/ignore.cpp: Ignore", "library/sjparser/internals/dispatcher.cpp: Dispatcher::pushParser, popParser"]}
{"id": "C57", "title": "An exception from a user's type is an ordinary parsing error", "statement": "If moving, copying or assigning a value of a user's type (the type of an SCustomObject, a default value) throws while a document is read, parse() (or finish()) throws a ParsingError, never the exception itself: sjparserError() is its what() (\"Unknown exception\" if it is not a std::exception), after \"Can not set value: \" if the value of an SAutoObject or SUnion was being put together (then \"unknown exception\"). The callbacks called until then are the first of those that would have been called otherwise. Afterwards every value that get() or pop() returns has the type of its parser and no moved-from parts, an object or array in the middle of which it happened is unset, and the parser can be used again exactly as after any other error.", "quantifier": "all parser trees, all texts and chunkings, all callbacks, all exceptions, every such operation as the one that throws, any part of an interrupted reset(), all earlier histories with failures of either kind (C54)", "why_tests_cant": "the repository has two tests, each with one operation of one tree; every move, copy and assignment is another crash point, and what an interrupted reset() leaves depends on the order of a hash table", "anchors": ["library/sjparser/s_auto_object.h: finish, reset, ValueSetter", "library/sjparser/s_union.h: finish, reset, ValueSetter", "library/sjparser/s_custom_object.h: reset, pop", "library/sjparser/s_array.h: childParsed", "library/sjparser/s_map.h: childParsed", "library/sjparser/yajl_parser.h: YajlParser::on"]}
{"id": "C58", "title": "The callbacks of one token are called from the inside outwards, each at most once", "statement": "While one token of the input is handled, callbacks are called from the inside outwards: after a callback of some parser only callbacks of parsers around it are called, and the finish callback of a map only after its element callback; no callback is called twice for one token, so that their number is bounded by the depth of the tree. An opening brace or bracket and a key call none. This holds also for a token that ends with an error, and whatever happened before: failed documents, documents that do not fit, arrays and unions left in the middle.", "quantifier": "all parser trees, all tokens, all callbacks, all histories of use, with documents that fit the tree or not", "why_tests_cant": "the tests compare the calls of a few documents read successfully; the chain of calls that one closing bracket starts depends on the tree, on the callbacks and on what earlier failed documents left behind", "anchors": ["library/sjparser/internals/token_parser.cpp: endParsing", "library/sjparser/internals/dispatcher.cpp: popParser", "library/sjparser/map.h: childParsed", "library/sjparser/s_map.h: childParsed", "library/sjparser/union.h: childParsed, finish", "library/sjparser/internals/array_parser.cpp: on"]}
{"id": "C59", "title": "The order in which a hash table is enumerated makes no difference", "statement": "The effect of reset() and of setDispatcher() on a parser and everything below it - hence everything a user sees - does not depend on the order in which the standard library's unordered_map enumerates the members of the objects and unions, even if it is another one each time and at each level, and even if parsers are shared by reference between members.", "quantifier": "all parser trees, all assignments of parser objects to places, all orders of all hash tables, all states", "why_tests_cant": "a test sees the one order that its standard library and its names produce", "anchors": ["library/sjparser/internals/key_value_parser.h: KeyValueParser::setDispatcher, KeyValueParser::reset"]}
{"id": "C60", "title": "SCustomObject that builds its value from its members is SAutoObject followed by a conversion", "statement": "Take a tree of storing parsers with SAutoObjects, and make some of the SAutoObjects SCustomObjects whose finish callback assigns a value that a function of the user computes from what get<n>() or pop<n>() gives for the members. Then both trees accept the same documents; afterwards both or neither have a value, and that of the second is the value of the first converted with the user's functions from the inside outwards, through arrays, maps, unions and nested objects. A value of the first tree, written as JSON, is read by the second as its conversion.", "quantifier": "all trees of storing parsers, all sets of objects that get a user's type, all functions of the user, all documents, all earlier histories of both parsers", "why_tests_cant": "the tests have one user's type at the top of one small object; types nested in types, arrays, maps and unions are infinitely many", "anchors": ["library/sjparser/s_custom_object.h: SCustomObject::finish, set, get, pop", "library/sjparser/s_auto_object.h: SAutoObject::finish, ValueSetter", "library/sjparser/object.h: Object::get, Object::pop", "library/sjparser/internals/token_parser.cpp: endParsing"]}
{"id": "C61", "title": "reset() may be called by the user at any time", "statement": "A user may call reset() of any parser of the tree at any time: between documents, between two pieces of a document, after an error. It unsets and empties that parser and all inside it except those inside maps, changes no other parser, calls no callback, and a second call changes nothing. Between documents it makes no difference to the next document. While the root is an object, a map or a standalone union and the only current parser, reset() does exactly what an opening brace does: the parser forgets what it has read of the document so far. Nothing that is stated about all histories of use stops being true: no undefined behaviour, no endless recursion, types of values, the stack, failures of memory.", "quantifier": "all parser trees, all parsers in it, all points of all histories", "why_tests_cant": "no test calls reset(); it can be called after every token of every document", "anchors": ["library/sjparser/internals/token_parser.cpp: TokenParser::reset", "library/sjparser/internals/key_value_parser.h: KeyValueParser::reset", "library/sjparser/internals/array_parser.cpp: ArrayParser::reset", "library/sjparser/union.h: Union::reset", "library/sjparser/s_map.h: SMap::reset", "library/sjparser/internals/ignore.cpp: Ignore::reset"]}
{"id": "C62", "title": "Streaming and storing agree", "statement": "An Array with a finish callback at its element parser is given, element by element and in order, exactly the values an SArray with the same kind of elements stores from the same array; a Map with an element callback is given pairs such that the SMap with the same kind of elements stores of them the first of each key, sorted by key. The storing parser refuses an array or object that the streaming one accepts exactly when an element that is not null (for maps: any value) left its parser unset; then this element is not delivered to the callback of an Array, and is delivered without a value to that of a Map. If the streaming parser refuses, the storing one refuses too. Likewise Union and SUnion with the same alternatives: both read the same objects, select the same alternative, and the stored value is what get<n>() of the Union returns, or the default if the alternative holds nothing; they differ only where an optional alternative holds nothing and has no default value (SUnion says so), and in that SUnion puts \"Can not set value: \" in front of a message.", "quantifier": "all kinds of storage parsers as elements, all arrays and objects, all places of the two parsers in all trees, all earlier uses of them, all ways of cutting the text", "why_tests_cant": "the two are different parsers, tested separately with a few documents each", "anchors": ["library/sjparser/array.h: Array::finish", "library/sjparser/s_array.h: SArray::childParsed, SArray::finish", "library/sjparser/map.h: Map::childParsed, Map::finish", "library/sjparser/s_map.h: SMap::childParsed", "library/sjparser/internals/array_parser.cpp: ArrayParser"]}
{"id": "C63", "title": "The order in which members are declared makes no difference", "statement": "Two Object, SAutoObject or SCustomObject parsers that declare the same members in different orders accept the same values. After an accepted value both are set or neither is, the tuples of SAutoObjects have the same value for each member, and otherwise the parsers of each member show the same (isSet, get, and everything inside). Two unions with a type member that declare the same alternatives in different orders accept the same values, select the same alternative (each under its own number), and it shows the same. Only the text of an error may differ (a missing mandatory member that is declared last is reported).", "quantifier": "all permutations of all lists of members with distinct names, all values outside the known defects, all places in all trees, all earlier uses, all ways of cutting the text", "why_tests_cant": "the members are found by a hash table and numbered at compile time; tests declare each set of members in one order", "anchors": ["library/sjparser/internals/key_value_parser.h: KeyValueParser::onMember, MemberParser", "library/sjparser/object.h: Object::MemberChecker", "library/sjparser/s_auto_object.h: SAutoObject::ValueSetter", "library/sjparser/union.h: Union::on, Union::MemberChecker", "library/sjparser/s_union.h: SUnion::ValueSetter"]}
{"id": "C64", "title": "Errors are reported at the earliest possible token: as long as there is none the document can still be completed", "statement": "If parse() has returned for the beginning of a document, what has been read can be completed to a document that conforms to the parser tree, that is accepted and of which the root parser holds a value; and if it has thrown, no conforming document begins like that. So the token at which the error is reported is the first one with which no conforming document goes on. This needs a tree in which nothing is a dead end in itself: objects with at least one member, unions with a type member, with at least one alternative and only object-like alternatives. With an embedded union it is false: {\"kind\": \"circle\" is read without an error although the mandatory member id, which can no longer come, is missing.", "quantifier": "every parser tree of that kind, every state reachable by use, every document outside the known null defects, every prefix of it (in tokens, and as text in any chunks), every callbacks that accept", "why_tests_cant": "it says something about all continuations of every prefix of every document; tests run single documents to their end", "anchors": ["library/sjparser/internals/key_value_parser.h: KeyValueParser::onMember, pushParser", "library/sjparser/object.h: Object::finish", "library/sjparser/s_auto_object.h: SAutoObject::finish", "library/sjparser/union.h: Union::on(MapKeyT)", "library/sjparser/array.h", "library/sjparser/map.h", "library/sjparser/yajl_parser.h: YajlParser::on"]}
{"id": "C65", "title": "The library never looks at values: replacing the scalars of a document replaces those of the results and has no other effect", "statement": "Take two documents (or any two token sequences, complete or not, accepted or not) that differ only in their scalars - not in keys and structure -, where corresponding scalars have the same type, select the same alternative of every union in the tree, and where default values correspond to themselves. Given to two equal parser trees, both are accepted or both are refused, at the same token; the same callbacks are called in the same order; every parser is set, empty, open or unset in one tree exactly if it is in the other; and every value got, popped, stored or passed to a callback in one is that of the other with the corresponding scalars. The exceptions are the same (only an unknown type value of a union is quoted as it is). So whether a document is accepted depends on its structure, the types of its scalars and the choices of unions only. Callbacks must do corresponding things with corresponding arguments.", "quantifier": "every relation between scalars that the tree cannot tell apart, every parser tree, every pair of token sequences or texts (in any chunks), every pair of corresponding states, every callbacks that do not look at the scalars", "why_tests_cant": "it relates the runs on all pairs of documents; a test sees single values, and a dependence on one particular value (0, an empty string, a long string) is found only if it is tried", "anchors": ["library/sjparser/value.cpp: Value::on, Value::finish", "library/sjparser/s_array.h: SArray::childParsed", "library/sjparser/s_map.h: SMap::childParsed", "library/sjparser/s_auto_object.h: SAutoObject::ValueSetter", "library/sjparser/s_union.h: SUnion::ValueSetter", "library/sjparser/union.h: Union::on", "library/sjparser/internals/key_value_parser.h: KeyValueParser::onMember", "library/sjparser/internals/ignore.cpp: Ignore::on"]}
{"id": "C66", "title": "Taking streamed values out of their parsers changes nothing else", "statement": "The finish callback of the elements of an Array and the element callback of a Map may take out of the parser they are given (pop(), pop<n>()) whatever they like, in any tree and at any depth: compared with callbacks that only look, the document is accepted or refused just the same (with the same exception), everything else holds the same in the end, and the same callbacks are called in the same order with the same arguments. In particular, collecting the values by hand in such a callback gives exactly what an SArray (in order) or SMap (first of each key) with the same kind of elements stores.", "quantifier": "all parser trees, all pairs of callbacks that differ only in what they take out of streamed elements, all documents outside the known defects, all earlier uses, all ways of cutting the text", "why_tests_cant": "The number of elements, the nesting of streaming parsers and the callbacks' decisions what to take (which may depend on the whole history) are unbounded.", "anchors": ["library/sjparser/internals/token_parser.cpp: TokenParser::childParsed", "library/sjparser/array.h: Array", "library/sjparser/map.h: Map::childParsed", "library/sjparser/internals/token_parser.h: TokenParser::checkSet, unset", "library/sjparser/s_custom_object.h: SCustomObject::pop"]}
{"id": "C67", "title": "Ignored members make no difference, wherever they are", "statement": "Let two documents differ only in fields that the object parsers they are given to do not know and are told to ignore, at any depth (in array elements, map entries, members, alternatives of unions), where any number of such fields may be added, removed or changed, except that an empty object remains empty. Then, whatever the callbacks do, either both are read and everything ends up with the same values, or both are refused with the same message; and the same callbacks are called in the same order with the same arguments.", "quantifier": "all parser trees, all pairs of documents (outside the known defects) that differ only in ignored fields at any depth, all acting callbacks, all earlier uses, all ways of cutting the two texts into chunks", "why_tests_cant": "The ignored values are arbitrary JSON at arbitrary places and in arbitrary number; tests try a few.", "anchors": ["library/sjparser/internals/ignore.cpp", "library/sjparser/internals/key_value_parser.h: KeyValueParser::onMember", "library/sjparser/options.h"]}
{"id": "C68", "title": "A null member is a missing one and a null array element is none, wherever they are", "statement": "Let two documents differ only in this, at any depth (in array elements, map entries, members, alternatives of unions): a field of a member is null in one and missing in the other (where the same member had no field before in that object), or null elements of an array of scalars are there in only one; an empty object remains empty. Then, whatever the callbacks do, either both are read and everything ends up with the same values, or both are refused with the same message (a mandatory member that is null is reported as missing); and the same callbacks are called in the same order with the same arguments.", "quantifier": "all parser trees, all pairs of documents (outside the known defects) that differ only in such nulls at any depth and in any number, all acting callbacks, all earlier uses, all ways of cutting the two texts into chunks", "why_tests_cant": "The places and numbers of nulls and the nesting are unbounded, and the claim compares two runs.", "anchors": ["library/sjparser/internals/token_parser.cpp: TokenParser::on", "library/sjparser/internals/array_parser.cpp: ArrayParser::on", "library/sjparser/internals/key_value_parser.h: KeyValueParser::onMember"]}
{"id": "C69", "title": "The work is proportional to the number of tokens", "statement": "Count as steps the calls of the dispatcher's and the parsers' methods while tokens are handled (on(token), popParser, childParsed, endParsing), and each other operation of theirs on one parser (reset, setDispatcher, finish with the callback, onMember, pushParser, access to fields). Then any sequence of n tokens, accepted or refused, given to a parser between two documents takes at most 20*(k+1)*n + 14 steps, where k is the largest number of arrays directly nested in each other in the tree (0 without arrays) - however deep the tree and the document are, and however many elements, members and alternatives there are. A single token may complete many parsers, but never takes more than 34*(height of the tree + 1) steps, whatever happened before.", "quantifier": "all parser trees, all callbacks, all token sequences of any length (complete or not, valid or not), all states of the parser; for the worst case all histories", "why_tests_cant": "Tests do not measure, and a sum over arbitrarily long documents with single tokens that complete arbitrarily many parsers needs an amortised argument.", "anchors": ["library/sjparser/internals/dispatcher.cpp: Dispatcher::popParser", "library/sjparser/internals/token_parser.cpp: TokenParser::endParsing", "library/sjparser/union.h: childParsed", "library/sjparser/internals/array_parser.cpp: ArrayParser::on"]}
{"id": "C70", "title": "Repeated fields that do not count can be left out, at all depths", "statement": "Take an accepted document and leave out, at any depth, fields that are repeated: a field of an object's member that has another field later in the same object (also among the fields given to the alternative of a union), and an entry of an SMap the key of which was in the map before. The resulting document is accepted too, and isSet() and get() of the parser return the same for both, whatever documents were parsed before. (Only in this direction: fields that do not count are still checked, so leaving one out may make a refused document acceptable.)", "quantifier": "all parser trees, all documents and all choices of repeated fields in them, all cuts into chunks, all histories of both parsers; callbacks that accept", "why_tests_cant": "Tests repeat a field of one flat object; that nothing of the overridden value - at whatever depth, of whatever type, in whatever union alternative - remains in the result is a statement on all pairs of documents.", "anchors": ["library/sjparser/internals/key_value_parser.h: KeyValueParser::onMember", "library/sjparser/s_map.h: childParsed", "library/sjparser/internals/dispatcher.cpp: Dispatcher::pushParser", "library/sjparser/union.h: childParsed"]}
{"id": "C71", "title": "A parser does inside of any other one what it does alone", "statement": "Given the same value, a parser used as a member, element or alternative anywhere in a tree, and the same parser used alone, with the same callbacks (which may reject, throw, take values out and look at all calls so far), both accept it, hold the same result and have called the same callbacks in the same order with the same arguments, or both fail with the same exception. In particular parsing {\"k\": v} with an Object with the only member k is parsing v with the member's parser, and parsing an array is parsing its elements one after another as documents with the element parser: the same calls, the first failure is the array's failure, and SArray holds what get() returned after each of them. The same holds of maps and their values (SMap holds, sorted by key, what get() returned after the first value of each key), and parsing {\"type\": x, ...} with a Union is parsing the fields that follow with the alternative x alone.", "quantifier": "all parser trees and places in them, all values, all states of a document in which a value is expected there, all callbacks, all histories of the parser used alone", "why_tests_cant": "Tests test each parser at the top level and a few nestings; that nesting does not matter, for all parsers, in all contexts, is a statement on all pairs of trees.", "anchors": ["library/sjparser/internals/dispatcher.cpp: Dispatcher::pushParser", "library/sjparser/internals/token_parser.cpp: TokenParser::endParsing", "library/sjparser/internals/array_parser.cpp: ArrayParser::on", "library/sjparser/parser.h: Parser"]}
{"id": "C72", "title": "Parsers with the same schema accept the same documents", "statement": "Which documents a parser accepts, and whether isSet() is true afterwards, depends only on the schema it declares: not on the order in which the members of objects and the alternatives of unions are declared (at any depth), not on whether values are stored (Object, SCustomObject, SAutoObject; Union, SUnion; Array, SArray), not on the values of defaults, not on which accepting callbacks are set, not on what was parsed before, nor on the spelling or chunking of the text. The exceptions are those the documentation implies: with SAutoObject and SUnion an optional member needs a default value to be dispensable, and SArray needs a value of every element.", "quantifier": "all pairs of parser trees that differ in these respects, at all depths; all documents, texts, chunks; all histories of both parsers; all accepting callbacks", "why_tests_cant": "A test fixes one declaration order and one kind of parser; a defect that depends on the position of a member (as the index arithmetic of member tables invites) shows only for some of the permutations of some of the trees.", "anchors": ["library/sjparser/internals/key_value_parser.h: KeyValueParser::onMember", "library/sjparser/object.h: MemberChecker", "library/sjparser/s_auto_object.h: ValueSetter", "library/sjparser/union.h: MemberChecker", "library/sjparser/s_array.h: SArray::childParsed"]}
