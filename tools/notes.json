{
 "C05": {
  "note": "Full property: any skipped value. False of the code for values with a null strictly inside (C05_nested_null is the witness); proved for all others (skippable), for one field (C05_skips_partial, any state) and whole objects (C05_document_partial). C05_ends_early_partial: for exactly the other values the skipping ends at the first inner null and the rest of the value is read as fields of the object."
 },
 "C23": {
  "note": "Full property: any failure. False of the code if an array was being read (C23_inside_array, C23_null_element). Proved: trees without arrays after any history; all trees if no array was open at the failures (Survived); C23_any_callbacks_partial: also for callbacks that reject, throw, pop and assign. C23_exactly_partial: the condition 'no array open at the failure' is also necessary (C23_stuck: otherwise there is a document whose first tokens a new parser accepts and this one does not, for all callbacks). C23_characterised: an exact characterisation after any history whatsoever."
 },
 "C24": {
  "note": "Full property: any successfully parsed documents, any callbacks. False of the code for a null element of an array of composites (C24_null_element). Proved for compared documents outside the defect classes; C24_any_callbacks_partial: callbacks may reject, throw, pop and assign. C24_same_if_accepted_partial: any documents, nulls anywhere: if both parsers accept, the outcome is the same."
 },
 "C29": {
  "note": "False of the code for arrays of unions given a scalar (C29_union_element); C29_exactly_partial: after any history undefined behaviour occurs if and only if this happens, hence never for trees without such arrays (C29_no_ub_partial)."
 },
 "C38": {
  "note": "False of the code (C38_witness): on failure finish() reads the old buffer. Proved: a successful finish() does not depend on it, parse() reads only its own buffer, and C38_failure_partial: a failing finish() reads exactly the last buffer, unless the failure is that parsers are left over."
 },
 "C40": {
  "note": "For trees with an Array of arrays or a standalone union, and after a failure inside an array, it is false of the code (C40_needs_no_array_of_arrays, C40_needs_no_standalone_union, C40_needs_no_array_open); stated and proved for the other trees (Shape.watertight) and histories."
 },
 "C44": {
  "note": "Restrictions on nulls in arrays, arrays left open and callbacks that look at stale map elements are needed (C24_null_element, C23_inside_array, C44_stale_element)."
 },
 "C45": {
  "note": ""
 },
 "C55": {
  "note": "Model/Shared: the parsing methods over shared objects, callbacks with access to everything. The exception (arrays of unions) is part of the statement; it is C29's."
 },
 "C56": {
  "note": "Sizes are of the values (parts and bytes of strings); the capacity a std::vector or std::deque keeps in reserve and YAJL's own buffers are not modelled."
 },
 "C57": {
  "note": "The operations of user's types are moving and copying a value into the value of an SAutoObject, SUnion, SArray, SMap, and _value = {} in reset(). Destructors that throw and types with throwing moves that cannot be copied inside std::vector are not covered."
 },
 "C58": {
  "note": "C58_order, C58_once and C58_run hold for any history and any tokens, well-formed document or not. C58_opening does not even need a history. C58_bound is in terms of the depth of the innermost parser that was called."
 },
 "C59": {
  "note": "C59_reset and C59_attach: any two orders agree. C59_model and C59_shared: the models, which go through the members in the order of the tuple, are exactly this result. An interrupted reset() (C57) is covered there by allowing any part of it."
 },
 "C60": {
  "note": "C60_tokens and C60_document: the two trees, each after any history. C60_roundtrip: what is written from the one is read by the other. Optional members of an object with a user's type need a default value (an example shows that the claim is false otherwise: SAutoObject refuses, SCustomObject accepts)."
 },
 "C61": {
  "note": "C61_cleared, C61_kept, C61_twice: the effect of one call. C61_between, C61_brace, C61_midway: the effect on documents. That nothing else breaks is part of all theorems about histories, which include reset() as a step. Element parsers of maps are not reset (as the code has it)."
 },
 "C62": {
  "note": "C62_array, C62_map: anywhere in trees. C62_document: whole documents as text. Callbacks that only observe; documents as in okVal (see C39). C62_union: SUnion and Union, anywhere in trees."
 },
 "C63": {
  "note": "C63_object, C63_union: anywhere in trees. C63_document: whole documents as text. Callbacks that only observe; documents as in okVal (see C39). Embedded unions whose own alternatives are declared in another order are not covered by C63_union."
 },
 "C64": {
  "note": "C64_completable, C64_exact, C64_earliest (tokens), C64_text (chunks of text). SpecAhead.lean: completable trees. C64_late_read / C64_late_dead: the dead end of an embedded union. Callbacks are Passive (accept everything); prefixes are prefixes of documents with okVal (outside the null defects C05, C23)."
 },
 "C65": {
  "note": "C65_tokens (any tokens, any corresponding states, arbitrary corresponding callbacks), C65_uses (construction, get, pop, reset, next document), C65_document (texts in chunks), C65_replace (a function on scalars), C65_accept (acceptance depends on types and choices only). SpecThrough.lean: the relations. No restriction to documents outside the known defects: also those behave alike."
 },
 "C66": {
  "note": "C66_tokens and C66_document compare two runs with callbacks that differ only in what those of streamed elements take; C66_storing compares with SArray/SMap. For callbacks of members this is false (example: the member is missing then), C49 says what happens."
 },
 "C67": {
  "note": "C67_tokens for token sequences and C67_document for texts; both documents must be outside the known defects (a null deep in an ignored value breaks the Ignore parser: C05). An ignored field makes an empty object non-empty (example)."
 },
 "C68": {
  "note": "C68_tokens for token sequences and C68_document for texts. Null elements of arrays of composite parsers are the known defect 2 (C24) and are excluded by okVal of both documents; entries of maps are different (example: an error in an SMap)."
 },
 "C69": {
  "note": "C69_same: the counted model gives the results of the model. C69_total, C69_document: amortised bound; C69_token: worst case; C69_least: at least one step per token. One step may touch a parser with everything inside of it (reset, setDispatcher, the checks of finish), so its cost is bounded by the size of the tree, not of the document; the cost of a map insertion, of growing a vector and of hashing a name is that of the standard containers and is not counted."
 },
 "C70": {
  "note": "SpecRepeat.lean: FewerRepeats says which fields may be left out. C70_tokens, C70_document; examples show why the other direction fails and that the counting field (last of an object, first of an SMap) cannot be left out. The callbacks called for the fields left out are of course not called."
 },
 "C71": {
  "note": "SpecInside.lean: Handlers.part (the callbacks of a subtree as callbacks of a tree of its own), Ev.under, ReadsEach. C71_anywhere for any place; C71_member, C71_array, C71_array_fails for whole documents. Values outside of the known defects (okVal). C71_map, C71_map_fails, C71_union, C71_union_fails: the same for maps and (standalone) unions."
 },
 "C72": {
  "note": "SpecSchema.lean: SameSchema relates two trees member by member through a bijection of the member numbers. C72_tokens, C72_document; C72_fit: documents outside of the known defects (okVal) are the same for both. C72_needs_defaults, C72_needs_values: the two exceptions are needed. C72_equivalence: SameSchema is an equivalence relation. C72_watertight: for watertight trees without restricting the documents."
 }
}