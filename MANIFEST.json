{
 "claims": [
  {
   "property": "C01",
   "status": "proved",
   "theorems": [
    "SJ.C01_value_refuses",
    "SJ.C01_value_accepts"
   ],
   "note": ""
  },
  {
   "property": "C02",
   "status": "proved",
   "theorems": [
    "SJ.C02_null",
    "SJ.C02_null_member"
   ],
   "note": ""
  },
  {
   "property": "C03",
   "status": "proved",
   "theorems": [
    "SJ.C03_object_accepted",
    "SJ.C03_object_refused",
    "SJ.C03_member_error",
    "SJ.C03_mandatory_missing",
    "SJ.C03_complete"
   ],
   "note": ""
  },
  {
   "property": "C04",
   "status": "proved",
   "theorems": [
    "SJ.C04_document",
    "SJ.C04_unknown_member"
   ],
   "note": ""
  },
  {
   "property": "C05",
   "status": "partial",
   "theorems": [
    "SJ.C05_skips_partial",
    "SJ.C05_ends_early_partial",
    "SJ.C05_document_partial",
    "SJ.C05_nested_null"
   ],
   "note": "Full property: any skipped value. False of the code for values with a null strictly inside (C05_nested_null is the witness); proved for all others (skippable), for one field (C05_skips_partial, any state) and whole objects (C05_document_partial). C05_ends_early_partial: for exactly the other values the skipping ends at the first inner null and the rest of the value is read as fields of the object."
  },
  {
   "property": "C06",
   "status": "proved",
   "theorems": [
    "SJ.C06_stays_current",
    "SJ.C06_ends"
   ],
   "note": ""
  },
  {
   "property": "C07",
   "status": "proved",
   "theorems": [
    "SJ.C07_document",
    "SJ.C07_empty_object"
   ],
   "note": ""
  },
  {
   "property": "C08",
   "status": "proved",
   "theorems": [
    "SJ.C08_order",
    "SJ.C08_deep",
    "SJ.C08_accepted",
    "SJ.C08_document"
   ],
   "note": ""
  },
  {
   "property": "C09",
   "status": "proved",
   "theorems": [
    "SJ.C09_stores",
    "SJ.C09_only",
    "SJ.C09_element_refused",
    "SJ.C09_element_unset"
   ],
   "note": ""
  },
  {
   "property": "C10",
   "status": "proved",
   "theorems": [
    "SJ.C10_first_wins",
    "SJ.C10_only"
   ],
   "note": ""
  },
  {
   "property": "C11",
   "status": "proved",
   "theorems": [
    "SJ.C11_smap_refuses_unset",
    "SJ.C11_smap_refuses_null",
    "SJ.C11_map_accepts",
    "SJ.C11_map_null_call"
   ],
   "note": ""
  },
  {
   "property": "C12",
   "status": "proved",
   "theorems": [
    "SJ.C12_document",
    "SJ.C12_tuple"
   ],
   "note": ""
  },
  {
   "property": "C13",
   "status": "proved",
   "theorems": [
    "SJ.C13_document",
    "SJ.C13_unfillable"
   ],
   "note": ""
  },
  {
   "property": "C14",
   "status": "proved",
   "theorems": [
    "SJ.C14_selected_name",
    "SJ.C14_no_name",
    "SJ.C14_wrong_type_member",
    "SJ.C14_unknown_type_value",
    "SJ.C14_selects",
    "SJ.C14_selected",
    "SJ.C14_unset",
    "SJ.C14_member_error",
    "SJ.C14_member_unset",
    "SJ.C14_first_field",
    "SJ.C14_type_value",
    "SJ.C14_type_value_type",
    "SJ.C14_only"
   ],
   "note": ""
  },
  {
   "property": "C15",
   "status": "proved",
   "theorems": [
    "SJ.C15_union",
    "SJ.C15_sunion",
    "SJ.C15_map",
    "SJ.C15_smap",
    "SJ.C15_auto",
    "SJ.C15_alternative_error",
    "SJ.C15_type_value"
   ],
   "note": ""
  },
  {
   "property": "C16",
   "status": "proved",
   "theorems": [
    "SJ.C16_stores",
    "SJ.C16_refuses"
   ],
   "note": ""
  },
  {
   "property": "C17",
   "status": "proved",
   "theorems": [
    "SJ.C17_get",
    "SJ.C17_pop",
    "SJ.C17_after_pop",
    "SJ.C17_document"
   ],
   "note": ""
  },
  {
   "property": "C18",
   "status": "proved",
   "theorems": [
    "SJ.C18_get",
    "SJ.C18_pop",
    "SJ.C18_sequence",
    "SJ.C18_unset"
   ],
   "note": ""
  },
  {
   "property": "C19",
   "status": "proved",
   "theorems": [
    "SJ.C19_get",
    "SJ.C19_pop",
    "SJ.C19_callbacks",
    "SJ.C19_members"
   ],
   "note": ""
  },
  {
   "property": "C20",
   "status": "proved",
   "theorems": [
    "SJ.C20_order",
    "SJ.C20_failed",
    "SJ.C20_arguments"
   ],
   "note": ""
  },
  {
   "property": "C21",
   "status": "proved",
   "theorems": [
    "SJ.C21_success",
    "SJ.C21_failure",
    "SJ.C21_stops",
    "SJ.C21_reported"
   ],
   "note": ""
  },
  {
   "property": "C22",
   "status": "proved",
   "theorems": [
    "SJ.C22_chunks",
    "SJ.C22_bytes",
    "SJ.C22_pieces",
    "SJ.C22_document"
   ],
   "note": ""
  },
  {
   "property": "C23",
   "status": "partial",
   "theorems": [
    "SJ.C23_any_callbacks_partial",
    "SJ.C23_stuck",
    "SJ.C23_exactly_partial",
    "SJ.C23_characterised",
    "SJ.C23_array_free_partial",
    "SJ.C23_outside_arrays_partial",
    "SJ.C23_inside_array",
    "SJ.C23_null_element",
    "SJ.C23_documents_partial"
   ],
   "note": "Full property: any failure. False of the code if an array was being read (C23_inside_array, C23_null_element). Proved: trees without arrays after any history; all trees if no array was open at the failures (Survived); C23_any_callbacks_partial: also for callbacks that reject, throw, pop and assign. C23_exactly_partial: the condition 'no array open at the failure' is also necessary (C23_stuck: otherwise there is a document whose first tokens a new parser accepts and this one does not, for all callbacks). C23_characterised: an exact characterisation after any history whatsoever."
  },
  {
   "property": "C24",
   "status": "partial",
   "theorems": [
    "SJ.C24_same_if_accepted_partial",
    "SJ.C24_any_callbacks_partial",
    "SJ.C24_any_callbacks_documents_partial",
    "SJ.C24_reusable_partial",
    "SJ.C24_idle",
    "SJ.C24_null_element",
    "SJ.C24_documents_partial"
   ],
   "note": "Full property: any successfully parsed documents, any callbacks. False of the code for a null element of an array of composites (C24_null_element). Proved for compared documents outside the defect classes; C24_any_callbacks_partial: callbacks may reject, throw, pop and assign. C24_same_if_accepted_partial: any documents, nulls anywhere: if both parsers accept, the outcome is the same."
  },
  {
   "property": "C25",
   "status": "proved",
   "theorems": [
    "SJ.C25_document",
    "SJ.C25_no_leftover"
   ],
   "note": ""
  },
  {
   "property": "C26",
   "status": "proved",
   "theorems": [
    "SJ.C26_parse",
    "SJ.C26_finish",
    "SJ.C26_parse_total",
    "SJ.C26_finish_total"
   ],
   "note": ""
  },
  {
   "property": "C27",
   "status": "proved",
   "theorems": [
    "SJ.C27_parse",
    "SJ.C27_finish",
    "SJ.C27_text"
   ],
   "note": ""
  },
  {
   "property": "C28",
   "status": "proved",
   "theorems": [
    "SJ.C28_terminates",
    "SJ.C28_bound",
    "SJ.C28_run",
    "SJ.C28_depth"
   ],
   "note": ""
  },
  {
   "property": "C29",
   "status": "partial",
   "theorems": [
    "SJ.C29_no_ub_partial",
    "SJ.C29_only_partial",
    "SJ.C29_union_element",
    "SJ.C29_exactly_partial"
   ],
   "note": "False of the code for arrays of unions given a scalar (C29_union_element); C29_exactly_partial: after any history undefined behaviour occurs if and only if this happens, hence never for trees without such arrays (C29_no_ub_partial)."
  },
  {
   "property": "C30",
   "status": "proved",
   "theorems": [
    "SJ.C30_stack",
    "SJ.C30_direct"
   ],
   "note": ""
  },
  {
   "property": "C31",
   "status": "proved",
   "theorems": [
    "SJ.C31_last_wins",
    "SJ.C31_last_null_refused"
   ],
   "note": ""
  },
  {
   "property": "C32",
   "status": "proved",
   "theorems": [
    "SJ.C32_duplicate",
    "SJ.C32_registered",
    "SJ.C32_lookup",
    "SJ.Obj.C32_new_object",
    "SJ.Obj.C32_new_union",
    "SJ.C32_same"
   ],
   "note": ""
  },
  {
   "property": "C33",
   "status": "proved",
   "theorems": [
    "SJ.C33_moved",
    "SJ.Obj.C33_pointers",
    "SJ.Obj.C33_numbers",
    "SJ.Obj.C33_distinct",
    "SJ.Obj.C33_shared_parser",
    "SJ.Obj.C33_moved_content",
    "SJ.Obj.C33_assigned_content",
    "SJ.Obj.C33_initial",
    "SJ.Obj.C33_lookup",
    "SJ.Obj.C33_moved_reads",
    "SJ.Obj.C33_ready"
   ],
   "note": ""
  },
  {
   "property": "C34",
   "status": "proved",
   "theorems": [
    "SJ.C34_unset_inside",
    "SJ.C34_failed",
    "SJ.C34_short"
   ],
   "note": ""
  },
  {
   "property": "C35",
   "status": "proved",
   "theorems": [
    "SJ.C35_wrong_kind"
   ],
   "note": ""
  },
  {
   "property": "C36",
   "status": "proved",
   "theorems": [
    "SJ.C36_get",
    "SJ.C36_current_member"
   ],
   "note": ""
  },
  {
   "property": "C37",
   "status": "proved",
   "theorems": [
    "SJ.C37_finish_again",
    "SJ.C37_new_document"
   ],
   "note": ""
  },
  {
   "property": "C38",
   "status": "partial",
   "theorems": [
    "SJ.C38_success_partial",
    "SJ.C38_failure_partial",
    "SJ.C38_parse_partial",
    "SJ.C38_witness"
   ],
   "note": "False of the code (C38_witness): on failure finish() reads the old buffer. Proved: a successful finish() does not depend on it, parse() reads only its own buffer, and C38_failure_partial: a failing finish() reads exactly the last buffer, unless the failure is that parsers are left over."
  },
  {
   "property": "C39",
   "status": "proved",
   "theorems": [
    "SJ.C39_document"
   ],
   "note": ""
  },
  {
   "property": "C40",
   "status": "proved",
   "theorems": [
    "SJ.C40_accepted",
    "SJ.C40_refused",
    "SJ.C40_document",
    "SJ.C40_document_refused",
    "SJ.C40_any_history",
    "SJ.C40_document_any_history",
    "SJ.C40_needs_no_array_open",
    "SJ.C40_needs_no_array_of_arrays",
    "SJ.C40_needs_no_standalone_union"
   ],
   "note": "For trees with an Array of arrays or a standalone union, and after a failure inside an array, it is false of the code (C40_needs_no_array_of_arrays, C40_needs_no_standalone_union, C40_needs_no_array_open); stated and proved for the other trees (Shape.watertight) and histories."
  },
  {
   "property": "C41",
   "status": "proved",
   "theorems": [
    "SJ.C41_trailing",
    "SJ.C41_incomplete",
    "SJ.C41_described",
    "SJ.C41_second_value",
    "SJ.C41_truncated"
   ],
   "note": ""
  },
  {
   "property": "C42",
   "status": "proved",
   "theorems": [
    "SJ.C42_roundtrip",
    "SJ.C42_document",
    "SJ.C42_reread"
   ],
   "note": ""
  },
  {
   "property": "C43",
   "status": "proved",
   "theorems": [
    "SJ.C43_token",
    "SJ.C43_reading",
    "SJ.C43_refused",
    "SJ.C43_fields"
   ],
   "note": ""
  },
  {
   "property": "C44",
   "status": "proved",
   "theorems": [
    "SJ.C44_like_new",
    "SJ.C44_value_arrays",
    "SJ.C44_array_free",
    "SJ.C44_map_free",
    "SJ.C44_documents",
    "SJ.C44_stale_element"
   ],
   "note": "Restrictions on nulls in arrays, arrays left open and callbacks that look at stale map elements are needed (C24_null_element, C23_inside_array, C44_stale_element)."
  },
  {
   "property": "C45",
   "status": "proved",
   "theorems": [
    "SJ.C45_all",
    "SJ.C45_positions",
    "SJ.C45_so_far",
    "SJ.C45_token",
    "SJ.C45_refused",
    "SJ.C45_text"
   ],
   "note": ""
  },
  {
   "property": "C46",
   "status": "proved",
   "theorems": [
    "SJ.C46_tokens",
    "SJ.C46_errors",
    "SJ.C46_new",
    "SJ.C46_document",
    "SJ.C46_document_errors",
    "SJ.C46_parse",
    "SJ.C46_finish"
   ],
   "note": ""
  },
  {
   "property": "C47",
   "status": "proved",
   "theorems": [
    "SJ.C47_exact_ready",
    "SJ.C47_exact",
    "SJ.C47_conforming_accepted",
    "SJ.C47_accepted_conforms",
    "SJ.C47_document",
    "SJ.C47_document_accepted",
    "SJ.C47_document_conforms",
    "SJ.C47_needs_nulls"
   ],
   "note": ""
  },
  {
   "property": "C48",
   "status": "proved",
   "theorems": [
    "SJ.C48_accepted",
    "SJ.C48_value",
    "SJ.C48_document",
    "SJ.C48_needs_refusal"
   ],
   "note": ""
  },
  {
   "property": "C49",
   "status": "proved",
   "theorems": [
    "SJ.C49_tokens",
    "SJ.C49_document",
    "SJ.C49_watching",
    "SJ.C49_root",
    "SJ.C49_custom",
    "SJ.C49_list"
   ],
   "note": ""
  },
  {
   "property": "C50",
   "status": "proved",
   "theorems": [
    "SJ.C50_added",
    "SJ.C50_added_document",
    "SJ.C50_watching",
    "SJ.C50_watching_parse",
    "SJ.C50_watching_document",
    "SJ.C50_replaced",
    "SJ.C50_replaced_parse"
   ],
   "note": ""
  },
  {
   "property": "C51",
   "status": "proved",
   "theorems": [
    "SJ.C51_no_memory",
    "SJ.C51_constructor",
    "SJ.C51_no_traces",
    "SJ.C51_not_needed",
    "SJ.C51_with_memory",
    "SJ.C51_finish"
   ],
   "note": ""
  },
  {
   "property": "C52",
   "status": "proved",
   "theorems": [
    "SJ.C52_new",
    "SJ.C52_value",
    "SJ.C52_document",
    "SJ.C52_root",
    "SJ.C52_set",
    "SJ.C52_set_tokens"
   ],
   "note": ""
  },
  {
   "property": "C53",
   "status": "proved",
   "theorems": [
    "SJ.C53_only_json",
    "SJ.C53_not_json",
    "SJ.C53_value",
    "SJ.C53_accepted",
    "SJ.C53_exactly",
    "SJ.C53_roundtrip",
    "SJ.C53_text_exists",
    "SJ.C53_unambiguous",
    "SJ.C53_possible"
   ],
   "note": ""
  },
  {
   "property": "C54",
   "status": "proved",
   "theorems": [
    "SJ.C54_parse",
    "SJ.C54_finish",
    "SJ.C54_total",
    "SJ.C54_finish_total",
    "SJ.C54_again",
    "SJ.C54_array_free",
    "SJ.C54_values"
   ],
   "note": ""
  },
  {
   "property": "C55",
   "status": "proved",
   "theorems": [
    "SJ.Shd.C55_run",
    "SJ.Shd.C55_stack",
    "SJ.Shd.C55_current_once",
    "SJ.Shd.C55_parse",
    "SJ.Shd.C55_finish",
    "SJ.Shd.C55_unshared",
    "SJ.Shd.C55_names",
    "SJ.Shd.C55_own_objects",
    "SJ.Shd.C55_alternative"
   ],
   "note": "Model/Shared: the parsing methods over shared objects, callbacks with access to everything. The exception (arrays of unions) is part of the statement; it is C29's."
  },
  {
   "property": "C56",
   "status": "proved",
   "theorems": [
    "SJ.C56_bounded",
    "SJ.C56_parser",
    "SJ.C56_shared",
    "SJ.C56_linear",
    "SJ.C56_needs_flat"
   ],
   "note": "Sizes are of the values (parts and bytes of strings); the capacity a std::vector or std::deque keeps in reserve and YAJL's own buffers are not modelled."
  },
  {
   "property": "C57",
   "status": "proved",
   "theorems": [
    "SJ.C57_parse",
    "SJ.C57_finish",
    "SJ.C57_total",
    "SJ.C57_finish_total",
    "SJ.C57_again",
    "SJ.C57_set",
    "SJ.C57_start",
    "SJ.C57_values",
    "SJ.C57_unset"
   ],
   "note": "The operations of user's types are moving and copying a value into the value of an SAutoObject, SUnion, SArray, SMap, and _value = {} in reset(). Destructors that throw and types with throwing moves that cannot be copied inside std::vector are not covered."
  },
  {
   "property": "C58",
   "status": "proved",
   "theorems": [
    "SJ.C58_order",
    "SJ.C58_once",
    "SJ.C58_bound",
    "SJ.C58_opening",
    "SJ.C58_run"
   ],
   "note": "C58_order, C58_once and C58_run hold for any history and any tokens, well-formed document or not. C58_opening does not even need a history. C58_bound is in terms of the depth of the innermost parser that was called."
  },
  {
   "property": "C59",
   "status": "proved",
   "theorems": [
    "SJ.C59_reset",
    "SJ.C59_attach",
    "SJ.C59_model",
    "SJ.C59_shared"
   ],
   "note": "C59_reset and C59_attach: any two orders agree. C59_model and C59_shared: the models, which go through the members in the order of the tuple, are exactly this result. An interrupted reset() (C57) is covered there by allowing any part of it."
  },
  {
   "property": "C60",
   "status": "proved",
   "theorems": [
    "SJ.C60_tokens",
    "SJ.C60_document",
    "SJ.C60_roundtrip",
    "SJ.C60_tree"
   ],
   "note": "C60_tokens and C60_document: the two trees, each after any history. C60_roundtrip: what is written from the one is read by the other. Optional members of an object with a user's type need a default value (an example shows that the claim is false otherwise: SAutoObject refuses, SCustomObject accepts)."
  },
  {
   "property": "C61",
   "status": "proved",
   "theorems": [
    "SJ.C61_cleared",
    "SJ.C61_kept",
    "SJ.C61_twice",
    "SJ.C61_between",
    "SJ.C61_brace",
    "SJ.C61_midway"
   ],
   "note": "C61_cleared, C61_kept, C61_twice: the effect of one call. C61_between, C61_brace, C61_midway: the effect on documents. That nothing else breaks is part of all theorems about histories, which include reset() as a step. Element parsers of maps are not reset (as the code has it)."
  },
  {
   "property": "C62",
   "status": "proved",
   "theorems": [
    "SJ.C62_array",
    "SJ.C62_map",
    "SJ.C62_document",
    "SJ.C62_union"
   ],
   "note": "C62_array, C62_map: anywhere in trees. C62_document: whole documents as text. Callbacks that only observe; documents as in okVal (see C39). C62_union: SUnion and Union, anywhere in trees."
  },
  {
   "property": "C63",
   "status": "proved",
   "theorems": [
    "SJ.C63_object",
    "SJ.C63_union",
    "SJ.C63_document"
   ],
   "note": "C63_object, C63_union: anywhere in trees. C63_document: whole documents as text. Callbacks that only observe; documents as in okVal (see C39). Embedded unions whose own alternatives are declared in another order are not covered by C63_union."
  },
  {
   "property": "C64",
   "status": "proved",
   "theorems": [
    "SJ.C64_completable",
    "SJ.C64_exact",
    "SJ.C64_earliest",
    "SJ.C64_text",
    "SJ.C64_late_read",
    "SJ.C64_late_dead"
   ],
   "note": "C64_completable, C64_exact, C64_earliest (tokens), C64_text (chunks of text). SpecAhead.lean: completable trees. C64_late_read / C64_late_dead: the dead end of an embedded union. Callbacks are Passive (accept everything); prefixes are prefixes of documents with okVal (outside the null defects C05, C23)."
  },
  {
   "property": "C65",
   "status": "proved",
   "theorems": [
    "SJ.C65_tokens",
    "SJ.C65_uses",
    "SJ.C65_document",
    "SJ.C65_replace",
    "SJ.C65_accept"
   ],
   "note": "C65_tokens (any tokens, any corresponding states, arbitrary corresponding callbacks), C65_uses (construction, get, pop, reset, next document), C65_document (texts in chunks), C65_replace (a function on scalars), C65_accept (acceptance depends on types and choices only). SpecThrough.lean: the relations. No restriction to documents outside the known defects: also those behave alike."
  },
  {
   "property": "C66",
   "status": "proved",
   "theorems": [
    "SJ.C66_tokens",
    "SJ.C66_document",
    "SJ.C66_storing"
   ],
   "note": "C66_tokens and C66_document compare two runs with callbacks that differ only in what those of streamed elements take; C66_storing compares with SArray/SMap. For callbacks of members this is false (example: the member is missing then), C49 says what happens."
  },
  {
   "property": "C67",
   "status": "proved",
   "theorems": [
    "SJ.C67_tokens",
    "SJ.C67_document"
   ],
   "note": "C67_tokens for token sequences and C67_document for texts; both documents must be outside the known defects (a null deep in an ignored value breaks the Ignore parser: C05). An ignored field makes an empty object non-empty (example)."
  },
  {
   "property": "C68",
   "status": "proved",
   "theorems": [
    "SJ.C68_tokens",
    "SJ.C68_document"
   ],
   "note": "C68_tokens for token sequences and C68_document for texts. Null elements of arrays of composite parsers are the known defect 2 (C24) and are excluded by okVal of both documents; entries of maps are different (example: an error in an SMap)."
  },
  {
   "property": "C69",
   "status": "proved",
   "theorems": [
    "SJ.C69_same",
    "SJ.C69_total",
    "SJ.C69_document",
    "SJ.C69_token",
    "SJ.C69_least"
   ],
   "note": "C69_same: the counted model gives the results of the model. C69_total, C69_document: amortised bound; C69_token: worst case; C69_least: at least one step per token. One step may touch a parser with everything inside of it (reset, setDispatcher, the checks of finish), so its cost is bounded by the size of the tree, not of the document; the cost of a map insertion, of growing a vector and of hashing a name is that of the standard containers and is not counted."
  },
  {
   "property": "C70",
   "status": "proved",
   "theorems": [
    "SJ.C70_tokens",
    "SJ.C70_document"
   ],
   "note": "SpecRepeat.lean: FewerRepeats says which fields may be left out. C70_tokens, C70_document; examples show why the other direction fails and that the counting field (last of an object, first of an SMap) cannot be left out. The callbacks called for the fields left out are of course not called."
  },
  {
   "property": "C71",
   "status": "proved",
   "theorems": [
    "SJ.C71_anywhere",
    "SJ.C71_member",
    "SJ.C71_array",
    "SJ.C71_array_fails",
    "SJ.C71_map",
    "SJ.C71_map_fails",
    "SJ.C71_union",
    "SJ.C71_union_fails"
   ],
   "note": "SpecInside.lean: Handlers.part (the callbacks of a subtree as callbacks of a tree of its own), Ev.under, ReadsEach. C71_anywhere for any place; C71_member, C71_array, C71_array_fails for whole documents. Values outside of the known defects (okVal). C71_map, C71_map_fails, C71_union, C71_union_fails: the same for maps and (standalone) unions."
  },
  {
   "property": "C72",
   "status": "proved",
   "theorems": [
    "SJ.C72_tokens",
    "SJ.C72_document",
    "SJ.C72_fit",
    "SJ.C72_equivalence",
    "SJ.C72_watertight",
    "SJ.C72_needs_defaults",
    "SJ.C72_needs_values"
   ],
   "note": "SpecSchema.lean: SameSchema relates two trees member by member through a bijection of the member numbers. C72_tokens, C72_document; C72_fit: documents outside of the known defects (okVal) are the same for both. C72_needs_defaults, C72_needs_values: the two exceptions are needed. C72_equivalence: SameSchema is an equivalence relation. C72_watertight: for watertight trees without restricting the documents."
  }
 ]
}