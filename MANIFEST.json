{
 "claims": [
  {
   "property": "C01",
   "status": "proved",
   "theorems": [
    "Yarql.C01_parse_total"
   ],
   "note": "parser model total on all inputs: no panic, no divergence, error or encoding"
  },
  {
   "property": "C02",
   "status": "proved",
   "theorems": [
    "Yarql.C02_document_compiles"
   ],
   "note": ""
  },
  {
   "property": "C03",
   "status": "proved",
   "theorems": [
    "Yarql.C03_layout_independent",
    "Yarql.C03_ignored_prefix"
   ],
   "note": ""
  },
  {
   "property": "C04",
   "status": "partial",
   "theorems": [
    "Yarql.C04_selected_operation",
    "Yarql.C04_no_operation",
    "Yarql.C04_only_chosen_operation_partial"
   ],
   "note": "selection by name: every accepted query; that only the chosen operation is executed: for requests in the class Serves"
  },
  {
   "property": "C05",
   "status": "proved",
   "theorems": [
    "Yarql.C05_error_location",
    "Yarql.C05_errors_located",
    "Yarql.C05_stray_character"
   ],
   "note": "columns are 0-based byte counts, as the code computes them"
  },
  {
   "property": "C06",
   "status": "proved",
   "theorems": [
    "Yarql.C06_accepted_is_encoding",
    "Yarql.C06_fragment_positions",
    "Yarql.Doc.encDoc_inj"
   ],
   "note": ""
  },
  {
   "property": "C07",
   "status": "proved",
   "theorems": [
    "Yarql.C07_name_limit",
    "Yarql.C07_name_reader",
    "Yarql.C07_directive_limit"
   ],
   "note": ""
  },
  {
   "property": "C08",
   "status": "partial",
   "theorems": [
    "Yarql.C08_quoted_string",
    "Yarql.C08_block_string",
    "Yarql.C08_delivered_partial",
    "Yarql.ArgsDemo.C08_refuted_execution"
   ],
   "note": "compilation and delivery, for strings without NUL; false with NUL (concrete request)"
  },
  {
   "property": "C09",
   "status": "proved",
   "theorems": [
    "Yarql.C09_number"
   ],
   "note": ""
  },
  {
   "property": "C10",
   "status": "partial",
   "theorems": [
    "Yarql.Cache.C10_not_transparent",
    "Yarql.Cache.C10_cache_transparent_partial",
    "Yarql.Cache.C10_same_fragment_table_partial"
   ],
   "note": "the full claim is false of the code (fragment table stored uncopied); refuted by a concrete history, positive theorem under the stated hypothesis"
  },
  {
   "property": "C11",
   "status": "proved",
   "theorems": [
    "Yarql.Cache.C11_cache_bounded"
   ],
   "note": ""
  },
  {
   "property": "C12",
   "status": "proved",
   "theorems": [
    "Yarql.Cache.C12_cache_never_serves_another_query",
    "Yarql.Cache.C12_latest_store_is_found"
   ],
   "note": ""
  },
  {
   "property": "C13",
   "status": "proved",
   "theorems": [
    "Yarql.C13_json_string"
   ],
   "note": ""
  },
  {
   "property": "C14",
   "status": "partial",
   "theorems": [
    "Yarql.C14_well_formed_partial",
    "Yarql.C14_without_errors_partial",
    "Yarql.C14_not_executed",
    "Yarql.Demo.C14_refuted_typename",
    "Yarql.Demo.C14_refuted_arguments",
    "Yarql.C14_well_formed_wide_partial",
    "Yarql.Escapes.C14_refuted_by_nul"
   ],
   "note": "well-formed unless an error is about one of two kinds of selection, for which the key is written without a value (refuted by examples)"
  },
  {
   "property": "C15",
   "status": "proved",
   "theorems": [
    "Yarql.C15_errors_reach_response"
   ],
   "note": ""
  },
  {
   "property": "C16",
   "status": "partial",
   "theorems": [
    "Yarql.C16_response_mirrors_selection_partial",
    "Yarql.C16_shown_is_answered_partial",
    "Yarql.Escapes.C16_refuted_by_nul",
    "Yarql.Escapes.forged_parsed"
   ],
   "note": "both directions, for requests in the class Serves; false in general: an escaped NUL in a string argument makes the resolver answer another selection (concrete request)"
  },
  {
   "property": "C17",
   "status": "partial",
   "theorems": [
    "Yarql.C17_skip_include_partial"
   ],
   "note": "for requests in the class Serves"
  },
  {
   "property": "C18",
   "status": "partial",
   "theorems": [
    "Yarql.C18_spread_is_inline_partial",
    "Yarql.Demo.C18_refuted_by_prefix"
   ],
   "note": "proved unless an earlier fragment has a longer name that begins with that of the spread; refuted in that case"
  },
  {
   "property": "C19",
   "status": "partial",
   "theorems": [
    "Yarql.C19_answered_partial",
    "Yarql.C19_guarded_partial",
    "Yarql.C19_acyclic_partial",
    "Yarql.C19_refuted_by_cycle",
    "Yarql.C19_answered_wide_partial",
    "Yarql.C19_refuted_by_interface"
   ],
   "note": "requests that nest within the value stack, or (no interfaces) within a depth limit, cycles of fragments through fields included; a cycle of spreads without a field never terminates (refuted); nor does a recursive fragment below an interface, whatever the depth limit, if that is odd (refuted, for every such schema)"
  },
  {
   "property": "C20",
   "status": "partial",
   "theorems": [
    "Yarql.C20_lookup_partial",
    "Yarql.C20_selected_partial",
    "Yarql.C20_unknown_partial",
    "Yarql.ArgsDemo.C20_refuted",
    "Yarql.ArgsDemo.C20_refuted_request"
   ],
   "note": "by name whenever the selected name collides with no field of the type; 32-bit FNV-1 collisions refute the full claim"
  },
  {
   "property": "C21",
   "status": "partial",
   "theorems": [
    "Yarql.C21_every_request_partial",
    "Yarql.C21_depth_partial",
    "Yarql.C21_error_partial",
    "Yarql.Demo.C21_refuted_interface",
    "Yarql.C19_refuted_by_interface"
   ],
   "note": "proved for schemas without interfaces and MaxDepth > 0, for every request that is answered (any text, variables and data); with interfaces the limit is missed or hit too early (concrete requests); for recursive fragments and cyclic data they are missed for ever"
  },
  {
   "property": "C22",
   "status": "partial",
   "theorems": [
    "Yarql.C22_own_parent_partial",
    "Yarql.StackWrap.C22_refuted_beyond_stack",
    "Yarql.C22_every_parent_partial"
   ],
   "note": "every request with a depth limit up to 127 (C22_every_parent_partial), or within 255 stack entries; refuted beyond"
  },
  {
   "property": "C23",
   "status": "partial",
   "theorems": [
    "Yarql.C23_signed_partial",
    "Yarql.C23_unsigned_partial",
    "Yarql.C23_rejected_partial",
    "Yarql.C25_calls_partial",
    "Yarql.calls_made_partial",
    "Yarql.Escapes.C23_refuted"
   ],
   "note": "every call made has inputs that are Given (C25_calls_partial); Given inputs hold the literal exactly; literals out of range have no inputs, so no call; class Serves; false for a member behind a list member (concrete request)"
  },
  {
   "property": "C24",
   "status": "partial",
   "theorems": [
    "Yarql.C24_signed_partial",
    "Yarql.C24_unsigned_partial",
    "Yarql.ArgsDemo.C24_refuted"
   ],
   "note": "proved for signed parameters; unsigned parameters wrap out-of-range JSON numbers (refuted by a concrete request)"
  },
  {
   "property": "C25",
   "status": "partial",
   "theorems": [
    "Yarql.C25_calls_partial",
    "Yarql.C25_called_partial",
    "Yarql.ArgsDemo.C25_refuted_list",
    "Yarql.ArgsDemo.C25_refuted_null",
    "Yarql.Escapes.C25_refuted_escape"
   ],
   "note": "for queries in which list arguments come last in their argument list; false otherwise, and for object literals ending in null behind pointers (concrete requests)"
  },
  {
   "property": "C26",
   "status": "partial",
   "theorems": [
    "Yarql.C26_called_or_refused",
    "Yarql.C26_not_called_partial",
    "Yarql.C26_unbound_query_partial",
    "Yarql.Escapes.C26_refuted"
   ],
   "note": "every request: a field with a function is either the result of one call or an error with its path (C26_called_or_refused); which arguments refuse it: class Serves; false for undeclared arguments behind a list (concrete request)"
  },
  {
   "property": "C27",
   "status": "partial",
   "theorems": [
    "Yarql.C27_key_delivered_partial",
    "Yarql.C27_unknown_key_partial",
    "Yarql.C27_variable_partial",
    "Yarql.C27_shown",
    "Yarql.C27_round_trip",
    "Yarql.ArgsDemo.C27_refuted"
   ],
   "note": "keys round trip; integer literals bypass the check for integer enums (concrete request); shown keys: for every request by C43_every_value"
  },
  {
   "property": "C28",
   "status": "proved",
   "theorems": [
    "Yarql.C28_every_error",
    "Yarql.C28_each_error",
    "Yarql.C28_error_paths"
   ],
   "note": "the first two hold of every request text and schema"
  },
  {
   "property": "C29",
   "status": "partial",
   "theorems": [
    "Yarql.C29_variable_partial",
    "Yarql.C29_refused_partial",
    "Yarql.calls_made_partial",
    "Yarql.Escapes.C29_refuted"
   ],
   "note": "class Serves; false for variables behind a list member of an input object (concrete request)"
  },
  {
   "property": "C30",
   "status": "proved",
   "theorems": [
    "Yarql.C30_values_do_not_matter",
    "Yarql.C30_null_everywhere",
    "Yarql.C30_null_and_error",
    "Yarql.C30_results_do_not_matter"
   ],
   "note": "the first two hold of every request text and schema, with no hypothesis on either"
  },
  {
   "property": "C31",
   "status": "partial",
   "theorems": [
    "Yarql.Time.C31_time_shift",
    "Yarql.Time.C31_utc_round_trip_partial",
    "Yarql.Time.C31_other_zones_wrong",
    "Yarql.Time.C31_parsed_valid",
    "Yarql.Time.C31_accepts_exactly",
    "Yarql.Time.C31_calendar"
   ],
   "note": "true for UTC times of years 0-9999; in every other zone the instant is off by exactly the offset (proved)"
  },
  {
   "property": "C32",
   "status": "proved",
   "theorems": [
    "Yarql.Naming.C32_valid_name",
    "Yarql.Naming.C32_format",
    "Yarql.Naming.C32_exported_valid",
    "Yarql.Naming.C32_exported_distinct",
    "Yarql.Naming.C32_idempotent",
    "Yarql.Naming.C32_no_tag",
    "Yarql.Naming.C32_tag_name",
    "Yarql.Naming.C32_tag_rejected",
    "Yarql.Naming.C32_tag_exact"
   ],
   "note": "ASCII; C32_non_ascii_mangled shows what happens outside"
  },
  {
   "property": "C33",
   "status": "partial",
   "theorems": [
    "Yarql.Registry.C33_unique",
    "Yarql.Registry.C33_accepted_iff",
    "Yarql.Registry.C33_register_directive_partial",
    "Yarql.Registry.C33_not_atomic",
    "Yarql.Registry.C33_not_atomic_same_location"
   ],
   "note": "uniqueness proved; atomicity is false of the code and refuted, with the exact positive statement proved"
  },
  {
   "property": "C34",
   "status": "proved",
   "theorems": [
    "Yarql.Registry.C34_closed_after_parse",
    "Yarql.Registry.C34_resolve_needs_parse"
   ],
   "note": ""
  },
  {
   "property": "C35",
   "status": "partial",
   "theorems": [
    "Yarql.Introspect.C35_fields_partial",
    "Yarql.Introspect.C35_query_after_mutation_wrong",
    "Yarql.Roots.C35_parsed_partial"
   ],
   "note": "right for every history except the root query after a request for the mutation type; that case is refuted"
  },
  {
   "property": "C36",
   "status": "partial",
   "theorems": [
    "Yarql.Introspect.C36_notation_iff",
    "Yarql.Introspect.C36_notation_partial",
    "Yarql.Introspect.C36_list_of_int_wrong"
   ],
   "note": "exactly the types with a list of non-null elements are printed wrong"
  },
  {
   "property": "C37",
   "status": "proved",
   "theorems": [
    "Yarql.Http.C37_batch",
    "Yarql.Http.C37_element_alone"
   ],
   "note": ""
  },
  {
   "property": "C38",
   "status": "proved",
   "theorems": [
    "Yarql.Http.C38_body_validation",
    "Yarql.Http.C38_invalid_body",
    "Yarql.Http.C38_source"
   ],
   "note": ""
  },
  {
   "property": "C39",
   "status": "proved",
   "theorems": [
    "Yarql.Ctx.C39_values",
    "Yarql.Ctx.C39_nil_map_panics"
   ],
   "note": "Values pointing to a nil map is excluded: SetValue then panics (C39_nil_map_panics)"
  },
  {
   "property": "C40",
   "status": "partial",
   "theorems": [
    "Yarql.Ctx.C40_set_context_partial",
    "Yarql.Ctx.C40_set_context_iff",
    "Yarql.Ctx.C40_set_context_panics"
   ],
   "note": "false for requests without a context: SetContext dereferences nil; refuted, exact crash condition proved"
  },
  {
   "property": "C41",
   "status": "partial",
   "theorems": [
    "Yarql.Ctx.C41_own_errors",
    "Yarql.Ctx.C41_returned_errors_overwritten",
    "Yarql.Ctx.C41_returned_errors_stable_partial",
    "Yarql.C41_response_independent",
    "Yarql.C41_fresh",
    "Yarql.C41_deterministic"
   ],
   "note": "responses are independent of history (proved); returned error lists are overwritten by later requests (refuted)"
  },
  {
   "property": "C42",
   "status": "partial",
   "theorems": [
    "Yarql.Introspect.C42_copy_reveals",
    "Yarql.Introspect.C42_copy_lists_hidden",
    "Yarql.Introspect.C42_copy_cache_rule",
    "Yarql.Introspect.C42_copy_enum_description",
    "Yarql.Introspect.C42_copy_ql",
    "Yarql.C42_same_answers"
   ],
   "note": "the copy differs from the original in hidden fields, cache rule and enum descriptions only; those differences are observable (refuted)"
  },
  {
   "property": "C43",
   "status": "proved",
   "theorems": [
    "Yarql.C43_every_value",
    "Yarql.C43_every_value_ok"
   ],
   "note": "every request, whatever the query, the schema and the values"
  },
  {
   "property": "C44",
   "status": "partial",
   "theorems": [
    "Yarql.C44_every_object",
    "Yarql.C44_typename_partial"
   ],
   "note": "every object in every response is of a type its position allows; __typename: class Serves"
  },
  {
   "property": "C45",
   "status": "proved",
   "theorems": [
    "Yarql.C45_uint32_round_trip"
   ],
   "note": ""
  },
  {
   "property": "C46",
   "status": "proved",
   "theorems": [
    "Yarql.C46_data_whatever_errors",
    "Yarql.C46_one_error_per_call",
    "Yarql.C46_errors_do_not_hide_data",
    "Yarql.C46_error_reported_once"
   ],
   "note": "the first two hold of every request text and schema"
  },
  {
   "property": "C47",
   "status": "partial",
   "theorems": [
    "Yarql.C47_args_before_directives_rejected",
    "Yarql.C47_directives_first_partial"
   ],
   "note": "false of the code: refuted; the order yarql wants is accepted"
  },
  {
   "property": "C48",
   "status": "partial",
   "theorems": [
    "Yarql.C48_registered_partial",
    "Yarql.C48_inputs_partial",
    "Yarql.C48_rejects_partial",
    "Yarql.C48_returns_partial",
    "Yarql.C48_outcome",
    "Yarql.C48_refuted_recursive_slice",
    "Yarql.C48_refuted_same_name",
    "Yarql.C48_refuted_same_input",
    "Yarql.C48_markers"
   ],
   "note": "a model of Parse over arbitrary Go type graphs; proved when every type cycle passes through a named struct or interface and no two types clash in a way Parse overlooks; both exceptions refuted by concrete programs"
  },
  {
   "property": "C49",
   "status": "proved",
   "theorems": [
    "Yarql.Naming.C49_method_naming",
    "Yarql.Naming.C49_methods_distinct",
    "Yarql.Naming.C49_resolve_panics"
   ],
   "note": "a method named exactly Resolve crashes Parse (C49_resolve_panics)"
  },
  {
   "property": "C50",
   "status": "proved",
   "theorems": [
    "Yarql.Registry.C50_register_enum",
    "Yarql.Registry.C50_enum_keys_valid",
    "Yarql.Registry.C50_panics_iff"
   ],
   "note": ""
  },
  {
   "property": "C51",
   "status": "partial",
   "theorems": [
    "Yarql.C51_usable_partial",
    "Yarql.C51_integer_enum",
    "Yarql.C51_list_of_pointers",
    "Yarql.C51_array",
    "Yarql.ArgsDemo.C51_refuted"
   ],
   "note": "proved for all parameters but three kinds, for each of which it is refuted"
  },
  {
   "property": "C52",
   "status": "partial",
   "theorems": [
    "Yarql.Introspect.C52_directive_args_missing"
   ],
   "note": "false of the code: introspection never shows directive arguments (refutation only)"
  },
  {
   "property": "C53",
   "status": "partial",
   "theorems": [
    "Yarql.Introspect.C53_input_fields_by_name",
    "Yarql.Introspect.C53_input_fields_missing"
   ],
   "note": "true by name; false through arguments for every input type with fields"
  },
  {
   "property": "C54",
   "status": "partial",
   "theorems": [
    "Yarql.C19_answered_partial",
    "Yarql.C01_parse_total",
    "Yarql.C14_not_executed",
    "Yarql.ArgsDemo.C54_refuted",
    "Yarql.ArgsDemo.C54_refuted_null",
    "Yarql.ArgsDemo.C54_refuted_nul"
   ],
   "note": "no panic for served requests and for queries that do not parse; three kinds of requests that panic (concrete requests): null in a list of nullable enums, an escaped NUL in a string, a File variable without GetFormFile; other queries outside Serves are not covered"
  },
  {
   "property": "C55",
   "status": "proved",
   "theorems": [
    "Yarql.Float.C55_plain",
    "Yarql.Float.C55_exponential",
    "Yarql.Float.C55_special"
   ],
   "note": "from the text strconv.FormatFloat returns; the texts it returns are a hypothesis"
  },
  {
   "property": "C56",
   "status": "partial",
   "theorems": [
    "Yarql.C56_exposed_partial",
    "Yarql.C56_refuted_unexported"
   ],
   "note": "hidden tags and embedded fields proved; unexported fields are exposed (concrete program and request)"
  },
  {
   "property": "C57",
   "status": "partial",
   "theorems": [
    "Yarql.C57_accepted_welltyped_partial",
    "Yarql.C57_accepted_answers_partial"
   ],
   "note": "for programs whose types have distinct names, enums of the registered kind, and a GetFormFile option; requests within the value stack"
  },
  {
   "property": "C58",
   "status": "partial",
   "theorems": [
    "Yarql.C58_enum_by_name_partial",
    "Yarql.C58_refuted_other_type"
   ],
   "note": "false of the code: enums are recognised by bare type name (exact rule proved, claim refuted)"
  },
  {
   "property": "C59",
   "status": "partial",
   "theorems": [
    "Yarql.C59_history_partial",
    "Yarql.C59_refuted"
   ],
   "note": "proved for queries without fragments, short queries, first-time queries and histories without other fragment queries; false otherwise (concrete history)"
  },
  {
   "property": "C60",
   "status": "partial",
   "theorems": [
    "Yarql.C60_http_json_partial",
    "Yarql.C60_every_http_request_partial"
   ],
   "note": "for requests of the kind C14 covers; outside of it C14 shows the response is not always JSON"
  },
  {
   "property": "C61",
   "status": "proved",
   "theorems": [
    "Yarql.C61_tracing_only_adds"
   ],
   "note": "for schemas returned by Parse without a clash of names (NoClash, as C48); the clock is arbitrary"
  },
  {
   "property": "C62",
   "status": "partial",
   "theorems": [
    "Yarql.C62_times_partial",
    "Yarql.TraceDemo.C62_refuted_nesting"
   ],
   "note": "everything but nesting; nesting is false of the code: a parent is reported to start when its last nested field started (concrete request)"
  },
  {
   "property": "C63",
   "status": "partial",
   "theorems": [
    "Yarql.C63_traced_json_partial",
    "Yarql.C63_not_executed"
   ],
   "note": "as C14: a hole in the data (finding) is one with tracing too; json.Marshal is assumed to return JSON"
  },
  {
   "property": "C64",
   "status": "partial",
   "theorems": [
    "Yarql.Globals.C64_legal",
    "Yarql.Globals.C64_tables_partial",
    "Yarql.Globals.C64_again",
    "Yarql.Globals.C64_schema_partial",
    "Yarql.Globals.C64_refuted"
   ],
   "note": "for interfaces with different names; false for interfaces of different packages with one name (concrete program)"
  },
  {
   "property": "C65",
   "status": "partial",
   "theorems": [
    "Yarql.Globals.C65_legal",
    "Yarql.Globals.C65_schema_partial",
    "Yarql.Globals.C65_valid",
    "Yarql.Globals.C65_refuted",
    "Yarql.Globals.C65_refuted_kinds"
   ],
   "note": "for types whose bare name no other renamed struct has; false otherwise, and a struct and an interface may get one name (concrete programs)"
  },
  {
   "property": "C66",
   "status": "partial",
   "theorems": [
    "Yarql.Roots.C66_tester_partial",
    "Yarql.Roots.C66_refuted"
   ],
   "note": "for schemas in which no two types share a name; false for the root query type after a request for the fields of the mutation type (concrete history)"
  },
  {
   "property": "C67",
   "status": "partial",
   "theorems": [
    "Yarql.TypeList.C67_names",
    "Yarql.TypeList.C67_content",
    "Yarql.TypeList.C67_exists",
    "Yarql.TypeList.C67_by_name_partial",
    "Yarql.Roots.C67_parsed",
    "Yarql.Roots.C67_links_partial",
    "Yarql.Roots.C67_refuted"
   ],
   "note": "uniqueness for schemas in which no two types share a name, links for interfaces with different names; Parse accepts a struct named like a scalar, and then the answer of __type depends on map order (concrete program)"
  },
  {
   "property": "C68",
   "status": "partial",
   "theorems": [
    "Yarql.TypeList.C68_directives_partial",
    "Yarql.TypeList.C68_refuted",
    "Yarql.TypeList.C68_refuted_location"
   ],
   "note": "for the three defined locations and histories in which refused calls left no trace; false otherwise (concrete histories)"
  },
  {
   "property": "C69",
   "status": "proved",
   "theorems": [
    "Yarql.Roots.C69_roots_differ",
    "Yarql.Roots.C69_refuted_converse"
   ],
   "note": "for programs without a clash of names (NoClash, as C48) and the exported API; the converse (only equal roots are rejected) is false"
  },
  {
   "property": "C70",
   "status": "partial",
   "theorems": [
    "Yarql.HttpAnswers.C70_http_answers_partial",
    "Yarql.HttpAnswers.C70_unique",
    "Yarql.C70_every_http_request_partial"
   ],
   "note": "for requests without fragments or too short for the cache (C59 shows the cache is not transparent otherwise) that Resolve answers (C19)"
  },
  {
   "property": "C71",
   "status": "proved",
   "theorems": [
    "Yarql.Schedule.C71_schedules",
    "Yarql.Schedule.C71_serial",
    "Yarql.Schedule.C71_readonly",
    "Yarql.Schedule.CountDemo.C71_needed"
   ],
   "note": "for requests that neither trace nor introspect (C73 shows they share no memory); a call of a user function is one step; the condition on the functions is needed (C71_needed)"
  },
  {
   "property": "C72",
   "status": "partial",
   "theorems": [
    "Yarql.Pool.C72_pool_partial",
    "Yarql.Pool.C72_isolated",
    "Yarql.Pool.C72_leak",
    "Yarql.Pool.C72_copy_lists_hidden"
   ],
   "note": "below __schema a copy answers for its original and shares its memo: the leak of finding 15 crosses copies; below __type a copy is isolated but lists hidden fields (both refuted concretely)"
  },
  {
   "property": "C73",
   "status": "proved",
   "theorems": [
    "Yarql.Pool.C73_shared_memory",
    "Yarql.Pool.C73_plain"
   ],
   "note": "exact characterisation of which requests on which schemas share written memory; from a table of the cells each kind of request writes"
  },
  {
   "property": "C74",
   "status": "partial",
   "theorems": [
    "Yarql.C74_as_if_not_written_partial",
    "Yarql.C74_same_answer_partial",
    "Yarql.C74_has_counterpart",
    "Yarql.CutDemo.C74_refuted"
   ],
   "note": "exact behaviour of the code (finding 10); for documents whose other literals are regular (Spec/Cut.lean) that fit on the value stack (Fits)"
  },
  {
   "property": "C75",
   "status": "proved",
   "theorems": [
    "Yarql.C75_accepted_iff_grammar",
    "Yarql.C75_rejected_iff_not_grammar",
    "Yarql.C75_accepted_compiles",
    "Yarql.C75_target_irrelevant",
    "Yarql.C75_one_reading",
    "Yarql.C75_unambiguous",
    "Yarql.C75_parsed_is_text"
   ],
   "note": "the grammar (Spec/Grammar.lean) is the one yarql accepts, with its leniencies (finding 35)"
  },
  {
   "property": "C76",
   "status": "partial",
   "theorems": [
    "Yarql.C76_not_in_grammar",
    "Yarql.C76_no_operation",
    "Yarql.C76_executed",
    "Yarql.C76_text_is_well_formed",
    "Yarql.C76_every_request_partial",
    "Yarql.C76_every_response_partial"
   ],
   "note": "executed documents: those that fit on the value stack (C19, C22) and whose literals and spreads are tracked (Spec/Cut.lean; C08, C18, C25 show what happens otherwise); JSON up to the holes of C14"
  },
  {
   "property": "C77",
   "status": "partial",
   "theorems": [
    "Yarql.C77_struct_shown_partial",
    "Yarql.C77_named",
    "Yarql.C77_refuted_pointer",
    "Yarql.PointerDemo.C77_refuted"
   ],
   "note": "structs are shown; a pointer to a registered struct is null without an error, whatever the schema (concrete request)"
  },
  {
   "property": "C78",
   "status": "partial",
   "theorems": [
    "Yarql.C78_shown_partial",
    "Yarql.C78_iface_args_partial",
    "Yarql.C78_refuted"
   ],
   "note": "exactly the arguments after the first parameter are shown; all of them if the first parameter is the context; refuted for a method whose first parameter is a struct"
  },
  {
   "property": "C79",
   "status": "proved",
   "theorems": [
    "Yarql.C79_every_call",
    "Yarql.C79_recorded",
    "Yarql.C79_typed"
   ],
   "note": "every request; C79_typed: struct types and signatures as Go has them (a field has one type, zero values are of their types), a world that records calls; a Go int is a 64-bit integer"
  },
  {
   "property": "C80",
   "status": "proved",
   "theorems": [
    "Yarql.C80_every_error",
    "Yarql.C26_called_or_refused"
   ],
   "note": "every request; reasons for refused arguments: Spec/Delivered.lean; message texts cannot distinguish Go int from int64 (one width in the model)"
  },
  {
   "property": "C81",
   "status": "partial",
   "theorems": [
    "Yarql.C81_selections_run_in_order_partial"
   ],
   "note": "served requests (Serves, Fits) with usable variables; which errors of the first part end the operation: C88"
  },
  {
   "property": "C82",
   "status": "partial",
   "theorems": [
    "Yarql.C82_definition_order_partial",
    "Yarql.Demo.C82_refuted_same_name"
   ],
   "note": "served requests; distinct fragment names are needed, see the counterexample"
  },
  {
   "property": "C83",
   "status": "partial",
   "theorems": [
    "Yarql.C83_argument_order_partial"
   ],
   "note": "served requests below the depth limit that are answered without errors; same data up to the spelling of JSON strings; a list literal must not be followed by other arguments (docRegular, finding on lists)"
  },
  {
   "property": "C84",
   "status": "partial",
   "theorems": [
    "Yarql.C84_aliases_partial",
    "Yarql.C84_aliases_rename_keys_partial"
   ],
   "note": "served requests (Serves, Fits), with or without errors"
  },
  {
   "property": "C85",
   "status": "proved",
   "theorems": [
    "Yarql.Buffer.C85_string_during_request",
    "Yarql.Buffer.C85_next_request_overwrites",
    "Yarql.Buffer.C85_growth",
    "Yarql.Buffer.C85_string_after_growth",
    "Yarql.Buffer.Demo.C85_refuted"
   ],
   "note": "memory of the bytecode buffer (Model/Buffer.lean); strings from JSON variables live in fastjson's buffer, not modelled; Demo.C85_refuted: two requests of the parser model, the string kept by the first function changes"
  },
  {
   "property": "C86",
   "status": "partial",
   "theorems": [
    "Yarql.TodoApp.C86_ids_unique",
    "Yarql.TodoApp.C86_request_partial",
    "Yarql.TodoApp.C86_history_partial",
    "Yarql.TodoApp.C86_updated_title_is_lost",
    "Yarql.TodoApp.Demo.C86_refuted"
   ],
   "note": "within each request after any history; over histories only if no title is updated: ResolveUpdateTodo stores the argument without a copy, and the next request overwrites it (refuted with two requests of the parser model)"
  },
  {
   "property": "C87",
   "status": "partial",
   "theorems": [
    "Yarql.Body.C87_body_when_returned",
    "Yarql.Body.C87_own_bodies_stay",
    "Yarql.Body.C87_copies_do_not_interfere",
    "Yarql.Body.C87_next_request_overwrites",
    "Yarql.Body.Demo.C87_refuted",
    "Yarql.Body.Demo.C87_not_parsed"
   ],
   "note": "right when returned (every history); bodies of batches and of refused requests stay for ever; copies do not disturb each other in any interleaving of appends; false for single requests: the body is the schema's own buffer, overwritten by its next request (for every history, and a concrete pair of requests)"
  },
  {
   "property": "C88",
   "status": "partial",
   "theorems": [
    "Yarql.C88_only_faults_stop_partial",
    "Yarql.C88_function_errors_stop_nothing_partial",
    "Yarql.C88_faults_stop_partial"
   ],
   "note": "served requests (Serves, Fits) with usable variables; the split is one of the selections of the operation itself; the converse for faults the schema shows (Fault.Ends), not for those behind functions, pointers or interfaces"
  },
  {
   "property": "C89",
   "status": "proved",
   "theorems": [
    "Yarql.Diff.C89_lines",
    "Yarql.Diff.C89_texts"
   ],
   "note": "Go ints are natural numbers"
  },
  {
   "property": "C90",
   "status": "proved",
   "theorems": [
    "Yarql.Diff.C90_empty",
    "Yarql.Diff.C90_recover"
   ],
   "note": ""
  },
  {
   "property": "C91",
   "status": "partial",
   "theorems": [
    "Yarql.Diff.C91_match_partial",
    "Yarql.Diff.C91_keeps_partial",
    "Yarql.Diff.DiffDemo.C91_refuted"
   ],
   "note": "true if the actual text has less than 200 lines, or no line more often than in one of a hundred (plus one); false otherwise: such lines are left out of the index (refuted)"
  },
  {
   "property": "C92",
   "status": "partial",
   "theorems": [
    "Yarql.C92_flatten_partial"
   ],
   "note": "served requests (Serves, Fits)"
  },
  {
   "property": "C93",
   "status": "partial",
   "theorems": [
    "Yarql.C93_additions_partial",
    "Yarql.C93_parsed_closed_partial",
    "Yarql.C93_parsed_partial"
   ],
   "note": "served requests (Serves, Fits), closed schemas (every schema that Parse returns is, if different Go types have different names); new implementations of existing interfaces are those of which there are no values yet"
  },
  {
   "property": "C94",
   "status": "partial",
   "theorems": [
    "Yarql.Assert.C94_order",
    "Yarql.Assert.C94_reports",
    "Yarql.Assert.C94_strict",
    "Yarql.Assert.C94_total",
    "Yarql.Assert.C94_positive",
    "Yarql.Assert.C94_refuted_nil",
    "Yarql.Assert.C94_message"
   ],
   "note": "the order and the number of reports: all values; Positive and Negative panic for nil, and the message given is printed as a list, not as a message (refuted for every failing call)"
  },
  {
   "property": "C95",
   "status": "partial",
   "theorems": [
    "Yarql.Assert.C95_numbers",
    "Yarql.Assert.C95_close_passes",
    "Yarql.Assert.C95_passes_close",
    "Yarql.Assert.C95_infinite",
    "Yarql.Assert.C95_refuted_nan",
    "Yarql.Assert.C95_refuted_integers",
    "Yarql.Assert.C95_slice",
    "Yarql.Assert.C95_refuted_part",
    "Yarql.Assert.C95_refuted_longer",
    "Yarql.Assert.C95_map",
    "Yarql.Assert.C95_epsilon",
    "Yarql.Assert.C95_epsilon_fails",
    "Yarql.Assert.C95_epsilon_zero",
    "Yarql.Assert.C95_refuted_epsilon",
    "Yarql.Assert.C95_epsilon_slice",
    "Yarql.Assert.C95_refuted_epsilon_slice"
   ],
   "note": "InDelta for finite tolerances, InDeltaMapValues exactly, InEpsilon up to rounding; slices of different length pass or panic, InEpsilonSlice swaps its arguments, a NaN delta or infinite expected number passes (refuted)"
  },
  {
   "property": "C96",
   "status": "partial",
   "theorems": [
    "Yarql.Assert.C96_opposites",
    "Yarql.Assert.C96_equal",
    "Yarql.Assert.C96_nil_zero",
    "Yarql.Assert.C96_empty",
    "Yarql.Assert.C96_zero_empty_partial",
    "Yarql.Assert.C96_refuted_array"
   ],
   "note": "all values; an array of zeros is zero but not empty (refuted)"
  },
  {
   "property": "C97",
   "status": "partial",
   "theorems": [
    "Yarql.Assert.C97_report_partial",
    "Yarql.Assert.C97_refuted_long_line",
    "Yarql.Assert.C97_places",
    "Yarql.Assert.C97_whole_partial",
    "Yarql.Assert.C97_message",
    "Yarql.Assert.C97_fail_partial",
    "Yarql.Assert.C97_refuted_message",
    "Yarql.Assert.C97_refuted_place"
   ],
   "note": "places: every stack the spec describes; a test in a directory assert, mock or require names no place (refuted). Text: if no line has 65535 bytes or more; from a line of 65536 bytes on nothing is shown (refuted); a failure with several values of which the first is no text panics (refuted)"
  },
  {
   "property": "C98",
   "status": "proved",
   "theorems": [
    "Yarql.Diff.C98_context"
   ],
   "note": "all pairs of texts"
  },
  {
   "property": "C99",
   "status": "partial",
   "theorems": [
    "Yarql.Assert.C99_errors",
    "Yarql.Assert.C99_chain",
    "Yarql.Assert.C99_as",
    "Yarql.Assert.C99_panics_partial",
    "Yarql.Assert.C99_refuted_panic_nil"
   ],
   "note": "everything but panics with nil, which Panics takes for no panic (refuted); the chain of wrapped errors is taken to end"
  }
 ]
}