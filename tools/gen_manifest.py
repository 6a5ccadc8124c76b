#!/usr/bin/env python3
"""Source of truth for MANIFEST.json."""
import json
C = {}
def c(p, status, thms, note): C[p] = dict(property=p, status=status, theorems=thms, note=note)
Y='Yarql.'
c('C01','proved',[Y+'C01_parse_total'],'parser model total on all inputs: no panic, no divergence, error or encoding')
c('C05','proved',[Y+'C05_error_location',Y+'C05_errors_located'],'columns are 0-based byte counts, as the code computes them')
c('C06','proved',[Y+'C06_accepted_is_encoding',Y+'C06_fragment_positions'],'')
c('C10','partial',[Y+'Cache.C10_not_transparent',Y+'Cache.C10_cache_transparent_partial',Y+'Cache.C10_same_fragment_table_partial'],'the full claim is false of the code (fragment table stored uncopied); refuted by a concrete history, positive theorem under the stated hypothesis')
c('C11','proved',[Y+'Cache.C11_cache_bounded'],'')
c('C12','proved',[Y+'Cache.C12_cache_never_serves_another_query',Y+'Cache.C12_latest_store_is_found'],'')
c('C13','proved',[Y+'C13_json_string'],'')
c('C37','proved',[Y+'Http.C37_batch',Y+'Http.C37_element_alone'],'')
c('C38','proved',[Y+'Http.C38_body_validation',Y+'Http.C38_invalid_body'],'')
c('C45','proved',[Y+'C45_uint32_round_trip'],'')
c('C02','proved',[Y+'C02_document_compiles'],'')
c('C03','proved',[Y+'C03_layout_independent',Y+'C03_ignored_prefix'],'')
c('C04','partial',[Y+'C04_selected_operation'],'parser side complete; the resolver side is added with the resolver model')
c('C07','proved',[Y+'C07_name_limit',Y+'C07_name_reader',Y+'C07_directive_limit'],'')
c('C08','partial',[Y+'C08_quoted_string',Y+'C08_block_string'],'compilation half; delivery to the resolver is in the binding model')
c('C09','proved',[Y+'C09_number'],'')
c('C47','partial',[Y+'C47_args_before_directives_rejected',Y+'C47_directives_first_partial'],'false of the code: refuted; the order yarql wants is accepted')
N=Y+'Naming.'
G=Y+'Registry.'
c('C32','proved',[N+'C32_valid_name',N+'C32_format',N+'C32_exported_valid',N+'C32_exported_distinct',N+'C32_idempotent',N+'C32_no_tag',N+'C32_tag_name',N+'C32_tag_rejected',N+'C32_tag_exact'],'ASCII; C32_non_ascii_mangled shows what happens outside')
c('C49','proved',[N+'C49_method_naming',N+'C49_methods_distinct',N+'C49_resolve_panics'],'a method named exactly Resolve crashes Parse (C49_resolve_panics)')
c('C33','partial',[G+'C33_unique',G+'C33_accepted_iff',G+'C33_register_directive_partial',G+'C33_not_atomic',G+'C33_not_atomic_same_location'],'uniqueness proved; atomicity is false of the code and refuted, with the exact positive statement proved')
c('C34','proved',[G+'C34_closed_after_parse',G+'C34_resolve_needs_parse'],'')
c('C50','proved',[G+'C50_register_enum',G+'C50_enum_keys_valid',G+'C50_panics_iff'],'')
T=Y+'Time.'
X=Y+'Ctx.'
c('C31','partial',[T+'C31_time_shift',T+'C31_utc_round_trip_partial',T+'C31_other_zones_wrong',T+'C31_parsed_valid',T+'C31_accepts_exactly'],'true for UTC times of years 0-9999; in every other zone the instant is off by exactly the offset (proved)')
c('C39','proved',[X+'C39_values',X+'C39_nil_map_panics'],'Values pointing to a nil map is excluded: SetValue then panics (C39_nil_map_panics)')
c('C40','partial',[X+'C40_set_context_partial',X+'C40_set_context_iff',X+'C40_set_context_panics'],'false for requests without a context: SetContext dereferences nil; refuted, exact crash condition proved')
c('C41','partial',[X+'C41_own_errors',X+'C41_returned_errors_overwritten',X+'C41_returned_errors_stable_partial'],'returned error lists are overwritten by later requests (refuted); own errors always exact')
I=Y+'Introspect.'
c('C35','partial',[I+'C35_fields_partial',I+'C35_query_after_mutation_wrong'],'right for every history except the root query after a request for the mutation type; that case is refuted')
c('C36','partial',[I+'C36_notation_iff',I+'C36_notation_partial',I+'C36_list_of_int_wrong'],'exactly the types with a list of non-null elements are printed wrong')
c('C42','partial',[I+'C42_copy_reveals',I+'C42_copy_lists_hidden',I+'C42_copy_cache_rule',I+'C42_copy_enum_description',I+'C42_copy_ql'],'the copy differs from the original in hidden fields, cache rule and enum descriptions only; those differences are observable (refuted)')
c('C52','partial',[I+'C52_directive_args_missing'],'false of the code: introspection never shows directive arguments (refutation only)')
c('C53','partial',[I+'C53_input_fields_by_name',I+'C53_input_fields_missing'],'true by name; false through arguments for every input type with fields')
c('C04','proved',[Y+'C04_selected_operation',Y+'C04_no_operation',Y+'C04_only_chosen_operation_partial'],'')
c('C16','proved',[Y+'C16_response_mirrors_selection_partial',Y+'C16_shown_is_answered_partial'],'both directions, for requests served without errors')
c('C17','proved',[Y+'C17_skip_include_partial'],'')
c('C18','partial',[Y+'C18_spread_is_inline_partial',Y+'Demo.C18_refuted_by_prefix'],'proved unless an earlier fragment has a longer name that begins with that of the spread; refuted in that case')
c('C26','proved',[Y+'C26_not_called_partial',Y+'C26_unbound_query_partial'],'')
c('C30','proved',[Y+'C30_values_do_not_matter',Y+'C30_null_everywhere',Y+'C30_null_and_error',Y+'C30_results_do_not_matter'],'the first two hold of every request text and schema, with no hypothesis on either')
c('C41','partial',[X+'C41_own_errors',X+'C41_returned_errors_overwritten',X+'C41_returned_errors_stable_partial',Y+'C41_response_independent',Y+'C41_fresh',Y+'C41_deterministic'],'responses are independent of history (proved); returned error lists are overwritten by later requests (refuted)')
c('C43','proved',[Y+'C43_values_partial'],'')
c('C44','proved',[Y+'C44_typename_partial'],'')
c('C46','proved',[Y+'C46_data_whatever_errors',Y+'C46_one_error_per_call',Y+'C46_errors_do_not_hide_data',Y+'C46_error_reported_once'],'the first two hold of every request text and schema')
c('C14','partial',[Y+'C14_well_formed_partial',Y+'C14_without_errors_partial',Y+'C14_not_executed',Y+'Demo.C14_refuted_typename',Y+'Demo.C14_refuted_arguments'],'well-formed unless an error is about one of two kinds of selection, for which the key is written without a value (refuted by examples)')
c('C15','proved',[Y+'C15_errors_reach_response'],'')
c('C19','partial',[Y+'C19_answered_partial',Y+'C19_guarded_partial',Y+'C19_acyclic_partial',Y+'C19_refuted_by_cycle'],'requests that nest within the value stack, or (no interfaces) within a depth limit, cycles of fragments through fields included; a cycle of spreads without a field never terminates (refuted)')
c('C22','partial',[Y+'C22_own_parent_partial',Y+'StackWrap.C22_refuted_beyond_stack'],'proved within 255 stack entries; refuted beyond')
c('C28','proved',[Y+'C28_every_error',Y+'C28_each_error',Y+'C28_error_paths'],'the first two hold of every request text and schema')

A=Y+'ArgsDemo.'
c('C23','proved',[Y+'C23_signed_partial',Y+'C23_unsigned_partial',Y+'C23_rejected_partial',Y+'C25_calls_partial',Y+'calls_made_partial'],'every call made has inputs that are Given (C25_calls_partial); Given inputs hold the literal exactly; literals out of range have no inputs, so no call')
c('C24','partial',[Y+'C24_signed_partial',Y+'C24_unsigned_partial',A+'C24_refuted'],'proved for signed parameters; unsigned parameters wrap out-of-range JSON numbers (refuted by a concrete request)')
c('C25','partial',[Y+'C25_calls_partial',Y+'C25_called_partial',A+'C25_refuted_list',A+'C25_refuted_null'],'for queries in which list arguments come last in their argument list; false otherwise, and for object literals ending in null behind pointers (concrete requests)')
c('C27','partial',[Y+'C27_key_delivered_partial',Y+'C27_unknown_key_partial',Y+'C27_variable_partial',Y+'C27_shown',Y+'C27_round_trip',A+'C27_refuted'],'keys round trip; integer literals bypass the check for integer enums (concrete request)')
c('C29','proved',[Y+'C29_variable_partial',Y+'C29_refused_partial',Y+'calls_made_partial'],'')
c('C08','partial',[Y+'C08_quoted_string',Y+'C08_block_string',Y+'C08_delivered_partial',A+'C08_refuted_execution'],'compilation and delivery, for strings without NUL; false with NUL (concrete request)')
L=Y+'Float.'
c('C20','partial',[Y+'C20_lookup_partial',Y+'C20_selected_partial',Y+'C20_unknown_partial',A+'C20_refuted',A+'C20_refuted_request'],'by name whenever the selected name collides with no field of the type; 32-bit FNV-1 collisions refute the full claim')
c('C21','partial',[Y+'C21_every_request_partial',Y+'C21_depth_partial',Y+'C21_error_partial',Y+'Demo.C21_refuted_interface'],'proved for schemas without interfaces and MaxDepth > 0, for every request that is answered (any text, variables and data); with interfaces the limit is missed or hit too early (concrete requests)')
c('C51','partial',[Y+'C51_usable_partial',Y+'C51_integer_enum',Y+'C51_list_of_pointers',Y+'C51_array',A+'C51_refuted'],'proved for all parameters but three kinds, for each of which it is refuted')
c('C54','partial',[Y+'C19_answered_partial',Y+'C01_parse_total',Y+'C14_not_executed',A+'C54_refuted',A+'C54_refuted_null',A+'C54_refuted_nul'],'no panic for served requests and for queries that do not parse; three kinds of requests that panic (concrete requests): null in a list of nullable enums, an escaped NUL in a string, a File variable without GetFormFile; other queries outside Serves are not covered')
c('C55','proved',[L+'C55_plain',L+'C55_exponential',L+'C55_special'],'from the text strconv.FormatFloat returns; the texts it returns are a hypothesis')
c('C48','partial',[Y+'C48_registered_partial',Y+'C48_inputs_partial',Y+'C48_rejects_partial',Y+'C48_returns_partial',Y+'C48_outcome',Y+'C48_refuted_recursive_slice',Y+'C48_refuted_same_name',Y+'C48_refuted_same_input'],'a model of Parse over arbitrary Go type graphs; proved when every type cycle passes through a named struct or interface and no two types clash in a way Parse overlooks; both exceptions refuted by concrete programs')
c('C56','partial',[Y+'C56_exposed_partial',Y+'C56_refuted_unexported'],'hidden tags and embedded fields proved; unexported fields are exposed (concrete program and request)')
c('C57','partial',[Y+'C57_accepted_welltyped_partial',Y+'C57_accepted_answers_partial'],'for programs whose types have distinct names, enums of the registered kind, and a GetFormFile option; requests within the value stack')
c('C58','partial',[Y+'C58_enum_by_name_partial',Y+'C58_refuted_other_type'],'false of the code: enums are recognised by bare type name (exact rule proved, claim refuted)')
c('C59','partial',[Y+'C59_history_partial',Y+'C59_refuted'],'proved for queries without fragments, short queries, first-time queries and histories without other fragment queries; false otherwise (concrete history)')
c('C60','partial',[Y+'C60_http_json_partial'],'for requests of the kind C14 covers; outside of it C14 shows the response is not always JSON')
C['C38']['theorems'].append(Y+'Http.C38_source')
C['C42']['theorems'].append(Y+'C42_same_answers')
C['C31']['theorems'].append(T+'C31_calendar')
c('C61','proved',[Y+'C61_tracing_only_adds'],'for schemas returned by Parse without a clash of names (NoClash, as C48); the clock is arbitrary')
c('C62','partial',[Y+'C62_times_partial',Y+'TraceDemo.C62_refuted_nesting'],'everything but nesting; nesting is false of the code: a parent is reported to start when its last nested field started (concrete request)')
c('C63','partial',[Y+'C63_traced_json_partial',Y+'C63_not_executed'],'as C14: a hole in the data (finding) is one with tracing too; json.Marshal is assumed to return JSON')
B=Y+'Globals.'
c('C64','partial',[B+'C64_legal',B+'C64_tables_partial',B+'C64_again',B+'C64_schema_partial',B+'C64_refuted'],'for interfaces with different names; false for interfaces of different packages with one name (concrete program)')
c('C65','partial',[B+'C65_legal',B+'C65_schema_partial',B+'C65_valid',B+'C65_refuted',B+'C65_refuted_kinds'],'for types whose bare name no other renamed struct has; false otherwise, and a struct and an interface may get one name (concrete programs)')
K=Y+'TypeList.'
Q=Y+'Roots.'
C['C35']['theorems'].append(Q+'C35_parsed_partial')
c('C66','partial',[Q+'C66_tester_partial',Q+'C66_refuted'],'for schemas in which no two types share a name; false for the root query type after a request for the fields of the mutation type (concrete history)')
c('C67','partial',[K+'C67_names',K+'C67_content',K+'C67_exists',K+'C67_by_name_partial',Q+'C67_parsed',Q+'C67_links_partial',Q+'C67_refuted'],'uniqueness for schemas in which no two types share a name, links for interfaces with different names; Parse accepts a struct named like a scalar, and then the answer of __type depends on map order (concrete program)')
c('C68','partial',[K+'C68_directives_partial',K+'C68_refuted',K+'C68_refuted_location'],'for the three defined locations and histories in which refused calls left no trace; false otherwise (concrete histories)')
c('C69','proved',[Q+'C69_roots_differ',Q+'C69_refuted_converse'],'for programs without a clash of names (NoClash, as C48) and the exported API; the converse (only equal roots are rejected) is false')
C['C48']['theorems'].append(Y+'C48_markers')
c('C70','partial',[Y+'HttpAnswers.C70_http_answers_partial',Y+'HttpAnswers.C70_unique'],'for requests without fragments or too short for the cache (C59 shows the cache is not transparent otherwise) that Resolve answers (C19)')
S=Y+'Schedule.'
P=Y+'Pool.'
c('C71','proved',[S+'C71_schedules',S+'C71_serial',S+'C71_readonly',S+'CountDemo.C71_needed'],'for requests that neither trace nor introspect (C73 shows they share no memory); a call of a user function is one step; the condition on the functions is needed (C71_needed)')
c('C72','partial',[P+'C72_pool_partial',P+'C72_isolated',P+'C72_leak',P+'C72_copy_lists_hidden'],'below __schema a copy answers for its original and shares its memo: the leak of finding 15 crosses copies; below __type a copy is isolated but lists hidden fields (both refuted concretely)')
c('C73','proved',[P+'C73_shared_memory',P+'C73_plain'],'exact characterisation of which requests on which schemas share written memory; from a table of the cells each kind of request writes')
c('C74','proved',[Y+'C74_as_if_not_written_partial',Y+'C74_same_answer_partial',Y+'C74_has_counterpart',Y+'CutDemo.C74_refuted'],'exact behaviour of the code (finding 10); for documents whose other literals are regular (Spec/Cut.lean) that fit on the value stack (Fits)')
C['C14']['theorems'].append(Y+'C14_well_formed_wide_partial')
C['C19']['theorems'].append(Y+'C19_answered_wide_partial')
c('C75','proved',[Y+'C75_accepted_iff_grammar',Y+'C75_rejected_iff_not_grammar',Y+'C75_accepted_compiles',Y+'C75_target_irrelevant',Y+'C75_one_reading'],'the grammar (Spec/Grammar.lean) is the one yarql accepts, with its leniencies (finding 35)')
C['C05']['theorems'].append(Y+'C05_stray_character')
C['C75']['theorems']+=[Y+'C75_unambiguous',Y+'C75_parsed_is_text']
c('C76','partial',[Y+'C76_not_in_grammar',Y+'C76_no_operation',Y+'C76_executed',Y+'C76_text_is_well_formed',Y+'C76_every_request_partial',Y+'C76_every_response_partial'],'executed documents: those that fit on the value stack (C19, C22) and whose literals and spreads are tracked (Spec/Cut.lean; C08, C18, C25 show what happens otherwise); JSON up to the holes of C14')
C['C06']['theorems'].append(Y+'Doc.encDoc_inj')
C['C60']['theorems'].append(Y+'C60_every_http_request_partial')
C['C70']['theorems'].append(Y+'C70_every_http_request_partial')
c('C77','partial',[Y+'C77_struct_shown_partial',Y+'C77_named',Y+'C77_refuted_pointer',Y+'PointerDemo.C77_refuted'],'structs are shown; a pointer to a registered struct is null without an error, whatever the schema (concrete request)')
c('C78','partial',[Y+'C78_shown_partial',Y+'C78_iface_args_partial',Y+'C78_refuted'],'exactly the arguments after the first parameter are shown; all of them if the first parameter is the context; refuted for a method whose first parameter is a struct')
E=Y+'Escapes.'
c('C04','partial',[Y+'C04_selected_operation',Y+'C04_no_operation',Y+'C04_only_chosen_operation_partial'],'selection by name: every accepted query; that only the chosen operation is executed: for requests in the class Serves')
c('C16','partial',[Y+'C16_response_mirrors_selection_partial',Y+'C16_shown_is_answered_partial',E+'C16_refuted_by_nul',E+'forged_parsed'],'both directions, for requests in the class Serves; false in general: an escaped NUL in a string argument makes the resolver answer another selection (concrete request)')
c('C17','partial',[Y+'C17_skip_include_partial'],'for requests in the class Serves')
C['C22']['theorems'].append(Y+'C22_every_parent_partial')
C['C22']['note']='every request with a depth limit up to 127 (C22_every_parent_partial), or within 255 stack entries; refuted beyond'
c('C23','partial',[Y+'C23_signed_partial',Y+'C23_unsigned_partial',Y+'C23_rejected_partial',Y+'C25_calls_partial',Y+'calls_made_partial',E+'C23_refuted'],'every call made has inputs that are Given (C25_calls_partial); Given inputs hold the literal exactly; literals out of range have no inputs, so no call; class Serves; false for a member behind a list member (concrete request)')
C['C25']['theorems'].append(E+'C25_refuted_escape')
c('C26','partial',[Y+'C26_called_or_refused',Y+'C26_not_called_partial',Y+'C26_unbound_query_partial',E+'C26_refuted'],'every request: a field with a function is either the result of one call or an error with its path (C26_called_or_refused); which arguments refuse it: class Serves; false for undeclared arguments behind a list (concrete request)')
C['C27']['note']+='; shown keys: for every request by C43_every_value'
c('C29','partial',[Y+'C29_variable_partial',Y+'C29_refused_partial',Y+'calls_made_partial',E+'C29_refuted'],'class Serves; false for variables behind a list member of an input object (concrete request)')
c('C43','proved',[Y+'C43_every_value',Y+'C43_every_value_ok'],'every request, whatever the query, the schema and the values')
c('C44','partial',[Y+'C44_every_object',Y+'C44_typename_partial'],'every object in every response is of a type its position allows; __typename: class Serves')
c('C74','partial',[Y+'C74_as_if_not_written_partial',Y+'C74_same_answer_partial',Y+'C74_has_counterpart',Y+'CutDemo.C74_refuted'],'exact behaviour of the code (finding 10); for documents whose other literals are regular (Spec/Cut.lean) that fit on the value stack (Fits)')
C['C14']['theorems'].append(E+'C14_refuted_by_nul')
c('C79','proved',[Y+'C79_every_call',Y+'C79_recorded',Y+'C79_typed'],'every request; C79_typed: struct types and signatures as Go has them (a field has one type, zero values are of their types), a world that records calls; a Go int is a 64-bit integer')
c('C80','proved',[Y+'C80_every_error',Y+'C26_called_or_refused'],'every request; reasons for refused arguments: Spec/Delivered.lean; message texts cannot distinguish Go int from int64 (one width in the model)')
c('C81','partial',[Y+'C81_selections_run_in_order_partial'],'served requests (Serves, Fits) with usable variables; which errors of the first part end the operation: C88')
c('C82','partial',[Y+'C82_definition_order_partial',Y+'Demo.C82_refuted_same_name'],'served requests; distinct fragment names are needed, see the counterexample')
c('C83','partial',[Y+'C83_argument_order_partial'],'served requests below the depth limit that are answered without errors; same data up to the spelling of JSON strings; a list literal must not be followed by other arguments (docRegular, finding on lists)')
c('C84','partial',[Y+'C84_aliases_partial',Y+'C84_aliases_rename_keys_partial'],'served requests (Serves, Fits), with or without errors')
U='Yarql.Buffer.'
c('C85','proved',[U+'C85_string_during_request',U+'C85_next_request_overwrites',U+'C85_growth',U+'C85_string_after_growth',U+'Demo.C85_refuted'],'memory of the bytecode buffer (Model/Buffer.lean); strings from JSON variables live in fastjson\'s buffer, not modelled; Demo.C85_refuted: two requests of the parser model, the string kept by the first function changes')
for k in ('C19','C21'): C[k]['theorems'].append(Y+'C19_refuted_by_interface')
C['C19']['note']+='; nor does a recursive fragment below an interface, whatever the depth limit, if that is odd (refuted, for every such schema)'
C['C21']['note']+='; for recursive fragments and cyclic data they are missed for ever'
D='Yarql.TodoApp.'
c('C86','partial',[D+'C86_ids_unique',D+'C86_request_partial',D+'C86_history_partial',D+'C86_updated_title_is_lost',D+'Demo.C86_refuted'],'within each request after any history; over histories only if no title is updated: ResolveUpdateTodo stores the argument without a copy, and the next request overwrites it (refuted with two requests of the parser model)')
O='Yarql.Body.'
c('C87','partial',[O+'C87_body_when_returned',O+'C87_own_bodies_stay',O+'C87_copies_do_not_interfere',O+'C87_next_request_overwrites',O+'Demo.C87_refuted',O+'Demo.C87_not_parsed'],'right when returned (every history); bodies of batches and of refused requests stay for ever; copies do not disturb each other in any interleaving of appends; false for single requests: the body is the schema\'s own buffer, overwritten by its next request (for every history, and a concrete pair of requests)')
c('C88','partial',[Y+'C88_only_faults_stop_partial',Y+'C88_function_errors_stop_nothing_partial',Y+'C88_faults_stop_partial'],'served requests (Serves, Fits) with usable variables; the split is one of the selections of the operation itself; the converse for faults the schema shows (Fault.Ends), not for those behind functions, pointers or interfaces')
V=Y+'Diff.'
c('C89','proved',[V+'C89_lines',V+'C89_texts'],'Go ints are natural numbers')
c('C90','proved',[V+'C90_empty',V+'C90_recover'],'')
c('C91','partial',[V+'C91_match_partial',V+'C91_keeps_partial',V+'DiffDemo.C91_refuted'],'true if the actual text has less than 200 lines, or no line more often than in one of a hundred (plus one); false otherwise: such lines are left out of the index (refuted)')
c('C92','partial',[Y+'C92_flatten_partial'],'served requests (Serves, Fits)')
c('C93','partial',[Y+'C93_additions_partial',Y+'C93_parsed_closed_partial',Y+'C93_parsed_partial'],'served requests (Serves, Fits), closed schemas (every schema that Parse returns is, if different Go types have different names); new implementations of existing interfaces are those of which there are no values yet')
Z='Yarql.Assert.'
c('C94','partial',[Z+x for x in ['C94_order','C94_reports','C94_strict','C94_total','C94_positive','C94_refuted_nil','C94_message']],'the order and the number of reports: all values; Positive and Negative panic for nil, and the message given is printed as a list, not as a message (refuted for every failing call)')
c('C95','partial',[Z+x for x in ['C95_numbers','C95_close_passes','C95_passes_close','C95_infinite','C95_refuted_nan','C95_refuted_integers','C95_slice','C95_refuted_part','C95_refuted_longer','C95_map','C95_epsilon','C95_epsilon_fails','C95_epsilon_zero','C95_refuted_epsilon','C95_epsilon_slice','C95_refuted_epsilon_slice']],'InDelta for finite tolerances, InDeltaMapValues exactly, InEpsilon up to rounding; slices of different length pass or panic, InEpsilonSlice swaps its arguments, a NaN delta or infinite expected number passes (refuted)')
c('C96','partial',[Z+x for x in ['C96_opposites','C96_equal','C96_nil_zero','C96_empty','C96_zero_empty_partial','C96_refuted_array']],'all values; an array of zeros is zero but not empty (refuted)')
c('C97','partial',[Z+x for x in ['C97_report_partial','C97_refuted_long_line','C97_places','C97_whole_partial','C97_message','C97_fail_partial','C97_refuted_message','C97_refuted_place']],'places: every stack the spec describes; a test in a directory assert, mock or require names no place (refuted). Text: if no line has 65535 bytes or more; from a line of 65536 bytes on nothing is shown (refuted); a failure with several values of which the first is no text panics (refuted)')
c('C98','proved',[V+'C98_context'],'all pairs of texts')
c('C99','partial',[Z+x for x in ['C99_errors','C99_chain','C99_as','C99_panics_partial','C99_refuted_panic_nil']],'everything but panics with nil, which Panics takes for no panic (refuted); the chain of wrapped errors is taken to end')
json.dump({"claims":[C[k] for k in sorted(C)]}, open('/verif/MANIFEST.json','w'), indent=1)
