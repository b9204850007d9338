{
 "claims": [
  {
   "property": "C01",
   "status": "proved",
   "theorems": [
    "Cel.Num.C01_int_arith_exact_or_error"
   ],
   "note": ""
  },
  {
   "property": "C02",
   "status": "proved",
   "theorems": [
    "Cel.Num.C02_uint_arith_exact_or_error"
   ],
   "note": ""
  },
  {
   "property": "C03",
   "status": "proved",
   "theorems": [
    "Cel.Num.C03_int_div_mod",
    "Cel.Num.C03_uint_div_mod"
   ],
   "note": ""
  },
  {
   "property": "C04",
   "status": "proved",
   "theorems": [
    "Cel.Num.C04_portable_guards_equal_builtins"
   ],
   "note": ""
  },
  {
   "property": "C05",
   "status": "proved",
   "theorems": [
    "Cel.Num.C05_double_to_int",
    "Cel.Num.C05_double_to_uint",
    "Cel.Num.C05_int64_min_rejected"
   ],
   "note": "The exact double -2^63 is rejected by int(d) although representable; proved as a separate theorem."
  },
  {
   "property": "C06",
   "status": "proved",
   "theorems": [
    "Cel.Num.C06_int_conversions_exact_or_error",
    "Cel.Num.C06_int_uint_roundtrip"
   ],
   "note": ""
  },
  {
   "property": "C07",
   "status": "partial",
   "theorems": [
    "Cel.Num.C07_duration_arith_exact_or_error_partial",
    "Cel.Num.C07_duration_arith_clamps",
    "Cel.Num.C07_large_duration_silently_clamped"
   ],
   "note": "Proved for operands whose total is within the int64-nanosecond range (what the overflow checks see); the full statement is false: durations outside that range are silently clamped, witness proved."
  },
  {
   "property": "C08",
   "status": "partial",
   "theorems": [
    "Cel.Num.C08_timestamp_plus_duration",
    "Cel.Num.C08_timestamp_minus_duration_partial",
    "Cel.Num.C08_minus_large_duration_wrong"
   ],
   "note": "t + d fully proved; t - d proved for durations inside the int64-nanosecond range; outside, the result is wrong (witness proved)."
  },
  {
   "property": "C09",
   "status": "partial",
   "theorems": [
    "Cel.Num.C09_timestamp_difference_partial",
    "Cel.Num.C09_spurious_overflow"
   ],
   "note": "Exact whenever it succeeds; the code reports overflow also for some representable differences (witness proved)."
  },
  {
   "property": "C10",
   "status": "proved",
   "theorems": [
    "Cel.Num.C10_comparison_operators_consistent"
   ],
   "note": ""
  },
  {
   "property": "C11",
   "status": "proved",
   "theorems": [
    "Cel.Num.C11_comparison_never_reverses_order",
    "Cel.Num.C11_comparison_exact_without_rounding",
    "Cel.Num.C11_out_of_range_double_exact",
    "Cel.Num.C11_equality_not_transitive"
   ],
   "note": "Non-transitivity of == through rounding is proved as a negative result."
  },
  {
   "property": "C12",
   "status": "proved",
   "theorems": [
    "Cel.Num.C12_lossless_to_int",
    "Cel.Num.C12_lossless_to_uint"
   ],
   "note": ""
  },
  {
   "property": "C13",
   "status": "proved",
   "theorems": [
    "Cel.Text.C13_validation_exact"
   ],
   "note": "All byte strings."
  },
  {
   "property": "C14",
   "status": "proved",
   "theorems": [
    "Cel.Text.C14_encode_decode_roundtrip"
   ],
   "note": "All code points and all byte strings."
  },
  {
   "property": "C15",
   "status": "partial",
   "theorems": [
    "Cel.Text.C15_cord_agrees_with_string_partial",
    "Cel.Text.C15_cord_count_undefined_on_ill_formed"
   ],
   "note": "Validation and decoding agree on all inputs and chunkings, counting on well-formed input; counting on ill-formed Cords reaches undefined behaviour (witness proved)."
  },
  {
   "property": "C16",
   "status": "proved",
   "theorems": [
    "Cel.Text.C16_code_point_count"
   ],
   "note": "All byte strings."
  },
  {
   "property": "C17",
   "status": "proved",
   "theorems": [
    "Cel.Text.C17_string_literal_roundtrip"
   ],
   "note": "All well-formed strings, all quoting variants."
  },
  {
   "property": "C18",
   "status": "proved",
   "theorems": [
    "Cel.Text.C18_bytes_literal_roundtrip"
   ],
   "note": "All byte strings, all quoting variants."
  },
  {
   "property": "C19",
   "status": "proved",
   "theorems": [
    "Cel.Text.C19_parsed_strings_well_formed"
   ],
   "note": "All byte strings; also freedom from undefined behaviour of the four parsers."
  },
  {
   "property": "C20",
   "status": "proved",
   "theorems": [
    "Cel.Eval.logic_absorbs",
    "Cel.Eval.logic_neutral",
    "Cel.Eval.logic_unknown",
    "Cel.Eval.logic_error",
    "Cel.Eval.logic_cases",
    "Cel.Eval.logic_comm",
    "Cel.Eval.logic_assoc",
    "Cel.Eval.logic_direct_agrees"
   ],
   "note": "both the iterative step and the recursive step; arbitrary values and unknown sets"
  },
  {
   "property": "C21",
   "status": "partial",
   "theorems": [
    "Cel.Eval.plan_no_internal_error_partial",
    "Cel.Eval.plan_always_value_partial"
   ],
   "note": "Proved for expressions whose cel.bind slots do not clash with iteration slots (NoClash); instances noClash_exhaustive, noClash_noBind, noClash_noComp show which plans satisfy it. Missing: plans with a clash."
  },
  {
   "property": "C22",
   "status": "partial",
   "theorems": [
    "Cel.Eval.plan_correct_partial",
    "Cel.Eval.plan_exact_partial",
    "Cel.Eval.plan_correct_exhaustive",
    "Cel.Eval.plan_correct_noBind",
    "Cel.Eval.clash_machine",
    "Cel.Eval.clash_not_correct"
   ],
   "note": "Full compiler correctness under NoClash (unconditional for exhaustive evaluation and for expressions without cel.bind). The unconditional statement is false of the code: clash_machine is a concrete program whose result differs (stale slot after an early loop exit)."
  },
  {
   "property": "C23",
   "status": "partial",
   "theorems": [
    "Cel.Direct.C23_recursive_agrees_partial",
    "Cel.Direct.C23_same_value_partial",
    "Cel.Direct.direct_meaning_partial",
    "Cel.Direct.C23_limit",
    "Cel.Direct.C23_recursion_bounded",
    "Cel.Direct.StSim.code",
    "Cel.Direct.C23_not_unconditional",
    "Cel.Direct.differ_stale_trail",
    "Cel.Direct.differ_alias",
    "Cel.Direct.differ_literal_error",
    "Cel.Direct.differ_unknown_key",
    "Cel.Direct.differ_duplicate_key",
    "Cel.Direct.differ_optional_entry",
    "Cel.Direct.differ_unknown_disabled",
    "Cel.Direct.differ_has_optional",
    "Cel.Direct.differ_missing",
    "Cel.Direct.differ_ternary_text",
    "Cel.Direct.differ_clash"
   ],
   "note": "Full claim false of the code (C23_not_unconditional, differ_*). Proved for every expression of the modelled language outside those cases: same value / same status up to one message text, same host state. Struct creation, optional.or, cel.@block and the list-append optimisation are not modelled."
  },
  {
   "property": "C24",
   "status": "proved",
   "theorems": [
    "Cel.Eval.cond_true_ignores_else",
    "Cel.Eval.cond_false_ignores_then",
    "Cel.Eval.cond_stops",
    "Cel.Eval.cond_non_bool",
    "Cel.Eval.logic_absorbing_ignores_rhs"
   ],
   "note": ""
  },
  {
   "property": "C25",
   "status": "partial",
   "theorems": [
    "C25_logic_value",
    "C25_same_value_partial",
    "C25_only_removes_partial",
    "C25_unknown_patterns_observe",
    "C25_other_loops_observe"
   ],
   "note": "Value theorem: without unknown patterns the short-circuiting and the exhaustive program give corresponding values for macro-shaped comprehensions; trace theorem (short-circuiting only removes host calls) excludes cel.bind. Both restrictions are necessary as witnessed: with unknown patterns and with loop conditions no macro writes, short-circuiting is observable."
  },
  {
   "property": "C26",
   "status": "proved",
   "theorems": [
    "C26_all",
    "C26_exists",
    "C26_quantifier_range_stops",
    "C26_map",
    "C26_map_error",
    "C26_map_filter",
    "C26_filter",
    "C26_exists_one",
    "C26_optMap",
    "C26_old_accumulator_captures",
    "C26_planned_all"
   ],
   "note": "all/exists/exists_one/map/filter with one or two iteration variables, plus optMap/optFlatMap, for every range, body and environment where the accumulator name is not free in the body (always so for @result; the legacy name captures, shown by C26_old_accumulator_captures). C26_planned_all carries the result to the flattened program."
  },
  {
   "property": "C27",
   "status": "proved",
   "theorems": [
    "Cel.Eval.iterations_below_budget",
    "Cel.Eval.budget_refuses",
    "Cel.Eval.budget_permits"
   ],
   "note": "About every program the machine can run, not only planned ones."
  },
  {
   "property": "C28",
   "status": "proved",
   "theorems": [
    "C28_only_free_variables",
    "C28_rename_iteration_variable",
    "C28_rename_accumulator",
    "C28_rename_bind",
    "C28_planned_rename",
    "C28_writes_own_slots",
    "C28_step_writes"
   ],
   "note": "Evaluation depends only on free variables; bound variables can be renamed at will (meaning and planned program); planned code writes only slots in its own range."
  },
  {
   "property": "C29",
   "status": "partial",
   "theorems": [
    "C29_at_most_once",
    "C29_not_reached",
    "C29_unused",
    "C29_one_call_partial",
    "C29_not_reached_planned_partial",
    "C29_substitution_partial"
   ],
   "note": "At-most-once, laziness and substitution hold of the meaning for all bodies and effects; for the planned program under NoClash (false otherwise: clash_machine reads a stale binding)."
  },
  {
   "property": "C30",
   "status": "partial",
   "theorems": [
    "Cel.Eval.attr_eq_iff",
    "Cel.Eval.attr_lt_strict_weak_order",
    "Cel.Eval.attr_incomparable_iff_eq_partial",
    "Cel.Eval.attr_incomparable_not_equal",
    "Cel.Eval.attr_set_sound",
    "Cel.Eval.fn_desc_order"
   ],
   "note": "false for unsupported qualifiers: a[1.5] and b[1.5] are incomparable but not equal, so a set of unknown attributes loses one (attr_incomparable_not_equal); proved for all supported qualifiers"
  },
  {
   "property": "C31",
   "status": "proved",
   "theorems": [
    "Cel.Eval.pattern_full_iff",
    "Cel.Eval.pattern_partial_iff",
    "Cel.Eval.pattern_full_extends",
    "Cel.Eval.pattern_partial_completes",
    "Cel.Eval.pattern_wildcards",
    "Cel.Eval.match_against_iff",
    "Cel.Eval.unknown_is_inherited"
   ],
   "note": ""
  },
  {
   "property": "C32",
   "status": "proved",
   "theorems": [
    "Cel.Eval.unknown_provenance",
    "Cel.Eval.unknown_provenance_machine",
    "Cel.Eval.UnkOK.evalCall",
    "Cel.Eval.merge_attrs_mem",
    "Cel.Eval.merge_no_new",
    "Cel.Eval.merge_attrs_algebra",
    "Cel.Eval.merge_fns_comm"
   ],
   "note": "Provenance is an invariant of any step program (so it does not need NoClash); the concrete steps (logic, not, not_strictly_false, identifier lookup, calls, iteration variables) are shown to satisfy its hypothesis."
  },
  {
   "property": "C33",
   "status": "proved",
   "theorems": [
    "Cel.Eval.prepared_effective",
    "Cel.Eval.strict_not_invoked",
    "Cel.Eval.no_call_first_error",
    "Cel.Eval.no_call_unknown",
    "Cel.Eval.no_call_no_overload",
    "Cel.Eval.eager_invokes_match",
    "Cel.Eval.eager_no_match",
    "Cel.Eval.lazy_unambiguous"
   ],
   "note": ""
  },
  {
   "property": "C34",
   "status": "partial",
   "theorems": [
    "C34_equality_reflexive_iff_no_nan",
    "C34_equality_symmetric_partial",
    "C34_equality_not_symmetric_mixed_keys",
    "C34_equality_transitive_partial",
    "C34_list_equality_pointwise",
    "C34_map_equality_by_associations",
    "C34_map_equality_order_insensitive",
    "C34_numbers_by_value",
    "C34_different_kinds_unequal",
    "C34_operators",
    "C34_operator_errors",
    "C34_operator_unknowns"
   ],
   "note": "Reflexivity (exactly the NaN-free values), pointwise lists, order-insensitive maps, numbers by value are proved for all data values. Symmetry is proved for maps that do not mix an int and a uint key of the same value; the full claim is false of the code (C34_equality_not_symmetric_mixed_keys). Transitivity needs exactly representable numbers (C11)."
  },
  {
   "property": "C35",
   "status": "partial",
   "theorems": [
    "C35_in_list_agrees_with_equality_partial",
    "C35_in_list_disagrees_on_uint_keys",
    "C35_in_map_agrees_with_indexing",
    "C35_in_map_agrees_with_key_equality_partial",
    "C35_in_map_disagrees_beyond_double_precision",
    "C35_registered_in_overloads",
    "C35_registered_uint_membership_defect",
    "C35_list_index"
   ],
   "note": "Map membership agrees with indexing for all maps and keys. Membership vs equality holds on the stated domains; outside them the code disagrees and witnesses are proved."
  },
  {
   "property": "C36",
   "status": "proved",
   "theorems": [
    "Cel.Checker.C36_acyclic",
    "Cel.Checker.C36_no_cycle",
    "Cel.Checker.C36_terminates",
    "Cel.Checker.C36_query_terminates",
    "Cel.Checker.C36_resolve_terminates",
    "Cel.Checker.C36_substitution_terminates",
    "Cel.Checker.C36_side_by_side_cycle"
   ],
   "note": "For every history of instantiations, queries, overload resolutions and assignability sessions (one open at a time). Two sessions open at once can make a cycle, as the header warns."
  },
  {
   "property": "C37",
   "status": "partial",
   "theorems": [
    "Cel.Checker.C37_self",
    "Cel.Checker.C37_dyn",
    "Cel.Checker.C37_failure_unchanged",
    "Cel.Checker.C37_binds_known",
    "Cel.Checker.C37_ground_exact",
    "Cel.Checker.C37_sound_partial",
    "Cel.Checker.C37_sound_ground_target",
    "Cel.Checker.C37_finalized_ground",
    "Cel.Checker.C37_resolve_matches",
    "Cel.Checker.C37_resolve_failure_unchanged",
    "Cel.Checker.C37_resolve_ground",
    "Cel.Checker.C37_widening_unsound",
    "Cel.Checker.C37_widening_unsound_ground",
    "Cel.Checker.C37_session_failure_leaks"
   ],
   "note": "Exact for types without parameters; sound with parameters whenever no binding was widened. With widening the claim is false of the code (proved witnesses)."
  },
  {
   "property": "C38",
   "status": "partial",
   "theorems": [
    "Cel.Names.C38_configuration",
    "Cel.Names.C38_alias_found",
    "Cel.Names.C38_abbreviation",
    "Cel.Names.C38_qualified_names",
    "Cel.Names.C38_simple_candidates",
    "Cel.Names.C38_qualified_candidates",
    "Cel.Names.C38_path_candidate",
    "Cel.Names.C38_resolve_simple",
    "Cel.Names.C38_resolve_qualified",
    "Cel.Names.C38_plan_candidates",
    "Cel.Names.C38_check_and_plan_agree",
    "Cel.Names.C38_plan_overloads",
    "Cel.Names.C38_lazy_ignores_container",
    "Cel.Names.C38_lazy_resolution_fails"
   ],
   "note": "Proved for every container history and name at check time and plan time. False for lazily bound functions found by arity: Resolver::FindLazyOverloads asks for the unqualified name (C38_lazy_resolution_fails), hence partial."
  },
  {
   "property": "C39",
   "status": "proved",
   "theorems": [
    "C39_structure",
    "C39_meaning",
    "C39_value",
    "C39_variadic",
    "C39_variadic_code",
    "C39_planned",
    "C39_nonbool_observes"
   ],
   "note": "Structure, depth and meaning of the balanced tree; variadic calls plan to the left chain's code. Regrouping is observable only in which error is reported for non-boolean terms (witness)."
  },
  {
   "property": "C40",
   "status": "partial",
   "theorems": [
    "Cel.Ext.C40_sets_against_in",
    "Cel.Ext.C40_sets_against_equality_partial",
    "Cel.Ext.C40_sets_disagree_on_uint_keys",
    "Cel.Ext.C40_reflexive",
    "Cel.Ext.C40_nan_not_contained",
    "Cel.Ext.C40_symmetric",
    "Cel.Ext.C40_transitive_partial",
    "Cel.Ext.C40_not_transitive",
    "Cel.Ext.C40_order_insensitive"
   ],
   "note": "Against `in` everything is proved for all lists; against `==` positive answers always, all answers for data without uint map keys (the code uses Value::Equal, which tells {1:2} and {1u:2} apart). Transitivity where integers are exact as doubles; false otherwise (counterexample proved)."
  },
  {
   "property": "C41",
   "status": "partial",
   "theorems": [
    "Cel.Ext.C41_distinct_greedy",
    "Cel.Ext.C41_distinct",
    "Cel.Ext.C41_distinct_first_occurrences_partial",
    "Cel.Ext.C41_distinct_keeps_equal_maps",
    "Cel.Ext.C41_distinct_keeps_by_rounding",
    "Cel.Ext.C41_flatten",
    "Cel.Ext.C41_flatten_all",
    "Cel.Ext.C41_range",
    "Cel.Ext.C41_range_negative",
    "Cel.Ext.C41_reverse",
    "Cel.Ext.C41_slice",
    "Cel.Ext.C41_slice_split",
    "Cel.Ext.C41_sort_by",
    "Cel.Ext.C41_sort",
    "Cel.Ext.C41_sort_unique",
    "Cel.Ext.C41_sort_errors",
    "Cel.Ext.C41_sort_undefined_iff",
    "Cel.Ext.C41_sort_not_stable",
    "Cel.Ext.C41_sort_nan_undefined",
    "Cel.Ext.C41_key_order"
   ],
   "note": "All functions for all lists. False parts proved as such: range(negative) ends the process, sort of doubles with a NaN is undefined behaviour, distinct uses Value::Equal. std::sort is any implementation of its contract. The sortBy macro expansion is not modelled."
  },
  {
   "property": "C42",
   "status": "proved",
   "theorems": [
    "Cel.Source.C42_construction",
    "Cel.Source.C42_line_offsets",
    "Cel.Source.C42_positions_and_locations",
    "Cel.Source.C42_position_round_trip",
    "Cel.Source.C42_outside",
    "Cel.Source.C42_snippet",
    "Cel.Source.C42_every_line",
    "Cel.Source.C42_no_snippet",
    "Cel.Source.C42_display",
    "Cel.Source.C42_subrange",
    "Cel.Source.C42_size_limit_overflows",
    "Cel.Source.C42_column_overflow"
   ],
   "note": "Texts of exactly 2^31-1 ASCII bytes overflow int32 (C42_size_limit_overflows), and GetPosition adds an unchecked column (C42_column_unchecked, C42_column_overflow); the rest holds for every shorter text. Cord inputs not modelled (byte fetching, C15)."
  },
  {
   "property": "C43",
   "status": "partial",
   "theorems": [
    "Cel.Runtime.C43_unambiguous",
    "Cel.Runtime.C43_nonstrict_alone",
    "Cel.Runtime.C43_accepted_iff",
    "Cel.Runtime.C43_register_effect",
    "Cel.Runtime.C43_lookup",
    "Cel.Runtime.C43_static_dispatch",
    "Cel.Runtime.C43_lazy_dispatch",
    "Cel.Runtime.C43_dispatch_never_ambiguous",
    "Cel.Runtime.C43_lazy_hides_static",
    "Cel.Runtime.C43_static_reached_partial"
   ],
   "note": "The registry claims are proved in full. That a static overload taking a call is always reached is false (C43_lazy_hides_static); it holds when no lazy overload has the same name, style and arity."
  },
  {
   "property": "C44",
   "status": "partial",
   "theorems": [
    "Cel.Runtime.C44_lookup",
    "Cel.Runtime.C44_last_binding",
    "Cel.Runtime.C44_invoked",
    "Cel.Runtime.C44_at_most_once",
    "Cel.Runtime.C44_asked_again",
    "Cel.Runtime.C44_serial",
    "Cel.Runtime.C44_insert_result",
    "Cel.Runtime.C44_progress_partial",
    "Cel.Runtime.C44_progress_fails",
    "Cel.Runtime.C44_reentrant_deadlock",
    "Cel.Runtime.C44_move_partial",
    "Cel.Runtime.C44_move_loses_matcher"
   ],
   "note": "All stated claims proved for any number of threads; progress fails for re-entrant providers, and a move loses the attribute matcher."
  },
  {
   "property": "C45",
   "status": "partial",
   "theorems": [
    "Cel.Ext.C45_bitwise",
    "Cel.Ext.C45_shift_left",
    "Cel.Ext.C45_shift_right",
    "Cel.Ext.C45_abs_sign",
    "Cel.Ext.C45_double",
    "Cel.Ext.C45_rounding",
    "Cel.Ext.C45_extrema",
    "Cel.Ext.C45_extrema_exact",
    "Cel.Ext.C45_extrema_errors",
    "Cel.Ext.C45_forms_agree",
    "Cel.Ext.C45_nan_depends_on_order",
    "Cel.Ext.C45_least_not_least"
   ],
   "note": "Bit operations, shifts, abs, sign, rounding and classification are exact for every argument; least/greatest return an argument no other is below/above under the runtime's own comparison, and the mathematical extremum when no NaN is present and no comparison rounds (counterexamples beside it otherwise). Not modelled: sqrt, parse-time checks of literal arguments."
  },
  {
   "property": "C46",
   "status": "partial",
   "theorems": [
    "Cel.Ext.Strings.C46_index_of",
    "Cel.Ext.Strings.C46_last_index_of",
    "Cel.Ext.Strings.C46_substring_from",
    "Cel.Ext.Strings.C46_substring_partial",
    "Cel.Ext.Strings.C46_substring_to_end_fails",
    "Cel.Ext.Strings.C46_substring_cut",
    "Cel.Ext.Strings.C46_char_at",
    "Cel.Ext.Strings.C46_case",
    "Cel.Ext.Strings.C46_trim",
    "Cel.Ext.Strings.C46_quote",
    "Cel.Ext.Strings.C46_reverse",
    "Cel.Ext.Strings.C46_join",
    "Cel.Ext.Strings.C46_split",
    "Cel.Ext.Strings.C46_split_empty",
    "Cel.Ext.Strings.C46_join_split",
    "Cel.Ext.Strings.C46_replace",
    "Cel.Ext.Strings.C46_replace_empty",
    "Cel.Ext.Strings.C46_cuts_unique",
    "Cel.Ext.Strings.C46_flat_example",
    "Cel.Ext.Strings.C46_cord_example",
    "Cel.Ext.Strings.C46_cuts_example"
   ],
   "note": "Complete for flat strings and Cords (index, cut, case, trim, quote, reverse, join, split, replace) except that substring to the end of the string is false of the code: C46_substring_to_end_fails proves that s.substring(i, size(s)) is always an error for i < size(s). format is not modelled."
  },
  {
   "property": "C47",
   "status": "proved",
   "theorems": [
    "C47_list_literal",
    "C47_list_literal_exact",
    "C47_literal_error",
    "C47_literal_unknown",
    "C47_map_literal",
    "C47_map_literal_bad_key",
    "C47_built_maps_are_wellformed"
   ],
   "note": "All entry lists, any set of ?-entries. A repeated key aborts the evaluation with a status rather than giving an error value; that is what the theorem says."
  },
  {
   "property": "C48",
   "status": "proved",
   "theorems": [
    "C48_has_and_selection_agree",
    "C48_absent_optional",
    "C48_marked_attribute_wins",
    "C48_optional_of_scalar_selection_aborts",
    "C48_optional_index_holds_error"
   ],
   "note": "All maps and fields; two defects on optionals are proved as separate theorems."
  },
  {
   "property": "C49",
   "status": "proved",
   "theorems": [
    "Cel.Text.C49_string_literal_meaning",
    "Cel.Text.C49_bytes_literal_meaning"
   ],
   "note": "Exact characterisation of the accepted literals and their values against an independent grammar."
  },
  {
   "property": "C50",
   "status": "proved",
   "theorems": [
    "Cel.Fold.C50_folding_unobservable",
    "Cel.Fold.C50_folding_unobservable_in_scope",
    "Cel.Fold.C50_folds",
    "Cel.Fold.fold_runs_the_plan",
    "Cel.Fold.foldConstants_eq",
    "Cel.Fold.C50_impure_observed"
   ],
   "note": "For the stack machine's plan (same NoClash condition as C22). Functions must be pure; C50_impure_observed shows this is needed. Folding of recursive plans is the same pass over trees and not proved separately."
  },
  {
   "property": "C51",
   "status": "proved",
   "theorems": [
    "Cel.Mem.C51_finalize_once",
    "Cel.Mem.C51_no_use_after_finalize",
    "Cel.Mem.C51_no_use_after_free",
    "Cel.Mem.C51_delete_last",
    "Cel.Mem.C51_no_leak",
    "Cel.Mem.C51_assumptions_hold",
    "Cel.Mem.C51_strengthen",
    "Cel.Mem.C51_expired_forever",
    "Cel.Mem.C51_unique",
    "Cel.Mem.C51_expired",
    "Cel.Mem.C51_calls_return",
    "Cel.Mem.C51_needs_bounded_handles"
   ],
   "note": "Sequentially consistent steps; the number of live references fits int32 (shown necessary)."
  },
  {
   "property": "C52",
   "status": "proved",
   "theorems": [
    "Cel.Mem.C52_no_undefined_behaviour",
    "Cel.Mem.C52_reads",
    "Cel.Mem.C52_size",
    "Cel.Mem.C52_no_leak",
    "Cel.Mem.C52_inline_fits",
    "Cel.Mem.C52_get_arena",
    "Cel.Mem.C52_moved_from_dangles",
    "Cel.Mem.C52_assign_changes_arena",
    "Cel.Mem.C52_arena_reset_needed",
    "Cel.Mem.C52_short_medium"
   ],
   "note": "For every history that keeps to the interface; witnesses show what happens to moved-from strings and destroyed arenas."
  },
  {
   "property": "C53",
   "status": "partial",
   "theorems": [
    "Cel.Mem.C53_find_partial",
    "Cel.Mem.C53_find_empty_cord"
   ],
   "note": "False of the code for the empty needle at the end of a cord; proved for every other case."
  },
  {
   "property": "C54",
   "status": "partial",
   "theorems": [
    "Cel.Syntax.C54_roundtrip_partial",
    "Cel.Syntax.C54_stable_partial",
    "Cel.Syntax.C54_double_negation",
    "Cel.Syntax.C54_double_not",
    "Cel.Syntax.C54_not_of_minus",
    "Cel.Syntax.C54_select_of_minus",
    "Cel.Syntax.C54_index_of_minus",
    "Cel.Syntax.C54_minus_of_literal",
    "Cel.Syntax.C54_has_of_sum",
    "Cel.Syntax.C54_field_true",
    "Cel.Syntax.C54_old_in",
    "Cel.Syntax.C54_double_as_int",
    "Cel.Syntax.C54_second_variable",
    "Cel.Syntax.C54_reassociated"
   ],
   "note": "Round trip and stability of the text for all expressions in Good, on tokens. Partial because the claim is false for the expressions Good leaves out (signs under postfix operators, doubled signs, signed literals, has of an operator, keyword fields, doubles whose text is an integer), each with a witness."
  },
  {
   "property": "C55",
   "status": "proved",
   "theorems": [
    "Policy.C55_first_match",
    "Policy.C55_accepted_iff",
    "Policy.C55_refusals",
    "Policy.C55_unreachable",
    "Policy.C55_literal_true_differs"
   ],
   "note": "Composer, block slots and first-match semantics. Parsing and type checking of the embedded expressions and the final type check are outside; functions are arbitrary pure functions of their argument values."
  },
  {
   "property": "C56",
   "status": "proved",
   "theorems": [
    "Policy.C56_meaning"
   ],
   "note": "Both passes of the unnester."
  },
  {
   "property": "C57",
   "status": "partial",
   "theorems": [
    "Policy.C57_height_of_chains_partial",
    "Policy.C57_never_much_taller_partial",
    "Policy.C57_limit_not_kept",
    "Policy.C57_variables_not_cut"
   ],
   "note": "The claim as documented is false: for every limit and margin a policy exceeds it. Proved for expressions in which every node has at most one child as tall as the limit; in general unnesting adds at most 2."
  },
  {
   "property": "C58",
   "status": "proved",
   "theorems": [
    "Cel.Sig.C58_type_round_trip",
    "Cel.Sig.C58_type_signature_injective",
    "Cel.Sig.C58_overload_round_trip",
    "Cel.Sig.C58_overload_signature_injective",
    "Cel.Sig.C58_written_iff",
    "Cel.Sig.C58_type_canonical",
    "Cel.Sig.C58_overload_canonical",
    "Cel.Sig.C58_accepted_types",
    "Cel.Sig.C58_accepted_functions",
    "Cel.Sig.C58_builtin_without_parameters",
    "Cel.Sig.C58_blanks_ignored",
    "Cel.Sig.C58_signature_limits"
   ],
   "note": "For names without blanks, not empty, not one of the language's own type names and (type names) without two dots in a row; C58_signature_limits shows what happens otherwise, and stray parentheses that are accepted. Strings are character lists; status messages are not modelled."
  },
  {
   "property": "C59",
   "status": "partial",
   "theorems": [
    "Cel.Sig.C59_lookup",
    "Cel.Sig.C59_no_collision",
    "Cel.Sig.C59_accepted_iff",
    "Cel.Sig.C59_order_irrelevant",
    "Cel.Sig.C59_unambiguous_partial",
    "Cel.Sig.C59_ambiguous"
   ],
   "note": "Everything but the last clause is proved in full. 'No call matches two overloads' is proved where dyn and wrapper types occur only at the top of argument types and not both overloads have a wrapper at a position; otherwise it is false (C59_ambiguous)."
  },
  {
   "property": "C60",
   "status": "partial",
   "theorems": [
    "Cel.Types.C60_sound_partial",
    "Cel.Types.C60_dispatch",
    "Cel.Types.link_funcs",
    "Cel.Types.sound_of_goodB",
    "Cel.Types.check_ok",
    "Cel.Types.Examples.prog_good",
    "Cel.Types.Examples.rt_conforms",
    "Cel.Types.Examples.badStep_fails",
    "Cel.Types.Examples.badCond_fails",
    "Cel.Types.Examples.capture_fails",
    "Cel.Types.Examples.listKey_fails",
    "Cel.Types.Examples.optIndex_fails",
    "Cel.Types.Examples.wrapSum_fails"
   ],
   "note": "Soundness for accepted expressions without dynamic types, for the visitor, inference, planner and steps. Missing: names qualified by a container, ?. and optional entries, cel.@block. Exceptions shown necessary by examples."
  },
  {
   "property": "C61",
   "status": "proved",
   "theorems": [
    "Cel.Proto.C61_expression_round_trip",
    "Cel.Proto.C61_accepted_protos",
    "Cel.Proto.C61_proto_round_trip",
    "Cel.Proto.C61_time_constants",
    "Cel.Proto.C61_types",
    "Cel.Proto.C61_checked_ast_round_trip",
    "Cel.Proto.C61_parsed_ast_round_trip",
    "Cel.Proto.C61_unchecked_refused",
    "Cel.Proto.C61_finding_subnanosecond",
    "Cel.Proto.C61_finding_type_of_unset",
    "Cel.Proto.C61_finding_output_not_cleared",
    "Cel.Proto.C61_finding_nameless_struct"
   ],
   "note": "Stack machines with dangling-pointer detection; findings: nameless structs, sub-nanosecond constants, type(unset), output messages not cleared."
  },
  {
   "property": "C62",
   "status": "proved",
   "theorems": [
    "Cel.Proto.C62_copy",
    "Cel.Proto.C62_copy_exact",
    "Cel.Proto.C62_equality",
    "Cel.Proto.C62_equality_laws",
    "Cel.Proto.C62_erase",
    "Cel.Proto.C62_finding_iter_var2"
   ],
   "note": "Finding: operator== ignores iter_var2; NaN constants make an expression unequal to itself (and to its copy)."
  },
  {
   "property": "C63",
   "status": "proved",
   "theorems": [
    "Cel.Walk.C63_traverse_calls",
    "Cel.Walk.C63_traversal_steps",
    "Cel.Walk.C63_visits_down",
    "Cel.Walk.C63_visits_up"
   ],
   "note": "Explicit stack with references into the tree; any interruption point."
  },
  {
   "property": "C64",
   "status": "partial",
   "theorems": [
    "Cel.Walk.C64_build_total",
    "Cel.Walk.C64_rows",
    "Cel.Walk.C64_nodes",
    "Cel.Walk.C64_relation",
    "Cel.Walk.C64_relation_map",
    "Cel.Walk.C64_preorder",
    "Cel.Walk.C64_postorder_root",
    "Cel.Walk.C64_findId",
    "Cel.Walk.C64_findExpr",
    "Cel.Walk.C64_idsAreUnique",
    "Cel.Walk.C64_finding_postorder",
    "Cel.Walk.C64_finding_map_relation"
   ],
   "note": "Partial because the code is wrong in two places: DescendantsPostorder for every node but the root, relation kinds in maps with unset keys or values."
  },
  {
   "property": "C65",
   "status": "proved",
   "theorems": [
    "Cel.Walk.C65_depth",
    "Cel.Walk.C65_nesting",
    "Cel.Walk.C65_homogeneous",
    "Cel.Walk.C65_type_equivalence",
    "Cel.Walk.C65_type_equivalence_laws",
    "Cel.Walk.C65_regex",
    "Cel.Walk.C65_timestamp",
    "Cel.Walk.C65_duration",
    "Cel.Walk.C65_validate",
    "Cel.Walk.C65_update",
    "Cel.Walk.C65_finding_bare_optional",
    "Cel.Walk.C65_finding_timestamp_overflow"
   ],
   "note": "RE2 and absl parsing are parameters shared by validator and evaluator."
  },
  {
   "property": "C66",
   "status": "partial",
   "theorems": [
    "Cel.Format.C66_format",
    "Cel.Format.Template.unique",
    "Cel.Format.C66_total",
    "Cel.Format.C66_list",
    "Cel.Format.C66_map",
    "Cel.Format.C66_map_order_partial",
    "Cel.Format.C66_map_collision_witness",
    "Cel.Format.C66_decimal",
    "Cel.Format.C66_binary",
    "Cel.Format.C66_octal",
    "Cel.Format.C66_hex",
    "Cel.Format.HexOf.unique",
    "Cel.Format.C66_scalars",
    "Cel.Format.C66_fixed",
    "Cel.Format.C66_duration",
    "Cel.Format.C66_double_lossy_witness",
    "Cel.Format.C66_bytes_witness"
   ],
   "note": "The order-independence of map texts is false when two keys have the same text (witness), so C66_map_order_partial assumes they differ. Number printing of doubles is the library contract; %e is modelled but nothing is proved about its digits."
  },
  {
   "property": "C67",
   "status": "proved",
   "theorems": [
    "Cel.Conv.C67_accessors",
    "Cel.Conv.C67_named_zone",
    "Cel.Conv.C67_fixed_offset",
    "Cel.Conv.C67_unknown_zone",
    "Cel.Conv.C67_lenient_witness",
    "Cel.Conv.dayNumber_only",
    "Cel.Conv.Shown.unique",
    "Cel.Conv.C67_duration"
   ],
   "note": "Zones are arbitrary offset functions. More texts than offsets are accepted (C67_lenient_witness)."
  },
  {
   "property": "C68",
   "status": "proved",
   "theorems": [
    "Cel.Conv.C68_int_of_string",
    "Cel.Conv.C68_uint_of_string",
    "Cel.Conv.C68_int_of_string_error",
    "Cel.Conv.C68_uint_of_string_error",
    "Cel.Conv.C68_int_roundtrip",
    "Cel.Conv.C68_uint_roundtrip",
    "Cel.Conv.C68_bool_roundtrip",
    "Cel.Conv.C68_bool_of_string",
    "Cel.Conv.C68_string_of_bytes",
    "Cel.Conv.C68_bytes_roundtrip",
    "Cel.Conv.C68_duration_roundtrip",
    "Cel.Conv.C68_duration_range",
    "Cel.Conv.C68_string_of_timestamp",
    "Cel.Conv.C68_timestamp_text_injective",
    "Cel.Conv.C68_timestamp_roundtrip",
    "Cel.Conv.C68_timestamp_of_int",
    "Cel.Conv.C68_int_of_timestamp",
    "Cel.Conv.C68_raw_text_witness",
    "Cel.Conv.Rfc3339.unique"
   ],
   "note": "absl::ParseTime is assumed to read RFC 3339 texts (ParserReads, shown satisfiable). Conversions between doubles and text are not part of the claim."
  },
  {
   "property": "C69",
   "status": "proved",
   "theorems": [
    "Cel.Opt.C69_map_index",
    "Cel.Opt.C69_list_index",
    "Cel.Opt.C69_optional_index",
    "Cel.Opt.C69_unsupported_key_absent",
    "Cel.Opt.C69_list_index_other_numbers_witness",
    "Cel.Opt.C69_index_operand_errors",
    "Cel.Opt.C69_map_select",
    "Cel.Opt.C69_struct_select",
    "Cel.Opt.C69_of_non_zero",
    "Cel.Opt.C69_first_last",
    "Cel.Opt.C69_unwrap"
   ],
   "note": "All accesses of runtime/optional_types.cc related to the plain accesses; messages are arbitrary readers."
  },
  {
   "property": "C70",
   "status": "partial",
   "theorems": [
    "Cel.Opt.C70_or_direct",
    "Cel.Opt.C70_or_iterative",
    "Cel.Opt.C70_or_exhaustive",
    "Cel.Opt.C70_or_assoc",
    "Cel.Opt.C70_or_orValue",
    "Cel.Opt.C70_orValue_forgets_attribute_witness",
    "Cel.Opt.C70_or_untyped_receiver_effects_witness"
   ],
   "note": "Values and effects proved for all three implementations; attribute provenance is lost by the iterative orValue (witness)."
  },
  {
   "property": "C71",
   "status": "proved",
   "theorems": [
    "Cel.Macro.C71_transform_map",
    "Cel.Macro.C71_transform_map_filter",
    "Cel.Macro.C71_over_list",
    "Cel.Macro.C71_over_map",
    "Cel.Macro.C71_transform_error",
    "Cel.Macro.C71_transform_entry",
    "Cel.Macro.C71_transform_entry_filter",
    "Cel.Macro.Collects.unique",
    "Cel.Macro.C71_transform_entry_error"
   ],
   "note": "over the effect-free reading of planned programs; the elements' values are ordinary values or errors (unknowns: see C26, C31); iteration order of maps is insertion order"
  },
  {
   "property": "C72",
   "status": "partial",
   "theorems": [
    "Cel.Macro.C72_list_append_partial",
    "Cel.Macro.C72_list_append_filter_partial",
    "Cel.Macro.C72_map_insert_partial",
    "Cel.Macro.C72_map_insert_filter_partial",
    "Cel.Macro.C72_entry_insert_partial",
    "Cel.Macro.C72_exhaustive_ignores_predicate",
    "Cel.Macro.C72_exhaustive_filter_wrong",
    "Cel.Macro.C72_partial_unknown_differs",
    "Cel.Macro.C72_accumulator_alias",
    "Cel.Macro.Denotes.unique"
   ],
   "note": "proved with short-circuiting on, no unknowns, accumulator not nameable; false otherwise (three witnesses)"
  },
  {
   "property": "C73",
   "status": "partial",
   "theorems": [
    "Cel.Growth.C73_linear_growth_partial",
    "Cel.Growth.C73_accepts_macros",
    "Cel.Growth.C73_every_comprehension",
    "Cel.Growth.C73_nested_loop_escapes",
    "Cel.Growth.C73_function_escapes",
    "Cel.Growth.C73_key_escapes",
    "Cel.Growth.C73_second_variable_ignored"
   ],
   "note": "linear growth for steps that use the accumulator only where the check counts it or where its size does not matter; false in general (three witnesses that pass the check and double)"
  },
  {
   "property": "C74",
   "status": "partial",
   "theorems": [
    "Cel.Regex.C74_extract",
    "Cel.Regex.C74_extract_error",
    "Cel.Regex.C74_extractAll_partial",
    "Cel.Regex.C74_extractAll_total",
    "Cel.Regex.C74_replaceAll_partial",
    "Cel.Regex.C74_replaceN_partial",
    "Cel.Regex.C74_replaceN_negative",
    "Cel.Regex.C74_replaceN_large_partial",
    "Cel.Regex.C74_replace_error",
    "Cel.Regex.C74_captureN_key",
    "Cel.Regex.C74_captureN_partial",
    "Cel.Regex.C74_captureN_error",
    "Cel.Regex.C74_witness_anchor",
    "Cel.Regex.C74_witness_empty",
    "Cel.Regex.C74_witness_overflow",
    "Cel.Regex.C74_witness_zero",
    "Cel.Regex.C74_witness_collision"
   ],
   "note": "extract, termination, errors and negative counts for all expressions; extractAll for expressions that do not look behind, replacement for those that in addition do not match the empty string; false otherwise (witnesses)"
  },
  {
   "property": "C75",
   "status": "partial",
   "theorems": [
    "Cel.Regex.C75_agree_partial",
    "Cel.Regex.C75_plan_status",
    "Cel.Regex.C75_plan_ok_iff",
    "Cel.Regex.C75_checked_calls",
    "Cel.Regex.C75_witness_good",
    "Cel.Regex.C75_witness_stack",
    "Cel.Regex.C75_witness_kind",
    "Cel.Regex.C75_witness_partial",
    "Cel.Regex.C75_witness_invalid",
    "Cel.Regex.C75_witness_host"
   ],
   "note": "same outcome in every evaluation whose changed calls meet strings (recursive plans: also errors and unknowns) that are not partially unknown; planning failures exactly characterised; false otherwise (witnesses)"
  },
  {
   "property": "C76",
   "status": "proved",
   "theorems": [
    "Cel.Json.C76_converts_iff",
    "Cel.Json.C76_errors",
    "Cel.Json.C76_target_irrelevant",
    "Cel.Json.C76_round_trip",
    "Cel.Json.C76_read_then_convert",
    "Cel.Json.C76_integers",
    "Cel.Json.C76_equal_iff_json_equal",
    "Cel.Json.C76_witness_sample",
    "Cel.Json.C76_witness_big_integer",
    "Cel.Json.C76_witness_bytes",
    "Cel.Json.C76_witness_key",
    "Cel.Json.C76_witness_nan"
   ],
   "note": "for values without protobuf messages (messages: C78); exact conditions"
  },
  {
   "property": "C77",
   "status": "proved",
   "theorems": [
    "Cel.Json.C77_equality",
    "Cel.Json.C77_map",
    "Cel.Json.C77_list_get",
    "Cel.Json.C77_list_contains",
    "Cel.Json.C77_handles",
    "Cel.Json.C77_witness_identity"
   ],
   "note": "exact agreement; the identity shortcut is covered by C77_handles and its witness"
  },
  {
   "property": "C78",
   "status": "proved",
   "theorems": [
    "Cel.Json.Message.C78_converts_iff",
    "Cel.Json.Message.C78_json_form",
    "Cel.Json.Message.C78_field_form",
    "Cel.Json.Message.C78_members",
    "Cel.Json.Message.C78_map_entries",
    "Cel.Json.Message.C78_well_formed",
    "Cel.Json.Message.C78_paths",
    "Cel.Json.Message.C78_lossless",
    "Cel.Json.Message.C78_select_then_convert",
    "Cel.Json.Message.C78_serialize_list",
    "Cel.Json.Message.C78_witness_sample",
    "Cel.Json.Message.sampleLib_lossless",
    "Cel.Json.Message.sample_wf",
    "Cel.Json.Message.sample_faithful",
    "Cel.Json.Message.C78_witness_target",
    "Cel.Json.Message.C78_witness_serialize_map",
    "Cel.Json.Message.C78_witness_enum",
    "Cel.Json.Message.C78_witness_mask",
    "Cel.Json.Message.C78_witness_comma",
    "Cel.Json.Message.C78_witness_any",
    "Cel.Json.Message.C78_witness_int_keys"
   ],
   "note": "exact conditions; target reuse, enums, Any nesting and SerializeTo of map fields shown as witnesses"
  },
  {
   "property": "C79",
   "status": "partial",
   "theorems": [
    "Cel.MsgEq.C79_keys",
    "Cel.MsgEq.C79_total",
    "Cel.MsgEq.C79_agrees",
    "Cel.MsgEq.C79_agrees_with_equal",
    "Cel.MsgEq.C79_true",
    "Cel.MsgEq.C79_messages",
    "Cel.MsgEq.C79_symmetric",
    "Cel.MsgEq.C79_empty",
    "Cel.MsgEq.C79_empty_same_type",
    "Cel.MsgEq.C79_empty_not_transitive",
    "Cel.MsgEq.C79_int_uint_keys",
    "Cel.MsgEq.C79_same_field",
    "Cel.MsgEq.C79_corrupt"
   ],
   "note": "agreement proved for all operands except two empty ones (where the code is false of it: witness) and, for Value::Equal, maps with signed against unsigned keys; MessageDifferencer is not modelled"
  },
  {
   "property": "C80",
   "status": "partial",
   "theorems": [
    "Cel.Select.optimized_selects_agree_partial",
    "Cel.Select.index_truncated",
    "Cel.Select.null_operand_aborts",
    "Cel.Select.has_key_type_error",
    "Cel.Select.uint_index_error",
    "Cel.Select.double_index_found",
    "Cel.Select.unset_wrapper_null",
    "Cel.Select.scalar_element_aborts"
   ],
   "note": "agreement proved for all expressions, messages and paths under conditions that exclude the listed defects (each condition on values shown necessary by a witness)"
  },
  {
   "property": "C81",
   "status": "partial",
   "theorems": [
    "Cel.Select.unknown_agrees_partial",
    "Cel.Select.unknown_never_hides_value",
    "Cel.Select.unknown_of_another_attribute",
    "Cel.Select.missing_lost_behind_index",
    "Cel.Select.evaluators_differ"
   ],
   "note": "agreement proved for chains without errors on the way (with errors the code differs: witnesses); missing attributes only by the witness"
  },
  {
   "property": "C82",
   "status": "proved",
   "theorems": [
    "Verif.Builder.program_exists",
    "Verif.Builder.program_is_code",
    "Verif.Builder.main_program",
    "Verif.Builder.extracted_programs",
    "Verif.Builder.plan_in_order",
    "Verif.Builder.getSubplan_shows_segment",
    "Verif.Builder.replaceSubplan_exact",
    "Verif.Builder.replaceRecursive_exact",
    "Verif.Builder.extractSubplan_exact",
    "Verif.Builder.addStep_appends",
    "Verif.Builder.addSubplanStep_appends",
    "Verif.Builder.enter_changes_no_program",
    "Verif.Builder.exit_changes_attribution_only",
    "Verif.Builder.extractSubexpression_moves",
    "Verif.Builder.extractSubexpression_finds",
    "Verif.Builder.size_is_program_length",
    "Verif.Builder.offset_lands_on_target",
    "Verif.Builder.depth_is_maximum",
    "Verif.Builder.dependencies_in_order",
    "Verif.Builder.offset_is_stale_after_replacement",
    "Verif.Builder.extract_from_recursive_parent_faults",
    "Verif.Builder.failed_dependency_extraction_loses_steps",
    "Verif.Builder.addSubplanStep_drops_step"
   ],
   "note": "proved for every reachable builder state; the undefined-behaviour cases of the interface are witnesses"
  },
  {
   "property": "C83",
   "status": "proved",
   "theorems": [
    "Cel.Rewrite.C83_rewrite_iff",
    "Cel.Rewrite.C83_rewrite_complete",
    "Cel.Rewrite.C83_no_dangling",
    "Cel.Rewrite.C83_terminates",
    "Cel.Rewrite.C83_false_unchanged",
    "Cel.Rewrite.C83_true_reported",
    "Cel.Rewrite.C83_visits",
    "Cel.Rewrite.C83_boundary_divergence",
    "Cel.Rewrite.C83_example"
   ],
   "note": "proved for every rewriter"
  },
  {
   "property": "C84",
   "status": "proved",
   "theorems": [
    "Cel.Refs.C84_resolves",
    "Cel.Refs.C84_update_ast",
    "Cel.Refs.C84_first_candidate",
    "Cel.Refs.C84_leading_dot",
    "Cel.Refs.C84_planned",
    "Cel.Refs.C84_variable_no_namespace",
    "Cel.Refs.C84_namespace_call",
    "Cel.Refs.C84_operators",
    "Cel.Refs.C84_boundary_doubled",
    "Cel.Refs.C84_boundary_same_name",
    "Cel.Refs.C84_example",
    "Cel.Refs.C84_planned_example"
   ],
   "note": "proved; planning the first candidate under NotDoubled, whose necessity is proved"
  },
  {
   "property": "C85",
   "status": "proved",
   "theorems": [
    "Cel.Ids.C85_unique",
    "Cel.Ids.C85_for_resolver",
    "Cel.Ids.C85_copy",
    "Cel.Ids.C85_copy_faithful",
    "Cel.Ids.C85_boundary_copy",
    "Cel.Ids.C85_macro",
    "Cel.Ids.C85_standard",
    "Cel.Ids.C85_example",
    "Cel.Ids.C85_reuse"
   ],
   "note": "proved for error-free parses; the exception (two-variable comprehensions in Copy) is part of the statement and witnessed"
  },
  {
   "property": "C86",
   "status": "proved",
   "theorems": [
    "Cel.Ids.C86_source",
    "Cel.Ids.C86_unique",
    "Cel.Ids.C86_standard",
    "Cel.Ids.C86_boundary_self",
    "Cel.Ids.C86_example",
    "Cel.Ids.C86_example_reads"
   ],
   "note": "proved for error-free parses; the condition on macros is part of the statement, and what happens without it is witnessed"
  },
  {
   "property": "C87",
   "status": "proved",
   "theorems": [
    "Cel.TypeConv.C87_types",
    "Cel.TypeConv.C87_specs",
    "Cel.TypeConv.C87_specs_once",
    "Cel.TypeConv.C87_config",
    "Cel.TypeConv.C87_agree",
    "Cel.TypeConv.C87_resolves",
    "Cel.TypeConv.C87_sayable",
    "Cel.TypeConv.C87_wellknown",
    "Cel.TypeConv.C87_boundary",
    "Cel.TypeConv.C87_boundary_enum",
    "Cel.TypeConv.C87_example"
   ],
   "note": "proved as equivalences; the exceptions are part of the statements"
  },
  {
   "property": "C88",
   "status": "proved",
   "theorems": [
    "Cel.LegacyOrder.C88_strict_weak",
    "Cel.LegacyOrder.C88_agree",
    "Cel.LegacyOrder.C88_equal_scalars",
    "Cel.LegacyOrder.C88_equal_lists",
    "Cel.LegacyOrder.C88_equal_maps",
    "Cel.LegacyOrder.C88_keys",
    "Cel.LegacyOrder.C88_boundary_nan",
    "Cel.LegacyOrder.C88_boundary_error",
    "Cel.LegacyOrder.C88_example"
   ],
   "note": "proved for values without NaN and errors; that it fails at both is part of the statement"
  },
  {
   "property": "C89",
   "status": "proved",
   "theorems": [
    "Cel.Mask.C89_accepted",
    "Cel.Mask.C89_visible",
    "Cel.Mask.C89_order",
    "Cel.Mask.C89_more",
    "Cel.Mask.C89_lookup",
    "Cel.Mask.C89_boundary",
    "Cel.Mask.C89_example"
   ],
   "note": "proved in full; the comment that does not hold is shown by a witness"
  },
  {
   "property": "C90",
   "status": "proved",
   "theorems": [
    "Cel.ToValue.C90_writes",
    "Cel.ToValue.C90_back",
    "Cel.ToValue.C90_same",
    "Cel.ToValue.C90_settled",
    "Cel.ToValue.C90_reads",
    "Cel.ToValue.C90_keys",
    "Cel.ToValue.C90_boundary",
    "Cel.ToValue.C90_example"
   ],
   "note": "proved in full; what is lost is part of the statement"
  },
  {
   "property": "C91",
   "status": "proved",
   "theorems": [
    "Cel.Yaml.C91_double",
    "Cel.Yaml.C91_single",
    "Cel.Yaml.C91_plain",
    "Cel.Yaml.C91_block",
    "Cel.Yaml.C91_empty",
    "Cel.Yaml.C91_inside",
    "Cel.Yaml.C91_boundary",
    "Cel.Yaml.C91_example"
   ],
   "note": "proved in full; the end one too far is part of the statement"
  },
  {
   "property": "C92",
   "status": "proved",
   "theorems": [
    "Cel.TypeName.C92_text",
    "Cel.TypeName.C92_tells",
    "Cel.TypeName.C92_boundary",
    "Cel.TypeName.C92_example"
   ],
   "note": "proved in full; enums and function types are part of the statement"
  },
  {
   "property": "C93",
   "status": "proved",
   "theorems": [
    "Cel.Fields.C93_exact",
    "Cel.Fields.C93_free",
    "Cel.Fields.C93_all",
    "Cel.Fields.C93_boundary",
    "Cel.Fields.C93_example"
   ],
   "note": "proved in full; what is missed is part of the statement"
  },
  {
   "property": "C94",
   "status": "proved",
   "theorems": [
    "Cel.Registry.C94_version",
    "Cel.Registry.C94_latest",
    "Cel.Registry.C94_found",
    "Cel.Registry.C94_stable",
    "Cel.Registry.C94_boundary",
    "Cel.Registry.C94_example"
   ],
   "note": "proved in full; negative versions are part of the statement"
  },
  {
   "property": "C95",
   "status": "proved",
   "theorems": [
    "Cel.Position.C95_at",
    "Cel.Position.C95_starts",
    "Cel.Position.C95_parsed",
    "Cel.Position.C95_unknown",
    "Cel.Position.C95_boundary",
    "Cel.Position.C95_example"
   ],
   "note": "proved in full; the line that is one too small is part of the statement"
  }
 ]
}