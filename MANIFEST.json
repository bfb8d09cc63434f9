{
 "claims": [
  {
   "property": "C01",
   "status": "proved",
   "theorems": [
    "JP.C01_compile_total",
    "JP.C01_compile_of_parse"
   ],
   "note": "No panic and no exhausted fuel for any byte string; plus: whatever the parser accepts, the compiler accepts, for texts of at most 3*2^20 bytes."
  },
  {
   "property": "C02",
   "status": "partial",
   "theorems": [
    "JP.C02_eval_can_loop",
    "JP.C02_eval_terminates_partial",
    "JP.C02_eval_terminates_text_partial"
   ],
   "note": "False as stated: jump targets are packed into 23 bits without a check, and a path of 24 megabytes loops for ever. Proved for programs of fewer than 2^22 orders (every text of at most 3*2^20 bytes)."
  },
  {
   "property": "C03",
   "status": "partial",
   "theorems": [
    "JP.C03_eval_can_panic",
    "JP.C03_long_path_panics",
    "JP.C03_eval_never_panics_partial",
    "JP.C03_no_stride_never_panics_partial"
   ],
   "note": "False as stated: a large slice stride overflows the index, and a path of 3 megabytes and a byte jumps out of the program. Proved under a bound on strides and program size."
  },
  {
   "property": "C04",
   "status": "partial",
   "theorems": [
    "JP.C04_long_path_wrong",
    "JP.C04_program_means_path_partial",
    "JP.C04_eval_means_text_partial"
   ],
   "note": "False as stated for some paths of more than 3 megabytes, whose jumps go astray. Proved for programs of fewer than 2^22 orders (every text of at most 3*2^20 bytes)."
  },
  {
   "property": "C05",
   "status": "proved",
   "theorems": [
    "JP.C05_small",
    "JP.C05_index",
    "JP.C05_distinct",
    "JP.C05_int_literal"
   ],
   "note": ""
  },
  {
   "property": "C06",
   "status": "proved",
   "theorems": [
    "JP.C06_result_not_nil"
   ],
   "note": ""
  },
  {
   "property": "C07",
   "status": "partial",
   "theorems": [
    "JP.C07_result_not_from_document",
    "JP.C07_results_from_document_partial",
    "JP.C07_no_filter_results_from_document_partial"
   ],
   "note": "False as stated: a filter over no candidates can select a made-up null. Proved: results come from the document, or are null and the path has a filter."
  },
  {
   "property": "C08",
   "status": "proved",
   "theorems": [
    "JP.C08_member",
    "JP.C08_at_most_one"
   ],
   "note": "For compiled programs of fewer than 2^22 orders (every text of at most 3*2^20 bytes); so also C09-C16."
  },
  {
   "property": "C09",
   "status": "proved",
   "theorems": [
    "JP.C09_index",
    "JP.C09_dot_index",
    "JP.C09_index_cases"
   ],
   "note": ""
  },
  {
   "property": "C10",
   "status": "partial",
   "theorems": [
    "JP.C10_slice_rule_fails",
    "JP.C10_slice_partial",
    "JP.C10_nonpositive_stride_fits",
    "JP.C10_panics_iff",
    "JP.C10_or_panics"
   ],
   "note": "False as stated (index + stride can overflow, which panics). Proved when length + stride <= 2^63, with an exact characterisation of the slices that panic."
  },
  {
   "property": "C100",
   "status": "partial",
   "theorems": [
    "JP.C100_same",
    "JP.C100_enough_partial",
    "JP.C100_place_partial",
    "JP.C100_sharp",
    "JP.C100_parens",
    "JP.C100_fails"
   ],
   "note": "False as stated: 1 in enough parentheses is an expression and exhausts any stack (C100_parens, C100_fails). Proved for all texts: 11 calls and 11 for each of the bytes ( [ - ! in the text suffice, and for every number of them there is a text for which one call fewer does not (C100_sharp). With any stack the result is the usual one or the end of the stack."
  },
  {
   "property": "C101",
   "status": "partial",
   "theorems": [
    "JP.C101_same",
    "JP.C101_enough_partial",
    "JP.C101_text_partial",
    "JP.C101_parser",
    "JP.C101_deep",
    "JP.C101_fails"
   ],
   "note": "False as stated: a sum of n + 1 terms takes n + 6 calls, though the parser takes 11 for every sum (C101_parser, C101_deep, C101_fails). Proved for all paths: the height of the highest expression and 5 more calls suffice, and so does 4/3 of the length of the text and 4 more. With any stack the result is the usual one or the end of the stack."
  },
  {
   "property": "C102",
   "status": "proved",
   "theorems": [
    "JP.C102_same",
    "JP.C102_path",
    "JP.C102_expr",
    "JP.C102_compile"
   ],
   "note": "The steps are counted by Model/ParseTime and Model/CodeTime, which are the parser and the coder with a clock: C102_same says that they give the same results. An append, a look into a map and the compiling of a regular expression by regexp.Compile count as one step or none."
  },
  {
   "property": "C103",
   "status": "partial",
   "theorems": [
    "JP.C103_same",
    "JP.C103_holds_partial",
    "JP.C103_enough_partial",
    "JP.C103_text_partial",
    "JP.C103_walk",
    "JP.C103_descent",
    "JP.C103_all",
    "JP.C103_compare",
    "JP.C103_fails"
   ],
   "note": "False as stated: $..* on n + 1 arrays, one in the other, takes n + 1 nested calls of walkdown, exactly (C103_walk), in general one for each array or object around another, if the path begins with the descent and neither descends nor compares elsewhere (C103_descent, C103_all), and $[?(@==@)] takes exactly one nested call of eqVal more than the height of an element that equals itself, has distinct keys and is the only one (C103_compare), so no stack is enough for all documents (C103_fails). Proved for all programs of fewer than 2^22 orders and all documents: one call for each level of the document, one for each order that may make an array (a list in an expression or a call), and one more suffice; so does the height of the document and 4/3 of the length of the text, for texts up to 3 MB. With any stack the result is the usual one or the end of the stack."
  },
  {
   "property": "C104",
   "status": "proved",
   "theorems": [
    "JP.C104_eq",
    "JP.C104_in",
    "JP.C104_contains",
    "JP.C104_bound",
    "JP.C104_self",
    "JP.C104_search",
    "JP.C104_found",
    "JP.C104_differ"
   ],
   "note": "The calls are counted by Model/EqTime: C104_eq, C104_in and C104_contains say that it gives what the operators and the function give. Looking up a member of a map counts as nothing, and so do the comparison of two strings and the conversion of one to a number."
  },
  {
   "property": "C11",
   "status": "proved",
   "theorems": [
    "JP.C11_wild"
   ],
   "note": ""
  },
  {
   "property": "C12",
   "status": "partial",
   "theorems": [
    "JP.C12_union_rule_fails",
    "JP.C12_union_partial",
    "JP.C12_single"
   ],
   "note": "False as stated: a slice in a union discards what was selected before when the value is not an array. Proved when every slice meets only arrays."
  },
  {
   "property": "C13",
   "status": "partial",
   "theorems": [
    "JP.C13_descent_partial",
    "JP.C13_descent_wild",
    "JP.C13_descent_filter_rule_fails",
    "JP.C13_descent_filter_partial"
   ],
   "note": "Proved for names, indices, slices of arrays, unions and wildcards. False for filters: ..[?(e)] tests the arrays and objects visited rather than their children; what it does is proved instead."
  },
  {
   "property": "C14",
   "status": "partial",
   "theorems": [
    "JP.C14_filter_rule_fails",
    "JP.C14_filter_partial",
    "JP.C14_keeps_eq_filter"
   ],
   "note": "False as stated when no value of a non-empty result set has a child: then e is applied to a null. Proved in all other cases."
  },
  {
   "property": "C15",
   "status": "partial",
   "theorems": [
    "JP.C15_compose",
    "JP.C15_compose_eval",
    "JP.C15_single",
    "JP.C15_slice_not_independent",
    "JP.C15_filter_not_independent",
    "JP.C15_independent_partial",
    "JP.C15_each_partial"
   ],
   "note": "Composition is proved for all paths. Independence is false for slices and for filters that select a null where they find nothing to test. Proved, up to order, for all other steps (C15_independent_partial) and for whole paths of them (C15_each_partial: the result is that of the rest of the path for each selected value as a document, together). Expressions must not call keys()."
  },
  {
   "property": "C16",
   "status": "partial",
   "theorems": [
    "JP.C16_order_matters_for_slices",
    "JP.C16_order_matters_for_keys",
    "JP.C16_order_partial",
    "JP.C16_order_no_slices_partial"
   ],
   "note": "False as stated for slices that meet non-arrays and for keys(). Proved for all other paths; the kind of error may depend on the order."
  },
  {
   "property": "C17",
   "status": "proved",
   "theorems": [
    "JP.Conc.C17_result_fixed",
    "JP.Conc.C17_no_deadlock",
    "JP.Conc.C17_returns",
    "JP.Conc.C17_can_return",
    "JP.Conc.C17_history",
    "JP.Conc.C17_fair_schedule",
    "JP.Conc.C17_schedule_irrelevant"
   ],
   "note": "Over a model with a heap, goroutines and unbuffered channels (Model/Conc.lean), for every schedule. C17_schedule_irrelevant is for paths of at most 3*2^20 bytes, because of C02."
  },
  {
   "property": "C18",
   "status": "proved",
   "theorems": [
    "JP.Conc.C18_as_if_alone",
    "JP.Conc.C18_results_stay",
    "JP.Conc.C18_no_race",
    "JP.Conc.C17_result_fixed"
   ],
   "note": "Any number of evaluations, any programs and documents, every interleaving. The caller may share documents and results but not modify them. Memory is sequentially consistent, which C18_no_race justifies."
  },
  {
   "property": "C19",
   "status": "partial",
   "theorems": [
    "JP.Conc.C19_goroutine_leaks",
    "JP.Conc.C19_error_leaks",
    "JP.Conc.C19_success_no_goroutine_partial",
    "JP.Conc.C19_error_exact_partial"
   ],
   "note": "False as stated: an error in a filter leaves the goroutine that supplies the elements blocked for ever. Proved for evaluations that succeed (paths of at most 3*2^20 bytes), and exactly which errors leave one behind."
  },
  {
   "property": "C20",
   "status": "partial",
   "theorems": [
    "JP.C20_total",
    "JP.C20_symmetry_fails",
    "JP.C20_symmetry_partial",
    "JP.C20_symmetry_simple",
    "JP.C20_reflexive",
    "JP.C20_not_reflexive",
    "JP.C20_js_fails",
    "JP.C20_js_partial",
    "JP.C20_array_number"
   ],
   "note": "Symmetry is false for objects with null members and JavaScript's equality is false between an integer and the text of a fraction; both are proved false with witnesses, and the rest is proved. Reflexivity is proved in full for documents without NaN or json.Number."
  },
  {
   "property": "C21",
   "status": "proved",
   "theorems": [
    "JP.C21_ne",
    "JP.C21_nin",
    "JP.C21_in"
   ],
   "note": "For every environment and all values; operators_observed carries it to Eval."
  },
  {
   "property": "C22",
   "status": "proved",
   "theorems": [
    "JP.C22_truthy",
    "JP.C22_filter",
    "JP.C22_not",
    "JP.C22_or_left",
    "JP.C22_or_right",
    "JP.C22_and_left",
    "JP.C22_and_right"
   ],
   "note": "json.Number values excepted. When both operands of || fail the result is a failure, though not always the second one."
  },
  {
   "property": "C23",
   "status": "proved",
   "theorems": [
    "JP.C23_propagates",
    "JP.C23_neg",
    "JP.C23_not_selected",
    "JP.C23_step"
   ],
   "note": ""
  },
  {
   "property": "C24",
   "status": "proved",
   "theorems": [
    "JP.C24_add",
    "JP.C24_sub",
    "JP.C24_mul",
    "JP.C24_div",
    "JP.C24_mod",
    "JP.C24_exact",
    "JP.C24_convert",
    "JP.C24_convert_finite",
    "JP.C24_add_rounds",
    "JP.C24_sub_rounds",
    "JP.C24_mul_rounds",
    "JP.C24_div_rounds",
    "JP.C24_mod_exact",
    "JP.C24_zero_divisor",
    "JP.C24_nan",
    "JP.C24_infinite"
   ],
   "note": "Float results are proved to be the exact rational results, rounded to nearest with ties to even (Verif/Spec/Float.lean)."
  },
  {
   "property": "C25",
   "status": "proved",
   "theorems": [
    "JP.C25_numbers",
    "JP.C25_lt_numbers",
    "JP.C25_strings",
    "JP.C25_swap",
    "JP.C25_incomparable",
    "JP.C25_float_order"
   ],
   "note": ""
  },
  {
   "property": "C26",
   "status": "partial",
   "theorems": [
    "JP.C26_min_numbers",
    "JP.C26_max_numbers",
    "JP.C26_integers_lose_precision",
    "JP.C26_min_strings",
    "JP.C26_max_strings_is_min",
    "JP.C26_max_strings_fails",
    "JP.C26_max_strings_partial",
    "JP.C26_empty",
    "JP.C26_mixed",
    "JP.C26_mixed_booleans_fails",
    "JP.C26_boolean_first",
    "JP.C26_single"
   ],
   "note": "False as stated: max of strings returns the minimum, integers come back as floats, and booleans are counted as numbers. All three are proved with witnesses and the rest is proved."
  },
  {
   "property": "C27",
   "status": "partial",
   "theorems": [
    "JP.C27_sum",
    "JP.C27_prod",
    "JP.C27_avg",
    "JP.C27_avg_empty",
    "JP.C27_not_array",
    "JP.C27_booleans_fails",
    "JP.C27_sum_exact",
    "JP.C27_prod_exact",
    "JP.C27_avg_rounds"
   ],
   "note": "False as stated: booleans are summed as 0 and 1. The rest is proved."
  },
  {
   "property": "C28",
   "status": "proved",
   "theorems": [
    "JP.C28_contains",
    "JP.C28_starts_with",
    "JP.C28_ends_with",
    "JP.C28_not_strings",
    "JP.C28_contains_array",
    "JP.C28_contains_other",
    "JP.C28_count_string",
    "JP.C28_count_runes",
    "JP.C28_length",
    "JP.C28_length_other"
   ],
   "note": "length(x) equals x.length for strings, arrays and objects; on other values the first is null and the second fails (C28_length_other)."
  },
  {
   "property": "C29",
   "status": "proved",
   "theorems": [
    "JP.C29_only",
    "JP.C29_none",
    "JP.C29_bad_regexp",
    "JP.C29_match_right",
    "JP.C29_match_left",
    "JP.C29_match",
    "JP.C29_in_right",
    "JP.C29_unknown_function",
    "JP.C29_wrong_args",
    "JP.C29_right_args",
    "JP.C29_reached",
    "JP.C29_reached_step",
    "JP.C29_final"
   ],
   "note": "For compiled programs of fewer than 2^22 orders, and for C29_reached on documents whose slices do not overflow. A result of the model is either an error or a list, never both; in the Go code, Eval returns nil with every error."
  },
  {
   "property": "C30",
   "status": "partial",
   "theorems": [
    "JP.C30_write_fails",
    "JP.C30_write_re_fails",
    "JP.C30_write_partial",
    "JP.C30_write_expr_partial",
    "JP.C30_trees",
    "JP.C30_trees_expr",
    "JP.C30_floats"
   ],
   "note": "False as stated: the two least integers have no text in a path, and a regular expression that ends with a backslash has none at all. Proved for all other trees, and the trees that have a text are characterised exactly."
  },
  {
   "property": "C31",
   "status": "proved",
   "theorems": [
    "JP.C31_precedence",
    "JP.C31_precedence_tokens",
    "JP.C31_left_iff"
   ],
   "note": "For every pair of operators and all operands that are primaries; expressions alone and in a filter."
  },
  {
   "property": "C32",
   "status": "proved",
   "theorems": [
    "JP.C32_space",
    "JP.C32_tokens",
    "JP.C32_script",
    "JP.C32_around"
   ],
   "note": "The tokens and their spelling are given by Spec.Lexical. White space may be changed and inserted between all tokens, and removed at the ends; where the text has some between two tokens, some must remain."
  },
  {
   "property": "C33",
   "status": "partial",
   "theorems": [
    "JP.C33_literal_partial",
    "JP.C33_literal_fails",
    "JP.C33_every",
    "JP.C33_rejects",
    "JP.C33_rejects_expr_fails",
    "JP.C33_rejects_expr_partial"
   ],
   "note": "False as stated: a lone surrogate before a pair makes the pair be lost, and ParseScriptExpression accepts a text that ends with an escaped quote in place of the closing quote. Proved for all other literals, in paths and in expressions; every byte string has a literal in either kind of quotes."
  },
  {
   "property": "C34",
   "status": "partial",
   "theorems": [
    "JP.C34_digits",
    "JP.C34_digits_overflow",
    "JP.C34_signed_fails",
    "JP.C34_signed_partial",
    "JP.C34_signed_overflow"
   ],
   "note": "False as stated: -9223372036854775807 and -9223372036854775808 are rejected. Proved for all other integers."
  },
  {
   "property": "C35",
   "status": "proved",
   "theorems": [
    "JP.C35_rejects",
    "JP.C35_accepts"
   ],
   "note": "After any path, in [] and ..[]."
  },
  {
   "property": "C36",
   "status": "proved",
   "theorems": [
    "JP.C36_regexp",
    "JP.C36_regexp_invalid",
    "JP.C36_unterminated"
   ],
   "note": "Which regular expressions are valid is a parameter of the model."
  },
  {
   "property": "C37",
   "status": "proved",
   "theorems": [
    "JP.Conc.C37_no_write",
    "JP.Conc.C37_unchanged",
    "JP.Conc.C37_document_unchanged",
    "JP.Conc.C37_result_is_new"
   ],
   "note": "Over the model with a heap, where nothing stops an evaluation from writing to the document."
  },
  {
   "property": "C38",
   "status": "proved",
   "theorems": [
    "JP.Conc.C38_repeatable",
    "JP.Conc.C38_program_unchanged"
   ],
   "note": ""
  },
  {
   "property": "C39",
   "status": "partial",
   "theorems": [
    "JP.C39_bound_rule_fails",
    "JP.C39_expressions_are_zero",
    "JP.C39_bound_partial"
   ],
   "note": "False as stated: a slice bound written as an expression always counts as 0. Proved for bounds that are literals."
  },
  {
   "property": "C40",
   "status": "partial",
   "theorems": [
    "JP.C40_index_rule_fails",
    "JP.C40_string_partial",
    "JP.C40_int_partial",
    "JP.C40_other",
    "JP.C40_failed",
    "JP.C40_name_text"
   ],
   "note": "False as stated: values other than strings and integers are never converted to integers, since the conversion order is not emitted. Proved for strings and integers, and what the other values select is proved instead."
  },
  {
   "property": "C41",
   "status": "partial",
   "theorems": [
    "JP.C41_one_list_per_value",
    "JP.C41_bad_path",
    "JP.C41_terminates_partial",
    "JP.C41_lines",
    "JP.C41_long_line",
    "JP.C41_names_line_fails",
    "JP.C41_names_line_partial"
   ],
   "note": "Decoding and encoding of JSON are parameters. False as stated with -l: a line of 65536 bytes or more stops the command with an error that does not name the line."
  },
  {
   "property": "C42",
   "status": "proved",
   "theorems": [
    "JP.C42_mustCompile",
    "JP.C42_string"
   ],
   "note": ""
  },
  {
   "property": "C43",
   "status": "partial",
   "theorems": [
    "JP.C43_short_circuit_fails",
    "JP.C43_value_decided_partial",
    "JP.C43_only_by_error_partial"
   ],
   "note": "False: both operands are always evaluated, and an error in the right one is an error of the whole. Proved: an error is the only way the right operand can matter."
  },
  {
   "property": "C44",
   "status": "partial",
   "theorems": [
    "JP.C44_abs_int",
    "JP.C44_abs_float",
    "JP.C44_abs_goint_overflows",
    "JP.C44_ceil_floor_int",
    "JP.C44_to_number",
    "JP.C44_to_number_string",
    "JP.C44_other",
    "JP.C44_ceil_floor_float",
    "JP.C44_ceil_floor_special",
    "JP.C44_abs_val",
    "JP.C44_to_number_decimal"
   ],
   "note": "Proved for int64 and floats. False for a Go int holding the minimum value, whose abs is negative (C44_abs_goint_overflows)."
  },
  {
   "property": "C45",
   "status": "proved",
   "theorems": [
    "JP.C45_error_offsets",
    "JP.C45_script_error_offsets"
   ],
   "note": ""
  },
  {
   "property": "C46",
   "status": "partial",
   "theorems": [
    "JP.C46_documented_fails",
    "JP.C46_no_names",
    "JP.C46_documented_partial",
    "JP.C46_grammar"
   ],
   "note": "False as stated: names without quotes are accepted in subscripts, which the documented grammar does not allow. Proved for paths without them; the language accepted is exactly that of the grammar with them."
  },
  {
   "property": "C47",
   "status": "partial",
   "theorems": [
    "JP.C47_share_fails",
    "JP.C47_slot",
    "JP.C47_share_partial",
    "JP.C47_own_slot",
    "JP.C47_all_used",
    "JP.C47_too_many"
   ],
   "note": "False as stated for slices and regular expressions, which are compared as pointers and so never share a slot. Proved for all other constants; every reference leads to exactly its constant, and a path is rejected exactly when it has more than 2^22 constants that need different slots."
  },
  {
   "property": "C48",
   "status": "proved",
   "theorems": [
    "JP.C48_root"
   ],
   "note": ""
  },
  {
   "property": "C49",
   "status": "partial",
   "theorems": [
    "JP.C49_real_fails",
    "JP.C49_edge",
    "JP.C49_real_partial",
    "JP.C49_filter_partial",
    "JP.C49_exact"
   ],
   "note": "strconv does not read exponents of six digits to the end, so a text with 9677 digits before its exponent can denote another number (C49_real_fails). Proved for every text with at most 9676 digits before the exponent and for every text with an exponent below 100000, so the limit is exact (C49_edge)."
  },
  {
   "property": "C50",
   "status": "partial",
   "theorems": [
    "JP.C50_dot_rule_fails",
    "JP.C50_dot_partial",
    "JP.C50_filter_partial"
   ],
   "note": "False as stated for a member called length, which .length hides (C28 says what .length counts). Proved for all other names."
  },
  {
   "property": "C51",
   "status": "partial",
   "theorems": [
    "JP.C51_index_rule_fails",
    "JP.C51_int_partial",
    "JP.C51_string_partial",
    "JP.C51_spelled",
    "JP.C51_not_spelled",
    "JP.C51_converted_partial",
    "JP.C51_object_other",
    "JP.C51_other"
   ],
   "note": "False as stated: a string used as an index of an array is read as an integer, and is 0 if it is none; null, true and false are printed to index an object. Proved for the rest, and what happens instead is proved."
  },
  {
   "property": "C52",
   "status": "partial",
   "theorems": [
    "JP.C52_neg_rule_fails",
    "JP.C52_neg_partial",
    "JP.C52_spelled",
    "JP.C52_zero",
    "JP.C52_exact",
    "JP.C52_involution"
   ],
   "note": "False as stated: minus a string is minus the integer it spells, and minus null, an array, an object or another string is 0 instead of a failure. Proved for numbers, booleans and failures."
  },
  {
   "property": "C53",
   "status": "proved",
   "theorems": [
    "JP.C53_array",
    "JP.C53_index",
    "JP.C53_length"
   ],
   "note": "For every list of element expressions that have values."
  },
  {
   "property": "C54",
   "status": "partial",
   "theorems": [
    "JP.C54_array_text_fails",
    "JP.C54_many",
    "JP.C54_null",
    "JP.C54_nested",
    "JP.C54_negative_zero",
    "JP.C54_array_text_partial",
    "JP.C54_float",
    "JP.C54_large_fails",
    "JP.C54_million",
    "JP.C54_element"
   ],
   "note": "False as stated for arrays of more than one element, null, inner arrays, negative zero and numbers that the code writes in another way (those from a million up to 10^21 all differ). Proved for the empty array and one element that is a string, boolean, integer, object, or a float of the ranges in SameText. C54_float shows that no other float has the same text, so the exceptions are complete."
  },
  {
   "property": "C55",
   "status": "proved",
   "theorems": [
    "JP.C55_message",
    "JP.C55_verbatim",
    "JP.C55_determines"
   ],
   "note": "Which characters beyond ASCII count as printable is a parameter of the model (only that U+FEFF does not), and so is the message of regexp.Compile."
  },
  {
   "property": "C56",
   "status": "partial",
   "theorems": [
    "JP.C56_total",
    "JP.C56_text_fails",
    "JP.C56_text_partial"
   ],
   "note": "False as stated: $[1:] and $[(1):] have the same text and different results. Proved for paths without expressions as bounds of slices: there the programs are equal. String never panics (proved for all)."
  },
  {
   "property": "C57",
   "status": "partial",
   "theorems": [
    "JP.C57_object_fails",
    "JP.C57_object_partial",
    "JP.C57_true",
    "JP.C57_object_text",
    "JP.C57_nested",
    "JP.C57_nested_js",
    "JP.C57_object_in_array",
    "JP.C57_null_float",
    "JP.C57_fraction"
   ],
   "note": "False as stated: [true] == 1, [[1]] == 0, [{}] == 0 and [0.5] == false are true and {} == \"[object Object]\" is false. Proved for null and failures, for objects, for arrays of no or several elements, and for one element of the kinds in AsNumber and AsBool; what happens to the others is proved instead. Arrays against strings are C54."
  },
  {
   "property": "C58",
   "status": "partial",
   "theorems": [
    "JP.C58_each_once_fails",
    "JP.C58_each_once_partial",
    "JP.C58_count",
    "JP.C58_union",
    "JP.C58_descent"
   ],
   "note": "False as stated: a filter with nothing to visit makes up a null. Proved that this is the only exception, and that it is then the only result; the bound on the number of results holds without exception. Unions and a second descent do select values twice (C58_union, C58_descent). For programs of fewer than 2^22 orders."
  },
  {
   "property": "C59",
   "status": "proved",
   "theorems": [
    "JP.C59_single",
    "JP.C59_address",
    "JP.C59_reads"
   ],
   "note": "For addresses of at most 3*2^20 bytes, because of C02. A position in an object is read as the member of that name (C59_reads says exactly what)."
  },
  {
   "property": "C60",
   "status": "proved",
   "theorems": [
    "JP.C60_same",
    "JP.C60_negative_differs",
    "JP.C60_expressions_differ"
   ],
   "note": "For nonnegative indices after a dot; $.-1 and $[-1] differ (C60_negative_differs), and so do @.a and @['a'] inside expressions (C60_expressions_differ)."
  },
  {
   "property": "C61",
   "status": "partial",
   "theorems": [
    "JP.C61_algebra",
    "JP.C61_partition_fails",
    "JP.C61_partition_partial"
   ],
   "note": "The last sentence is false when [*] selects nothing: a filter then tests a null and may select it. It is proved when [*] selects something; the rest is proved without this condition. For expressions without keys(), whose value may differ from one evaluation to the next."
  },
  {
   "property": "C62",
   "status": "partial",
   "theorems": [
    "JP.C62_leaf_partial",
    "JP.C62_leaf_tree",
    "JP.C62_whole_fails",
    "JP.C62_string_fails",
    "JP.C62_regexp_fails",
    "JP.C62_inner",
    "JP.C62_name",
    "JP.C62_int",
    "JP.C62_str_partial",
    "JP.C62_slice_partial",
    "JP.C62_operand_fails"
   ],
   "note": "False for numbers printed without a point (1.0 is printed 1), for regular expressions (printed as a call), for strings with characters that are printed with escapes such as \\a, \\x7f or \\U00010000, and for slices with expressions, whose parentheses are not printed. Proved for all others. C62_inner: an expression with operands is printed as the name of its operator."
  },
  {
   "property": "C63",
   "status": "partial",
   "theorems": [
    "JP.C63_step_rule_fails",
    "JP.C63_index_rule_fails",
    "JP.C63_step_partial",
    "JP.C63_index_partial",
    "JP.C63_step_never",
    "JP.C63_index_never",
    "JP.C63_step_text",
    "JP.C63_index_text",
    "JP.C63_text_unique",
    "JP.C63_whole",
    "JP.C63_large"
   ],
   "note": "False for null, arrays, objects, infinities, NaN and numbers with a fraction: for each of these the name differs from JavaScript's (C63_step_never, C63_index_never); the texts used instead are given by C63_step_text and C63_index_text. Proved for strings, booleans, integers and floating-point numbers that are integers of at most 53 bits. Beyond 53 bits the name is that of the exact value (C63_whole), so it agrees exactly if JavaScript's is, which need not be (C63_large)."
  },
  {
   "property": "C64",
   "status": "partial",
   "theorems": [
    "JP.C64_rejection_fails",
    "JP.C64_rejection_partial",
    "JP.C64_rejection_marked",
    "JP.C64_match_operator",
    "JP.C64_match_operand",
    "JP.C64_match_expression",
    "JP.C64_match_structure",
    "JP.C64_all"
   ],
   "note": "False: null, booleans and numbers, also inside arrays and objects, are shown with the mark %!s( that fmt uses for a wrong verb (C64_rejection_marked), and =~ is shown as ~ (C64_match_operator). On the right of =~ arrays and objects are shown as Go expressions (C64_match_expression), never by their text (C64_match_structure). Proved for in and nin with all other operands, for the left of =~ but for the operator, and for calls."
  },
  {
   "property": "C65",
   "status": "proved",
   "theorems": [
    "JP.C65_all",
    "JP.C65_split",
    "JP.C65_index",
    "JP.C65_last",
    "JP.C65_reverse",
    "JP.C65_stride",
    "JP.C65_stride_back",
    "JP.C65_stride_zero",
    "JP.C65_piece"
   ],
   "note": "[a:b:c] with a stride so large that the slice panics is C10."
  },
  {
   "property": "C66",
   "status": "partial",
   "theorems": [
    "JP.C66_success",
    "JP.C66_rejected",
    "JP.C66_identifies",
    "JP.C66_message",
    "JP.C66_encodes_partial"
   ],
   "note": "That encoding cannot fail is proved for compiled programs of fewer than 2^22 orders (longer ones have miscompiled jumps, C03), given that encoding/json can encode what it decodes. Everything else is proved in full."
  },
  {
   "property": "C67",
   "status": "partial",
   "theorems": [
    "JP.C67_fails",
    "JP.C67_alone",
    "JP.C67_placed_partial",
    "JP.C67_same_partial",
    "JP.C67_parentheses_partial"
   ],
   "note": "False for texts that end with an escaped quote: at the end of the text that quote is also taken for the one that closes the literal. Proved for all other texts, and without exception from paths to expressions."
  },
  {
   "property": "C68",
   "status": "partial",
   "theorems": [
    "JP.C68_times_fails",
    "JP.C68_times_partial",
    "JP.C68_unions_partial",
    "JP.C68_count",
    "JP.C68_exact"
   ],
   "note": "False as stated only for the null that a filter with nothing to visit makes up, which is then the only result. The bound on the number of results holds without exception. For programs of fewer than 2^22 orders."
  },
  {
   "property": "C69",
   "status": "partial",
   "theorems": [
    "JP.C69_end_fails",
    "JP.C69_regexp_fails",
    "JP.C69_local_partial",
    "JP.C69_no_path_partial",
    "JP.C69_expression_partial"
   ],
   "note": "False in two cases: a minus sign at the end of a path is reported one byte early ($[- at the bracket, though $[-1] is a path), and an invalid regular expression is reported where it begins. Proved for all other errors; the first case is excluded by the length of the text, k+2."
  },
  {
   "property": "C70",
   "status": "proved",
   "theorems": [
    "JP.C70_start",
    "JP.C70_step",
    "JP.C70_bound",
    "JP.C70_linear"
   ],
   "note": "Counts the orders that Run executes, not the work within an order (an order may copy or walk through a value). A step that fails takes at most the number given."
  },
  {
   "property": "C71",
   "status": "partial",
   "theorems": [
    "JP.C71_results_partial",
    "JP.C71_errors_partial",
    "JP.C71_abs"
   ],
   "note": "False for abs of the least integer, which fails for an int64 and is negative for an int (C71_abs). Proved for all paths that do not call abs, and for all documents without the least integer as an int."
  },
  {
   "property": "C72",
   "status": "partial",
   "theorems": [
    "JP.C72_kid_fails",
    "JP.C72_kid_partial",
    "JP.C72_leaf",
    "JP.C72_leaf_path",
    "JP.C72_structure",
    "JP.C72_text_fails",
    "JP.C72_text_partial"
   ],
   "note": "False in two parts: Kid panics for negative numbers (C72_kid_fails), and the text of a step does not show expressions, so $[(0)] and $[(1)] have the same texts (C72_text_fails). Proved for non-negative numbers, and for paths without expressions."
  },
  {
   "property": "C73",
   "status": "partial",
   "theorems": [
    "JP.C73_current_rule_fails",
    "JP.C73_current_is_null",
    "JP.C73_length_nothing",
    "JP.C73_constant_partial",
    "JP.C73_descent"
   ],
   "note": "False without ..: there the key is computed once, with null for @, so that $[(@.length-1)] selects nothing from any document. Proved for expressions without @, and after .. for all expressions; for keys that are strings, integers or failures (C40 says what other values do)."
  },
  {
   "property": "C74",
   "status": "partial",
   "theorems": [
    "JP.C74_filter_fails",
    "JP.C74_slice_fails",
    "JP.C74_child_partial",
    "JP.C74_star_partial"
   ],
   "note": "False for filters (..[?(e)] tests the arrays and objects visited, not their children) and for slices (which discard what was selected before when they meet an object). Proved for names, integers, unions of these, and *."
  },
  {
   "property": "C75",
   "status": "partial",
   "theorems": [
    "JP.C75_lt_transitive",
    "JP.C75_lt_irreflexive",
    "JP.C75_lt_asymmetric",
    "JP.C75_eq_fails",
    "JP.C75_le_fails",
    "JP.C75_line_partial",
    "JP.C75_eq_partial",
    "JP.C75_replace_partial"
   ],
   "note": "False for == and <= between floats and integers beyond 2^53, which are rounded to floats for the comparison: 9007199254740993 == 9007199254740992.0 == 9007199254740992. Proved for integers up to 2^53 and all finite floats; < has no exceptions."
  },
  {
   "property": "C76",
   "status": "partial",
   "theorems": [
    "JP.C76_commutative",
    "JP.C76_associative_fails",
    "JP.C76_associative_partial",
    "JP.C76_distributive_fails",
    "JP.C76_distributive_partial",
    "JP.C76_subtract_fails",
    "JP.C76_subtract_partial",
    "JP.C76_division",
    "JP.C76_remainder"
   ],
   "note": "False for floats, whose results are rounded (0.1+0.2+0.3), and, for subtraction, when the least integer is taken from a float. Proved for integers and booleans, commutativity for all values, and subtraction also for all floats taken away."
  },
  {
   "property": "C77",
   "status": "proved",
   "theorems": [
    "JP.C77_results",
    "JP.C77_replace",
    "JP.C77_errors"
   ],
   "note": "For programs of fewer than 2^22 orders. The relation between scalars is arbitrary, so that it may tell their places."
  },
  {
   "property": "C78",
   "status": "partial",
   "theorems": [
    "JP.C78_meaning",
    "JP.C78_negative_fails",
    "JP.C78_slice_fails",
    "JP.C78_growth_partial",
    "JP.C78_count_partial"
   ],
   "note": "False for negative integers, which count from the end, and for slices even without negative numbers, since one that meets an object discards what was selected before. Proved for names, integers that are not negative, unions of these, and *, with or without ..."
  },
  {
   "property": "C79",
   "status": "partial",
   "theorems": [
    "JP.C79_null_fails",
    "JP.C79_mixed_fails",
    "JP.C79_characters",
    "JP.C79_clash",
    "JP.C79_strings_fails",
    "JP.C79_order_partial"
   ],
   "note": "False for null and for a string with another kind of value, where the code always answers false, and for strings that first differ in a character from U+E000 to U+FFFF and one beyond U+FFFF, where the answer is always the opposite of JavaScript's (C79_clash). Proved for all other pairs. Strings are those that are valid UTF-8."
  },
  {
   "property": "C80",
   "status": "partial",
   "theorems": [
    "JP.C80_strings_fails",
    "JP.C80_null_fails",
    "JP.C80_quotient_fails",
    "JP.C80_zero_fails",
    "JP.C80_large_fails",
    "JP.C80_integers_partial",
    "JP.C80_quotient_exact",
    "JP.C80_floats_partial"
   ],
   "note": "False for strings (+ does not join them), null, quotients of integers (7/2 is 3), zero divisors (a failure) and integers of more than 53 bits. Proved for integers and booleans of at most 53 bits with such a result, quotients being integers (of the quotients it is proved that no others agree), and for two numbers of which one is a float, divisors not being zero."
  },
  {
   "property": "C81",
   "status": "partial",
   "theorems": [
    "JP.C81_union_fails",
    "JP.C81_stride_fails",
    "JP.C81_descent_fails",
    "JP.C81_order_partial",
    "JP.C81_elements_partial"
   ],
   "note": "False for unions ($[1,0]), slices with a negative stride ($[::-1]) and descent ($..* gives what is nearer the root first). Proved for all other paths: names, indices, *, computed keys, filters and slices; only the null that a filter makes up when it has nothing to visit is no value of the document."
  },
  {
   "property": "C82",
   "status": "proved",
   "theorems": [
    "JP.C82_swap",
    "JP.C82_call_free",
    "JP.C82_literal",
    "JP.C82_regexp"
   ],
   "note": "For programs of fewer than 2^22 orders. Expressions with function calls must make the same number of calls, since the model numbers the places where map iteration may choose an order; for expressions without calls nothing more is assumed."
  },
  {
   "property": "C83",
   "status": "proved",
   "theorems": [
    "JP.C83_apart",
    "JP.C83_witness",
    "JP.C83_negative",
    "JP.C83_reads"
   ],
   "note": "C83_apart is an equivalence; C83_reads shows that every step of one name, one integer or * is read in exactly one way, so that it covers all paths of these steps."
  },
  {
   "property": "C84",
   "status": "proved",
   "theorems": [
    "JP.C84_join",
    "JP.C84_results",
    "JP.C84_below",
    "JP.C84_root_matters"
   ],
   "note": "C84_root_matters shows that the condition on $ is needed. Joined texts of at most 3*2^20 bytes, but for C84_join, which has no bound."
  },
  {
   "property": "C85",
   "status": "proved",
   "theorems": [
    "JP.C85_straight",
    "JP.C85_slim",
    "JP.C85_order_matters"
   ],
   "note": "C85_order_matters shows for *, a filter and ..* that an object with two members makes a difference."
  },
  {
   "property": "C86",
   "status": "proved",
   "theorems": [
    "JP.C86_results",
    "JP.C86_errors",
    "JP.C86_integers_matter",
    "JP.C86_filters_matter"
   ],
   "note": "C86_integers_matter shows that the condition on integers is needed, C86_filters_matter that the one on filters is."
  },
  {
   "property": "C87",
   "status": "partial",
   "theorems": [
    "JP.C87_shape_fails",
    "JP.C87_shape_partial",
    "JP.C87_unused",
    "JP.C87_size",
    "JP.C87_size_exact",
    "JP.C87_limit",
    "JP.C87_limit_exact"
   ],
   "note": "The shape is false for longer paths: a path of 3*2^20+1 bytes has a jump to a negative number and panics (C87_shape_fails, C87_limit_exact). Proved for all programs of fewer than 2^22 orders, which those of all shorter texts are (C87_limit). The bound on the size is attained for every number of steps (C87_size_exact). Nothing is missing about unused operators."
  },
  {
   "property": "C88",
   "status": "proved",
   "theorems": [
    "JP.C88_results",
    "JP.C88_errors",
    "JP.C88_truth_needed"
   ],
   "note": "C77 is the same for paths without filters, where the truth does not matter. C88_truth_needed: the truth of the values cannot be left out. Programs have fewer than 2^22 orders, as those of all texts up to 3 MB (C87)."
  },
  {
   "property": "C89",
   "status": "partial",
   "theorems": [
    "JP.C89_same_fails",
    "JP.C89_same_partial",
    "JP.C89_truth",
    "JP.C89_equal",
    "JP.C89_array",
    "JP.C89_in",
    "JP.C89_order",
    "JP.C89_arith",
    "JP.C89_neg",
    "JP.C89_neg_other",
    "JP.C89_index",
    "JP.C89_index_other",
    "JP.C89_member",
    "JP.C89_functions",
    "JP.C89_aggregates"
   ],
   "note": "False as stated: $[?(@==1)] does not select a json.Number 1 (C89_same_fails). Proved for all paths whose filters only test for presence (C89_same_partial). For the other operators the theorems say what happens instead, for all texts: json.Number values equal nothing, are not ordered, give nothing in arithmetic, and functions on numbers fail on them. Missing: filters that compare or compute (where it is false). The texts are not absurdly long (Sane)."
  },
  {
   "property": "C90",
   "status": "partial",
   "theorems": [
    "JP.C90_fails",
    "JP.C90_same",
    "JP.C90_only_partial",
    "JP.C90_transitive_fails",
    "JP.C90_transitive_partial",
    "JP.C90_in_partial"
   ],
   "note": "False as stated: {\"a\":null} == {\"b\":null} is true (C90_fails), and == is not transitive between kinds (C90_transitive_fails). That the same JSON value is equal is proved for all documents. The converse is proved for values of the same kinds throughout (SameKinds): missing are conversions between kinds (C20, C54, C57 say what they do), nulls for missing members, and integers of more than 53 bits against floats (C75), where it is false."
  },
  {
   "property": "C91",
   "status": "partial",
   "theorems": [
    "JP.C91_message",
    "JP.C91_script",
    "JP.C91_fails",
    "JP.C91_partial"
   ],
   "note": "That a character called unexpected is at the offset is false after a minus sign: $[-x] names x at the offset of the minus sign (C91_fails); C91_partial proves it for texts without minus signs and slashes. What every message says, with these exceptions spelled out, is proved for all texts (C91_message, C91_script)."
  },
  {
   "property": "C92",
   "status": "partial",
   "theorems": [
    "JP.C92_fails",
    "JP.C92_union_lost",
    "JP.C92_union_panics",
    "JP.C92_left_partial",
    "JP.C92_heights_partial",
    "JP.C92_same_partial",
    "JP.C92_most_partial",
    "JP.C92_most_exact",
    "JP.C92_ends"
   ],
   "note": "False for programs of 2^22 or more orders: a union of 2^23 elements has its count packed as 0, takes nothing from the stack and selects nothing (C92_fails, C92_union_lost). The _partial theorems hold for all smaller programs, so for all texts of at most 3 MB (C87_limit). The bound of one value for two bytes is exact (C92_most_exact)."
  },
  {
   "property": "C93",
   "status": "proved",
   "theorems": [
    "JP.C93_cut",
    "JP.C93_pieces",
    "JP.C93_compile",
    "JP.C93_results"
   ],
   "note": "C93_cut and C93_pieces are about all texts. C93_results is for programs of fewer than 2^22 orders (C87_limit: all texts of at most 3 MB); that the second part makes the result of the whole is for parts without $ in their expressions, which would stand for the document."
  },
  {
   "property": "C94",
   "status": "proved",
   "theorems": [
    "JP.C94_one",
    "JP.C94_last",
    "JP.C94_count",
    "JP.C94_none",
    "JP.C94_count_exact"
   ],
   "note": "For paths of at most 3 MB, as the statement says. C94_count_exact: the bound is met."
  },
  {
   "property": "C95",
   "status": "partial",
   "theorems": [
    "JP.C95_results_partial",
    "JP.C95_errors_partial",
    "JP.C95_division",
    "JP.C95_strings",
    "JP.C95_values",
    "JP.C95_large"
   ],
   "note": "False for all paths (C95_division, C95_strings, C95_values, C95_large: division, equality with strings of fractions, equality of values with each other, integers of 54 bits). Proved for filters that compare by order, and with literals for equality."
  },
  {
   "property": "C96",
   "status": "partial",
   "theorems": [
    "JP.C96_nodelists",
    "JP.C96_walk",
    "JP.C96_query_partial",
    "JP.C96_results_partial",
    "JP.C96_fails_wild",
    "JP.C96_fails_index",
    "JP.C96_fails_slice"
   ],
   "note": "False as stated: * beside other selectors is refused (C96_fails_wild), an index selects a member of an object named by its digits (C96_fails_index), a slice of a value that is no array drops earlier results (C96_fails_slice). Proved for all other queries and documents."
  },
  {
   "property": "C97",
   "status": "partial",
   "theorems": [
    "JP.C97_nodelists",
    "JP.C97_query_partial",
    "JP.C97_results_partial",
    "JP.C97_fails",
    "JP.C97_fails_exists",
    "JP.C97_fails_null",
    "JP.C97_fails_mixed",
    "JP.C97_fails_less",
    "JP.C97_fails_order",
    "JP.C97_fails_length",
    "JP.C97_fails_empty",
    "JP.C97_fails_descend",
    "JP.C97_fails_bare"
   ],
   "note": "False as stated: a test for existence fails for null, false, 0 and the empty string (C97_fails_exists, C97_fails); what is missing equals null (C97_fails_null); values of different types are converted (C97_fails_mixed, C97_fails_less); null <= null is false (C97_fails_order); .length is not a member (C97_fails_length); a filter over nothing is asked about null (C97_fails_empty); ..[?()] asks about the structures, not their children (C97_fails_descend); and filters without parentheses are refused (C97_fails_bare). Proved where none of these arises."
  },
  {
   "property": "C98",
   "status": "partial",
   "theorems": [
    "JP.C98_literal",
    "JP.C98_compiles_partial",
    "JP.C98_query_partial",
    "JP.C98_fails",
    "JP.C98_fails_strict",
    "JP.C98_normal_text",
    "JP.C98_normalized",
    "JP.C98_unique"
   ],
   "note": "False as stated only for the reasons of C96: * beside other selectors is refused (C98_fails), and the members and slices that C96 names. All other texts of the grammar are proved to compile to the steps for their query. Texts outside the grammar are accepted as well (C98_fails_strict). String literals and Normalized Paths are proved in full."
  },
  {
   "property": "C99",
   "status": "proved",
   "theorems": [
    "JP.C99_shuffled",
    "JP.C99_count",
    "JP.C99_atoms",
    "JP.C99_counting"
   ],
   "note": "Paths are the texts of C98 whose selectors are names or *. C99_counting shows that indices do depend on the order."
  }
 ]
}