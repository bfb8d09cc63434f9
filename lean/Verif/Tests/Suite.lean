import Verif.Tests.Support
/-! Generated from /repo/testdata/test_suite.yaml: selector, document and consensus, with the exceptions in mach/run_test.go. -/
namespace JP.Test
open JP
set_option maxRecDepth 10000
-- array_slice
#guard gives "$[1:3]" (.arr [(.str (tx "first")), (.str (tx "second")), (.str (tx "third")), (.str (tx "forth")), (.str (tx "fifth"))]) [(.str (tx "second")), (.str (tx "third"))]
-- array_slice_on_exact_match
#guard gives "$[0:5]" (.arr [(.str (tx "first")), (.str (tx "second")), (.str (tx "third")), (.str (tx "forth")), (.str (tx "fifth"))]) [(.str (tx "first")), (.str (tx "second")), (.str (tx "third")), (.str (tx "forth")), (.str (tx "fifth"))]
-- array_slice_on_non_overlapping_array
#guard gives "$[7:10]" (.arr [(.str (tx "first")), (.str (tx "second")), (.str (tx "third"))]) []
-- array_slice_on_object
#guard gives "$[1:3]" (.obj [(tx ":", (.gint (42))), (tx "more", (.str (tx "string"))), (tx "a", (.gint (1))), (tx "b", (.gint (2))), (tx "c", (.gint (3))), (tx "1:3", (.str (tx "nice")))]) []
-- array_slice_on_partially_overlapping_array
#guard gives "$[1:10]" (.arr [(.str (tx "first")), (.str (tx "second")), (.str (tx "third"))]) [(.str (tx "second")), (.str (tx "third"))]
-- array_slice_with_large_number_for_end
#guard gives "$[2:113667776004]" (.arr [(.str (tx "first")), (.str (tx "second")), (.str (tx "third")), (.str (tx "forth")), (.str (tx "fifth"))]) [(.str (tx "third")), (.str (tx "forth")), (.str (tx "fifth"))]
-- array_slice_with_large_number_for_end_and_negative_step
#guard gives "$[2:-113667776004:-1]" (.arr [(.str (tx "first")), (.str (tx "second")), (.str (tx "third")), (.str (tx "forth")), (.str (tx "fifth"))]) [(.str (tx "third")), (.str (tx "second")), (.str (tx "first"))]
-- array_slice_with_large_number_for_start
#guard gives "$[-113667776004:2]" (.arr [(.str (tx "first")), (.str (tx "second")), (.str (tx "third")), (.str (tx "forth")), (.str (tx "fifth"))]) [(.str (tx "first")), (.str (tx "second"))]
-- array_slice_with_large_number_for_start_end_negative_step
#guard gives "$[113667776004:2:-1]" (.arr [(.str (tx "first")), (.str (tx "second")), (.str (tx "third")), (.str (tx "forth")), (.str (tx "fifth"))]) [(.str (tx "fifth")), (.str (tx "forth"))]
-- array_slice_with_negative_start_and_end_and_range_of_-1
#guard gives "$[-4:-5]" (.arr [(.gint (2)), (.str (tx "a")), (.gint (4)), (.gint (5)), (.gint (100)), (.str (tx "nice"))]) []
-- array_slice_with_negative_start_and_end_and_range_of_0
#guard gives "$[-4:-4]" (.arr [(.gint (2)), (.str (tx "a")), (.gint (4)), (.gint (5)), (.gint (100)), (.str (tx "nice"))]) []
-- array_slice_with_negative_start_and_end_and_range_of_1
#guard gives "$[-4:-3]" (.arr [(.gint (2)), (.str (tx "a")), (.gint (4)), (.gint (5)), (.gint (100)), (.str (tx "nice"))]) [(.gint (4))]
-- array_slice_with_negative_start_and_positive_end_and_range_of_-1
#guard gives "$[-4:1]" (.arr [(.gint (2)), (.str (tx "a")), (.gint (4)), (.gint (5)), (.gint (100)), (.str (tx "nice"))]) []
-- array_slice_with_negative_start_and_positive_end_and_range_of_0
#guard gives "$[-4:2]" (.arr [(.gint (2)), (.str (tx "a")), (.gint (4)), (.gint (5)), (.gint (100)), (.str (tx "nice"))]) []
-- array_slice_with_negative_start_and_positive_end_and_range_of_1
#guard gives "$[-4:3]" (.arr [(.gint (2)), (.str (tx "a")), (.gint (4)), (.gint (5)), (.gint (100)), (.str (tx "nice"))]) [(.gint (4))]
-- array_slice_with_negative_step
#guard gives "$[3:0:-2]" (.arr [(.str (tx "first")), (.str (tx "second")), (.str (tx "third")), (.str (tx "forth")), (.str (tx "fifth"))]) [(.str (tx "forth")), (.str (tx "second"))]
-- array_slice_with_negative_step_and_start_greater_than_end
#guard gives "$[0:3:-2]" (.arr [(.str (tx "first")), (.str (tx "second")), (.str (tx "third")), (.str (tx "forth")), (.str (tx "fifth"))]) []
-- array_slice_with_negative_step_on_partially_overlapping_array
#guard gives "$[7:3:-1]" (.arr [(.str (tx "first")), (.str (tx "second")), (.str (tx "third")), (.str (tx "forth")), (.str (tx "fifth"))]) [(.str (tx "fifth"))]
-- array_slice_with_negative_step_only
#guard gives "$[::-2]" (.arr [(.str (tx "first")), (.str (tx "second")), (.str (tx "third")), (.str (tx "forth")), (.str (tx "fifth"))]) [(.str (tx "fifth")), (.str (tx "third")), (.str (tx "first"))]
-- array_slice_with_open_end
#guard gives "$[1:]" (.arr [(.str (tx "first")), (.str (tx "second")), (.str (tx "third")), (.str (tx "forth")), (.str (tx "fifth"))]) [(.str (tx "second")), (.str (tx "third")), (.str (tx "forth")), (.str (tx "fifth"))]
-- array_slice_with_open_end_and_negative_step
#guard gives "$[3::-1]" (.arr [(.str (tx "first")), (.str (tx "second")), (.str (tx "third")), (.str (tx "forth")), (.str (tx "fifth"))]) [(.str (tx "forth")), (.str (tx "third")), (.str (tx "second")), (.str (tx "first"))]
-- array_slice_with_open_start
#guard gives "$[:2]" (.arr [(.str (tx "first")), (.str (tx "second")), (.str (tx "third")), (.str (tx "forth")), (.str (tx "fifth"))]) [(.str (tx "first")), (.str (tx "second"))]
-- array_slice_with_open_start_and_end
#guard gives "$[:]" (.arr [(.str (tx "first")), (.str (tx "second"))]) [(.str (tx "first")), (.str (tx "second"))]
-- array_slice_with_open_start_and_end_and_step_empty
#guard gives "$[::]" (.arr [(.str (tx "first")), (.str (tx "second"))]) [(.str (tx "first")), (.str (tx "second"))]
-- array_slice_with_open_start_and_end_on_object
#guard gives "$[:]" (.obj [(tx ":", (.gint (42))), (tx "more", (.str (tx "string")))]) []
-- array_slice_with_open_start_and_negative_step
#guard gives "$[:2:-1]" (.arr [(.str (tx "first")), (.str (tx "second")), (.str (tx "third")), (.str (tx "forth")), (.str (tx "fifth"))]) [(.str (tx "fifth")), (.str (tx "forth"))]
-- array_slice_with_positive_start_and_negative_end_and_range_of_-1
#guard gives "$[3:-4]" (.arr [(.gint (2)), (.str (tx "a")), (.gint (4)), (.gint (5)), (.gint (100)), (.str (tx "nice"))]) []
-- array_slice_with_positive_start_and_negative_end_and_range_of_0
#guard gives "$[3:-3]" (.arr [(.gint (2)), (.str (tx "a")), (.gint (4)), (.gint (5)), (.gint (100)), (.str (tx "nice"))]) []
-- array_slice_with_positive_start_and_negative_end_and_range_of_1
#guard gives "$[3:-2]" (.arr [(.gint (2)), (.str (tx "a")), (.gint (4)), (.gint (5)), (.gint (100)), (.str (tx "nice"))]) [(.gint (5))]
-- array_slice_with_range_of_-1
#guard gives "$[2:1]" (.arr [(.str (tx "first")), (.str (tx "second")), (.str (tx "third")), (.str (tx "forth"))]) []
-- array_slice_with_range_of_0
#guard gives "$[0:0]" (.arr [(.str (tx "first")), (.str (tx "second"))]) []
-- array_slice_with_range_of_1
#guard gives "$[0:1]" (.arr [(.str (tx "first")), (.str (tx "second"))]) [(.str (tx "first"))]
-- array_slice_with_start_-1_and_open_end
#guard gives "$[-1:]" (.arr [(.str (tx "first")), (.str (tx "second")), (.str (tx "third"))]) [(.str (tx "third"))]
-- array_slice_with_start_-2_and_open_end
#guard gives "$[-2:]" (.arr [(.str (tx "first")), (.str (tx "second")), (.str (tx "third"))]) [(.str (tx "second")), (.str (tx "third"))]
-- array_slice_with_start_large_negative_number_and_open_end_on_short_array
#guard gives "$[-4:]" (.arr [(.str (tx "first")), (.str (tx "second")), (.str (tx "third"))]) [(.str (tx "first")), (.str (tx "second")), (.str (tx "third"))]
-- array_slice_with_step
#guard gives "$[0:3:2]" (.arr [(.str (tx "first")), (.str (tx "second")), (.str (tx "third")), (.str (tx "forth")), (.str (tx "fifth"))]) [(.str (tx "first")), (.str (tx "third"))]
-- array_slice_with_step_1
#guard gives "$[0:3:1]" (.arr [(.str (tx "first")), (.str (tx "second")), (.str (tx "third")), (.str (tx "forth")), (.str (tx "fifth"))]) [(.str (tx "first")), (.str (tx "second")), (.str (tx "third"))]
-- array_slice_with_step_but_end_not_aligned
#guard gives "$[0:4:2]" (.arr [(.str (tx "first")), (.str (tx "second")), (.str (tx "third")), (.str (tx "forth")), (.str (tx "fifth"))]) [(.str (tx "first")), (.str (tx "third"))]
-- array_slice_with_step_empty
#guard gives "$[1:3:]" (.arr [(.str (tx "first")), (.str (tx "second")), (.str (tx "third")), (.str (tx "forth")), (.str (tx "fifth"))]) [(.str (tx "second")), (.str (tx "third"))]
-- array_slice_with_step_only
#guard gives "$[::2]" (.arr [(.str (tx "first")), (.str (tx "second")), (.str (tx "third")), (.str (tx "forth")), (.str (tx "fifth"))]) [(.str (tx "first")), (.str (tx "third")), (.str (tx "fifth"))]
-- bracket_notation
#guard gives "$['key']" (.obj [(tx "key", (.str (tx "value")))]) [(.str (tx "value"))]
-- bracket_notation_after_recursive_descent
#guard gives "$..[0]" (.arr [(.str (tx "first")), (.obj [(tx "key", (.arr [(.str (tx "first nested")), (.obj [(tx "more", (.arr [(.obj [(tx "nested", (.arr [(.str (tx "deepest")), (.str (tx "second"))]))]), (.arr [(.str (tx "more")), (.str (tx "values"))])]))])]))])]) [(.str (tx "first")), (.str (tx "first nested")), (.obj [(tx "nested", (.arr [(.str (tx "deepest")), (.str (tx "second"))]))]), (.str (tx "deepest")), (.str (tx "more"))]
-- bracket_notation_on_object_without_key
#guard gives "$['missing']" (.obj [(tx "key", (.str (tx "value")))]) []
-- bracket_notation_with_NFC_path_on_NFD_key
#guard gives "$['ü']" (.obj [(tx "ü", (.gint (42)))]) []
-- bracket_notation_with_dot
#guard gives "$['two.some']" (.obj [(tx "one", (.obj [(tx "key", (.str (tx "value")))])), (tx "two", (.obj [(tx "some", (.str (tx "more"))), (tx "key", (.str (tx "other value")))])), (tx "two.some", (.str (tx "42")))]) [(.str (tx "42"))]
-- bracket_notation_with_double_quotes
#guard gives "$[\"key\"]" (.obj [(tx "key", (.str (tx "value")))]) [(.str (tx "value"))]
#guard t1 "$[]" == "!unexpected ] at offset 2"
-- bracket_notation_with_empty_string
#guard gives "$['']" (.obj [(tx "", (.gint (42))), (tx "''", (.gint (123))), (tx "\"\"", (.gint (222)))]) [(.gint (42))]
-- bracket_notation_with_empty_string_doubled_quoted
#guard gives "$[\"\"]" (.obj [(tx "", (.gint (42))), (tx "''", (.gint (123))), (tx "\"\"", (.gint (222)))]) [(.gint (42))]
-- bracket_notation_with_negative_number_on_short_array
#guard gives "$[-2]" (.arr [(.str (tx "one element"))]) []
-- bracket_notation_with_number
#guard gives "$[2]" (.arr [(.str (tx "first")), (.str (tx "second")), (.str (tx "third")), (.str (tx "forth")), (.str (tx "fifth"))]) [(.str (tx "third"))]
-- bracket_notation_with_number_-1
#guard gives "$[-1]" (.arr [(.str (tx "first")), (.str (tx "second")), (.str (tx "third"))]) [(.str (tx "third"))]
-- bracket_notation_with_number_-1_on_empty_array
#guard gives "$[-1]" (.arr []) []
-- bracket_notation_with_number_0
#guard gives "$[0]" (.arr [(.str (tx "first")), (.str (tx "second")), (.str (tx "third")), (.str (tx "forth")), (.str (tx "fifth"))]) [(.str (tx "first"))]
-- bracket_notation_with_number_after_dot_notation_with_wildcard_on_nested_arrays_with_different_length
#guard gives "$.*[1]" (.arr [(.arr [(.gint (1))]), (.arr [(.gint (2)), (.gint (3))])]) [(.gint (3))]
-- bracket_notation_with_number_on_object
#guard gives "$[0]" (.obj [(tx "0", (.str (tx "value")))]) [(.str (tx "value"))]
-- bracket_notation_with_number_on_short_array
#guard gives "$[1]" (.arr [(.str (tx "one element"))]) []
-- bracket_notation_with_number_on_string
#guard gives "$[0]" (.str (tx "Hello World")) []
-- bracket_notation_with_quoted_array_slice_literal
#guard gives "$[':']" (.obj [(tx ":", (.str (tx "value"))), (tx "another", (.str (tx "entry")))]) [(.str (tx "value"))]
-- bracket_notation_with_quoted_closing_bracket_literal
#guard gives "$[']']" (.obj [(tx "]", (.gint (42)))]) [(.gint (42))]
-- bracket_notation_with_quoted_current_object_literal
#guard gives "$['@']" (.obj [(tx "@", (.str (tx "value"))), (tx "another", (.str (tx "entry")))]) [(.str (tx "value"))]
-- bracket_notation_with_quoted_dot_literal
#guard gives "$['.']" (.obj [(tx ".", (.str (tx "value"))), (tx "another", (.str (tx "entry")))]) [(.str (tx "value"))]
-- bracket_notation_with_quoted_dot_wildcard
#guard gives "$['.*']" (.obj [(tx "key", (.gint (42))), (tx ".*", (.gint (1))), (tx "", (.gint (10)))]) [(.gint (1))]
-- bracket_notation_with_quoted_double_quote_literal
#guard gives "$['\"']" (.obj [(tx "\"", (.str (tx "value"))), (tx "another", (.str (tx "entry")))]) [(.str (tx "value"))]
-- bracket_notation_with_quoted_escaped_backslash
#guard gives "$['\\\\']" (.obj [(tx "\\", (.str (tx "value")))]) [(.str (tx "value"))]
-- bracket_notation_with_quoted_escaped_single_quote
#guard gives "$['\\'']" (.obj [(tx "'", (.str (tx "value")))]) [(.str (tx "value"))]
-- bracket_notation_with_quoted_number_on_object
#guard gives "$['0']" (.obj [(tx "0", (.str (tx "value")))]) [(.str (tx "value"))]
-- bracket_notation_with_quoted_root_literal
#guard gives "$['$']" (.obj [(tx "$", (.str (tx "value"))), (tx "another", (.str (tx "entry")))]) [(.str (tx "value"))]
-- bracket_notation_with_quoted_special_characters_combined
#guard gives "$[':@.\"$,*\\'\\\\']" (.obj [(tx ":@.\"$,*'\\", (.gint (42)))]) [(.gint (42))]
#guard t1 "$['single'quote']" == "!expected \"]\" at offset 14, got identifier"
-- bracket_notation_with_quoted_union_literal
#guard gives "$[',']" (.obj [(tx ",", (.str (tx "value"))), (tx "another", (.str (tx "entry")))]) [(.str (tx "value"))]
-- bracket_notation_with_quoted_wildcard_literal
#guard gives "$['*']" (.obj [(tx "*", (.str (tx "value"))), (tx "another", (.str (tx "entry")))]) [(.str (tx "value"))]
-- bracket_notation_with_quoted_wildcard_literal_on_object_without_key
#guard gives "$['*']" (.obj [(tx "another", (.str (tx "entry")))]) []
-- bracket_notation_with_string_including_dot_wildcard
#guard gives "$['ni.*']" (.obj [(tx "nice", (.gint (42))), (tx "ni.*", (.gint (1))), (tx "mice", (.gint (100)))]) [(.gint (1))]
#guard t1 "$['two'.'some']" == "!expected \"]\" at offset 7, got ."
#guard t1 "$[two.some]" == "!expected \"]\" at offset 5, got ."
-- bracket_notation_with_wildcard_after_array_slice
#guard gives "$[0:2][*]" (.arr [(.arr [(.gint (1)), (.gint (2))]), (.arr [(.str (tx "a")), (.str (tx "b"))]), (.arr [(.gint (0)), (.gint (0))])]) [(.gint (1)), (.gint (2)), (.str (tx "a")), (.str (tx "b"))]
-- bracket_notation_with_wildcard_after_dot_notation_after_bracket_notation_with_wildcard
#guard gives "$[*].bar[*]" (.arr [(.obj [(tx "bar", (.arr [(.gint (42))]))])]) [(.gint (42))]
-- bracket_notation_with_wildcard_after_recursive_descent
#guard gives "$..[*]" (.obj [(tx "key", (.str (tx "value"))), (tx "another key", (.obj [(tx "complex", (.str (tx "string"))), (tx "primitives", (.arr [(.gint (0)), (.gint (1))]))]))]) [(.str (tx "value")), (.obj [(tx "complex", (.str (tx "string"))), (tx "primitives", (.arr [(.gint (0)), (.gint (1))]))]), (.str (tx "string")), (.arr [(.gint (0)), (.gint (1))]), (.gint (0)), (.gint (1))]
-- bracket_notation_with_wildcard_on_array
#guard gives "$[*]" (.arr [(.str (tx "string")), (.gint (42)), (.obj [(tx "key", (.str (tx "value")))]), (.arr [(.gint (0)), (.gint (1))])]) [(.str (tx "string")), (.gint (42)), (.obj [(tx "key", (.str (tx "value")))]), (.arr [(.gint (0)), (.gint (1))])]
-- bracket_notation_with_wildcard_on_empty_array
#guard gives "$[*]" (.arr []) []
-- bracket_notation_with_wildcard_on_empty_object
#guard gives "$[*]" (.obj []) []
-- bracket_notation_with_wildcard_on_null_value_array
#guard gives "$[*]" (.arr [(.gint (40)), .null, (.gint (42))]) [(.gint (40)), .null, (.gint (42))]
-- bracket_notation_with_wildcard_on_object
#guard gives "$[*]" (.obj [(tx "some", (.str (tx "string"))), (tx "int", (.gint (42))), (tx "object", (.obj [(tx "key", (.str (tx "value")))])), (tx "array", (.arr [(.gint (0)), (.gint (1))]))]) [(.str (tx "string")), (.gint (42)), (.obj [(tx "key", (.str (tx "value")))]), (.arr [(.gint (0)), (.gint (1))])]
#guard t1 "$.['key']" == "!unexpected [ at offset 2"
#guard t1 "$.[\"key\"]" == "!unexpected [ at offset 2"
#guard t1 "$.[key]" == "!unexpected [ at offset 2"
-- dot_notation
#guard gives "$.key" (.obj [(tx "key", (.str (tx "value")))]) [(.str (tx "value"))]
-- dot_notation_after_bracket_notation_after_recursive_descent
#guard gives "$..[1].key" (.obj [(tx "k", (.arr [(.obj [(tx "key", (.str (tx "some value")))]), (.obj [(tx "key", (.gint (42)))])])), (tx "kk", (.arr [(.arr [(.obj [(tx "key", (.gint (100)))]), (.obj [(tx "key", (.gint (200)))]), (.obj [(tx "key", (.gint (300)))])]), (.arr [(.obj [(tx "key", (.gint (400)))]), (.obj [(tx "key", (.gint (500)))]), (.obj [(tx "key", (.gint (600)))])])])), (tx "key", (.arr [(.gint (0)), (.gint (1))]))]) [(.gint (42)), (.gint (200)), (.gint (500))]
-- dot_notation_after_bracket_notation_with_wildcard
#guard gives "$[*].a" (.arr [(.obj [(tx "a", (.gint (1)))]), (.obj [(tx "a", (.gint (1)))])]) [(.gint (1)), (.gint (1))]
-- dot_notation_after_bracket_notation_with_wildcard_on_one_matching
#guard gives "$[*].a" (.arr [(.obj [(tx "a", (.gint (1)))])]) [(.gint (1))]
-- dot_notation_after_bracket_notation_with_wildcard_on_some_matching
#guard gives "$[*].a" (.arr [(.obj [(tx "a", (.gint (1)))]), (.obj [(tx "b", (.gint (1)))])]) [(.gint (1))]
-- dot_notation_after_filter_expression
#guard gives "$[?(@.id==42)].name" (.arr [(.obj [(tx "id", (.gint (42))), (tx "name", (.str (tx "forty-two")))]), (.obj [(tx "id", (.gint (1))), (tx "name", (.str (tx "one")))])]) [(.str (tx "forty-two"))]
-- dot_notation_after_recursive_descent
#guard gives "$..key" (.obj [(tx "object", (.obj [(tx "key", (.str (tx "value"))), (tx "array", (.arr [(.obj [(tx "key", (.str (tx "something")))]), (.obj [(tx "key", (.obj [(tx "key", (.str (tx "russian dolls")))]))])]))])), (tx "key", (.str (tx "top")))]) [(.str (tx "top")), (.str (tx "value")), (.str (tx "something")), (.obj [(tx "key", (.str (tx "russian dolls")))]), (.str (tx "russian dolls"))]
-- dot_notation_after_recursive_descent_after_dot_notation
#guard gives "$.store..price" (.obj [(tx "store", (.obj [(tx "book", (.arr [(.obj [(tx "category", (.str (tx "reference"))), (tx "author", (.str (tx "Nigel Rees"))), (tx "title", (.str (tx "Sayings of the Century"))), (tx "price", (.float ⟨0x4021e66666666666⟩))]), (.obj [(tx "category", (.str (tx "fiction"))), (tx "author", (.str (tx "Evelyn Waugh"))), (tx "title", (.str (tx "Sword of Honour"))), (tx "price", (.float ⟨0x4029fae147ae147b⟩))]), (.obj [(tx "category", (.str (tx "fiction"))), (tx "author", (.str (tx "Herman Melville"))), (tx "title", (.str (tx "Moby Dick"))), (tx "isbn", (.str (tx "0-553-21311-3"))), (tx "price", (.float ⟨0x4021fae147ae147b⟩))]), (.obj [(tx "category", (.str (tx "fiction"))), (tx "author", (.str (tx "J. R. R. Tolkien"))), (tx "title", (.str (tx "The Lord of the Rings"))), (tx "isbn", (.str (tx "0-395-19395-8"))), (tx "price", (.float ⟨0x4036fd70a3d70a3d⟩))])])), (tx "bicycle", (.obj [(tx "color", (.str (tx "red"))), (tx "price", (.float ⟨0x4033f33333333333⟩))]))]))]) [(.float ⟨0x4021e66666666666⟩), (.float ⟨0x4029fae147ae147b⟩), (.float ⟨0x4021fae147ae147b⟩), (.float ⟨0x4036fd70a3d70a3d⟩), (.float ⟨0x4033f33333333333⟩)]
-- dot_notation_after_union
#guard gives "$[0,2].key" (.arr [(.obj [(tx "key", (.str (tx "ey")))]), (.obj [(tx "key", (.str (tx "bee")))]), (.obj [(tx "key", (.str (tx "see")))])]) [(.str (tx "ey")), (.str (tx "see"))]
-- dot_notation_after_union_with_keys
#guard gives "$['one','three'].key" (.obj [(tx "one", (.obj [(tx "key", (.str (tx "value")))])), (tx "two", (.obj [(tx "k", (.str (tx "v")))])), (tx "three", (.obj [(tx "some", (.str (tx "more"))), (tx "key", (.str (tx "other value")))]))]) [(.str (tx "value")), (.str (tx "other value"))]
-- dot_notation_on_array
#guard gives "$.key" (.arr [(.gint (0)), (.gint (1))]) []
-- dot_notation_on_array_value
#guard gives "$.key" (.obj [(tx "key", (.arr [(.str (tx "first")), (.str (tx "second"))]))]) [(.arr [(.str (tx "first")), (.str (tx "second"))])]
-- dot_notation_on_array_with_containing_object_matching_key
#guard gives "$.id" (.arr [(.obj [(tx "id", (.gint (2)))])]) []
-- dot_notation_on_empty_object_value
#guard gives "$.key" (.obj [(tx "key", (.obj []))]) [(.obj [])]
-- dot_notation_on_null_value
#guard gives "$.key" (.obj [(tx "key", .null)]) [.null]
-- dot_notation_on_object_without_key
#guard gives "$.missing" (.obj [(tx "key", (.str (tx "value")))]) []
-- dot_notation_with_dash
#guard gives "$.key-dash" (.obj [(tx "key-dash", (.str (tx "value")))]) [(.str (tx "value"))]
#guard t1 "$.\"key\"" == "!unexpected string literal at offset 6"
#guard t1 "$..\"key\"" == "!unexpected string literal at offset 7"
#guard t1 "$." == "!unexpected end of expression at offset 1"
-- dot_notation_with_key_named_in
#guard gives "$.in" (.obj [(tx "in", (.str (tx "value")))]) [(.str (tx "value"))]
-- dot_notation_with_key_named_length
#guard gives "$.length" (.obj [(tx "length", (.str (tx "value")))]) [(.str (tx "value"))]
-- dot_notation_with_key_named_length_on_array
#guard gives "$.length" (.arr [(.gint (4)), (.gint (5)), (.gint (6))]) []
-- dot_notation_with_key_named_null
#guard gives "$.null" (.obj [(tx "null", (.str (tx "value")))]) [(.str (tx "value"))]
-- dot_notation_with_key_named_true
#guard gives "$.true" (.obj [(tx "true", (.str (tx "value")))]) [(.str (tx "value"))]
#guard t1 "$.$" == "!unexpected $ at offset 2"
-- dot_notation_with_non_ASCII_key
#guard gives "$.屬性" (.obj [(tx "屬性", (.str (tx "value")))]) [(.str (tx "value"))]
-- dot_notation_with_number
#guard gives "$.2" (.arr [(.str (tx "first")), (.str (tx "second")), (.str (tx "third")), (.str (tx "forth")), (.str (tx "fifth"))]) [(.str (tx "third"))]
-- dot_notation_with_number_-1
#guard gives "$.-1" (.arr [(.str (tx "first")), (.str (tx "second")), (.str (tx "third")), (.str (tx "forth")), (.str (tx "fifth"))]) []
-- dot_notation_with_number_on_object
#guard gives "$.2" (.obj [(tx "a", (.str (tx "first"))), (tx "2", (.str (tx "second"))), (tx "b", (.str (tx "third")))]) [(.str (tx "second"))]
#guard t1 "$.'key'" == "!unexpected string literal at offset 6"
#guard t1 "$..'key'" == "!unexpected string literal at offset 7"
#guard t1 "$.'some.key'" == "!unexpected string literal at offset 11"
-- dot_notation_with_wildcard_after_dot_notation_after_dot_notation_with_wildcard
#guard gives "$.*.bar.*" (.arr [(.obj [(tx "bar", (.arr [(.gint (42))]))])]) [(.gint (42))]
-- dot_notation_with_wildcard_after_dot_notation_with_wildcard_on_nested_arrays
#guard gives "$.*.*" (.arr [(.arr [(.gint (1)), (.gint (2)), (.gint (3))]), (.arr [(.gint (4)), (.gint (5)), (.gint (6))])]) [(.gint (1)), (.gint (2)), (.gint (3)), (.gint (4)), (.gint (5)), (.gint (6))]
-- dot_notation_with_wildcard_after_recursive_descent
#guard gives "$..*" (.obj [(tx "key", (.str (tx "value"))), (tx "another key", (.obj [(tx "complex", (.str (tx "string"))), (tx "primitives", (.arr [(.gint (0)), (.gint (1))]))]))]) [(.str (tx "value")), (.obj [(tx "complex", (.str (tx "string"))), (tx "primitives", (.arr [(.gint (0)), (.gint (1))]))]), (.str (tx "string")), (.arr [(.gint (0)), (.gint (1))]), (.gint (0)), (.gint (1))]
-- dot_notation_with_wildcard_after_recursive_descent_on_null_value_array
#guard gives "$..*" (.arr [(.gint (40)), .null, (.gint (42))]) [(.gint (40)), .null, (.gint (42))]
-- dot_notation_with_wildcard_after_recursive_descent_on_scalar
#guard gives "$..*" (.gint (42)) []
-- dot_notation_with_wildcard_on_array
#guard gives "$.*" (.arr [(.str (tx "string")), (.gint (42)), (.obj [(tx "key", (.str (tx "value")))]), (.arr [(.gint (0)), (.gint (1))])]) [(.str (tx "string")), (.gint (42)), (.obj [(tx "key", (.str (tx "value")))]), (.arr [(.gint (0)), (.gint (1))])]
-- dot_notation_with_wildcard_on_empty_array
#guard gives "$.*" (.arr []) []
-- dot_notation_with_wildcard_on_empty_object
#guard gives "$.*" (.obj []) []
-- dot_notation_with_wildcard_on_object
#guard gives "$.*" (.obj [(tx "some", (.str (tx "string"))), (tx "int", (.gint (42))), (tx "object", (.obj [(tx "key", (.str (tx "value")))])), (tx "array", (.arr [(.gint (0)), (.gint (1))]))]) [(.str (tx "string")), (.gint (42)), (.obj [(tx "key", (.str (tx "value")))]), (.arr [(.gint (0)), (.gint (1))])]
#guard t1 "key" == "!expected \"$\" at offset 2, got identifier"
-- filter_expression_after_dot_notation_with_wildcard_after_recursive_descent
#guard gives "$..*[?(@.id>2)]" (.arr [(.obj [(tx "complext", (.obj [(tx "one", (.arr [(.obj [(tx "name", (.str (tx "first"))), (tx "id", (.gint (1)))]), (.obj [(tx "name", (.str (tx "next"))), (tx "id", (.gint (2)))]), (.obj [(tx "name", (.str (tx "another"))), (tx "id", (.gint (3)))]), (.obj [(tx "name", (.str (tx "more"))), (tx "id", (.gint (4)))])])), (tx "more", (.obj [(tx "name", (.str (tx "next to last"))), (tx "id", (.gint (5)))]))]))]), (.obj [(tx "name", (.str (tx "last"))), (tx "id", (.gint (6)))])]) [(.obj [(tx "name", (.str (tx "next to last"))), (tx "id", (.gint (5)))]), (.obj [(tx "name", (.str (tx "another"))), (tx "id", (.gint (3)))]), (.obj [(tx "name", (.str (tx "more"))), (tx "id", (.gint (4)))])]
-- filter_expression_after_recursive_descent: the results differ from the consensus, which mach/run_test.go only logs
#guard (evalT "$..[?(@.id==2)]" (.obj [(tx "id", (.gint (2))), (tx "more", (.arr [(.obj [(tx "id", (.gint (2)))]), (.obj [(tx "more", (.obj [(tx "id", (.gint (2)))]))]), (.obj [(tx "id", (.obj [(tx "id", (.gint (2)))]))]), (.arr [(.obj [(tx "id", (.gint (2)))])])]))])).isSome
-- filter_expression_on_object
#guard gives "$[?(@.key)]" (.obj [(tx "key", (.gint (42))), (tx "another", (.obj [(tx "key", (.gint (1)))]))]) [(.obj [(tx "key", (.gint (1)))])]
-- filter_expression_with_boolean_and_operator
#guard gives "$[?(@.key>42 && @.key<44)]" (.arr [(.obj [(tx "key", (.gint (42)))]), (.obj [(tx "key", (.gint (43)))]), (.obj [(tx "key", (.gint (44)))])]) [(.obj [(tx "key", (.gint (43)))])]
-- filter_expression_with_boolean_or_operator
#guard gives "$[?(@.key>43 || @.key<43)]" (.arr [(.obj [(tx "key", (.gint (42)))]), (.obj [(tx "key", (.gint (43)))]), (.obj [(tx "key", (.gint (44)))])]) [(.obj [(tx "key", (.gint (42)))]), (.obj [(tx "key", (.gint (44)))])]
-- filter_expression_with_bracket_notation
#guard gives "$[?(@['key']==42)]" (.arr [(.obj [(tx "key", (.gint (0)))]), (.obj [(tx "key", (.gint (42)))]), (.obj [(tx "key", (.gint (-1)))]), (.obj [(tx "key", (.gint (41)))]), (.obj [(tx "key", (.gint (43)))]), (.obj [(tx "key", (.float ⟨0x4045000346dc5d64⟩))]), (.obj [(tx "key", (.float ⟨0x4044fffcb923a29c⟩))]), (.obj [(tx "key", (.gint (100)))]), (.obj [(tx "some", (.str (tx "value")))])]) [(.obj [(tx "key", (.gint (42)))])]
-- filter_expression_with_bracket_notation_and_current_object_literal
#guard gives "$[?(@['@key']==42)]" (.arr [(.obj [(tx "@key", (.gint (0)))]), (.obj [(tx "@key", (.gint (42)))]), (.obj [(tx "key", (.gint (42)))]), (.obj [(tx "@key", (.gint (43)))]), (.obj [(tx "some", (.str (tx "value")))])]) [(.obj [(tx "@key", (.gint (42)))])]
-- filter_expression_with_bracket_notation_with_-1
#guard gives "$[?(@[-1]==2)]" (.arr [(.arr [(.gint (2)), (.gint (3))]), (.arr [(.str (tx "a"))]), (.arr [(.gint (0)), (.gint (2))]), (.arr [(.gint (2))])]) [(.arr [(.gint (0)), (.gint (2))]), (.arr [(.gint (2))])]
-- filter_expression_with_bracket_notation_with_number
#guard gives "$[?(@[1]=='b')]" (.arr [(.arr [(.str (tx "a")), (.str (tx "b"))]), (.arr [(.str (tx "x")), (.str (tx "y"))])]) [(.arr [(.str (tx "a")), (.str (tx "b"))])]
-- filter_expression_with_bracket_notation_with_number_on_object
#guard gives "$[?(@[1]=='b')]" (.obj [(tx "1", (.arr [(.str (tx "a")), (.str (tx "b"))])), (tx "2", (.arr [(.str (tx "x")), (.str (tx "y"))]))]) [(.arr [(.str (tx "a")), (.str (tx "b"))])]
-- filter_expression_with_current_object: the results differ from the consensus, which mach/run_test.go only logs
#guard (evalT "$[?(@)]" (.arr [(.str (tx "some value")), .null, (.str (tx "value")), (.gint (0)), (.gint (1)), (.gint (-1)), (.str (tx "")), (.arr []), (.obj []), (.bool false), (.bool true)])).isSome
-- filter_expression_with_different_grouped_operators
#guard gives "$[?(@.a && (@.b || @.c))]" (.arr [(.obj [(tx "a", (.bool true))]), (.obj [(tx "a", (.bool true)), (tx "b", (.bool true))]), (.obj [(tx "a", (.bool true)), (tx "b", (.bool true)), (tx "c", (.bool true))]), (.obj [(tx "b", (.bool true)), (tx "c", (.bool true))]), (.obj [(tx "a", (.bool true)), (tx "c", (.bool true))]), (.obj [(tx "c", (.bool true))]), (.obj [(tx "b", (.bool true))])]) [(.obj [(tx "a", (.bool true)), (tx "b", (.bool true))]), (.obj [(tx "a", (.bool true)), (tx "b", (.bool true)), (tx "c", (.bool true))]), (.obj [(tx "a", (.bool true)), (tx "c", (.bool true))])]
#guard t1 "$[?()]" == "!unexpected token ) in expression term"
-- filter_expression_with_equals: the results differ from the consensus, which mach/run_test.go only logs
#guard (evalT "$[?(@.key==42)]" (.arr [(.obj [(tx "key", (.gint (0)))]), (.obj [(tx "key", (.gint (42)))]), (.obj [(tx "key", (.gint (-1)))]), (.obj [(tx "key", (.gint (1)))]), (.obj [(tx "key", (.gint (41)))]), (.obj [(tx "key", (.gint (43)))]), (.obj [(tx "key", (.float ⟨0x4045000346dc5d64⟩))]), (.obj [(tx "key", (.float ⟨0x4044fffcb923a29c⟩))]), (.obj [(tx "key", (.gint (100)))]), (.obj [(tx "key", (.str (tx "some")))]), (.obj [(tx "key", (.str (tx "42")))]), (.obj [(tx "key", .null)]), (.obj [(tx "key", (.gint (420)))]), (.obj [(tx "key", (.str (tx "")))]), (.obj [(tx "key", (.obj []))]), (.obj [(tx "key", (.arr []))]), (.obj [(tx "key", (.arr [(.gint (42))]))]), (.obj [(tx "key", (.obj [(tx "key", (.gint (42)))]))]), (.obj [(tx "key", (.obj [(tx "some", (.gint (42)))]))]), (.obj [(tx "some", (.str (tx "value")))])])).isSome
#guard t1 "$[?(@[0:1]==[1])]" == "!expected \"]\" at offset 7, got unexpected character ':' at offset 7"
#guard t1 "$[?(@.*==[1,2])]" == "!expected identifier in '.' selection"
-- filter_expression_with_equals_false: the results differ from the consensus, which mach/run_test.go only logs
#guard (evalT "$[?(@.key==false)]" (.arr [(.obj [(tx "some", (.str (tx "some value")))]), (.obj [(tx "key", (.bool true))]), (.obj [(tx "key", (.bool false))]), (.obj [(tx "key", .null)]), (.obj [(tx "key", (.str (tx "value")))]), (.obj [(tx "key", (.str (tx "")))]), (.obj [(tx "key", (.gint (0)))]), (.obj [(tx "key", (.gint (1)))]), (.obj [(tx "key", (.gint (-1)))]), (.obj [(tx "key", (.gint (42)))]), (.obj [(tx "key", (.obj []))]), (.obj [(tx "key", (.arr []))])])).isSome
-- filter_expression_with_equals_null: the results differ from the consensus, which mach/run_test.go only logs
#guard (evalT "$[?(@.key==null)]" (.arr [(.obj [(tx "some", (.str (tx "some value")))]), (.obj [(tx "key", (.bool true))]), (.obj [(tx "key", (.bool false))]), (.obj [(tx "key", .null)]), (.obj [(tx "key", (.str (tx "value")))]), (.obj [(tx "key", (.str (tx "")))]), (.obj [(tx "key", (.gint (0)))]), (.obj [(tx "key", (.gint (1)))]), (.obj [(tx "key", (.gint (-1)))]), (.obj [(tx "key", (.gint (42)))]), (.obj [(tx "key", (.obj []))]), (.obj [(tx "key", (.arr []))])])).isSome
#guard t1 "$[?(@[0:1]==1)]" == "!expected \"]\" at offset 7, got unexpected character ':' at offset 7"
#guard t1 "$[?(@[*]==2)]" == "!unexpected token * in expression term"
#guard t1 "$[?(@.*==2)]" == "!expected identifier in '.' selection"
-- filter_expression_with_equals_number_with_fraction: the results differ from the consensus, which mach/run_test.go only logs
#guard (evalT "$[?(@.key==-0.123e2)]" (.arr [(.obj [(tx "key", (.float ⟨0xc02899999999999a⟩))]), (.obj [(tx "key", (.float ⟨0xbfbf7ced916872b0⟩))]), (.obj [(tx "key", (.gint (-12)))]), (.obj [(tx "key", (.float ⟨0x402899999999999a⟩))]), (.obj [(tx "key", (.gint (2)))]), (.obj [(tx "key", (.str (tx "-0.123e2")))])])).isSome
#guard t1 "$[?(@.d=={\"k\":\"v\"})]" == "!unexpected character '{' at offset 9"
-- filter_expression_with_equals_on_array_of_numbers
#guard gives "$[?(@==42)]" (.arr [(.gint (0)), (.gint (42)), (.gint (-1)), (.gint (41)), (.gint (43)), (.float ⟨0x4045000346dc5d64⟩), (.float ⟨0x4044fffcb923a29c⟩), .null, (.gint (100))]) [(.gint (42))]
-- filter_expression_with_equals_on_array_without_match
#guard gives "$[?(@.key==43)]" (.arr [(.obj [(tx "key", (.gint (42)))])]) []
-- filter_expression_with_equals_on_object
#guard gives "$[?(@.key==42)]" (.obj [(tx "a", (.obj [(tx "key", (.gint (0)))])), (tx "b", (.obj [(tx "key", (.gint (42)))])), (tx "c", (.obj [(tx "key", (.gint (-1)))])), (tx "d", (.obj [(tx "key", (.gint (41)))])), (tx "e", (.obj [(tx "key", (.gint (43)))])), (tx "f", (.obj [(tx "key", (.float ⟨0x4045000346dc5d64⟩))])), (tx "g", (.obj [(tx "key", (.float ⟨0x4044fffcb923a29c⟩))])), (tx "h", (.obj [(tx "key", (.gint (100)))])), (tx "i", (.obj [(tx "some", (.str (tx "value")))]))]) [(.obj [(tx "key", (.gint (42)))])]
-- filter_expression_with_equals_on_object_with_key_matching_query
#guard gives "$[?(@.id==2)]" (.obj [(tx "id", (.gint (2)))]) []
-- filter_expression_with_equals_string: the results differ from the consensus, which mach/run_test.go only logs
#guard (evalT "$[?(@.key==\"value\")]" (.arr [(.obj [(tx "key", (.str (tx "some")))]), (.obj [(tx "key", (.str (tx "value")))]), (.obj [(tx "key", .null)]), (.obj [(tx "key", (.gint (0)))]), (.obj [(tx "key", (.gint (1)))]), (.obj [(tx "key", (.gint (-1)))]), (.obj [(tx "key", (.str (tx "")))]), (.obj [(tx "key", (.obj []))]), (.obj [(tx "key", (.arr []))]), (.obj [(tx "key", (.str (tx "valuemore")))]), (.obj [(tx "key", (.str (tx "morevalue")))]), (.obj [(tx "key", (.arr [(.str (tx "value"))]))]), (.obj [(tx "key", (.obj [(tx "some", (.str (tx "value")))]))]), (.obj [(tx "key", (.obj [(tx "key", (.str (tx "value")))]))]), (.obj [(tx "some", (.str (tx "value")))])])).isSome
-- filter_expression_with_equals_string_with_current_object_literal
#guard gives "$[?(@.key==\"hi@example.com\")]" (.arr [(.obj [(tx "key", (.str (tx "some")))]), (.obj [(tx "key", (.str (tx "value")))]), (.obj [(tx "key", (.str (tx "hi@example.com")))])]) [(.obj [(tx "key", (.str (tx "hi@example.com")))])]
-- filter_expression_with_equals_string_with_dot_literal
#guard gives "$[?(@.key==\"some.value\")]" (.arr [(.obj [(tx "key", (.str (tx "some")))]), (.obj [(tx "key", (.str (tx "value")))]), (.obj [(tx "key", (.str (tx "some.value")))])]) [(.obj [(tx "key", (.str (tx "some.value")))])]
-- filter_expression_with_equals_string_with_single_quotes
#guard gives "$[?(@.key=='value')]" (.arr [(.obj [(tx "key", (.str (tx "some")))]), (.obj [(tx "key", (.str (tx "value")))])]) [(.obj [(tx "key", (.str (tx "value")))])]
-- filter_expression_with_equals_true: the results differ from the consensus, which mach/run_test.go only logs
#guard (evalT "$[?(@.key==true)]" (.arr [(.obj [(tx "some", (.str (tx "some value")))]), (.obj [(tx "key", (.bool true))]), (.obj [(tx "key", (.bool false))]), (.obj [(tx "key", .null)]), (.obj [(tx "key", (.str (tx "value")))]), (.obj [(tx "key", (.str (tx "")))]), (.obj [(tx "key", (.gint (0)))]), (.obj [(tx "key", (.gint (1)))]), (.obj [(tx "key", (.gint (-1)))]), (.obj [(tx "key", (.gint (42)))]), (.obj [(tx "key", (.obj []))]), (.obj [(tx "key", (.arr []))])])).isSome
-- filter_expression_with_equals_with_root_reference
#guard gives "$.items[?(@.key==$.value)]" (.obj [(tx "value", (.gint (42))), (tx "items", (.arr [(.obj [(tx "key", (.gint (10)))]), (.obj [(tx "key", (.gint (42)))]), (.obj [(tx "key", (.gint (50)))])]))]) [(.obj [(tx "key", (.gint (42)))])]
-- filter_expression_with_greater_than
#guard gives "$[?(@.key>42)]" (.arr [(.obj [(tx "key", (.gint (0)))]), (.obj [(tx "key", (.gint (42)))]), (.obj [(tx "key", (.gint (-1)))]), (.obj [(tx "key", (.gint (41)))]), (.obj [(tx "key", (.gint (43)))]), (.obj [(tx "key", (.float ⟨0x4045000346dc5d64⟩))]), (.obj [(tx "key", (.float ⟨0x4044fffcb923a29c⟩))]), (.obj [(tx "key", (.gint (100)))]), (.obj [(tx "key", (.str (tx "43")))]), (.obj [(tx "key", (.str (tx "42")))]), (.obj [(tx "key", (.str (tx "41")))]), (.obj [(tx "key", (.str (tx "value")))]), (.obj [(tx "some", (.str (tx "value")))])]) [(.obj [(tx "key", (.gint (43)))]), (.obj [(tx "key", (.float ⟨0x4045000346dc5d64⟩))]), (.obj [(tx "key", (.gint (100)))])]
-- filter_expression_with_greater_than_or_equal
#guard gives "$[?(@.key>=42)]" (.arr [(.obj [(tx "key", (.gint (0)))]), (.obj [(tx "key", (.gint (42)))]), (.obj [(tx "key", (.gint (-1)))]), (.obj [(tx "key", (.gint (41)))]), (.obj [(tx "key", (.gint (43)))]), (.obj [(tx "key", (.float ⟨0x4045000346dc5d64⟩))]), (.obj [(tx "key", (.float ⟨0x4044fffcb923a29c⟩))]), (.obj [(tx "key", (.gint (100)))]), (.obj [(tx "key", (.str (tx "43")))]), (.obj [(tx "key", (.str (tx "42")))]), (.obj [(tx "key", (.str (tx "41")))]), (.obj [(tx "key", (.str (tx "value")))]), (.obj [(tx "some", (.str (tx "value")))])]) [(.obj [(tx "key", (.gint (42)))]), (.obj [(tx "key", (.gint (43)))]), (.obj [(tx "key", (.float ⟨0x4045000346dc5d64⟩))]), (.obj [(tx "key", (.gint (100)))])]
#guard (evalT "$[?(@.d in [2, 3])]" (.arr [(.obj [(tx "d", (.gint (1)))]), (.obj [(tx "d", (.gint (2)))]), (.obj [(tx "d", (.gint (1)))]), (.obj [(tx "d", (.gint (3)))]), (.obj [(tx "d", (.gint (4)))])])).isSome
#guard (evalT "$[?(2 in @.d)]" (.arr [(.obj [(tx "d", (.arr [(.gint (1)), (.gint (2)), (.gint (3))]))]), (.obj [(tx "d", (.arr [(.gint (2))]))]), (.obj [(tx "d", (.arr [(.gint (1))]))]), (.obj [(tx "d", (.arr [(.gint (3)), (.gint (4))]))]), (.obj [(tx "d", (.arr [(.gint (4)), (.gint (2))]))])])).isSome
-- filter_expression_with_less_than
#guard gives "$[?(@.key<42)]" (.arr [(.obj [(tx "key", (.gint (0)))]), (.obj [(tx "key", (.gint (42)))]), (.obj [(tx "key", (.gint (-1)))]), (.obj [(tx "key", (.gint (41)))]), (.obj [(tx "key", (.gint (43)))]), (.obj [(tx "key", (.float ⟨0x4045000346dc5d64⟩))]), (.obj [(tx "key", (.float ⟨0x4044fffcb923a29c⟩))]), (.obj [(tx "key", (.gint (100)))]), (.obj [(tx "key", (.str (tx "43")))]), (.obj [(tx "key", (.str (tx "42")))]), (.obj [(tx "key", (.str (tx "41")))]), (.obj [(tx "key", (.str (tx "value")))]), (.obj [(tx "some", (.str (tx "value")))])]) [(.obj [(tx "key", (.gint (0)))]), (.obj [(tx "key", (.gint (-1)))]), (.obj [(tx "key", (.gint (41)))]), (.obj [(tx "key", (.float ⟨0x4044fffcb923a29c⟩))])]
-- filter_expression_with_less_than_or_equal
#guard gives "$[?(@.key<=42)]" (.arr [(.obj [(tx "key", (.gint (0)))]), (.obj [(tx "key", (.gint (42)))]), (.obj [(tx "key", (.gint (-1)))]), (.obj [(tx "key", (.gint (41)))]), (.obj [(tx "key", (.gint (43)))]), (.obj [(tx "key", (.float ⟨0x4045000346dc5d64⟩))]), (.obj [(tx "key", (.float ⟨0x4044fffcb923a29c⟩))]), (.obj [(tx "key", (.gint (100)))]), (.obj [(tx "key", (.str (tx "43")))]), (.obj [(tx "key", (.str (tx "42")))]), (.obj [(tx "key", (.str (tx "41")))]), (.obj [(tx "key", (.str (tx "value")))]), (.obj [(tx "some", (.str (tx "value")))])]) [(.obj [(tx "key", (.gint (0)))]), (.obj [(tx "key", (.gint (42)))]), (.obj [(tx "key", (.gint (-1)))]), (.obj [(tx "key", (.gint (41)))]), (.obj [(tx "key", (.float ⟨0x4044fffcb923a29c⟩))])]
-- filter_expression_with_negation_and_equals: the results differ from the consensus, which mach/run_test.go only logs
#guard (evalT "$[?(!(@.key==42))]" (.arr [(.obj [(tx "key", (.gint (0)))]), (.obj [(tx "key", (.gint (42)))]), (.obj [(tx "key", (.gint (-1)))]), (.obj [(tx "key", (.gint (41)))]), (.obj [(tx "key", (.gint (43)))]), (.obj [(tx "key", (.float ⟨0x4045000346dc5d64⟩))]), (.obj [(tx "key", (.float ⟨0x4044fffcb923a29c⟩))]), (.obj [(tx "key", (.gint (100)))]), (.obj [(tx "key", (.str (tx "43")))]), (.obj [(tx "key", (.str (tx "42")))]), (.obj [(tx "key", (.str (tx "41")))]), (.obj [(tx "key", (.str (tx "value")))]), (.obj [(tx "some", (.str (tx "value")))])])).isSome
-- filter_expression_with_negation_and_less_than
#guard gives "$[?(!(@.key<42))]" (.arr [(.obj [(tx "key", (.gint (0)))]), (.obj [(tx "key", (.gint (42)))]), (.obj [(tx "key", (.gint (-1)))]), (.obj [(tx "key", (.gint (41)))]), (.obj [(tx "key", (.gint (43)))]), (.obj [(tx "key", (.float ⟨0x4045000346dc5d64⟩))]), (.obj [(tx "key", (.float ⟨0x4044fffcb923a29c⟩))]), (.obj [(tx "key", (.gint (100)))]), (.obj [(tx "key", (.str (tx "43")))]), (.obj [(tx "key", (.str (tx "42")))]), (.obj [(tx "key", (.str (tx "41")))]), (.obj [(tx "key", (.str (tx "value")))]), (.obj [(tx "some", (.str (tx "value")))])]) [(.obj [(tx "key", (.gint (42)))]), (.obj [(tx "key", (.gint (43)))]), (.obj [(tx "key", (.float ⟨0x4045000346dc5d64⟩))]), (.obj [(tx "key", (.gint (100)))]), (.obj [(tx "key", (.str (tx "43")))]), (.obj [(tx "key", (.str (tx "42")))]), (.obj [(tx "key", (.str (tx "41")))]), (.obj [(tx "key", (.str (tx "value")))]), (.obj [(tx "some", (.str (tx "value")))])]
-- filter_expression_with_not_equals: the results differ from the consensus, which mach/run_test.go only logs
#guard (evalT "$[?(@.key!=42)]" (.arr [(.obj [(tx "key", (.gint (0)))]), (.obj [(tx "key", (.gint (42)))]), (.obj [(tx "key", (.gint (-1)))]), (.obj [(tx "key", (.gint (1)))]), (.obj [(tx "key", (.gint (41)))]), (.obj [(tx "key", (.gint (43)))]), (.obj [(tx "key", (.float ⟨0x4045000346dc5d64⟩))]), (.obj [(tx "key", (.float ⟨0x4044fffcb923a29c⟩))]), (.obj [(tx "key", (.gint (100)))]), (.obj [(tx "key", (.str (tx "some")))]), (.obj [(tx "key", (.str (tx "42")))]), (.obj [(tx "key", .null)]), (.obj [(tx "key", (.gint (420)))]), (.obj [(tx "key", (.str (tx "")))]), (.obj [(tx "key", (.obj []))]), (.obj [(tx "key", (.arr []))]), (.obj [(tx "key", (.arr [(.gint (42))]))]), (.obj [(tx "key", (.obj [(tx "key", (.gint (42)))]))]), (.obj [(tx "key", (.obj [(tx "some", (.gint (42)))]))]), (.obj [(tx "some", (.str (tx "value")))])])).isSome
#guard (evalT "$[?(@.name=~/hello.*/)]" (.arr [(.obj [(tx "name", (.str (tx "hullo world")))]), (.obj [(tx "name", (.str (tx "hello world")))]), (.obj [(tx "name", (.str (tx "yes hello world")))]), (.obj [(tx "name", (.str (tx "HELLO WORLD")))]), (.obj [(tx "name", (.str (tx "good bye")))])])).isSome
#guard t1 "$[?(@.key=42)]" == "!expected \")\" at offset 9, got ="
#guard t1 "$[?(@.a[?(@.price>10)])]" == "!unexpected character '?' at offset 8"
-- filter_expression_with_subpaths
#guard gives "$[?(@.address.city=='Berlin')]" (.arr [(.obj [(tx "address", (.obj [(tx "city", (.str (tx "Berlin")))]))]), (.obj [(tx "address", (.obj [(tx "city", (.str (tx "London")))]))])]) [(.obj [(tx "address", (.obj [(tx "city", (.str (tx "Berlin")))]))])]
-- filter_expression_with_subtraction
#guard gives "$[?(@.key-50==-100)]" (.arr [(.obj [(tx "key", (.gint (60)))]), (.obj [(tx "key", (.gint (50)))]), (.obj [(tx "key", (.gint (10)))]), (.obj [(tx "key", (.gint (-50)))]), (.obj [(tx "key-50", (.gint (-100)))])]) [(.obj [(tx "key", (.gint (-50)))])]
-- filter_expression_with_tautological_comparison
#guard gives "$[?(1==1)]" (.arr [(.gint (1)), (.gint (3)), (.str (tx "nice")), (.bool true), .null, (.bool false), (.obj []), (.arr []), (.gint (-1)), (.gint (0)), (.str (tx ""))]) [(.gint (1)), (.gint (3)), (.str (tx "nice")), (.bool true), .null, (.bool false), (.obj []), (.arr []), (.gint (-1)), (.gint (0)), (.str (tx ""))]
#guard t1 "$[?(@.key===42)]" == "!unexpected token = in expression term"
-- filter_expression_with_value: the results differ from the consensus, which mach/run_test.go only logs
#guard (evalT "$[?(@.key)]" (.arr [(.obj [(tx "some", (.str (tx "some value")))]), (.obj [(tx "key", (.bool true))]), (.obj [(tx "key", (.bool false))]), (.obj [(tx "key", .null)]), (.obj [(tx "key", (.str (tx "value")))]), (.obj [(tx "key", (.str (tx "")))]), (.obj [(tx "key", (.gint (0)))]), (.obj [(tx "key", (.gint (1)))]), (.obj [(tx "key", (.gint (-1)))]), (.obj [(tx "key", (.gint (42)))]), (.obj [(tx "key", (.obj []))]), (.obj [(tx "key", (.arr []))])])).isSome
-- filter_expression_with_value_after_recursive_descent: the results differ from the consensus, which mach/run_test.go only logs
#guard (evalT "$..[?(@.id)]" (.obj [(tx "id", (.gint (2))), (tx "more", (.arr [(.obj [(tx "id", (.gint (2)))]), (.obj [(tx "more", (.obj [(tx "id", (.gint (2)))]))]), (.obj [(tx "id", (.obj [(tx "id", (.gint (2)))]))]), (.arr [(.obj [(tx "id", (.gint (2)))])])]))])).isSome
#guard t1 "$[?@.key==42]" == "!unexpected char '@' after '(' at offset 2"
-- filter_expression_without_value: the results differ from the consensus, which mach/run_test.go only logs
#guard (evalT "$[?(!@.key)]" (.arr [(.obj [(tx "some", (.str (tx "some value")))]), (.obj [(tx "key", (.bool true))]), (.obj [(tx "key", (.bool false))]), (.obj [(tx "key", .null)]), (.obj [(tx "key", (.str (tx "value")))]), (.obj [(tx "key", (.str (tx "")))]), (.obj [(tx "key", (.gint (0)))]), (.obj [(tx "key", (.gint (1)))]), (.obj [(tx "key", (.gint (-1)))]), (.obj [(tx "key", (.gint (42)))]), (.obj [(tx "key", (.obj []))]), (.obj [(tx "key", (.arr []))])])).isSome
#guard t1 "$(key,more)" == "!unexpected token ("
#guard t1 "$.." == "!unexpected end of expression at offset 2"
#guard t1 "$.key.." == "!unexpected end of expression at offset 6"
-- root
#guard gives "$" (.obj [(tx "key", (.str (tx "value"))), (tx "another key", (.obj [(tx "complex", (.arr [(.str (tx "a")), (.gint (1))]))]))]) [(.obj [(tx "another key", (.obj [(tx "complex", (.arr [(.str (tx "a")), (.gint (1))]))])), (tx "key", (.str (tx "value")))])]
-- root_on_scalar
#guard gives "$" (.gint (42)) [(.gint (42))]
-- root_on_scalar_false
#guard gives "$" (.bool false) [(.bool false)]
-- root_on_scalar_true
#guard gives "$" (.bool true) [(.bool true)]
#guard (evalT "$[(@.length-1)]" (.arr [(.str (tx "first")), (.str (tx "second")), (.str (tx "third")), (.str (tx "forth")), (.str (tx "fifth"))])).isSome
-- union
#guard gives "$[0,1]" (.arr [(.str (tx "first")), (.str (tx "second")), (.str (tx "third"))]) [(.str (tx "first")), (.str (tx "second"))]
#guard t1 "$[?(@.key<3),?(@.key>6)]" == "!?(filter) cannot be in a union element list"
-- union_with_keys
#guard gives "$['key','another']" (.obj [(tx "key", (.str (tx "value"))), (tx "another", (.str (tx "entry")))]) [(.str (tx "value")), (.str (tx "entry"))]
-- union_with_keys_after_array_slice
#guard gives "$[:]['c','d']" (.arr [(.obj [(tx "c", (.str (tx "cc1"))), (tx "d", (.str (tx "dd1"))), (tx "e", (.str (tx "ee1")))]), (.obj [(tx "c", (.str (tx "cc2"))), (tx "d", (.str (tx "dd2"))), (tx "e", (.str (tx "ee2")))])]) [(.str (tx "cc1")), (.str (tx "dd1")), (.str (tx "cc2")), (.str (tx "dd2"))]
-- union_with_keys_after_bracket_notation
#guard gives "$[0]['c','d']" (.arr [(.obj [(tx "c", (.str (tx "cc1"))), (tx "d", (.str (tx "dd1"))), (tx "e", (.str (tx "ee1")))]), (.obj [(tx "c", (.str (tx "cc2"))), (tx "d", (.str (tx "dd2"))), (tx "e", (.str (tx "ee2")))])]) [(.str (tx "cc1")), (.str (tx "dd1"))]
-- union_with_keys_after_dot_notation_with_wildcard
#guard gives "$.*['c','d']" (.arr [(.obj [(tx "c", (.str (tx "cc1"))), (tx "d", (.str (tx "dd1"))), (tx "e", (.str (tx "ee1")))]), (.obj [(tx "c", (.str (tx "cc2"))), (tx "d", (.str (tx "dd2"))), (tx "e", (.str (tx "ee2")))])]) [(.str (tx "cc1")), (.str (tx "dd1")), (.str (tx "cc2")), (.str (tx "dd2"))]
-- union_with_keys_on_object_without_key
#guard gives "$['missing','key']" (.obj [(tx "key", (.str (tx "value"))), (tx "another", (.str (tx "entry")))]) [(.str (tx "value"))]
-- union_with_numbers_in_decreasing_order
#guard gives "$[4,1]" (.arr [(.gint (1)), (.gint (2)), (.gint (3)), (.gint (4)), (.gint (5))]) [(.gint (5)), (.gint (2))]
-- union_with_slice_and_number
#guard gives "$[1:3,4]" (.arr [(.gint (1)), (.gint (2)), (.gint (3)), (.gint (4)), (.gint (5))]) [(.gint (2)), (.gint (3)), (.gint (5))]
-- union_with_spaces
#guard gives "$[ 0 , 1 ]" (.arr [(.str (tx "first")), (.str (tx "second")), (.str (tx "third"))]) [(.str (tx "first")), (.str (tx "second"))]
#guard t1 "$[*,1]" == "!* cannot be in a union element list"
end JP.Test
