import Verif.Spec.Jems

/-! # The JSON test files of the repository, read by the reader of the specification

Generated by tools/jsontests.py from /repo/test/json_test_files (JSONTestSuite).  These are tests of
`Spec.read`, which C56 and others use to say that emitted text is well-formed JSON: it rejects every file
that is not JSON (`n_…`), and accepts every file that is (`y_…`) except the files with exponents, with
characters that are not ASCII, or with escapes of characters above 255, which mu_jems cannot emit and the reader rejects or
reads differently.  The two files of more than 2000 bytes are instances of `reject_open_arrays` and
`reject_open_array_objects`. -/

namespace Mu.UnitTests.Json
open Mu.Jems.Spec

/-! ## Files that are not JSON -/

/-- n_array_1_true_without_comma.json -/
example : (read
    [91, 49, 32, 116, 114, 117, 101, 93]).isNone = true := by decide +kernel

/-- n_array_a_invalid_utf8.json -/
example : (read
    [91, 97, 229, 93]).isNone = true := by decide +kernel

/-- n_array_colon_instead_of_comma.json -/
example : (read
    [91, 34, 34, 58, 32, 49, 93]).isNone = true := by decide +kernel

/-- n_array_comma_after_close.json -/
example : (read
    [91, 34, 34, 93, 44]).isNone = true := by decide +kernel

/-- n_array_comma_and_number.json -/
example : (read
    [91, 44, 49, 93]).isNone = true := by decide +kernel

/-- n_array_double_comma.json -/
example : (read
    [91, 49, 44, 44, 50, 93]).isNone = true := by decide +kernel

/-- n_array_double_extra_comma.json -/
example : (read
    [91, 34, 120, 34, 44, 44, 93]).isNone = true := by decide +kernel

/-- n_array_extra_close.json -/
example : (read
    [91, 34, 120, 34, 93, 93]).isNone = true := by decide +kernel

/-- n_array_extra_comma.json -/
example : (read
    [91, 34, 34, 44, 93]).isNone = true := by decide +kernel

/-- n_array_incomplete.json -/
example : (read
    [91, 34, 120, 34]).isNone = true := by decide +kernel

/-- n_array_incomplete_invalid_value.json -/
example : (read
    [91, 120]).isNone = true := by decide +kernel

/-- n_array_inner_array_no_comma.json -/
example : (read
    [91, 51, 91, 52, 93, 93]).isNone = true := by decide +kernel

/-- n_array_invalid_utf8.json -/
example : (read
    [91, 255, 93]).isNone = true := by decide +kernel

/-- n_array_items_separated_by_semicolon.json -/
example : (read
    [91, 49, 58, 50, 93]).isNone = true := by decide +kernel

/-- n_array_just_comma.json -/
example : (read
    [91, 44, 93]).isNone = true := by decide +kernel

/-- n_array_just_minus.json -/
example : (read
    [91, 45, 93]).isNone = true := by decide +kernel

/-- n_array_missing_value.json -/
example : (read
    [91, 32, 32, 32, 44, 32, 34, 34, 93]).isNone = true := by decide +kernel

/-- n_array_newlines_unclosed.json -/
example : (read
    [91, 34, 97, 34, 44, 10, 52, 10, 44, 49, 44]).isNone = true := by decide +kernel

/-- n_array_number_and_comma.json -/
example : (read
    [91, 49, 44, 93]).isNone = true := by decide +kernel

/-- n_array_number_and_several_commas.json -/
example : (read
    [91, 49, 44, 44, 93]).isNone = true := by decide +kernel

/-- n_array_spaces_vertical_tab_formfeed.json -/
example : (read
    [91, 34, 11, 97, 34, 92, 102, 93]).isNone = true := by decide +kernel

/-- n_array_star_inside.json -/
example : (read
    [91, 42, 93]).isNone = true := by decide +kernel

/-- n_array_unclosed.json -/
example : (read
    [91, 34, 34]).isNone = true := by decide +kernel

/-- n_array_unclosed_trailing_comma.json -/
example : (read
    [91, 49, 44]).isNone = true := by decide +kernel

/-- n_array_unclosed_with_new_lines.json -/
example : (read
    [91, 49, 44, 10, 49, 10, 44, 49]).isNone = true := by decide +kernel

/-- n_array_unclosed_with_object_inside.json -/
example : (read
    [91, 123, 125]).isNone = true := by decide +kernel

/-- n_incomplete_false.json -/
example : (read
    [91, 102, 97, 108, 115, 93]).isNone = true := by decide +kernel

/-- n_incomplete_null.json -/
example : (read
    [91, 110, 117, 108, 93]).isNone = true := by decide +kernel

/-- n_incomplete_true.json -/
example : (read
    [91, 116, 114, 117, 93]).isNone = true := by decide +kernel

/-- n_multidigit_number_then_00.json -/
example : (read
    [49, 50, 51, 0]).isNone = true := by decide +kernel

/-- n_number_++.json -/
example : (read
    [91, 43, 43, 49, 50, 51, 52, 93]).isNone = true := by decide +kernel

/-- n_number_+1.json -/
example : (read
    [91, 43, 49, 93]).isNone = true := by decide +kernel

/-- n_number_+Inf.json -/
example : (read
    [91, 43, 73, 110, 102, 93]).isNone = true := by decide +kernel

/-- n_number_-01.json -/
example : (read
    [91, 45, 48, 49, 93]).isNone = true := by decide +kernel

/-- n_number_-1.0..json -/
example : (read
    [91, 45, 49, 46, 48, 46, 93]).isNone = true := by decide +kernel

/-- n_number_-2..json -/
example : (read
    [91, 45, 50, 46, 93]).isNone = true := by decide +kernel

/-- n_number_-NaN.json -/
example : (read
    [91, 45, 78, 97, 78, 93]).isNone = true := by decide +kernel

/-- n_number_.-1.json -/
example : (read
    [91, 46, 45, 49, 93]).isNone = true := by decide +kernel

/-- n_number_.2e-3.json -/
example : (read
    [91, 46, 50, 101, 45, 51, 93]).isNone = true := by decide +kernel

/-- n_number_0.1.2.json -/
example : (read
    [91, 48, 46, 49, 46, 50, 93]).isNone = true := by decide +kernel

/-- n_number_0.3e+.json -/
example : (read
    [91, 48, 46, 51, 101, 43, 93]).isNone = true := by decide +kernel

/-- n_number_0.3e.json -/
example : (read
    [91, 48, 46, 51, 101, 93]).isNone = true := by decide +kernel

/-- n_number_0.e1.json -/
example : (read
    [91, 48, 46, 101, 49, 93]).isNone = true := by decide +kernel

/-- n_number_0_capital_E+.json -/
example : (read
    [91, 48, 69, 43, 93]).isNone = true := by decide +kernel

/-- n_number_0_capital_E.json -/
example : (read
    [91, 48, 69, 93]).isNone = true := by decide +kernel

/-- n_number_0e+.json -/
example : (read
    [91, 48, 101, 43, 93]).isNone = true := by decide +kernel

/-- n_number_0e.json -/
example : (read
    [91, 48, 101, 93]).isNone = true := by decide +kernel

/-- n_number_1.0e+.json -/
example : (read
    [91, 49, 46, 48, 101, 43, 93]).isNone = true := by decide +kernel

/-- n_number_1.0e-.json -/
example : (read
    [91, 49, 46, 48, 101, 45, 93]).isNone = true := by decide +kernel

/-- n_number_1.0e.json -/
example : (read
    [91, 49, 46, 48, 101, 93]).isNone = true := by decide +kernel

/-- n_number_1_000.json -/
example : (read
    [91, 49, 32, 48, 48, 48, 46, 48, 93]).isNone = true := by decide +kernel

/-- n_number_1eE2.json -/
example : (read
    [91, 49, 101, 69, 50, 93]).isNone = true := by decide +kernel

/-- n_number_2.e+3.json -/
example : (read
    [91, 50, 46, 101, 43, 51, 93]).isNone = true := by decide +kernel

/-- n_number_2.e-3.json -/
example : (read
    [91, 50, 46, 101, 45, 51, 93]).isNone = true := by decide +kernel

/-- n_number_2.e3.json -/
example : (read
    [91, 50, 46, 101, 51, 93]).isNone = true := by decide +kernel

/-- n_number_9.e+.json -/
example : (read
    [91, 57, 46, 101, 43, 93]).isNone = true := by decide +kernel

/-- n_number_Inf.json -/
example : (read
    [91, 73, 110, 102, 93]).isNone = true := by decide +kernel

/-- n_number_NaN.json -/
example : (read
    [91, 78, 97, 78, 93]).isNone = true := by decide +kernel

/-- n_number_U+FF11_fullwidth_digit_one.json -/
example : (read
    [91, 239, 188, 145, 93]).isNone = true := by decide +kernel

/-- n_number_expression.json -/
example : (read
    [91, 49, 43, 50, 93]).isNone = true := by decide +kernel

/-- n_number_hex_1_digit.json -/
example : (read
    [91, 48, 120, 49, 93]).isNone = true := by decide +kernel

/-- n_number_hex_2_digits.json -/
example : (read
    [91, 48, 120, 52, 50, 93]).isNone = true := by decide +kernel

/-- n_number_infinity.json -/
example : (read
    [91, 73, 110, 102, 105, 110, 105, 116, 121, 93]).isNone = true := by decide +kernel

/-- n_number_invalid+-.json -/
example : (read
    [91, 48, 101, 43, 45, 49, 93]).isNone = true := by decide +kernel

/-- n_number_invalid-negative-real.json -/
example : (read
    [91, 45, 49, 50, 51, 46, 49, 50, 51, 102, 111, 111, 93]).isNone = true := by decide +kernel

/-- n_number_invalid-utf-8-in-bigger-int.json -/
example : (read
    [91, 49, 50, 51, 229, 93]).isNone = true := by decide +kernel

/-- n_number_invalid-utf-8-in-exponent.json -/
example : (read
    [91, 49, 101, 49, 229, 93]).isNone = true := by decide +kernel

/-- n_number_invalid-utf-8-in-int.json -/
example : (read
    [91, 48, 229, 93, 10]).isNone = true := by decide +kernel

/-- n_number_minus_infinity.json -/
example : (read
    [91, 45, 73, 110, 102, 105, 110, 105, 116, 121, 93]).isNone = true := by decide +kernel

/-- n_number_minus_sign_with_trailing_garbage.json -/
example : (read
    [91, 45, 102, 111, 111, 93]).isNone = true := by decide +kernel

/-- n_number_minus_space_1.json -/
example : (read
    [91, 45, 32, 49, 93]).isNone = true := by decide +kernel

/-- n_number_neg_int_starting_with_zero.json -/
example : (read
    [91, 45, 48, 49, 50, 93]).isNone = true := by decide +kernel

/-- n_number_neg_real_without_int_part.json -/
example : (read
    [91, 45, 46, 49, 50, 51, 93]).isNone = true := by decide +kernel

/-- n_number_neg_with_garbage_at_end.json -/
example : (read
    [91, 45, 49, 120, 93]).isNone = true := by decide +kernel

/-- n_number_real_garbage_after_e.json -/
example : (read
    [91, 49, 101, 97, 93]).isNone = true := by decide +kernel

/-- n_number_real_with_invalid_utf8_after_e.json -/
example : (read
    [91, 49, 101, 229, 93]).isNone = true := by decide +kernel

/-- n_number_real_without_fractional_part.json -/
example : (read
    [91, 49, 46, 93]).isNone = true := by decide +kernel

/-- n_number_starting_with_dot.json -/
example : (read
    [91, 46, 49, 50, 51, 93]).isNone = true := by decide +kernel

/-- n_number_with_alpha.json -/
example : (read
    [91, 49, 46, 50, 97, 45, 51, 93]).isNone = true := by decide +kernel

/-- n_number_with_alpha_char.json -/
example : (read
    [91, 49, 46, 56, 48, 49, 49, 54, 55, 48, 48, 51, 51, 51, 55, 54, 53, 49, 52, 72, 45, 51, 48,
    56, 93]).isNone = true := by decide +kernel

/-- n_number_with_leading_zero.json -/
example : (read
    [91, 48, 49, 50, 93]).isNone = true := by decide +kernel

/-- n_object_bad_value.json -/
example : (read
    [91, 34, 120, 34, 44, 32, 116, 114, 117, 116, 104, 93]).isNone = true := by decide +kernel

/-- n_object_bracket_key.json -/
example : (read
    [123, 91, 58, 32, 34, 120, 34, 125, 10]).isNone = true := by decide +kernel

/-- n_object_comma_instead_of_colon.json -/
example : (read
    [123, 34, 120, 34, 44, 32, 110, 117, 108, 108, 125]).isNone = true := by decide +kernel

/-- n_object_double_colon.json -/
example : (read
    [123, 34, 120, 34, 58, 58, 34, 98, 34, 125]).isNone = true := by decide +kernel

/-- n_object_emoji.json -/
example : (read
    [123, 240, 159, 135, 168, 240, 159, 135, 173, 125]).isNone = true := by decide +kernel

/-- n_object_garbage_at_end.json -/
example : (read
    [123, 34, 97, 34, 58, 34, 97, 34, 32, 49, 50, 51, 125]).isNone = true := by decide +kernel

/-- n_object_key_with_single_quotes.json -/
example : (read
    [123, 107, 101, 121, 58, 32, 39, 118, 97, 108, 117, 101, 39, 125]).isNone = true := by decide +kernel

/-- n_object_lone_continuation_byte_in_key_and_trailing_comma.json -/
example : (read
    [123, 34, 185, 34, 58, 34, 48, 34, 44, 125]).isNone = true := by decide +kernel

/-- n_object_missing_colon.json -/
example : (read
    [123, 34, 97, 34, 32, 98, 125]).isNone = true := by decide +kernel

/-- n_object_missing_key.json -/
example : (read
    [123, 58, 34, 98, 34, 125]).isNone = true := by decide +kernel

/-- n_object_missing_semicolon.json -/
example : (read
    [123, 34, 97, 34, 32, 34, 98, 34, 125]).isNone = true := by decide +kernel

/-- n_object_missing_value.json -/
example : (read
    [123, 34, 97, 34, 58]).isNone = true := by decide +kernel

/-- n_object_no-colon.json -/
example : (read
    [123, 34, 97, 34]).isNone = true := by decide +kernel

/-- n_object_non_string_key.json -/
example : (read
    [123, 49, 58, 49, 125]).isNone = true := by decide +kernel

/-- n_object_non_string_key_but_huge_number_instead.json -/
example : (read
    [123, 57, 57, 57, 57, 69, 57, 57, 57, 57, 58, 49, 125]).isNone = true := by decide +kernel

/-- n_object_repeated_null_null.json -/
example : (read
    [123, 110, 117, 108, 108, 58, 110, 117, 108, 108, 44, 110, 117, 108, 108, 58, 110, 117, 108,
    108, 125]).isNone = true := by decide +kernel

/-- n_object_several_trailing_commas.json -/
example : (read
    [123, 34, 105, 100, 34, 58, 48, 44, 44, 44, 44, 44, 125]).isNone = true := by decide +kernel

/-- n_object_single_quote.json -/
example : (read
    [123, 39, 97, 39, 58, 48, 125]).isNone = true := by decide +kernel

/-- n_object_trailing_comma.json -/
example : (read
    [123, 34, 105, 100, 34, 58, 48, 44, 125]).isNone = true := by decide +kernel

/-- n_object_trailing_comment.json -/
example : (read
    [123, 34, 97, 34, 58, 34, 98, 34, 125, 47, 42, 42, 47]).isNone = true := by decide +kernel

/-- n_object_trailing_comment_open.json -/
example : (read
    [123, 34, 97, 34, 58, 34, 98, 34, 125, 47, 42, 42, 47, 47]).isNone = true := by decide +kernel

/-- n_object_trailing_comment_slash_open.json -/
example : (read
    [123, 34, 97, 34, 58, 34, 98, 34, 125, 47, 47]).isNone = true := by decide +kernel

/-- n_object_trailing_comment_slash_open_incomplete.json -/
example : (read
    [123, 34, 97, 34, 58, 34, 98, 34, 125, 47]).isNone = true := by decide +kernel

/-- n_object_two_commas_in_a_row.json -/
example : (read
    [123, 34, 97, 34, 58, 34, 98, 34, 44, 44, 34, 99, 34, 58, 34, 100, 34, 125]).isNone = true := by decide +kernel

/-- n_object_unquoted_key.json -/
example : (read
    [123, 97, 58, 32, 34, 98, 34, 125]).isNone = true := by decide +kernel

/-- n_object_unterminated-value.json -/
example : (read
    [123, 34, 97, 34, 58, 34, 97]).isNone = true := by decide +kernel

/-- n_object_with_single_string.json -/
example : (read
    [123, 32, 34, 102, 111, 111, 34, 32, 58, 32, 34, 98, 97, 114, 34, 44, 32, 34, 97, 34, 32,
    125]).isNone = true := by decide +kernel

/-- n_object_with_trailing_garbage.json -/
example : (read
    [123, 34, 97, 34, 58, 34, 98, 34, 125, 35]).isNone = true := by decide +kernel

/-- n_single_space.json -/
example : (read
    [32]).isNone = true := by decide +kernel

/-- n_string_1_surrogate_then_escape.json -/
example : (read
    [91, 34, 92, 117, 68, 56, 48, 48, 92, 34, 93]).isNone = true := by decide +kernel

/-- n_string_1_surrogate_then_escape_u.json -/
example : (read
    [91, 34, 92, 117, 68, 56, 48, 48, 92, 117, 34, 93]).isNone = true := by decide +kernel

/-- n_string_1_surrogate_then_escape_u1.json -/
example : (read
    [91, 34, 92, 117, 68, 56, 48, 48, 92, 117, 49, 34, 93]).isNone = true := by decide +kernel

/-- n_string_1_surrogate_then_escape_u1x.json -/
example : (read
    [91, 34, 92, 117, 68, 56, 48, 48, 92, 117, 49, 120, 34, 93]).isNone = true := by decide +kernel

/-- n_string_accentuated_char_no_quotes.json -/
example : (read
    [91, 195, 169, 93]).isNone = true := by decide +kernel

/-- n_string_backslash_00.json -/
example : (read
    [91, 34, 92, 0, 34, 93]).isNone = true := by decide +kernel

/-- n_string_escape_x.json -/
example : (read
    [91, 34, 92, 120, 48, 48, 34, 93]).isNone = true := by decide +kernel

/-- n_string_escaped_backslash_bad.json -/
example : (read
    [91, 34, 92, 92, 92, 34, 93]).isNone = true := by decide +kernel

/-- n_string_escaped_ctrl_char_tab.json -/
example : (read
    [91, 34, 92, 9, 34, 93]).isNone = true := by decide +kernel

/-- n_string_escaped_emoji.json -/
example : (read
    [91, 34, 92, 240, 159, 140, 128, 34, 93]).isNone = true := by decide +kernel

/-- n_string_incomplete_escape.json -/
example : (read
    [91, 34, 92, 34, 93]).isNone = true := by decide +kernel

/-- n_string_incomplete_escaped_character.json -/
example : (read
    [91, 34, 92, 117, 48, 48, 65, 34, 93]).isNone = true := by decide +kernel

/-- n_string_incomplete_surrogate.json -/
example : (read
    [91, 34, 92, 117, 68, 56, 51, 52, 92, 117, 68, 100, 34, 93]).isNone = true := by decide +kernel

/-- n_string_incomplete_surrogate_escape_invalid.json -/
example : (read
    [91, 34, 92, 117, 68, 56, 48, 48, 92, 117, 68, 56, 48, 48, 92, 120, 34, 93]).isNone = true := by decide +kernel

/-- n_string_invalid-utf-8-in-escape.json -/
example : (read
    [91, 34, 92, 117, 229, 34, 93]).isNone = true := by decide +kernel

/-- n_string_invalid_backslash_esc.json -/
example : (read
    [91, 34, 92, 97, 34, 93]).isNone = true := by decide +kernel

/-- n_string_invalid_unicode_escape.json -/
example : (read
    [91, 34, 92, 117, 113, 113, 113, 113, 34, 93]).isNone = true := by decide +kernel

/-- n_string_invalid_utf8_after_escape.json -/
example : (read
    [91, 34, 92, 229, 34, 93]).isNone = true := by decide +kernel

/-- n_string_leading_uescaped_thinspace.json -/
example : (read
    [91, 92, 117, 48, 48, 50, 48, 34, 97, 115, 100, 34, 93]).isNone = true := by decide +kernel

/-- n_string_no_quotes_with_bad_escape.json -/
example : (read
    [91, 92, 110, 93]).isNone = true := by decide +kernel

/-- n_string_single_doublequote.json -/
example : (read
    [34]).isNone = true := by decide +kernel

/-- n_string_single_quote.json -/
example : (read
    [91, 39, 115, 105, 110, 103, 108, 101, 32, 113, 117, 111, 116, 101, 39, 93]).isNone = true := by decide +kernel

/-- n_string_single_string_no_double_quotes.json -/
example : (read
    [97, 98, 99]).isNone = true := by decide +kernel

/-- n_string_start_escape_unclosed.json -/
example : (read
    [91, 34, 92]).isNone = true := by decide +kernel

/-- n_string_unescaped_ctrl_char.json -/
example : (read
    [91, 34, 97, 0, 97, 34, 93]).isNone = true := by decide +kernel

/-- n_string_unescaped_newline.json -/
example : (read
    [91, 34, 110, 101, 119, 10, 108, 105, 110, 101, 34, 93]).isNone = true := by decide +kernel

/-- n_string_unescaped_tab.json -/
example : (read
    [91, 34, 9, 34, 93]).isNone = true := by decide +kernel

/-- n_string_unicode_CapitalU.json -/
example : (read
    [34, 92, 85, 65, 54, 54, 68, 34]).isNone = true := by decide +kernel

/-- n_string_with_trailing_garbage.json -/
example : (read
    [34, 34, 120]).isNone = true := by decide +kernel

/-- n_structure_U+2060_word_joined.json -/
example : (read
    [91, 226, 129, 160, 93]).isNone = true := by decide +kernel

/-- n_structure_UTF8_BOM_no_data.json -/
example : (read
    [239, 187, 191]).isNone = true := by decide +kernel

/-- n_structure_angle_bracket_..json -/
example : (read
    [60, 46, 62]).isNone = true := by decide +kernel

/-- n_structure_angle_bracket_null.json -/
example : (read
    [91, 60, 110, 117, 108, 108, 62, 93]).isNone = true := by decide +kernel

/-- n_structure_array_trailing_garbage.json -/
example : (read
    [91, 49, 93, 120]).isNone = true := by decide +kernel

/-- n_structure_array_with_extra_array_close.json -/
example : (read
    [91, 49, 93, 93]).isNone = true := by decide +kernel

/-- n_structure_array_with_unclosed_string.json -/
example : (read
    [91, 34, 97, 115, 100, 93]).isNone = true := by decide +kernel

/-- n_structure_ascii-unicode-identifier.json -/
example : (read
    [97, 195, 165]).isNone = true := by decide +kernel

/-- n_structure_capitalized_True.json -/
example : (read
    [91, 84, 114, 117, 101, 93]).isNone = true := by decide +kernel

/-- n_structure_close_unopened_array.json -/
example : (read
    [49, 93]).isNone = true := by decide +kernel

/-- n_structure_comma_instead_of_closing_brace.json -/
example : (read
    [123, 34, 120, 34, 58, 32, 116, 114, 117, 101, 44]).isNone = true := by decide +kernel

/-- n_structure_double_array.json -/
example : (read
    [91, 93, 91, 93]).isNone = true := by decide +kernel

/-- n_structure_end_array.json -/
example : (read
    [93]).isNone = true := by decide +kernel

/-- n_structure_incomplete_UTF8_BOM.json -/
example : (read
    [239, 187, 123, 125]).isNone = true := by decide +kernel

/-- n_structure_lone-invalid-utf-8.json -/
example : (read
    [229]).isNone = true := by decide +kernel

/-- n_structure_lone-open-bracket.json -/
example : (read
    [91]).isNone = true := by decide +kernel

/-- n_structure_no_data.json -/
example : (read
    []).isNone = true := by decide +kernel

/-- n_structure_null-byte-outside-string.json -/
example : (read
    [91, 0, 93]).isNone = true := by decide +kernel

/-- n_structure_number_with_trailing_garbage.json -/
example : (read
    [50, 64]).isNone = true := by decide +kernel

/-- n_structure_object_followed_by_closing_object.json -/
example : (read
    [123, 125, 125]).isNone = true := by decide +kernel

/-- n_structure_object_unclosed_no_value.json -/
example : (read
    [123, 34, 34, 58]).isNone = true := by decide +kernel

/-- n_structure_object_with_comment.json -/
example : (read
    [123, 34, 97, 34, 58, 47, 42, 99, 111, 109, 109, 101, 110, 116, 42, 47, 34, 98, 34, 125]).isNone = true := by decide +kernel

/-- n_structure_object_with_trailing_garbage.json -/
example : (read
    [123, 34, 97, 34, 58, 32, 116, 114, 117, 101, 125, 32, 34, 120, 34]).isNone = true := by decide +kernel

/-- n_structure_open_array_apostrophe.json -/
example : (read
    [91, 39]).isNone = true := by decide +kernel

/-- n_structure_open_array_comma.json -/
example : (read
    [91, 44]).isNone = true := by decide +kernel

/-- n_structure_open_array_open_object.json -/
example : (read
    [91, 123]).isNone = true := by decide +kernel

/-- n_structure_open_array_open_string.json -/
example : (read
    [91, 34, 97]).isNone = true := by decide +kernel

/-- n_structure_open_array_string.json -/
example : (read
    [91, 34, 97, 34]).isNone = true := by decide +kernel

/-- n_structure_open_object.json -/
example : (read
    [123]).isNone = true := by decide +kernel

/-- n_structure_open_object_close_array.json -/
example : (read
    [123, 93]).isNone = true := by decide +kernel

/-- n_structure_open_object_comma.json -/
example : (read
    [123, 44]).isNone = true := by decide +kernel

/-- n_structure_open_object_open_array.json -/
example : (read
    [123, 91]).isNone = true := by decide +kernel

/-- n_structure_open_object_open_string.json -/
example : (read
    [123, 34, 97]).isNone = true := by decide +kernel

/-- n_structure_open_object_string_with_apostrophes.json -/
example : (read
    [123, 39, 97, 39]).isNone = true := by decide +kernel

/-- n_structure_open_open.json -/
example : (read
    [91, 34, 92, 123, 91, 34, 92, 123, 91, 34, 92, 123, 91, 34, 92, 123]).isNone = true := by decide +kernel

/-- n_structure_single_eacute.json -/
example : (read
    [233]).isNone = true := by decide +kernel

/-- n_structure_single_star.json -/
example : (read
    [42]).isNone = true := by decide +kernel

/-- n_structure_trailing_#.json -/
example : (read
    [123, 34, 97, 34, 58, 34, 98, 34, 125, 35, 123, 125]).isNone = true := by decide +kernel

/-- n_structure_uescaped_LF_before_string.json -/
example : (read
    [91, 92, 117, 48, 48, 48, 65, 34, 34, 93]).isNone = true := by decide +kernel

/-- n_structure_unclosed_array.json -/
example : (read
    [91, 49]).isNone = true := by decide +kernel

/-- n_structure_unclosed_array_partial_null.json -/
example : (read
    [91, 32, 102, 97, 108, 115, 101, 44, 32, 110, 117, 108]).isNone = true := by decide +kernel

/-- n_structure_unclosed_array_unfinished_false.json -/
example : (read
    [91, 32, 116, 114, 117, 101, 44, 32, 102, 97, 108, 115]).isNone = true := by decide +kernel

/-- n_structure_unclosed_array_unfinished_true.json -/
example : (read
    [91, 32, 102, 97, 108, 115, 101, 44, 32, 116, 114, 117]).isNone = true := by decide +kernel

/-- n_structure_unclosed_object.json -/
example : (read
    [123, 34, 97, 115, 100, 34, 58, 34, 97, 115, 100, 34]).isNone = true := by decide +kernel

/-- n_structure_unicode-identifier.json -/
example : (read
    [195, 165]).isNone = true := by decide +kernel

/-- n_structure_whitespace_U+2060_word_joiner.json -/
example : (read
    [91, 226, 129, 160, 93]).isNone = true := by decide +kernel

/-- n_structure_whitespace_formfeed.json -/
example : (read
    [91, 12, 93]).isNone = true := by decide +kernel

/-! ## Files that are JSON -/

/-- y_array_arraysWithSpaces.json -/
example : (read
    [91, 91, 93, 32, 32, 32, 93]).isSome = true := by decide +kernel

/-- y_array_empty-string.json -/
example : (read
    [91, 34, 34, 93]).isSome = true := by decide +kernel

/-- y_array_empty.json -/
example : (read
    [91, 93]).isSome = true := by decide +kernel

/-- y_array_ending_with_newline.json -/
example : (read
    [91, 34, 97, 34, 93]).isSome = true := by decide +kernel

/-- y_array_false.json -/
example : (read
    [91, 102, 97, 108, 115, 101, 93]).isSome = true := by decide +kernel

/-- y_array_heterogeneous.json -/
example : (read
    [91, 110, 117, 108, 108, 44, 32, 49, 44, 32, 34, 49, 34, 44, 32, 123, 125, 93]).isSome = true := by decide +kernel

/-- y_array_null.json -/
example : (read
    [91, 110, 117, 108, 108, 93]).isSome = true := by decide +kernel

/-- y_array_with_1_and_newline.json -/
example : (read
    [91, 49, 10, 93]).isSome = true := by decide +kernel

/-- y_array_with_leading_space.json -/
example : (read
    [32, 91, 49, 93]).isSome = true := by decide +kernel

/-- y_array_with_several_null.json -/
example : (read
    [91, 49, 44, 110, 117, 108, 108, 44, 110, 117, 108, 108, 44, 110, 117, 108, 108, 44, 50, 93]).isSome = true := by decide +kernel

/-- y_array_with_trailing_space.json -/
example : (read
    [91, 50, 93, 32]).isSome = true := by decide +kernel

/-- y_number_after_space.json -/
example : (read
    [91, 32, 52, 93]).isSome = true := by decide +kernel

/-- y_number_double_close_to_zero.json -/
example : (read
    [91, 45, 48, 46, 48, 48, 48, 48, 48, 48, 48, 48, 48, 48, 48, 48, 48, 48, 48, 48, 48, 48, 48,
    48, 48, 48, 48, 48, 48, 48, 48, 48, 48, 48, 48, 48, 48, 48, 48, 48, 48, 48, 48, 48, 48, 48,
    48, 48, 48, 48, 48, 48, 48, 48, 48, 48, 48, 48, 48, 48, 48, 48, 48, 48, 48, 48, 48, 48, 48,
    48, 48, 48, 48, 48, 48, 48, 48, 48, 48, 48, 48, 49, 93, 10]).isSome = true := by decide +kernel

/-- y_number_minus_zero.json -/
example : (read
    [91, 45, 48, 93]).isSome = true := by decide +kernel

/-- y_number_negative_int.json -/
example : (read
    [91, 45, 49, 50, 51, 93]).isSome = true := by decide +kernel

/-- y_number_negative_one.json -/
example : (read
    [91, 45, 49, 93]).isSome = true := by decide +kernel

/-- y_number_negative_zero.json -/
example : (read
    [91, 45, 48, 93]).isSome = true := by decide +kernel

/-- y_number_simple_int.json -/
example : (read
    [91, 49, 50, 51, 93]).isSome = true := by decide +kernel

/-- y_number_simple_real.json -/
example : (read
    [91, 49, 50, 51, 46, 52, 53, 54, 55, 56, 57, 93]).isSome = true := by decide +kernel

/-- y_object.json -/
example : (read
    [123, 34, 97, 115, 100, 34, 58, 34, 115, 100, 102, 34, 44, 32, 34, 100, 102, 103, 34, 58,
    34, 102, 103, 104, 34, 125]).isSome = true := by decide +kernel

/-- y_object_basic.json -/
example : (read
    [123, 34, 97, 115, 100, 34, 58, 34, 115, 100, 102, 34, 125]).isSome = true := by decide +kernel

/-- y_object_duplicated_key.json -/
example : (read
    [123, 34, 97, 34, 58, 34, 98, 34, 44, 34, 97, 34, 58, 34, 99, 34, 125]).isSome = true := by decide +kernel

/-- y_object_duplicated_key_and_value.json -/
example : (read
    [123, 34, 97, 34, 58, 34, 98, 34, 44, 34, 97, 34, 58, 34, 98, 34, 125]).isSome = true := by decide +kernel

/-- y_object_empty.json -/
example : (read
    [123, 125]).isSome = true := by decide +kernel

/-- y_object_empty_key.json -/
example : (read
    [123, 34, 34, 58, 48, 125]).isSome = true := by decide +kernel

/-- y_object_escaped_null_in_key.json -/
example : (read
    [123, 34, 102, 111, 111, 92, 117, 48, 48, 48, 48, 98, 97, 114, 34, 58, 32, 52, 50, 125]).isSome = true := by decide +kernel

/-- y_object_long_strings.json -/
example : (read
    [123, 34, 120, 34, 58, 91, 123, 34, 105, 100, 34, 58, 32, 34, 120, 120, 120, 120, 120, 120,
    120, 120, 120, 120, 120, 120, 120, 120, 120, 120, 120, 120, 120, 120, 120, 120, 120, 120,
    120, 120, 120, 120, 120, 120, 120, 120, 120, 120, 120, 120, 120, 120, 120, 120, 34, 125, 93,
    44, 32, 34, 105, 100, 34, 58, 32, 34, 120, 120, 120, 120, 120, 120, 120, 120, 120, 120, 120,
    120, 120, 120, 120, 120, 120, 120, 120, 120, 120, 120, 120, 120, 120, 120, 120, 120, 120,
    120, 120, 120, 120, 120, 120, 120, 120, 120, 120, 120, 34, 125]).isSome = true := by decide +kernel

/-- y_object_simple.json -/
example : (read
    [123, 34, 97, 34, 58, 91, 93, 125]).isSome = true := by decide +kernel

/-- y_object_with_newlines.json -/
example : (read
    [123, 10, 34, 97, 34, 58, 32, 34, 98, 34, 10, 125]).isSome = true := by decide +kernel

/-- y_string_allowed_escapes.json -/
example : (read
    [91, 34, 92, 34, 92, 92, 92, 47, 92, 98, 92, 102, 92, 110, 92, 114, 92, 116, 34, 93]).isSome = true := by decide +kernel

/-- y_string_backslash_and_u_escaped_zero.json -/
example : (read
    [91, 34, 92, 92, 117, 48, 48, 48, 48, 34, 93]).isSome = true := by decide +kernel

/-- y_string_backslash_doublequotes.json -/
example : (read
    [91, 34, 92, 34, 34, 93]).isSome = true := by decide +kernel

/-- y_string_comments.json -/
example : (read
    [91, 34, 97, 47, 42, 98, 42, 47, 99, 47, 42, 100, 47, 47, 101, 34, 93]).isSome = true := by decide +kernel

/-- y_string_double_escape_a.json -/
example : (read
    [91, 34, 92, 92, 97, 34, 93]).isSome = true := by decide +kernel

/-- y_string_double_escape_n.json -/
example : (read
    [91, 34, 92, 92, 110, 34, 93]).isSome = true := by decide +kernel

/-- y_string_escaped_control_character.json -/
example : (read
    [91, 34, 92, 117, 48, 48, 49, 50, 34, 93]).isSome = true := by decide +kernel

/-- y_string_in_array.json -/
example : (read
    [91, 34, 97, 115, 100, 34, 93]).isSome = true := by decide +kernel

/-- y_string_in_array_with_leading_space.json -/
example : (read
    [91, 32, 34, 97, 115, 100, 34, 93]).isSome = true := by decide +kernel

/-- y_string_nbsp_uescaped.json -/
example : (read
    [91, 34, 110, 101, 119, 92, 117, 48, 48, 65, 48, 108, 105, 110, 101, 34, 93]).isSome = true := by decide +kernel

/-- y_string_null_escape.json -/
example : (read
    [91, 34, 92, 117, 48, 48, 48, 48, 34, 93]).isSome = true := by decide +kernel

/-- y_string_one-byte-utf-8.json -/
example : (read
    [91, 34, 92, 117, 48, 48, 50, 99, 34, 93]).isSome = true := by decide +kernel

/-- y_string_simple_ascii.json -/
example : (read
    [91, 34, 97, 115, 100, 32, 34, 93]).isSome = true := by decide +kernel

/-- y_string_space.json -/
example : (read
    [34, 32, 34]).isSome = true := by decide +kernel

/-- y_string_uescaped_newline.json -/
example : (read
    [91, 34, 110, 101, 119, 92, 117, 48, 48, 48, 65, 108, 105, 110, 101, 34, 93]).isSome = true := by decide +kernel

/-- y_string_unescaped_char_delete.json -/
example : (read
    [91, 34, 127, 34, 93]).isSome = true := by decide +kernel

/-- y_string_unicodeEscapedBackslash.json -/
example : (read
    [91, 34, 92, 117, 48, 48, 53, 67, 34, 93]).isSome = true := by decide +kernel

/-- y_string_unicode_escaped_double_quote.json -/
example : (read
    [91, 34, 92, 117, 48, 48, 50, 50, 34, 93]).isSome = true := by decide +kernel

/-- y_string_with_del_character.json -/
example : (read
    [91, 34, 97, 127, 97, 34, 93]).isSome = true := by decide +kernel

/-- y_structure_lonely_false.json -/
example : (read
    [102, 97, 108, 115, 101]).isSome = true := by decide +kernel

/-- y_structure_lonely_int.json -/
example : (read
    [52, 50]).isSome = true := by decide +kernel

/-- y_structure_lonely_negative_real.json -/
example : (read
    [45, 48, 46, 49]).isSome = true := by decide +kernel

/-- y_structure_lonely_null.json -/
example : (read
    [110, 117, 108, 108]).isSome = true := by decide +kernel

/-- y_structure_lonely_string.json -/
example : (read
    [34, 97, 115, 100, 34]).isSome = true := by decide +kernel

/-- y_structure_lonely_true.json -/
example : (read
    [116, 114, 117, 101]).isSome = true := by decide +kernel

/-- y_structure_string_empty.json -/
example : (read
    [34, 34]).isSome = true := by decide +kernel

/-- y_structure_trailing_newline.json -/
example : (read
    [91, 34, 97, 34, 93, 10]).isSome = true := by decide +kernel

/-- y_structure_true_in_array.json -/
example : (read
    [91, 116, 114, 117, 101, 93]).isSome = true := by decide +kernel

/-- y_structure_whitespace_array.json -/
example : (read
    [32, 91, 93, 32]).isSome = true := by decide +kernel

/-! ## The two long files -/

theorem open_arrays : ∀ k n, readDoc k (List.replicate n 91) = none ∧
    readItems k (List.replicate n 91) = none := by
  intro k
  induction k with
  | zero => intro n; simp [readDoc, readItems]
  | succ k ih =>
    intro n
    have h : readDoc (k + 1) (List.replicate n 91) = none := by
      cases n with
      | zero => simp [readDoc, ws]
      | succ n =>
        have e := (ih n).2
        have hd : (ws (List.replicate n 91)).head? ≠ some 93 := by
          cases n <;> simp [List.replicate, ws]
        simp [List.replicate, readDoc, ws, hd, e]
    exact ⟨h, by simp [readItems, (ih n).1]⟩

/-- n_structure_100000_opening_arrays.json, for any number of opening brackets (`n = 100000`). -/
theorem reject_open_arrays (n : Nat) : read (List.replicate n 91) = none := by
  simp [Jems.Spec.read, (open_arrays _ n).1]

/-- `n` times `[{"":` and a line feed. -/
def openArrayObjects : Nat → List UInt8
  | 0 => [10]
  | n + 1 => 91 :: 123 :: 34 :: 34 :: 58 :: openArrayObjects n

theorem open_array_objects : ∀ n k, readDoc k (openArrayObjects n) = none := by
  intro n
  induction n with
  | zero => intro k; cases k <;> simp [openArrayObjects, readDoc, ws]
  | succ n ih =>
    intro k
    match k with
    | 0 => simp [readDoc]
    | 1 => simp [openArrayObjects, readDoc, ws, readItems]
    | 2 => simp [openArrayObjects, readDoc, ws, readItems]
    | 3 => simp [openArrayObjects, readDoc, ws, readItems, readMembers]
    | k + 4 =>
      have e : readChars (34 :: 58 :: openArrayObjects n) = some ([], 58 :: openArrayObjects n) := by
        simp [readChars.eq_def]
      simp [openArrayObjects, readDoc, ws, readItems, readMembers, readChar, e, ih]

/-- n_structure_open_array_object.json, for any number of repetitions (`n = 50000`). -/
theorem reject_open_array_objects (n : Nat) : read (openArrayObjects n) = none := by
  simp [Jems.Spec.read, open_array_objects]


end Mu.UnitTests.Json
