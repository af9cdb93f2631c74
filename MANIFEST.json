{
 "claims": [
  {
   "property": "C01",
   "status": "proved",
   "theorems": [
    "Lexi.C01_int_canonical",
    "Lexi.C01_unsupported_long_truncated"
   ],
   "note": "all ten integer overloads, every supported platform configuration; C01_unsupported_long_truncated documents the configuration where the claim fails (64-bit long, compiler not recognised by architecture.hpp)"
  },
  {
   "property": "C02",
   "status": "proved",
   "theorems": [
    "Lexi.C02_int_round_trip"
   ],
   "note": ""
  },
  {
   "property": "C03",
   "status": "proved",
   "theorems": [
    "Lexi.C03_int_buffer",
    "Lexi.C03_buffer_of_20_overflows"
   ],
   "note": "the 22-byte buffer suffices; a 20-byte buffer would overflow"
  },
  {
   "property": "C04",
   "status": "proved",
   "theorems": [
    "Lexi.C04_float",
    "Lexi.C04_bool",
    "Lexi.C04_null",
    "Lexi.C04_char",
    "Lexi.C04_int",
    "Lexi.C04_enum"
   ],
   "note": "scalar and float parts"
  },
  {
   "property": "C05",
   "status": "proved",
   "theorems": [
    "Lexi.C05_same_number_same_text"
   ],
   "note": ""
  },
  {
   "property": "C06",
   "status": "proved",
   "theorems": [
    "Lexi.C06_unsigned_text_order"
   ],
   "note": ""
  },
  {
   "property": "C07",
   "status": "proved",
   "theorems": [
    "Lexi.C07_int_extraction"
   ],
   "note": "strtoull follows C11 7.22.1.4 (trusted)"
  },
  {
   "property": "C08",
   "status": "proved",
   "theorems": [
    "Lexi.C08_int_extraction_ignores",
    "Lexi.C08_int_extraction_nul",
    "Lexi.C08_int_extraction_space"
   ],
   "note": ""
  },
  {
   "property": "C09",
   "status": "proved",
   "theorems": [
    "Lexi.C09_int_out_of_range"
   ],
   "note": ""
  },
  {
   "property": "C10",
   "status": "proved",
   "theorems": [
    "Lexi.C10_bool_format",
    "Lexi.C10_bool_extract",
    "Lexi.C10_bool_round_trip"
   ],
   "note": ""
  },
  {
   "property": "C11",
   "status": "proved",
   "theorems": [
    "Lexi.C11_null"
   ],
   "note": ""
  },
  {
   "property": "C12",
   "status": "proved",
   "theorems": [
    "Lexi.C12_char"
   ],
   "note": ""
  },
  {
   "property": "C13",
   "status": "proved",
   "theorems": [
    "Lexi.C13_escape_exact",
    "Lexi.C13_escape_transparent"
   ],
   "note": ""
  },
  {
   "property": "C14",
   "status": "proved",
   "theorems": [
    "Lexi.C14_escape_reversible",
    "Lexi.C14_escape_injective"
   ],
   "note": ""
  },
  {
   "property": "C15",
   "status": "proved",
   "theorems": [
    "Lexi.C15_escape_compositional"
   ],
   "note": ""
  },
  {
   "property": "C16",
   "status": "proved",
   "theorems": [
    "Lexi.C16_jsonify_decodes"
   ],
   "note": ""
  },
  {
   "property": "C17",
   "status": "proved",
   "theorems": [
    "Lexi.C17_jsonify_no_breakout"
   ],
   "note": ""
  },
  {
   "property": "C18",
   "status": "proved",
   "theorems": [
    "Lexi.C18_jsonify_transparent"
   ],
   "note": ""
  },
  {
   "property": "C19",
   "status": "proved",
   "theorems": [
    "Lexi.C19_char_signedness"
   ],
   "note": ""
  },
  {
   "property": "C20",
   "status": "proved",
   "theorems": [
    "Lexi.C20_jsonify_scalar",
    "Lexi.C20_special_not_json"
   ],
   "note": "C20_special_not_json states the exception the property names"
  },
  {
   "property": "C21",
   "status": "proved",
   "theorems": [
    "Lexi.C21_text_identifies_value"
   ],
   "note": ""
  },
  {
   "property": "C22",
   "status": "proved",
   "theorems": [
    "Lexi.C22_round_trip",
    "Lexi.C22_special"
   ],
   "note": "strtold assumed correctly rounding (trusted); -0.0 prints 0.0 and reads back +0"
  },
  {
   "property": "C23",
   "status": "partial",
   "theorems": [
    "Lexi.C23_refuted_x87",
    "Lexi.C23_neighbour_partial",
    "Lexi.C23_wide_partial"
   ],
   "note": "false as stated: C23_refuted_x87 gives a double that changes on every x86 System V build. Proved instead: exact for every long double of at least 73 bits (binary128), exact for even significands and off by at most one unit otherwise for 64-bit significands; C77 gives the exact condition. C105 proves the full statement with the lines at fault changed"
  },
  {
   "property": "C24",
   "status": "proved",
   "theorems": [
    "Lexi.C24_float_round_trip"
   ],
   "note": "strtold assumed correctly rounding (trusted)"
  },
  {
   "property": "C25",
   "status": "proved",
   "theorems": [
    "Lexi.C25_write_safety",
    "Lexi.C25_digits"
   ],
   "note": ""
  },
  {
   "property": "C26",
   "status": "partial",
   "theorems": [
    "Lexi.C26_refuted",
    "Lexi.C26_exact_partial",
    "Lexi.C26_short_partial"
   ],
   "note": "false as stated: C26_refuted (formatting 1/3 reads behind POWER10). Proved instead: the exact condition under which formatting is defined, that nothing else is undefined, and a large class of safe values. C103 proves the full statement with the lines at fault changed"
  },
  {
   "property": "C27",
   "status": "proved",
   "theorems": [
    "Lexi.C27_text_grammar"
   ],
   "note": ""
  },
  {
   "property": "C28",
   "status": "proved",
   "theorems": [
    "Lexi.C28_by_value",
    "Lexi.C28_notation"
   ],
   "note": ""
  },
  {
   "property": "C29",
   "status": "proved",
   "theorems": [
    "Lexi.C29_sign_symmetry"
   ],
   "note": ""
  },
  {
   "property": "C30",
   "status": "proved",
   "theorems": [
    "Lexi.C30_special_values",
    "Lexi.C30_finite_not_special"
   ],
   "note": ""
  },
  {
   "property": "C31",
   "status": "proved",
   "theorems": [
    "Lexi.C31_order",
    "Lexi.C31_distinct",
    "Lexi.C31_sign"
   ],
   "note": ""
  },
  {
   "property": "C32",
   "status": "proved",
   "theorems": [
    "Lexi.C32_accuracy"
   ],
   "note": ""
  },
  {
   "property": "C33",
   "status": "proved",
   "theorems": [
    "Lexi.C33_cached_power",
    "Lexi.C33_evaluations"
   ],
   "note": "the scaled exponent is even in [-60,-34]"
  },
  {
   "property": "C34",
   "status": "proved",
   "theorems": [
    "Lexi.C34_table"
   ],
   "note": ""
  },
  {
   "property": "C35",
   "status": "partial",
   "theorems": [
    "Lexi.C35_mulAdd",
    "Lexi.C35_diyfp_variants",
    "Lexi.C35_same_text",
    "Lexi.C35_defined_text",
    "Lexi.C35_text_depends_on_memory"
   ],
   "note": "helpers: multiplication on all operands, normalisations on every reachable significand, the three big-integer multiply-adds on all operands. The conclusion about texts is false in general because of the out-of-range read (C35_text_depends_on_memory); proved for equal memory behind the table and for every value that formats inside the tables; C92 proves that otherwise at most the last digit differs. C103 proves the full statement with the lines at fault changed"
  },
  {
   "property": "C36",
   "status": "proved",
   "theorems": [
    "Lexi.C36_classes"
   ],
   "note": ""
  },
  {
   "property": "C37",
   "status": "partial",
   "theorems": [
    "Lexi.C37_decimal_partial",
    "Lexi.C37_not_digit",
    "Lexi.C37_sound",
    "Lexi.C37_limit"
   ],
   "note": "false at exactly the stated bound: C37_limit shows that every numeral of 8000 or more digits not starting with '0' writes outside the object. Proved instead: exact up to 7999 digits, non-digits throw, and for any length whatever the constructor returns is exact. The complete condition for runs of digits is C74_decimal. C102 proves the full statement with the lines at fault changed"
  },
  {
   "property": "C38",
   "status": "proved",
   "theorems": [
    "Lexi.C38_add",
    "Lexi.C38_mul",
    "Lexi.C38_mulPow5",
    "Lexi.C38_overloads"
   ],
   "note": ""
  },
  {
   "property": "C39",
   "status": "partial",
   "theorems": [
    "Lexi.C39_refuted",
    "Lexi.C39_exact_partial",
    "Lexi.C39_over",
    "Lexi.C39_whole_words"
   ],
   "note": "false as stated: C39_refuted (1 <<= 65, then <<= 64, is not 2^129). Proved instead: exact for every shift not a multiple of 64 that leaves the last word free and for single words; C39_whole_words gives the exact condition for multiples of 64. The complete condition is C74_shift. C102 proves the full statement with the lines at fault changed"
  },
  {
   "property": "C40",
   "status": "proved",
   "theorems": [
    "Lexi.C40_compare",
    "Lexi.C40_order",
    "Lexi.C40_accessors"
   ],
   "note": "for every object satisfying the representation invariant, which C42_invariant proves of every reachable object"
  },
  {
   "property": "C41",
   "status": "partial",
   "theorems": [
    "Lexi.C41_difference_iff",
    "Lexi.C41_equal",
    "Lexi.C41_difference_partial",
    "Lexi.C41_refuted",
    "Lexi.C41_in_place_wrong"
   ],
   "note": "false as stated: C41_refuted (a borrow into an all-ones word is lost), C41_in_place_wrong (output aliasing an operand). Proved instead: C41_difference_iff, the exact condition under which the result is right. C102 proves the full statement with the lines at fault changed"
  },
  {
   "property": "C42",
   "status": "partial",
   "theorems": [
    "Lexi.C42_invariant",
    "Lexi.C42_refines_partial",
    "Lexi.C42_total_partial",
    "Lexi.C42_refuted"
   ],
   "note": "false as stated because of the shift: C42_refuted. Proved instead: the invariant for every history, and exact refinement for every history that does not shift multi-word numbers by whole words. The complete condition is C74_history. C102 proves the full statement with the lines at fault changed"
  },
  {
   "property": "C43",
   "status": "partial",
   "theorems": [
    "Lexi.C43_refuted",
    "Lexi.C43_shl_iff",
    "Lexi.C43_others_partial"
   ],
   "note": "false as stated: C43_refuted (shifting a full number writes digits_[416]). Proved instead: the exact condition for the shift, and that no other operation leaves the objects. C102 proves the full statement with the lines at fault changed"
  },
  {
   "property": "C44",
   "status": "proved",
   "theorems": [
    "Lexi.C44_bool",
    "Lexi.C44_null",
    "Lexi.C44_char",
    "Lexi.C44_undefined",
    "Lexi.C44_not_live"
   ],
   "note": "every history; bool, null and char formatters"
  },
  {
   "property": "C45",
   "status": "partial",
   "theorems": [
    "Lexi.C45_refuted",
    "Lexi.C45_wrong_text",
    "Lexi.C45_int_exact_partial",
    "Lexi.C45_enum_exact_partial",
    "Lexi.C45_float_exact_partial",
    "Lexi.C45_own_origin_partial",
    "Lexi.C45_undefined",
    "Lexi.C45_not_live"
   ],
   "note": "false as stated: C45_refuted (copy, destroy the original, read the copy: undefined behaviour, for all three classes) and C45_wrong_text (copy of 1 prints 2 without any destruction). Proved instead: for every history the exact condition under which each live object reads its text, and that objects constructed and never assigned from another are always right. C104 proves the full statement with the lines at fault changed"
  },
  {
   "property": "C46",
   "status": "proved",
   "theorems": [
    "Lexi.C46_at_most_one",
    "Lexi.C46_format",
    "Lexi.C46_extract",
    "Lexi.C46_extract_cv",
    "Lexi.C46_same_kind",
    "Lexi.C46_isString",
    "Lexi.C46_strings"
   ],
   "note": "every type of the model; ranking of lexi's overloads by conversion sequence is not modelled"
  },
  {
   "property": "C47",
   "status": "proved",
   "theorems": [
    "Lexi.C47_enum_round_trip",
    "Lexi.C47_fpos_round_trip"
   ],
   "note": ""
  },
  {
   "property": "C48",
   "status": "proved",
   "theorems": [
    "Lexi.C48_char_as_string",
    "Lexi.C48_string_identity"
   ],
   "note": ""
  },
  {
   "property": "C49",
   "status": "proved",
   "theorems": [
    "Lexi.C49_float_escape",
    "Lexi.C49_special_escape",
    "Lexi.C49_scalar_escape",
    "Lexi.C49_enum_escape"
   ],
   "note": "scalar and float parts"
  },
  {
   "property": "C50",
   "status": "proved",
   "theorems": [
    "Lexi.C50_fast",
    "Lexi.C50_table",
    "Lexi.C50_fastPath_defined",
    "Lexi.C50_normal_defined",
    "Lexi.C50_fast_defined"
   ],
   "note": "correct rounding of the fast path and table bounds, assuming double evaluation in double precision (FLT_EVAL_METHOD 0)"
  },
  {
   "property": "C51",
   "status": "proved",
   "theorems": [
    "Lexi.C51_float_literals",
    "Lexi.C51_bool_literals",
    "Lexi.C51_null_literal",
    "Lexi.C51_extract_literals",
    "Lexi.C51_bool_round_trip"
   ],
   "note": "scalar and float parts"
  },
  {
   "property": "C52",
   "status": "proved",
   "theorems": [
    "Lexi.C52_shortest"
   ],
   "note": ""
  },
  {
   "property": "C53",
   "status": "proved",
   "theorems": [
    "Lexi.C53_decimal_fidelity"
   ],
   "note": ""
  },
  {
   "property": "C54",
   "status": "proved",
   "theorems": [
    "Lexi.C54_binary128_round_trip"
   ],
   "note": "strtold assumed correctly rounding (trusted)"
  },
  {
   "property": "C56",
   "status": "proved",
   "theorems": [
    "Lexi.C56_short_values_portable"
   ],
   "note": ""
  },
  {
   "property": "C55",
   "status": "proved",
   "theorems": [
    "Lexi.C55_nearest"
   ],
   "note": "binary64 long double; strtold assumed correctly rounding (DESIGN.md)"
  },
  {
   "property": "C57",
   "status": "proved",
   "theorems": [
    "Lexi.C57_needs_elision",
    "Lexi.C57_plain"
   ],
   "note": "elided: right text; not elided: undefined behaviour; for all values"
  },
  {
   "property": "C58",
   "status": "proved",
   "theorems": [
    "Lexi.C58_faithful"
   ],
   "note": "every long double format with p>=53, emin<=-1074, emax>=1024"
  },
  {
   "property": "C59",
   "status": "proved",
   "theorems": [
    "Lexi.C59_monotone"
   ],
   "note": "same formats as C58"
  },
  {
   "property": "C60",
   "status": "proved",
   "theorems": [
    "Lexi.C60_whole_text",
    "Lexi.C60_whole_read",
    "Lexi.C60_beyond"
   ],
   "note": ""
  },
  {
   "property": "C61",
   "status": "proved",
   "theorems": [
    "Lexi.C61_extract",
    "Lexi.C61_total",
    "Lexi.C61_double",
    "Lexi.C61_double_nearest",
    "Lexi.C61_float",
    "Lexi.C61_monotone"
   ],
   "note": "strtold is modelled after C11 7.22.1.3 with correct rounding, see DESIGN.md section 2"
  },
  {
   "property": "C62",
   "status": "proved",
   "theorems": [
    "Lexi.C62_float_faithful",
    "Lexi.C62_float_monotone",
    "Lexi.C62_float_nearest_exact",
    "Lexi.C62_float_not_nearest"
   ],
   "note": ""
  },
  {
   "property": "C63",
   "status": "proved",
   "theorems": [
    "Lexi.C63_format_nearest",
    "Lexi.C63_format_overflow",
    "Lexi.C63_not_injective"
   ],
   "note": ""
  },
  {
   "property": "C64",
   "status": "proved",
   "theorems": [
    "Lexi.C64_nearest",
    "Lexi.C64_not_round_trip",
    "Lexi.C64_whole_round_trip"
   ],
   "note": ""
  },
  {
   "property": "C65",
   "status": "proved",
   "theorems": [
    "Lexi.C65_json_integer_part",
    "Lexi.C65_json_truncates",
    "Lexi.C65_double_truncates",
    "Lexi.C65_double_scientific",
    "Lexi.C65_double_tiny_wrong"
   ],
   "note": ""
  },
  {
   "property": "C66",
   "status": "proved",
   "theorems": [
    "Lexi.C66_int_as_double",
    "Lexi.C66_int_as_float",
    "Lexi.C66_float_not_nearest"
   ],
   "note": ""
  },
  {
   "property": "C67",
   "status": "proved",
   "theorems": [
    "Lexi.C67_accuracy",
    "Lexi.C67_underflow",
    "Lexi.C67_underflow_small",
    "Lexi.C67_underflow_wrong",
    "Lexi.C67_overflow"
   ],
   "note": ""
  },
  {
   "property": "C68",
   "status": "proved",
   "theorems": [
    "Lexi.C68_escape",
    "Lexi.C68_jsonify",
    "Lexi.C68_char"
   ],
   "note": ""
  },
  {
   "property": "C69",
   "status": "proved",
   "theorems": [
    "Lexi.C69_document",
    "Lexi.C69_special_not_json",
    "Lexi.C69_utf8"
   ],
   "note": ""
  },
  {
   "property": "C70",
   "status": "proved",
   "theorems": [
    "Lexi.C70_renderings_agree"
   ],
   "note": ""
  },
  {
   "property": "C71",
   "status": "proved",
   "theorems": [
    "Lexi.C71_nearest",
    "Lexi.C71_half_digit",
    "Lexi.C71_unsafe_not_nearest"
   ],
   "note": "powers of two: compared with the decimals within 0.24 units; C71_unsafe_not_nearest shows that the hypothesis is needed"
  },
  {
   "property": "C72",
   "status": "proved",
   "theorems": [
    "Lexi.C72_terminated",
    "Lexi.C72_unterminated",
    "Lexi.C72_pointer",
    "Lexi.C72_text",
    "Lexi.C72_nul"
   ],
   "note": "C72_nul is the stated exception"
  },
  {
   "property": "C73",
   "status": "proved",
   "theorems": [
    "Lexi.C73_round_trip"
   ],
   "note": "the conditions on floating values are needed: C23_refuted_x87 and C64_not_round_trip"
  },
  {
   "property": "C74",
   "status": "proved",
   "theorems": [
    "Lexi.C74_decimal",
    "Lexi.C74_shift",
    "Lexi.C74_history"
   ],
   "note": "the true counterparts of C37, C39 and C42, as equivalences"
  },
  {
   "property": "C75",
   "status": "proved",
   "theorems": [
    "Lexi.C75_text",
    "Lexi.C75_value",
    "Lexi.C75_converted",
    "Lexi.C75_nullptr",
    "Lexi.C75_zero",
    "Lexi.C75_pointer",
    "Lexi.C75_volatile",
    "Lexi.C75_string"
   ],
   "note": "arguments of class types other than strings and std::fpos are outside the model"
  },
  {
   "property": "C76",
   "status": "proved",
   "theorems": [
    "Lexi.C76_constructor",
    "Lexi.C76_range",
    "Lexi.C76_represents",
    "Lexi.C76_underlying",
    "Lexi.C76_ambiguous",
    "Lexi.C76_conversion",
    "Lexi.C76_model"
   ],
   "note": "C76_model ties the result to the model of FormatEnum"
  },
  {
   "property": "C77",
   "status": "proved",
   "theorems": [
    "Lexi.C77_exact_condition"
   ],
   "note": "the exact condition left open by C23"
  },
  {
   "property": "C78",
   "status": "proved",
   "theorems": [
    "Lexi.C78_total",
    "Lexi.C78_normal_form",
    "Lexi.C78_number_misread",
    "Lexi.C78_word_misread"
   ],
   "note": ""
  },
  {
   "property": "C79",
   "status": "proved",
   "theorems": [
    "Lexi.C79_cut_at_point",
    "Lexi.C79_local_text",
    "Lexi.C79_round_trip",
    "Lexi.C79_float_round_trip",
    "Lexi.C79_special"
   ],
   "note": "the locale enters through a model of strtold with another decimal point byte (trusted, like strtold itself)"
  },
  {
   "property": "C80",
   "status": "proved",
   "theorems": [
    "Lexi.C80_float_as_double"
   ],
   "note": ""
  },
  {
   "property": "C81",
   "status": "proved",
   "theorems": [
    "Lexi.C81_double_as_float",
    "Lexi.C81_tie_differs"
   ],
   "note": ""
  },
  {
   "property": "C82",
   "status": "proved",
   "theorems": [
    "Lexi.C82_enum_extraction",
    "Lexi.C82_fpos_extraction"
   ],
   "note": ""
  },
  {
   "property": "C83",
   "status": "proved",
   "theorems": [
    "Lexi.C83_cut_at_point",
    "Lexi.C83_local_text",
    "Lexi.C83_round_trip",
    "Lexi.C83_special",
    "Lexi.C83_one_byte"
   ],
   "note": "the locale enters through a model of strtold with another decimal point string (trusted, like strtold itself)"
  },
  {
   "property": "C84",
   "status": "proved",
   "theorems": [
    "Lexi.C84_places",
    "Lexi.C84_integers",
    "Lexi.C84_thousands",
    "Lexi.C84_ranges",
    "Lexi.C84_wide",
    "Lexi.C84_share"
   ],
   "note": ""
  },
  {
   "property": "C85",
   "status": "proved",
   "theorems": [
    "Lexi.C85_double",
    "Lexi.C85_float",
    "Lexi.C85_places_double",
    "Lexi.C85_places_float",
    "Lexi.C85_places_double_exact",
    "Lexi.C85_places_float_exact"
   ],
   "note": "where long double is binary64, doubles are covered by C55"
  },
  {
   "property": "C86",
   "status": "proved",
   "theorems": [
    "Lexi.C86_binary64",
    "Lexi.C86_fast",
    "Lexi.C86_nearest",
    "Lexi.C86_not_nearest"
   ],
   "note": "assumes the wider result is rounded to double by the return and the assignment"
  },
  {
   "property": "C87",
   "status": "proved",
   "theorems": [
    "Lexi.C87_accepts",
    "Lexi.C87_nearest",
    "Lexi.C87_two_steps",
    "Lexi.C87_exact_step",
    "Lexi.C87_infinite",
    "Lexi.C87_accepted_not_nearest"
   ],
   "note": "double arithmetic in double precision"
  },
  {
   "property": "C88",
   "status": "proved",
   "theorems": [
    "Lexi.C88_variants",
    "Lexi.C88_defined",
    "Lexi.C88_value"
   ],
   "note": ""
  },
  {
   "property": "C89",
   "status": "proved",
   "theorems": [
    "Lexi.C89_read",
    "Lexi.C89_read_text",
    "Lexi.C89_other",
    "Lexi.C89_same_text",
    "Lexi.C89_format_long",
    "Lexi.C89_round_trip",
    "Lexi.C89_tenth"
   ],
   "note": "strtold and the conversions are taken to round in the current direction; the literal in dk was rounded to nearest by the compiler"
  },
  {
   "property": "C90",
   "status": "proved",
   "theorems": [
    "Lexi.C90_int",
    "Lexi.C90_int_check",
    "Lexi.C90_int_own",
    "Lexi.C90_float",
    "Lexi.C90_double_silent",
    "Lexi.C90_float_silent",
    "Lexi.C90_double_check",
    "Lexi.C90_double_own"
   ],
   "note": "the library stores in errno what C11 7.22.1.3 and 7.22.1.4 say; its free choices (no conversion, underflow) are parameters"
  },
  {
   "property": "C91",
   "status": "proved",
   "theorems": [
    "Lexi.C91_one_cycle",
    "Lexi.C91_at_most_once",
    "Lexi.C91_no_drift",
    "Lexi.C91_float",
    "Lexi.C91_normal_form",
    "Lexi.C91_long_double"
   ],
   "note": ""
  },
  {
   "property": "C92",
   "status": "proved",
   "theorems": [
    "Lexi.C92_one_digit",
    "Lexi.C92_values",
    "Lexi.C92_length",
    "Lexi.C92_only_overread",
    "Lexi.C92_double_float"
   ],
   "note": ""
  },
  {
   "property": "C93",
   "status": "proved",
   "theorems": [
    "Lexi.C93_int_exact",
    "Lexi.C93_int_size",
    "Lexi.C93_float_exact",
    "Lexi.C93_float_size"
   ],
   "note": "literals without a NUL inside; the size 26 is for the default literals"
  },
  {
   "property": "C94",
   "status": "proved",
   "theorems": [
    "Lexi.C94_shell",
    "Lexi.C94_command_line",
    "Lexi.C94_regex",
    "Lexi.C94_scalars"
   ],
   "note": "the shell reader has no quotes, expansions or operators: text that needs them is outside it; locale C; scalars with the default literals"
  },
  {
   "property": "C95",
   "status": "proved",
   "theorems": [
    "Lexi.C95_javascript",
    "Lexi.C95_page"
   ],
   "note": "source text and string values as UTF-8 bytes"
  },
  {
   "property": "C96",
   "status": "proved",
   "theorems": [
    "Lexi.C96_strings",
    "Lexi.C96_values",
    "Lexi.C96_lines",
    "Lexi.C96_value_lines"
   ],
   "note": "values: default literals"
  },
  {
   "property": "C97",
   "status": "proved",
   "theorems": [
    "Lexi.C97_finite",
    "Lexi.C97_integers",
    "Lexi.C97_special",
    "Lexi.C97_words"
   ],
   "note": "grammars of the standards written out in Spec/Notations, without C suffixes, TOML underscores and JSON5 hexadecimal numbers"
  },
  {
   "property": "C98",
   "status": "proved",
   "theorems": [
    "Lexi.C98_counting",
    "Lexi.C98_bounded",
    "Lexi.C98_total"
   ],
   "note": "counted copies of the functions (Model/Work) with a proof that counting changes nothing (C98_counting); the counters are ghost state, the turns are those of the source loops"
  },
  {
   "property": "C99",
   "status": "proved",
   "theorems": [
    "Lexi.C99_min3",
    "Lexi.C99_right_iff",
    "Lexi.C99_own_digits"
   ],
   "note": "withinHalfULP is a stub and unused; the statement says exactly where its constant answer is right"
  },
  {
   "property": "C100",
   "status": "proved",
   "theorems": [
    "Lexi.BigInt.C100_same",
    "Lexi.BigInt.C100_add",
    "Lexi.BigInt.C100_mul",
    "Lexi.BigInt.C100_mulPow5",
    "Lexi.BigInt.C100_shift",
    "Lexi.BigInt.C100_history"
   ],
   "note": "the operations are written again keeping the object at the throw; C100_same ties them to the model used elsewhere"
  },
  {
   "property": "C101",
   "status": "proved",
   "theorems": [
    "Lexi.C101_prefix",
    "Lexi.C101_suffix",
    "Lexi.C101_joined",
    "Lexi.C101_list"
   ],
   "note": ""
  },
  {
   "property": "C102",
   "status": "proved",
   "theorems": [
    "Lexi.C102_shift",
    "Lexi.C102_decimal",
    "Lexi.C102_difference",
    "Lexi.C102_history"
   ],
   "note": "About changed lines, not the present code: it shows that the properties refuted by C39_refuted, C41_refuted, C42_refuted, C43_refuted and C37_limit can be proved once those lines are changed, so nothing else in the class stands in their way."
  },
  {
   "property": "C103",
   "status": "proved",
   "theorems": [
    "Lexi.C103_defined",
    "Lexi.C103_same_text",
    "Lexi.C103_nearest",
    "Lexi.C103_unchanged",
    "Lexi.C103_repairs"
   ],
   "note": "About a changed table, not the present code: it shows that nothing but the table stands in the way of C26, C35 and C71. A read behind the nineteen entries stays undefined in the statement. C103_defined is stated with the default literals, as literals of any length need not fit the buffer."
  },
  {
   "property": "C104",
   "status": "proved",
   "theorems": [
    "Lexi.C104_copies",
    "Lexi.C104_undefined",
    "Lexi.C104_elision",
    "Lexi.C104_same_uncopied"
   ],
   "note": "About classes with two operations added, not the present ones: C45_refuted and C57_needs_elision are about those."
  },
  {
   "property": "C105",
   "status": "proved",
   "theorems": [
    "Lexi.C105_double_round_trip",
    "Lexi.C105_float_round_trip",
    "Lexi.C105_nearest"
   ],
   "note": "About changed conversion operators, not the present ones: C23_refuted_x87 and C62_float_not_nearest are about those. strtod and strtof are assumed to round correctly, as strtold is elsewhere (trusted)."
  },
  {
   "property": "C106",
   "status": "proved",
   "theorems": [
    "Lexi.C106_read",
    "Lexi.C106_value",
    "Lexi.C106_printed_plain",
    "Lexi.C106_last_byte",
    "Lexi.C106_list"
   ],
   "note": "The list theorem is for platforms whose strtold result is a double (F = binary64); elsewhere C23 says which doubles come back. strtold is trusted to follow the C standard."
  },
  {
   "property": "C107",
   "status": "proved",
   "theorems": [
    "Lexi.C107_bool",
    "Lexi.C107_null",
    "Lexi.C107_nan",
    "Lexi.C107_infinity",
    "Lexi.C107_nan_not_json",
    "Lexi.C107_no_json_nan",
    "Lexi.C107_json",
    "Lexi.C107_round_trip"
   ],
   "note": "The round trip assumes words for the infinities; numerals beyond the threshold are covered by C107_infinity and C107_json for long double = double."
  },
  {
   "property": "C108",
   "status": "proved",
   "theorems": [
    "Lexi.C108_round_trip",
    "Lexi.C108_long_double",
    "Lexi.C108_portable"
   ],
   "note": "Of the changed conversions and the longer table, not of the present code (C23 and C35 are false of it); shows that these two changes suffice together. Copies are C104."
  },
  {
   "property": "C109",
   "status": "proved",
   "theorems": [
    "Lexi.C109_bytes",
    "Lexi.C109_escape",
    "Lexi.C109_jsonify_length",
    "Lexi.C109_jsonify_requests"
   ],
   "note": "Behaviour of std::string from [string.capacity] and [string.append]; libraries are assumed to choose a capacity that suffices and is allowed, and 2*max_size+1 to fit in size_t (true of libstdc++ and MSVC). Strings returned by the other functions are not covered."
  },
  {
   "property": "C110",
   "status": "proved",
   "theorems": [
    "Lexi.C110_accesses",
    "Lexi.C110_plain",
    "Lexi.C110_pointers",
    "Lexi.C110_texts",
    "Lexi.C110_repaired"
   ],
   "note": "Accesses are to whole objects and an action is one step of the schedule; C110_accesses proves that an action depends on and changes nothing else. The absence of mutable static data is read off the source (Model/Threads.lean)."
  },
  {
   "property": "C111",
   "status": "proved",
   "theorems": [
    "Lexi.C111_text",
    "Lexi.C111_number",
    "Lexi.C111_cycle",
    "Lexi.C111_limit",
    "Lexi.C111_one_digit",
    "Lexi.C111_portable"
   ],
   "note": "The limit holds for every environment by C92 (length of the text). C53 gives the value for decimals well inside the interval; here the exact bytes, and no condition on the double but that it is the nearest."
  },
  {
   "property": "C112",
   "status": "proved",
   "theorems": [
    "Lexi.C112_number",
    "Lexi.C112_exact",
    "Lexi.C112_float_exact",
    "Lexi.C112_float_long",
    "Lexi.C112_float_back",
    "Lexi.C112_cents",
    "Lexi.C112_float_limit"
   ],
   "note": "Floats are widened to double before formatting (src/float.cpp:53-56), so their shortest digits are those of the double."
  },
  {
   "property": "C113",
   "status": "proved",
   "theorems": [
    "Lexi.C113_scalar",
    "Lexi.C113_char",
    "Lexi.C113_narrow",
    "Lexi.C113_int",
    "Lexi.C113_float",
    "Lexi.C113_text"
   ],
   "note": "Formatter objects are on the stack; the copies of formatters that C++14 may make are C57."
  },
  {
   "property": "C114",
   "status": "proved",
   "theorems": [
    "Lexi.C114_kind",
    "Lexi.C114_unique",
    "Lexi.C114_shows",
    "Lexi.C114_decodes",
    "Lexi.C114_same",
    "Lexi.C114_string",
    "Lexi.C114_string_mixes"
   ],
   "note": "The literals are the default ones; a long double means the double it is converted to (C63)."
  },
  {
   "property": "C115",
   "status": "proved",
   "theorems": [
    "Lexi.C115_string",
    "Lexi.C115_pointer",
    "Lexi.C115_number",
    "Lexi.C115_round_trip",
    "Lexi.C115_messages"
   ],
   "note": "strtoull and strtold are taken to allocate nothing; the memory of the exception object itself is not modelled. LEXI_ASSERT stringizes string literals, so two messages have quotes around them."
  },
  {
   "property": "C116",
   "status": "proved",
   "theorems": [
    "Lexi.C116_decodes",
    "Lexi.C116_stream",
    "Lexi.C116_same"
   ],
   "note": "Documents with NaN or infinities are no JSON (C69) but still unambiguous."
  },
  {
   "property": "C117",
   "status": "proved",
   "theorems": [
    "Lexi.C117_csv_string",
    "Lexi.C117_csv_json",
    "Lexi.C117_csv_values",
    "Lexi.C117_form_string",
    "Lexi.C117_form_values"
   ],
   "note": "The conditions are exact: escape and jsonify are no protection in CSV or URLs beyond them."
  },
  {
   "property": "C118",
   "status": "proved",
   "theorems": [
    "Lexi.C118_across",
    "Lexi.C118_order",
    "Lexi.C118_mixed",
    "Lexi.C118_long",
    "Lexi.C118_bytes"
   ],
   "note": "Sorting texts by numeric value (sort -g) sorts the values; sorting them as strings does not."
  },
  {
   "property": "C119",
   "status": "proved",
   "theorems": [
    "Lexi.C119_standard_breakout",
    "Lexi.C119_standard",
    "Lexi.C119_mysql",
    "Lexi.C119_mysql_same",
    "Lexi.C119_gbk_breakout",
    "Lexi.C119_postgres",
    "Lexi.C119_json_standard",
    "Lexi.C119_json_breakout",
    "Lexi.C119_json_mysql"
   ],
   "note": "escape is documented only as escaping special characters. It is enough for MySQL (but for LIKE wildcards and character sets with backslash as a second byte) and for E literals, and is no protection at all in standard SQL. The PostgreSQL reader of the specification refuses numeric escapes, which escape never writes."
  },
  {
   "property": "C120",
   "status": "proved",
   "theorems": [
    "Lexi.C120_glob",
    "Lexi.C120_like",
    "Lexi.C120_like_mysql",
    "Lexi.C120_like_mysql_wild",
    "Lexi.C120_like_mysql_lost",
    "Lexi.C120_like_mysql_twice",
    "Lexi.C120_like_mysql_exact",
    "Lexi.C120_like_postgres"
   ],
   "note": "A backslash at the end of a pattern stands for itself in MySQL and is refused in PostgreSQL; the result of escape has none there."
  },
  {
   "property": "C121",
   "status": "proved",
   "theorems": [
    "Lexi.C121_always",
    "Lexi.C121_c",
    "Lexi.C121_rust",
    "Lexi.C121_toml",
    "Lexi.C121_python_bytes",
    "Lexi.C121_sh",
    "Lexi.C121_closed",
    "Lexi.C121_java"
   ],
   "note": "Literals are read as bytes, C without trigraphs; what a language does with ill-formed UTF-8 or a byte order mark is left out (jsonify keeps both as they are, C68). The readers refuse octal and hexadecimal escapes, which jsonify never writes, and the expansions of a shell."
  },
  {
   "property": "C122",
   "status": "proved",
   "theorems": [
    "Lexi.C122_attribute",
    "Lexi.C122_json",
    "Lexi.C122_escape",
    "Lexi.C122_text",
    "Lexi.C122_values"
   ],
   "note": "Bytes are read as UTF-8; ill-formed sequences, U+FFFE, U+FFFF and references by number are outside the reader."
  },
  {
   "property": "C123",
   "status": "proved",
   "theorems": [
    "Lexi.C123_escape_exact",
    "Lexi.C123_escape_length",
    "Lexi.C123_escape_back",
    "Lexi.C123_escape_layers",
    "Lexi.C123_json_length",
    "Lexi.C123_json_grows",
    "Lexi.C123_json_back",
    "Lexi.C123_json_layers"
   ],
   "note": "Memory is not bounded in these statements; C109 and C113 are about what happens when it is."
  },
  {
   "property": "C124",
   "status": "proved",
   "theorems": [
    "Lexi.C124_escape_cut",
    "Lexi.C124_escape_shows",
    "Lexi.C124_escape_back",
    "Lexi.C124_json_closed"
   ],
   "note": "That no proper prefix is read as it is, without a quote put behind it, is C17. A cut may also fall within the UTF-8 encoding of a character; the statements are about bytes."
  },
  {
   "property": "C125",
   "status": "proved",
   "theorems": [
    "Lexi.C125_escape_prefix",
    "Lexi.C125_escape_infix",
    "Lexi.C125_escape_suffix",
    "Lexi.C125_json_prefix",
    "Lexi.C125_json_infix",
    "Lexi.C125_json_infix_plain"
   ],
   "note": "For occurrences within JSON texts C125_json_infix refutes the direction that needs the condition, with a line feed and the letter n."
  },
  {
   "property": "C126",
   "status": "proved",
   "theorems": [
    "Lexi.C126_escape",
    "Lexi.C126_json_lower",
    "Lexi.C126_json_upper"
   ],
   "note": "The letters are those of ASCII, as in the C locale."
  }
 ]
}