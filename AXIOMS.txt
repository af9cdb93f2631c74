Lexi.BigInt.C100_add: Classical.choice, Quot.sound, propext
Lexi.BigInt.C100_history: Classical.choice, Quot.sound, propext
Lexi.BigInt.C100_mul: Classical.choice, Quot.sound, propext
Lexi.BigInt.C100_mulPow5: Classical.choice, Quot.sound, propext
Lexi.BigInt.C100_same: Quot.sound, propext
Lexi.BigInt.C100_shift: Quot.sound, propext
Lexi.C01_int_canonical: Classical.choice, Quot.sound, propext
Lexi.C01_unsupported_long_truncated: Classical.choice, Quot.sound, propext
Lexi.C02_int_round_trip: Classical.choice, Quot.sound, propext
Lexi.C03_buffer_of_20_overflows: Quot.sound, propext
Lexi.C03_int_buffer: Classical.choice, Quot.sound, propext
Lexi.C04_bool: Quot.sound, propext
Lexi.C04_char: Quot.sound, propext
Lexi.C04_enum: Classical.choice, Quot.sound, propext
Lexi.C04_float: Classical.choice, Quot.sound, propext
Lexi.C04_int: Classical.choice, Quot.sound, propext
Lexi.C04_null: Quot.sound, propext
Lexi.C05_same_number_same_text: Classical.choice, Quot.sound, propext
Lexi.C06_unsigned_text_order: Classical.choice, Quot.sound, propext
Lexi.C07_int_extraction: Classical.choice, Quot.sound, propext
Lexi.C08_int_extraction_ignores: Classical.choice, Quot.sound, propext
Lexi.C08_int_extraction_nul: Quot.sound, propext
Lexi.C08_int_extraction_space: Quot.sound, propext
Lexi.C09_int_out_of_range: Classical.choice, Quot.sound, propext
Lexi.C101_joined: Classical.choice, Quot.sound, propext
Lexi.C101_list: Classical.choice, Quot.sound, propext
Lexi.C101_prefix: Classical.choice, Quot.sound, propext
Lexi.C101_suffix: Classical.choice, Quot.sound, propext
Lexi.C102_decimal: Classical.choice, Quot.sound, propext
Lexi.C102_difference: Classical.choice, Quot.sound, propext
Lexi.C102_history: Classical.choice, Quot.sound, propext
Lexi.C102_shift: Classical.choice, Quot.sound, propext
Lexi.C103_defined: Classical.choice, Quot.sound, propext
Lexi.C103_nearest: Classical.choice, Quot.sound, propext
Lexi.C103_repairs: Classical.choice, Quot.sound, propext
Lexi.C103_same_text: Classical.choice, Quot.sound, propext
Lexi.C103_unchanged: Classical.choice, Quot.sound, propext
Lexi.C104_copies: Classical.choice, Quot.sound, propext
Lexi.C104_elision: Classical.choice, Quot.sound, propext
Lexi.C104_same_uncopied: Quot.sound, propext
Lexi.C104_undefined: Classical.choice, Quot.sound, propext
Lexi.C105_double_round_trip: Classical.choice, Quot.sound, propext
Lexi.C105_float_round_trip: Classical.choice, Quot.sound, propext
Lexi.C105_nearest: Classical.choice, Quot.sound, propext
Lexi.C106_last_byte: Classical.choice, Quot.sound, propext
Lexi.C106_list: Classical.choice, Quot.sound, propext
Lexi.C106_printed_plain: Classical.choice, Quot.sound, propext
Lexi.C106_read: Classical.choice, Quot.sound, propext
Lexi.C106_value: Classical.choice, Quot.sound, propext
Lexi.C107_bool: Quot.sound, propext
Lexi.C107_infinity: Classical.choice, Quot.sound, propext
Lexi.C107_json: Classical.choice, Quot.sound, propext
Lexi.C107_nan: Classical.choice, Quot.sound, propext
Lexi.C107_nan_not_json: Classical.choice, Quot.sound, propext
Lexi.C107_no_json_nan: Classical.choice, Quot.sound, propext
Lexi.C107_null: Quot.sound, propext
Lexi.C107_round_trip: Classical.choice, Quot.sound, propext
Lexi.C108_long_double: Classical.choice, Quot.sound, propext
Lexi.C108_portable: Classical.choice, Quot.sound, propext
Lexi.C108_round_trip: Classical.choice, Quot.sound, propext
Lexi.C109_bytes: Quot.sound, propext
Lexi.C109_escape: Quot.sound, propext
Lexi.C109_jsonify_length: Classical.choice, Quot.sound, propext
Lexi.C109_jsonify_requests: Classical.choice, Quot.sound, propext
Lexi.C10_bool_extract: Classical.choice, Quot.sound, propext
Lexi.C10_bool_format: Classical.choice, Quot.sound, propext
Lexi.C10_bool_round_trip: Classical.choice, Quot.sound, propext
Lexi.C110_accesses: Quot.sound, propext
Lexi.C110_plain: Quot.sound, propext
Lexi.C110_pointers: Classical.choice, Quot.sound, propext
Lexi.C110_repaired: Classical.choice, Quot.sound, propext
Lexi.C110_texts: Classical.choice, Quot.sound, propext
Lexi.C111_cycle: Classical.choice, Quot.sound, propext
Lexi.C111_limit: Classical.choice, Quot.sound, propext
Lexi.C111_number: Classical.choice, Quot.sound, propext
Lexi.C111_one_digit: Classical.choice, Quot.sound, propext
Lexi.C111_portable: Classical.choice, Quot.sound, propext
Lexi.C111_text: Classical.choice, Quot.sound, propext
Lexi.C112_cents: Classical.choice, Quot.sound, propext
Lexi.C112_exact: Classical.choice, Quot.sound, propext
Lexi.C112_float_back: Classical.choice, Quot.sound, propext
Lexi.C112_float_exact: Classical.choice, Quot.sound, propext
Lexi.C112_float_limit: Classical.choice, Quot.sound, propext
Lexi.C112_float_long: Classical.choice, Quot.sound, propext
Lexi.C112_number: Classical.choice, Quot.sound, propext
Lexi.C113_char: Classical.choice, Quot.sound, propext
Lexi.C113_float: Classical.choice, Quot.sound, propext
Lexi.C113_int: Classical.choice, Quot.sound, propext
Lexi.C113_narrow: Classical.choice, Quot.sound, propext
Lexi.C113_scalar: Classical.choice, Quot.sound, propext
Lexi.C113_text: Classical.choice, Quot.sound, propext
Lexi.C114_decodes: Classical.choice, Quot.sound, propext
Lexi.C114_kind: Classical.choice, Quot.sound, propext
Lexi.C114_same: Classical.choice, Quot.sound, propext
Lexi.C114_shows: Classical.choice, Quot.sound, propext
Lexi.C114_string: Classical.choice, Quot.sound, propext
Lexi.C114_string_mixes: Classical.choice, Quot.sound, propext
Lexi.C114_unique: Classical.choice, Quot.sound, propext
Lexi.C115_messages: Classical.choice, Quot.sound, propext
Lexi.C115_number: Classical.choice, Quot.sound, propext
Lexi.C115_pointer: Classical.choice, Quot.sound, propext
Lexi.C115_round_trip: Classical.choice, Quot.sound, propext
Lexi.C115_string: Classical.choice, Quot.sound, propext
Lexi.C116_decodes: Classical.choice, Quot.sound, propext
Lexi.C116_same: Classical.choice, Quot.sound, propext
Lexi.C116_stream: Classical.choice, Quot.sound, propext
Lexi.C117_csv_json: Quot.sound, propext
Lexi.C117_csv_string: Quot.sound, propext
Lexi.C117_csv_values: Classical.choice, Quot.sound, propext
Lexi.C117_form_string: Classical.choice, Quot.sound, propext
Lexi.C117_form_values: Classical.choice, Quot.sound, propext
Lexi.C118_across: Classical.choice, Quot.sound, propext
Lexi.C118_bytes: Classical.choice, Quot.sound, propext
Lexi.C118_long: Classical.choice, Quot.sound, propext
Lexi.C118_mixed: Classical.choice, Quot.sound, propext
Lexi.C118_order: Classical.choice, Quot.sound, propext
Lexi.C119_gbk_breakout: Quot.sound, propext
Lexi.C119_json_breakout: Quot.sound, propext
Lexi.C119_json_mysql: Classical.choice, Quot.sound, propext
Lexi.C119_json_standard: Quot.sound, propext
Lexi.C119_mysql: Quot.sound, propext
Lexi.C119_mysql_same: Quot.sound, propext
Lexi.C119_postgres: Quot.sound, propext
Lexi.C119_standard: Quot.sound, propext
Lexi.C119_standard_breakout: Quot.sound, propext
Lexi.C11_null: Classical.choice, Quot.sound, propext
Lexi.C120_glob: Quot.sound, propext
Lexi.C120_like: Quot.sound, propext
Lexi.C120_like_mysql: Quot.sound, propext
Lexi.C120_like_mysql_exact: Classical.choice, Quot.sound, propext
Lexi.C120_like_mysql_lost: Quot.sound, propext
Lexi.C120_like_mysql_twice: Quot.sound, propext
Lexi.C120_like_mysql_wild: Quot.sound, propext
Lexi.C120_like_postgres: Quot.sound, propext
Lexi.C121_always: Classical.choice, Quot.sound, propext
Lexi.C121_c: Classical.choice, Quot.sound, propext
Lexi.C121_closed: Quot.sound, propext
Lexi.C121_java: Quot.sound, propext
Lexi.C121_python_bytes: Classical.choice, Quot.sound, propext
Lexi.C121_rust: Classical.choice, Quot.sound, propext
Lexi.C121_sh: Classical.choice, Quot.sound, propext
Lexi.C121_toml: Classical.choice, Quot.sound, propext
Lexi.C122_attribute: Quot.sound, propext
Lexi.C122_escape: Quot.sound, propext
Lexi.C122_json: Quot.sound, propext
Lexi.C122_text: Quot.sound, propext
Lexi.C122_values: Classical.choice, Quot.sound, propext
Lexi.C123_escape_back: Quot.sound, propext
Lexi.C123_escape_exact: Quot.sound, propext
Lexi.C123_escape_layers: Classical.choice, Quot.sound, propext
Lexi.C123_escape_length: Quot.sound, propext
Lexi.C123_json_back: Classical.choice, Quot.sound, propext
Lexi.C123_json_grows: Quot.sound, propext
Lexi.C123_json_layers: Classical.choice, Quot.sound, propext
Lexi.C123_json_length: Quot.sound, propext
Lexi.C124_escape_back: Classical.choice, Quot.sound, propext
Lexi.C124_escape_cut: Quot.sound, propext
Lexi.C124_escape_shows: Classical.choice, Quot.sound, propext
Lexi.C124_json_closed: Classical.choice, Quot.sound, propext
Lexi.C125_escape_infix: Classical.choice, Quot.sound, propext
Lexi.C125_escape_prefix: Classical.choice, Quot.sound, propext
Lexi.C125_escape_suffix: Quot.sound, propext
Lexi.C125_json_infix: Classical.choice, Quot.sound, propext
Lexi.C125_json_infix_plain: Classical.choice, Quot.sound, propext
Lexi.C125_json_prefix: Classical.choice, Quot.sound, propext
Lexi.C126_escape: propext
Lexi.C126_json_lower: Quot.sound, propext
Lexi.C126_json_upper: Classical.choice, Quot.sound, propext
Lexi.C12_char: propext
Lexi.C13_escape_exact: propext
Lexi.C13_escape_transparent: Quot.sound, propext
Lexi.C14_escape_injective: propext
Lexi.C14_escape_reversible: propext
Lexi.C15_escape_compositional: Quot.sound, propext
Lexi.C16_jsonify_decodes: Classical.choice, Quot.sound, propext
Lexi.C17_jsonify_no_breakout: Classical.choice, Quot.sound, propext
Lexi.C18_jsonify_transparent: Classical.choice, Quot.sound, propext
Lexi.C19_char_signedness: Quot.sound, propext
Lexi.C20_jsonify_scalar: Classical.choice, Quot.sound, propext
Lexi.C20_special_not_json: Classical.choice, Quot.sound, propext
Lexi.C21_text_identifies_value: Classical.choice, Quot.sound, propext
Lexi.C22_round_trip: Classical.choice, Quot.sound, propext
Lexi.C22_special: Classical.choice, Quot.sound, propext
Lexi.C23_neighbour_partial: Classical.choice, Quot.sound, propext
Lexi.C23_refuted_x87: Classical.choice, Quot.sound, propext
Lexi.C23_wide_partial: Classical.choice, Quot.sound, propext
Lexi.C24_float_round_trip: Classical.choice, Quot.sound, propext
Lexi.C25_digits: Classical.choice, Quot.sound, propext
Lexi.C25_write_safety: Classical.choice, Quot.sound, propext
Lexi.C26_exact_partial: Classical.choice, Quot.sound, propext
Lexi.C26_refuted: Classical.choice, Quot.sound, propext
Lexi.C26_short_partial: Classical.choice, Quot.sound, propext
Lexi.C27_text_grammar: Classical.choice, Quot.sound, propext
Lexi.C28_by_value: Classical.choice, Quot.sound, propext
Lexi.C28_notation: Classical.choice, Quot.sound, propext
Lexi.C29_sign_symmetry: Classical.choice, Quot.sound, propext
Lexi.C30_finite_not_special: Classical.choice, Quot.sound, propext
Lexi.C30_special_values: Classical.choice, Quot.sound, propext
Lexi.C31_distinct: Classical.choice, Quot.sound, propext
Lexi.C31_order: Classical.choice, Quot.sound, propext
Lexi.C31_sign: Classical.choice, Quot.sound, propext
Lexi.C32_accuracy: Classical.choice, Quot.sound, propext
Lexi.C33_cached_power: Classical.choice, Quot.sound, propext
Lexi.C33_evaluations: Classical.choice, Quot.sound, propext
Lexi.C34_table: Classical.choice, Quot.sound, propext
Lexi.C35_defined_text: Classical.choice, Quot.sound, propext
Lexi.C35_diyfp_variants: Classical.choice, Quot.sound, propext
Lexi.C35_mulAdd: Classical.choice, Quot.sound, propext
Lexi.C35_same_text: Classical.choice, Quot.sound, propext
Lexi.C35_text_depends_on_memory: Classical.choice, Quot.sound, propext
Lexi.C36_classes: Classical.choice, Quot.sound, propext
Lexi.C37_decimal_partial: Classical.choice, Quot.sound, propext
Lexi.C37_limit: Classical.choice, Quot.sound, propext
Lexi.C37_not_digit: Classical.choice, Quot.sound, propext
Lexi.C37_sound: Classical.choice, Quot.sound, propext
Lexi.C38_add: Classical.choice, Quot.sound, propext
Lexi.C38_mul: Classical.choice, Quot.sound, propext
Lexi.C38_mulPow5: Classical.choice, Quot.sound, propext
Lexi.C38_overloads: Classical.choice, Quot.sound, propext
Lexi.C39_exact_partial: Classical.choice, Quot.sound, propext
Lexi.C39_over: Classical.choice, Quot.sound, propext
Lexi.C39_refuted: Classical.choice, Quot.sound, propext
Lexi.C39_whole_words: Classical.choice, Quot.sound, propext
Lexi.C40_accessors: Classical.choice, Quot.sound, propext
Lexi.C40_compare: Classical.choice, Quot.sound, propext
Lexi.C40_order: Classical.choice, Quot.sound, propext
Lexi.C41_difference_iff: Classical.choice, Quot.sound, propext
Lexi.C41_difference_partial: Classical.choice, Quot.sound, propext
Lexi.C41_equal: Classical.choice, Quot.sound, propext
Lexi.C41_in_place_wrong: propext
Lexi.C41_refuted: Classical.choice, Quot.sound, propext
Lexi.C42_invariant: Classical.choice, Quot.sound, propext
Lexi.C42_refines_partial: Classical.choice, Quot.sound, propext
Lexi.C42_refuted: Classical.choice, Quot.sound, propext
Lexi.C42_total_partial: Classical.choice, Quot.sound, propext
Lexi.C43_others_partial: Classical.choice, Quot.sound, propext
Lexi.C43_refuted: Classical.choice, Quot.sound, propext
Lexi.C43_shl_iff: Classical.choice, Quot.sound, propext
Lexi.C44_bool: Classical.choice, Quot.sound, propext
Lexi.C44_char: propext
Lexi.C44_not_live: Classical.choice, Quot.sound, propext
Lexi.C44_null: Classical.choice, Quot.sound, propext
Lexi.C44_undefined: Classical.choice, Quot.sound, propext
Lexi.C45_enum_exact_partial: Classical.choice, Quot.sound, propext
Lexi.C45_float_exact_partial: Classical.choice, Quot.sound, propext
Lexi.C45_int_exact_partial: Classical.choice, Quot.sound, propext
Lexi.C45_not_live: Classical.choice, Quot.sound, propext
Lexi.C45_own_origin_partial: Classical.choice, Quot.sound, propext
Lexi.C45_refuted: Classical.choice, Quot.sound, propext
Lexi.C45_undefined: Classical.choice, Quot.sound, propext
Lexi.C45_wrong_text: Classical.choice, Quot.sound, propext
Lexi.C46_at_most_one: Classical.choice, Quot.sound, propext
Lexi.C46_extract: propext
Lexi.C46_extract_cv: propext
Lexi.C46_format: propext
Lexi.C46_isString: Classical.choice, Quot.sound, propext
Lexi.C46_same_kind: Classical.choice, Quot.sound, propext
Lexi.C46_strings: Classical.choice, Quot.sound, propext
Lexi.C47_enum_round_trip: Classical.choice, Quot.sound, propext
Lexi.C47_fpos_round_trip: Classical.choice, Quot.sound, propext
Lexi.C48_char_as_string: propext
Lexi.C48_string_identity: Quot.sound, propext
Lexi.C49_enum_escape: Classical.choice, Quot.sound, propext
Lexi.C49_float_escape: Classical.choice, Quot.sound, propext
Lexi.C49_scalar_escape: Classical.choice, Quot.sound, propext
Lexi.C49_special_escape: Classical.choice, Quot.sound, propext
Lexi.C50_fast: Classical.choice, Quot.sound, propext
Lexi.C50_fastPath_defined: Classical.choice, Quot.sound, propext
Lexi.C50_fast_defined: Classical.choice, Quot.sound, propext
Lexi.C50_normal_defined: Classical.choice, Quot.sound, propext
Lexi.C50_table: Classical.choice, Quot.sound, propext
Lexi.C51_bool_literals: Quot.sound, propext
Lexi.C51_bool_round_trip: Quot.sound, propext
Lexi.C51_extract_literals: Quot.sound, propext
Lexi.C51_float_literals: Classical.choice, Quot.sound, propext
Lexi.C51_null_literal: Quot.sound, propext
Lexi.C52_shortest: Classical.choice, Quot.sound, propext
Lexi.C53_decimal_fidelity: Classical.choice, Quot.sound, propext
Lexi.C54_binary128_round_trip: Classical.choice, Quot.sound, propext
Lexi.C55_nearest: Classical.choice, Quot.sound, propext
Lexi.C56_short_values_portable: Classical.choice, Quot.sound, propext
Lexi.C57_needs_elision: Classical.choice, Quot.sound, propext
Lexi.C57_plain: Classical.choice, Quot.sound, propext
Lexi.C58_faithful: Classical.choice, Quot.sound, propext
Lexi.C59_monotone: Classical.choice, Quot.sound, propext
Lexi.C60_beyond: Classical.choice, Quot.sound, propext
Lexi.C60_whole_read: Classical.choice, Quot.sound, propext
Lexi.C60_whole_text: Classical.choice, Quot.sound, propext
Lexi.C61_double: Classical.choice, Quot.sound, propext
Lexi.C61_double_nearest: Classical.choice, Quot.sound, propext
Lexi.C61_extract: Classical.choice, Quot.sound, propext
Lexi.C61_float: Classical.choice, Quot.sound, propext
Lexi.C61_monotone: Classical.choice, Quot.sound, propext
Lexi.C61_total: Classical.choice, Quot.sound, propext
Lexi.C62_float_faithful: Classical.choice, Quot.sound, propext
Lexi.C62_float_monotone: Classical.choice, Quot.sound, propext
Lexi.C62_float_nearest_exact: Classical.choice, Quot.sound, propext
Lexi.C62_float_not_nearest: Classical.choice, Quot.sound, propext
Lexi.C63_format_nearest: Classical.choice, Quot.sound, propext
Lexi.C63_format_overflow: Classical.choice, Quot.sound, propext
Lexi.C63_not_injective: Classical.choice, Quot.sound, propext
Lexi.C64_nearest: Classical.choice, Quot.sound, propext
Lexi.C64_not_round_trip: Classical.choice, Quot.sound, propext
Lexi.C64_whole_round_trip: Classical.choice, Quot.sound, propext
Lexi.C65_double_scientific: Classical.choice, Quot.sound, propext
Lexi.C65_double_tiny_wrong: Classical.choice, Quot.sound, propext
Lexi.C65_double_truncates: Classical.choice, Quot.sound, propext
Lexi.C65_json_integer_part: Classical.choice, Quot.sound, propext
Lexi.C65_json_truncates: Classical.choice, Quot.sound, propext
Lexi.C66_float_not_nearest: Classical.choice, Quot.sound, propext
Lexi.C66_int_as_double: Classical.choice, Quot.sound, propext
Lexi.C66_int_as_float: Classical.choice, Quot.sound, propext
Lexi.C67_accuracy: Classical.choice, Quot.sound, propext
Lexi.C67_overflow: Classical.choice, Quot.sound, propext
Lexi.C67_underflow: Classical.choice, Quot.sound, propext
Lexi.C67_underflow_small: Classical.choice, Quot.sound, propext
Lexi.C67_underflow_wrong: Classical.choice, Quot.sound, propext
Lexi.C68_char: Classical.choice, Quot.sound, propext
Lexi.C68_escape: Classical.choice, Quot.sound, propext
Lexi.C68_jsonify: Classical.choice, Quot.sound, propext
Lexi.C69_document: Classical.choice, Quot.sound, propext
Lexi.C69_special_not_json: Classical.choice, Quot.sound, propext
Lexi.C69_utf8: Classical.choice, Quot.sound, propext
Lexi.C70_renderings_agree: Classical.choice, Quot.sound, propext
Lexi.C71_half_digit: Classical.choice, Quot.sound, propext
Lexi.C71_nearest: Classical.choice, Quot.sound, propext
Lexi.C71_unsafe_not_nearest: Classical.choice, Quot.sound, propext
Lexi.C72_nul: Classical.choice, Quot.sound, propext
Lexi.C72_pointer: Classical.choice, Quot.sound, propext
Lexi.C72_terminated: Classical.choice, Quot.sound, propext
Lexi.C72_text: Classical.choice, Quot.sound, propext
Lexi.C72_unterminated: Classical.choice, Quot.sound, propext
Lexi.C73_round_trip: Classical.choice, Quot.sound, propext
Lexi.C74_decimal: Classical.choice, Quot.sound, propext
Lexi.C74_history: Classical.choice, Quot.sound, propext
Lexi.C74_shift: Classical.choice, Quot.sound, propext
Lexi.C75_converted: Quot.sound, propext
Lexi.C75_nullptr: Quot.sound, propext
Lexi.C75_pointer: Quot.sound, propext
Lexi.C75_string: Quot.sound, propext
Lexi.C75_text: Quot.sound, propext
Lexi.C75_value: Quot.sound, propext
Lexi.C75_volatile: Quot.sound, propext
Lexi.C75_zero: Quot.sound, propext
Lexi.C76_ambiguous: Quot.sound, propext
Lexi.C76_constructor: Quot.sound, propext
Lexi.C76_conversion: propext
Lexi.C76_model: Classical.choice, Quot.sound, propext
Lexi.C76_range: Classical.choice, Quot.sound, propext
Lexi.C76_represents: Classical.choice, Quot.sound, propext
Lexi.C76_underlying: Classical.choice, Quot.sound, propext
Lexi.C77_exact_condition: Classical.choice, Quot.sound, propext
Lexi.C78_normal_form: Classical.choice, Quot.sound, propext
Lexi.C78_number_misread: Classical.choice, Quot.sound, propext
Lexi.C78_total: Classical.choice, Quot.sound, propext
Lexi.C78_word_misread: Classical.choice, Quot.sound, propext
Lexi.C79_cut_at_point: Classical.choice, Quot.sound, propext
Lexi.C79_float_round_trip: Classical.choice, Quot.sound, propext
Lexi.C79_local_text: Classical.choice, Quot.sound, propext
Lexi.C79_round_trip: Classical.choice, Quot.sound, propext
Lexi.C79_special: Classical.choice, Quot.sound, propext
Lexi.C80_float_as_double: Classical.choice, Quot.sound, propext
Lexi.C81_double_as_float: Classical.choice, Quot.sound, propext
Lexi.C81_tie_differs: Classical.choice, Quot.sound, propext
Lexi.C82_enum_extraction: Classical.choice, Quot.sound, propext
Lexi.C82_fpos_extraction: Classical.choice, Quot.sound, propext
Lexi.C83_cut_at_point: Classical.choice, Quot.sound, propext
Lexi.C83_local_text: Classical.choice, Quot.sound, propext
Lexi.C83_one_byte: Classical.choice, Quot.sound, propext
Lexi.C83_round_trip: Classical.choice, Quot.sound, propext
Lexi.C83_special: Classical.choice, Quot.sound, propext
Lexi.C84_integers: Classical.choice, Quot.sound, propext
Lexi.C84_places: Classical.choice, Quot.sound, propext
Lexi.C84_ranges: Classical.choice, Quot.sound, propext
Lexi.C84_share: propext
Lexi.C84_thousands: Classical.choice, Quot.sound, propext
Lexi.C84_wide: Classical.choice, Quot.sound, propext
Lexi.C85_double: Classical.choice, Quot.sound, propext
Lexi.C85_float: Classical.choice, Quot.sound, propext
Lexi.C85_places_double: Classical.choice, Quot.sound, propext
Lexi.C85_places_double_exact: Classical.choice, Quot.sound, propext
Lexi.C85_places_float: Classical.choice, Quot.sound, propext
Lexi.C85_places_float_exact: Classical.choice, Quot.sound, propext
Lexi.C86_binary64: Classical.choice, Quot.sound, propext
Lexi.C86_fast: Classical.choice, Quot.sound, propext
Lexi.C86_nearest: Classical.choice, Quot.sound, propext
Lexi.C86_not_nearest: Classical.choice, Quot.sound, propext
Lexi.C87_accepted_not_nearest: Classical.choice, Quot.sound, propext
Lexi.C87_accepts: Classical.choice, Quot.sound, propext
Lexi.C87_exact_step: Classical.choice, Quot.sound, propext
Lexi.C87_infinite: Classical.choice, Quot.sound, propext
Lexi.C87_nearest: Classical.choice, Quot.sound, propext
Lexi.C87_two_steps: Classical.choice, Quot.sound, propext
Lexi.C88_defined: Classical.choice, Quot.sound, propext
Lexi.C88_value: Classical.choice, Quot.sound, propext
Lexi.C88_variants: Classical.choice, Quot.sound, propext
Lexi.C89_format_long: Classical.choice, Quot.sound, propext
Lexi.C89_other: Classical.choice, Quot.sound, propext
Lexi.C89_read: Classical.choice, Quot.sound, propext
Lexi.C89_read_text: Classical.choice, Quot.sound, propext
Lexi.C89_round_trip: Classical.choice, Quot.sound, propext
Lexi.C89_same_text: Classical.choice, Quot.sound, propext
Lexi.C89_tenth: Classical.choice, Quot.sound, propext
Lexi.C90_double_check: Classical.choice, Quot.sound, propext
Lexi.C90_double_own: Classical.choice, Quot.sound, propext
Lexi.C90_double_silent: Classical.choice, Quot.sound, propext
Lexi.C90_float: Classical.choice, Quot.sound, propext
Lexi.C90_float_silent: Classical.choice, Quot.sound, propext
Lexi.C90_int: Classical.choice, Quot.sound, propext
Lexi.C90_int_check: Classical.choice, Quot.sound, propext
Lexi.C90_int_own: Classical.choice, Quot.sound, propext
Lexi.C91_at_most_once: Classical.choice, Quot.sound, propext
Lexi.C91_float: Classical.choice, Quot.sound, propext
Lexi.C91_long_double: Classical.choice, Quot.sound, propext
Lexi.C91_no_drift: Classical.choice, Quot.sound, propext
Lexi.C91_normal_form: Classical.choice, Quot.sound, propext
Lexi.C91_one_cycle: Classical.choice, Quot.sound, propext
Lexi.C92_double_float: Classical.choice, Quot.sound, propext
Lexi.C92_length: Classical.choice, Quot.sound, propext
Lexi.C92_one_digit: Classical.choice, Quot.sound, propext
Lexi.C92_only_overread: Classical.choice, Quot.sound, propext
Lexi.C92_values: Classical.choice, Quot.sound, propext
Lexi.C93_float_exact: Classical.choice, Quot.sound, propext
Lexi.C93_float_size: Classical.choice, Quot.sound, propext
Lexi.C93_int_exact: Classical.choice, Quot.sound, propext
Lexi.C93_int_size: Classical.choice, Quot.sound, propext
Lexi.C94_command_line: Classical.choice, Quot.sound, propext
Lexi.C94_regex: Classical.choice, Quot.sound, propext
Lexi.C94_scalars: Classical.choice, Quot.sound, propext
Lexi.C94_shell: Classical.choice, Quot.sound, propext
Lexi.C95_javascript: Classical.choice, Quot.sound, propext
Lexi.C95_page: Quot.sound, propext
Lexi.C96_lines: Classical.choice, Quot.sound, propext
Lexi.C96_strings: Classical.choice, Quot.sound, propext
Lexi.C96_value_lines: Classical.choice, Quot.sound, propext
Lexi.C96_values: Classical.choice, Quot.sound, propext
Lexi.C97_finite: Classical.choice, Quot.sound, propext
Lexi.C97_integers: Classical.choice, Quot.sound, propext
Lexi.C97_special: Classical.choice, Quot.sound, propext
Lexi.C97_words: Classical.choice, Quot.sound, propext
Lexi.C98_bounded: Classical.choice, Quot.sound, propext
Lexi.C98_counting: Quot.sound, propext
Lexi.C98_total: Classical.choice, Quot.sound, propext
Lexi.C99_min3: propext
Lexi.C99_own_digits: Classical.choice, Quot.sound, propext
Lexi.C99_right_iff: Classical.choice, Quot.sound, propext
