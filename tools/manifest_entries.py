S=N+"StringFns."
c("C05","proved",[S+"split_then_join",S+"split_spec"])
c("C06","proved",[S+"split_pieces_no_separator",S+"split_spec"])
c("C07","proved",[S+"split_limit"])
c("C08","partial",[S+"split_terminates_partial",S+"split_empty_separator_diverges"],"False for the empty separator: the loop never returns (proved for every fuel); holds for all others.")
c("C09","proved",[S+"join_then_split"])
c("C10","proved",[S+"splitWords_words"])
c("C11","partial",[S+"splitWords_limit_partial",S+"splitWords_limit_one_exceeded"],"False for limit 1 (two pieces returned); proved for limits from 2.")
c("C12","partial",[S+"strip_in_place_partial",S+"strip_whitespace_undefined"],"Undefined behaviour for every non-empty string of white space; proved for all others.")
c("C13","proved",[S+"case_mapping"])
c("C76","partial",[S+"strip_out_of_place_use_after_free",S+"strip_out_of_place_partial","Libube.MemProps.strip_into_undefined","Libube.MemProps.strip_into_other"],"False for every string but the empty one: the result is written to freed memory, or to another variable if that shares the array of the result.")
O=N+"Order."
M=N+"Maps."
c("C25","partial",[O+"eq_decides_same",O+"eq_equivalence_partial",O+"nil_eq_nil_undefined",O+"nan_not_reflexive",O+"cdouble_eq_diverges"],"Proved without nil, complex doubles and NaN, for each of which it is false.")
c("C26","partial",[O+"map_equality_partial",O+"map_equality_ignores_keys"],"False: keys are not compared.")
c("C28","partial",[O+"key_order_partial",O+"array_order_not_asymmetric",O+"array_prefix_incomparable",O+"nan_incomparable",O+"nul_strings_incomparable"],"False for arrays, NaN and strings with NUL; proved for the other keys.")
c("C29","proved",[O+"mixed_kinds",O+"mixed_total"])
c("C30","proved",[O+"binary_lower_bound",O+"binary_partition_point"])
c("C31","partial",[O+"sort_sorted_partial",O+"sort_complex",O+"sort_cdouble_keeps_order",O+"sort_nan_unsorted"],"False with NaN and for arrays of complex doubles, which keep their order; complex floats are ordered by absolute value; that the original is unchanged is a memory statement.")
c("C32","partial",[O+"index_array_partial",O+"index_map_partial",O+"index_cdouble_never"],"Proved for values without nil, and maps with ordinary keys; in an array of complex doubles nothing is ever found.")
c("C33","partial",[M+"map_is_finite_map_partial",M+"nul_string_keys_lost",N+"MemProps.map_history_partial",N+"MemProps.map_from_nil_partial",N+"MemProps.set_key_partial",N+"MemProps.get_key_partial"],"False for strings with NUL characters and NaN. The MemProps theorems prove the same in the memory model, with counts and sharing, for up to 2^30 - 2 entries.")
c("C34","partial",[M+"map_keys_ascending_partial",N+"MemProps.map_history_partial"],"For ordinary keys (see C33).")
c("C35","partial",[M+"lookup_effects_partial",M+"at_nil_undefined",N+"MemProps.at_key",N+"MemProps.get_key_partial",N+"MemProps.get_new_key_partial"],"For ordinary keys; at(nil) is undefined behaviour.")
c("C36","partial",[M+"array_keys_lost",M+"array_keys_partial"],"False for arrays of two elements; proved for one.")
c("C75","partial",[O+"nil_compare_partial",O+"nil_order_undefined",O+"nil_eq_nil_undefined"],"False: undefined behaviour for nil against nil and arrays.")
c("C77","partial",[M+"map_remove_keeps_key",M+"map_remove_last_partial"],"False except for the last position: values shift, keys stay.")
G=N+"GetLine."
B=N+"VarBuf."
c("C14","partial",[G+"read_lines_partial",G+"unterminated_line_gains_byte",G+"contents_covered",G+"getline_next"],"False for contents not ending in a newline: the last line gains a byte 0xFF; proved for all others.")
c("C15","partial",[G+"text_file_adds_quotes",G+"empty_text_file",G+"text_file_read_partial"],"False: writing puts quotes around every line; reading is exact.")
c("C16","partial",[B+"write_then_read_partial",B+"stream_refines_partial",B+"byte_ff_reads_as_eof"],"False for byte 0xFF, which reads as end of stream; proved for all other bytes.")
c("C17","partial",[B+"stream_refines_partial",B+"byte_ff_reads_as_eof",B+"seek_to_end_ignored"],"False for byte 0xFF and for seeking to the end.")
I=N+"Ini."
c("C18","partial",[I+"ini_last_value_partial",I+"blank_line_undefined",I+"unterminated_value"],"False for lines of white space only, values containing the separator again and a missing final newline; proved for all other files.")
c("C19","partial",[I+"value_kept_partial",I+"value_cut"],"False for every value containing the separator again.")
J=N+"Json."
c("C20","partial",[J+"json_round_trip_partial",J+"quote_lost",J+"singleton_unwrapped",J+"empty_array_lost",J+"array_text_rejected",J+"string_round_trip_iff",J+"mixed_array_lost",J+"numeral_string_absorbed"],"False for dense arrays, strings with quotation marks, backslashes or NUL, arrays of one integer, arrays that begin with an integer and hold something else, and empty arrays; proved for all nested values built from nil, integers, clean strings, other arrays and maps.")
c("C21","partial",[J+"json_settles_partial",J+"nested_push_undefined"],"Termination proved for all texts; undefined behaviour proved possible, only with brackets in the text.")
c("C22","partial",[J+"integer_numerals_keep_value_partial",J+"fraction_truncated"],"False for every numeral with fraction or exponent; proved for integers of 64 bits.")
c("C23","partial",[J+"array_text_rejected",J+"spaced_array_partial"],"False for every non-empty list: the text is rejected. Proved with a blank before the bracket.")
c("C24","partial",[J+"object_last_binding_partial",J+"number_before_brace_rejected",J+"valueText_string",J+"valueText_number"],"False when a number stands directly before the brace; proved for self-delimiting values.")
c("C78","proved",[J+"words_read"])
c("C79","partial",[J+"string_literal_partial",J+"escape_rejected"],"False for backslashes: every escape but that of the quotation mark is rejected; proved for strings without backslashes.")
V=N+"View."
c("C27","partial",[V+"view_equality_ignores_elements",V+"same_elements_differ",V+"array_equality_partial"],"False for views: offset and shape are compared instead of the elements.")
c("C51","partial",[V+"view_inside_partial",V+"view_outcomes",V+"view_made",V+"negative_offset_accepted"],"False for negative offsets; products of dimensions may overflow.")
c("C52","proved",[V+"row_major",V+"view_reads"])
c("C53","partial",[V+"out_of_range_throws_partial",V+"out_of_range_throws_plain",V+"extra_components_ignored",V+"missing_components_undefined",V+"index_overflow"],"False for too many components, which are ignored, and for a first component whose multiple overflows.")
c("C54","proved",[V+"subview_reads",V+"subview_row"])
c("C80","partial",[V+"move_inside_partial",V+"negative_move_accepted"],"False for negative offsets.")
T=N+"Transpose."
c("C56","partial",[T+"outOfPlace_transposes",T+"transpose_view_partial",T+"other_types_throw",T+"one_dimension_throws"],"Proved for all shapes of floats and doubles; every other element type throws.")
c("C57","partial",[T+"inPlace_transposes",T+"inPlace_eq_outOfPlace",T+"transpose_in_place_view_partial",T+"in_place_agrees_partial",T+"other_types_throw"],"Proved for all shapes of floats and doubles, with termination; every other element type throws.")
c("C58","partial",[T+"twice_identity",T+"in_place_twice_partial",T+"other_types_throw"],"Proved for all shapes of floats and doubles; every other element type throws.")
A=N+"Arith."
c("C55","partial",[A+"assign_view_partial",A+"assign_int_view_throws",A+"assign_one_element_undefined",A+"assign_other_shape",A+"cdouble_view_first"],"Proved for floats and doubles with more than one element; integers and cfloat throw, of cdouble only the first element is assigned, views of one element are undefined.")
c("C61","partial",[A+"arith_arrays_partial",A+"arith_number",A+"unsupported_throws",A+"scaling_throws",A+"one_element_undefined",A+"cdouble_first_only",A+"cdouble_first_number", A+"cdouble_first_elem"],"Proved for all shapes where the operation exists; division by arrays, integer arrays and arrays of one element fail, and of cdouble arrays only the first element is changed.")
c("C62","partial",[A+"arith_arrays_partial",A+"shorter_operand_partial",A+"longer_operand_overruns",A+"empty_undefined"],"False: a longer right operand overruns, an empty one is undefined; compatible shapes are safe.")
c("C63","partial",[A+"sum_of_arrays_aborts",A+"product_of_arrays_partial",A+"binop_number",A+"cdouble_result_unset"],"False for + and - of arrays, which abort, and for arrays of cdouble, whose results are unset but for the first element; proved for * and for numbers on the right.")
c("C64","partial",[A+"aliased_operand",A+"aliased_operand_partial"],"False except for *= and the last element.")
c("C81","partial",[A+"swap_vectors_partial",A+"swap_matrix_overruns",A+"swap_int_throws",A+"swap_cdouble_aborts"],"False for more than one dimension (overrun), for integers (exception) and for cdouble (abort); proved for vectors.")
R = N + "Rows."
c("C59", "partial", [R+"poly_coefficients_partial", R+"poly_values_partial", R+"poly_cdouble_undefined", R+"poly_empty_undefined"],
  "proved row by row for float, double and cfloat, over any commutative ring; cdouble writes 16-byte numbers into an array of 8-byte ones, and no roots divides by zero: both refuted by theorem")
c("C66", "partial", [R+"sum_vector_partial", R+"sum_rows_partial", R+"sum_int_throws", R+"sum_cdouble_first", R+"sum_cdouble_rows", R+"sum_empty_undefined"],
  "proved for float, double and cfloat and every shape, over any ring; integers throw, of cdouble the first element is returned and the empty array reads past its end: all refuted by theorem")
Q = N + "Roots."
c("C60", "partial", [Q+"roots_companion_partial", Q+"roots_found_partial", Q+"roots_linear_throws"],
  "proved for every degree from 2 on, over any field and extension, with the column-major reading LAPACK makes; for degree 1 roots throws, refuted by theorem")
W = N + "Range."
c("C67", "partial", [W+"irange_partial", W+"range_partial", W+"irange1_partial", W+"range1_partial", W+"range_max_undefined", W+"irange_mixed_undefined", W+"irange_mixed_empty"],
  "proved for integer types below the top of the type and up to 2^30 elements; counting up to the largest value of a type, or to a number of another type, is refuted by theorem; floating point not modelled")
P = N + "MemProps."
c("C39", "partial", [P+"array_is_list_partial", P+"var_array_is_list_partial", P+"var_push_own", P+"complex_is_list_partial", P+"complex_parts_lost", P+"unshift_own_element_wrong"],
  "proved for every sequence of operations on numeric arrays, strings and arrays of vars, values given as numbers, strings, nil or variables; unshift of an element of the same array is refuted by theorem; for arrays of cdouble proved for push, pop, shift, unshift, set, resize, presize and append of data, while insert, remove and append of a var lose imaginary parts, by theorem (C153)")
c("C40", "partial", [P+"pop_assigned_partial", P+"pop_declared_partial", P+"var_pop_partial", P+"pop_string_gives_nul", P+"pop_changes_later"],
  "false: pop returns a reference, which reads NUL for strings and changes with the next push; assigned to an existing variable it is a value")
c("C41", "partial", [P+"remove_partial", P+"remove_converts", P+"remove_shows_next", P+"remove_returns_wrong", P+"var_remove_partial", P+"var_remove_array_partial", P+"var_remove_wrong", P+"var_remove_complex_throws"],
  "the array is right, except for cdouble, where the elements behind lose their imaginary parts (remove_converts, C153); the var returned reads as the element after the removed one, refuted by theorem, except for elements of arrays of vars that are arrays themselves, of which it is a copy")
c("C42", "partial", [P+"insert_copy_partial", P+"insert_other_array", P+"insert_converts", P+"self_insert_string_wrong", P+"self_insert_out_of_bounds", P+"self_insert_uninitialised"],
  "false for the array itself; proved for a copy of it and for any other array, except for cdouble, where numbers lose their imaginary parts (insert_converts, C153)")
c("C43", "partial", [P+"failed_push_grows", P+"push_pop_fails", P+"push_number_partial", P+"push_mismatch_partial"],
  "false for a string that is no number and for an element of the same array; a number pushed never fails")
c("C44", "partial", [P+"shift_nil_partial", P+"pop_nil_partial", P+"shift_empty_undefined", P+"pop_empty_aborts", P+"empty_not_error"],
  "false: shift of an empty array is undefined, pop aborts; proved for nil")
c("C45", "proved", [P+"no_premature_free", P+"reach_exec"], "programs include calls of elementwise math functions and of the string functions, arithmetic, comparing, searching, sorting and printing")
c("C46", "partial", [P+"no_leak_partial", P+"no_leak_acyclic_partial", P+"allocated_iff_referred_partial", P+"unshift_leaks", P+"self_assignment_leaks"],
  "proved for programs without unshift and without self-assignment of elements, both of which leak by theorem")
c("C49", "partial", [P+"set_element_partial", P+"var_set_partial", P+"var_set_grows_partial", P+"var_set_own", P+"self_assignment_throws"],
  "proved for numeric arrays and strings and values given as numbers, and for arrays of vars and values of any kind, elements of other arrays included; x[i] = x[i] throws for arrays of vars, refuted by theorem")
c("C50", "partial", [P+"literal_terminated", P+"string_terminated_partial", P+"popped_reference_breaks_string"],
  "proved for every sequence of operations on the string itself; assigning to a popped reference overwrites the terminator, refuted by theorem")
c("C47", "partial", [P+"same_array_later", P+"initialisation_shares", P+"assignment_shares", P+"assigned_element_seen", P+"copy_elements_partial", P+"separate_arrays", P+"copy_is_shallow"],
  "sharing proved for all arrays and all later programs; separation proved for the elements themselves, while elements that are arrays stay shared, by theorem; that the copy is made at all is proved for the types other than complex, see C48")
c("C48", "partial", [P+"copy_elements_partial", P+"copy_complex_throws", P+"copy_complex_fails"],
  "proved for seven of nine element types; complex arrays throw, refuted by theorem")
c("C82", "proved", [P+"cells_not_refs"])
c("C83", "partial", [P+"storage_suffices_partial", P+"huge_resize_unbacked"],
  "proved up to 2^30 elements; beyond, resize sets the size without storage, refuted by theorem")
c("C84", "proved", [P+"elements_typed"])
c("C85", "partial", [P+"freed_memory_used", P+"no_premature_free"],
  "false: a reference that is the only owner of an array can be resized through, refuted by theorem; what is referred to is always allocated (see C45)")
c("C86", "partial", [P+"set_element_partial", P+"self_assignment_throws", P+"self_assignment_leaks"],
  "false for arrays of vars, refuted by theorem; for numeric arrays assigning the number an element holds is the case of set_element_partial")
c("C87", "partial", [P+"resize_shows_old", P+"var_set_grows_partial"],
  "false: shrinking does not destroy elements, and growing again shows them, refuted by theorem")
c("C88", "partial", [P+"at_unchecked", P+"at_number_partial", P+"at_element_partial"],
  "false for arrays, refuted by theorem; proved for numbers, and for valid indices of arrays of vars")
c("C89", "partial", [P+"var_shift_partial"], "Proved for arrays whose size the library can represent (up to 2^30 - 2 elements): larger arrays are not covered.")
c("C37", "partial", [P+"ref_does_not_stay", P+"ref_stays_partial", P+"ref_moves"],
  "false: inserting a smaller new key makes the reference denote another entry, refuted by theorem; proved for keys already in the map and for new keys that come after")
c("C38", "partial", [P+"nested_at_wrong", P+"nested_at_partial", P+"at_key"],
  "false: the position found in the inner map is used in the outer one, refuted by theorem; proved in two steps, with the inner map assigned to a variable first")
c("C90", "partial", [P+"keys_change", P+"keys_fixed_partial"],
  "false: the map shares the string given as key, refuted by theorem; proved for arrays that are not keys of the map")
c("C91", "partial", [P+"entry_not_copied", P+"set_key_own_partial"],
  "false for a new key that comes before (throws or copies another entry) and for m[k] = m[k] (throws), refuted by theorem; proved for other keys in the map and for new ones that come after")
c("C92", "partial", [P+"assign_var_partial", P+"assign_entry_partial", P+"assign_at_key"],
  "proved but for elements of arrays of cdouble, and maps and strings of up to 2^30 - 2 elements")
c("C93", "partial", [P+"ref_assign_self_throws", P+"ref_assign_entry_partial", P+"ref_assign_var_partial", P+"ref_assign_number"],
  "false for r = x[i] with r referring to x[i], refuted by theorem; proved for values from elsewhere")
X = N + "Xml."
c("C68", "proved", [X+"escape_reversible", X+"number_written_as_nul"])
c("C69", "proved", [X+"events_rebuild", X+"shows_unique"], "Over sequences of parser events; that the parser reports them is an assumption on expat.")
c("C70", "partial", [X+"write_read_partial", X+"newline_lost", X+"packed_written_as_nul"],
  "false for text with newlines, and for elements whose data is a string or an array of numbers, refuted by theorem; proved for trees with plain text, with the parser replaced by a reference tokeniser")
c("C94", "proved", [X+"short_document_throws"], "Over sequences of parser events.")
c("C95", "partial", [X+"other_throws"], "false: any such text makes read() throw, refuted by theorem")
K = N + "Config."
c("C71", "partial", [K+"config_latest_partial", K+"no_section_not_stored"],
  "proved for ordinary section and entry names and files of the form of C18; a setting made without a section is not stored, by theorem")
L = N + "Option."
c("C72", "partial", [L+"options_partial", L+"options_posix_partial", L+"repeated_flag_throws"],
  "false for a flag given twice (throws), refuted by theorem; proved for the other valid argument vectors, with getopt modelled after its manual page")
c("C96", "proved", [L+"unknown_option_exits", L+"missing_argument_exits"], "getopt modelled after its manual page")
H = N + "Curl."
c("C73", "partial", [H+"download_partial", H+"failed_download_partial"],
  "proved for bodies of up to 2^30 - 2 bytes and all chunkings, and that a failed transfer throws and leaves nothing behind; libcurl replaced by its contract")
Y = N + "Sndfile."
c("C74", "partial", [Y+"read_mono_partial", Y+"write_mono_partial", Y+"write_mono_view_partial", Y+"write_row_partial", Y+"read_channels_throws", Y+"read_empty", Y+"write_channels_overreads", Y+"write_channels_fails", Y+"write_other_type"],
  "false for two channels and more: reading throws and leaves the file open, writing reads beyond the array, refuted by theorems; proved for one channel, with libsndfile replaced by its contract")
c("C65", "partial", [P+"in_place_partial", P+"shared_twice", P+"cdouble_lost"],
  "false for an array that occurs at two places (the function is applied twice) and for arrays of cdouble (only the first element is used), refuted by theorems; proved for all other nested data")
c("C97", "partial", [P+"apply_new_partial", P+"apply_to_array", P+"new_nested_throws"],
  "proved for arrays of numbers other than cdouble of up to 2^30 - 2 elements; f(x) throws for an array of arrays, by theorem")
D=N+"Dot."
c("C98", "partial", [D+"matrix_product_partial", D+"incompatible_throws", D+"matrix_kind_throws", D+"matrix_cdouble_aborts", D+"batch_overruns", D+"batch_of_one"],
  "false for more than two dimensions (memory overrun) and for complex numbers and integers (throws, for cdouble aborts), refuted by theorems; proved for float and double, in exact arithmetic, including refusal of shapes that do not fit")
c("C99", "partial", [D+"product_assoc_partial", D+"product_transpose_partial", D+"transpose_matrix"],
  "proved for matrices of float and double in exact arithmetic; C98 says why not for others")
c("C100", "partial", [D+"dot_vectors_partial", D+"dot_rows_partial", D+"dot_one_diverges", D+"dot_shorter_truncates", D+"dot_longer_overruns", D+"vector_kind_throws", D+"vector_cdouble_aborts"],
  "false for a vector of one element (never returns), for vectors of different length (overrun, or the rest ignored), for integers (throws) and cdouble (aborts), refuted by theorems; proved otherwise")
F=N+"Reduce."
c("C101", "partial", [F+"sort_rows_partial", F+"sort_new_throws", F+"sort_complex_throws", F+"sort_empty_undefined"],
  "sort(x) always throws, complex arrays throw and the empty array divides by zero, refuted by theorems; proved for sort(x, x) otherwise, with std::sort replaced by its contract")
c("C102", "partial", [F+"asum_vector_partial", F+"asum_rows_partial", F+"asum_kind_throws", F+"asum_cdouble_undefined", F+"asum_empty_undefined"],
  "false for integers and cfloat (throws), cdouble (undefined) and the empty array (division by zero), refuted by theorems; proved for float and double, in exact arithmetic")
c("C103", "partial", [F+"iamax_vector_partial", F+"iamax_rows_partial", F+"iamax_complex_magnitude", F+"iamax_int_throws", F+"iamax_cdouble_aborts", F+"iamax_number_aborts", F+"iamax_empty_undefined"],
  "false for complex numbers (another magnitude is used), integers (throws), cdouble and a number (abort) and the empty array (division by zero), refuted by theorems; proved for real numbers, with BLAS replaced by its contract")
c("C104", "partial", [F+"concat_rows_partial", F+"concat_types_throw", F+"concat_lead_throws", F+"concat_int_throws", F+"concat_empty_first", F+"concat_more_dims_loses", F+"concat_fewer_dims_junk"],
  "false for integers (throws), a first operand without elements, and operands with another number of dimensions (accepted, with wrong results), refuted by theorems; proved otherwise")
c("C105", "partial", [P+"push_nil_number", P+"unshift_nil_number", P+"push_second", P+"array_from_nil_partial", P+"at_key_nil_throws", P+"push_nil_complex"],
  "proved for up to 2^30 - 2 numbers that fit into a var (all types but cdouble); false for cdouble, by theorem: the first push makes an array of vars, whose element is an array of one number")
Z=N+"Ged."
c("C106", "partial", [Z+"gedcom_read_partial", Z+"gedcom_unterminated_trailer", Z+"gedcom_forward_link_lost", Z+"gedcom_forward_family_throws", Z+"gedcom_marriage_alone", Z+"gedcom_empty_record"],
  "false for families before their individuals (exception or lost link), MARR lines and records with nothing below, refuted by theorems; proved otherwise")
c("C107", "partial", [Z+"gedcom_any_partial", Z+"gedcom_empty_file", Z+"gedcom_source_undefined", Z+"gedcom_truncated_undefined"],
  "false for empty and truncated files and lines such as '1 SOUR @S1@' (access to an element of an empty array), refuted by theorems; proved for all files that every other outcome is as stated")
c("C108", "partial", [Z+"gedcom_submitter_partial", Z+"gedcom_unknown_record_drops_rest", Z+"gedcom_unknown_line_drops_rest"],
  "false: all that follows is left out without notice, refuted by theorems; proved for records of submitters")
c("C109", "partial", [Z+"gedcom_second_read_partial", Z+"gedcom_second_read_keeps_first"],
  "false: the result begins with that of the first file, refuted by a theorem; proved if the first file has no individuals and families")
c("C110", "partial", [P+"presize_partial", P+"presize_string_shorter", P+"presize_number_wraps", P+"presize_number_same", P+"presize_nil_array", P+"presize_negative_aborts", P+"presize_changes_type", P+"var_presize"],
  "false for strings longer than n (a character is overwritten), numbers (become arrays of one) and nil (becomes an empty array), each by a theorem; proved for arrays of numbers and of vars, with up to 2^30 - 2 elements")
c("C111", "partial", [P+"append_raw_partial", P+"append_raw_number", P+"append_raw_other_type", P+"append_raw_nil_undefined"],
  "false for nil and for arrays of another type (characters written over vars or numbers), refuted by theorems; proved for arrays and numbers of the type of the data")
c("C112", "partial", [P+"append_array_partial", P+"append_to_number", P+"comma_list_partial", P+"var_append", P+"array_is_list_partial", P+"var_array_is_list_partial", P+"append_nil_wrong", P+"append_self_wrong", P+"append_self_undefined", P+"append_element_throws"],
  "false for x appended to itself (memory overrun), an element of an array of numbers (throws, x has grown) and a string appended to nil, refuted by theorems; proved for separate arrays, numbers, strings and arrays of vars")
U=N+"Dft."
c("C113", "partial", [U+"dft_complex_partial", U+"idft_complex_partial", U+"dft_real_partial", U+"idft_real_partial", U+"dft_complex_into_partial", U+"idft_complex_into_partial", U+"dft_real_into_partial", U+"idft_real_into_partial"],
  "exact arithmetic, the library is assumed to do what it says; proved for rows of m or more elements and, for real numbers, even m; false otherwise (C115)")
c("C114", "partial", [U+"idft_dft_complex_partial", U+"dft_idft_complex_partial", U+"idft_dft_real_partial"],
  "exact arithmetic; for complex numbers also the other way round; odd m is missing for real numbers, where the transform is undefined (dft_odd_undefined)")
c("C115", "partial", [U+"dft_type_refused", U+"dft_wrong_type_throws", U+"dft_number_throws", U+"dft_self_throws", U+"dft_self_real_throws", U+"dft_nil_throws", U+"dft_nil_new_throws", U+"dft_odd_undefined", U+"dft_short_rows_undefined", U+"dft_short_real_undefined"],
  "false for odd sizes and short rows, which are undefined, by theorems; proved for other types, numbers, nil and input as output")
PA=N+"Path."
c("C116", "proved", [PA+"dir_lists", PA+"dir_order", PA+"absent_throws", PA+"lists_complete", PA+"unreadable_throws"], "the file system is a parameter")
c("C117", "proved", [PA+"rdir_lists", PA+"rdir_file", PA+"absent_throws", PA+"lists_complete", PA+"unreadable_throws"], "if a directory cannot be read there is an exception, not a list")
c("C118", "partial", [PA+"tree_partial", PA+"tree_empty", PA+"tree_loop_throws", PA+"lists_complete", PA+"unreadable_throws"],
  "false for empty directories, which are nil, and for links that lead back, which end in an exception, by theorems; proved for all else")
c("C119", "proved", [PA+"bits_parts", PA+"bits_entry"], "")
c("C120", "partial", [P+"case_in_place_partial", P+"case_number_diverges", P+"case_nil_throws", P+"case_char_lost"],
  "proved for strings nested in arrays and maps to any depth, also where arrays are shared; data with elements that are no strings is missing: numbers make the call endless and characters are lost, by theorems")
c("C121", "partial", [P+"case_new_string", P+"case_new_list_partial", P+"case_new_map", P+"case_new_nested_throws"],
  "proved for strings and arrays of strings; false for maps, whose keys become nil, and for deeper nesting, which is an exception, by theorems")
c("C122", "partial", [P+"replace_string", P+"replace_nested_partial", P+"replace_shared_twice"],
  "proved for strings nested in arrays and maps to any depth in which no array occurs twice; false otherwise, by theorem; the regular expression is any function on strings")
c("C123", "proved", [P+"find_string", P+"find_self_undefined"], "the search is any function on strings that gives places of them; a functor called with the same variable as argument and result reads freed memory, by theorem")
c("C124", "partial", [P+"strip_nested_partial", P+"strip_space_undefined", P+"strip_last_reference"],
  "False for strings of space only (undefined) and for a reference that is the last holder of the array it refers to (reads freed memory), both by theorem; proved for all other strings at any depth and under any sharing. A reference to a string that gets shorter becomes the string itself.")
MO=N+"ModuleProps."
c("C125", "proved", [MO+"module_safe", MO+"module_sound", MO+"module_deleted_once", MO+"module_exists", MO+"module_close", MO+"module_copy_undefined", MO+"module_temporary_undefined"],
  "Copying a loader deletes its instances twice, and an instance from a temporary loader is gone at once, both by theorem.")
c("C126", "partial", [MO+"module_handles_partial", MO+"module_leak"], "False for a library that has no factory function: the constructor throws and the library stays open. Proved: it is open exactly as often as that happened.")
c("C127", "partial", [N+"Json.matrix_round_trip_partial", N+"Json.matrix_of_arrays_lost", N+"Json.matrix_of_vars_undefined", N+"Json.matrix_of_cdouble_rejected", N+"Json.tensor_read_as_number", N+"Json.line_rejected"],
  "Proved for matrices of two or more integers. False for matrices of vars (arrays and strings are printed as null and lost, numbers held in vars are undefined) and of cdouble (throws), for more dimensions, of which only the first dimension is read back as a number, and for one dimension, whose text is rejected; both by theorem for all such views.")
GP=N+"GnuplotProps."
GR=N+"GraphProps."
c("C128", "partial", [GP+"plot_text_partial", GP+"plot_overwrites", GP+"plot_int_throws", GP+"plot_one_undefined"],
  "False: of two matrices of the same type and shape in a row the first is overwritten by the second; views of integers throw and views of one element are undefined, all by theorem. Proved for all lists where no array directly follows a view of the same type and shape.")
c("C129", "partial", [GP+"plot_text_partial", GP+"plot_overwrites", GP+"plot_string_blank", GP+"plot_refuses"],
  "Proved for lists as in C128. False for a single string, of which gnuplot receives empty lines, by theorem. Gnuplot itself and failures of the pipe are not modelled; numbers are printed by any function.")
c("C130", "proved", [GR+"vertices_fresh", GR+"edge_negative"], "boost::adjacency_list is replaced by its documented behaviour.")
c("C131", "proved", [GR+"graph_written", GR+"graph_labelled"],
  "All sequences of calls with numbers that are not negative; also for graphs with labels, which the interface has no way to set. boost is replaced by its documented behaviour; the file takes everything.")
BT=N+"BacktraceProps."
c("C132", "partial", [BT+"error_text_partial", BT+"nameless_cuts", BT+"no_file_undefined"],
  "False for a stack with a call that has no name, which ends the list, and with one that belongs to no file, for which a null pointer is written to; both by theorem. Proved for all other stacks.")
c("C133", "partial", [BT+"error_memory_partial", BT+"error_leaks"],
  "False for every error thrown below a function whose name is not mangled, as main, by theorem. Proved: nothing is lost if and only if all names are mangled.")
c("C134", "partial", [P+"type_name_partial", P+"type_names_differ", P+"nil_type_undefined", P+"type_outer_name"],
  "False for nil: atypeStr follows a null pointer, by theorem. Proved for all other values.")
c("C135", "partial", [V+"pop_view_partial", V+"push_view_behind", V+"push_view_undefined", V+"pop_small_view", V+"push_view_shape", V+"shift_view_offset"],
  "False: push overwrites the element behind the view or writes outside of the array, pop does not make the view smaller, shift returns the offset, each by theorem for all views. Proved: pop returns the last element and changes none.")
PW=N+"PowProps."
c("C136", "partial", [PW+"pow_number_partial", PW+"powNew_number_partial", PW+"pow_int_throws", PW+"pow_array_throws", PW+"pow_single_undefined", PW+"pow_aliased", PW+"pow_cdouble_lost", PW+"powNew_cdouble_lost", PW+"pow_cdouble_view"],
  "False for integers and for arrays as exponents (exception), for an exponent of one element (undefined), an element of the array itself as exponent, and for cdouble (the result has one element); each by theorem. Proved for numbers as exponents of float, double and cfloat arrays.")
VE=N+"ViewElem."
c("C137", "partial", [VE+"view_of_numbers_partial", VE+"number_same", VE+"plain_like", VE+"view_of_vars", VE+"view_of_vars_value", VE+"atype_of"],
  "False for views of vars: nil elements are said to be defined, [] throws, comparing with a var of the same type and size is undefined; by theorem for all views. Proved for views of numbers of all types but cdouble, for which the agreement with the array is proved, and for elements of arrays of vars that are no views.")
c("C138", "partial", [VE+"search_numbers_partial", VE+"search_vars", VE+"sort_vars"],
  "False for views of vars: searching is undefined if a var of the same type and size is in the view, else it finds nothing; sorting is undefined if the first two have the same type; by theorem for all views. Proved for views of numbers of all types but cdouble.")
CA=N+"CastProps."
c("C139", "partial", [CA+"text_partial", CA+"written", CA+"integer_partial", CA+"integer_lost", CA+"floating_partial", CA+"array_undefined", CA+"char_text", CA+"char_number", CA+"same_type"],
  "False for integers that do not fit (changed silently), floating point numbers that do not fit and arrays (undefined), and a string is converted to char as its first character; by theorem. Proved: all strings for int and long, all numbers that fit.")
CT=N+"Ctor."
c("C140", "partial", [CT+"size_partial", CT+"size_small", CT+"size_array", CT+"shape_partial", CT+"shape_bad", CT+"view_unset", CT+"view_takes_array"],
  "False for var(0, x) and var(1, x), which are x, for view(shape, x), of which only the first element is set, and for an array given to view, which is resized; by theorem. Proved for var(n, x) with n from 2 and var(shape, x) with positive dimensions, below 2^30 elements; var(shape, x) for numbers and cdouble.")
c("C141", "partial", [CT+"list_numbers_partial", CT+"list_array_first", CT+"list_one", CT+"list_mixed", CT+"list_converted", CT+"strings"],
  "False for a list of one number, which is the number, for different types of the first two (exception), and for later ones of another type, which are converted; by theorem. Proved for two or more numbers of the same type and for lists that begin with an array, string or nil.")
UN=N+"UnaryProps."
c("C142", "partial", [UN+"given_partial", UN+"in_place_partial", UN+"new_partial", UN+"real_partial", UN+"shifted", UN+"unknown_throws", UN+"real_int_throws", UN+"takes_iff", UN+"cdouble_first", UN+"cdouble_lost"],
  "False for arrays of cdouble, of which only the first element is used, for integers (exception), and for an output that begins inside the input; by theorem. Proved for arrays and views of float, double and cfloat, in place, into a given output and into a new one.")
LF=N+"LifeProps."
c("C143", "partial", [LF+"life_safe", LF+"life_exact", LF+"life_end_partial", LF+"life_end_acyclic_partial", LF+"life_lost_partial", LF+"refused_lost", LF+"cycle_left"],
  "False at the end: a shape that is refused loses a block, and an array one of whose elements is a view of it is never freed; by theorem. Proved for all programs: safety and that what is allocated is what is referred to; at the end only what hangs on a cycle is left, and nothing is lost without exceptions in constructors.")
c("C144", "partial", [LF+"view_flat", LF+"view_of_partial", LF+"copy_own_partial", LF+"assign_shares_partial", LF+"assign_copies", LF+"put_elem_partial", LF+"get_elem_partial"],
  "False if what is assigned to is itself a view of the same type and shape: it then stays the view it has been, by theorem, and its elements are set. Proved for all other variables; never a view of a view, in all programs.")
OW=N+"OwningProps."
c("C145", "partial", [OW+"owning_safe_partial", OW+"owning_exact_partial", OW+"owning_end_partial", OW+"owning_cleaned_partial", OW+"copy_undefined", OW+"assign_undefined", OW+"copy_cleans", OW+"throw_lost"],
  "False: every functor that is copied or assigned has its memory freed twice, in all programs, and a constructor that throws loses memory; by theorem. Proved for all programs that copy none: safety, every block has one owner, nothing is left but that of constructors that threw, and when the library is told to clean up.")
XT=N+"XmlType."
c("C146", "partial", [XT+"independent_partial", XT+"documents_show", XT+"empty_document", XT+"unwritable", XT+"not_independent", N+"MemProps.type_is_one_array"],
  "False: the string \"text\" in TYPE is one array shared by all elements of all documents; changing it in place changes it in all documents, also those read later, and none can be written any more; by theorem. Proved for all programs that do not change it in place, with what all documents show otherwise.")
CC=N+"CtypeProps."
c("C147", "partial", [CC+"case_defined_partial", CC+"case_undefined", CC+"split_defined_partial", CC+"split_undefined", CC+"strip_defined_partial", CC+"strip_undefined", CC+"unsigned_all", CC+"signed_not_all"],
  "False where char is signed: isspace, toupper and tolower get negative arguments for the bytes 128 to 254, undefined by the C standard (though not in the GNU library); by theorem. Proved for all texts where char is unsigned, and where it is signed for exactly those texts in which no such byte is looked at. A text of white space only is undefined for strip in any case (see C12).")
TM=N+"TransposeMkl."
DM=N+"DftMkl."
c("C148", "proved", [TM+"mkl_transpose_new", TM+"mkl_transpose_in_place", TM+"mkl_one_dimension"], "The MKL is assumed to transpose matrices without gaps exactly.")
c("C149", "partial", [DM+"mkl_real_into_partial", DM+"mkl_inverse_real_into_partial", DM+"mkl_complex_into_partial", DM+"mkl_real_partial", DM+"mkl_inverse_real_partial", DM+"mkl_complex_partial", DM+"mkl_inverse_undoes_real_partial", DM+"mkl_double_throws", DM+"mkl_double_new_throws", DM+"mkl_cdouble_refused", DM+"mkl_short_rows_undefined", DM+"mkl_error_thrown"],
  "False for double precision: calls throw, complex numbers are refused. Proved in single precision for all sizes, odd ones too, for rows that are long enough. Exact arithmetic; the library is assumed to compute the transform.")
c("C150", "proved", [DM+"mkl_same"], "Exact arithmetic; both libraries are assumed to compute the transform. Real transforms of odd size are undefined with Kiss FFT (C115).")
OM=N+"OwningMkl."
c("C151", "partial", [OM+"mkl_owning_safe_partial", OM+"mkl_owning_exact_partial", OM+"mkl_owning_end_partial", OM+"mkl_copy_undefined", OM+"mkl_assign_undefined", OM+"mkl_throw_lost", OM+"mkl_assign_lost"],
  "False: every functor that is copied or assigned is used after it has been freed, in all programs; a constructor that throws loses its memory and descriptor; and the program ends if a descriptor cannot be freed, because a destructor throws; by theorem. Proved for all programs that copy none: safety, one owner of everything, nothing left but that of constructors that threw.")
QW=N+"QwtProps."
c("C152", "proved", [QW+"plot_shows", QW+"early_undefined", QW+"other_undefined"],
  "Qt and Qwt are replaced by their documented behaviour. Arrays of another type are read as if they were of type double, which is undefined, by theorem.")
c("C153", "partial", [P+"complex_is_list_partial", P+"element_kept_partial", P+"own_element_converts", P+"remove_converts", P+"insert_converts", P+"complex_element_real", P+"complex_remove_real", P+"complex_insert_real", P+"complex_append_real", P+"complex_parts_lost"],
  "False for cdouble: x[i] = x[j], remove, insert and append of a var leave only the real parts of the elements they copy or move, in all states, by theorem. Proved for all sequences of the other operations, and for all other types of numbers.")
c("C154", "partial", [P+"push_own_partial", P+"push_own_converts", P+"unshift_own_before", P+"insert_own_throws", P+"insert_element_throws", P+"append_own_throws", P+"own_element_refused"],
  "Proved for push and all types but cdouble. False otherwise: unshift puts the element before in front, and insert and append throw after making the array longer and moving elements, in all states, by theorem.")
c("C155", "partial", [V+"remove_view_partial", V+"insert_view_loses", V+"insert_view_behind", V+"insert_view_undefined", V+"unshift_view_offset", V+"presize_view_dim", V+"insert_small_view", V+"remove_small_view", V+"edit_view_outside", V+"view_size_kept"],
  "False, each by theorem for all views: insert loses the last element, at the end it overwrites what is behind the view or writes outside of the array, unshift sets the offset, presize changes the number of dimensions. Proved: remove returns the element and moves the others down, but the size stays the same. Views of cdouble and of vars are left out.")
c("C156", "partial", [P+"memory_limit", P+"push_up_to_limit", P+"push_full_undefined", P+"setElem_over_undefined", P+"unshift_full_undefined", P+"append_over_undefined", P+"resize_over_unnoticed", P+"resize_string_undefined", P+"resize_new_aborts", P+"full_reached"],
  "False as stated: allocSize overflows beyond 2^30, so no memory is obtained. Proved exactly what happens: push, unshift, append and element assignment past the limit are undefined, resize of numbers is not noticed, resize of nil or a number fails an assertion. The part on push up to the limit holds. A state with a full array is shown to be reachable.")
c("C157", "proved", [P+"number_op", P+"number_new", P+"nil_throws", P+"pow_integer_throws"],
  "Where the operation on the two numbers is defined: pow takes no integers, integers do not overflow and are not divided by zero. Numbers of type cdouble are arrays of one element and are left out.")
c("C158", "partial", [P+"nested_op_partial", P+"scale_op", P+"vector_op_partial", P+"array_new_partial", P+"product_new", P+"mul_throws", P+"mul_nested_throws", P+"own_element_changes", P+"new_vars_corrupts", P+"div_empty_grows"],
  "Proved in place for all data and all operations but multiplication, with a plain number on the right; for multiplication with arrays of float and double; for two arrays of the same type, and their product as a new array. False, by theorem: other arrays cannot be multiplied; x += x[0] uses the changed element; a new value from an array of vars overwrites the pointers of nil vars; division by an empty array lengthens it.")
c("C159", "partial", [P+"types_throws", P+"vector_type_throws", P+"vector_div_throws_partial", P+"empty_left_undefined", P+"sum_new_aborts", P+"sizes_not_checked"],
  "Proved for different types, types the operation does not take, and division and power of arrays that are not empty. False, by theorem: sizes are not checked (fewer elements on the right leave the others, more pass the end, an empty array on the left is a division by zero), and the sum or difference of two arrays as a new array aborts. Arrays of cdouble are left out.")
c("C160", "proved", [P+"remove_outside", P+"insert_outside"],
  "For positions that are not negative: a negative one fails an assertion in remove and is not checked in insert.")
c("C161", "proved", [P+"move_new", P+"move_assign", P+"move_self", P+"move_to_element", P+"move_push"],
  "For reachable states; references to elements of arrays of cdouble are left out.")
c("C162", "partial", [P+"swap_values", P+"swap_elements_not"],
  "The exchange of what two variables show is proved, for references too. False, by theorem: elements that references refer to are not exchanged; the references are lost and hold the values.")
c("C163", "partial", [I+"written_unreadable", I+"rewritten_unreadable", I+"nothing_written_partial"],
  "False for every map whose first entry is a map, so for all that read returns with an entry: sections are printed as JSON without their names, and reading throws at the first line, a brace. Proved: nothing written is read back as nothing.")
FR=N+"FloatRange."
c("C164", "partial", [FR+t for t in "irange_exact_partial range_exact_partial irange1_float_partial range1_float_partial irange_rounded range_rounded irange_increases range_increases irange_backwards irange_ends_partial range_ends_partial irange_stuck range_stuck range_nan irange_nan mixed_undefined mixed_empty irange_drifts".split()],
  "Proved where lo, step and sums are multiples of one power of two with few enough digits, so for all whole numbers up to 2^24 or 2^53. In general each element is proved to be a number closest to the one before plus the step, and whatever is returned to increase strictly from lo, below hi. False, by theorem: rounded sums can give one element more, a step below half the last digit of lo never ends, NaN in range never ends, bounds of different types never end or give nil. The claim of returning is proved for steps not below the last digit.")
c("C165", "partial", [P+"range_call_partial", P+"range_changes_element"],
  "Proved for arguments that are numbers or variables holding numbers, in every reachable state. False, by theorem, for a first argument that is an element of an array: the parameter refers to the element, which is counted up to the end of the range.")
c("C166", "partial", [P+"vars_from_nil_partial", P+"push_nil_complex", P+"push_after_number", P+"mixed_not_built"],
  "Proved if the first value is nil, a string or an array, for up to 2^30 - 2 values of any kind. False, by theorem, if it is a number: any value of another type after it is refused. Numbers of one type are C105.")
XK=N+"XmlKeep."
c("C167", "partial", [XK+t for t in "kept_partial kept_iff write_again read_kept same_file number_boxed".split()],
  "Proved for all vars in which no element has a single number for data, so for all that reading gives; exceptions included. False, by theorem, exactly for the others: the number becomes an array of one. A second writing is proved to write the same always.")
c("C168", "partial", [P+t for t in "print_partial print_or_endless print_cycle_endless print_self_endless complex_addresses".split()],
  "Proved for all nested data with the exact state afterwards; everything initialised either prints so or never ends. False, by theorem, for arrays that contain themselves: printing never ends; and two or more complex numbers of double precision print as addresses. Missing: views, elements that are not initialised, references to elements of arrays of cdouble.")
c("C169", "partial", [P+t for t in "print_read_partial print_is_format print_same printed_string_iff printed_numbers_rejected".split()],
  "Proved, by joining the memory model of printing with C20, for data of nil, integers, clean strings, arrays of vars and maps as in C20; the text alone for all initialised data but several cdoubles. False, by theorem: a string comes back exactly if it has no quotation mark and no backslash, and the text of every non-empty array of integers is rejected.")
c("C170", "partial", [P+t for t in "compare_partial compare_values nil_equal_undefined compare_undecided self_compare_endless complex_compare_endless".split()],
  "Proved for all reachable states and all variables and references that have a value, with the exact state afterwards: the operators give what those of the value model give, so `==` decides sameness of plain data and `<` the order of keys. False, by theorem: nil is not compared, an array that contains itself and equally many complex numbers of double precision are compared for ever. Missing: views, elements that are not initialised, arrays that contain arrays of cdouble.")
c("C171", "partial", [P+t for t in "find_partial search_values find_key find_number binary_counts find_in_nil find_nil_undefined find_undecided".split()],
  "Proved for all reachable states, arrays, maps with keys in order, numbers and nil, with the exact state afterwards. False, by theorem, for nil: looking for it in an array that begins with nil follows a null pointer. Missing: views, complex numbers of double precision, elements that contain nil.")

c("C172", "partial", [P+t for t in "sort_partial sort_values sort_of_nil sort_of_number sort_nil_undefined sort_undecided".split()],
  "Proved for all reachable states and arrays, maps and strings, numbers being a parameter: the result is a new array, a permutation in non-descending order, its array elements are shared with the original, and every other array and variable is as before. False, by theorem, for two elements that are nil: a null pointer is followed. A number is sorted like an array of one. Missing: views, complex numbers of double precision, arrays other than strings as elements for the order (the refinement `sort_values` has them).")

c("C173", "proved", [P+"looking_changes_nothing"],
  "For all reachable states and whatever the variables are: arrays that contain themselves, undefined elements and complex numbers are included, and so are calls that throw (an example of one is given). Nothing is said of calls whose behaviour is undefined or that never end. Views are not in the memory model.")

c("C174", "partial", [P+t for t in "top_partial stack_top_partial top_number top_nil top_empty top_not_refused top_empty_push".split()],
  "Proved for all reachable states and all arrays of all types but empty ones, for numbers and nil, and after any valid operations on arrays of vars. False, by theorem, for every empty array: its top is the array itself, so that pushing onto the result changes the array. Views are not in the memory model.")
c("C175", "partial", ["Libube.Order."+t for t in "derived_partial derived_mixed arrays_neither_le_nor_ge prefix_le_and_ge nan_le_and_ge nul_le_and_ge".split()],
  "Proved for characters, integers, numbers that are not NaN and strings without NUL, and for all values of different kinds; false for arrays, NaN and strings with NUL, with witnesses.")
c("C176", "partial", ["Libube.Arith."+t for t in "negate_partial negate_twice_partial negate_throws negate_cdouble".split()] + ["Libube.IntProps.negate_int_partial", "Libube.FloatRange.negate_float", "Libube.FloatRange.negate_complex_partial", "Libube.FloatRange.negate_complex_infinite"],
  "Proved for arrays and views of floats and doubles; false for int, long and cfloat, where it throws, and for cdouble, where only the first element is set. For single integers proved but for the smallest one, for single floats and doubles for all values but the sign of zero. For single complex numbers proved where both parts are finite; false, by theorem, where one is infinite.")
c("C177", "partial", ["Libube.IntProps."+t for t in "int_arith_partial right_operand_reduced order_matters commutes division_by_zero floating_operand".split()],
  "Proved for right operands that fit into the type of the left one, where the result fits too; else exactly what happens: the operand is reduced or truncated, overflow and division by zero are undefined, characters are off by a multiple of 256. False, by theorem: 1 + 2^32 is 1.")
c("C178", "partial", ["Libube.FloatRange."+t for t in "sum_rounded difference_rounded product_rounded quotient_rounded operand_rounded sum_infinite product_infinite quotient_infinite nan_spreads product_closest_partial sum_closest_partial difference_closest_partial quotient_closest_partial float_commutes float_order_matters sum_not_associative".split()],
  "Proved for +, -, * and / of all finite numbers of the same type but for the sign of zero: the result is the closest number, of two the even one, and infinite exactly from half way beyond the largest number on. With infinities and what is not a number the results are those of IEEE 754. Operands of other types are first rounded to the type of the left one, so that the statement is false, by theorem, for different types: 1 + 2^-30 is 1 with a float on the left. Division by zero is left undefined, as in the C++ standard.")
c("C179", "partial", ["Libube.FloatRange."+t for t in "complex_sum_rounded complex_difference_rounded complex_commutes complex_product_exact_partial complex_product_not_closest complex_order_matters".split()],
  "Proved for operands of the same type with finite parts; products for whole parts up to 2^11 and 2^26, beyond which they need not be closest, by theorem. False, by theorem, for different types: the imaginary part of the right operand is lost if the left one is real or a cdouble and the right one a cfloat, and a cdouble on the right of a cfloat or a real number is undefined. Missing: division.")
c("C180", "partial", ["Libube.Arith."+t for t in "assign_number_partial assign_product_partial assign_sum_differs assign_element_differs".split()],
  "Proved for numbers on the right and for products of arrays of floats and doubles. False, by theorem, for all sums and differences of arrays, where x + y stops at an assertion, and for an element of x on the right, where x op= x[k] uses the new value after that element. cdouble, empty arrays and right operands of one element are those of C61.")
c("C181", "proved", ["Libube.FloatRange."+t for t in "sum_keeps_order difference_keeps_order product_keeps_order quotient_keeps_order difference_zero_iff difference_exact neutral sum_not_strict".split()],
  "For all finite floats and doubles; the sign of zero is not in the model. The order is kept but not strictly (`sum_not_strict`).")
c("C182", "partial", ["Libube.FloatRange."+t for t in "cast_closest cast_keeps_order float_double_float int_float_int_partial int_double_int int_float_lost".split()],
  "Proved for all finite numbers and integers, with float to double and back also for infinities and what is not a number. False, by theorem, for integers of more than 24 or 53 bits converted back: 2^53 + 1 changes, and for the largest long and int the conversion back is undefined. Missing: strings, complex numbers, the sign of zero; a double too large for float is taken to become infinite as IEEE 754 has it.")
c("C183", "proved", ["Libube.FloatRange."+t for t in "float_sum_vector float_sum_rows float_sum_error float_sum_keeps_order float_sum_exact float_sum_whole float_sum_nan complex_sum_vector float_sum_order_matters".split()],
  "For all finite floats and doubles: the code gives a running sum (`float_sum_vector`, `float_sum_rows`), and the others are about all running sums. The arithmetic is taken to be that of IEEE 754 without wider intermediate results or reordering. The order of the elements matters, by theorem. A vector of cfloat has its parts added on their own. Empty arrays are in C66.")
