{
 "claims": [
  {
   "property": "C01",
   "status": "partial",
   "theorems": [
    "Libube.Ind.complement_involution_partial",
    "Libube.Ind.complement_max_undefined",
    "Libube.Ind.complement_wrapping",
    "Libube.Ind.reference_index_recovered"
   ],
   "note": "Holds for every value but the largest, where -(x+1) is signed overflow; the smallest value cannot be complemented twice."
  },
  {
   "property": "C02",
   "status": "proved",
   "theorems": [
    "Libube.Alloc.allocSize_least_pow2",
    "Libube.Alloc.capacity_of_history",
    "Libube.Alloc.resize_no_realloc_if_fits"
   ],
   "note": ""
  },
  {
   "property": "C03",
   "status": "proved",
   "theorems": [
    "Libube.Utf8.len_counts_code_points"
   ],
   "note": ""
  },
  {
   "property": "C04",
   "status": "proved",
   "theorems": [
    "Libube.Utf8.len_eq_iff",
    "Libube.Utf8.len_neg_iff",
    "Libube.Utf8.len_total"
   ],
   "note": ""
  },
  {
   "property": "C05",
   "status": "proved",
   "theorems": [
    "Libube.StringFns.split_then_join",
    "Libube.StringFns.split_spec"
   ],
   "note": ""
  },
  {
   "property": "C06",
   "status": "proved",
   "theorems": [
    "Libube.StringFns.split_pieces_no_separator",
    "Libube.StringFns.split_spec"
   ],
   "note": ""
  },
  {
   "property": "C07",
   "status": "proved",
   "theorems": [
    "Libube.StringFns.split_limit"
   ],
   "note": ""
  },
  {
   "property": "C08",
   "status": "partial",
   "theorems": [
    "Libube.StringFns.split_terminates_partial",
    "Libube.StringFns.split_empty_separator_diverges"
   ],
   "note": "False for the empty separator: the loop never returns (proved for every fuel); holds for all others."
  },
  {
   "property": "C09",
   "status": "proved",
   "theorems": [
    "Libube.StringFns.join_then_split"
   ],
   "note": ""
  },
  {
   "property": "C10",
   "status": "proved",
   "theorems": [
    "Libube.StringFns.splitWords_words"
   ],
   "note": ""
  },
  {
   "property": "C100",
   "status": "partial",
   "theorems": [
    "Libube.Dot.dot_vectors_partial",
    "Libube.Dot.dot_rows_partial",
    "Libube.Dot.dot_one_diverges",
    "Libube.Dot.dot_shorter_truncates",
    "Libube.Dot.dot_longer_overruns",
    "Libube.Dot.vector_kind_throws",
    "Libube.Dot.vector_cdouble_aborts"
   ],
   "note": "false for a vector of one element (never returns), for vectors of different length (overrun, or the rest ignored), for integers (throws) and cdouble (aborts), refuted by theorems; proved otherwise"
  },
  {
   "property": "C101",
   "status": "partial",
   "theorems": [
    "Libube.Reduce.sort_rows_partial",
    "Libube.Reduce.sort_new_throws",
    "Libube.Reduce.sort_complex_throws",
    "Libube.Reduce.sort_empty_undefined"
   ],
   "note": "sort(x) always throws, complex arrays throw and the empty array divides by zero, refuted by theorems; proved for sort(x, x) otherwise, with std::sort replaced by its contract"
  },
  {
   "property": "C102",
   "status": "partial",
   "theorems": [
    "Libube.Reduce.asum_vector_partial",
    "Libube.Reduce.asum_rows_partial",
    "Libube.Reduce.asum_kind_throws",
    "Libube.Reduce.asum_cdouble_undefined",
    "Libube.Reduce.asum_empty_undefined"
   ],
   "note": "false for integers and cfloat (throws), cdouble (undefined) and the empty array (division by zero), refuted by theorems; proved for float and double, in exact arithmetic"
  },
  {
   "property": "C103",
   "status": "partial",
   "theorems": [
    "Libube.Reduce.iamax_vector_partial",
    "Libube.Reduce.iamax_rows_partial",
    "Libube.Reduce.iamax_complex_magnitude",
    "Libube.Reduce.iamax_int_throws",
    "Libube.Reduce.iamax_cdouble_aborts",
    "Libube.Reduce.iamax_number_aborts",
    "Libube.Reduce.iamax_empty_undefined"
   ],
   "note": "false for complex numbers (another magnitude is used), integers (throws), cdouble and a number (abort) and the empty array (division by zero), refuted by theorems; proved for real numbers, with BLAS replaced by its contract"
  },
  {
   "property": "C104",
   "status": "partial",
   "theorems": [
    "Libube.Reduce.concat_rows_partial",
    "Libube.Reduce.concat_types_throw",
    "Libube.Reduce.concat_lead_throws",
    "Libube.Reduce.concat_int_throws",
    "Libube.Reduce.concat_empty_first",
    "Libube.Reduce.concat_more_dims_loses",
    "Libube.Reduce.concat_fewer_dims_junk"
   ],
   "note": "false for integers (throws), a first operand without elements, and operands with another number of dimensions (accepted, with wrong results), refuted by theorems; proved otherwise"
  },
  {
   "property": "C105",
   "status": "partial",
   "theorems": [
    "Libube.MemProps.push_nil_number",
    "Libube.MemProps.unshift_nil_number",
    "Libube.MemProps.push_second",
    "Libube.MemProps.array_from_nil_partial",
    "Libube.MemProps.at_key_nil_throws",
    "Libube.MemProps.push_nil_complex"
   ],
   "note": "proved for up to 2^30 - 2 numbers that fit into a var (all types but cdouble); false for cdouble, by theorem: the first push makes an array of vars, whose element is an array of one number"
  },
  {
   "property": "C106",
   "status": "partial",
   "theorems": [
    "Libube.Ged.gedcom_read_partial",
    "Libube.Ged.gedcom_unterminated_trailer",
    "Libube.Ged.gedcom_forward_link_lost",
    "Libube.Ged.gedcom_forward_family_throws",
    "Libube.Ged.gedcom_marriage_alone",
    "Libube.Ged.gedcom_empty_record"
   ],
   "note": "false for families before their individuals (exception or lost link), MARR lines and records with nothing below, refuted by theorems; proved otherwise"
  },
  {
   "property": "C107",
   "status": "partial",
   "theorems": [
    "Libube.Ged.gedcom_any_partial",
    "Libube.Ged.gedcom_empty_file",
    "Libube.Ged.gedcom_source_undefined",
    "Libube.Ged.gedcom_truncated_undefined"
   ],
   "note": "false for empty and truncated files and lines such as '1 SOUR @S1@' (access to an element of an empty array), refuted by theorems; proved for all files that every other outcome is as stated"
  },
  {
   "property": "C108",
   "status": "partial",
   "theorems": [
    "Libube.Ged.gedcom_submitter_partial",
    "Libube.Ged.gedcom_unknown_record_drops_rest",
    "Libube.Ged.gedcom_unknown_line_drops_rest"
   ],
   "note": "false: all that follows is left out without notice, refuted by theorems; proved for records of submitters"
  },
  {
   "property": "C109",
   "status": "partial",
   "theorems": [
    "Libube.Ged.gedcom_second_read_partial",
    "Libube.Ged.gedcom_second_read_keeps_first"
   ],
   "note": "false: the result begins with that of the first file, refuted by a theorem; proved if the first file has no individuals and families"
  },
  {
   "property": "C11",
   "status": "partial",
   "theorems": [
    "Libube.StringFns.splitWords_limit_partial",
    "Libube.StringFns.splitWords_limit_one_exceeded"
   ],
   "note": "False for limit 1 (two pieces returned); proved for limits from 2."
  },
  {
   "property": "C110",
   "status": "partial",
   "theorems": [
    "Libube.MemProps.presize_partial",
    "Libube.MemProps.presize_string_shorter",
    "Libube.MemProps.presize_number_wraps",
    "Libube.MemProps.presize_number_same",
    "Libube.MemProps.presize_nil_array",
    "Libube.MemProps.presize_negative_aborts",
    "Libube.MemProps.presize_changes_type",
    "Libube.MemProps.var_presize"
   ],
   "note": "false for strings longer than n (a character is overwritten), numbers (become arrays of one) and nil (becomes an empty array), each by a theorem; proved for arrays of numbers and of vars, with up to 2^30 - 2 elements"
  },
  {
   "property": "C111",
   "status": "partial",
   "theorems": [
    "Libube.MemProps.append_raw_partial",
    "Libube.MemProps.append_raw_number",
    "Libube.MemProps.append_raw_other_type",
    "Libube.MemProps.append_raw_nil_undefined"
   ],
   "note": "false for nil and for arrays of another type (characters written over vars or numbers), refuted by theorems; proved for arrays and numbers of the type of the data"
  },
  {
   "property": "C112",
   "status": "partial",
   "theorems": [
    "Libube.MemProps.append_array_partial",
    "Libube.MemProps.append_to_number",
    "Libube.MemProps.comma_list_partial",
    "Libube.MemProps.var_append",
    "Libube.MemProps.array_is_list_partial",
    "Libube.MemProps.var_array_is_list_partial",
    "Libube.MemProps.append_nil_wrong",
    "Libube.MemProps.append_self_wrong",
    "Libube.MemProps.append_self_undefined",
    "Libube.MemProps.append_element_throws"
   ],
   "note": "false for x appended to itself (memory overrun), an element of an array of numbers (throws, x has grown) and a string appended to nil, refuted by theorems; proved for separate arrays, numbers, strings and arrays of vars"
  },
  {
   "property": "C113",
   "status": "partial",
   "theorems": [
    "Libube.Dft.dft_complex_partial",
    "Libube.Dft.idft_complex_partial",
    "Libube.Dft.dft_real_partial",
    "Libube.Dft.idft_real_partial",
    "Libube.Dft.dft_complex_into_partial",
    "Libube.Dft.idft_complex_into_partial",
    "Libube.Dft.dft_real_into_partial",
    "Libube.Dft.idft_real_into_partial"
   ],
   "note": "exact arithmetic, the library is assumed to do what it says; proved for rows of m or more elements and, for real numbers, even m; false otherwise (C115)"
  },
  {
   "property": "C114",
   "status": "partial",
   "theorems": [
    "Libube.Dft.idft_dft_complex_partial",
    "Libube.Dft.dft_idft_complex_partial",
    "Libube.Dft.idft_dft_real_partial"
   ],
   "note": "exact arithmetic; for complex numbers also the other way round; odd m is missing for real numbers, where the transform is undefined (dft_odd_undefined)"
  },
  {
   "property": "C115",
   "status": "partial",
   "theorems": [
    "Libube.Dft.dft_type_refused",
    "Libube.Dft.dft_wrong_type_throws",
    "Libube.Dft.dft_number_throws",
    "Libube.Dft.dft_self_throws",
    "Libube.Dft.dft_self_real_throws",
    "Libube.Dft.dft_nil_throws",
    "Libube.Dft.dft_nil_new_throws",
    "Libube.Dft.dft_odd_undefined",
    "Libube.Dft.dft_short_rows_undefined",
    "Libube.Dft.dft_short_real_undefined"
   ],
   "note": "false for odd sizes and short rows, which are undefined, by theorems; proved for other types, numbers, nil and input as output"
  },
  {
   "property": "C116",
   "status": "proved",
   "theorems": [
    "Libube.Path.dir_lists",
    "Libube.Path.dir_order",
    "Libube.Path.absent_throws",
    "Libube.Path.lists_complete",
    "Libube.Path.unreadable_throws"
   ],
   "note": "the file system is a parameter"
  },
  {
   "property": "C117",
   "status": "proved",
   "theorems": [
    "Libube.Path.rdir_lists",
    "Libube.Path.rdir_file",
    "Libube.Path.absent_throws",
    "Libube.Path.lists_complete",
    "Libube.Path.unreadable_throws"
   ],
   "note": "if a directory cannot be read there is an exception, not a list"
  },
  {
   "property": "C118",
   "status": "partial",
   "theorems": [
    "Libube.Path.tree_partial",
    "Libube.Path.tree_empty",
    "Libube.Path.tree_loop_throws",
    "Libube.Path.lists_complete",
    "Libube.Path.unreadable_throws"
   ],
   "note": "false for empty directories, which are nil, and for links that lead back, which end in an exception, by theorems; proved for all else"
  },
  {
   "property": "C119",
   "status": "proved",
   "theorems": [
    "Libube.Path.bits_parts",
    "Libube.Path.bits_entry"
   ],
   "note": ""
  },
  {
   "property": "C12",
   "status": "partial",
   "theorems": [
    "Libube.StringFns.strip_in_place_partial",
    "Libube.StringFns.strip_whitespace_undefined"
   ],
   "note": "Undefined behaviour for every non-empty string of white space; proved for all others."
  },
  {
   "property": "C120",
   "status": "partial",
   "theorems": [
    "Libube.MemProps.case_in_place_partial",
    "Libube.MemProps.case_number_diverges",
    "Libube.MemProps.case_nil_throws",
    "Libube.MemProps.case_char_lost"
   ],
   "note": "proved for strings nested in arrays and maps to any depth, also where arrays are shared; data with elements that are no strings is missing: numbers make the call endless and characters are lost, by theorems"
  },
  {
   "property": "C121",
   "status": "partial",
   "theorems": [
    "Libube.MemProps.case_new_string",
    "Libube.MemProps.case_new_list_partial",
    "Libube.MemProps.case_new_map",
    "Libube.MemProps.case_new_nested_throws"
   ],
   "note": "proved for strings and arrays of strings; false for maps, whose keys become nil, and for deeper nesting, which is an exception, by theorems"
  },
  {
   "property": "C122",
   "status": "partial",
   "theorems": [
    "Libube.MemProps.replace_string",
    "Libube.MemProps.replace_nested_partial",
    "Libube.MemProps.replace_shared_twice"
   ],
   "note": "proved for strings nested in arrays and maps to any depth in which no array occurs twice; false otherwise, by theorem; the regular expression is any function on strings"
  },
  {
   "property": "C123",
   "status": "proved",
   "theorems": [
    "Libube.MemProps.find_string",
    "Libube.MemProps.find_self_undefined"
   ],
   "note": "the search is any function on strings that gives places of them; a functor called with the same variable as argument and result reads freed memory, by theorem"
  },
  {
   "property": "C124",
   "status": "partial",
   "theorems": [
    "Libube.MemProps.strip_nested_partial",
    "Libube.MemProps.strip_space_undefined",
    "Libube.MemProps.strip_last_reference"
   ],
   "note": "False for strings of space only (undefined) and for a reference that is the last holder of the array it refers to (reads freed memory), both by theorem; proved for all other strings at any depth and under any sharing. A reference to a string that gets shorter becomes the string itself."
  },
  {
   "property": "C125",
   "status": "proved",
   "theorems": [
    "Libube.ModuleProps.module_safe",
    "Libube.ModuleProps.module_sound",
    "Libube.ModuleProps.module_deleted_once",
    "Libube.ModuleProps.module_exists",
    "Libube.ModuleProps.module_close",
    "Libube.ModuleProps.module_copy_undefined",
    "Libube.ModuleProps.module_temporary_undefined"
   ],
   "note": "Copying a loader deletes its instances twice, and an instance from a temporary loader is gone at once, both by theorem."
  },
  {
   "property": "C126",
   "status": "partial",
   "theorems": [
    "Libube.ModuleProps.module_handles_partial",
    "Libube.ModuleProps.module_leak"
   ],
   "note": "False for a library that has no factory function: the constructor throws and the library stays open. Proved: it is open exactly as often as that happened."
  },
  {
   "property": "C127",
   "status": "partial",
   "theorems": [
    "Libube.Json.matrix_round_trip_partial",
    "Libube.Json.matrix_of_arrays_lost",
    "Libube.Json.matrix_of_vars_undefined",
    "Libube.Json.matrix_of_cdouble_rejected",
    "Libube.Json.tensor_read_as_number",
    "Libube.Json.line_rejected"
   ],
   "note": "Proved for matrices of two or more integers. False for matrices of vars (arrays and strings are printed as null and lost, numbers held in vars are undefined) and of cdouble (throws), for more dimensions, of which only the first dimension is read back as a number, and for one dimension, whose text is rejected; both by theorem for all such views."
  },
  {
   "property": "C128",
   "status": "partial",
   "theorems": [
    "Libube.GnuplotProps.plot_text_partial",
    "Libube.GnuplotProps.plot_overwrites",
    "Libube.GnuplotProps.plot_int_throws",
    "Libube.GnuplotProps.plot_one_undefined"
   ],
   "note": "False: of two matrices of the same type and shape in a row the first is overwritten by the second; views of integers throw and views of one element are undefined, all by theorem. Proved for all lists where no array directly follows a view of the same type and shape."
  },
  {
   "property": "C129",
   "status": "partial",
   "theorems": [
    "Libube.GnuplotProps.plot_text_partial",
    "Libube.GnuplotProps.plot_overwrites",
    "Libube.GnuplotProps.plot_string_blank",
    "Libube.GnuplotProps.plot_refuses"
   ],
   "note": "Proved for lists as in C128. False for a single string, of which gnuplot receives empty lines, by theorem. Gnuplot itself and failures of the pipe are not modelled; numbers are printed by any function."
  },
  {
   "property": "C13",
   "status": "proved",
   "theorems": [
    "Libube.StringFns.case_mapping"
   ],
   "note": ""
  },
  {
   "property": "C130",
   "status": "proved",
   "theorems": [
    "Libube.GraphProps.vertices_fresh",
    "Libube.GraphProps.edge_negative"
   ],
   "note": "boost::adjacency_list is replaced by its documented behaviour."
  },
  {
   "property": "C131",
   "status": "proved",
   "theorems": [
    "Libube.GraphProps.graph_written",
    "Libube.GraphProps.graph_labelled"
   ],
   "note": "All sequences of calls with numbers that are not negative; also for graphs with labels, which the interface has no way to set. boost is replaced by its documented behaviour; the file takes everything."
  },
  {
   "property": "C132",
   "status": "partial",
   "theorems": [
    "Libube.BacktraceProps.error_text_partial",
    "Libube.BacktraceProps.nameless_cuts",
    "Libube.BacktraceProps.no_file_undefined"
   ],
   "note": "False for a stack with a call that has no name, which ends the list, and with one that belongs to no file, for which a null pointer is written to; both by theorem. Proved for all other stacks."
  },
  {
   "property": "C133",
   "status": "partial",
   "theorems": [
    "Libube.BacktraceProps.error_memory_partial",
    "Libube.BacktraceProps.error_leaks"
   ],
   "note": "False for every error thrown below a function whose name is not mangled, as main, by theorem. Proved: nothing is lost if and only if all names are mangled."
  },
  {
   "property": "C134",
   "status": "partial",
   "theorems": [
    "Libube.MemProps.type_name_partial",
    "Libube.MemProps.type_names_differ",
    "Libube.MemProps.nil_type_undefined",
    "Libube.MemProps.type_outer_name"
   ],
   "note": "False for nil: atypeStr follows a null pointer, by theorem. Proved for all other values."
  },
  {
   "property": "C135",
   "status": "partial",
   "theorems": [
    "Libube.View.pop_view_partial",
    "Libube.View.push_view_behind",
    "Libube.View.push_view_undefined",
    "Libube.View.pop_small_view",
    "Libube.View.push_view_shape",
    "Libube.View.shift_view_offset"
   ],
   "note": "False: push overwrites the element behind the view or writes outside of the array, pop does not make the view smaller, shift returns the offset, each by theorem for all views. Proved: pop returns the last element and changes none."
  },
  {
   "property": "C136",
   "status": "partial",
   "theorems": [
    "Libube.PowProps.pow_number_partial",
    "Libube.PowProps.powNew_number_partial",
    "Libube.PowProps.pow_int_throws",
    "Libube.PowProps.pow_array_throws",
    "Libube.PowProps.pow_single_undefined",
    "Libube.PowProps.pow_aliased",
    "Libube.PowProps.pow_cdouble_lost",
    "Libube.PowProps.powNew_cdouble_lost",
    "Libube.PowProps.pow_cdouble_view"
   ],
   "note": "False for integers and for arrays as exponents (exception), for an exponent of one element (undefined), an element of the array itself as exponent, and for cdouble (the result has one element); each by theorem. Proved for numbers as exponents of float, double and cfloat arrays."
  },
  {
   "property": "C137",
   "status": "partial",
   "theorems": [
    "Libube.ViewElem.view_of_numbers_partial",
    "Libube.ViewElem.number_same",
    "Libube.ViewElem.plain_like",
    "Libube.ViewElem.view_of_vars",
    "Libube.ViewElem.view_of_vars_value",
    "Libube.ViewElem.atype_of"
   ],
   "note": "False for views of vars: nil elements are said to be defined, [] throws, comparing with a var of the same type and size is undefined; by theorem for all views. Proved for views of numbers of all types but cdouble, for which the agreement with the array is proved, and for elements of arrays of vars that are no views."
  },
  {
   "property": "C138",
   "status": "partial",
   "theorems": [
    "Libube.ViewElem.search_numbers_partial",
    "Libube.ViewElem.search_vars",
    "Libube.ViewElem.sort_vars"
   ],
   "note": "False for views of vars: searching is undefined if a var of the same type and size is in the view, else it finds nothing; sorting is undefined if the first two have the same type; by theorem for all views. Proved for views of numbers of all types but cdouble."
  },
  {
   "property": "C139",
   "status": "partial",
   "theorems": [
    "Libube.CastProps.text_partial",
    "Libube.CastProps.written",
    "Libube.CastProps.integer_partial",
    "Libube.CastProps.integer_lost",
    "Libube.CastProps.floating_partial",
    "Libube.CastProps.array_undefined",
    "Libube.CastProps.char_text",
    "Libube.CastProps.char_number",
    "Libube.CastProps.same_type"
   ],
   "note": "False for integers that do not fit (changed silently), floating point numbers that do not fit and arrays (undefined), and a string is converted to char as its first character; by theorem. Proved: all strings for int and long, all numbers that fit."
  },
  {
   "property": "C14",
   "status": "partial",
   "theorems": [
    "Libube.GetLine.read_lines_partial",
    "Libube.GetLine.unterminated_line_gains_byte",
    "Libube.GetLine.contents_covered",
    "Libube.GetLine.getline_next"
   ],
   "note": "False for contents not ending in a newline: the last line gains a byte 0xFF; proved for all others."
  },
  {
   "property": "C140",
   "status": "partial",
   "theorems": [
    "Libube.Ctor.size_partial",
    "Libube.Ctor.size_small",
    "Libube.Ctor.size_array",
    "Libube.Ctor.shape_partial",
    "Libube.Ctor.shape_bad",
    "Libube.Ctor.view_unset",
    "Libube.Ctor.view_takes_array"
   ],
   "note": "False for var(0, x) and var(1, x), which are x, for view(shape, x), of which only the first element is set, and for an array given to view, which is resized; by theorem. Proved for var(n, x) with n from 2 and var(shape, x) with positive dimensions, below 2^30 elements; var(shape, x) for numbers and cdouble."
  },
  {
   "property": "C141",
   "status": "partial",
   "theorems": [
    "Libube.Ctor.list_numbers_partial",
    "Libube.Ctor.list_array_first",
    "Libube.Ctor.list_one",
    "Libube.Ctor.list_mixed",
    "Libube.Ctor.list_converted",
    "Libube.Ctor.strings"
   ],
   "note": "False for a list of one number, which is the number, for different types of the first two (exception), and for later ones of another type, which are converted; by theorem. Proved for two or more numbers of the same type and for lists that begin with an array, string or nil."
  },
  {
   "property": "C142",
   "status": "partial",
   "theorems": [
    "Libube.UnaryProps.given_partial",
    "Libube.UnaryProps.in_place_partial",
    "Libube.UnaryProps.new_partial",
    "Libube.UnaryProps.real_partial",
    "Libube.UnaryProps.shifted",
    "Libube.UnaryProps.unknown_throws",
    "Libube.UnaryProps.real_int_throws",
    "Libube.UnaryProps.takes_iff",
    "Libube.UnaryProps.cdouble_first",
    "Libube.UnaryProps.cdouble_lost"
   ],
   "note": "False for arrays of cdouble, of which only the first element is used, for integers (exception), and for an output that begins inside the input; by theorem. Proved for arrays and views of float, double and cfloat, in place, into a given output and into a new one."
  },
  {
   "property": "C143",
   "status": "partial",
   "theorems": [
    "Libube.LifeProps.life_safe",
    "Libube.LifeProps.life_exact",
    "Libube.LifeProps.life_end_partial",
    "Libube.LifeProps.life_end_acyclic_partial",
    "Libube.LifeProps.life_lost_partial",
    "Libube.LifeProps.refused_lost",
    "Libube.LifeProps.cycle_left"
   ],
   "note": "False at the end: a shape that is refused loses a block, and an array one of whose elements is a view of it is never freed; by theorem. Proved for all programs: safety and that what is allocated is what is referred to; at the end only what hangs on a cycle is left, and nothing is lost without exceptions in constructors."
  },
  {
   "property": "C144",
   "status": "partial",
   "theorems": [
    "Libube.LifeProps.view_flat",
    "Libube.LifeProps.view_of_partial",
    "Libube.LifeProps.copy_own_partial",
    "Libube.LifeProps.assign_shares_partial",
    "Libube.LifeProps.assign_copies",
    "Libube.LifeProps.put_elem_partial",
    "Libube.LifeProps.get_elem_partial"
   ],
   "note": "False if what is assigned to is itself a view of the same type and shape: it then stays the view it has been, by theorem, and its elements are set. Proved for all other variables; never a view of a view, in all programs."
  },
  {
   "property": "C145",
   "status": "partial",
   "theorems": [
    "Libube.OwningProps.owning_safe_partial",
    "Libube.OwningProps.owning_exact_partial",
    "Libube.OwningProps.owning_end_partial",
    "Libube.OwningProps.owning_cleaned_partial",
    "Libube.OwningProps.copy_undefined",
    "Libube.OwningProps.assign_undefined",
    "Libube.OwningProps.copy_cleans",
    "Libube.OwningProps.throw_lost"
   ],
   "note": "False: every functor that is copied or assigned has its memory freed twice, in all programs, and a constructor that throws loses memory; by theorem. Proved for all programs that copy none: safety, every block has one owner, nothing is left but that of constructors that threw, and when the library is told to clean up."
  },
  {
   "property": "C146",
   "status": "partial",
   "theorems": [
    "Libube.XmlType.independent_partial",
    "Libube.XmlType.documents_show",
    "Libube.XmlType.empty_document",
    "Libube.XmlType.unwritable",
    "Libube.XmlType.not_independent",
    "Libube.MemProps.type_is_one_array"
   ],
   "note": "False: the string \"text\" in TYPE is one array shared by all elements of all documents; changing it in place changes it in all documents, also those read later, and none can be written any more; by theorem. Proved for all programs that do not change it in place, with what all documents show otherwise."
  },
  {
   "property": "C147",
   "status": "partial",
   "theorems": [
    "Libube.CtypeProps.case_defined_partial",
    "Libube.CtypeProps.case_undefined",
    "Libube.CtypeProps.split_defined_partial",
    "Libube.CtypeProps.split_undefined",
    "Libube.CtypeProps.strip_defined_partial",
    "Libube.CtypeProps.strip_undefined",
    "Libube.CtypeProps.unsigned_all",
    "Libube.CtypeProps.signed_not_all"
   ],
   "note": "False where char is signed: isspace, toupper and tolower get negative arguments for the bytes 128 to 254, undefined by the C standard (though not in the GNU library); by theorem. Proved for all texts where char is unsigned, and where it is signed for exactly those texts in which no such byte is looked at. A text of white space only is undefined for strip in any case (see C12)."
  },
  {
   "property": "C148",
   "status": "proved",
   "theorems": [
    "Libube.TransposeMkl.mkl_transpose_new",
    "Libube.TransposeMkl.mkl_transpose_in_place",
    "Libube.TransposeMkl.mkl_one_dimension"
   ],
   "note": "The MKL is assumed to transpose matrices without gaps exactly."
  },
  {
   "property": "C149",
   "status": "partial",
   "theorems": [
    "Libube.DftMkl.mkl_real_into_partial",
    "Libube.DftMkl.mkl_inverse_real_into_partial",
    "Libube.DftMkl.mkl_complex_into_partial",
    "Libube.DftMkl.mkl_real_partial",
    "Libube.DftMkl.mkl_inverse_real_partial",
    "Libube.DftMkl.mkl_complex_partial",
    "Libube.DftMkl.mkl_inverse_undoes_real_partial",
    "Libube.DftMkl.mkl_double_throws",
    "Libube.DftMkl.mkl_double_new_throws",
    "Libube.DftMkl.mkl_cdouble_refused",
    "Libube.DftMkl.mkl_short_rows_undefined",
    "Libube.DftMkl.mkl_error_thrown"
   ],
   "note": "False for double precision: calls throw, complex numbers are refused. Proved in single precision for all sizes, odd ones too, for rows that are long enough. Exact arithmetic; the library is assumed to compute the transform."
  },
  {
   "property": "C15",
   "status": "partial",
   "theorems": [
    "Libube.GetLine.text_file_adds_quotes",
    "Libube.GetLine.empty_text_file",
    "Libube.GetLine.text_file_read_partial"
   ],
   "note": "False: writing puts quotes around every line; reading is exact."
  },
  {
   "property": "C150",
   "status": "proved",
   "theorems": [
    "Libube.DftMkl.mkl_same"
   ],
   "note": "Exact arithmetic; both libraries are assumed to compute the transform. Real transforms of odd size are undefined with Kiss FFT (C115)."
  },
  {
   "property": "C151",
   "status": "partial",
   "theorems": [
    "Libube.OwningMkl.mkl_owning_safe_partial",
    "Libube.OwningMkl.mkl_owning_exact_partial",
    "Libube.OwningMkl.mkl_owning_end_partial",
    "Libube.OwningMkl.mkl_copy_undefined",
    "Libube.OwningMkl.mkl_assign_undefined",
    "Libube.OwningMkl.mkl_throw_lost",
    "Libube.OwningMkl.mkl_assign_lost"
   ],
   "note": "False: every functor that is copied or assigned is used after it has been freed, in all programs; a constructor that throws loses its memory and descriptor; and the program ends if a descriptor cannot be freed, because a destructor throws; by theorem. Proved for all programs that copy none: safety, one owner of everything, nothing left but that of constructors that threw."
  },
  {
   "property": "C152",
   "status": "proved",
   "theorems": [
    "Libube.QwtProps.plot_shows",
    "Libube.QwtProps.early_undefined",
    "Libube.QwtProps.other_undefined"
   ],
   "note": "Qt and Qwt are replaced by their documented behaviour. Arrays of another type are read as if they were of type double, which is undefined, by theorem."
  },
  {
   "property": "C153",
   "status": "partial",
   "theorems": [
    "Libube.MemProps.complex_is_list_partial",
    "Libube.MemProps.element_kept_partial",
    "Libube.MemProps.own_element_converts",
    "Libube.MemProps.remove_converts",
    "Libube.MemProps.insert_converts",
    "Libube.MemProps.complex_element_real",
    "Libube.MemProps.complex_remove_real",
    "Libube.MemProps.complex_insert_real",
    "Libube.MemProps.complex_append_real",
    "Libube.MemProps.complex_parts_lost"
   ],
   "note": "False for cdouble: x[i] = x[j], remove, insert and append of a var leave only the real parts of the elements they copy or move, in all states, by theorem. Proved for all sequences of the other operations, and for all other types of numbers."
  },
  {
   "property": "C154",
   "status": "partial",
   "theorems": [
    "Libube.MemProps.push_own_partial",
    "Libube.MemProps.push_own_converts",
    "Libube.MemProps.unshift_own_before",
    "Libube.MemProps.insert_own_throws",
    "Libube.MemProps.insert_element_throws",
    "Libube.MemProps.append_own_throws",
    "Libube.MemProps.own_element_refused"
   ],
   "note": "Proved for push and all types but cdouble. False otherwise: unshift puts the element before in front, and insert and append throw after making the array longer and moving elements, in all states, by theorem."
  },
  {
   "property": "C155",
   "status": "partial",
   "theorems": [
    "Libube.View.remove_view_partial",
    "Libube.View.insert_view_loses",
    "Libube.View.insert_view_behind",
    "Libube.View.insert_view_undefined",
    "Libube.View.unshift_view_offset",
    "Libube.View.presize_view_dim",
    "Libube.View.insert_small_view",
    "Libube.View.remove_small_view",
    "Libube.View.edit_view_outside",
    "Libube.View.view_size_kept"
   ],
   "note": "False, each by theorem for all views: insert loses the last element, at the end it overwrites what is behind the view or writes outside of the array, unshift sets the offset, presize changes the number of dimensions. Proved: remove returns the element and moves the others down, but the size stays the same. Views of cdouble and of vars are left out."
  },
  {
   "property": "C156",
   "status": "partial",
   "theorems": [
    "Libube.MemProps.memory_limit",
    "Libube.MemProps.push_up_to_limit",
    "Libube.MemProps.push_full_undefined",
    "Libube.MemProps.setElem_over_undefined",
    "Libube.MemProps.unshift_full_undefined",
    "Libube.MemProps.append_over_undefined",
    "Libube.MemProps.resize_over_unnoticed",
    "Libube.MemProps.resize_string_undefined",
    "Libube.MemProps.resize_new_aborts",
    "Libube.MemProps.full_reached"
   ],
   "note": "False as stated: allocSize overflows beyond 2^30, so no memory is obtained. Proved exactly what happens: push, unshift, append and element assignment past the limit are undefined, resize of numbers is not noticed, resize of nil or a number fails an assertion. The part on push up to the limit holds. A state with a full array is shown to be reachable."
  },
  {
   "property": "C157",
   "status": "proved",
   "theorems": [
    "Libube.MemProps.number_op",
    "Libube.MemProps.number_new",
    "Libube.MemProps.nil_throws",
    "Libube.MemProps.pow_integer_throws"
   ],
   "note": "Where the operation on the two numbers is defined: pow takes no integers, integers do not overflow and are not divided by zero. Numbers of type cdouble are arrays of one element and are left out."
  },
  {
   "property": "C158",
   "status": "partial",
   "theorems": [
    "Libube.MemProps.nested_op_partial",
    "Libube.MemProps.scale_op",
    "Libube.MemProps.vector_op_partial",
    "Libube.MemProps.array_new_partial",
    "Libube.MemProps.product_new",
    "Libube.MemProps.mul_throws",
    "Libube.MemProps.mul_nested_throws",
    "Libube.MemProps.own_element_changes",
    "Libube.MemProps.new_vars_corrupts",
    "Libube.MemProps.div_empty_grows"
   ],
   "note": "Proved in place for all data and all operations but multiplication, with a plain number on the right; for multiplication with arrays of float and double; for two arrays of the same type, and their product as a new array. False, by theorem: other arrays cannot be multiplied; x += x[0] uses the changed element; a new value from an array of vars overwrites the pointers of nil vars; division by an empty array lengthens it."
  },
  {
   "property": "C159",
   "status": "partial",
   "theorems": [
    "Libube.MemProps.types_throws",
    "Libube.MemProps.vector_type_throws",
    "Libube.MemProps.vector_div_throws_partial",
    "Libube.MemProps.empty_left_undefined",
    "Libube.MemProps.sum_new_aborts",
    "Libube.MemProps.sizes_not_checked"
   ],
   "note": "Proved for different types, types the operation does not take, and division and power of arrays that are not empty. False, by theorem: sizes are not checked (fewer elements on the right leave the others, more pass the end, an empty array on the left is a division by zero), and the sum or difference of two arrays as a new array aborts. Arrays of cdouble are left out."
  },
  {
   "property": "C16",
   "status": "partial",
   "theorems": [
    "Libube.VarBuf.write_then_read_partial",
    "Libube.VarBuf.stream_refines_partial",
    "Libube.VarBuf.byte_ff_reads_as_eof"
   ],
   "note": "False for byte 0xFF, which reads as end of stream; proved for all other bytes."
  },
  {
   "property": "C160",
   "status": "proved",
   "theorems": [
    "Libube.MemProps.remove_outside",
    "Libube.MemProps.insert_outside"
   ],
   "note": "For positions that are not negative: a negative one fails an assertion in remove and is not checked in insert."
  },
  {
   "property": "C161",
   "status": "proved",
   "theorems": [
    "Libube.MemProps.move_new",
    "Libube.MemProps.move_assign",
    "Libube.MemProps.move_self",
    "Libube.MemProps.move_to_element",
    "Libube.MemProps.move_push"
   ],
   "note": "For reachable states; references to elements of arrays of cdouble are left out."
  },
  {
   "property": "C162",
   "status": "partial",
   "theorems": [
    "Libube.MemProps.swap_values",
    "Libube.MemProps.swap_elements_not"
   ],
   "note": "The exchange of what two variables show is proved, for references too. False, by theorem: elements that references refer to are not exchanged; the references are lost and hold the values."
  },
  {
   "property": "C163",
   "status": "partial",
   "theorems": [
    "Libube.Ini.written_unreadable",
    "Libube.Ini.rewritten_unreadable",
    "Libube.Ini.nothing_written_partial"
   ],
   "note": "False for every map whose first entry is a map, so for all that read returns with an entry: sections are printed as JSON without their names, and reading throws at the first line, a brace. Proved: nothing written is read back as nothing."
  },
  {
   "property": "C164",
   "status": "partial",
   "theorems": [
    "Libube.FloatRange.irange_exact_partial",
    "Libube.FloatRange.range_exact_partial",
    "Libube.FloatRange.irange1_float_partial",
    "Libube.FloatRange.range1_float_partial",
    "Libube.FloatRange.irange_rounded",
    "Libube.FloatRange.range_rounded",
    "Libube.FloatRange.irange_increases",
    "Libube.FloatRange.range_increases",
    "Libube.FloatRange.irange_backwards",
    "Libube.FloatRange.irange_ends_partial",
    "Libube.FloatRange.range_ends_partial",
    "Libube.FloatRange.irange_stuck",
    "Libube.FloatRange.range_stuck",
    "Libube.FloatRange.range_nan",
    "Libube.FloatRange.irange_nan",
    "Libube.FloatRange.mixed_undefined",
    "Libube.FloatRange.mixed_empty",
    "Libube.FloatRange.irange_drifts"
   ],
   "note": "Proved where lo, step and sums are multiples of one power of two with few enough digits, so for all whole numbers up to 2^24 or 2^53. In general each element is proved to be a number closest to the one before plus the step, and whatever is returned to increase strictly from lo, below hi. False, by theorem: rounded sums can give one element more, a step below half the last digit of lo never ends, NaN in range never ends, bounds of different types never end or give nil. The claim of returning is proved for steps not below the last digit."
  },
  {
   "property": "C165",
   "status": "partial",
   "theorems": [
    "Libube.MemProps.range_call_partial",
    "Libube.MemProps.range_changes_element"
   ],
   "note": "Proved for arguments that are numbers or variables holding numbers, in every reachable state. False, by theorem, for a first argument that is an element of an array: the parameter refers to the element, which is counted up to the end of the range."
  },
  {
   "property": "C166",
   "status": "partial",
   "theorems": [
    "Libube.MemProps.vars_from_nil_partial",
    "Libube.MemProps.push_nil_complex",
    "Libube.MemProps.push_after_number",
    "Libube.MemProps.mixed_not_built"
   ],
   "note": "Proved if the first value is nil, a string or an array, for up to 2^30 - 2 values of any kind. False, by theorem, if it is a number: any value of another type after it is refused. Numbers of one type are C105."
  },
  {
   "property": "C167",
   "status": "partial",
   "theorems": [
    "Libube.XmlKeep.kept_partial",
    "Libube.XmlKeep.kept_iff",
    "Libube.XmlKeep.write_again",
    "Libube.XmlKeep.read_kept",
    "Libube.XmlKeep.same_file",
    "Libube.XmlKeep.number_boxed"
   ],
   "note": "Proved for all vars in which no element has a single number for data, so for all that reading gives; exceptions included. False, by theorem, exactly for the others: the number becomes an array of one. A second writing is proved to write the same always."
  },
  {
   "property": "C168",
   "status": "partial",
   "theorems": [
    "Libube.MemProps.print_partial",
    "Libube.MemProps.print_or_endless",
    "Libube.MemProps.print_cycle_endless",
    "Libube.MemProps.print_self_endless",
    "Libube.MemProps.complex_addresses"
   ],
   "note": "Proved for all nested data with the exact state afterwards; everything initialised either prints so or never ends. False, by theorem, for arrays that contain themselves: printing never ends; and two or more complex numbers of double precision print as addresses. Missing: views, elements that are not initialised, references to elements of arrays of cdouble."
  },
  {
   "property": "C169",
   "status": "partial",
   "theorems": [
    "Libube.MemProps.print_read_partial",
    "Libube.MemProps.print_is_format",
    "Libube.MemProps.print_same",
    "Libube.MemProps.printed_string_iff",
    "Libube.MemProps.printed_numbers_rejected"
   ],
   "note": "Proved, by joining the memory model of printing with C20, for data of nil, integers, clean strings, arrays of vars and maps as in C20; the text alone for all initialised data but several cdoubles. False, by theorem: a string comes back exactly if it has no quotation mark and no backslash, and the text of every non-empty array of integers is rejected."
  },
  {
   "property": "C17",
   "status": "partial",
   "theorems": [
    "Libube.VarBuf.stream_refines_partial",
    "Libube.VarBuf.byte_ff_reads_as_eof",
    "Libube.VarBuf.seek_to_end_ignored"
   ],
   "note": "False for byte 0xFF and for seeking to the end."
  },
  {
   "property": "C170",
   "status": "partial",
   "theorems": [
    "Libube.MemProps.compare_partial",
    "Libube.MemProps.compare_values",
    "Libube.MemProps.nil_equal_undefined",
    "Libube.MemProps.compare_undecided",
    "Libube.MemProps.self_compare_endless",
    "Libube.MemProps.complex_compare_endless"
   ],
   "note": "Proved for all reachable states and all variables and references that have a value, with the exact state afterwards: the operators give what those of the value model give, so `==` decides sameness of plain data and `<` the order of keys. False, by theorem: nil is not compared, an array that contains itself and equally many complex numbers of double precision are compared for ever. Missing: views, elements that are not initialised, arrays that contain arrays of cdouble."
  },
  {
   "property": "C171",
   "status": "partial",
   "theorems": [
    "Libube.MemProps.find_partial",
    "Libube.MemProps.search_values",
    "Libube.MemProps.find_key",
    "Libube.MemProps.find_number",
    "Libube.MemProps.binary_counts",
    "Libube.MemProps.find_in_nil",
    "Libube.MemProps.find_nil_undefined",
    "Libube.MemProps.find_undecided"
   ],
   "note": "Proved for all reachable states, arrays, maps with keys in order, numbers and nil, with the exact state afterwards. False, by theorem, for nil: looking for it in an array that begins with nil follows a null pointer. Missing: views, complex numbers of double precision, elements that contain nil."
  },
  {
   "property": "C172",
   "status": "partial",
   "theorems": [
    "Libube.MemProps.sort_partial",
    "Libube.MemProps.sort_values",
    "Libube.MemProps.sort_of_nil",
    "Libube.MemProps.sort_of_number",
    "Libube.MemProps.sort_nil_undefined",
    "Libube.MemProps.sort_undecided"
   ],
   "note": "Proved for all reachable states and arrays, maps and strings, numbers being a parameter: the result is a new array, a permutation in non-descending order, its array elements are shared with the original, and every other array and variable is as before. False, by theorem, for two elements that are nil: a null pointer is followed. A number is sorted like an array of one. Missing: views, complex numbers of double precision, arrays other than strings as elements for the order (the refinement `sort_values` has them)."
  },
  {
   "property": "C173",
   "status": "proved",
   "theorems": [
    "Libube.MemProps.looking_changes_nothing"
   ],
   "note": "For all reachable states and whatever the variables are: arrays that contain themselves, undefined elements and complex numbers are included, and so are calls that throw (an example of one is given). Nothing is said of calls whose behaviour is undefined or that never end. Views are not in the memory model."
  },
  {
   "property": "C174",
   "status": "partial",
   "theorems": [
    "Libube.MemProps.top_partial",
    "Libube.MemProps.stack_top_partial",
    "Libube.MemProps.top_number",
    "Libube.MemProps.top_nil",
    "Libube.MemProps.top_empty",
    "Libube.MemProps.top_not_refused",
    "Libube.MemProps.top_empty_push"
   ],
   "note": "Proved for all reachable states and all arrays of all types but empty ones, for numbers and nil, and after any valid operations on arrays of vars. False, by theorem, for every empty array: its top is the array itself, so that pushing onto the result changes the array. Views are not in the memory model."
  },
  {
   "property": "C175",
   "status": "partial",
   "theorems": [
    "Libube.Order.derived_partial",
    "Libube.Order.derived_mixed",
    "Libube.Order.arrays_neither_le_nor_ge",
    "Libube.Order.prefix_le_and_ge",
    "Libube.Order.nan_le_and_ge",
    "Libube.Order.nul_le_and_ge"
   ],
   "note": "Proved for characters, integers, numbers that are not NaN and strings without NUL, and for all values of different kinds; false for arrays, NaN and strings with NUL, with witnesses."
  },
  {
   "property": "C176",
   "status": "partial",
   "theorems": [
    "Libube.Arith.negate_partial",
    "Libube.Arith.negate_twice_partial",
    "Libube.Arith.negate_throws",
    "Libube.Arith.negate_cdouble",
    "Libube.IntProps.negate_int_partial",
    "Libube.FloatRange.negate_float",
    "Libube.FloatRange.negate_complex_partial",
    "Libube.FloatRange.negate_complex_infinite"
   ],
   "note": "Proved for arrays and views of floats and doubles; false for int, long and cfloat, where it throws, and for cdouble, where only the first element is set. For single integers proved but for the smallest one, for single floats and doubles for all values but the sign of zero. For single complex numbers proved where both parts are finite; false, by theorem, where one is infinite."
  },
  {
   "property": "C177",
   "status": "partial",
   "theorems": [
    "Libube.IntProps.int_arith_partial",
    "Libube.IntProps.right_operand_reduced",
    "Libube.IntProps.order_matters",
    "Libube.IntProps.commutes",
    "Libube.IntProps.division_by_zero",
    "Libube.IntProps.floating_operand"
   ],
   "note": "Proved for right operands that fit into the type of the left one, where the result fits too; else exactly what happens: the operand is reduced or truncated, overflow and division by zero are undefined, characters are off by a multiple of 256. False, by theorem: 1 + 2^32 is 1."
  },
  {
   "property": "C178",
   "status": "partial",
   "theorems": [
    "Libube.FloatRange.sum_rounded",
    "Libube.FloatRange.difference_rounded",
    "Libube.FloatRange.product_rounded",
    "Libube.FloatRange.quotient_rounded",
    "Libube.FloatRange.operand_rounded",
    "Libube.FloatRange.sum_infinite",
    "Libube.FloatRange.product_infinite",
    "Libube.FloatRange.quotient_infinite",
    "Libube.FloatRange.nan_spreads",
    "Libube.FloatRange.product_closest_partial",
    "Libube.FloatRange.sum_closest_partial",
    "Libube.FloatRange.difference_closest_partial",
    "Libube.FloatRange.quotient_closest_partial",
    "Libube.FloatRange.float_commutes",
    "Libube.FloatRange.float_order_matters",
    "Libube.FloatRange.sum_not_associative"
   ],
   "note": "Proved for +, -, * and / of all finite numbers of the same type but for the sign of zero: the result is the closest number, of two the even one, and infinite exactly from half way beyond the largest number on. With infinities and what is not a number the results are those of IEEE 754. Operands of other types are first rounded to the type of the left one, so that the statement is false, by theorem, for different types: 1 + 2^-30 is 1 with a float on the left. Division by zero is left undefined, as in the C++ standard."
  },
  {
   "property": "C179",
   "status": "partial",
   "theorems": [
    "Libube.FloatRange.complex_sum_rounded",
    "Libube.FloatRange.complex_difference_rounded",
    "Libube.FloatRange.complex_commutes",
    "Libube.FloatRange.complex_product_exact_partial",
    "Libube.FloatRange.complex_product_not_closest",
    "Libube.FloatRange.complex_order_matters"
   ],
   "note": "Proved for operands of the same type with finite parts; products for whole parts up to 2^11 and 2^26, beyond which they need not be closest, by theorem. False, by theorem, for different types: the imaginary part of the right operand is lost if the left one is real or a cdouble and the right one a cfloat, and a cdouble on the right of a cfloat or a real number is undefined. Missing: division."
  },
  {
   "property": "C18",
   "status": "partial",
   "theorems": [
    "Libube.Ini.ini_last_value_partial",
    "Libube.Ini.blank_line_undefined",
    "Libube.Ini.unterminated_value"
   ],
   "note": "False for lines of white space only, values containing the separator again and a missing final newline; proved for all other files."
  },
  {
   "property": "C180",
   "status": "partial",
   "theorems": [
    "Libube.Arith.assign_number_partial",
    "Libube.Arith.assign_product_partial",
    "Libube.Arith.assign_sum_differs",
    "Libube.Arith.assign_element_differs"
   ],
   "note": "Proved for numbers on the right and for products of arrays of floats and doubles. False, by theorem, for all sums and differences of arrays, where x + y stops at an assertion, and for an element of x on the right, where x op= x[k] uses the new value after that element. cdouble, empty arrays and right operands of one element are those of C61."
  },
  {
   "property": "C181",
   "status": "proved",
   "theorems": [
    "Libube.FloatRange.sum_keeps_order",
    "Libube.FloatRange.difference_keeps_order",
    "Libube.FloatRange.product_keeps_order",
    "Libube.FloatRange.quotient_keeps_order",
    "Libube.FloatRange.difference_zero_iff",
    "Libube.FloatRange.difference_exact",
    "Libube.FloatRange.neutral",
    "Libube.FloatRange.sum_not_strict"
   ],
   "note": "For all finite floats and doubles; the sign of zero is not in the model. The order is kept but not strictly (`sum_not_strict`)."
  },
  {
   "property": "C182",
   "status": "partial",
   "theorems": [
    "Libube.FloatRange.cast_closest",
    "Libube.FloatRange.cast_keeps_order",
    "Libube.FloatRange.float_double_float",
    "Libube.FloatRange.int_float_int_partial",
    "Libube.FloatRange.int_double_int",
    "Libube.FloatRange.int_float_lost"
   ],
   "note": "Proved for all finite numbers and integers, with float to double and back also for infinities and what is not a number. False, by theorem, for integers of more than 24 or 53 bits converted back: 2^53 + 1 changes, and for the largest long and int the conversion back is undefined. Missing: strings, complex numbers, the sign of zero; a double too large for float is taken to become infinite as IEEE 754 has it."
  },
  {
   "property": "C183",
   "status": "proved",
   "theorems": [
    "Libube.FloatRange.float_sum_vector",
    "Libube.FloatRange.float_sum_rows",
    "Libube.FloatRange.float_sum_error",
    "Libube.FloatRange.float_sum_keeps_order",
    "Libube.FloatRange.float_sum_exact",
    "Libube.FloatRange.float_sum_whole",
    "Libube.FloatRange.float_sum_nan",
    "Libube.FloatRange.complex_sum_vector",
    "Libube.FloatRange.float_sum_order_matters"
   ],
   "note": "For all finite floats and doubles: the code gives a running sum (`float_sum_vector`, `float_sum_rows`), and the others are about all running sums. The arithmetic is taken to be that of IEEE 754 without wider intermediate results or reordering. The order of the elements matters, by theorem. A vector of cfloat has its parts added on their own. Empty arrays are in C66."
  },
  {
   "property": "C19",
   "status": "partial",
   "theorems": [
    "Libube.Ini.value_kept_partial",
    "Libube.Ini.value_cut"
   ],
   "note": "False for every value containing the separator again."
  },
  {
   "property": "C20",
   "status": "partial",
   "theorems": [
    "Libube.Json.json_round_trip_partial",
    "Libube.Json.quote_lost",
    "Libube.Json.singleton_unwrapped",
    "Libube.Json.empty_array_lost",
    "Libube.Json.array_text_rejected",
    "Libube.Json.string_round_trip_iff",
    "Libube.Json.mixed_array_lost",
    "Libube.Json.numeral_string_absorbed"
   ],
   "note": "False for dense arrays, strings with quotation marks, backslashes or NUL, arrays of one integer, arrays that begin with an integer and hold something else, and empty arrays; proved for all nested values built from nil, integers, clean strings, other arrays and maps."
  },
  {
   "property": "C21",
   "status": "partial",
   "theorems": [
    "Libube.Json.json_settles_partial",
    "Libube.Json.nested_push_undefined"
   ],
   "note": "Termination proved for all texts; undefined behaviour proved possible, only with brackets in the text."
  },
  {
   "property": "C22",
   "status": "partial",
   "theorems": [
    "Libube.Json.integer_numerals_keep_value_partial",
    "Libube.Json.fraction_truncated"
   ],
   "note": "False for every numeral with fraction or exponent; proved for integers of 64 bits."
  },
  {
   "property": "C23",
   "status": "partial",
   "theorems": [
    "Libube.Json.array_text_rejected",
    "Libube.Json.spaced_array_partial"
   ],
   "note": "False for every non-empty list: the text is rejected. Proved with a blank before the bracket."
  },
  {
   "property": "C24",
   "status": "partial",
   "theorems": [
    "Libube.Json.object_last_binding_partial",
    "Libube.Json.number_before_brace_rejected",
    "Libube.Json.valueText_string",
    "Libube.Json.valueText_number"
   ],
   "note": "False when a number stands directly before the brace; proved for self-delimiting values."
  },
  {
   "property": "C25",
   "status": "partial",
   "theorems": [
    "Libube.Order.eq_decides_same",
    "Libube.Order.eq_equivalence_partial",
    "Libube.Order.nil_eq_nil_undefined",
    "Libube.Order.nan_not_reflexive",
    "Libube.Order.cdouble_eq_diverges"
   ],
   "note": "Proved without nil, complex doubles and NaN, for each of which it is false."
  },
  {
   "property": "C26",
   "status": "partial",
   "theorems": [
    "Libube.Order.map_equality_partial",
    "Libube.Order.map_equality_ignores_keys"
   ],
   "note": "False: keys are not compared."
  },
  {
   "property": "C27",
   "status": "partial",
   "theorems": [
    "Libube.View.view_equality_ignores_elements",
    "Libube.View.same_elements_differ",
    "Libube.View.array_equality_partial"
   ],
   "note": "False for views: offset and shape are compared instead of the elements."
  },
  {
   "property": "C28",
   "status": "partial",
   "theorems": [
    "Libube.Order.key_order_partial",
    "Libube.Order.array_order_not_asymmetric",
    "Libube.Order.array_prefix_incomparable",
    "Libube.Order.nan_incomparable",
    "Libube.Order.nul_strings_incomparable"
   ],
   "note": "False for arrays, NaN and strings with NUL; proved for the other keys."
  },
  {
   "property": "C29",
   "status": "proved",
   "theorems": [
    "Libube.Order.mixed_kinds",
    "Libube.Order.mixed_total"
   ],
   "note": ""
  },
  {
   "property": "C30",
   "status": "proved",
   "theorems": [
    "Libube.Order.binary_lower_bound",
    "Libube.Order.binary_partition_point"
   ],
   "note": ""
  },
  {
   "property": "C31",
   "status": "partial",
   "theorems": [
    "Libube.Order.sort_sorted_partial",
    "Libube.Order.sort_complex",
    "Libube.Order.sort_cdouble_keeps_order",
    "Libube.Order.sort_nan_unsorted"
   ],
   "note": "False with NaN and for arrays of complex doubles, which keep their order; complex floats are ordered by absolute value; that the original is unchanged is a memory statement."
  },
  {
   "property": "C32",
   "status": "partial",
   "theorems": [
    "Libube.Order.index_array_partial",
    "Libube.Order.index_map_partial",
    "Libube.Order.index_cdouble_never"
   ],
   "note": "Proved for values without nil, and maps with ordinary keys; in an array of complex doubles nothing is ever found."
  },
  {
   "property": "C33",
   "status": "partial",
   "theorems": [
    "Libube.Maps.map_is_finite_map_partial",
    "Libube.Maps.nul_string_keys_lost",
    "Libube.MemProps.map_history_partial",
    "Libube.MemProps.map_from_nil_partial",
    "Libube.MemProps.set_key_partial",
    "Libube.MemProps.get_key_partial"
   ],
   "note": "False for strings with NUL characters and NaN. The MemProps theorems prove the same in the memory model, with counts and sharing, for up to 2^30 - 2 entries."
  },
  {
   "property": "C34",
   "status": "partial",
   "theorems": [
    "Libube.Maps.map_keys_ascending_partial",
    "Libube.MemProps.map_history_partial"
   ],
   "note": "For ordinary keys (see C33)."
  },
  {
   "property": "C35",
   "status": "partial",
   "theorems": [
    "Libube.Maps.lookup_effects_partial",
    "Libube.Maps.at_nil_undefined",
    "Libube.MemProps.at_key",
    "Libube.MemProps.get_key_partial",
    "Libube.MemProps.get_new_key_partial"
   ],
   "note": "For ordinary keys; at(nil) is undefined behaviour."
  },
  {
   "property": "C36",
   "status": "partial",
   "theorems": [
    "Libube.Maps.array_keys_lost",
    "Libube.Maps.array_keys_partial"
   ],
   "note": "False for arrays of two elements; proved for one."
  },
  {
   "property": "C37",
   "status": "partial",
   "theorems": [
    "Libube.MemProps.ref_does_not_stay",
    "Libube.MemProps.ref_stays_partial",
    "Libube.MemProps.ref_moves"
   ],
   "note": "false: inserting a smaller new key makes the reference denote another entry, refuted by theorem; proved for keys already in the map and for new keys that come after"
  },
  {
   "property": "C38",
   "status": "partial",
   "theorems": [
    "Libube.MemProps.nested_at_wrong",
    "Libube.MemProps.nested_at_partial",
    "Libube.MemProps.at_key"
   ],
   "note": "false: the position found in the inner map is used in the outer one, refuted by theorem; proved in two steps, with the inner map assigned to a variable first"
  },
  {
   "property": "C39",
   "status": "partial",
   "theorems": [
    "Libube.MemProps.array_is_list_partial",
    "Libube.MemProps.var_array_is_list_partial",
    "Libube.MemProps.var_push_own",
    "Libube.MemProps.complex_is_list_partial",
    "Libube.MemProps.complex_parts_lost",
    "Libube.MemProps.unshift_own_element_wrong"
   ],
   "note": "proved for every sequence of operations on numeric arrays, strings and arrays of vars, values given as numbers, strings, nil or variables; unshift of an element of the same array is refuted by theorem; for arrays of cdouble proved for push, pop, shift, unshift, set, resize, presize and append of data, while insert, remove and append of a var lose imaginary parts, by theorem (C153)"
  },
  {
   "property": "C40",
   "status": "partial",
   "theorems": [
    "Libube.MemProps.pop_assigned_partial",
    "Libube.MemProps.pop_declared_partial",
    "Libube.MemProps.var_pop_partial",
    "Libube.MemProps.pop_string_gives_nul",
    "Libube.MemProps.pop_changes_later"
   ],
   "note": "false: pop returns a reference, which reads NUL for strings and changes with the next push; assigned to an existing variable it is a value"
  },
  {
   "property": "C41",
   "status": "partial",
   "theorems": [
    "Libube.MemProps.remove_partial",
    "Libube.MemProps.remove_converts",
    "Libube.MemProps.remove_shows_next",
    "Libube.MemProps.remove_returns_wrong",
    "Libube.MemProps.var_remove_partial",
    "Libube.MemProps.var_remove_array_partial",
    "Libube.MemProps.var_remove_wrong",
    "Libube.MemProps.var_remove_complex_throws"
   ],
   "note": "the array is right, except for cdouble, where the elements behind lose their imaginary parts (remove_converts, C153); the var returned reads as the element after the removed one, refuted by theorem, except for elements of arrays of vars that are arrays themselves, of which it is a copy"
  },
  {
   "property": "C42",
   "status": "partial",
   "theorems": [
    "Libube.MemProps.insert_copy_partial",
    "Libube.MemProps.insert_other_array",
    "Libube.MemProps.insert_converts",
    "Libube.MemProps.self_insert_string_wrong",
    "Libube.MemProps.self_insert_out_of_bounds",
    "Libube.MemProps.self_insert_uninitialised"
   ],
   "note": "false for the array itself; proved for a copy of it and for any other array, except for cdouble, where numbers lose their imaginary parts (insert_converts, C153)"
  },
  {
   "property": "C43",
   "status": "partial",
   "theorems": [
    "Libube.MemProps.failed_push_grows",
    "Libube.MemProps.push_pop_fails",
    "Libube.MemProps.push_number_partial",
    "Libube.MemProps.push_mismatch_partial"
   ],
   "note": "false for a string that is no number and for an element of the same array; a number pushed never fails"
  },
  {
   "property": "C44",
   "status": "partial",
   "theorems": [
    "Libube.MemProps.shift_nil_partial",
    "Libube.MemProps.pop_nil_partial",
    "Libube.MemProps.shift_empty_undefined",
    "Libube.MemProps.pop_empty_aborts",
    "Libube.MemProps.empty_not_error"
   ],
   "note": "false: shift of an empty array is undefined, pop aborts; proved for nil"
  },
  {
   "property": "C45",
   "status": "proved",
   "theorems": [
    "Libube.MemProps.no_premature_free",
    "Libube.MemProps.reach_exec"
   ],
   "note": "programs include calls of elementwise math functions and of the string functions, arithmetic, comparing, searching, sorting and printing"
  },
  {
   "property": "C46",
   "status": "partial",
   "theorems": [
    "Libube.MemProps.no_leak_partial",
    "Libube.MemProps.no_leak_acyclic_partial",
    "Libube.MemProps.allocated_iff_referred_partial",
    "Libube.MemProps.unshift_leaks",
    "Libube.MemProps.self_assignment_leaks"
   ],
   "note": "proved for programs without unshift and without self-assignment of elements, both of which leak by theorem"
  },
  {
   "property": "C47",
   "status": "partial",
   "theorems": [
    "Libube.MemProps.same_array_later",
    "Libube.MemProps.initialisation_shares",
    "Libube.MemProps.assignment_shares",
    "Libube.MemProps.assigned_element_seen",
    "Libube.MemProps.copy_elements_partial",
    "Libube.MemProps.separate_arrays",
    "Libube.MemProps.copy_is_shallow"
   ],
   "note": "sharing proved for all arrays and all later programs; separation proved for the elements themselves, while elements that are arrays stay shared, by theorem; that the copy is made at all is proved for the types other than complex, see C48"
  },
  {
   "property": "C48",
   "status": "partial",
   "theorems": [
    "Libube.MemProps.copy_elements_partial",
    "Libube.MemProps.copy_complex_throws",
    "Libube.MemProps.copy_complex_fails"
   ],
   "note": "proved for seven of nine element types; complex arrays throw, refuted by theorem"
  },
  {
   "property": "C49",
   "status": "partial",
   "theorems": [
    "Libube.MemProps.set_element_partial",
    "Libube.MemProps.var_set_partial",
    "Libube.MemProps.var_set_grows_partial",
    "Libube.MemProps.var_set_own",
    "Libube.MemProps.self_assignment_throws"
   ],
   "note": "proved for numeric arrays and strings and values given as numbers, and for arrays of vars and values of any kind, elements of other arrays included; x[i] = x[i] throws for arrays of vars, refuted by theorem"
  },
  {
   "property": "C50",
   "status": "partial",
   "theorems": [
    "Libube.MemProps.literal_terminated",
    "Libube.MemProps.string_terminated_partial",
    "Libube.MemProps.popped_reference_breaks_string"
   ],
   "note": "proved for every sequence of operations on the string itself; assigning to a popped reference overwrites the terminator, refuted by theorem"
  },
  {
   "property": "C51",
   "status": "partial",
   "theorems": [
    "Libube.View.view_inside_partial",
    "Libube.View.view_outcomes",
    "Libube.View.view_made",
    "Libube.View.negative_offset_accepted"
   ],
   "note": "False for negative offsets; products of dimensions may overflow."
  },
  {
   "property": "C52",
   "status": "proved",
   "theorems": [
    "Libube.View.row_major",
    "Libube.View.view_reads"
   ],
   "note": ""
  },
  {
   "property": "C53",
   "status": "partial",
   "theorems": [
    "Libube.View.out_of_range_throws_partial",
    "Libube.View.out_of_range_throws_plain",
    "Libube.View.extra_components_ignored",
    "Libube.View.missing_components_undefined",
    "Libube.View.index_overflow"
   ],
   "note": "False for too many components, which are ignored, and for a first component whose multiple overflows."
  },
  {
   "property": "C54",
   "status": "proved",
   "theorems": [
    "Libube.View.subview_reads",
    "Libube.View.subview_row"
   ],
   "note": ""
  },
  {
   "property": "C55",
   "status": "partial",
   "theorems": [
    "Libube.Arith.assign_view_partial",
    "Libube.Arith.assign_int_view_throws",
    "Libube.Arith.assign_one_element_undefined",
    "Libube.Arith.assign_other_shape",
    "Libube.Arith.cdouble_view_first"
   ],
   "note": "Proved for floats and doubles with more than one element; integers and cfloat throw, of cdouble only the first element is assigned, views of one element are undefined."
  },
  {
   "property": "C56",
   "status": "partial",
   "theorems": [
    "Libube.Transpose.outOfPlace_transposes",
    "Libube.Transpose.transpose_view_partial",
    "Libube.Transpose.other_types_throw",
    "Libube.Transpose.one_dimension_throws"
   ],
   "note": "Proved for all shapes of floats and doubles; every other element type throws."
  },
  {
   "property": "C57",
   "status": "partial",
   "theorems": [
    "Libube.Transpose.inPlace_transposes",
    "Libube.Transpose.inPlace_eq_outOfPlace",
    "Libube.Transpose.transpose_in_place_view_partial",
    "Libube.Transpose.in_place_agrees_partial",
    "Libube.Transpose.other_types_throw"
   ],
   "note": "Proved for all shapes of floats and doubles, with termination; every other element type throws."
  },
  {
   "property": "C58",
   "status": "partial",
   "theorems": [
    "Libube.Transpose.twice_identity",
    "Libube.Transpose.in_place_twice_partial",
    "Libube.Transpose.other_types_throw"
   ],
   "note": "Proved for all shapes of floats and doubles; every other element type throws."
  },
  {
   "property": "C59",
   "status": "partial",
   "theorems": [
    "Libube.Rows.poly_coefficients_partial",
    "Libube.Rows.poly_values_partial",
    "Libube.Rows.poly_cdouble_undefined",
    "Libube.Rows.poly_empty_undefined"
   ],
   "note": "proved row by row for float, double and cfloat, over any commutative ring; cdouble writes 16-byte numbers into an array of 8-byte ones, and no roots divides by zero: both refuted by theorem"
  },
  {
   "property": "C60",
   "status": "partial",
   "theorems": [
    "Libube.Roots.roots_companion_partial",
    "Libube.Roots.roots_found_partial",
    "Libube.Roots.roots_linear_throws"
   ],
   "note": "proved for every degree from 2 on, over any field and extension, with the column-major reading LAPACK makes; for degree 1 roots throws, refuted by theorem"
  },
  {
   "property": "C61",
   "status": "partial",
   "theorems": [
    "Libube.Arith.arith_arrays_partial",
    "Libube.Arith.arith_number",
    "Libube.Arith.unsupported_throws",
    "Libube.Arith.scaling_throws",
    "Libube.Arith.one_element_undefined",
    "Libube.Arith.cdouble_first_only",
    "Libube.Arith.cdouble_first_number",
    "Libube.Arith.cdouble_first_elem"
   ],
   "note": "Proved for all shapes where the operation exists; division by arrays, integer arrays and arrays of one element fail, and of cdouble arrays only the first element is changed."
  },
  {
   "property": "C62",
   "status": "partial",
   "theorems": [
    "Libube.Arith.arith_arrays_partial",
    "Libube.Arith.shorter_operand_partial",
    "Libube.Arith.longer_operand_overruns",
    "Libube.Arith.empty_undefined"
   ],
   "note": "False: a longer right operand overruns, an empty one is undefined; compatible shapes are safe."
  },
  {
   "property": "C63",
   "status": "partial",
   "theorems": [
    "Libube.Arith.sum_of_arrays_aborts",
    "Libube.Arith.product_of_arrays_partial",
    "Libube.Arith.binop_number",
    "Libube.Arith.cdouble_result_unset"
   ],
   "note": "False for + and - of arrays, which abort, and for arrays of cdouble, whose results are unset but for the first element; proved for * and for numbers on the right."
  },
  {
   "property": "C64",
   "status": "partial",
   "theorems": [
    "Libube.Arith.aliased_operand",
    "Libube.Arith.aliased_operand_partial"
   ],
   "note": "False except for *= and the last element."
  },
  {
   "property": "C65",
   "status": "partial",
   "theorems": [
    "Libube.MemProps.in_place_partial",
    "Libube.MemProps.shared_twice",
    "Libube.MemProps.cdouble_lost"
   ],
   "note": "false for an array that occurs at two places (the function is applied twice) and for arrays of cdouble (only the first element is used), refuted by theorems; proved for all other nested data"
  },
  {
   "property": "C66",
   "status": "partial",
   "theorems": [
    "Libube.Rows.sum_vector_partial",
    "Libube.Rows.sum_rows_partial",
    "Libube.Rows.sum_int_throws",
    "Libube.Rows.sum_cdouble_first",
    "Libube.Rows.sum_cdouble_rows",
    "Libube.Rows.sum_empty_undefined"
   ],
   "note": "proved for float, double and cfloat and every shape, over any ring; integers throw, of cdouble the first element is returned and the empty array reads past its end: all refuted by theorem"
  },
  {
   "property": "C67",
   "status": "partial",
   "theorems": [
    "Libube.Range.irange_partial",
    "Libube.Range.range_partial",
    "Libube.Range.irange1_partial",
    "Libube.Range.range1_partial",
    "Libube.Range.range_max_undefined",
    "Libube.Range.irange_mixed_undefined",
    "Libube.Range.irange_mixed_empty"
   ],
   "note": "proved for integer types below the top of the type and up to 2^30 elements; counting up to the largest value of a type, or to a number of another type, is refuted by theorem; floating point not modelled"
  },
  {
   "property": "C68",
   "status": "proved",
   "theorems": [
    "Libube.Xml.escape_reversible",
    "Libube.Xml.number_written_as_nul"
   ],
   "note": ""
  },
  {
   "property": "C69",
   "status": "proved",
   "theorems": [
    "Libube.Xml.events_rebuild",
    "Libube.Xml.shows_unique"
   ],
   "note": "Over sequences of parser events; that the parser reports them is an assumption on expat."
  },
  {
   "property": "C70",
   "status": "partial",
   "theorems": [
    "Libube.Xml.write_read_partial",
    "Libube.Xml.newline_lost",
    "Libube.Xml.packed_written_as_nul"
   ],
   "note": "false for text with newlines, and for elements whose data is a string or an array of numbers, refuted by theorem; proved for trees with plain text, with the parser replaced by a reference tokeniser"
  },
  {
   "property": "C71",
   "status": "partial",
   "theorems": [
    "Libube.Config.config_latest_partial",
    "Libube.Config.no_section_not_stored"
   ],
   "note": "proved for ordinary section and entry names and files of the form of C18; a setting made without a section is not stored, by theorem"
  },
  {
   "property": "C72",
   "status": "partial",
   "theorems": [
    "Libube.Option.options_partial",
    "Libube.Option.options_posix_partial",
    "Libube.Option.repeated_flag_throws"
   ],
   "note": "false for a flag given twice (throws), refuted by theorem; proved for the other valid argument vectors, with getopt modelled after its manual page"
  },
  {
   "property": "C73",
   "status": "partial",
   "theorems": [
    "Libube.Curl.download_partial",
    "Libube.Curl.failed_download_partial"
   ],
   "note": "proved for bodies of up to 2^30 - 2 bytes and all chunkings, and that a failed transfer throws and leaves nothing behind; libcurl replaced by its contract"
  },
  {
   "property": "C74",
   "status": "partial",
   "theorems": [
    "Libube.Sndfile.read_mono_partial",
    "Libube.Sndfile.write_mono_partial",
    "Libube.Sndfile.write_mono_view_partial",
    "Libube.Sndfile.write_row_partial",
    "Libube.Sndfile.read_channels_throws",
    "Libube.Sndfile.read_empty",
    "Libube.Sndfile.write_channels_overreads",
    "Libube.Sndfile.write_channels_fails",
    "Libube.Sndfile.write_other_type"
   ],
   "note": "false for two channels and more: reading throws and leaves the file open, writing reads beyond the array, refuted by theorems; proved for one channel, with libsndfile replaced by its contract"
  },
  {
   "property": "C75",
   "status": "partial",
   "theorems": [
    "Libube.Order.nil_compare_partial",
    "Libube.Order.nil_order_undefined",
    "Libube.Order.nil_eq_nil_undefined"
   ],
   "note": "False: undefined behaviour for nil against nil and arrays."
  },
  {
   "property": "C76",
   "status": "partial",
   "theorems": [
    "Libube.StringFns.strip_out_of_place_use_after_free",
    "Libube.StringFns.strip_out_of_place_partial",
    "Libube.MemProps.strip_into_undefined",
    "Libube.MemProps.strip_into_other"
   ],
   "note": "False for every string but the empty one: the result is written to freed memory, or to another variable if that shares the array of the result."
  },
  {
   "property": "C77",
   "status": "partial",
   "theorems": [
    "Libube.Maps.map_remove_keeps_key",
    "Libube.Maps.map_remove_last_partial"
   ],
   "note": "False except for the last position: values shift, keys stay."
  },
  {
   "property": "C78",
   "status": "proved",
   "theorems": [
    "Libube.Json.words_read"
   ],
   "note": ""
  },
  {
   "property": "C79",
   "status": "partial",
   "theorems": [
    "Libube.Json.string_literal_partial",
    "Libube.Json.escape_rejected"
   ],
   "note": "False for backslashes: every escape but that of the quotation mark is rejected; proved for strings without backslashes."
  },
  {
   "property": "C80",
   "status": "partial",
   "theorems": [
    "Libube.View.move_inside_partial",
    "Libube.View.negative_move_accepted"
   ],
   "note": "False for negative offsets."
  },
  {
   "property": "C81",
   "status": "partial",
   "theorems": [
    "Libube.Arith.swap_vectors_partial",
    "Libube.Arith.swap_matrix_overruns",
    "Libube.Arith.swap_int_throws",
    "Libube.Arith.swap_cdouble_aborts"
   ],
   "note": "False for more than one dimension (overrun), for integers (exception) and for cdouble (abort); proved for vectors."
  },
  {
   "property": "C82",
   "status": "proved",
   "theorems": [
    "Libube.MemProps.cells_not_refs"
   ],
   "note": ""
  },
  {
   "property": "C83",
   "status": "partial",
   "theorems": [
    "Libube.MemProps.storage_suffices_partial",
    "Libube.MemProps.huge_resize_unbacked"
   ],
   "note": "proved up to 2^30 elements; beyond, resize sets the size without storage, refuted by theorem"
  },
  {
   "property": "C84",
   "status": "proved",
   "theorems": [
    "Libube.MemProps.elements_typed"
   ],
   "note": ""
  },
  {
   "property": "C85",
   "status": "partial",
   "theorems": [
    "Libube.MemProps.freed_memory_used",
    "Libube.MemProps.no_premature_free"
   ],
   "note": "false: a reference that is the only owner of an array can be resized through, refuted by theorem; what is referred to is always allocated (see C45)"
  },
  {
   "property": "C86",
   "status": "partial",
   "theorems": [
    "Libube.MemProps.set_element_partial",
    "Libube.MemProps.self_assignment_throws",
    "Libube.MemProps.self_assignment_leaks"
   ],
   "note": "false for arrays of vars, refuted by theorem; for numeric arrays assigning the number an element holds is the case of set_element_partial"
  },
  {
   "property": "C87",
   "status": "partial",
   "theorems": [
    "Libube.MemProps.resize_shows_old",
    "Libube.MemProps.var_set_grows_partial"
   ],
   "note": "false: shrinking does not destroy elements, and growing again shows them, refuted by theorem"
  },
  {
   "property": "C88",
   "status": "partial",
   "theorems": [
    "Libube.MemProps.at_unchecked",
    "Libube.MemProps.at_number_partial",
    "Libube.MemProps.at_element_partial"
   ],
   "note": "false for arrays, refuted by theorem; proved for numbers, and for valid indices of arrays of vars"
  },
  {
   "property": "C89",
   "status": "partial",
   "theorems": [
    "Libube.MemProps.var_shift_partial"
   ],
   "note": "Proved for arrays whose size the library can represent (up to 2^30 - 2 elements): larger arrays are not covered."
  },
  {
   "property": "C90",
   "status": "partial",
   "theorems": [
    "Libube.MemProps.keys_change",
    "Libube.MemProps.keys_fixed_partial"
   ],
   "note": "false: the map shares the string given as key, refuted by theorem; proved for arrays that are not keys of the map"
  },
  {
   "property": "C91",
   "status": "partial",
   "theorems": [
    "Libube.MemProps.entry_not_copied",
    "Libube.MemProps.set_key_own_partial"
   ],
   "note": "false for a new key that comes before (throws or copies another entry) and for m[k] = m[k] (throws), refuted by theorem; proved for other keys in the map and for new ones that come after"
  },
  {
   "property": "C92",
   "status": "partial",
   "theorems": [
    "Libube.MemProps.assign_var_partial",
    "Libube.MemProps.assign_entry_partial",
    "Libube.MemProps.assign_at_key"
   ],
   "note": "proved but for elements of arrays of cdouble, and maps and strings of up to 2^30 - 2 elements"
  },
  {
   "property": "C93",
   "status": "partial",
   "theorems": [
    "Libube.MemProps.ref_assign_self_throws",
    "Libube.MemProps.ref_assign_entry_partial",
    "Libube.MemProps.ref_assign_var_partial",
    "Libube.MemProps.ref_assign_number"
   ],
   "note": "false for r = x[i] with r referring to x[i], refuted by theorem; proved for values from elsewhere"
  },
  {
   "property": "C94",
   "status": "proved",
   "theorems": [
    "Libube.Xml.short_document_throws"
   ],
   "note": "Over sequences of parser events."
  },
  {
   "property": "C95",
   "status": "partial",
   "theorems": [
    "Libube.Xml.other_throws"
   ],
   "note": "false: any such text makes read() throw, refuted by theorem"
  },
  {
   "property": "C96",
   "status": "proved",
   "theorems": [
    "Libube.Option.unknown_option_exits",
    "Libube.Option.missing_argument_exits"
   ],
   "note": "getopt modelled after its manual page"
  },
  {
   "property": "C97",
   "status": "partial",
   "theorems": [
    "Libube.MemProps.apply_new_partial",
    "Libube.MemProps.apply_to_array",
    "Libube.MemProps.new_nested_throws"
   ],
   "note": "proved for arrays of numbers other than cdouble of up to 2^30 - 2 elements; f(x) throws for an array of arrays, by theorem"
  },
  {
   "property": "C98",
   "status": "partial",
   "theorems": [
    "Libube.Dot.matrix_product_partial",
    "Libube.Dot.incompatible_throws",
    "Libube.Dot.matrix_kind_throws",
    "Libube.Dot.matrix_cdouble_aborts",
    "Libube.Dot.batch_overruns",
    "Libube.Dot.batch_of_one"
   ],
   "note": "false for more than two dimensions (memory overrun) and for complex numbers and integers (throws, for cdouble aborts), refuted by theorems; proved for float and double, in exact arithmetic, including refusal of shapes that do not fit"
  },
  {
   "property": "C99",
   "status": "partial",
   "theorems": [
    "Libube.Dot.product_assoc_partial",
    "Libube.Dot.product_transpose_partial",
    "Libube.Dot.transpose_matrix"
   ],
   "note": "proved for matrices of float and double in exact arithmetic; C98 says why not for others"
  }
 ]
}