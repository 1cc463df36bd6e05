# Axioms each property theorem depends on

Made by `tools/gen_axioms.py` from `#print axioms`.

## none

* `Libube.GraphProps.edge_negative`
* `Libube.Maps.map_remove_keeps_key`
* `Libube.Reduce.iamax_number_aborts`

## propext

* `Libube.Arith.assign_element_differs`
* `Libube.CastProps.array_undefined`
* `Libube.CastProps.char_number`
* `Libube.CastProps.integer_lost`
* `Libube.Ctor.list_array_first`
* `Libube.Ctor.list_converted`
* `Libube.Ctor.list_mixed`
* `Libube.Ctor.list_one`
* `Libube.Dft.dft_type_refused`
* `Libube.DftMkl.mkl_cdouble_refused`
* `Libube.Dot.batch_of_one`
* `Libube.Dot.batch_overruns`
* `Libube.Dot.dot_longer_overruns`
* `Libube.Dot.vector_kind_throws`
* `Libube.FloatRange.complex_order_matters`
* `Libube.FloatRange.complex_product_not_closest`
* `Libube.FloatRange.float_order_matters`
* `Libube.FloatRange.float_sum_order_matters`
* `Libube.FloatRange.int_float_lost`
* `Libube.FloatRange.irange_nan`
* `Libube.FloatRange.nan_spreads`
* `Libube.FloatRange.negate_complex_infinite`
* `Libube.FloatRange.range_nan`
* `Libube.FloatRange.sum_not_associative`
* `Libube.FloatRange.sum_not_strict`
* `Libube.GetLine.empty_text_file`
* `Libube.IntProps.order_matters`
* `Libube.LifeProps.refused_lost`
* `Libube.MemProps.nil_type_undefined`
* `Libube.Order.array_prefix_incomparable`
* `Libube.Order.cdouble_eq_diverges`
* `Libube.Order.mixed_kinds`
* `Libube.Order.nan_incomparable`
* `Libube.Order.nan_le_and_ge`
* `Libube.Order.nan_not_reflexive`
* `Libube.Order.nil_compare_partial`
* `Libube.Order.nil_eq_nil_undefined`
* `Libube.Order.nil_order_undefined`
* `Libube.Order.prefix_le_and_ge`
* `Libube.OwningMkl.mkl_throw_lost`
* `Libube.OwningProps.copy_cleans`
* `Libube.OwningProps.throw_lost`
* `Libube.Reduce.asum_empty_undefined`
* `Libube.Reduce.concat_fewer_dims_junk`
* `Libube.Reduce.concat_more_dims_loses`
* `Libube.Reduce.iamax_complex_magnitude`
* `Libube.Reduce.iamax_empty_undefined`
* `Libube.Reduce.sort_empty_undefined`
* `Libube.Rows.sum_empty_undefined`
* `Libube.Sndfile.read_empty`
* `Libube.Sndfile.write_channels_fails`
* `Libube.Transpose.one_dimension_throws`
* `Libube.TransposeMkl.mkl_one_dimension`
* `Libube.UnaryProps.shifted`
* `Libube.UnaryProps.takes_iff`
* `Libube.VarBuf.seek_to_end_ignored`
* `Libube.View.index_overflow`
* `Libube.View.missing_components_undefined`
* `Libube.View.negative_move_accepted`
* `Libube.View.same_elements_differ`
* `Libube.ViewElem.atype_of`
* `Libube.Xml.number_written_as_nul`
* `Libube.XmlKeep.number_boxed`

## propext, Classical.choice, Quot.sound

* `Libube.Alloc.allocSize_least_pow2`
* `Libube.Alloc.capacity_of_history`
* `Libube.Alloc.resize_no_realloc_if_fits`
* `Libube.Arith.aliased_operand`
* `Libube.Arith.aliased_operand_partial`
* `Libube.Arith.arith_arrays_partial`
* `Libube.Arith.arith_number`
* `Libube.Arith.assign_int_view_throws`
* `Libube.Arith.assign_number_partial`
* `Libube.Arith.assign_one_element_undefined`
* `Libube.Arith.assign_other_shape`
* `Libube.Arith.assign_product_partial`
* `Libube.Arith.assign_sum_differs`
* `Libube.Arith.assign_view_partial`
* `Libube.Arith.binop_number`
* `Libube.Arith.cdouble_first_elem`
* `Libube.Arith.cdouble_first_number`
* `Libube.Arith.cdouble_first_only`
* `Libube.Arith.cdouble_result_unset`
* `Libube.Arith.cdouble_view_first`
* `Libube.Arith.empty_undefined`
* `Libube.Arith.longer_operand_overruns`
* `Libube.Arith.negate_cdouble`
* `Libube.Arith.negate_partial`
* `Libube.Arith.negate_throws`
* `Libube.Arith.negate_twice_partial`
* `Libube.Arith.one_element_undefined`
* `Libube.Arith.product_of_arrays_partial`
* `Libube.Arith.scaling_throws`
* `Libube.Arith.shorter_operand_partial`
* `Libube.Arith.sum_of_arrays_aborts`
* `Libube.Arith.swap_cdouble_aborts`
* `Libube.Arith.swap_int_throws`
* `Libube.Arith.swap_matrix_overruns`
* `Libube.Arith.swap_vectors_partial`
* `Libube.Arith.unsupported_throws`
* `Libube.BacktraceProps.error_leaks`
* `Libube.BacktraceProps.error_memory_partial`
* `Libube.BacktraceProps.error_text_partial`
* `Libube.BacktraceProps.nameless_cuts`
* `Libube.BacktraceProps.no_file_undefined`
* `Libube.CastProps.floating_partial`
* `Libube.CastProps.integer_partial`
* `Libube.CastProps.same_type`
* `Libube.CastProps.written`
* `Libube.Config.config_latest_partial`
* `Libube.Ctor.list_numbers_partial`
* `Libube.Ctor.shape_bad`
* `Libube.Ctor.shape_partial`
* `Libube.Ctor.size_partial`
* `Libube.Ctor.view_takes_array`
* `Libube.Ctor.view_unset`
* `Libube.CtypeProps.case_defined_partial`
* `Libube.CtypeProps.case_undefined`
* `Libube.CtypeProps.signed_not_all`
* `Libube.CtypeProps.split_defined_partial`
* `Libube.CtypeProps.split_undefined`
* `Libube.CtypeProps.strip_defined_partial`
* `Libube.CtypeProps.strip_undefined`
* `Libube.CtypeProps.unsigned_all`
* `Libube.Curl.download_partial`
* `Libube.Curl.failed_download_partial`
* `Libube.Dft.dft_complex_into_partial`
* `Libube.Dft.dft_complex_partial`
* `Libube.Dft.dft_idft_complex_partial`
* `Libube.Dft.dft_nil_new_throws`
* `Libube.Dft.dft_odd_undefined`
* `Libube.Dft.dft_real_into_partial`
* `Libube.Dft.dft_real_partial`
* `Libube.Dft.dft_self_real_throws`
* `Libube.Dft.dft_self_throws`
* `Libube.Dft.dft_short_real_undefined`
* `Libube.Dft.dft_short_rows_undefined`
* `Libube.Dft.idft_complex_into_partial`
* `Libube.Dft.idft_complex_partial`
* `Libube.Dft.idft_dft_complex_partial`
* `Libube.Dft.idft_dft_real_partial`
* `Libube.Dft.idft_real_into_partial`
* `Libube.Dft.idft_real_partial`
* `Libube.DftMkl.mkl_complex_into_partial`
* `Libube.DftMkl.mkl_complex_partial`
* `Libube.DftMkl.mkl_double_new_throws`
* `Libube.DftMkl.mkl_inverse_real_into_partial`
* `Libube.DftMkl.mkl_inverse_real_partial`
* `Libube.DftMkl.mkl_inverse_undoes_real_partial`
* `Libube.DftMkl.mkl_real_into_partial`
* `Libube.DftMkl.mkl_real_partial`
* `Libube.DftMkl.mkl_same`
* `Libube.Dot.dot_one_diverges`
* `Libube.Dot.dot_rows_partial`
* `Libube.Dot.dot_shorter_truncates`
* `Libube.Dot.dot_vectors_partial`
* `Libube.Dot.incompatible_throws`
* `Libube.Dot.matrix_cdouble_aborts`
* `Libube.Dot.matrix_kind_throws`
* `Libube.Dot.matrix_product_partial`
* `Libube.Dot.product_assoc_partial`
* `Libube.Dot.product_transpose_partial`
* `Libube.Dot.transpose_matrix`
* `Libube.Dot.vector_cdouble_aborts`
* `Libube.FloatRange.cast_closest`
* `Libube.FloatRange.cast_keeps_order`
* `Libube.FloatRange.complex_difference_rounded`
* `Libube.FloatRange.complex_product_exact_partial`
* `Libube.FloatRange.complex_sum_rounded`
* `Libube.FloatRange.complex_sum_vector`
* `Libube.FloatRange.difference_closest_partial`
* `Libube.FloatRange.difference_exact`
* `Libube.FloatRange.difference_keeps_order`
* `Libube.FloatRange.difference_rounded`
* `Libube.FloatRange.difference_zero_iff`
* `Libube.FloatRange.float_double_float`
* `Libube.FloatRange.float_sum_error`
* `Libube.FloatRange.float_sum_exact`
* `Libube.FloatRange.float_sum_keeps_order`
* `Libube.FloatRange.float_sum_nan`
* `Libube.FloatRange.float_sum_rows`
* `Libube.FloatRange.float_sum_vector`
* `Libube.FloatRange.float_sum_whole`
* `Libube.FloatRange.int_double_int`
* `Libube.FloatRange.int_float_int_partial`
* `Libube.FloatRange.irange1_float_partial`
* `Libube.FloatRange.irange_backwards`
* `Libube.FloatRange.irange_drifts`
* `Libube.FloatRange.irange_ends_partial`
* `Libube.FloatRange.irange_exact_partial`
* `Libube.FloatRange.irange_increases`
* `Libube.FloatRange.irange_rounded`
* `Libube.FloatRange.irange_stuck`
* `Libube.FloatRange.negate_complex_partial`
* `Libube.FloatRange.negate_float`
* `Libube.FloatRange.neutral`
* `Libube.FloatRange.operand_rounded`
* `Libube.FloatRange.product_closest_partial`
* `Libube.FloatRange.product_infinite`
* `Libube.FloatRange.product_keeps_order`
* `Libube.FloatRange.product_rounded`
* `Libube.FloatRange.quotient_closest_partial`
* `Libube.FloatRange.quotient_infinite`
* `Libube.FloatRange.quotient_keeps_order`
* `Libube.FloatRange.quotient_rounded`
* `Libube.FloatRange.range1_float_partial`
* `Libube.FloatRange.range_ends_partial`
* `Libube.FloatRange.range_exact_partial`
* `Libube.FloatRange.range_increases`
* `Libube.FloatRange.range_rounded`
* `Libube.FloatRange.range_stuck`
* `Libube.FloatRange.sum_closest_partial`
* `Libube.FloatRange.sum_infinite`
* `Libube.FloatRange.sum_keeps_order`
* `Libube.FloatRange.sum_rounded`
* `Libube.Ged.gedcom_any_partial`
* `Libube.Ged.gedcom_empty_record`
* `Libube.Ged.gedcom_forward_family_throws`
* `Libube.Ged.gedcom_forward_link_lost`
* `Libube.Ged.gedcom_marriage_alone`
* `Libube.Ged.gedcom_read_partial`
* `Libube.Ged.gedcom_second_read_keeps_first`
* `Libube.Ged.gedcom_second_read_partial`
* `Libube.Ged.gedcom_source_undefined`
* `Libube.Ged.gedcom_submitter_partial`
* `Libube.Ged.gedcom_truncated_undefined`
* `Libube.Ged.gedcom_unknown_line_drops_rest`
* `Libube.Ged.gedcom_unknown_record_drops_rest`
* `Libube.Ged.gedcom_unterminated_trailer`
* `Libube.GnuplotProps.plot_int_throws`
* `Libube.GnuplotProps.plot_one_undefined`
* `Libube.GnuplotProps.plot_overwrites`
* `Libube.GnuplotProps.plot_refuses`
* `Libube.GnuplotProps.plot_string_blank`
* `Libube.GnuplotProps.plot_text_partial`
* `Libube.GraphProps.graph_labelled`
* `Libube.GraphProps.graph_written`
* `Libube.GraphProps.vertices_fresh`
* `Libube.Ind.complement_involution_partial`
* `Libube.Ind.complement_wrapping`
* `Libube.Ind.reference_index_recovered`
* `Libube.Ini.blank_line_undefined`
* `Libube.Ini.ini_last_value_partial`
* `Libube.Ini.nothing_written_partial`
* `Libube.Ini.rewritten_unreadable`
* `Libube.Ini.unterminated_value`
* `Libube.Ini.value_cut`
* `Libube.Ini.value_kept_partial`
* `Libube.Ini.written_unreadable`
* `Libube.IntProps.commutes`
* `Libube.IntProps.division_by_zero`
* `Libube.IntProps.floating_operand`
* `Libube.IntProps.int_arith_partial`
* `Libube.IntProps.negate_int_partial`
* `Libube.IntProps.right_operand_reduced`
* `Libube.Json.array_text_rejected`
* `Libube.Json.empty_array_lost`
* `Libube.Json.fraction_truncated`
* `Libube.Json.integer_numerals_keep_value_partial`
* `Libube.Json.json_round_trip_partial`
* `Libube.Json.json_settles_partial`
* `Libube.Json.line_rejected`
* `Libube.Json.matrix_of_arrays_lost`
* `Libube.Json.matrix_of_cdouble_rejected`
* `Libube.Json.matrix_of_vars_undefined`
* `Libube.Json.matrix_round_trip_partial`
* `Libube.Json.mixed_array_lost`
* `Libube.Json.nested_push_undefined`
* `Libube.Json.number_before_brace_rejected`
* `Libube.Json.numeral_string_absorbed`
* `Libube.Json.object_last_binding_partial`
* `Libube.Json.quote_lost`
* `Libube.Json.singleton_unwrapped`
* `Libube.Json.spaced_array_partial`
* `Libube.Json.string_literal_partial`
* `Libube.Json.string_round_trip_iff`
* `Libube.Json.tensor_read_as_number`
* `Libube.Json.valueText_number`
* `Libube.Json.valueText_string`
* `Libube.Json.words_read`
* `Libube.LifeProps.assign_copies`
* `Libube.LifeProps.assign_shares_partial`
* `Libube.LifeProps.copy_own_partial`
* `Libube.LifeProps.cycle_left`
* `Libube.LifeProps.get_elem_partial`
* `Libube.LifeProps.life_end_acyclic_partial`
* `Libube.LifeProps.life_end_partial`
* `Libube.LifeProps.life_exact`
* `Libube.LifeProps.life_lost_partial`
* `Libube.LifeProps.life_safe`
* `Libube.LifeProps.put_elem_partial`
* `Libube.LifeProps.view_flat`
* `Libube.LifeProps.view_of_partial`
* `Libube.Maps.array_keys_lost`
* `Libube.Maps.array_keys_partial`
* `Libube.Maps.lookup_effects_partial`
* `Libube.Maps.map_is_finite_map_partial`
* `Libube.Maps.map_keys_ascending_partial`
* `Libube.Maps.nul_string_keys_lost`
* `Libube.MemProps.allocated_iff_referred_partial`
* `Libube.MemProps.append_array_partial`
* `Libube.MemProps.append_element_throws`
* `Libube.MemProps.append_over_undefined`
* `Libube.MemProps.append_own_throws`
* `Libube.MemProps.append_raw_number`
* `Libube.MemProps.append_raw_other_type`
* `Libube.MemProps.append_raw_partial`
* `Libube.MemProps.append_to_number`
* `Libube.MemProps.apply_new_partial`
* `Libube.MemProps.apply_to_array`
* `Libube.MemProps.array_from_nil_partial`
* `Libube.MemProps.array_is_list_partial`
* `Libube.MemProps.array_new_partial`
* `Libube.MemProps.assign_at_key`
* `Libube.MemProps.assign_entry_partial`
* `Libube.MemProps.assign_var_partial`
* `Libube.MemProps.assigned_element_seen`
* `Libube.MemProps.assignment_shares`
* `Libube.MemProps.at_element_partial`
* `Libube.MemProps.at_key`
* `Libube.MemProps.at_unchecked`
* `Libube.MemProps.binary_counts`
* `Libube.MemProps.case_in_place_partial`
* `Libube.MemProps.case_new_list_partial`
* `Libube.MemProps.case_new_map`
* `Libube.MemProps.case_new_string`
* `Libube.MemProps.case_number_diverges`
* `Libube.MemProps.cells_not_refs`
* `Libube.MemProps.comma_list_partial`
* `Libube.MemProps.compare_partial`
* `Libube.MemProps.compare_undecided`
* `Libube.MemProps.compare_values`
* `Libube.MemProps.complex_addresses`
* `Libube.MemProps.complex_append_real`
* `Libube.MemProps.complex_compare_endless`
* `Libube.MemProps.complex_element_real`
* `Libube.MemProps.complex_insert_real`
* `Libube.MemProps.complex_is_list_partial`
* `Libube.MemProps.complex_parts_lost`
* `Libube.MemProps.complex_remove_real`
* `Libube.MemProps.copy_complex_fails`
* `Libube.MemProps.copy_complex_throws`
* `Libube.MemProps.copy_elements_partial`
* `Libube.MemProps.copy_is_shallow`
* `Libube.MemProps.element_kept_partial`
* `Libube.MemProps.elements_typed`
* `Libube.MemProps.empty_left_undefined`
* `Libube.MemProps.entry_not_copied`
* `Libube.MemProps.failed_push_grows`
* `Libube.MemProps.find_in_nil`
* `Libube.MemProps.find_key`
* `Libube.MemProps.find_nil_undefined`
* `Libube.MemProps.find_number`
* `Libube.MemProps.find_partial`
* `Libube.MemProps.find_string`
* `Libube.MemProps.find_undecided`
* `Libube.MemProps.full_reached`
* `Libube.MemProps.get_key_partial`
* `Libube.MemProps.get_new_key_partial`
* `Libube.MemProps.in_place_partial`
* `Libube.MemProps.initialisation_shares`
* `Libube.MemProps.insert_converts`
* `Libube.MemProps.insert_copy_partial`
* `Libube.MemProps.insert_element_throws`
* `Libube.MemProps.insert_other_array`
* `Libube.MemProps.insert_outside`
* `Libube.MemProps.insert_own_throws`
* `Libube.MemProps.keys_change`
* `Libube.MemProps.keys_fixed_partial`
* `Libube.MemProps.literal_terminated`
* `Libube.MemProps.looking_changes_nothing`
* `Libube.MemProps.map_from_nil_partial`
* `Libube.MemProps.map_history_partial`
* `Libube.MemProps.memory_limit`
* `Libube.MemProps.mixed_not_built`
* `Libube.MemProps.move_assign`
* `Libube.MemProps.move_push`
* `Libube.MemProps.move_self`
* `Libube.MemProps.move_to_element`
* `Libube.MemProps.mul_nested_throws`
* `Libube.MemProps.mul_throws`
* `Libube.MemProps.nested_at_partial`
* `Libube.MemProps.nested_at_wrong`
* `Libube.MemProps.nested_op_partial`
* `Libube.MemProps.new_nested_throws`
* `Libube.MemProps.nil_equal_undefined`
* `Libube.MemProps.nil_throws`
* `Libube.MemProps.no_leak_acyclic_partial`
* `Libube.MemProps.no_leak_partial`
* `Libube.MemProps.no_premature_free`
* `Libube.MemProps.number_new`
* `Libube.MemProps.number_op`
* `Libube.MemProps.own_element_changes`
* `Libube.MemProps.own_element_converts`
* `Libube.MemProps.own_element_refused`
* `Libube.MemProps.pop_assigned_partial`
* `Libube.MemProps.pop_declared_partial`
* `Libube.MemProps.pop_empty_aborts`
* `Libube.MemProps.pop_string_gives_nul`
* `Libube.MemProps.pow_integer_throws`
* `Libube.MemProps.presize_nil_array`
* `Libube.MemProps.presize_number_wraps`
* `Libube.MemProps.presize_partial`
* `Libube.MemProps.presize_string_shorter`
* `Libube.MemProps.print_cycle_endless`
* `Libube.MemProps.print_is_format`
* `Libube.MemProps.print_or_endless`
* `Libube.MemProps.print_partial`
* `Libube.MemProps.print_read_partial`
* `Libube.MemProps.print_same`
* `Libube.MemProps.print_self_endless`
* `Libube.MemProps.printed_numbers_rejected`
* `Libube.MemProps.printed_string_iff`
* `Libube.MemProps.product_new`
* `Libube.MemProps.push_after_number`
* `Libube.MemProps.push_full_undefined`
* `Libube.MemProps.push_nil_complex`
* `Libube.MemProps.push_number_partial`
* `Libube.MemProps.push_own_converts`
* `Libube.MemProps.push_own_partial`
* `Libube.MemProps.push_second`
* `Libube.MemProps.push_up_to_limit`
* `Libube.MemProps.range_call_partial`
* `Libube.MemProps.ref_assign_entry_partial`
* `Libube.MemProps.ref_assign_self_throws`
* `Libube.MemProps.ref_assign_var_partial`
* `Libube.MemProps.ref_does_not_stay`
* `Libube.MemProps.ref_moves`
* `Libube.MemProps.ref_stays_partial`
* `Libube.MemProps.remove_converts`
* `Libube.MemProps.remove_partial`
* `Libube.MemProps.remove_returns_wrong`
* `Libube.MemProps.remove_shows_next`
* `Libube.MemProps.replace_nested_partial`
* `Libube.MemProps.replace_shared_twice`
* `Libube.MemProps.replace_string`
* `Libube.MemProps.resize_new_aborts`
* `Libube.MemProps.resize_over_unnoticed`
* `Libube.MemProps.resize_shows_old`
* `Libube.MemProps.resize_string_undefined`
* `Libube.MemProps.same_array_later`
* `Libube.MemProps.scale_op`
* `Libube.MemProps.search_values`
* `Libube.MemProps.self_compare_endless`
* `Libube.MemProps.separate_arrays`
* `Libube.MemProps.setElem_over_undefined`
* `Libube.MemProps.set_element_partial`
* `Libube.MemProps.set_key_own_partial`
* `Libube.MemProps.set_key_partial`
* `Libube.MemProps.sizes_not_checked`
* `Libube.MemProps.sort_nil_undefined`
* `Libube.MemProps.sort_of_nil`
* `Libube.MemProps.sort_of_number`
* `Libube.MemProps.sort_partial`
* `Libube.MemProps.sort_undecided`
* `Libube.MemProps.sort_values`
* `Libube.MemProps.stack_top_partial`
* `Libube.MemProps.storage_suffices_partial`
* `Libube.MemProps.string_terminated_partial`
* `Libube.MemProps.strip_nested_partial`
* `Libube.MemProps.sum_new_aborts`
* `Libube.MemProps.swap_values`
* `Libube.MemProps.top_empty`
* `Libube.MemProps.top_nil`
* `Libube.MemProps.top_not_refused`
* `Libube.MemProps.top_partial`
* `Libube.MemProps.type_name_partial`
* `Libube.MemProps.type_names_differ`
* `Libube.MemProps.type_outer_name`
* `Libube.MemProps.types_throws`
* `Libube.MemProps.unshift_full_undefined`
* `Libube.MemProps.unshift_own_before`
* `Libube.MemProps.unshift_own_element_wrong`
* `Libube.MemProps.var_append`
* `Libube.MemProps.var_array_is_list_partial`
* `Libube.MemProps.var_pop_partial`
* `Libube.MemProps.var_presize`
* `Libube.MemProps.var_push_own`
* `Libube.MemProps.var_remove_array_partial`
* `Libube.MemProps.var_remove_partial`
* `Libube.MemProps.var_remove_wrong`
* `Libube.MemProps.var_set_grows_partial`
* `Libube.MemProps.var_set_own`
* `Libube.MemProps.var_set_partial`
* `Libube.MemProps.var_shift_partial`
* `Libube.MemProps.vars_from_nil_partial`
* `Libube.MemProps.vector_div_throws_partial`
* `Libube.MemProps.vector_op_partial`
* `Libube.MemProps.vector_type_throws`
* `Libube.ModuleProps.module_close`
* `Libube.ModuleProps.module_deleted_once`
* `Libube.ModuleProps.module_exists`
* `Libube.ModuleProps.module_handles_partial`
* `Libube.ModuleProps.module_safe`
* `Libube.ModuleProps.module_sound`
* `Libube.Option.missing_argument_exits`
* `Libube.Option.options_partial`
* `Libube.Option.options_posix_partial`
* `Libube.Option.repeated_flag_throws`
* `Libube.Option.unknown_option_exits`
* `Libube.Order.binary_lower_bound`
* `Libube.Order.binary_partition_point`
* `Libube.Order.derived_mixed`
* `Libube.Order.derived_partial`
* `Libube.Order.eq_decides_same`
* `Libube.Order.eq_equivalence_partial`
* `Libube.Order.index_array_partial`
* `Libube.Order.index_map_partial`
* `Libube.Order.key_order_partial`
* `Libube.Order.map_equality_partial`
* `Libube.Order.mixed_total`
* `Libube.Order.nul_le_and_ge`
* `Libube.Order.nul_strings_incomparable`
* `Libube.Order.sort_cdouble_keeps_order`
* `Libube.Order.sort_complex`
* `Libube.Order.sort_nan_unsorted`
* `Libube.Order.sort_sorted_partial`
* `Libube.OwningMkl.mkl_assign_undefined`
* `Libube.OwningMkl.mkl_copy_undefined`
* `Libube.OwningMkl.mkl_owning_end_partial`
* `Libube.OwningMkl.mkl_owning_exact_partial`
* `Libube.OwningMkl.mkl_owning_safe_partial`
* `Libube.OwningProps.assign_undefined`
* `Libube.OwningProps.copy_undefined`
* `Libube.OwningProps.owning_cleaned_partial`
* `Libube.OwningProps.owning_end_partial`
* `Libube.OwningProps.owning_exact_partial`
* `Libube.OwningProps.owning_safe_partial`
* `Libube.Path.bits_entry`
* `Libube.Path.bits_parts`
* `Libube.Path.dir_lists`
* `Libube.Path.dir_order`
* `Libube.Path.rdir_file`
* `Libube.Path.rdir_lists`
* `Libube.Path.tree_empty`
* `Libube.Path.tree_partial`
* `Libube.PowProps.powNew_cdouble_lost`
* `Libube.PowProps.powNew_number_partial`
* `Libube.PowProps.pow_aliased`
* `Libube.PowProps.pow_array_throws`
* `Libube.PowProps.pow_cdouble_lost`
* `Libube.PowProps.pow_cdouble_view`
* `Libube.PowProps.pow_int_throws`
* `Libube.PowProps.pow_number_partial`
* `Libube.PowProps.pow_single_undefined`
* `Libube.QwtProps.other_undefined`
* `Libube.QwtProps.plot_shows`
* `Libube.Range.irange1_partial`
* `Libube.Range.irange_mixed_undefined`
* `Libube.Range.irange_partial`
* `Libube.Range.range1_partial`
* `Libube.Range.range_max_undefined`
* `Libube.Range.range_partial`
* `Libube.Reduce.asum_cdouble_undefined`
* `Libube.Reduce.asum_kind_throws`
* `Libube.Reduce.asum_rows_partial`
* `Libube.Reduce.asum_vector_partial`
* `Libube.Reduce.concat_empty_first`
* `Libube.Reduce.concat_int_throws`
* `Libube.Reduce.concat_lead_throws`
* `Libube.Reduce.concat_rows_partial`
* `Libube.Reduce.concat_types_throw`
* `Libube.Reduce.iamax_cdouble_aborts`
* `Libube.Reduce.iamax_int_throws`
* `Libube.Reduce.iamax_rows_partial`
* `Libube.Reduce.iamax_vector_partial`
* `Libube.Reduce.sort_complex_throws`
* `Libube.Reduce.sort_new_throws`
* `Libube.Reduce.sort_rows_partial`
* `Libube.Roots.roots_companion_partial`
* `Libube.Roots.roots_found_partial`
* `Libube.Roots.roots_linear_throws`
* `Libube.Rows.poly_cdouble_undefined`
* `Libube.Rows.poly_coefficients_partial`
* `Libube.Rows.poly_empty_undefined`
* `Libube.Rows.poly_values_partial`
* `Libube.Rows.sum_cdouble_first`
* `Libube.Rows.sum_cdouble_rows`
* `Libube.Rows.sum_int_throws`
* `Libube.Rows.sum_rows_partial`
* `Libube.Rows.sum_vector_partial`
* `Libube.Sndfile.read_channels_throws`
* `Libube.Sndfile.read_mono_partial`
* `Libube.Sndfile.write_channels_overreads`
* `Libube.Sndfile.write_mono_view_partial`
* `Libube.Sndfile.write_row_partial`
* `Libube.StringFns.join_then_split`
* `Libube.StringFns.splitWords_limit_one_exceeded`
* `Libube.StringFns.splitWords_limit_partial`
* `Libube.StringFns.splitWords_words`
* `Libube.StringFns.split_empty_separator_diverges`
* `Libube.StringFns.split_limit`
* `Libube.StringFns.split_pieces_no_separator`
* `Libube.StringFns.split_spec`
* `Libube.StringFns.split_terminates_partial`
* `Libube.StringFns.split_then_join`
* `Libube.Transpose.inPlace_eq_outOfPlace`
* `Libube.Transpose.inPlace_transposes`
* `Libube.Transpose.in_place_agrees_partial`
* `Libube.Transpose.in_place_twice_partial`
* `Libube.Transpose.other_types_throw`
* `Libube.Transpose.outOfPlace_transposes`
* `Libube.Transpose.transpose_in_place_view_partial`
* `Libube.Transpose.transpose_view_partial`
* `Libube.Transpose.twice_identity`
* `Libube.TransposeMkl.mkl_transpose_in_place`
* `Libube.TransposeMkl.mkl_transpose_new`
* `Libube.UnaryProps.cdouble_first`
* `Libube.UnaryProps.cdouble_lost`
* `Libube.UnaryProps.given_partial`
* `Libube.UnaryProps.in_place_partial`
* `Libube.UnaryProps.new_partial`
* `Libube.UnaryProps.real_int_throws`
* `Libube.UnaryProps.real_partial`
* `Libube.UnaryProps.unknown_throws`
* `Libube.Utf8.len_counts_code_points`
* `Libube.Utf8.len_eq_iff`
* `Libube.Utf8.len_neg_iff`
* `Libube.Utf8.len_total`
* `Libube.VarBuf.stream_refines_partial`
* `Libube.VarBuf.write_then_read_partial`
* `Libube.View.array_equality_partial`
* `Libube.View.edit_view_outside`
* `Libube.View.extra_components_ignored`
* `Libube.View.insert_small_view`
* `Libube.View.insert_view_behind`
* `Libube.View.insert_view_loses`
* `Libube.View.insert_view_undefined`
* `Libube.View.move_inside_partial`
* `Libube.View.negative_offset_accepted`
* `Libube.View.out_of_range_throws_partial`
* `Libube.View.out_of_range_throws_plain`
* `Libube.View.pop_small_view`
* `Libube.View.pop_view_partial`
* `Libube.View.presize_view_dim`
* `Libube.View.push_view_behind`
* `Libube.View.push_view_shape`
* `Libube.View.push_view_undefined`
* `Libube.View.remove_small_view`
* `Libube.View.remove_view_partial`
* `Libube.View.row_major`
* `Libube.View.shift_view_offset`
* `Libube.View.subview_reads`
* `Libube.View.subview_row`
* `Libube.View.unshift_view_offset`
* `Libube.View.view_equality_ignores_elements`
* `Libube.View.view_inside_partial`
* `Libube.View.view_made`
* `Libube.View.view_outcomes`
* `Libube.View.view_reads`
* `Libube.View.view_size_kept`
* `Libube.ViewElem.search_numbers_partial`
* `Libube.ViewElem.search_vars`
* `Libube.ViewElem.sort_vars`
* `Libube.ViewElem.view_of_numbers_partial`
* `Libube.ViewElem.view_of_vars_value`
* `Libube.Xml.events_rebuild`
* `Libube.Xml.packed_written_as_nul`
* `Libube.Xml.short_document_throws`
* `Libube.Xml.shows_unique`
* `Libube.Xml.write_read_partial`
* `Libube.XmlKeep.kept_iff`
* `Libube.XmlKeep.kept_partial`
* `Libube.XmlKeep.read_kept`
* `Libube.XmlKeep.same_file`
* `Libube.XmlKeep.write_again`
* `Libube.XmlType.documents_show`
* `Libube.XmlType.independent_partial`
* `Libube.XmlType.not_independent`
* `Libube.XmlType.unwritable`

## propext, Quot.sound

* `Libube.CastProps.char_text`
* `Libube.CastProps.text_partial`
* `Libube.Config.no_section_not_stored`
* `Libube.Ctor.size_array`
* `Libube.Ctor.size_small`
* `Libube.Ctor.strings`
* `Libube.Dft.dft_nil_throws`
* `Libube.Dft.dft_number_throws`
* `Libube.Dft.dft_wrong_type_throws`
* `Libube.DftMkl.mkl_double_throws`
* `Libube.DftMkl.mkl_error_thrown`
* `Libube.DftMkl.mkl_short_rows_undefined`
* `Libube.FloatRange.complex_commutes`
* `Libube.FloatRange.float_commutes`
* `Libube.FloatRange.mixed_empty`
* `Libube.FloatRange.mixed_undefined`
* `Libube.Ged.gedcom_empty_file`
* `Libube.GetLine.contents_covered`
* `Libube.GetLine.getline_next`
* `Libube.GetLine.read_lines_partial`
* `Libube.GetLine.text_file_adds_quotes`
* `Libube.GetLine.text_file_read_partial`
* `Libube.GetLine.unterminated_line_gains_byte`
* `Libube.Ind.complement_max_undefined`
* `Libube.Json.escape_rejected`
* `Libube.Maps.at_nil_undefined`
* `Libube.Maps.map_remove_last_partial`
* `Libube.MemProps.append_nil_wrong`
* `Libube.MemProps.append_raw_nil_undefined`
* `Libube.MemProps.append_self_undefined`
* `Libube.MemProps.append_self_wrong`
* `Libube.MemProps.at_key_nil_throws`
* `Libube.MemProps.at_number_partial`
* `Libube.MemProps.case_char_lost`
* `Libube.MemProps.case_new_nested_throws`
* `Libube.MemProps.case_nil_throws`
* `Libube.MemProps.cdouble_lost`
* `Libube.MemProps.div_empty_grows`
* `Libube.MemProps.empty_not_error`
* `Libube.MemProps.find_self_undefined`
* `Libube.MemProps.freed_memory_used`
* `Libube.MemProps.huge_resize_unbacked`
* `Libube.MemProps.move_new`
* `Libube.MemProps.new_vars_corrupts`
* `Libube.MemProps.pop_changes_later`
* `Libube.MemProps.pop_nil_partial`
* `Libube.MemProps.popped_reference_breaks_string`
* `Libube.MemProps.presize_changes_type`
* `Libube.MemProps.presize_negative_aborts`
* `Libube.MemProps.presize_number_same`
* `Libube.MemProps.push_mismatch_partial`
* `Libube.MemProps.push_nil_number`
* `Libube.MemProps.push_pop_fails`
* `Libube.MemProps.range_changes_element`
* `Libube.MemProps.reach_exec`
* `Libube.MemProps.ref_assign_number`
* `Libube.MemProps.remove_outside`
* `Libube.MemProps.self_assignment_leaks`
* `Libube.MemProps.self_assignment_throws`
* `Libube.MemProps.self_insert_out_of_bounds`
* `Libube.MemProps.self_insert_string_wrong`
* `Libube.MemProps.self_insert_uninitialised`
* `Libube.MemProps.shared_twice`
* `Libube.MemProps.shift_empty_undefined`
* `Libube.MemProps.shift_nil_partial`
* `Libube.MemProps.strip_into_other`
* `Libube.MemProps.strip_into_undefined`
* `Libube.MemProps.strip_last_reference`
* `Libube.MemProps.strip_space_undefined`
* `Libube.MemProps.swap_elements_not`
* `Libube.MemProps.top_empty_push`
* `Libube.MemProps.top_number`
* `Libube.MemProps.type_is_one_array`
* `Libube.MemProps.unshift_leaks`
* `Libube.MemProps.unshift_nil_number`
* `Libube.MemProps.var_remove_complex_throws`
* `Libube.ModuleProps.module_copy_undefined`
* `Libube.ModuleProps.module_leak`
* `Libube.ModuleProps.module_temporary_undefined`
* `Libube.Order.array_order_not_asymmetric`
* `Libube.Order.arrays_neither_le_nor_ge`
* `Libube.Order.index_cdouble_never`
* `Libube.Order.map_equality_ignores_keys`
* `Libube.OwningMkl.mkl_assign_lost`
* `Libube.Path.absent_throws`
* `Libube.Path.lists_complete`
* `Libube.Path.tree_loop_throws`
* `Libube.Path.unreadable_throws`
* `Libube.QwtProps.early_undefined`
* `Libube.Range.irange_mixed_empty`
* `Libube.Sndfile.write_mono_partial`
* `Libube.Sndfile.write_other_type`
* `Libube.StringFns.case_mapping`
* `Libube.StringFns.strip_in_place_partial`
* `Libube.StringFns.strip_out_of_place_partial`
* `Libube.StringFns.strip_out_of_place_use_after_free`
* `Libube.StringFns.strip_whitespace_undefined`
* `Libube.VarBuf.byte_ff_reads_as_eof`
* `Libube.ViewElem.number_same`
* `Libube.ViewElem.plain_like`
* `Libube.ViewElem.view_of_vars`
* `Libube.Xml.escape_reversible`
* `Libube.Xml.newline_lost`
* `Libube.Xml.other_throws`
* `Libube.XmlType.empty_document`
