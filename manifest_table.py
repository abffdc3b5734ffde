V="Verif."
c("C01","proved",["Verif.C01_element_loop_exact","Verif.C01_empty_range_no_calls","Verif.C01_number_of_calls","Verif.C01_array_element_loop"])
c("C02","proved",["Verif.C02_chunk_loop_partitions","Verif.C02_array_chunk_loop_partitions","Verif.C02_chunk_size_zero_diverges","Verif.C02_infty_chunk_wraps"])
c("C03","proved",["Verif.ND.C03_addressing_bijective","Verif.ND.C03_write_read"])
c("C04","proved",["Verif.ND.C04_view_is_window","Verif.ND.C04_view_step"])
c("C05","proved",["Verif.ND.C05_fill_from","Verif.ND.C05_fill","Verif.ND.C05_fill_from_invalid_never_writes","Verif.ND.C05_fill_row","Verif.ND.C05_fill_invalid_never_writes","Verif.ND.C05_fill_from_any_invalid_never_writes"])
c("C06","proved",["Verif.ND.C06_append_concatenates","Verif.ND.C06_append_rejects","Verif.ND.C06_append_view_is_ub"])
c("C50","partial",["Verif.C50_empty_range_partial","Verif.C50_empty_range_wrong"],"violated by the code: empty_range compares whole vectors")
c("C07","proved",["Verif.ND.C07_swap_axes","Verif.ND.C07_swap_twice"])
c("C08","partial",["Verif.ND.C08_assign_partial","Verif.ND.C08_copy_construct_partial","Verif.ND.C08_copy_of_view_wrong",V+"ND.C08_assign_any_source_partial",V+"ND.C08_view_copy_exact_partial",V+"ND.C08_leading_rows_view_partial"],"violated by the code for view sources (C08_copy_of_view_wrong); proved for owning sources and for exactly those views whose elements lie where a contiguous array of their shape has them (C08_view_copy_exact_partial), for example views of leading rows")
c("C09","proved",["Verif.ND.C09_index_loop","Verif.ND.C09_loop_over_elements","Verif.ND.C09_is_all_null","Verif.ND.C09_apply_sequential"])
c("C10","proved",["Verif.Bytes.C10_u32","Verif.Bytes.C10_u64","Verif.Bytes.C10_portable"])
c("C11","proved",["Verif.Bytes.C11_vector","Verif.Bytes.C11_array","Verif.Bytes.C11_string","Verif.Bytes.C11_map","Verif.Bytes.C11_map_mismatch_throws","Verif.Bytes.C11_map_any_keys","Verif.Bytes.C11_greens_function_metadata","Verif.Bytes.C11_concatenation"])
c("C12","proved",["Verif.Bytes.C12_block_size_independent","Verif.Bytes.C12_block_size_zero_diverges"])
c("C13","proved",["Verif.NullSup.C13_null_suppression_lossless","Verif.NullSup.C13_huge_run_lost"])
c("C14","proved",["Verif.NullSup.C14_buffer_suffices","Verif.NullSup.C13_null_suppression_lossless"])
c("C15","proved",["Verif.Stream.C15_round_trip","Verif.Stream.C15_refused"])
c("C16","partial",["Verif.Stream.C16_append_slice_partial","Verif.Stream.C16_append_accepted","Verif.Stream.C16_final_is_final","Verif.Stream.C16_incompatible_refused","Verif.Stream.C16_long_chunk_wrong","Verif.Stream.C16_other_axis_wrong","Verif.Stream.C16_append_along_axis_partial","Verif.Stream.C16_append_along_axis_accepted"],"proved along every axis when the chunk length divides the stored extent and the chunk spans the array along the axes before it (for axis 0 no further condition); the code accepts other appends and then corrupts the file (two counterexamples proved)")
c("C17","proved",["Verif.Cache.C17_cache_is_lru","Verif.Cache.C17_depth_zero"])
c("C18","proved",["Verif.Pool.C18_pool","Verif.Pool.C18_construct","Verif.Pool.C18_zero_size"])
TR="Verif.Tree."
c("C19","proved",[TR+x for x in ["C19_contains","C19_overlaps","C19_overlaps_iff_common_point","C19_extend","C19_volume","C19_margin","C19_center","C19_overlap_volume"]])
c("C20","proved",[TR+x for x in ["C20_history","C20_all_entries","C20_insert_adds","C20_update_changes_one_box"]]+["Verif.Pool.pool_sequential"])
c("C21","proved",[TR+x for x in ["C21_point_search","C21_point_search_disjoint"]])
c("C22","proved",[TR+"C22_region_search"])
c("C23","proved",[TR+"C23_balanced"],"after a bulk rebuild the lower bound on the node size is 1, as in the code")
c("C24","proved",[TR+"C24_rebuild",TR+"C24_point_lookup_same"])
c("C25","proved",[TR+"C25_bounding_box",TR+"C25_bounding_box_encloses"])
c("C35","proved",[TR+"C35_contains",TR+"C35_overlap"])
D="Verif.Dist."
c("C27","proved",[D+"C27_cache_transparent"])
c("C52","partial",[D+"C52_write_through_partial",D+"C52_pending_rejected",D+"C52_axis_change_always_duplicates",D+"C52_axis_change_duplicates"],"the code violates this property: whenever slices wait along another axis, appending along the first one stores the data of the file twice (C52_axis_change_always_duplicates, in every state; C52_axis_change_duplicates is a concrete run). Proved: with cache size 0 appending any number of slices along any one axis works for suitable streamer chunks; a waiting chunk never accepts a slice along another axis than the first; the first axis only, any cache size, is C27")
c("C26","proved",[D+"C26_metadata_consistent",D+"C26_metadata_roundtrip"])
c("C28","partial",[D+"C28_flush_reopen_partial"],"for histories in which no reopened library registers new chunks under reused identifiers and, with a cache, no padded chunk is stored as all-zero (without a cache such chunks are covered: their metadata survive, element access is excluded); outside of this the code loses data (C29_reopened_library_mixes_chunks, C30_padded_null_aborts)")
c("C29","partial",[D+"C29_identifiers_fresh_partial",D+"C29_reopened_library_mixes_chunks",D+"C29_reopened_library_aborts",D+"C29_library_records_partial",D+"C29_register_changes_no_chunk_partial"],"identifiers are fresh for libraries that were not reopened; a reopened library starts again at 0 and mixes up chunks (two machine-checked counterexamples)")
c("C30","partial",[D+"C30_library_history_partial",D+"C30_uncovered_not_detected",D+"C30_padded_null_aborts",D+"C30_get_uncovered_is_ub"],"all reads in all legal histories return the stored values; the part 'an uncovered region is detected' is false of the code (counterexamples)")
c("C31","partial",[D+"C31_append_slice_partial",D+"C31_append_to_null_throws",D+"C31_append_to_nothing_is_ub"],"append along the first axis; appending to an all-zero chunk throws, and to no chunk is undefined behaviour (counterexamples)")
c("C47","partial",[D+"C47_import_partial",D+"C47_import_after_reopen_mixes_chunks"],"holds when the importing library has unused identifiers; false after reopening (counterexample)")
c("C48","partial",[D+"C48_crash_safe_partial",D+"C48_flush_crash_loses_chunk"],"crashes between calls and during destruction are safe; FlushLibrary writes the index before the chunks, counterexample proved. File writes are atomic here; for torn writes see C82.")

c("C33","proved",[D+"C33_shape_queries",D+"C53_loop_with_gap_visits_nothing"],"Every history of library calls; the second theorem shows the answer with a gap (zeros) on a concrete allowed history. The box around the chunks must have fewer than 2^64 elements.")
c("C53","partial",[D+"C53_element_loops_partial",D+"C53_loop_misses_elements",D+"C53_loop_with_gap_visits_nothing"],"The range version is proved for all histories and regions; the version without a range is proved for gapless libraries that start at index 0 and refuted otherwise.")
c("C46","proved",[V+"Rebuild.C46_penetrating_exact",V+"Rebuild.C46_disjoint_chunk_overruns"],"For every padded chunk that meets the array; the second theorem shows that the loop leaves a chunk that lies wholly outside.")
c("C32","partial",[V+"Rebuild.C32_rebuild_partial",V+"Rebuild.C32_corner_padding_is_stale"],"Any legal history, any chunk size and overlap, cylindrical boundary condition: grid, values, padding inside the array, zero padding and mirrored padding. With zero suppression a chunk is recorded as all-zero only if the boundary condition asks for zero at every index of the padded chunk. Corner padding holds stale memory (counterexample).")

c("C34","proved",["Verif.Ops.C34_downsample","Verif.Ops.C34_pieces","Verif.Ops.C34_adjacent","Verif.Ops.C34_empty_at_zero"],"For every view of every array, start index and factors >= 1 (no 64-bit overflow, range not ending at index 0): exactly the elements at multiples of the factors, and for every division of an array into pieces the downsampled pieces divide the downsampled array. Excluded and shown: an empty range at index 0, where the code subtracts 1 from 0.")
GR="Verif.Green."
c("C36","proved",[GR+"C36_weights_sum",GR+"C36_reproduces_samples",GR+"C36_linear_exact",GR+"C36_keys_exact",GR+"C36_interpolate",GR+"C36_rounded_constant"],"Over any ordered field, for the linear and the Keys kernel (with the literal s7 as a parameter where it matters); the interpolation routine itself computes the weighted sum. Floating-point rounding is not modelled.")
c("C37","partial",[GR+"C37_reads_in_bounds_partial",GR+"C37_over_read",GR+"C37_silent_zero"],"In bounds for every chunk with sufficient padding and all positions in it; a sample exactly on the end of a chunk needs either more padding or not to be in the last cell along the other axes (counterexample: reads past the array).")
c("C38","partial",[GR+"C38_inner_product_partial",GR+"C38_outside_is_undefined",GR+"Ex38.C38_misplaced",GR+"Ex38.C38_uninitialised"],"Proved for the chunk library in every state it can get into, any field, kernel, positions and number of samples, if no stored chunk follows an all-zero one; otherwise contributions are misplaced (counterexample). Also relies on uninitialised memory (counterexample).")
c("C40","proved",[GR+"C40_blockwise_weights",GR+"C40_blocks_divide",GR+"C40_affine_exact",GR+"C40_limits"],"Any division into non-empty blocks, any block size limit.")
c("C39","partial",[GR+"C39_causal_quadrature_partial",GR+"segment_order",GR+"convStart_exact",GR+"C39_assertion_fails",GR+"Ex39.C39_ignore_depends_on_blocks"],"Proved in exact arithmetic for every segment, sampling, block sizes, kernel, stored field and library state, under the conditions of C37/C38; with float rounding the assertion on the delay can fail (counterexample with concrete floats), and in the mode Ignore a sample on the end of the domain depends on the blocking (counterexample).")
c("C41","proved",[GR+"C41_rotation_invariant",GR+"C41_distance",GR+"C41_components"],"Over the real numbers, for all positions and fields.")
c("C42","partial",[GR+"C42_resample_partial",GR+"fillArray_ok",GR+"C42_left_out",GR+"Ex42.C42_last_missing",GR+"Ex42.C42_slice_zero",GR+"Ex42.C42_far_face",GR+"C42_far_face_undefined"],"Exact result of fill_array for every library state, request, kernel and field; all samples are right if the chunks they lie in begin before the truncated end of the request. Samples in a chunk that begins there are left out (general theorem and counterexamples), and a sample on the far face of a chunk reads out of bounds unless there is more padding than the support (general theorem and counterexample).")
c("C43","partial",[V+"Meep.C43_limit_partial",V+"Meep.C43_running_max_block_one",V+"Meep.C43_kept_within_range",V+"Meep.C43_not_per_location"],"The limit is the running maximum of the block, for every history of updates; for block size 1 it is the running maximum of the location. The code uses 2x2 blocks, so the maximum is not per location (counterexample).")
c("C45","proved",[V+"Meep.C45_time_slices"],"The whole saving callback (downsampling, cutting into boxes, RegisterChunk or AppendSlice) and the loop over steps, for every field, division into simulation chunks, downsampling and chunk sizes. The number of steps is an input (the loop condition compares doubles).")
c("C56","proved",[V+"Meep.C56_merged_jobs"],"End to end for the storage of a parallel calculation; the MEEP fields and the number of steps are inputs, the processes run one after the other in directories of their own.")
c("C54","proved",[V+"Meep.C54_contains",V+"Meep.C54_overlaps",V+"Meep.C54_overlap",V+"Meep.C54_stored_parts",V+"Meep.C54_empty_overlaps"],"Any number of dimensions, 64-bit wrap-around modelled. C54_empty_overlaps: an empty range strictly inside another one is reported as overlapping (why the property is stated for non-empty ranges).")
c("C55","proved",[V+"Meep.C55_padding",V+"Meep.C55_empty_aborts"],"All assertions of lines 533-561 hold; C55_empty_aborts shows that the non-emptiness hypothesis is needed. The conversion of the region from floating-point coordinates to indices is not modelled.")
c("C49","proved",[V+"ND.C49_numpy"],"The whole file against a relational specification of NumPy format 1.0: magic, version, length field, alignment, dictionary with the shape tuple in decimal, blanks, line feed, and all elements in C order; any host byte order, up to 2000 axes.")
c("C51","partial",[V+"Shower.C51_in_bounds",V+"Shower.C51_contiguous",V+"Shower.C51_interpolation_partial",V+"Shower.C51_ends",V+"Shower.C51_closest",V+"Shower.C51_default_index_out_of_bounds",V+"Shower.C51_first_point_not_scaled",V+"Shower.C51_stray_record"],"In-bounds access and contiguity hold for any arithmetic with commutative products and asymmetric < (IEEE included). Not fully true of the code: create_shower with its default argument always indexes out of bounds, the constructor stores a stray uninitialised record, and the first point is not scaled; these are proved as negative results.")
c("C59","proved",[D+"C59_reads_write_nothing",D+"C59_read_session_restores_files",D+"C59_reader_chunk_size_irrelevant"],"The first theorem is for any file system contents and any successful run, the second for allowed histories. The destructor does write the index file again (with the same bytes), so two processes closing the same library at the same time may race; that is outside the model.")

c("C44","proved",[V+"Meep.C44_rechunk",V+"Meep.C44_each_partition_once",V+"Meep.C44_any_interleaving",V+"Meep.fine_alone",V+"Meep.partitionSize_ok"],"All schedules, any number of processes. In C44_rechunk a call of RebuildChunksPartial is one step; in C44_any_interleaving the calls of different processes overlap in time, a step being one chunk of a partition (or its beginning or end), and the sequence of steps is arbitrary. Nothing is said about padding at negative radius whose mirror image is outside of the array (C32). The rounding of ceil() of quotients is a parameter (positive, at most twice the numerator); std::pow is a parameter.")

c("C57","proved",[V+"Meep.C57_calculation"],"From the simulation chunks to the merged array. The contents of the field buffers are an assumption here (they hold the field F of the simulation); C61_calculation discharges it for the modelled callbacks.")
c("C60","partial",[V+"Meep.C60_pipeline_partial",V+"Meep.C60_any_interleaving_partial",V+"Meep.C60_axis_fails"],"Proved if the radial start of the storage domain is a multiple of the downsampling factor or there is room for all of the padding before it; else it is false (C60_axis_fails): the program mirrors at the first row of the padded domain instead of the axis. Nothing is said about padding at negative radius whose mirror image is outside of the stored domain (C32).")
c("C61","proved",[V+"Meep.C61_calculation",V+"Meep.C61_pipeline_partial",V+"Meep.C61_any_interleaving_partial",V+"Meep.C61_zero_collides"],"Exact arithmetic in an ordered field; the rounding to float (enc) and the magnitude function are parameters. Assumption on MEEP (MeepOk): its chunks partition the grid of the calculation domain and every point of a chunk is visited once. The rechunking part C61_pipeline_partial has the hypothesis of C60 on the radial start.")
c("C62","partial",[V+"Meep.C62_division_partial",V+"Meep.C62_depends_on_division"],"False in general (C62_depends_on_division: witness with two divisions and different samples). Proved for samples that are decided by bounds over the direct neighbourhood.")
c("C66","proved",[V+"Green.C66_create_load",V+"Green.C66_load_needs_origin"],"The metadata file is a separate file of the directory (its name differs from index and chunk files). The reader has streamer chunk size INFTY and default cache shape, as in the program. Opening a directory without green.meta is outcome ub in the model (uninitialised coordinates).")
c("C64","proved",[V+"Analytic.C64_incomplete_gamma",V+"Analytic.C64_negative"],"Real arithmetic: rounding of float, overflow and the C library functions' errors are not modelled (exp, log and lgamma are the real functions). The order is a natural number plus one, as in the only call in the project.")
c("C65","proved",[V+"Analytic."+x for x in ["C65_field_formula","C65_nan","C65_even","C65_causal","C65_filter","C65_gauss","C65_static"]],"Real arithmetic without rounding; sqrt, exp, lgamma and the incomplete gamma function (C64) are the exact real functions in the theorems on derivatives and limits, arbitrary functions in the others.")
c("C63","proved",[V+"Analytic."+x for x in ["C63_dipole_samples","C63_short_axis","C63_axis"]],"Real arithmetic; storing a number as float is an arbitrary function enc into 32 bits. Names generated at random are assumed distinct. The case of an axis shorter than one requested step is excluded in the statement: it divides by zero (C63_short_axis).")
c("C68","partial",[V+"Analytic."+x for x in ["C68_cutoff","C68_requested_steps","C68_steps_partial","C68_oversampling_missed"]],"The frequency is right (real arithmetic). The steps are not: the number of steps is rounded down, so the step is larger than requested unless the requested step divides the axis (C68_oversampling_missed), by a factor of less than two (C68_steps_partial).")
c("C67","partial",[V+"Analytic."+x for x in ["C67_dipole_signal_partial","C67_grid_point"]],"Composition of C63, C66, C38 and C39. Exact arithmetic except for the rounding of stored numbers; positions next to the axis in the outermost cells, and exactly on chunk ends, are excluded for the cubic kernel (uninitialised or out-of-bounds memory: C32_corner_padding_is_stale, C37_over_read).")
c("C58","partial",[V+"Meep."+x for x in ["C58_accepts","C58_storage","C58_times","C58_coordinates_partial","C58_stretched","C58_single"]],"Exact arithmetic. Exactness of the spatial coordinates fails: the length of the stored region is divided by the number of samples minus one although the region ends one sample after the last, so the recorded distance of samples is always too large (C58_stretched); proved is that the error stays below the distance of two samples. With a single sample along an axis the step is a division by zero (C58_single).")
c("C69","partial",[V+"Meep."+x for x in ["C69_meep_signal_partial","C69_any_interleaving_partial","C69_grid_point"]],"Composition of C45, C56, C57, C44, C60, C58, C66 and of C36-C39: from the buffers of the simulation to the signals, for every schedule (C69_any_interleaving_partial: also if the processes interleave chunk by chunk in the rechunking). Exact arithmetic except for rounding to the stored format. Excluded, because the program is wrong there: storage domains next to the axis that do not start at a multiple of the downsampling factor (C60_axis_fails), chunk ends and corners of the overlap (C37_over_read, C32_corner_padding_is_stale), samples after an all-zero chunk (C38). The coordinates are those of C58, which are stretched (C58_stretched).")
c("C70","proved",[V+"Green."+x for x in ["C70_superposition","C70_superposition_c8","C70_order","C70_order_c8","C70_refused","C70_causal"]],"On top of Answers, which holds for every loaded Green's function (C67, C69: Verif.Green.answers). Exact arithmetic.")
c("C71","proved",[V+"Green."+x for x in ["C71_axis","C71_time","C71_charge","C71_weight","C71_cut"]],"About what C70 proves the program to add to each sample. Exact arithmetic.")
c("C72","partial",[V+"App."+x for x in ["C72_table_partial","C72_order","C72_rows","C72_bounds","C72_last_refused","C72_impulse","C72_impulse_late"]],"Does not hold at the largest argument (C72_last_refused), nor for impulse responses whose table begins after time 0 (C72_impulse_late). Exact arithmetic.")
c("C73","partial",[V+"App."+x for x in ["C73_column_partial","C73_empty_line","C73_short_row","C73_not_a_number"]],"Empty lines and rows without the column are undefined behaviour (C73_empty_line, C73_short_row). std::stof is a parameter.")
c("C74","partial",[V+"Meep."+x for x in ["C74_inverse","C74_placement_partial","C74_off_axis","C74_current","C74_antenna","C74_linear","C74_c8","C74_location_wrong"]],"The source is one and a half cells off the axis (C74_off_axis); get_antenna_location always gives the origin (C74_location_wrong). The current stops only up to the rounding of the time to float.")
c("C75","partial",[V+"App."+x for x in ["C75_export_partial","C75_fewer_values","C75_long"]],"Does not hold for signals of 2^31 samples or more (C75_long), nor if there are fewer values than times (C75_fewer_values). The format of one number is a parameter.")
c("C76","proved",[V+"Analytic.C76_maxwell"],"Over the reals, for the formulas of lines 10-96; Gauss's law is C65_gauss.")
c("C77","partial",[V+"Dist."+x for x in ["C77_index_undefined","C77_chunk_undefined","C77_meta_undefined","C77_index_prefix_partial","C77_array_prefix_partial"]],"The code does not check the state of the stream: reading a file that ends early uses uninitialised memory, for every file and every position (C77_*_undefined). What holds: no complete file is the beginning of another one.")
c("C78","partial",[V+"Dist."+x for x in ["C78_durable_partial","C78_swap_crash","C78_append_crash"]],"Proved for every chunk that has not been transposed (or removed) since; of a chunk that has been appended to, for what it contained when flushed. A transposed chunk is lost if the program crashes before the index is written (C78_swap_crash); appending after the crash to a chunk that was appended to before goes to the wrong place (C78_append_crash). Crash points inside other calls than FlushLibrary and the destructor: see C82.")
c("C79","proved",[V+"Green."+x for x in ["C79_linear_rounding","C79_keys_rounding","C79_positions","C79_exact_program"]],"Standard model of floating-point arithmetic: every operation has relative error at most u (overflow, underflow and the reordering permitted by -ffast-math are excluded). C79_exact_program: with u = 0 the program is the one of C36, C38, C39. Instances: single precision with 24 digits (singleA), with fused operations (fusedA).")
c("C80","partial",[V+"Green."+x for x in ["C80_reads_in_bounds_partial","C80_accumulate_safe_partial","C80_assertion_fails","C80_over_read"]],"Proved: with padding larger than the kernel's support, no read or write outside of an array, at least one sample per iteration, termination; the only other outcome is a failed assertion. Missing because false of the code: the internal assertion on the last sample fails for legitimate requests in single precision (C80_assertion_fails), and with padding equal to the support (which the program accepts) the interpolation reads behind the end of the array (C80_over_read).")
c("C81","partial",[V+"Green."+x for x in ["C81_signal_accuracy_partial","C81_linear_error_partial","C81_keys_error_partial"]],"Proved: backward error (exact interpolation at a position displaced by a few roundings, relative error of a few roundings of the terms) and forward error (with Lipschitz constants of the interpolation) of every sample, for Linear and Keys. Missing because false of the code: completion without the assertion of C80, padding equal to the support (C80), stored chunks after all-zero chunks in one request (C38). Underflow and overflow of the floating-point format are outside of the arithmetic model.")
c("C82","partial",[V+"Dist."+x for x in ["C82_crash_inside_call_partial","C82_torn_index","C82_move_crash","C82_import_crash"]],"Proved for every call of every allowed history, with any contents of the files the call may write to (a set computed by the model along the execution; a call that returns changes no other file). Missing because false of the code: FlushIndex truncates the index in place, so a crash inside it loses the library (C82_torn_index); MoveLibrary moves the chunk files while the old index lists them, and deletes the old index before writing the new one (C82_move_crash); ImportLibrary with move deletes the source index although the importing library's index is not on disk (C82_import_crash); chunks being appended to or transposed (C78).")
c("C83","partial",[V+"Shower."+x for x in ["C83_create_partial","C83_load_ends","C51_stray_record","C83_truncated_accepted","C83_missing_file"]],"Byte-level model of the file. Proved for all well-formed files, kinds, energies and indices when the extra record made from uninitialised memory is of another kind or repeats an energy of this kind; loading ends for all contents. Missing because false of the code: the extra record can be chosen (C51_stray_record); a file that ends within a shower is accepted with zeros (C83_truncated_accepted); a missing file is undefined behaviour (C83_missing_file).")
c("C84","partial",[V+"ND."+x for x in ["C84_fill_from_partial","C84_assign_self","C84_append_self_undefined","C84_overlap_smears","C84_overlap_undefined","C84_swap_axes_self"]],"Proved: fill_from between any two views of the same data with disjoint regions; self-assignment. Missing because false of the code: overlapping regions (C84_overlap_smears, C84_overlap_undefined); appending a non-empty array to itself is undefined for every array (C84_append_self_undefined); swapping the axes into the array itself (C84_swap_axes_self).")
c("C85","partial",[V+"Green."+x for x in ["C85_signal_partial","C85_error_partial","C85_abort"]],"Proved: unless an assertion fails, the request completes with the trapezoidal rule of about one point per unit of time; each point is evaluated at a place displaced only by roundings, with relative error of 22 + (roundings of the interpolation) per point (C85_signal_partial); hence the distance of the new signal from the exact trapezoidal sum (C85_error_partial). Missing because false of the code: completion. In single precision, any track from time 0 to 0.8f with samples in steps of 0.16f fails the assertion on convolution_t_start (C85_abort). C85_error_partial needs a track away from the axis.")
c("C86","partial",[V+"Stream."+x for x in ["C86_history_partial","C86_truncated_stale"]],"Proved: in every history of uses that are defined for a streamer without memory (complete files), each returns what that streamer returns, whatever the buffer holds (C86_history_partial). Missing because false of the code: incomplete files. After reading a file of the same shape, a truncated file is read without any error, and the missing values are those of the file read before (C86_truncated_stale, for all such pairs of arrays and all places of truncation at a value); a new streamer makes the same call undefined.")
c("C87","proved",[V+"Green.C87_interpolation"],"Exact arithmetic. For a field with d derivatives bounded in a box that contains the points the kernel uses. The constants are those of `Accuracy` (linear: d = 1, 2; cubic: d = 1, 2, 3), proved from the moments of the kernel and Taylor's theorem. Errors of the samples, e.g. the rounding to the stored format, are the parameter δ.")
c("C88","proved",[V+"Green."+x for x in ["C88_signal","C88_smooth","C88_before"]],"For every object that answers requests from samples (Answers: dipole C67, MEEP C69) and every request of the kind described there (SignalOk), in exact arithmetic; rounding is C85. C88_signal: Lipschitz integrand, also with a track that is only partly in the past, error of first order. C88_smooth: whole track in the past, second derivative bounded, second order. C88_before: samples before the track.")
c("C89","partial",[V+"Green."+x for x in ["C89_linear","C89_even","C89_radial_wrong","gridField_mirrored","meepField_mirrored"]],"Holds for the linear kernel (C89_linear) and for a component that is even across the axis, with both kernels (C89_even). False for the radial component with the cubic kernel, the one SignalCalculator uses: the overlap has it mirrored without change of sign (gridField_mirrored, meepField_mirrored), so that in the first cell it is multiplied by f (2 - f), f = r / dr, on every grid (C89_radial_wrong). Exact arithmetic, grids that begin at the axis.")
c("C90","proved",[V+"Analytic."+x for x in ["C90_field","C90_track","C90_signal"]],"C90_field: the interpolated samples against the field of the dipole (order of the filter at least d + 2). C90_track: the integrand along a track away from the axis has a bounded second derivative, so the trapezoidal error is of second order. C90_signal: end to end through calculation, files, cache, interpolation and integration, for requests of the kind described in C67 (SignalOk); exact arithmetic in the calculations of the reader, the rounding of the stored numbers is δ (StoredWell). The region may touch the axis, but a track point must not be so near to it that the kernel reaches behind it (see C89).")
c("C91","partial",[V+"Shower."+x for x in ["C91_same_step_partial","C91_any_step_partial","C91_reached_partial","C91_rmin_not_kept","C91_rmax_not_reached","C91_finer_step_leaves"]],"With the step 1. that print_dimensions uses, the heights and the maximal distance hold on all of every track, the minimal distance at the begin and end of every track (C91_same_step_partial); with any other step, in ice of constant density as in the code, all four hold up to one light path of the step 1. (C91_any_step_partial). The limits other than the maximal distance are reached (C91_reached_partial). False otherwise: a track can come nearer to the axis between two points (C91_rmin_not_kept), the maximal distance begins with the distance of the start from the origin (C91_rmax_not_reached), tracks with a finer step than 1., as in the example, go on beyond the region (C91_finer_step_leaves). Exact arithmetic.")
c("C92","proved",[V+"Meep."+x for x in ["C92_field","C92_converges","C92_not_better","C92_signal"]],"C92_field bounds the error at each position, C92_converges has the constant that is the same for all calculations, C92_signal is the whole way from the buffers of the simulation to the signal (C69, C87, C88), C92_not_better shows for every calculation, with the field 'distance from the axis', an error of at least half a cell at the first or last radial grid point, whatever the kernel. Boxes that the kernel does not leave across the axis (see C89); the positions excluded in SignalOk as in C69. Exact arithmetic in the program; rounding of samples and of coordinates is included (eps, eta).")
c("C93","proved",[V+"Green."+x for x in ["C93_any_order","C93_interpolation","C93_linear","C93_program","C93_signal","C93_orders_differ"]],"The model is generic in the arithmetic; run on symbolic expressions it gives the expression the source writes down for each sample (C93_program: the rounded program of C79 is one execution of it), and C93_any_order bounds every execution of everything that it can be rewritten to. C93_orders_differ: two contributions of 1 on top of 2^24 give 2^24 or 2^24+2 in single precision, depending on the grouping. Positions at which the kernel stays inside the array; positions themselves are given as machine values; no overflow, underflow or NaN; no divisions (reciprocals).")
c("C94","partial",[V+"Shower."+x for x in ["C94_signal","C94_charge","C94_example_doubled"]],"C94_signal has the bound with all constants (C51, C70, C87, C88), C94_charge that the charge is well defined and begins with the scaled first entry. Missing because it is false: the example program runs the loop over the tracks twice and writes twice the signal (C94_example_doubled). Exact arithmetic, constant density as in ice_profile.cpp, profiles with increasing grammages; the first track has the charge without the scaling, which is part of the constant.")
c("C95","proved",[V+"Tree.C95_dump"],"Tree/Json.lean has the grammar of JSON (RFC 8259, restricted to natural numbers and strings without escapes). Errors when opening or writing the file are outside of the model; the code does not check for them.")
c("C96","partial",[V+"Analytic.C96_export_partial",V+"Analytic.C96_whole_partial",V+"Analytic.C96_exactly_when",V+"Analytic.Ex96.C96_export_fails"],"Composition of C63, C66, C42 and C49. Exact arithmetic except for the rounding of stored numbers. Samples exactly between two chunks make the program read behind the end of a chunk, C96_exactly_when: the program ends well if and only if there are none (unrounded coordinates). Excluded: samples next to the axis in the outermost cells in height or time (uninitialised memory, C32_corner_padding_is_stale). If the coordinates in the metadata are rounded, samples in a chunk that begins at the last cell are left out, the theorem says which (C42_left_out).")
c("C97","partial",[V+"Shower.C97_convert_partial",V+"Shower.C97_too_long",V+"Shower.C97_lengths"],"For every library with a charge for every depth: the conversion succeeds, the file is accepted, and the showers created from it are those of the library up to three roundings of the depths and one of the charges. Missing, because the code does not do it: charge lists of another length than the depths are not noticed and turn into other showers (counterexample), and the record of uninitialised memory at the end of the file must not be chosen (as in C83).")
c("C98","partial",[V+"Meep.C98_export_partial",V+"Meep.C98_whole_partial"],"Composition of C57, C60, C66, C42 and C49, for every schedule. Missing, because the code does not do it: samples exactly between two chunks (C42_far_face), samples next to the axis in the outermost cells in height or time (C32), storage domains next to the axis at no multiple of the downsampling factor (C60_axis_fails). Arithmetic is exact except for the rounding of stored numbers.")
c("C99","partial",[V+"Plot.C99_still_partial",V+"Plot.C99_still_end",V+"Plot.C99_still_offset",V+"Plot.C99_annotation_partial",V+"Plot.C99_annotation_end",V+"Plot.C99_annotation_below",V+"Plot.C99_annotated",V+"Plot.C99_oversampled",V+"Plot.C99_absmax",V+"Plot.C99_animation_partial",V+"Plot.C99_label"],"Missing, because the scripts do not do it: stills at the end of the range raise IndexError (C99_still_end) and with times that do not begin at zero show another time (C99_still_offset); times written on frames are too early (C99_label); annotations at the end of a range raise IndexError, below it another sample is drawn (C99_annotation_end, C99_annotation_below); the annotated script changes a read-only array and always fails (C99_annotated).")
c("C100","proved",[V+"ND.C100_assign_value",V+"ND.C100_assign_value_empty",V+"ND.C100_construct_value",V+"ND.C100_resize_value",V+"ND.C100_empty_value_aborts",V+"ND.C100_view_refused",V+"ND.C100_fill_other_axis_throws",V+"ND.C100_clear",V+"ND.C100_resize_rows_kept",V+"ND.C100_resize_other_extent_moves"])
c("C101","proved",[V+"Dist.C101_apart",V+"Dist.C101_apart_conversely",V+"Dist.C101_right_answers",V+"Dist.step_loc"],"One call is one step: file operations inside a call are not interleaved. Subdirectories and links are not modelled.")
c("C102","proved",[V+"Meep.C102_at_the_same_time",V+"Meep.C102_calculation",V+"Meep.C102_pipeline_partial"],"A step is one library call or one callback for one simulation chunk. C102_pipeline_partial goes beyond the property: up to the finished array, with the rechunking interleaved chunk by chunk as well; it has the hypothesis of C60 on the radial start")
c("C103","partial",[V+"Dist.C103_readers_partial",V+"Dist.C103_open_during_close_fails"],"Proved for interleavings of whole calls. During a call the code violates it: a program that closes a library, even if it only read, first empties the index file and then writes the same contents again (FlushIndex opens it with std::ios::out), and a program that opens the library in between fails (C103_open_during_close_fails).")
