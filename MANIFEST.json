{
 "claims": [
  {
   "property": "C01",
   "status": "proved",
   "theorems": [
    "Verif.C01_element_loop_exact",
    "Verif.C01_empty_range_no_calls",
    "Verif.C01_number_of_calls",
    "Verif.C01_array_element_loop"
   ],
   "note": ""
  },
  {
   "property": "C02",
   "status": "proved",
   "theorems": [
    "Verif.C02_chunk_loop_partitions",
    "Verif.C02_array_chunk_loop_partitions",
    "Verif.C02_chunk_size_zero_diverges",
    "Verif.C02_infty_chunk_wraps"
   ],
   "note": ""
  },
  {
   "property": "C03",
   "status": "proved",
   "theorems": [
    "Verif.ND.C03_addressing_bijective",
    "Verif.ND.C03_write_read"
   ],
   "note": ""
  },
  {
   "property": "C04",
   "status": "proved",
   "theorems": [
    "Verif.ND.C04_view_is_window",
    "Verif.ND.C04_view_step"
   ],
   "note": ""
  },
  {
   "property": "C05",
   "status": "proved",
   "theorems": [
    "Verif.ND.C05_fill_from",
    "Verif.ND.C05_fill",
    "Verif.ND.C05_fill_from_invalid_never_writes",
    "Verif.ND.C05_fill_row",
    "Verif.ND.C05_fill_invalid_never_writes",
    "Verif.ND.C05_fill_from_any_invalid_never_writes"
   ],
   "note": ""
  },
  {
   "property": "C06",
   "status": "proved",
   "theorems": [
    "Verif.ND.C06_append_concatenates",
    "Verif.ND.C06_append_rejects",
    "Verif.ND.C06_append_view_is_ub"
   ],
   "note": ""
  },
  {
   "property": "C50",
   "status": "partial",
   "theorems": [
    "Verif.C50_empty_range_partial",
    "Verif.C50_empty_range_wrong"
   ],
   "note": "violated by the code: empty_range compares whole vectors"
  },
  {
   "property": "C07",
   "status": "proved",
   "theorems": [
    "Verif.ND.C07_swap_axes",
    "Verif.ND.C07_swap_twice"
   ],
   "note": ""
  },
  {
   "property": "C08",
   "status": "partial",
   "theorems": [
    "Verif.ND.C08_assign_partial",
    "Verif.ND.C08_copy_construct_partial",
    "Verif.ND.C08_copy_of_view_wrong",
    "Verif.ND.C08_assign_any_source_partial",
    "Verif.ND.C08_view_copy_exact_partial",
    "Verif.ND.C08_leading_rows_view_partial"
   ],
   "note": "violated by the code for view sources (C08_copy_of_view_wrong); proved for owning sources and for exactly those views whose elements lie where a contiguous array of their shape has them (C08_view_copy_exact_partial), for example views of leading rows"
  },
  {
   "property": "C09",
   "status": "proved",
   "theorems": [
    "Verif.ND.C09_index_loop",
    "Verif.ND.C09_loop_over_elements",
    "Verif.ND.C09_is_all_null",
    "Verif.ND.C09_apply_sequential"
   ],
   "note": ""
  },
  {
   "property": "C10",
   "status": "proved",
   "theorems": [
    "Verif.Bytes.C10_u32",
    "Verif.Bytes.C10_u64",
    "Verif.Bytes.C10_portable"
   ],
   "note": ""
  },
  {
   "property": "C11",
   "status": "proved",
   "theorems": [
    "Verif.Bytes.C11_vector",
    "Verif.Bytes.C11_array",
    "Verif.Bytes.C11_string",
    "Verif.Bytes.C11_map",
    "Verif.Bytes.C11_map_mismatch_throws",
    "Verif.Bytes.C11_map_any_keys",
    "Verif.Bytes.C11_greens_function_metadata",
    "Verif.Bytes.C11_concatenation"
   ],
   "note": ""
  },
  {
   "property": "C12",
   "status": "proved",
   "theorems": [
    "Verif.Bytes.C12_block_size_independent",
    "Verif.Bytes.C12_block_size_zero_diverges"
   ],
   "note": ""
  },
  {
   "property": "C13",
   "status": "proved",
   "theorems": [
    "Verif.NullSup.C13_null_suppression_lossless",
    "Verif.NullSup.C13_huge_run_lost"
   ],
   "note": ""
  },
  {
   "property": "C14",
   "status": "proved",
   "theorems": [
    "Verif.NullSup.C14_buffer_suffices",
    "Verif.NullSup.C13_null_suppression_lossless"
   ],
   "note": ""
  },
  {
   "property": "C15",
   "status": "proved",
   "theorems": [
    "Verif.Stream.C15_round_trip",
    "Verif.Stream.C15_refused"
   ],
   "note": ""
  },
  {
   "property": "C16",
   "status": "partial",
   "theorems": [
    "Verif.Stream.C16_append_slice_partial",
    "Verif.Stream.C16_append_accepted",
    "Verif.Stream.C16_final_is_final",
    "Verif.Stream.C16_incompatible_refused",
    "Verif.Stream.C16_long_chunk_wrong",
    "Verif.Stream.C16_other_axis_wrong",
    "Verif.Stream.C16_append_along_axis_partial",
    "Verif.Stream.C16_append_along_axis_accepted"
   ],
   "note": "proved along every axis when the chunk length divides the stored extent and the chunk spans the array along the axes before it (for axis 0 no further condition); the code accepts other appends and then corrupts the file (two counterexamples proved)"
  },
  {
   "property": "C17",
   "status": "proved",
   "theorems": [
    "Verif.Cache.C17_cache_is_lru",
    "Verif.Cache.C17_depth_zero"
   ],
   "note": ""
  },
  {
   "property": "C18",
   "status": "proved",
   "theorems": [
    "Verif.Pool.C18_pool",
    "Verif.Pool.C18_construct",
    "Verif.Pool.C18_zero_size"
   ],
   "note": ""
  },
  {
   "property": "C19",
   "status": "proved",
   "theorems": [
    "Verif.Tree.C19_contains",
    "Verif.Tree.C19_overlaps",
    "Verif.Tree.C19_overlaps_iff_common_point",
    "Verif.Tree.C19_extend",
    "Verif.Tree.C19_volume",
    "Verif.Tree.C19_margin",
    "Verif.Tree.C19_center",
    "Verif.Tree.C19_overlap_volume"
   ],
   "note": ""
  },
  {
   "property": "C20",
   "status": "proved",
   "theorems": [
    "Verif.Tree.C20_history",
    "Verif.Tree.C20_all_entries",
    "Verif.Tree.C20_insert_adds",
    "Verif.Tree.C20_update_changes_one_box",
    "Verif.Pool.pool_sequential"
   ],
   "note": ""
  },
  {
   "property": "C21",
   "status": "proved",
   "theorems": [
    "Verif.Tree.C21_point_search",
    "Verif.Tree.C21_point_search_disjoint"
   ],
   "note": ""
  },
  {
   "property": "C22",
   "status": "proved",
   "theorems": [
    "Verif.Tree.C22_region_search"
   ],
   "note": ""
  },
  {
   "property": "C23",
   "status": "proved",
   "theorems": [
    "Verif.Tree.C23_balanced"
   ],
   "note": "after a bulk rebuild the lower bound on the node size is 1, as in the code"
  },
  {
   "property": "C24",
   "status": "proved",
   "theorems": [
    "Verif.Tree.C24_rebuild",
    "Verif.Tree.C24_point_lookup_same"
   ],
   "note": ""
  },
  {
   "property": "C25",
   "status": "proved",
   "theorems": [
    "Verif.Tree.C25_bounding_box",
    "Verif.Tree.C25_bounding_box_encloses"
   ],
   "note": ""
  },
  {
   "property": "C35",
   "status": "proved",
   "theorems": [
    "Verif.Tree.C35_contains",
    "Verif.Tree.C35_overlap"
   ],
   "note": ""
  },
  {
   "property": "C27",
   "status": "proved",
   "theorems": [
    "Verif.Dist.C27_cache_transparent"
   ],
   "note": ""
  },
  {
   "property": "C52",
   "status": "partial",
   "theorems": [
    "Verif.Dist.C52_write_through_partial",
    "Verif.Dist.C52_pending_rejected",
    "Verif.Dist.C52_axis_change_always_duplicates",
    "Verif.Dist.C52_axis_change_duplicates"
   ],
   "note": "the code violates this property: whenever slices wait along another axis, appending along the first one stores the data of the file twice (C52_axis_change_always_duplicates, in every state; C52_axis_change_duplicates is a concrete run). Proved: with cache size 0 appending any number of slices along any one axis works for suitable streamer chunks; a waiting chunk never accepts a slice along another axis than the first; the first axis only, any cache size, is C27"
  },
  {
   "property": "C26",
   "status": "proved",
   "theorems": [
    "Verif.Dist.C26_metadata_consistent",
    "Verif.Dist.C26_metadata_roundtrip"
   ],
   "note": ""
  },
  {
   "property": "C28",
   "status": "partial",
   "theorems": [
    "Verif.Dist.C28_flush_reopen_partial"
   ],
   "note": "for histories in which no reopened library registers new chunks under reused identifiers and, with a cache, no padded chunk is stored as all-zero (without a cache such chunks are covered: their metadata survive, element access is excluded); outside of this the code loses data (C29_reopened_library_mixes_chunks, C30_padded_null_aborts)"
  },
  {
   "property": "C29",
   "status": "partial",
   "theorems": [
    "Verif.Dist.C29_identifiers_fresh_partial",
    "Verif.Dist.C29_reopened_library_mixes_chunks",
    "Verif.Dist.C29_reopened_library_aborts",
    "Verif.Dist.C29_library_records_partial",
    "Verif.Dist.C29_register_changes_no_chunk_partial"
   ],
   "note": "identifiers are fresh for libraries that were not reopened; a reopened library starts again at 0 and mixes up chunks (two machine-checked counterexamples)"
  },
  {
   "property": "C30",
   "status": "partial",
   "theorems": [
    "Verif.Dist.C30_library_history_partial",
    "Verif.Dist.C30_uncovered_not_detected",
    "Verif.Dist.C30_padded_null_aborts",
    "Verif.Dist.C30_get_uncovered_is_ub"
   ],
   "note": "all reads in all legal histories return the stored values; the part 'an uncovered region is detected' is false of the code (counterexamples)"
  },
  {
   "property": "C31",
   "status": "partial",
   "theorems": [
    "Verif.Dist.C31_append_slice_partial",
    "Verif.Dist.C31_append_to_null_throws",
    "Verif.Dist.C31_append_to_nothing_is_ub"
   ],
   "note": "append along the first axis; appending to an all-zero chunk throws, and to no chunk is undefined behaviour (counterexamples)"
  },
  {
   "property": "C47",
   "status": "partial",
   "theorems": [
    "Verif.Dist.C47_import_partial",
    "Verif.Dist.C47_import_after_reopen_mixes_chunks"
   ],
   "note": "holds when the importing library has unused identifiers; false after reopening (counterexample)"
  },
  {
   "property": "C48",
   "status": "partial",
   "theorems": [
    "Verif.Dist.C48_crash_safe_partial",
    "Verif.Dist.C48_flush_crash_loses_chunk"
   ],
   "note": "crashes between calls and during destruction are safe; FlushLibrary writes the index before the chunks, counterexample proved. File writes are atomic here; for torn writes see C82."
  },
  {
   "property": "C33",
   "status": "proved",
   "theorems": [
    "Verif.Dist.C33_shape_queries",
    "Verif.Dist.C53_loop_with_gap_visits_nothing"
   ],
   "note": "Every history of library calls; the second theorem shows the answer with a gap (zeros) on a concrete allowed history. The box around the chunks must have fewer than 2^64 elements."
  },
  {
   "property": "C53",
   "status": "partial",
   "theorems": [
    "Verif.Dist.C53_element_loops_partial",
    "Verif.Dist.C53_loop_misses_elements",
    "Verif.Dist.C53_loop_with_gap_visits_nothing"
   ],
   "note": "The range version is proved for all histories and regions; the version without a range is proved for gapless libraries that start at index 0 and refuted otherwise."
  },
  {
   "property": "C46",
   "status": "proved",
   "theorems": [
    "Verif.Rebuild.C46_penetrating_exact",
    "Verif.Rebuild.C46_disjoint_chunk_overruns"
   ],
   "note": "For every padded chunk that meets the array; the second theorem shows that the loop leaves a chunk that lies wholly outside."
  },
  {
   "property": "C32",
   "status": "partial",
   "theorems": [
    "Verif.Rebuild.C32_rebuild_partial",
    "Verif.Rebuild.C32_corner_padding_is_stale"
   ],
   "note": "Any legal history, any chunk size and overlap, cylindrical boundary condition: grid, values, padding inside the array, zero padding and mirrored padding. With zero suppression a chunk is recorded as all-zero only if the boundary condition asks for zero at every index of the padded chunk. Corner padding holds stale memory (counterexample)."
  },
  {
   "property": "C34",
   "status": "proved",
   "theorems": [
    "Verif.Ops.C34_downsample",
    "Verif.Ops.C34_pieces",
    "Verif.Ops.C34_adjacent",
    "Verif.Ops.C34_empty_at_zero"
   ],
   "note": "For every view of every array, start index and factors >= 1 (no 64-bit overflow, range not ending at index 0): exactly the elements at multiples of the factors, and for every division of an array into pieces the downsampled pieces divide the downsampled array. Excluded and shown: an empty range at index 0, where the code subtracts 1 from 0."
  },
  {
   "property": "C36",
   "status": "proved",
   "theorems": [
    "Verif.Green.C36_weights_sum",
    "Verif.Green.C36_reproduces_samples",
    "Verif.Green.C36_linear_exact",
    "Verif.Green.C36_keys_exact",
    "Verif.Green.C36_interpolate",
    "Verif.Green.C36_rounded_constant"
   ],
   "note": "Over any ordered field, for the linear and the Keys kernel (with the literal s7 as a parameter where it matters); the interpolation routine itself computes the weighted sum. Floating-point rounding is not modelled."
  },
  {
   "property": "C37",
   "status": "partial",
   "theorems": [
    "Verif.Green.C37_reads_in_bounds_partial",
    "Verif.Green.C37_over_read",
    "Verif.Green.C37_silent_zero"
   ],
   "note": "In bounds for every chunk with sufficient padding and all positions in it; a sample exactly on the end of a chunk needs either more padding or not to be in the last cell along the other axes (counterexample: reads past the array)."
  },
  {
   "property": "C38",
   "status": "partial",
   "theorems": [
    "Verif.Green.C38_inner_product_partial",
    "Verif.Green.C38_outside_is_undefined",
    "Verif.Green.Ex38.C38_misplaced",
    "Verif.Green.Ex38.C38_uninitialised"
   ],
   "note": "Proved for the chunk library in every state it can get into, any field, kernel, positions and number of samples, if no stored chunk follows an all-zero one; otherwise contributions are misplaced (counterexample). Also relies on uninitialised memory (counterexample)."
  },
  {
   "property": "C40",
   "status": "proved",
   "theorems": [
    "Verif.Green.C40_blockwise_weights",
    "Verif.Green.C40_blocks_divide",
    "Verif.Green.C40_affine_exact",
    "Verif.Green.C40_limits"
   ],
   "note": "Any division into non-empty blocks, any block size limit."
  },
  {
   "property": "C39",
   "status": "partial",
   "theorems": [
    "Verif.Green.C39_causal_quadrature_partial",
    "Verif.Green.segment_order",
    "Verif.Green.convStart_exact",
    "Verif.Green.C39_assertion_fails",
    "Verif.Green.Ex39.C39_ignore_depends_on_blocks"
   ],
   "note": "Proved in exact arithmetic for every segment, sampling, block sizes, kernel, stored field and library state, under the conditions of C37/C38; with float rounding the assertion on the delay can fail (counterexample with concrete floats), and in the mode Ignore a sample on the end of the domain depends on the blocking (counterexample)."
  },
  {
   "property": "C41",
   "status": "proved",
   "theorems": [
    "Verif.Green.C41_rotation_invariant",
    "Verif.Green.C41_distance",
    "Verif.Green.C41_components"
   ],
   "note": "Over the real numbers, for all positions and fields."
  },
  {
   "property": "C42",
   "status": "partial",
   "theorems": [
    "Verif.Green.C42_resample_partial",
    "Verif.Green.fillArray_ok",
    "Verif.Green.C42_left_out",
    "Verif.Green.Ex42.C42_last_missing",
    "Verif.Green.Ex42.C42_slice_zero",
    "Verif.Green.Ex42.C42_far_face",
    "Verif.Green.C42_far_face_undefined"
   ],
   "note": "Exact result of fill_array for every library state, request, kernel and field; all samples are right if the chunks they lie in begin before the truncated end of the request. Samples in a chunk that begins there are left out (general theorem and counterexamples), and a sample on the far face of a chunk reads out of bounds unless there is more padding than the support (general theorem and counterexample)."
  },
  {
   "property": "C43",
   "status": "partial",
   "theorems": [
    "Verif.Meep.C43_limit_partial",
    "Verif.Meep.C43_running_max_block_one",
    "Verif.Meep.C43_kept_within_range",
    "Verif.Meep.C43_not_per_location"
   ],
   "note": "The limit is the running maximum of the block, for every history of updates; for block size 1 it is the running maximum of the location. The code uses 2x2 blocks, so the maximum is not per location (counterexample)."
  },
  {
   "property": "C45",
   "status": "proved",
   "theorems": [
    "Verif.Meep.C45_time_slices"
   ],
   "note": "The whole saving callback (downsampling, cutting into boxes, RegisterChunk or AppendSlice) and the loop over steps, for every field, division into simulation chunks, downsampling and chunk sizes. The number of steps is an input (the loop condition compares doubles)."
  },
  {
   "property": "C56",
   "status": "proved",
   "theorems": [
    "Verif.Meep.C56_merged_jobs"
   ],
   "note": "End to end for the storage of a parallel calculation; the MEEP fields and the number of steps are inputs, the processes run one after the other in directories of their own."
  },
  {
   "property": "C54",
   "status": "proved",
   "theorems": [
    "Verif.Meep.C54_contains",
    "Verif.Meep.C54_overlaps",
    "Verif.Meep.C54_overlap",
    "Verif.Meep.C54_stored_parts",
    "Verif.Meep.C54_empty_overlaps"
   ],
   "note": "Any number of dimensions, 64-bit wrap-around modelled. C54_empty_overlaps: an empty range strictly inside another one is reported as overlapping (why the property is stated for non-empty ranges)."
  },
  {
   "property": "C55",
   "status": "proved",
   "theorems": [
    "Verif.Meep.C55_padding",
    "Verif.Meep.C55_empty_aborts"
   ],
   "note": "All assertions of lines 533-561 hold; C55_empty_aborts shows that the non-emptiness hypothesis is needed. The conversion of the region from floating-point coordinates to indices is not modelled."
  },
  {
   "property": "C49",
   "status": "proved",
   "theorems": [
    "Verif.ND.C49_numpy"
   ],
   "note": "The whole file against a relational specification of NumPy format 1.0: magic, version, length field, alignment, dictionary with the shape tuple in decimal, blanks, line feed, and all elements in C order; any host byte order, up to 2000 axes."
  },
  {
   "property": "C51",
   "status": "partial",
   "theorems": [
    "Verif.Shower.C51_in_bounds",
    "Verif.Shower.C51_contiguous",
    "Verif.Shower.C51_interpolation_partial",
    "Verif.Shower.C51_ends",
    "Verif.Shower.C51_closest",
    "Verif.Shower.C51_default_index_out_of_bounds",
    "Verif.Shower.C51_first_point_not_scaled",
    "Verif.Shower.C51_stray_record"
   ],
   "note": "In-bounds access and contiguity hold for any arithmetic with commutative products and asymmetric < (IEEE included). Not fully true of the code: create_shower with its default argument always indexes out of bounds, the constructor stores a stray uninitialised record, and the first point is not scaled; these are proved as negative results."
  },
  {
   "property": "C59",
   "status": "proved",
   "theorems": [
    "Verif.Dist.C59_reads_write_nothing",
    "Verif.Dist.C59_read_session_restores_files",
    "Verif.Dist.C59_reader_chunk_size_irrelevant"
   ],
   "note": "The first theorem is for any file system contents and any successful run, the second for allowed histories. The destructor does write the index file again (with the same bytes), so two processes closing the same library at the same time may race; that is outside the model."
  },
  {
   "property": "C44",
   "status": "proved",
   "theorems": [
    "Verif.Meep.C44_rechunk",
    "Verif.Meep.C44_each_partition_once",
    "Verif.Meep.C44_any_interleaving",
    "Verif.Meep.fine_alone",
    "Verif.Meep.partitionSize_ok"
   ],
   "note": "All schedules, any number of processes. In C44_rechunk a call of RebuildChunksPartial is one step; in C44_any_interleaving the calls of different processes overlap in time, a step being one chunk of a partition (or its beginning or end), and the sequence of steps is arbitrary. Nothing is said about padding at negative radius whose mirror image is outside of the array (C32). The rounding of ceil() of quotients is a parameter (positive, at most twice the numerator); std::pow is a parameter."
  },
  {
   "property": "C57",
   "status": "proved",
   "theorems": [
    "Verif.Meep.C57_calculation"
   ],
   "note": "From the simulation chunks to the merged array. The contents of the field buffers are an assumption here (they hold the field F of the simulation); C61_calculation discharges it for the modelled callbacks."
  },
  {
   "property": "C60",
   "status": "partial",
   "theorems": [
    "Verif.Meep.C60_pipeline_partial",
    "Verif.Meep.C60_any_interleaving_partial",
    "Verif.Meep.C60_axis_fails"
   ],
   "note": "Proved if the radial start of the storage domain is a multiple of the downsampling factor or there is room for all of the padding before it; else it is false (C60_axis_fails): the program mirrors at the first row of the padded domain instead of the axis. Nothing is said about padding at negative radius whose mirror image is outside of the stored domain (C32)."
  },
  {
   "property": "C61",
   "status": "proved",
   "theorems": [
    "Verif.Meep.C61_calculation",
    "Verif.Meep.C61_pipeline_partial",
    "Verif.Meep.C61_any_interleaving_partial",
    "Verif.Meep.C61_zero_collides"
   ],
   "note": "Exact arithmetic in an ordered field; the rounding to float (enc) and the magnitude function are parameters. Assumption on MEEP (MeepOk): its chunks partition the grid of the calculation domain and every point of a chunk is visited once. The rechunking part C61_pipeline_partial has the hypothesis of C60 on the radial start."
  },
  {
   "property": "C62",
   "status": "partial",
   "theorems": [
    "Verif.Meep.C62_division_partial",
    "Verif.Meep.C62_depends_on_division"
   ],
   "note": "False in general (C62_depends_on_division: witness with two divisions and different samples). Proved for samples that are decided by bounds over the direct neighbourhood."
  },
  {
   "property": "C66",
   "status": "proved",
   "theorems": [
    "Verif.Green.C66_create_load",
    "Verif.Green.C66_load_needs_origin"
   ],
   "note": "The metadata file is a separate file of the directory (its name differs from index and chunk files). The reader has streamer chunk size INFTY and default cache shape, as in the program. Opening a directory without green.meta is outcome ub in the model (uninitialised coordinates)."
  },
  {
   "property": "C64",
   "status": "proved",
   "theorems": [
    "Verif.Analytic.C64_incomplete_gamma",
    "Verif.Analytic.C64_negative"
   ],
   "note": "Real arithmetic: rounding of float, overflow and the C library functions' errors are not modelled (exp, log and lgamma are the real functions). The order is a natural number plus one, as in the only call in the project."
  },
  {
   "property": "C65",
   "status": "proved",
   "theorems": [
    "Verif.Analytic.C65_field_formula",
    "Verif.Analytic.C65_nan",
    "Verif.Analytic.C65_even",
    "Verif.Analytic.C65_causal",
    "Verif.Analytic.C65_filter",
    "Verif.Analytic.C65_gauss",
    "Verif.Analytic.C65_static"
   ],
   "note": "Real arithmetic without rounding; sqrt, exp, lgamma and the incomplete gamma function (C64) are the exact real functions in the theorems on derivatives and limits, arbitrary functions in the others."
  },
  {
   "property": "C63",
   "status": "proved",
   "theorems": [
    "Verif.Analytic.C63_dipole_samples",
    "Verif.Analytic.C63_short_axis",
    "Verif.Analytic.C63_axis"
   ],
   "note": "Real arithmetic; storing a number as float is an arbitrary function enc into 32 bits. Names generated at random are assumed distinct. The case of an axis shorter than one requested step is excluded in the statement: it divides by zero (C63_short_axis)."
  },
  {
   "property": "C68",
   "status": "partial",
   "theorems": [
    "Verif.Analytic.C68_cutoff",
    "Verif.Analytic.C68_requested_steps",
    "Verif.Analytic.C68_steps_partial",
    "Verif.Analytic.C68_oversampling_missed"
   ],
   "note": "The frequency is right (real arithmetic). The steps are not: the number of steps is rounded down, so the step is larger than requested unless the requested step divides the axis (C68_oversampling_missed), by a factor of less than two (C68_steps_partial)."
  },
  {
   "property": "C67",
   "status": "partial",
   "theorems": [
    "Verif.Analytic.C67_dipole_signal_partial",
    "Verif.Analytic.C67_grid_point"
   ],
   "note": "Composition of C63, C66, C38 and C39. Exact arithmetic except for the rounding of stored numbers; positions next to the axis in the outermost cells, and exactly on chunk ends, are excluded for the cubic kernel (uninitialised or out-of-bounds memory: C32_corner_padding_is_stale, C37_over_read)."
  },
  {
   "property": "C58",
   "status": "partial",
   "theorems": [
    "Verif.Meep.C58_accepts",
    "Verif.Meep.C58_storage",
    "Verif.Meep.C58_times",
    "Verif.Meep.C58_coordinates_partial",
    "Verif.Meep.C58_stretched",
    "Verif.Meep.C58_single"
   ],
   "note": "Exact arithmetic. Exactness of the spatial coordinates fails: the length of the stored region is divided by the number of samples minus one although the region ends one sample after the last, so the recorded distance of samples is always too large (C58_stretched); proved is that the error stays below the distance of two samples. With a single sample along an axis the step is a division by zero (C58_single)."
  },
  {
   "property": "C69",
   "status": "partial",
   "theorems": [
    "Verif.Meep.C69_meep_signal_partial",
    "Verif.Meep.C69_any_interleaving_partial",
    "Verif.Meep.C69_grid_point"
   ],
   "note": "Composition of C45, C56, C57, C44, C60, C58, C66 and of C36-C39: from the buffers of the simulation to the signals, for every schedule (C69_any_interleaving_partial: also if the processes interleave chunk by chunk in the rechunking). Exact arithmetic except for rounding to the stored format. Excluded, because the program is wrong there: storage domains next to the axis that do not start at a multiple of the downsampling factor (C60_axis_fails), chunk ends and corners of the overlap (C37_over_read, C32_corner_padding_is_stale), samples after an all-zero chunk (C38). The coordinates are those of C58, which are stretched (C58_stretched)."
  },
  {
   "property": "C70",
   "status": "proved",
   "theorems": [
    "Verif.Green.C70_superposition",
    "Verif.Green.C70_superposition_c8",
    "Verif.Green.C70_order",
    "Verif.Green.C70_order_c8",
    "Verif.Green.C70_refused",
    "Verif.Green.C70_causal"
   ],
   "note": "On top of Answers, which holds for every loaded Green's function (C67, C69: Verif.Green.answers). Exact arithmetic."
  },
  {
   "property": "C71",
   "status": "proved",
   "theorems": [
    "Verif.Green.C71_axis",
    "Verif.Green.C71_time",
    "Verif.Green.C71_charge",
    "Verif.Green.C71_weight",
    "Verif.Green.C71_cut"
   ],
   "note": "About what C70 proves the program to add to each sample. Exact arithmetic."
  },
  {
   "property": "C72",
   "status": "partial",
   "theorems": [
    "Verif.App.C72_table_partial",
    "Verif.App.C72_order",
    "Verif.App.C72_rows",
    "Verif.App.C72_bounds",
    "Verif.App.C72_last_refused",
    "Verif.App.C72_impulse",
    "Verif.App.C72_impulse_late"
   ],
   "note": "Does not hold at the largest argument (C72_last_refused), nor for impulse responses whose table begins after time 0 (C72_impulse_late). Exact arithmetic."
  },
  {
   "property": "C73",
   "status": "partial",
   "theorems": [
    "Verif.App.C73_column_partial",
    "Verif.App.C73_empty_line",
    "Verif.App.C73_short_row",
    "Verif.App.C73_not_a_number"
   ],
   "note": "Empty lines and rows without the column are undefined behaviour (C73_empty_line, C73_short_row). std::stof is a parameter."
  },
  {
   "property": "C74",
   "status": "partial",
   "theorems": [
    "Verif.Meep.C74_inverse",
    "Verif.Meep.C74_placement_partial",
    "Verif.Meep.C74_off_axis",
    "Verif.Meep.C74_current",
    "Verif.Meep.C74_antenna",
    "Verif.Meep.C74_linear",
    "Verif.Meep.C74_c8",
    "Verif.Meep.C74_location_wrong"
   ],
   "note": "The source is one and a half cells off the axis (C74_off_axis); get_antenna_location always gives the origin (C74_location_wrong). The current stops only up to the rounding of the time to float."
  },
  {
   "property": "C75",
   "status": "partial",
   "theorems": [
    "Verif.App.C75_export_partial",
    "Verif.App.C75_fewer_values",
    "Verif.App.C75_long"
   ],
   "note": "Does not hold for signals of 2^31 samples or more (C75_long), nor if there are fewer values than times (C75_fewer_values). The format of one number is a parameter."
  },
  {
   "property": "C76",
   "status": "proved",
   "theorems": [
    "Verif.Analytic.C76_maxwell"
   ],
   "note": "Over the reals, for the formulas of lines 10-96; Gauss's law is C65_gauss."
  },
  {
   "property": "C77",
   "status": "partial",
   "theorems": [
    "Verif.Dist.C77_index_undefined",
    "Verif.Dist.C77_chunk_undefined",
    "Verif.Dist.C77_meta_undefined",
    "Verif.Dist.C77_index_prefix_partial",
    "Verif.Dist.C77_array_prefix_partial"
   ],
   "note": "The code does not check the state of the stream: reading a file that ends early uses uninitialised memory, for every file and every position (C77_*_undefined). What holds: no complete file is the beginning of another one."
  },
  {
   "property": "C78",
   "status": "partial",
   "theorems": [
    "Verif.Dist.C78_durable_partial",
    "Verif.Dist.C78_swap_crash",
    "Verif.Dist.C78_append_crash"
   ],
   "note": "Proved for every chunk that has not been transposed (or removed) since; of a chunk that has been appended to, for what it contained when flushed. A transposed chunk is lost if the program crashes before the index is written (C78_swap_crash); appending after the crash to a chunk that was appended to before goes to the wrong place (C78_append_crash). Crash points inside other calls than FlushLibrary and the destructor: see C82."
  },
  {
   "property": "C79",
   "status": "proved",
   "theorems": [
    "Verif.Green.C79_linear_rounding",
    "Verif.Green.C79_keys_rounding",
    "Verif.Green.C79_positions",
    "Verif.Green.C79_exact_program"
   ],
   "note": "Standard model of floating-point arithmetic: every operation has relative error at most u (overflow, underflow and the reordering permitted by -ffast-math are excluded). C79_exact_program: with u = 0 the program is the one of C36, C38, C39. Instances: single precision with 24 digits (singleA), with fused operations (fusedA)."
  },
  {
   "property": "C80",
   "status": "partial",
   "theorems": [
    "Verif.Green.C80_reads_in_bounds_partial",
    "Verif.Green.C80_accumulate_safe_partial",
    "Verif.Green.C80_assertion_fails",
    "Verif.Green.C80_over_read"
   ],
   "note": "Proved: with padding larger than the kernel's support, no read or write outside of an array, at least one sample per iteration, termination; the only other outcome is a failed assertion. Missing because false of the code: the internal assertion on the last sample fails for legitimate requests in single precision (C80_assertion_fails), and with padding equal to the support (which the program accepts) the interpolation reads behind the end of the array (C80_over_read)."
  },
  {
   "property": "C81",
   "status": "partial",
   "theorems": [
    "Verif.Green.C81_signal_accuracy_partial",
    "Verif.Green.C81_linear_error_partial",
    "Verif.Green.C81_keys_error_partial"
   ],
   "note": "Proved: backward error (exact interpolation at a position displaced by a few roundings, relative error of a few roundings of the terms) and forward error (with Lipschitz constants of the interpolation) of every sample, for Linear and Keys. Missing because false of the code: completion without the assertion of C80, padding equal to the support (C80), stored chunks after all-zero chunks in one request (C38). Underflow and overflow of the floating-point format are outside of the arithmetic model."
  },
  {
   "property": "C82",
   "status": "partial",
   "theorems": [
    "Verif.Dist.C82_crash_inside_call_partial",
    "Verif.Dist.C82_torn_index",
    "Verif.Dist.C82_move_crash",
    "Verif.Dist.C82_import_crash"
   ],
   "note": "Proved for every call of every allowed history, with any contents of the files the call may write to (a set computed by the model along the execution; a call that returns changes no other file). Missing because false of the code: FlushIndex truncates the index in place, so a crash inside it loses the library (C82_torn_index); MoveLibrary moves the chunk files while the old index lists them, and deletes the old index before writing the new one (C82_move_crash); ImportLibrary with move deletes the source index although the importing library's index is not on disk (C82_import_crash); chunks being appended to or transposed (C78)."
  },
  {
   "property": "C83",
   "status": "partial",
   "theorems": [
    "Verif.Shower.C83_create_partial",
    "Verif.Shower.C83_load_ends",
    "Verif.Shower.C51_stray_record",
    "Verif.Shower.C83_truncated_accepted",
    "Verif.Shower.C83_missing_file"
   ],
   "note": "Byte-level model of the file. Proved for all well-formed files, kinds, energies and indices when the extra record made from uninitialised memory is of another kind or repeats an energy of this kind; loading ends for all contents. Missing because false of the code: the extra record can be chosen (C51_stray_record); a file that ends within a shower is accepted with zeros (C83_truncated_accepted); a missing file is undefined behaviour (C83_missing_file)."
  },
  {
   "property": "C84",
   "status": "partial",
   "theorems": [
    "Verif.ND.C84_fill_from_partial",
    "Verif.ND.C84_assign_self",
    "Verif.ND.C84_append_self_undefined",
    "Verif.ND.C84_overlap_smears",
    "Verif.ND.C84_overlap_undefined",
    "Verif.ND.C84_swap_axes_self"
   ],
   "note": "Proved: fill_from between any two views of the same data with disjoint regions; self-assignment. Missing because false of the code: overlapping regions (C84_overlap_smears, C84_overlap_undefined); appending a non-empty array to itself is undefined for every array (C84_append_self_undefined); swapping the axes into the array itself (C84_swap_axes_self)."
  },
  {
   "property": "C85",
   "status": "partial",
   "theorems": [
    "Verif.Green.C85_signal_partial",
    "Verif.Green.C85_error_partial",
    "Verif.Green.C85_abort"
   ],
   "note": "Proved: unless an assertion fails, the request completes with the trapezoidal rule of about one point per unit of time; each point is evaluated at a place displaced only by roundings, with relative error of 22 + (roundings of the interpolation) per point (C85_signal_partial); hence the distance of the new signal from the exact trapezoidal sum (C85_error_partial). Missing because false of the code: completion. In single precision, any track from time 0 to 0.8f with samples in steps of 0.16f fails the assertion on convolution_t_start (C85_abort). C85_error_partial needs a track away from the axis."
  },
  {
   "property": "C86",
   "status": "partial",
   "theorems": [
    "Verif.Stream.C86_history_partial",
    "Verif.Stream.C86_truncated_stale"
   ],
   "note": "Proved: in every history of uses that are defined for a streamer without memory (complete files), each returns what that streamer returns, whatever the buffer holds (C86_history_partial). Missing because false of the code: incomplete files. After reading a file of the same shape, a truncated file is read without any error, and the missing values are those of the file read before (C86_truncated_stale, for all such pairs of arrays and all places of truncation at a value); a new streamer makes the same call undefined."
  },
  {
   "property": "C87",
   "status": "proved",
   "theorems": [
    "Verif.Green.C87_interpolation"
   ],
   "note": "Exact arithmetic. For a field with d derivatives bounded in a box that contains the points the kernel uses. The constants are those of `Accuracy` (linear: d = 1, 2; cubic: d = 1, 2, 3), proved from the moments of the kernel and Taylor's theorem. Errors of the samples, e.g. the rounding to the stored format, are the parameter \u03b4."
  },
  {
   "property": "C88",
   "status": "proved",
   "theorems": [
    "Verif.Green.C88_signal",
    "Verif.Green.C88_smooth",
    "Verif.Green.C88_before"
   ],
   "note": "For every object that answers requests from samples (Answers: dipole C67, MEEP C69) and every request of the kind described there (SignalOk), in exact arithmetic; rounding is C85. C88_signal: Lipschitz integrand, also with a track that is only partly in the past, error of first order. C88_smooth: whole track in the past, second derivative bounded, second order. C88_before: samples before the track."
  },
  {
   "property": "C89",
   "status": "partial",
   "theorems": [
    "Verif.Green.C89_linear",
    "Verif.Green.C89_even",
    "Verif.Green.C89_radial_wrong",
    "Verif.Green.gridField_mirrored",
    "Verif.Green.meepField_mirrored"
   ],
   "note": "Holds for the linear kernel (C89_linear) and for a component that is even across the axis, with both kernels (C89_even). False for the radial component with the cubic kernel, the one SignalCalculator uses: the overlap has it mirrored without change of sign (gridField_mirrored, meepField_mirrored), so that in the first cell it is multiplied by f (2 - f), f = r / dr, on every grid (C89_radial_wrong). Exact arithmetic, grids that begin at the axis."
  },
  {
   "property": "C90",
   "status": "proved",
   "theorems": [
    "Verif.Analytic.C90_field",
    "Verif.Analytic.C90_track",
    "Verif.Analytic.C90_signal"
   ],
   "note": "C90_field: the interpolated samples against the field of the dipole (order of the filter at least d + 2). C90_track: the integrand along a track away from the axis has a bounded second derivative, so the trapezoidal error is of second order. C90_signal: end to end through calculation, files, cache, interpolation and integration, for requests of the kind described in C67 (SignalOk); exact arithmetic in the calculations of the reader, the rounding of the stored numbers is \u03b4 (StoredWell). The region may touch the axis, but a track point must not be so near to it that the kernel reaches behind it (see C89)."
  },
  {
   "property": "C91",
   "status": "partial",
   "theorems": [
    "Verif.Shower.C91_same_step_partial",
    "Verif.Shower.C91_any_step_partial",
    "Verif.Shower.C91_reached_partial",
    "Verif.Shower.C91_rmin_not_kept",
    "Verif.Shower.C91_rmax_not_reached",
    "Verif.Shower.C91_finer_step_leaves"
   ],
   "note": "With the step 1. that print_dimensions uses, the heights and the maximal distance hold on all of every track, the minimal distance at the begin and end of every track (C91_same_step_partial); with any other step, in ice of constant density as in the code, all four hold up to one light path of the step 1. (C91_any_step_partial). The limits other than the maximal distance are reached (C91_reached_partial). False otherwise: a track can come nearer to the axis between two points (C91_rmin_not_kept), the maximal distance begins with the distance of the start from the origin (C91_rmax_not_reached), tracks with a finer step than 1., as in the example, go on beyond the region (C91_finer_step_leaves). Exact arithmetic."
  },
  {
   "property": "C92",
   "status": "proved",
   "theorems": [
    "Verif.Meep.C92_field",
    "Verif.Meep.C92_converges",
    "Verif.Meep.C92_not_better",
    "Verif.Meep.C92_signal"
   ],
   "note": "C92_field bounds the error at each position, C92_converges has the constant that is the same for all calculations, C92_signal is the whole way from the buffers of the simulation to the signal (C69, C87, C88), C92_not_better shows for every calculation, with the field 'distance from the axis', an error of at least half a cell at the first or last radial grid point, whatever the kernel. Boxes that the kernel does not leave across the axis (see C89); the positions excluded in SignalOk as in C69. Exact arithmetic in the program; rounding of samples and of coordinates is included (eps, eta)."
  },
  {
   "property": "C93",
   "status": "proved",
   "theorems": [
    "Verif.Green.C93_any_order",
    "Verif.Green.C93_interpolation",
    "Verif.Green.C93_linear",
    "Verif.Green.C93_program",
    "Verif.Green.C93_signal",
    "Verif.Green.C93_orders_differ"
   ],
   "note": "The model is generic in the arithmetic; run on symbolic expressions it gives the expression the source writes down for each sample (C93_program: the rounded program of C79 is one execution of it), and C93_any_order bounds every execution of everything that it can be rewritten to. C93_orders_differ: two contributions of 1 on top of 2^24 give 2^24 or 2^24+2 in single precision, depending on the grouping. Positions at which the kernel stays inside the array; positions themselves are given as machine values; no overflow, underflow or NaN; no divisions (reciprocals)."
  },
  {
   "property": "C94",
   "status": "partial",
   "theorems": [
    "Verif.Shower.C94_signal",
    "Verif.Shower.C94_charge",
    "Verif.Shower.C94_example_doubled"
   ],
   "note": "C94_signal has the bound with all constants (C51, C70, C87, C88), C94_charge that the charge is well defined and begins with the scaled first entry. Missing because it is false: the example program runs the loop over the tracks twice and writes twice the signal (C94_example_doubled). Exact arithmetic, constant density as in ice_profile.cpp, profiles with increasing grammages; the first track has the charge without the scaling, which is part of the constant."
  },
  {
   "property": "C95",
   "status": "proved",
   "theorems": [
    "Verif.Tree.C95_dump"
   ],
   "note": "Tree/Json.lean has the grammar of JSON (RFC 8259, restricted to natural numbers and strings without escapes). Errors when opening or writing the file are outside of the model; the code does not check for them."
  },
  {
   "property": "C96",
   "status": "partial",
   "theorems": [
    "Verif.Analytic.C96_export_partial",
    "Verif.Analytic.C96_whole_partial",
    "Verif.Analytic.C96_exactly_when",
    "Verif.Analytic.Ex96.C96_export_fails"
   ],
   "note": "Composition of C63, C66, C42 and C49. Exact arithmetic except for the rounding of stored numbers. Samples exactly between two chunks make the program read behind the end of a chunk, C96_exactly_when: the program ends well if and only if there are none (unrounded coordinates). Excluded: samples next to the axis in the outermost cells in height or time (uninitialised memory, C32_corner_padding_is_stale). If the coordinates in the metadata are rounded, samples in a chunk that begins at the last cell are left out, the theorem says which (C42_left_out)."
  },
  {
   "property": "C97",
   "status": "partial",
   "theorems": [
    "Verif.Shower.C97_convert_partial",
    "Verif.Shower.C97_too_long",
    "Verif.Shower.C97_lengths"
   ],
   "note": "For every library with a charge for every depth: the conversion succeeds, the file is accepted, and the showers created from it are those of the library up to three roundings of the depths and one of the charges. Missing, because the code does not do it: charge lists of another length than the depths are not noticed and turn into other showers (counterexample), and the record of uninitialised memory at the end of the file must not be chosen (as in C83)."
  },
  {
   "property": "C98",
   "status": "partial",
   "theorems": [
    "Verif.Meep.C98_export_partial",
    "Verif.Meep.C98_whole_partial"
   ],
   "note": "Composition of C57, C60, C66, C42 and C49, for every schedule. Missing, because the code does not do it: samples exactly between two chunks (C42_far_face), samples next to the axis in the outermost cells in height or time (C32), storage domains next to the axis at no multiple of the downsampling factor (C60_axis_fails). Arithmetic is exact except for the rounding of stored numbers."
  },
  {
   "property": "C99",
   "status": "partial",
   "theorems": [
    "Verif.Plot.C99_still_partial",
    "Verif.Plot.C99_still_end",
    "Verif.Plot.C99_still_offset",
    "Verif.Plot.C99_annotation_partial",
    "Verif.Plot.C99_annotation_end",
    "Verif.Plot.C99_annotation_below",
    "Verif.Plot.C99_annotated",
    "Verif.Plot.C99_oversampled",
    "Verif.Plot.C99_absmax",
    "Verif.Plot.C99_animation_partial",
    "Verif.Plot.C99_label"
   ],
   "note": "Missing, because the scripts do not do it: stills at the end of the range raise IndexError (C99_still_end) and with times that do not begin at zero show another time (C99_still_offset); times written on frames are too early (C99_label); annotations at the end of a range raise IndexError, below it another sample is drawn (C99_annotation_end, C99_annotation_below); the annotated script changes a read-only array and always fails (C99_annotated)."
  },
  {
   "property": "C100",
   "status": "proved",
   "theorems": [
    "Verif.ND.C100_assign_value",
    "Verif.ND.C100_assign_value_empty",
    "Verif.ND.C100_construct_value",
    "Verif.ND.C100_resize_value",
    "Verif.ND.C100_empty_value_aborts",
    "Verif.ND.C100_view_refused",
    "Verif.ND.C100_fill_other_axis_throws",
    "Verif.ND.C100_clear",
    "Verif.ND.C100_resize_rows_kept",
    "Verif.ND.C100_resize_other_extent_moves"
   ],
   "note": ""
  },
  {
   "property": "C101",
   "status": "proved",
   "theorems": [
    "Verif.Dist.C101_apart",
    "Verif.Dist.C101_apart_conversely",
    "Verif.Dist.C101_right_answers",
    "Verif.Dist.step_loc"
   ],
   "note": "One call is one step: file operations inside a call are not interleaved. Subdirectories and links are not modelled."
  },
  {
   "property": "C102",
   "status": "proved",
   "theorems": [
    "Verif.Meep.C102_at_the_same_time",
    "Verif.Meep.C102_calculation",
    "Verif.Meep.C102_pipeline_partial"
   ],
   "note": "A step is one library call or one callback for one simulation chunk. C102_pipeline_partial goes beyond the property: up to the finished array, with the rechunking interleaved chunk by chunk as well; it has the hypothesis of C60 on the radial start"
  },
  {
   "property": "C103",
   "status": "partial",
   "theorems": [
    "Verif.Dist.C103_readers_partial",
    "Verif.Dist.C103_open_during_close_fails"
   ],
   "note": "Proved for interleavings of whole calls. During a call the code violates it: a program that closes a library, even if it only read, first empties the index file and then writes the same contents again (FlushIndex opens it with std::ios::out), and a program that opens the library in between fails (C103_open_during_close_fails)."
  }
 ]
}