{
 "claims": [
  {
   "property": "C01",
   "status": "partial",
   "theorems": [
    "Verif.Props.C01_nth",
    "Verif.Props.C01_valid",
    "Verif.Props.C01_invalid",
    "Verif.Props.C01_add",
    "Verif.Props.C01_sub",
    "Verif.Props.C01_mul",
    "Verif.Props.C01_div_partial",
    "Verif.Props.C01_div_neg_false"
   ],
   "note": "Division by a factor is proved for non-negative strides only (C01_div_partial); for negative strides the code's unsigned division is wrong, witness C01_div_neg_false."
  },
  {
   "property": "C02",
   "status": "partial",
   "theorems": [
    "Verif.Props.C02_sound",
    "Verif.Props.C02_complete_partial",
    "Verif.Props.C02_false"
   ],
   "note": "Equality implies set equality; the converse holds for length >= 2. For length 0 or 1 the code compares strides, witness C02_false."
  },
  {
   "property": "C03",
   "status": "partial",
   "theorems": [
    "Verif.Props.C03_intersect_partial",
    "Verif.Props.C03_intersectN_partial",
    "Verif.Props.C03_empty_false"
   ],
   "note": "For non-empty domains. The empty contiguous domain starting at 0 is mishandled (last() wraps), witness C03_empty_false."
  },
  {
   "property": "C04",
   "status": "proved",
   "theorems": [
    "Verif.Props.C04_applyIntr",
    "Verif.Props.C04_subsetFromIntr"
   ],
   "note": "apply_intr needs y contiguous, subset_from_intr needs intr to have dom's stride, as in all callers."
  },
  {
   "property": "C05",
   "status": "proved",
   "theorems": [
    "Verif.Trav.C05_traverse1",
    "Verif.Trav.C05_traverse2",
    "Verif.Trav.C05_traverse3"
   ],
   "note": "1-D, 2-D and 3-D, all dimension orders."
  },
  {
   "property": "C06",
   "status": "proved",
   "theorems": [
    "Verif.Props.C06_block"
   ],
   "note": "All extents, processor counts; wrap-free extents below 2^63."
  },
  {
   "property": "C07",
   "status": "proved",
   "theorems": [
    "Verif.Props.C07_cyclic"
   ],
   "note": ""
  },
  {
   "property": "C08",
   "status": "proved",
   "theorems": [
    "Verif.Props.C08_balanced",
    "Verif.Props.C08_size_counts"
   ],
   "note": ""
  },
  {
   "property": "C09",
   "status": "proved",
   "theorems": [
    "Verif.Props.C09_home",
    "Verif.Props.C09_no_ub"
   ],
   "note": ""
  },
  {
   "property": "C10",
   "status": "proved",
   "theorems": [
    "Verif.Props.C10_map",
    "Verif.Props.C10_replicated",
    "Verif.Props.C10_apply"
   ],
   "note": ""
  },
  {
   "property": "C11",
   "status": "partial",
   "theorems": [
    "Verif.Props.C11_tensor_0",
    "Verif.Props.C11_tensor_1_partial",
    "Verif.Props.C11_tensor_2_partial",
    "Verif.Props.C11_row",
    "Verif.Props.C11_col_partial",
    "Verif.Props.C11_tensor_01",
    "Verif.Props.C11_tensor_02_partial",
    "Verif.Props.C11_tensor_12_partial",
    "Verif.Props.C11_col_types_false",
    "Verif.Props.C11_replicated_false",
    "Verif.Props.C11_replicated_partial"
   ],
   "note": ""
  },
  {
   "property": "C12",
   "status": "partial",
   "theorems": [
    "Verif.Props.C12_subset_partial",
    "Verif.Props.C12_extent_false",
    "Verif.Props.C12_empty_false"
   ],
   "note": "Non-empty unit-stride sub-domains. The empty sub-domain is mishandled (C12_empty_false) and the code's extent is not checked against the sub-domain (C12_extent_false)."
  },
  {
   "property": "C13",
   "status": "proved",
   "theorems": [
    "Verif.Props.C13_beq",
    "Verif.Props.C13_equiv"
   ],
   "note": ""
  },
  {
   "property": "C14",
   "status": "proved",
   "theorems": [
    "Verif.Props.C14_map",
    "Verif.Props.C14_replicated"
   ],
   "note": "For Map (one processor per subblock) and Replicated_map. put and get are executed by all processes; the broadcast delivers the root's value to all."
  },
  {
   "property": "C15",
   "status": "partial",
   "theorems": [
    "Verif.Props.C15_chained_partial",
    "Verif.Props.C15_maps_partial",
    "Verif.Props.C15_replicate_partial",
    "Verif.Props.C15_complex_false"
   ],
   "note": "Chained assignment between any two maps that partition the space into contiguous patches, every interleaving, eager and synchronous sends; instances for Map and Replicated_map. Partial: one chain unit per element. For interleaved complex data the claim is false (C15_complex_false). Sides are assumed not to share storage; 32-bit stride/length of Chain_builder::add not modelled."
  },
  {
   "property": "C16",
   "status": "proved",
   "theorems": [
    "Verif.Props.C16_matched",
    "Verif.Props.C16_completes"
   ],
   "note": "Message lists match pairwise, no self sends, no deadlock under either buffering behaviour, and every step decreases the remaining work."
  },
  {
   "property": "C17",
   "status": "proved",
   "theorems": [
    "Verif.Props.C17_blkvec",
    "Verif.Props.C17_block_maps"
   ],
   "note": "One dimension, one patch per subblock, unit data stride (the preconditions of the strategy)."
  },
  {
   "property": "C18",
   "status": "proved",
   "theorems": [
    "Verif.Props.C18_process",
    "Verif.Props.C18_process_replicated",
    "Verif.Props.C18_all"
   ],
   "note": "Map and Replicated_map, 1-3 dimensions."
  },
  {
   "property": "C19",
   "status": "partial",
   "theorems": [
    "Verif.Props.C19_dense1",
    "Verif.Props.C19_dense2row",
    "Verif.Props.C19_dense2col",
    "Verif.Props.C19_dense3",
    "Verif.Props.C19_aligned2row",
    "Verif.Props.C19_aligned2col_partial",
    "Verif.Props.C19_aligned2col_sizes_false",
    "Verif.Props.C19_aligned3",
    "Verif.Props.C19_empty_aligned_false"
   ],
   "note": "False of the two-size constructor of aligned column-major layouts (pads the wrong dimension) and of aligned 2-D layouts with no rows (total size wraps)."
  },
  {
   "property": "C20",
   "status": "partial",
   "theorems": [
    "Verif.Props.C20_rows",
    "Verif.Props.C20_cols_partial",
    "Verif.Props.C20_ctor_false",
    "Verif.Props.C20_lines3"
   ],
   "note": "False of the two-size constructor of aligned column-major layouts."
  },
  {
   "property": "C21",
   "status": "partial",
   "theorems": [
    "Verif.Props.C21_one",
    "Verif.Props.C21_dense2",
    "Verif.Props.C21_dense3",
    "Verif.Props.C21_aligned2_partial",
    "Verif.Props.C21_aligned3_partial",
    "Verif.Props.C21_total_false",
    "Verif.Props.C21_512_false",
    "Verif.Props.C21_bytes_false"
   ],
   "note": "Agreement fails for total_size of aligned 2-D layouts, for aligned_512 and for element types larger than a byte (bytes versus elements); the theorems state exactly which part agrees."
  },
  {
   "property": "C22",
   "status": "proved",
   "theorems": [
    "Verif.Props.C22_address"
   ],
   "note": "Pointer arithmetic in unbounded integers; no_index slices of distributed views not modelled."
  },
  {
   "property": "C23",
   "status": "proved",
   "theorems": [
    "Verif.Props.C23_in_range",
    "Verif.Props.C23_put_get",
    "Verif.Props.C23_stored",
    "Verif.Props.C23_diag_exact",
    "Verif.Props.C23_diag_unchecked_false"
   ],
   "note": "Construction preconditions are hypotheses; the diagonal view checks none and C23_diag_unchecked_false shows what happens without."
  },
  {
   "property": "C24",
   "status": "partial",
   "theorems": [
    "Verif.Props.C24_transposed",
    "Verif.Props.C24_sliced",
    "Verif.Props.C24_permuted_false",
    "Verif.Props.C24_permuted_partial",
    "Verif.Props.C24_exchange_partial",
    "Verif.Props.C24_dense"
   ],
   "note": "Permute_order is wrong for the two cyclic permutations (C24_permuted_false); C24_permuted_partial says exactly when it is right."
  },
  {
   "property": "C25",
   "status": "proved",
   "theorems": [
    "Verif.Props.C25_put",
    "Verif.Props.C25_lens",
    "Verif.Props.C25_history"
   ],
   "note": ""
  },
  {
   "property": "C26",
   "status": "proved",
   "theorems": [
    "Verif.Props.C26_unit",
    "Verif.Props.C26_dense1",
    "Verif.Props.C26_dense2",
    "Verif.Props.C26_dense3",
    "Verif.Props.C26_aligned2",
    "Verif.Props.C26_aligned3"
   ],
   "note": "is_compatible of direct data access against dense and aligned layouts in 1-3 dimensions."
  },
  {
   "property": "C27",
   "status": "proved",
   "theorems": [
    "Verif.Props.C27_sync_in",
    "Verif.Props.C27_destroy",
    "Verif.Props.C27_sync_out",
    "Verif.Props.C27_input_only",
    "Verif.Props.C27_end_to_end",
    "Verif.Props.C27_untouched",
    "Verif.Props.C27_remote_size_false"
   ],
   "note": "Copy accessors: sync-in, sync-out, destruction and end-to-end effect; the remote accessor's buffer size defect is C27_remote_size_false."
  },
  {
   "property": "C28",
   "status": "partial",
   "theorems": [
    "Verif.Props.C28_disjoint_partial",
    "Verif.Props.C28_inplace_partial",
    "Verif.Props.C28_fallback_false",
    "Verif.Props.C28_same_ptr_false",
    "Verif.Props.C28_vector"
   ],
   "note": "Matrix copy: the generic fallback and the same-pointer shortcut are refuted (C28_fallback_false, C28_same_ptr_false); partial theorems cover disjoint operands and the in-place square transpose."
  },
  {
   "property": "C29",
   "status": "proved",
   "theorems": [
    "Verif.Props.C29_assign",
    "Verif.Props.C29_all_orders"
   ],
   "note": "All nine loop nests, arbitrary expression trees including cached non-elementwise nodes."
  },
  {
   "property": "C30",
   "status": "proved",
   "theorems": [
    "Verif.Props.C30_first"
   ],
   "note": ""
  },
  {
   "property": "C31",
   "status": "partial",
   "theorems": [
    "Verif.Props.C31_data_size",
    "Verif.Props.C31_buffer",
    "Verif.Props.C31_chains_partial",
    "Verif.Props.C31_empty_record_false",
    "Verif.Props.C31_no_record_false"
   ],
   "note": "Buffer copy is complete; chain-to-chain copy is false for empty records and empty chains (C31_empty_record_false, C31_no_record_false)."
  },
  {
   "property": "C32",
   "status": "proved",
   "theorems": [
    "Verif.Props.C32_stream",
    "Verif.Props.C32_interleave",
    "Verif.Props.C32_partition"
   ],
   "note": "Exact integer streams over ZMod 2^32; conversions to floating point are C35."
  },
  {
   "property": "C33",
   "status": "proved",
   "theorems": [
    "Verif.Props.C33_main",
    "Verif.Props.C33_second",
    "Verif.Props.C33_stream",
    "Verif.Props.C33_portable"
   ],
   "note": "Main and second generators as linear congruential sequences; full period."
  },
  {
   "property": "C34",
   "status": "proved",
   "theorems": [
    "Verif.Props.C34_skip",
    "Verif.Props.C34_guard",
    "Verif.Props.C34_portable_state",
    "Verif.Props.C34_portable_draw"
   ],
   "note": ""
  },
  {
   "property": "C35",
   "status": "partial",
   "theorems": [
    "Verif.Props.C35_fill",
    "Verif.Props.C35_row_partial",
    "Verif.Props.C35_colmajor_false",
    "Verif.Props.C35_randn",
    "Verif.Props.C35_randu_complex",
    "Verif.Props.C35_randn_complex",
    "Verif.Props.C35_range_double",
    "Verif.Props.C35_range_float_false",
    "Verif.Props.C35_range_float_partial"
   ],
   "note": "False of column-major destinations (C35_colmajor_false) and of the half-open range for float (C35_range_float_false); proved for row-major order and for double."
  },
  {
   "property": "C36",
   "status": "proved",
   "theorems": [
    "Verif.Props.C36_frames",
    "Verif.Props.C36_bounds"
   ],
   "note": "Over any semiring; rounding not modelled."
  },
  {
   "property": "C37",
   "status": "proved",
   "theorems": [
    "Verif.Props.C37_memoryless",
    "Verif.Props.C37_reset"
   ],
   "note": ""
  },
  {
   "property": "C38",
   "status": "proved",
   "theorems": [
    "Verif.Props.C38_frames",
    "Verif.Props.C38_no_save",
    "Verif.Props.C38_cascade",
    "Verif.Props.C38_cascade_nil",
    "Verif.Props.C38_difference"
   ],
   "note": "Over any ring; rounding not modelled."
  },
  {
   "property": "C39",
   "status": "partial",
   "theorems": [
    "Verif.Props.C39_one_bin",
    "Verif.Props.C39_call_vector",
    "Verif.Props.C39_call_matrix",
    "Verif.Props.C39_accumulate",
    "Verif.Props.C39_integer_false",
    "Verif.Props.C39_integer_partial"
   ],
   "note": "Over any ordered field with floor; false for integer element types (C39_integer_false), which are proved when the range is a multiple of the number of intervals."
  },
  {
   "property": "C40",
   "status": "partial",
   "theorems": [
    "Verif.Props.C40_vector",
    "Verif.Props.C40_vector_inplace",
    "Verif.Props.C40_empty_false",
    "Verif.Props.C40_matrix_inplace",
    "Verif.Props.C40_matrix",
    "Verif.Props.C40_involution",
    "Verif.Props.C40_involution_matrix",
    "Verif.Props.C40_axis_rows",
    "Verif.Props.C40_axis_cols_false",
    "Verif.Props.C40_axis_cols_partial"
   ],
   "note": "One-axis swap along columns is false for non-square matrices (C40_axis_cols_false); empty vectors read element 0 (C40_empty_false)."
  },
  {
   "property": "C41",
   "status": "partial",
   "theorems": [
    "Verif.Props.C41_size",
    "Verif.Props.C41_min_size_false",
    "Verif.Props.C41_kernel_size2_false",
    "Verif.Props.C41_kernel_size_partial",
    "Verif.Props.C41_kernel",
    "Verif.Props.C41_kernel_matrix",
    "Verif.Props.C41_values",
    "Verif.Props.C41_values_matrix"
   ],
   "note": "1-D and 2-D, all supports, symmetries and decimations; the output size wraps when a symmetric kernel exceeds the input (C41_min_size_false)."
  },
  {
   "property": "C42",
   "status": "proved",
   "theorems": [
    "Verif.Props.C42_values",
    "Verif.Props.C42_values_matrix",
    "Verif.Props.C42_size",
    "Verif.Props.C42_outputs"
   ],
   "note": "1-D and 2-D, all supports; the code conjugates the input, not the reference."
  },
  {
   "property": "C43",
   "status": "partial",
   "theorems": [
    "Verif.Props.C43_unbiased_partial",
    "Verif.Props.C43_same_false",
    "Verif.Props.C43_unbiased_matrix"
   ],
   "note": "2-D complete; 1-D same support divides by the wrong number at the end of the output for even reference sizes (C43_same_false)."
  },
  {
   "property": "C44",
   "status": "proved",
   "theorems": [
    "Verif.Props.C44_vector",
    "Verif.Props.C44_matrix"
   ],
   "note": "Vectors and matrices of any size; count, stored indices in order, untouched rest."
  },
  {
   "property": "C45",
   "status": "proved",
   "theorems": [
    "Verif.Props.C45_first"
   ],
   "note": "Least index at or after begin satisfying the predicate, or the size; begin when beyond the end."
  },
  {
   "property": "C46",
   "status": "proved",
   "theorems": [
    "Verif.Props.C46_gather",
    "Verif.Props.C46_scatter",
    "Verif.Props.C46_inverse"
   ],
   "note": "gather, scatter (last write wins, untouched elsewhere) and their inverse law; index type of any dimension."
  },
  {
   "property": "C47",
   "status": "partial",
   "theorems": [
    "Verif.Props.C47_clip",
    "Verif.Props.C47_invclip",
    "Verif.Props.C47_swap",
    "Verif.Props.C47_swap_matrix_partial",
    "Verif.Props.C47_swap_order_false",
    "Verif.Props.C47_ramp"
   ],
   "note": "clip and invclip in all cases over a linear order; swap of vectors and of dense matrices of the same dimension order. False for matrices of different dimension order (linear one-index access is the storage offset): C47_swap_order_false."
  },
  {
   "property": "C48",
   "status": "partial",
   "theorems": [
    "Verif.Props.C48_sum",
    "Verif.Props.C48_sum_bool",
    "Verif.Props.C48_sumsq",
    "Verif.Props.C48_summagsq",
    "Verif.Props.C48_mean",
    "Verif.Props.C48_meansq",
    "Verif.Props.C48_alltrue_bool",
    "Verif.Props.C48_anytrue_bool",
    "Verif.Props.C48_alltrue_bits",
    "Verif.Props.C48_anytrue_bits",
    "Verif.Props.C48_vector_sum_partial",
    "Verif.Props.C48_vector_sumsq_partial",
    "Verif.Props.C48_vector_mean_partial",
    "Verif.Props.C48_vector_meansq_partial",
    "Verif.Props.C48_stride_false",
    "Verif.Props.C48_meansq_complex_false"
   ],
   "note": "All functors, 1/2/3-D, all dimension orders. The branch for long single-precision vectors ignores the stride (C48_stride_false) and sums z*z instead of |z|^2 for complex meansqval (C48_meansq_complex_false); proved for unit stride / real. Rounding not modelled."
  },
  {
   "property": "C49",
   "status": "proved",
   "theorems": [
    "Verif.Props.C49_extremum",
    "Verif.Props.C49_empty_reads"
   ],
   "note": "All loop orders; first in traversal order; C49_empty_reads shows the read of element 0 of an empty view."
  },
  {
   "property": "C50",
   "status": "partial",
   "theorems": [
    "Verif.Props.C50_gemp_partial",
    "Verif.Props.C50_gemp_false",
    "Verif.Props.C50_gems",
    "Verif.Props.C50_outer_partial",
    "Verif.Props.C50_outer_false",
    "Verif.Props.C50_kron_vectors",
    "Verif.Props.C50_kron_matrices_partial",
    "Verif.Props.C50_kron_false",
    "Verif.Props.C50_dot",
    "Verif.Props.C50_cvjdot"
   ],
   "note": "gems, kron of vectors, dot, cvjdot complete. gemp and kron of matrices when the type of alpha holds the products: with a narrower alpha (int) the intermediate is truncated (C50_gemp_false, C50_kron_false). outer conjugates by the type of alpha: C50_outer_false for real alpha and v with complex w. Rounding not modelled."
  },
  {
   "property": "C51",
   "status": "proved",
   "theorems": [
    "Verif.Props.C51_vector",
    "Verif.Props.C51_vector_inplace",
    "Verif.Props.C51_matrix",
    "Verif.Props.C51_matrix_inplace"
   ],
   "note": "Vectors and matrices, both dimensions, separate and in place. Rounding not modelled."
  },
  {
   "property": "C52",
   "status": "proved",
   "theorems": [
    "Verif.Props.C52_frames",
    "Verif.Props.C52_any_cut"
   ],
   "note": "Any list of frames; exact arithmetic of the phase."
  },
  {
   "property": "C53",
   "status": "partial",
   "theorems": [
    "Verif.Props.C53_history",
    "Verif.Props.C53_frame",
    "Verif.Props.C53_release_released",
    "Verif.Props.C53_release_false",
    "Verif.Props.C53_admit_null_false"
   ],
   "note": "Histories of any length from a user-storage constructor, over an explicit heap with allocation. The claim needs user storage: release(true) of a block without it, and admit(true) after a null pointer, fail (negations). Data are unspecified after a change of ownership without update."
  },
  {
   "property": "C54",
   "status": "proved",
   "theorems": [
    "Verif.Props.C54_independent",
    "Verif.Props.C54_roundtrip"
   ],
   "note": "User and host formats (array, interleaved, split); any_storage_format not modelled (see DESIGN)."
  },
  {
   "property": "C55",
   "status": "partial",
   "theorems": [
    "Verif.Props.C55_history_partial",
    "Verif.Props.C55_reference_false",
    "Verif.Props.C55_admit_false",
    "Verif.Props.C55_release_false"
   ],
   "note": "Host/device copies of one block. Partial: proved for histories that go through the access functions; false for at() writes, for user storage after admit, and for release (device not read back)."
  },
  {
   "property": "C56",
   "status": "partial",
   "theorems": [
    "Verif.Props.C56_history_partial",
    "Verif.Props.C56_once_partial",
    "Verif.Props.C56_null_false",
    "Verif.Props.C56_member_false",
    "Verif.Props.C56_reset_false",
    "Verif.Props.C56_overflow_false"
   ],
   "note": "Intrusive and non-intrusive handles as histories of counted operations. Partial: counts stay below 2^32 and the four listed misuses are excluded; each is shown to fail."
  },
  {
   "property": "C57",
   "status": "partial",
   "theorems": [
    "Verif.Props.C57_serial_partial",
    "Verif.Props.C57_interleaved_partial",
    "Verif.Props.C57_end_partial",
    "Verif.Props.C57_race_init_false",
    "Verif.Props.C57_race_fin_false",
    "Verif.Props.C57_allocator_false",
    "Verif.Props.C57_mpi_again_false"
   ],
   "note": "Partial: proved for calls that run one at a time (no MPI, any number of sessions), and for every interleaving while one thread holds an object (with or without MPI). False for the first/last two objects made or destroyed concurrently, for a second session under MPI, and the default allocator is not finalised without MPI."
  },
  {
   "property": "C58",
   "status": "partial",
   "theorems": [
    "Verif.Props.C58_history_partial",
    "Verif.Props.C58_data_partial",
    "Verif.Props.C58_join_false",
    "Verif.Props.C58_end_false",
    "Verif.Props.C58_link_false",
    "Verif.Props.C58_wrap_false",
    "Verif.Props.C58_inside"
   ],
   "note": "Free list modelled as words in the pool, with program stores. Partial: proved for histories in which a block is given back only while some byte above it is free, and only next to a free block of its own size on its lower side. False otherwise: joining downwards counts the wrong size; giving back above the last free block drops the list or follows program data; requests near 2^64 wrap."
  },
  {
   "property": "C59",
   "status": "partial",
   "theorems": [
    "Verif.Props.C59_align",
    "Verif.Props.C59_allocator",
    "Verif.Props.C59_wrap_false",
    "Verif.Props.C59_count_false",
    "Verif.Props.C59_power_false",
    "Verif.Props.C59_owner"
   ],
   "note": "align_array pointer arithmetic, aligned_allocator and the owning array class. The allocator theorems carry the size hypotheses the code needs; without them the three _false theorems give a request whose size wraps, a count whose byte size wraps, and an alignment that is not a power of two."
  },
  {
   "property": "C60",
   "status": "partial",
   "theorems": [
    "Verif.Props.C60_codes",
    "Verif.Props.C60_types",
    "Verif.Props.C60_dims_partial",
    "Verif.Props.C60_accept_1",
    "Verif.Props.C60_accept_2row",
    "Verif.Props.C60_accept_2col",
    "Verif.Props.C60_accept_3_partial",
    "Verif.Props.C60_own_1",
    "Verif.Props.C60_own_2row",
    "Verif.Props.C60_own_2col",
    "Verif.Props.C60_own_3",
    "Verif.Props.C60_storage",
    "Verif.Props.C60_dims_false",
    "Verif.Props.C60_storage_false",
    "Verif.Props.C60_stride_false",
    "Verif.Props.C60_format_false"
   ],
   "note": "Partial: descriptors of integral types compare no dimensions and 3-D acceptance does not look at the middle stride; both are refuted with witnesses. Proved: type codes, acceptance exactly when written with the same layout in 1-D and 2-D, and every writer's own descriptor is accepted. Own descriptors: the storage size is exact (C60_storage); describe_data of a strided view records too small a storage size (C60_storage_false)."
  },
  {
   "property": "C61",
   "status": "partial",
   "theorems": [
    "Verif.Props.C61_in_place",
    "Verif.Props.C61_out_of_place",
    "Verif.Props.C61_real_forward",
    "Verif.Props.C61_real_inverse",
    "Verif.Props.C61_2d",
    "Verif.Props.C61_2d_real_forward",
    "Verif.Props.C61_2d_real_inverse",
    "Verif.Props.C61_3d",
    "Verif.Props.C61_3d_real_forward",
    "Verif.Props.C61_3d_real_inverse",
    "Verif.Props.C61_inverse",
    "Verif.Props.C61_2d_inverse",
    "Verif.Props.C61_3d_inverse",
    "Verif.Props.C61_real_round_trip",
    "Verif.Props.C61_2d_real_round_trip",
    "Verif.Props.C61_3d_real_round_trip",
    "Verif.Props.C61_lines",
    "Verif.Props.C61_lines_real",
    "Verif.Props.C61_split",
    "Verif.Props.C61_offset_partial",
    "Verif.Props.C61_offset_false"
   ],
   "note": "All overloads over exact real/complex numbers and a memory of addressed cells: complex 1-D in and out of place, real forward and inverse with half spectra, 2-D and 3-D, lines of dftm; each is the discrete Fourier transform of the specification (sum over roots of unity), scaled as asked, and writes nothing outside its result. Round trips proved. Split-complex modelled in 1-D; for larger split arrays only the offset arithmetic: offset() takes int, proved right below 2^31 and refuted above."
  },
  {
   "property": "C62",
   "status": "partial",
   "theorems": [
    "Verif.Props.C62_solves_partial",
    "Verif.Props.C62_definite_partial",
    "Verif.Props.C62_one_false",
    "Verif.Props.C62_zero_false"
   ],
   "note": "Toeplitz solver over a star field: if no division by zero occurs and no decomposition error is raised, the returned x solves T x = b for n >= 2; positive definite systems never divide by zero. Refuted: n = 1 reads an empty view; a zero diagonal divides by zero without being reported."
  },
  {
   "property": "C63",
   "status": "partial",
   "theorems": [
    "Verif.Props.C63_eval",
    "Verif.Props.C63_in_place",
    "Verif.Props.C63_elements",
    "Verif.Props.C63_strategy",
    "Verif.Props.C63_parallel",
    "Verif.Props.C63_parallel_owner",
    "Verif.Props.C63_short_false",
    "Verif.Props.C63_case2_false",
    "Verif.Props.C63_alias_false"
   ],
   "note": "Both evaluation strategies, both dimension orders, matrix distinct or in place; local products under has_same_map equal the part of the global product held there, on the right processors. Refuted: a short vector is read past its end (no size check), the documented case-2 mapping is rejected for column vectors, and a vector that is a row of the destination is overwritten while needed."
  },
  {
   "property": "C64",
   "status": "partial",
   "theorems": [
    "Verif.Props.C64_gemp_partial",
    "Verif.Props.C64_prod_partial",
    "Verif.Props.C64_matvec_partial",
    "Verif.Props.C64_vecmat_partial",
    "Verif.Props.C64_gemp_accepted_partial",
    "Verif.Props.C64_matvec_accepted_partial",
    "Verif.Props.C64_vecmat_accepted_partial",
    "Verif.Props.C64_outer_partial",
    "Verif.Props.C64_outer_complex_partial",
    "Verif.Props.C64_dot_partial",
    "Verif.Props.C64_dotc_partial",
    "Verif.Props.C64_result_stride_false",
    "Verif.Props.C64_submatrix_false",
    "Verif.Props.C64_submatrix_vecmat_false",
    "Verif.Props.C64_outer_gap_false",
    "Verif.Props.C64_reversed_false",
    "Verif.Props.C64_negative_false",
    "Verif.Props.C64_empty_false",
    "Verif.Props.C64_double_false",
    "Verif.Props.C64_long_false",
    "Verif.Props.C64_outer_arguments"
   ],
   "note": "BLAS by its definition (argument checks, elements read and written), evaluators and wrappers modelled. Proved for views with adjacent minor elements and positive strides fitting an int: gemp, prod (mm, mv, vm), outer real and complex, dot and dotc (either stride sign), with frame conditions. Refuted: result views with non-unit minor stride, submatrices in mv/vm/outer (sizes passed as leading dimension), reversed operands, empty inner dimensions, complex<double> dot through float, sizes of 2^32."
  },
  {
   "property": "C65",
   "status": "partial",
   "theorems": [
    "Verif.Props.C65_lu_ok",
    "Verif.Props.C65_lu",
    "Verif.Props.C65_chol",
    "Verif.Props.C65_rsol",
    "Verif.Props.C65_covsol",
    "Verif.Props.C65_lsqsol",
    "Verif.Props.C65_least",
    "Verif.Props.C65_prodq_size",
    "Verif.Props.C65_prodq_saveq",
    "Verif.Props.C65_prodq_partial",
    "Verif.Props.C65_prodq_false",
    "Verif.Props.C65_rank_false",
    "Verif.Props.C65_singular_false",
    "Verif.Props.C65_triangle"
   ],
   "note": "LAPACK factorisations are parameters with their documented contract; trsm, getrs, potrs, mqr by definition. Proved: LU success iff invertible, op(A)X=B for all ops; Cholesky both triangles; rsol, covsol, lsqsol with normal equations and minimal residual (RCLike); prodq with the full Q and two of the four products with the skinny Q. Refuted: skinny Q1*B and B*Q1^H read outside of the temporary; rank deficiency and singular matrices are not reported by solve."
  },
  {
   "property": "C66",
   "status": "partial",
   "theorems": [
    "Verif.Props.C66_blackman",
    "Verif.Props.C66_hanning_partial",
    "Verif.Props.C66_hanning_false",
    "Verif.Props.C66_I0",
    "Verif.Props.C66_bessel_partial",
    "Verif.Props.C66_bessel_poly_partial",
    "Verif.Props.C66_bessel_false",
    "Verif.Props.C66_kaiser_partial",
    "Verif.Props.C66_cheby",
    "Verif.Props.C66_ripple"
   ],
   "note": "Real and complex numbers, exact <cmath>; the FFT by its definition. Proved: Blackman values, symmetry, range; Hanning below 2^32 elements; Bessel iteration ends and is right to 1e-8 beyond 3, polynomial right to 2e-4 up to 3; Kaiser ends, symmetric, within 2e-4 of the definition; cheby is the Dolph-Chebyshev window for every length and ripple, never divides by zero. Refuted: hanning with 2^32 elements or more never ends; bessel_I_0 is off by 1.8e-4 at 3 where 1.6e-7 is claimed (coefficients of J_0)."
  },
  {
   "property": "C67",
   "status": "partial",
   "theorems": [
    "Verif.Props.C67_complex_partial",
    "Verif.Props.C67_in_place_partial",
    "Verif.Props.C67_real_forward_partial",
    "Verif.Props.C67_real_inverse_partial",
    "Verif.Props.C67_lines_partial",
    "Verif.Props.C67_lines_in_place_partial",
    "Verif.Props.C67_lines_forward_partial",
    "Verif.Props.C67_lines_inverse_partial",
    "Verif.Props.C67_buffers_partial",
    "Verif.Props.C67_lines_buffers_partial",
    "Verif.Props.C67_int_false",
    "Verif.Props.C67_split_sep_false",
    "Verif.Props.C67_split_rows_false",
    "Verif.Props.C67_rows",
    "Verif.Props.C67_exchange",
    "Verif.Props.C67_rigor",
    "Verif.Props.C67_split_buffer"
   ],
   "note": "FFTW is any executor that keeps what its manual promises (structure Lib, shown inhabited); exact complex numbers; interleaved storage. Proved below 2^31 elements: all transforms of fft (1 to 3 dimensions, any axis) and fftm, in and out of place, with scaling, input preserved, buffers large enough, alignment promises kept; exchanging real and imaginary parts gives the inverse. Refuted: sizes and strides are narrowed to int; split inverse transforms break FFTW's separation rule; aligned split rows are not aligned with an alignment of 16."
  },
  {
   "property": "C68",
   "status": "partial",
   "theorems": [
    "Verif.Props.C68_decompose",
    "Verif.Props.C68_failure_false",
    "Verif.Props.C68_products",
    "Verif.Props.C68_columns",
    "Verif.Props.C68_u_partial",
    "Verif.Props.C68_u_false",
    "Verif.Props.C68_nos",
    "Verif.Props.C68_bidiagonal"
   ],
   "note": "gebrd, orgbr/ungbr and bdsqr are assumed to do what LAPACK documents; exact real or complex numbers; sizes below 2^31. Proved for all sizes and storage kinds: decomposition, products, columns. Refuted: the check of u and v by value is off by one; failure to converge aborts instead of being reported."
  },
  {
   "property": "C69",
   "status": "partial",
   "theorems": [
    "Verif.Props.C69_sizes",
    "Verif.Props.C69_domain_false",
    "Verif.Props.C69_power",
    "Verif.Props.C69_power_false",
    "Verif.Props.C69_local",
    "Verif.Props.C69_fftm_real_false",
    "Verif.Props.C69_stable",
    "Verif.Props.C69_by_value_partial",
    "Verif.Props.C69_deferred_false",
    "Verif.Props.C69_assign_partial",
    "Verif.Props.C69_alias_false",
    "Verif.Props.C69_blocks_partial"
   ],
   "note": "Sizes and local sizes for all domains; programs of any length over views with caches. Refuted: domains keep first index and stride; is_power_of_two narrows to 32 bits; distributed real Fftm by reference is always rejected; results are computed at the first look instead of at the call and copies may differ; x = fft(x) runs the out of place transform in place (exact error for the default transform)."
  },
  {
   "property": "C70",
   "status": "partial",
   "theorems": [
    "Verif.Props.C70_slice",
    "Verif.Props.C70_zero_step_false",
    "Verif.Props.C70_large_step_false",
    "Verif.Props.C70_slice2_partial",
    "Verif.Props.C70_reversed_false",
    "Verif.Props.C70_row_partial",
    "Verif.Props.C70_col_partial",
    "Verif.Props.C70_diag_partial",
    "Verif.Props.C70_row_false",
    "Verif.Props.C70_col_false",
    "Verif.Props.C70_row_range_false",
    "Verif.Props.C70_row_slice_partial",
    "Verif.Props.C70_ref_partial",
    "Verif.Props.C70_ref_false",
    "Verif.Props.C70_setitem_partial",
    "Verif.Props.C70_overlap_false",
    "Verif.Props.C70_component",
    "Verif.Props.C70_component_partial",
    "Verif.Props.C70_component_false",
    "Verif.Props.C70_component_copy",
    "Verif.Props.C70_array",
    "Verif.Props.C70_lifetime_partial",
    "Verif.Props.C70_lifetime_false",
    "Verif.Props.C70_value_partial",
    "Verif.Props.C70_zero_false",
    "Verif.Props.C70_size_partial",
    "Verif.Props.C70_size_false",
    "Verif.Props.C70_str_partial",
    "Verif.Props.C70_str_false",
    "Verif.Props.C70_first"
   ],
   "note": "Slices of vectors for all starts, stops, steps and chains of slices; matrices with columns in order; rows, columns and diagonals of matrices at the start of their storage; assignment to slices without shared elements; components one by one; arrays; first(). Refuted: zero step, steps near 2^64, slices of reversed matrices, rows, columns and diagonals of submatrices, rows out of range, ref on strided vectors, overlapping slice assignment, components as a whole, arrays outliving their block, zero as initial value, size of empty matrices, printing empty vectors."
  },
  {
   "property": "C71",
   "status": "partial",
   "theorems": [
    "Verif.Props.C71_spotlight_partial",
    "Verif.Props.C71_odd_false",
    "Verif.Props.C71_wavenumber",
    "Verif.Props.C71_grid",
    "Verif.Props.C71_index",
    "Verif.Props.C71_image_partial",
    "Verif.Props.C71_variants_partial",
    "Verif.Props.C71_ref_false",
    "Verif.Props.C71_uninitialised_false",
    "Verif.Props.C71_compare_partial",
    "Verif.Props.C71_compare_false"
   ],
   "note": "Even sizes, any echo and buffers: spectrum, grid, indices, image; the variants agree for square sizes; greatest error of numeric images. Refuted: odd numbers of pulses leave an element unset; the shifted reference (freqswap along columns) accesses outside for tall and stays unset for wide sizes; pixels that are not numbers are not reported. Exact arithmetic."
  },
  {
   "property": "C72",
   "status": "partial",
   "theorems": [
    "Verif.Props.C72_read_partial",
    "Verif.Props.C72_odd_false",
    "Verif.Props.C72_order_false",
    "Verif.Props.C72_frame_false",
    "Verif.Props.C72_bits_false",
    "Verif.Props.C72_end_false",
    "Verif.Props.C72_short_false",
    "Verif.Props.C72_safe",
    "Verif.Props.C72_roundtrip_partial",
    "Verif.Props.C72_riff_false",
    "Verif.Props.C72_channels_false",
    "Verif.Props.C72_size_false",
    "Verif.Props.C72_swap_false",
    "Verif.Props.C72_swap_all",
    "Verif.Props.C72_twice_false"
   ],
   "note": "Files with the format first, any chunks of even size before the data, whole frames; reading what was written; bounds for arbitrary bytes. Refuted: odd chunks, chunks before the format, incomplete frames, sample sizes not whole bytes, missing data (does not end), short files, the RIFF size, more than four channels, sizes from 2^32, byte order, 16 bit samples written twice."
  },
  {
   "property": "C73",
   "status": "partial",
   "theorems": [
    "Verif.Props.C73_encode_partial",
    "Verif.Props.C73_decode_partial",
    "Verif.Props.C73_roundtrip_partial",
    "Verif.Props.C73_shape_false",
    "Verif.Props.C73_large_false",
    "Verif.Props.C73_sixteen_false",
    "Verif.Props.C73_dataset",
    "Verif.Props.C73_size",
    "Verif.Props.C73_extent_false",
    "Verif.Props.C73_status_false",
    "Verif.Props.C73_handles_partial",
    "Verif.Props.C73_copy_false",
    "Verif.Props.C73_types_false",
    "Verif.Props.C73_gray_partial",
    "Verif.Props.C73_gray_ub",
    "Verif.Props.C73_gray_false"
   ],
   "note": "Images up to 2^32 bytes, written in every shape, read if square; data sets of any number of dimensions; wrong sizes throw; handles of objects that are not copied; grey levels in exact arithmetic. Refuted: reading other shapes, images over 2^32 bytes, samples of 16 bits, query_extent of more dimensions, status of H5Dread, copies of dataset, type handles, ranges over 2^120."
  },
  {
   "property": "C74",
   "status": "partial",
   "theorems": [
    "Verif.Props.C74_view_partial",
    "Verif.Props.C74_mview_partial",
    "Verif.Props.C74_dense",
    "Verif.Props.C74_reversed_false",
    "Verif.Props.C74_empty_false",
    "Verif.Props.C74_owner",
    "Verif.Props.C74_leak_false",
    "Verif.Props.C74_enum_partial",
    "Verif.Props.C74_hint_false",
    "Verif.Props.C74_conj_false",
    "Verif.Props.C74_dot_partial",
    "Verif.Props.C74_split_false",
    "Verif.Props.C74_prod_partial",
    "Verif.Props.C74_fir_partial",
    "Verif.Props.C74_fir_false",
    "Verif.Props.C74_fftm_partial",
    "Verif.Props.C74_stride_false",
    "Verif.Props.C74_inplace",
    "Verif.Props.C74_real_false",
    "Verif.Props.C74_conv_partial",
    "Verif.Props.C74_fix_false",
    "Verif.Props.C74_solve_partial",
    "Verif.Props.C74_copy_false",
    "Verif.Props.C74_status_false",
    "Verif.Props.C74_refused_false",
    "Verif.Props.C74_prodq_partial",
    "Verif.Props.C74_herm_false",
    "Verif.Props.C74_outside_false",
    "Verif.Props.C74_return_false"
   ],
   "note": "Proved for strides that are not negative, interleaved storage or stride 1, outputs not shorter than the corrected part and successful decompositions; refuted for reversed and empty views, split storage, real transforms, algorithm hints, few outputs, copies of solvers, statuses and products with Q."
  },
  {
   "property": "C75",
   "status": "partial",
   "theorems": [
    "Verif.Props.C75_assign_partial",
    "Verif.Props.C75_assoc",
    "Verif.Props.C75_functions",
    "Verif.Props.C75_alias_false",
    "Verif.Props.C75_narrow_false",
    "Verif.Props.C75_checked_partial",
    "Verif.Props.C75_unchecked_false"
   ],
   "note": "Any nesting, sizes and strides, exact arithmetic; a matrix inside of a further product may overlap the result. Refuted: overlap with an argument that is read late, results of a narrower type, sizes of prodh, prodj, prodt, prod3, prod4."
  },
  {
   "property": "C76",
   "status": "partial",
   "theorems": [
    "Verif.Props.C76_promotion_partial",
    "Verif.Props.C76_promotion_false",
    "Verif.Props.C76_expr_partial",
    "Verif.Props.C76_usual",
    "Verif.Props.C76_fuse_partial",
    "Verif.Props.C76_fuse_false",
    "Verif.Props.C76_three_partial",
    "Verif.Props.C76_expoavg_partial",
    "Verif.Props.C76_ite_partial",
    "Verif.Props.C76_ite_false",
    "Verif.Props.C76_jmul_partial",
    "Verif.Props.C76_jmul_false",
    "Verif.Props.C76_minmg_false",
    "Verif.Props.C76_compare_partial",
    "Verif.Props.C76_compare_false",
    "Verif.Props.C76_logic",
    "Verif.Props.C76_bnot_partial",
    "Verif.Props.C76_bnot_false"
   ],
   "note": "Promotion, expressions (also fused), three-argument functions, ite, jmul, comparisons and bnot are proved for the types of the promotion table when values fit; fusion is proved value-preserving, overflow included, for one unwidened type under any idempotent rounding. Refuted: char, unsigned and long double promotions, fusion of narrow and mixed types, ite of unlisted types, jmul with a narrower first argument, the type of minmg, mixed-sign comparisons, bnot of bool."
  },
  {
   "property": "C77",
   "status": "partial",
   "theorems": [
    "Verif.Props.C77_sums_partial",
    "Verif.Props.C77_counts_false",
    "Verif.Props.C77_targets_false",
    "Verif.Props.C77_detect_partial",
    "Verif.Props.C77_bins_false",
    "Verif.Props.C77_room_false",
    "Verif.Props.C77_bank_partial",
    "Verif.Props.C77_bankFast_partial",
    "Verif.Props.C77_bank_false",
    "Verif.Props.C77_wrap_false",
    "Verif.Props.C77_coefficients_false",
    "Verif.Props.C77_fastconv",
    "Verif.Props.C77_pulse",
    "Verif.Props.C77_replica_false"
   ],
   "note": "Sliding sums are proved to be the window sums for all gates, all reads in range; the three detection versions are proved to list the same cells, which are the right ones where the window is not cut; the filter bank by expression and all fast convolutions are proved to be circular convolutions (convolution theorem), equal to the filter output from value K-1 on. Refuted: counts of cut windows (missed targets and false alarms), bins not a multiple of four, more targets than room, different filters in ImplFast, first values, more coefficients than points, the zero replica."
  },
  {
   "property": "C78",
   "status": "partial",
   "theorems": [
    "Verif.Props.C78_close",
    "Verif.Props.C78_zero_false",
    "Verif.Props.C78_complex_false",
    "Verif.Props.C78_views",
    "Verif.Props.C78_bits_partial",
    "Verif.Props.C78_bits_false",
    "Verif.Props.C78_scalar_partial",
    "Verif.Props.C78_scalar_false",
    "Verif.Props.C78_polar_partial",
    "Verif.Props.C78_polar_false",
    "Verif.Props.C78_iterators_partial",
    "Verif.Props.C78_distance_false",
    "Verif.Props.C78_postfix_false",
    "Verif.Props.C78_counts_partial",
    "Verif.Props.C78_gemp_false",
    "Verif.Props.C78_cumsum_false",
    "Verif.Props.C78_cumsum_partial",
    "Verif.Props.C78_clock_partial",
    "Verif.Props.C78_default_false",
    "Verif.Props.C78_tsc_false",
    "Verif.Props.C78_tsc_partial",
    "Verif.Props.C78_print_partial",
    "Verif.Props.C78_print_false"
   ],
   "note": "Comparison is proved over every ordered field; bitwise assignment and polar conversion by an invariant of loops that write in place; iterators with wrapping arithmetic; counts against costs of formulas; printing by unique decomposition of texts. Refuted: zero without absolute tolerance, complex numbers by parts, m ^= m.transpose(), v ^= v(0), overlapping polar conversion, distances backwards with steps other than one, postfix increment, counts of transposed products and running sums, instants by default, time stamp counters through float, rows of tensors printed without separators."
  },
  {
   "property": "C79",
   "status": "partial",
   "theorems": [
    "Verif.Props.C79_network",
    "Verif.Props.C79_program_partial",
    "Verif.Props.C79_built_partial",
    "Verif.Props.C79_initial",
    "Verif.Props.C79_replicated_false",
    "Verif.Props.C79_mix_partial",
    "Verif.Props.C79_mix_false"
   ],
   "note": "An invariant of the network with messages of several statements under way gives determinism and progress; each statement (local, distributed, parallel expression with copies of the operands) is shown to be such a stage and to assign the values of the right-hand side; induction over the program. Refuted: index functions assigned to arrays replicated over some of the processes, the check against mixing local and distributed data."
  },
  {
   "property": "C80",
   "status": "partial",
   "theorems": [
    "Verif.Props.C80_program_partial",
    "Verif.Props.C80_plain_partial",
    "Verif.Props.C80_memory",
    "Verif.Props.C80_sizes_false",
    "Verif.Props.C80_overlap_false",
    "Verif.Props.C80_scalar_false",
    "Verif.Props.C80_expression_false",
    "Verif.Props.C80_proxy_false",
    "Verif.Props.C80_swap_false",
    "Verif.Props.C80_map_partial",
    "Verif.Props.C80_map_false",
    "Verif.Props.C80_local_false",
    "Verif.Props.C80_range_partial",
    "Verif.Props.C80_range_false",
    "Verif.Props.C80_layers"
   ],
   "note": "Simulation between a machine with counted blocks, derived blocks held by value, expression blocks and element proxies, and a specification in which a view is a table of references; induction over programs. Refuted: overlapping operands, tensors scaled by their own elements, stored expressions, references into temporaries, exchange of elements, sizes of operands, distribution and constness of converted copies, ranges of tensor access."
  },
  {
   "property": "C81",
   "status": "partial",
   "theorems": [
    "Verif.Props.C81_alltoall_partial",
    "Verif.Props.C81_check_false",
    "Verif.Props.C81_alltoallv_partial",
    "Verif.Props.C81_fixup_false",
    "Verif.Props.C81_isend",
    "Verif.Props.C81_isend_x",
    "Verif.Props.C81_persistent",
    "Verif.Props.C81_persistent_x_partial",
    "Verif.Props.C81_phases_partial",
    "Verif.Props.C81_phase_false",
    "Verif.Props.C81_local_copy_false"
   ],
   "note": "Processes as request programs over MPI types given by displacement lists; a time order of starts and waits gives progress from every reachable state, by induction over schedules; any number of calls; proved for all six methods. Refuted: the check of Impl_alltoall (square matrices only), local copies of processes with different positions in the two sets, rotated receives when the number of senders does not divide 2^64."
  },
  {
   "property": "C82",
   "status": "partial",
   "theorems": [
    "Verif.Props.C82_options_partial",
    "Verif.Props.C82_data_samples",
    "Verif.Props.C82_defaults",
    "Verif.Props.C82_odd_arguments",
    "Verif.Props.C82_milliseconds_false",
    "Verif.Props.C82_last_argument_false",
    "Verif.Props.C82_sizes_partial",
    "Verif.Props.C82_sizes_false",
    "Verif.Props.C82_calibration_ends",
    "Verif.Props.C82_calibration_partial",
    "Verif.Props.C82_calibration_false",
    "Verif.Props.C82_rows",
    "Verif.Props.C82_rates_partial",
    "Verif.Props.C82_latency_false",
    "Verif.Props.C82_no_samples_false",
    "Verif.Props.C82_steady_partial",
    "Verif.Props.C82_steady_later_partial",
    "Verif.Props.C82_fix_loop",
    "Verif.Props.C82_steady_false",
    "Verif.Props.C82_goal_partial",
    "Verif.Props.C82_linear_goal_false",
    "Verif.Props.C82_signs"
   ],
   "note": "Option texts round-trip through the parser (decimal numbers by induction); the calibration ends because the loop count strictly grows below 2^64; the steady state converges by a factor 10 per pass; sweep times bounded by an invariant over the rows. Refuted: -ms divides by 100, missing value of the last option, sizes that wrap or are shifted by 32, zero times, -lat prints the greatest as least, -samples 0, the linear progression measures for about half the goal."
  },
  {
   "property": "C83",
   "status": "partial",
   "theorems": [
    "Verif.Props.C83_handles",
    "Verif.Props.C83_null_use",
    "Verif.Props.C83_kernels_partial",
    "Verif.Props.C83_null_destroyed_false",
    "Verif.Props.C83_buffers_partial",
    "Verif.Props.C83_buffer_assign_false",
    "Verif.Props.C83_devices_partial",
    "Verif.Props.C83_device_copy_false",
    "Verif.Props.C83_callback_false",
    "Verif.Props.C83_default_once",
    "Verif.Props.C83_extensions_partial",
    "Verif.Props.C83_long_text_false",
    "Verif.Props.C83_access_partial",
    "Verif.Props.C83_kernels",
    "Verif.Props.C83_access_false",
    "Verif.Props.C83_layout_partial",
    "Verif.Props.C83_layout_false",
    "Verif.Props.C83_python_kernel_partial",
    "Verif.Props.C83_python_kernel_false",
    "Verif.Props.C83_python_data_partial",
    "Verif.Props.C83_python_data_false"
   ],
   "note": "Handles refine a semantics by references alone (invariant: count = references, by induction over programs, for all classes of handles). Extensions proved equal to an inductive splitting in words. Access proved equal to a machine with block and buffer only. Refuted: devices are not retained when copied, null kernels, programs and devices end the program when destroyed, buffer assignment does not return, callbacks to destroyed variables, texts over 1023 characters, sync of copied blocks, ignored layout and byte size of buffer access, Python kernels without buffers and empty data."
  },
  {
   "property": "C84",
   "status": "partial",
   "theorems": [
    "Verif.Props.C84_length_partial",
    "Verif.Props.C84_length_false",
    "Verif.Props.C84_resample",
    "Verif.Props.C84_room",
    "Verif.Props.C84_window",
    "Verif.Props.C84_blackman",
    "Verif.Props.C84_linear_phase",
    "Verif.Props.C84_modulate",
    "Verif.Props.C84_freqz_partial",
    "Verif.Props.C84_freqz_false",
    "Verif.Props.C84_tone",
    "Verif.Props.C84_filter",
    "Verif.Props.C84_dynamic",
    "Verif.Props.C84_matched",
    "Verif.Props.C84_real_partial",
    "Verif.Props.C84_real_false",
    "Verif.Props.C84_bound",
    "Verif.Props.C84_delay_partial",
    "Verif.Props.C84_delay_false",
    "Verif.Props.C84_columns_false"
   ],
   "note": "Resampling proved over any semiring on the model of Fir (C36) with a polyphase decomposition; responses, modulation and linear phase over the reals; correlation from the transforms; the delay estimate from a strict bound on the overlap and the model of maxval (C49). Refuted: the rounded output length beyond 2^24, the points of freqz (0 to 2 pi, not pi), odd numbers of samples (spectrum and magnitudes not all set), delays of more than half of the time (unsigned difference)."
  },
  {
   "property": "C85",
   "status": "partial",
   "theorems": [
    "Verif.Props.C85_groups_partial",
    "Verif.Props.C85_exclude_false",
    "Verif.Props.C85_selection",
    "Verif.Props.C85_rank",
    "Verif.Props.C85_translate_partial",
    "Verif.Props.C85_translate_false",
    "Verif.Props.C85_index_partial",
    "Verif.Props.C85_index_false",
    "Verif.Props.C85_equal_partial",
    "Verif.Props.C85_equal_false",
    "Verif.Props.C85_split",
    "Verif.Props.C85_split_order",
    "Verif.Props.C85_tasks",
    "Verif.Props.C85_deadlock",
    "Verif.Props.C85_work",
    "Verif.Props.C85_freed",
    "Verif.Props.C85_null_false",
    "Verif.Props.C85_example",
    "Verif.Props.C85_map_partial",
    "Verif.Props.C85_map_false",
    "Verif.Props.C85_processor_set_partial",
    "Verif.Props.C85_processor_set_false",
    "Verif.Props.C85_supported",
    "Verif.Props.C85_supported_false",
    "Verif.Props.C85_allreduce_partial",
    "Verif.Props.C85_allreduce_false",
    "Verif.Props.C85_extremes",
    "Verif.Props.C85_broadcast_partial",
    "Verif.Props.C85_broadcast_false"
   ],
   "note": "Groups by a denotation independent of the MPI functions, both directions; tasks by one global sequence of collective calls whose parts are the calls of the processes, from which matching and absence of deadlock in every interleaving follow. Refuted: exclude of an empty range, MPI_UNDEFINED from translate_ranks, local_processor_index with a default-constructed communicator, calls and tasks with a null communicator, maps used in a task (reference to the default communicator), the cached processor_set, logical instead of bitwise reductions of int, unsupported datatypes, counts beyond int."
  },
  {
   "property": "C86",
   "status": "partial",
   "theorems": [
    "Verif.Props.C86_declared",
    "Verif.Props.C86_forced",
    "Verif.Props.C86_packing_partial",
    "Verif.Props.C86_reach",
    "Verif.Props.C86_default",
    "Verif.Props.C86_format",
    "Verif.Props.C86_stored",
    "Verif.Props.C86_flat",
    "Verif.Props.C86_512_false",
    "Verif.Props.C86_aligned_false",
    "Verif.Props.C86_allocation_false",
    "Verif.Props.C86_split_false",
    "Verif.Props.C86_layout_type_false",
    "Verif.Props.C86_flat_size_false",
    "Verif.Props.C86_part_false",
    "Verif.Props.C86_rt_size_false",
    "Verif.Props.C86_storage_size_false",
    "Verif.Props.C86_python_false",
    "Verif.Props.C86_slice_order",
    "Verif.Props.C86_divisor",
    "Verif.Props.C86_block_alignment"
   ],
   "note": "Packings are stated as promises about pointer and strides (adjacent lines, contiguous elements, lines on a boundary), independent of the library's tests. Refuted: aligned_512, aligned, boundaries beyond that of the allocator, aligned split data, the layout type of direct access, size(0) of a copied line, parts as one line, size() with run-time layouts, storage_size() of padded blocks, Python slices declared dense."
  },
  {
   "property": "C87",
   "status": "partial",
   "theorems": [
    "Verif.Props.C87_storage",
    "Verif.Props.C87_failing_partial",
    "Verif.Props.C87_pointer",
    "Verif.Props.C87_offset_partial",
    "Verif.Props.C87_copy",
    "Verif.Props.C87_buffer_partial",
    "Verif.Props.C87_buffer_false",
    "Verif.Props.C87_format_false",
    "Verif.Props.C87_twice_false",
    "Verif.Props.C87_over_false",
    "Verif.Props.C87_user_false",
    "Verif.Props.C87_again_false",
    "Verif.Props.C87_resize_false",
    "Verif.Props.C87_create_false",
    "Verif.Props.C87_retry_false",
    "Verif.Props.C87_element_false",
    "Verif.Props.C87_null_false",
    "Verif.Props.C87_const_false",
    "Verif.Props.C87_any_false"
   ],
   "note": "Checked and unchecked builds are both covered: the theorems quantify over whether assertions are kept. Refuted: buffers of another format in run-time accessors, the reported format, allocate() twice or over a buffer, deallocate() on a buffer, destruction after deallocate(), failed resizes and constructions, retrying a failed resize, get and put by index, null pairs, constant pointers as pairs, unknown formats."
  },
  {
   "property": "C88",
   "status": "partial",
   "theorems": [
    "Verif.Props.C88_assign",
    "Verif.Props.C88_once",
    "Verif.Props.C88_visit_partial",
    "Verif.Props.C88_visit_false",
    "Verif.Props.C88_kept_false",
    "Verif.Props.C88_copies_false",
    "Verif.Props.C88_overlap_false",
    "Verif.Props.C88_stable"
   ],
   "note": "Values and counts hold whether or not the traversal reaches an operation, since the first element evaluates it. Refuted: that the traversal reaches every node (it stops at const types and at diagonals), that a kept expression keeps its meaning, that copies share an evaluation made later, that overlapping elementwise reads are safe."
  },
  {
   "property": "C89",
   "status": "partial",
   "theorems": [
    "Verif.Props.C89_modules_partial",
    "Verif.Props.C89_bool_false",
    "Verif.Props.C89_int_false",
    "Verif.Props.C89_elementwise_partial",
    "Verif.Props.C89_available",
    "Verif.Props.C89_different",
    "Verif.Props.C89_loaded_false",
    "Verif.Props.C89_left_out_false",
    "Verif.Props.C89_sizes_false",
    "Verif.Props.C89_reduce_partial",
    "Verif.Props.C89_matvec_partial",
    "Verif.Props.C89_mixed_dot",
    "Verif.Props.C89_matvec_false",
    "Verif.Props.C89_mixed_false",
    "Verif.Props.C89_axis_false",
    "Verif.Props.C89_solvers_partial",
    "Verif.Props.C89_solvers_false",
    "Verif.Props.C89_signal_partial",
    "Verif.Props.C89_fft_false",
    "Verif.Props.C89_complex_false",
    "Verif.Props.C89_parallel_false",
    "Verif.Props.C89_cast_false",
    "Verif.Props.C89_convert_partial",
    "Verif.Props.C89_convert_false"
   ],
   "note": "The positive theorems cover the types and shapes the modules are compiled for. Refuted: the modules of bool and int, conversion of views whose module is not loaded, functions left out of the exports, elementwise functions of views of unequal sizes, mixed element types, matrix-vector functions, reductions with an axis, solvers, Fourier transforms, complex results, the parallel functions, casts."
  },
  {
   "property": "C90",
   "status": "partial",
   "theorems": [
    "Verif.Props.C90_map",
    "Verif.Props.C90_one_place",
    "Verif.Props.C90_map_nothing",
    "Verif.Props.C90_index_nothing_false",
    "Verif.Props.C90_patch_false",
    "Verif.Props.C90_patch_cyclic_false",
    "Verif.Props.C90_patch_partial",
    "Verif.Props.C90_replicated",
    "Verif.Props.C90_replicated_nothing_false",
    "Verif.Props.C90_replicated_outside",
    "Verif.Props.C90_conversions_false",
    "Verif.Props.C90_dim_false",
    "Verif.Props.C90_subset_nothing_false",
    "Verif.Props.C90_transposed_nothing_false",
    "Verif.Props.C90_transposed_nothing",
    "Verif.Props.C90_transposed",
    "Verif.Props.C90_transposed_answers",
    "Verif.Props.C90_corner_turn",
    "Verif.Props.C90_assign_to_transposed",
    "Verif.Props.C90_subset_transposed_false",
    "Verif.Props.C90_permuted_false",
    "Verif.Props.C90_diag_false",
    "Verif.Props.C90_replicated_subset",
    "Verif.Props.C90_local_subset",
    "Verif.Props.C90_nested_local_false",
    "Verif.Props.C90_transposed_refused"
   ],
   "note": "Proved for `Map` and `Replicated_map`, for assignments with transposed sides and for local views of partial views. Refuted: patch_from_global_index (returns the subblock), whole-index conversion and replicated or partial views on processors without data, conversions of transposed, partial and local views, maps of sub-domains of transposed matrices, of permuted tensors and of diagonals, local views of partial views of partial views."
  },
  {
   "property": "C91",
   "status": "partial",
   "theorems": [
    "Verif.Props.C91_unary",
    "Verif.Props.C91_binary",
    "Verif.Props.C91_ternary",
    "Verif.Props.C91_unary_compiles",
    "Verif.Props.C91_binary_compiles",
    "Verif.Props.C91_ternary_compiles",
    "Verif.Props.C91_unary_adaptable_false",
    "Verif.Props.C91_ternary_adaptable_false",
    "Verif.Props.C91_unary_type_false",
    "Verif.Props.C91_nested_false",
    "Verif.Props.C91_nested_partial",
    "Verif.Props.C91_mixed_false",
    "Verif.Props.C91_sum",
    "Verif.Props.C91_sum_false",
    "Verif.Props.C91_assigned"
   ],
   "note": "Values of all calls that compile, which calls compile, sums where the types agree and assignment are proved. Refuted: adaptable objects without explicit result type for unary and ternary, the element type of unary results (nested calls do not compile, sums are converted to the argument's type), mixing vectors and expressions."
  },
  {
   "property": "C92",
   "status": "partial",
   "theorems": [
    "Verif.Props.C92_fft",
    "Verif.Props.C92_direction_false",
    "Verif.Props.C92_fft_call",
    "Verif.Props.C92_size_false",
    "Verif.Props.C92_fftm",
    "Verif.Props.C92_axis_false",
    "Verif.Props.C92_fftm_call",
    "Verif.Props.C92_range",
    "Verif.Props.C92_enum_false",
    "Verif.Props.C92_conv_false",
    "Verif.Props.C92_conv_partial",
    "Verif.Props.C92_corr_false",
    "Verif.Props.C92_corr_partial",
    "Verif.Props.C92_zeropad_false",
    "Verif.Props.C92_fir",
    "Verif.Props.C92_iir_false",
    "Verif.Props.C92_iir_partial",
    "Verif.Props.C92_reset_false",
    "Verif.Props.C92_enumerations"
   ],
   "note": "FFTs, multiple FFTs on axes 0 and 1, FIR filters, ranges and calls are proved for all arguments. Refuted: convolution (no kernel is passed, every construction fails), correlation (arguments in another order), IIR filters (views instead of blocks, numerators and denominators exchanged), other directions and axes, min_zeropad, wrong sizes in calls, enumerations as numbers, resetting FIR filters."
  },
  {
   "property": "C93",
   "status": "partial",
   "theorems": [
    "Verif.Props.C93_write_false",
    "Verif.Props.C93_write",
    "Verif.Props.C93_read",
    "Verif.Props.C93_construct",
    "Verif.Props.C93_receive_partial",
    "Verif.Props.C93_receive_false",
    "Verif.Props.C93_send",
    "Verif.Props.C93_send_copied",
    "Verif.Props.C93_send_false",
    "Verif.Props.C93_kind",
    "Verif.Props.C93_part_false",
    "Verif.Props.C93_processors",
    "Verif.Props.C93_move",
    "Verif.Props.C93_distance_partial",
    "Verif.Props.C93_iterator_false"
   ],
   "note": "Reading, sending, constructing, receiving into data reached directly, the choice between direct access and copy, and the test for processors are proved for all sequences. Refuted: what is written or received never reaches a block that must be copied (for example real and imaginary parts), messages under way that share data with a directly reached destination, comparison and long distances of iterators over vectors."
  },
  {
   "property": "C94",
   "status": "partial",
   "theorems": [
    "Verif.Props.C94_interpolate",
    "Verif.Props.C94_above",
    "Verif.Props.C94_below_false",
    "Verif.Props.C94_empty_false",
    "Verif.Props.C94_integral",
    "Verif.Props.C94_affine",
    "Verif.Props.C94_integral_false",
    "Verif.Props.C94_inverse_false",
    "Verif.Props.C94_negative_false",
    "Verif.Props.C94_pulse",
    "Verif.Props.C94_chirp",
    "Verif.Props.C94_chirp_false",
    "Verif.Props.C94_tone_partial",
    "Verif.Props.C94_tone_false",
    "Verif.Props.C94_noise_partial",
    "Verif.Props.C94_noise_false",
    "Verif.Props.C94_grid_partial",
    "Verif.Props.C94_grid_false"
   ],
   "note": "Interpolation between and beyond the samples, running integrals (exact for straight lines), pulses and the constant sweep of chirps are proved over the rationals. Refuted: interpolation below the first sample and without samples, the inverted distribution (one step too low, negative for small samples), the rate of chirps (twice, downwards), conversion of negative sine samples, the noise length for long arrays, grids of odd numbers of processors."
  },
  {
   "property": "C95",
   "status": "partial",
   "theorems": [
    "Verif.Props.C95_resample_inside",
    "Verif.Props.C95_resample_partial",
    "Verif.Props.C95_resample_false",
    "Verif.Props.C95_resample_end_false",
    "Verif.Props.C95_product",
    "Verif.Props.C95_dda_partial",
    "Verif.Props.C95_dda_false",
    "Verif.Props.C95_rows_false",
    "Verif.Props.C95_types",
    "Verif.Props.C95_sizes_partial",
    "Verif.Props.C95_sizes_false",
    "Verif.Props.C95_kernel_partial",
    "Verif.Props.C95_kernel_false",
    "Verif.Props.C95_circular",
    "Verif.Props.C95_circular_false",
    "Verif.Props.C95_mirror_partial",
    "Verif.Props.C95_mirror_false",
    "Verif.Props.C95_solvers",
    "Verif.Props.C95_qr_false",
    "Verif.Props.C95_valid"
   ],
   "note": "The block-based product, the bounds of the interpolation, the choice by type, the circular convolution by padding, even mirrored spectra and the documented solutions are proved. Refuted: the weights and the end of the fused interpolation, the pointer-based product for anything but four columns without gaps, power-of-two sizes 0 and multiples of 2^32, zero padding of the kernel, long kernels, odd mirrored spectra, the equation of the QR example."
  },
  {
   "property": "C96",
   "status": "partial",
   "theorems": [
    "Verif.Props.C96_products",
    "Verif.Props.C96_outer_partial",
    "Verif.Props.C96_outer_false",
    "Verif.Props.C96_kernel",
    "Verif.Props.C96_conv_size",
    "Verif.Props.C96_conv_partial",
    "Verif.Props.C96_conv_library",
    "Verif.Props.C96_conv_false",
    "Verif.Props.C96_corr_size",
    "Verif.Props.C96_corr",
    "Verif.Props.C96_corr_library",
    "Verif.Props.C96_scale_false",
    "Verif.Props.C96_corr_matrix",
    "Verif.Props.C96_dft",
    "Verif.Props.C96_dft_sizes_partial",
    "Verif.Props.C96_dft_sizes_false",
    "Verif.Props.C96_diff",
    "Verif.Props.C96_diff_nan",
    "Verif.Props.C96_diff_false",
    "Verif.Props.C96_negated_false",
    "Verif.Props.C96_precision",
    "Verif.Props.C96_precision_false",
    "Verif.Props.C96_random_false",
    "Verif.Props.C96_random_order",
    "Verif.Props.C96_random_range",
    "Verif.Props.C96_complex_range_false",
    "Verif.Props.C96_grid_partial",
    "Verif.Props.C96_grid_false"
   ],
   "note": "Products, kernels, sizes, convolutions of kernels up to one element more than the input, correlations, transforms, and what the distance and the precision loop give are proved, and that library and reference agree. Refuted: outer products of a real and a complex vector and the scale of unbiased correlations with same support (both as in the library), longer kernels, transforms to more precision, relative distances of small vectors, the distance 0 dB of a negated vector, the lowest bit of precision, independence and range of random data, grids using all processors."
  },
  {
   "property": "C97",
   "status": "partial",
   "theorems": [
    "Verif.Props.C97_maps_partial",
    "Verif.Props.C97_maps_false",
    "Verif.Props.C97_create_map_partial",
    "Verif.Props.C97_create_map_false",
    "Verif.Props.C97_fir_partial",
    "Verif.Props.C97_fir_false",
    "Verif.Props.C97_fir_output",
    "Verif.Props.C97_fir_blocks_false",
    "Verif.Props.C97_fir_blocks_partial",
    "Verif.Props.C97_stream",
    "Verif.Props.C97_stream_check",
    "Verif.Props.C97_stream_false",
    "Verif.Props.C97_stream_int_false",
    "Verif.Props.C97_stream_int_check_false",
    "Verif.Props.C97_vmmul_ops_partial",
    "Verif.Props.C97_vmmul_ops_false",
    "Verif.Props.C97_vmmul_elems_partial",
    "Verif.Props.C97_vmmul_elems_false",
    "Verif.Props.C97_vmmul_check_partial",
    "Verif.Props.C97_vmmul_check_fails",
    "Verif.Props.C97_vmmul_check_false",
    "Verif.Props.C97_simd_partial",
    "Verif.Props.C97_simd_false",
    "Verif.Props.C97_maxval_partial",
    "Verif.Props.C97_maxval_false"
   ],
   "note": "Processor sets, the check of the FIR benchmark when the decimation divides the samples before the last call, the values of STREAM and exactly when its check passes, operations and elements of products, checks on processors with all rows, SIMD stores for multiples of the vector size and maxima up to 2^24 elements are proved. Refuted: all processors but the first (always out of bounds), the pipeline on one processor, other decimations, blocks with stride 0, 33 loops of STREAM with float, 8 with int, integer relative errors, operations of large products, elements written, the check of products along columns on several processors, SIMD stores for other sizes, the maximum of 2^26 elements."
  },
  {
   "property": "C98",
   "status": "partial",
   "theorems": [
    "Verif.Props.C98_conformant",
    "Verif.Props.C98_product",
    "Verif.Props.C98_size_partial",
    "Verif.Props.C98_size_false",
    "Verif.Props.C98_equivalence",
    "Verif.Props.C98_equal_sound",
    "Verif.Props.C98_equal_complete_partial",
    "Verif.Props.C98_equal_empty_false",
    "Verif.Props.C98_shift_equal",
    "Verif.Props.C98_shift",
    "Verif.Props.C98_mul_partial",
    "Verif.Props.C98_product_equal_false",
    "Verif.Props.C98_div_partial"
   ],
   "note": "Conformance, product conformance, equivalence, soundness of equality, shifts and that they respect equality are proved for all domains; sizes, completeness of equality, products and quotients within bounds. Refuted: the size of a domain of 2^32 by 2^32, equality of empty domains of different shapes, products and quotients of equal domains."
  },
  {
   "property": "C99",
   "status": "partial",
   "theorems": [
    "Verif.Props.C99_vertex",
    "Verif.Props.C99_dimension_false",
    "Verif.Props.C99_extent",
    "Verif.Props.C99_total_size",
    "Verif.Props.C99_orders",
    "Verif.Props.C99_same_ptr_partial",
    "Verif.Props.C99_same_ptr_false",
    "Verif.Props.C99_endian_partial",
    "Verif.Props.C99_endian_false"
   ],
   "note": "Vertices, extents, total sizes (modulo 2^64, equal to the sizes of domains), orders, comparison of pointers of one type and the byte order of little-endian processors are proved. Refuted: the refusal of dimensions by vertices of one coordinate, pointers of different types, and big-endian processors, for which the header does not compile."
  },
  {
   "property": "C100",
   "status": "partial",
   "theorems": [
    "Verif.Props.C100_make",
    "Verif.Props.C100_apply",
    "Verif.Props.C100_negative_false",
    "Verif.Props.C100_owner",
    "Verif.Props.C100_local_partial",
    "Verif.Props.C100_local_false",
    "Verif.Props.C100_domain_partial",
    "Verif.Props.C100_domain_false",
    "Verif.Props.C100_refused_partial",
    "Verif.Props.C100_refused_false"
   ],
   "note": "Construction, shapes, owners, local indices within the shape, domains of subblocks of vectors, and the refusal of tuples of the wrong length are proved. Refuted: negative sizes are taken modulo 2^64, domains of subblocks of matrices and tensors raise TypeError, local indices outside the shape are not refused (or divide by zero), and indices outside the shape or maps not applied end the interpreter."
  },
  {
   "property": "C101",
   "status": "partial",
   "theorems": [
    "Verif.Props.C101_sizes",
    "Verif.Props.C101_short_false",
    "Verif.Props.C101_ops_partial",
    "Verif.Props.C101_ops_false",
    "Verif.Props.C101_place",
    "Verif.Props.C101_pages_partial",
    "Verif.Props.C101_pages_false"
   ],
   "note": "Sizes for references of at least two elements not longer than the input, operations with minimal support, placement of blocks, and up to 127 huge pages are proved. Refuted: references of one element are written past their end, longer references ask for almost 2^64 outputs, operations with full and equal support are overstated for every reference of two or more, and 128 pages overflow int."
  },
  {
   "property": "C102",
   "status": "partial",
   "theorems": [
    "Verif.Props.C102_index",
    "Verif.Props.C102_rows_partial",
    "Verif.Props.C102_rows_false",
    "Verif.Props.C102_outer_partial",
    "Verif.Props.C102_outer_false",
    "Verif.Props.C102_bytes_false"
   ],
   "note": "Variants 4 and 6 to 10 are proved for all sizes, variants 3 and 5 for matrices with rows, variant 2 for matrices with rows whose second is real. Refuted: variant 2 multiplies complex matrices with the conjugate of the second; variants 2, 3 and 5 ask for row 0 of matrices without rows; reported memory is too large by the number of rows, bytes read too few, and none written."
  },
  {
   "property": "C103",
   "status": "partial",
   "theorems": [
    "Verif.Props.C103_sizes_partial",
    "Verif.Props.C103_sizes_false",
    "Verif.Props.C103_check_partial",
    "Verif.Props.C103_check_false"
   ],
   "note": "Sizes are proved for coefficients that fit into the input; the check is proved to accept correct results with full support always, with equal support for two or three rows and columns, with minimal support for three by three. Refuted: coefficients larger than the input ask for almost 2^64 rows, and correct results for other sizes are reported as errors."
  },
  {
   "property": "C104",
   "status": "partial",
   "theorems": [
    "Verif.Props.C104_transfers_partial",
    "Verif.Props.C104_modes",
    "Verif.Props.C104_size_false"
   ],
   "note": "Proved for both classes, all their modes and any number of calls, for vectors below 2^31 elements. Refuted for larger ones: sizes are converted to int, so that of 2^32 + r elements only r are transferred. Modes outside the tables use a data type that was never set."
  }
 ]
}