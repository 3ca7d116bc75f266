{
 "claims": [
  {
   "property": "C01",
   "status": "proved",
   "theorems": [
    "Verif.Props.C01_col_major_round_trip",
    "Verif.Props.C01_dimension_mismatch"
   ],
   "note": ""
  },
  {
   "property": "C02",
   "status": "partial",
   "theorems": [
    "Verif.Props.C02_false",
    "Verif.Props.C02_partial",
    "Verif.Props.C02_col_major_stable",
    "Verif.Props.C02_dimension",
    "Verif.Props.C02_exact",
    "Verif.Props.C02_from_strides",
    "Verif.Props.C02_gaps"
   ],
   "note": "The claim is false of the code (C02_false): a one-point axis between two longer axes in row-major order. Proved without such an axis for any sort, and for column-major order with a stable sort for all extents; C02_exact: for the stable sort these are exactly the good cases. C02_gaps and C02_from_strides: strides with gaps."
  },
  {
   "property": "C03",
   "status": "proved",
   "theorems": [
    "Verif.Props.C03_iteration",
    "Verif.Props.C03_empty"
   ],
   "note": "Iteration is refused for layouts that are not recognised as contiguous; whenever it runs it is complete."
  },
  {
   "property": "C04",
   "status": "partial",
   "theorems": [
    "Verif.Props.C04_sound",
    "Verif.Props.C04_false",
    "Verif.Props.C04_complete_partial",
    "Verif.Props.C04_dimension",
    "Verif.Props.C04_exact",
    "Verif.Props.C04_numbers"
   ],
   "note": "Soundness proved in full. Completeness is false of the code (C04_false) and proved when no one-point axis lies between longer axes; C04_exact: the exact set of accepted strides for the stable sort; C04_numbers: for grids without one-point axes and any sort, accepted iff the strides number the pixels without gap or overlap."
  },
  {
   "property": "C05",
   "status": "proved",
   "theorems": [
    "Verif.Props.C05_buffer_size",
    "Verif.Props.C05_unrestricted_false"
   ],
   "note": "Stated for nested strides (dense, padded, transposed layouts); C05_unrestricted_false shows that other custom strides are not covered."
  },
  {
   "property": "C06",
   "status": "proved",
   "theorems": [
    "Verif.Props.C06_modulo",
    "Verif.Props.C06_periodic",
    "Verif.Props.C06_idempotent",
    "Verif.Props.C06_zero"
   ],
   "note": ""
  },
  {
   "property": "C07",
   "status": "partial",
   "theorems": [
    "Verif.Props.C07_false",
    "Verif.Props.C07_partial"
   ],
   "note": "False beyond 2^31 pixels (C07_false); proved up to 2^31 pixels."
  },
  {
   "property": "C08",
   "status": "proved",
   "theorems": [
    "Verif.Props.C08_strided_copy",
    "Verif.Props.C08_out_of_bounds",
    "Verif.Props.C08_dimension_mismatch",
    "Verif.Props.C08_empty",
    "Verif.Props.C08_no_axes"
   ],
   "note": "Shapes of rank zero are undefined behaviour in the code (C08_no_axes) and excluded."
  },
  {
   "property": "C09",
   "status": "proved",
   "theorems": [
    "Verif.Props.C09_odometer",
    "Verif.Props.C09_empty_box",
    "Verif.Props.C09_no_axes"
   ],
   "note": "Rank zero is undefined behaviour in the code (C09_no_axes) and excluded."
  },
  {
   "property": "C10",
   "status": "proved",
   "theorems": [
    "Verif.Props.C10_unique_names",
    "Verif.Props.C10_register_existing",
    "Verif.Props.C10_access_existing",
    "Verif.Props.C10_register_new",
    "Verif.Props.C10_register_new_ok",
    "Verif.Props.C10_registration_keeps",
    "Verif.Props.C10_persists"
   ],
   "note": "names unique and lookups consistent after any program; registering an existing name fails without effect; accessors return it exactly if attributes agree; new fields get the requested attributes; registration never changes registered fields; a field stays until popped"
  },
  {
   "property": "C11",
   "status": "partial",
   "theorems": [
    "Verif.Props.C11_false",
    "Verif.Props.C11_sizes_partial"
   ],
   "note": "C11_false: push_back after initialise makes a field larger than the collection; C11_sizes_partial: holds for every reachable state if push_back is only used before initialise and component numbers are positive"
  },
  {
   "property": "C12",
   "status": "proved",
   "theorems": [
    "Verif.Props.C12_write_once",
    "Verif.Props.C12_set",
    "Verif.Props.C12_set_fields",
    "Verif.Props.C12_pixel",
    "Verif.Props.C12_fields_agree",
    "Verif.Props.C12_positive"
   ],
   "note": "write-once over all programs; exact success condition; effect on fields; pixel tag always 1; values of the constructor are not checked (C12_positive needs them positive)"
  },
  {
   "property": "C13",
   "status": "proved",
   "theorems": [
    "Verif.Props.C13_fixed",
    "Verif.Props.C13_second"
   ],
   "note": "pixels, domain, indices fixed over all programs after initialise; second initialise and add_pixel fail without effect"
  },
  {
   "property": "C14",
   "status": "partial",
   "theorems": [
    "Verif.Props.C14_false",
    "Verif.Props.C14_retry_fails",
    "Verif.Props.C14_failure_partial",
    "Verif.Props.C14_arguments_partial"
   ],
   "note": "C14_false: fields before the failing one stay allocated; C14_retry_fails: a corrected retry can fail; partial theorems say what is kept"
  },
  {
   "property": "C15",
   "status": "proved",
   "theorems": [
    "Verif.Props.C15_unique_name",
    "Verif.Props.C15_names_differ",
    "Verif.Props.C15_detached"
   ],
   "note": "search ends within nb_fields+1 attempts with an unused name; successive names differ; detached fields leave the collection as it was"
  },
  {
   "property": "C16",
   "status": "proved",
   "theorems": [
    "Verif.Props.C16_order",
    "Verif.Props.C16_global_to_local",
    "Verif.Props.C16_inverse"
   ],
   "note": "order of addition, first-position characterisation of the global-to-local map in every reachable state, inverse for duplicate-free additions"
  },
  {
   "property": "C17",
   "status": "proved",
   "theorems": [
    "Verif.Props.C17_sub_pt_indices",
    "Verif.Props.C17_unknown_tag",
    "Verif.Props.C17_global",
    "Verif.Props.C17_pixel_indices",
    "Verif.Props.C17_pixel_indices_local"
   ],
   "note": "the loop over sub-point indices yields pixel*n+offset in order and ends; 0..N-1 for every initialised global collection; unknown tags rejected"
  },
  {
   "property": "C18",
   "status": "proved",
   "theorems": [
    "Verif.Props.C18_global_pixels",
    "Verif.Props.C18_local_pixels",
    "Verif.Props.C18_sub_pt_strides",
    "Verif.Props.C18_element_size"
   ],
   "note": "Sub-point view: every (component, sub-point, pixel) tuple has its own offset in the buffer, both storage orders; fills the buffer for dense pixels. Pixel part discharged for global (nested strides) and local collections."
  },
  {
   "property": "C19",
   "status": "partial",
   "theorems": [
    "Verif.Props.C19_pixel_strides_partial",
    "Verif.Props.C19_exact",
    "Verif.Props.C19_false",
    "Verif.Props.C19_views_agree"
   ],
   "note": "False of the code in general (C19_false); C19_exact characterises exactly the layouts for which the pixel view is right; C19_views_agree proves agreement with the sub-point view for those."
  },
  {
   "property": "C20",
   "status": "proved",
   "theorems": [
    "Verif.Props.C20_assign",
    "Verif.Props.C20_shape_mismatch",
    "Verif.Props.C20_empty"
   ],
   "note": "Global fields of any storage order and nested pixel strides; local branch (flat vector copy) is in the collection model. Element-wise correctness, padding untouched, shape mismatch rejected, empty subdomain."
  },
  {
   "property": "C21",
   "status": "partial",
   "theorems": [
    "Verif.Props.C21_alias",
    "Verif.Props.C21_history_partial",
    "Verif.Props.C21_exact",
    "Verif.Props.C21_false",
    "Verif.Props.C21_out_of_range"
   ],
   "note": "C21_exact: holds exactly for memories N with N+1 a power of two; C21_alias/C21_false: otherwise the current value and an old one share a field; C21_history_partial is the full statement for the good sizes"
  },
  {
   "property": "C22",
   "status": "proved",
   "theorems": [
    "Verif.Props.C22_visits",
    "Verif.Props.C22_local_dense",
    "Verif.Props.C22_assign",
    "Verif.Props.C22_assign_shape",
    "Verif.Props.C22_assign_scalar",
    "Verif.Props.C22_assign_scalar_shape",
    "Verif.Props.C22_uninitialised",
    "Verif.Props.C22_rows",
    "Verif.Props.C22_gap"
   ],
   "note": "for buffers without gaps between pixels (all local collections, C22_local_dense) and a positive number of rows; C22_gap shows what happens outside this hypothesis"
  },
  {
   "property": "C23",
   "status": "proved",
   "theorems": [
    "Verif.Props.C23_sum",
    "Verif.Props.C23_split",
    "Verif.Props.C23_mean"
   ],
   "note": "exact arithmetic (rounding not modelled); buffers without gaps between pixels"
  },
  {
   "property": "C24",
   "status": "proved",
   "theorems": [
    "Verif.Props.C24_gcd",
    "Verif.Props.C24_least"
   ],
   "note": "all pairs of int except INT_MIN, for which std::abs is undefined (C24_least)"
  },
  {
   "property": "C25",
   "status": "partial",
   "theorems": [
    "Verif.Props.C25_reduced",
    "Verif.Props.C25_construct",
    "Verif.Props.C25_product_partial",
    "Verif.Props.C25_no_overflow",
    "Verif.Props.C25_equality",
    "Verif.Props.C25_order_partial",
    "Verif.Props.C25_false",
    "Verif.Props.C25_limits"
   ],
   "note": "C25_false: products and comparisons of large exponents overflow, INT_MIN and default-constructed exponents (0/0) are outside; the partial theorems hold whenever no overflow occurs, and C25_no_overflow gives a range in which none does"
  },
  {
   "property": "C26",
   "status": "proved",
   "theorems": [
    "Verif.Props.C26_mul",
    "Verif.Props.C26_div",
    "Verif.Props.C26_ext",
    "Verif.Props.C26_comm",
    "Verif.Props.C26_assoc",
    "Verif.Props.C26_one",
    "Verif.Props.C26_inverse",
    "Verif.Props.C26_add",
    "Verif.Props.C26_tags",
    "Verif.Props.C26_defined"
   ],
   "note": "for units built by the API (Proper); operations that would overflow an int are excluded by the outcome being ok; C26_defined says when they exist"
  },
  {
   "property": "C27",
   "status": "proved",
   "theorems": [
    "Verif.Props.C27_unit_lt",
    "Verif.Props.C27_unit_trichotomy",
    "Verif.Props.C27_unit_trans",
    "Verif.Props.C27_domain_lt",
    "Verif.Props.C27_domain_trichotomy",
    "Verif.Props.C27_domain_trans",
    "Verif.Props.C27_defined",
    "Verif.Props.C27_domain_warnings"
   ],
   "note": "comparisons that overflow an int are the outcome ub; C27_defined says when there are none; warnings of the physics domain constructor are a finding (C27_domain_warnings)"
  },
  {
   "property": "C28",
   "status": "proved",
   "theorems": [
    "Verif.Props.C28_failure",
    "Verif.Props.C28_errors",
    "Verif.Props.C28_add",
    "Verif.Props.C28_add_dict",
    "Verif.Props.C28_index",
    "Verif.Props.C28_assign",
    "Verif.Props.C28_get",
    "Verif.Props.C28_alias",
    "Verif.Props.C28_persist",
    "Verif.Props.C28_path",
    "Verif.Props.C28_safe",
    "Verif.Props.C28_cycle",
    "Verif.Props.C28_python",
    "Verif.Props.C28_python_total",
    "Verif.Props.C28_python_iff"
   ],
   "note": "object graph with shared handles over all programs; conversion of nested python dicts; findings in C28_cycle (self-assignment of a matrix is undefined, dictionaries can contain themselves)"
  },
  {
   "property": "C29",
   "status": "proved",
   "theorems": [
    "Verif.Props.C29_gradient_linear",
    "Verif.Props.C29_gradient_outcome",
    "Verif.Props.C29_gradient_increment",
    "Verif.Props.C29_transpose_linear",
    "Verif.Props.C29_transpose_outcome",
    "Verif.Props.C29_transpose_increment"
   ],
   "note": "for every successful application (success does not depend on the values: C29_gradient_outcome, C29_transpose_outcome); exact arithmetic in a commutative ring"
  },
  {
   "property": "C30",
   "status": "partial",
   "theorems": [
    "Verif.Props.C30_actual_partial",
    "Verif.Props.C30_default",
    "Verif.Props.C30_uniform_partial",
    "Verif.Props.C30_false"
   ],
   "note": "C30_false: weights are looked up by pixel number instead of quadrature point; C30_default (no weights) and C30_uniform_partial (equal weights) give the adjoint, C30_actual_partial says what is computed in general"
  },
  {
   "property": "C31",
   "status": "proved",
   "theorems": [
    "Verif.Props.C31_translation",
    "Verif.Props.C31_transpose_translation",
    "Verif.Props.C31_constant"
   ],
   "note": "on grids with origin zero that are numbered densely (Periodic); for other origins the operator is undefined (C32_nonzero_location); transposed operator with default weights"
  },
  {
   "property": "C32",
   "status": "partial",
   "theorems": [
    "Verif.Props.C32_partial",
    "Verif.Props.C32_false",
    "Verif.Props.C32_nonzero_location"
   ],
   "note": "C32_false and C32_nonzero_location: undefined on every subdomain that does not start at the origin; C32_partial: origin zero"
  },
  {
   "property": "C33",
   "status": "partial",
   "theorems": [
    "Verif.Props.C33_gather_partial",
    "Verif.Props.C33_gather_empty",
    "Verif.Props.C33_gather_false",
    "Verif.Props.C33_gather_serial",
    "Verif.Props.C33_scan",
    "Verif.Props.C33_offsets"
   ],
   "note": "gather proved for contiguous arguments with a common number of rows (or empty ones); false for blocks of larger matrices, whose outer stride is ignored. cumulative_sum and the offsets proved. MPI primitives trusted."
  },
  {
   "property": "C34",
   "status": "partial",
   "theorems": [
    "Verif.Props.C34_index_partial",
    "Verif.Props.C34_past_end",
    "Verif.Props.C34_false",
    "Verif.Props.C34_access",
    "Verif.Props.C34_direct",
    "Verif.Props.C34_append",
    "Verif.Props.C34_stable",
    "Verif.Props.C34_iterate"
   ],
   "note": "C34_false: operator[] also takes the index n (one past the end); proved: exact set of accepted indices, append, iteration, and that using a frame past the end raises an error."
  },
  {
   "property": "C35",
   "status": "proved",
   "theorems": [
    "Verif.Props.C35_write",
    "Verif.Props.C35_read",
    "Verif.Props.C35_round_trip",
    "Verif.Props.C35_other_frames",
    "Verif.Props.C35_read_missing",
    "Verif.Props.C35_registrable",
    "Verif.Props.C35_other_grid",
    "Verif.Props.C35_other_domain"
   ],
   "note": "For every field of a global collection that the file accepts at registration, in any storage order and any frame; which fields are accepted is characterised in C35_registrable. The library calls that move strided blocks are modelled (putVarm/getVarm) and trusted."
  },
  {
   "property": "C36",
   "status": "proved",
   "theorems": [
    "Verif.Props.C36_values",
    "Verif.Props.C36_order",
    "Verif.Props.C36_round_trip"
   ],
   "note": "For any number of ranks with disjoint subdomains; the ranks write one after another in any order, whole blocks at a time."
  },
  {
   "property": "C37",
   "status": "partial",
   "theorems": [
    "Verif.Props.C37_marks",
    "Verif.Props.C37_marks_outside",
    "Verif.Props.C37_slots_partial",
    "Verif.Props.C37_round_trip_partial",
    "Verif.Props.C37_registrable",
    "Verif.Props.C37_false",
    "Verif.Props.C37_row_major",
    "Verif.Props.C37_fewer_pixels",
    "Verif.Props.C37_file_partial",
    "Verif.Props.C37_read_partial",
    "Verif.Props.C37_collective_partial",
    "Verif.Props.C37_redistribute_partial",
    "Verif.Props.C37_entries"
   ],
   "note": "False as stated: C37_false (two pixels added in another order by the reader come back swapped). Proved instead: round trip with equal order, with ascending orders also across other decompositions; entries of pixels survive. C37_row_major, C37_fewer_pixels and C37_marks_outside are cases with undefined behaviour."
  },
  {
   "property": "C38",
   "status": "partial",
   "theorems": [
    "Verif.Props.C38_base_name",
    "Verif.Props.C38_index",
    "Verif.Props.C38_injective",
    "Verif.Props.C38_names_partial",
    "Verif.Props.C38_false",
    "Verif.Props.C38_kinds"
   ],
   "note": "C38_false: names with a double or leading underscore are not recognised; proved exactly for which names everything holds, index recovery and injectivity for all names."
  },
  {
   "property": "C39",
   "status": "partial",
   "theorems": [
    "Verif.Props.C39_outcome",
    "Verif.Props.C39_false",
    "Verif.Props.C39_never",
    "Verif.Props.C39_value",
    "Verif.Props.C39_never_value",
    "Verif.Props.C39_equal_partial",
    "Verif.Props.C39_missing_partial",
    "Verif.Props.C39_put",
    "Verif.Props.C39_taken_over"
   ],
   "note": "False as stated: C39_false. A differing unit is never reported (C39_never, C39_never_value): the file value replaces the registered one, and a longer value is written out of bounds (C39_outcome, C39_value). Proved: equal attributes are accepted unchanged, a missing attribute is an error."
  },
  {
   "property": "C40",
   "status": "partial",
   "theorems": [
    "Verif.Props.C40_false",
    "Verif.Props.C40_false_components",
    "Verif.Props.C40_unknown_partial",
    "Verif.Props.C40_fortran_partial",
    "Verif.Props.C40_c_order_partial"
   ],
   "note": "False as stated: C40_false (a sliced scalar array), C40_false_components (component axes in the other order than the pixels). Proved for all C-order and Fortran-order arrays and for all arrays in neither order of the library."
  },
  {
   "property": "C41",
   "status": "partial",
   "theorems": [
    "Verif.Props.C41_copy",
    "Verif.Props.C41_wrapped",
    "Verif.Props.C41_pixel_false",
    "Verif.Props.C41_pixel_row_major",
    "Verif.Props.C41_pixel_partial"
   ],
   "note": "C41_copy proves the claim for all fields of collections in the sub-point view, C41_wrapped for wrapped arrays. The pixel view is wrong in some layouts: C41_pixel_false, C41_pixel_row_major; C41_pixel_partial covers the others."
  },
  {
   "property": "C42",
   "status": "partial",
   "theorems": [
    "Verif.Props.C42_zip",
    "Verif.Props.C42_zip3",
    "Verif.Props.C42_arange_partial",
    "Verif.Props.C42_arange_away",
    "Verif.Props.C42_arange_false",
    "Verif.Props.C42_arange_endless",
    "Verif.Props.C42_enumerate_partial",
    "Verif.Props.C42_enumerate_start",
    "Verif.Props.C42_enumerate_false",
    "Verif.Props.C42_enum_zip"
   ],
   "note": "zip, enum_zip, enumerate from 0 and arange towards the stop proved; enumerate with a start and arange away from the stop deviate from python (negations proved, exact behaviour given)."
  },
  {
   "property": "C43",
   "status": "partial",
   "theorems": [
    "Verif.Props.C43_storage",
    "Verif.Props.C43_row_major",
    "Verif.Props.C43_get_false",
    "Verif.Props.C43_outer",
    "Verif.Props.C43_tensors",
    "Verif.Props.C43_tensmult",
    "Verif.Props.C43_special",
    "Verif.Props.C43_ddot",
    "Verif.Props.C43_dot"
   ],
   "note": "All contractions, outer products and special tensors proved for T4Mat (dense, column-major) in every dimension; get on parts of larger matrices leaves the part (C43_get_false)."
  },
  {
   "property": "C44",
   "status": "partial",
   "theorems": [
    "Verif.Props.C44_actual_partial",
    "Verif.Props.C44_false",
    "Verif.Props.C44_antisymmetric"
   ],
   "note": "C44_false: Iasymm is the symmetric part minus a third of the trace (C44_actual_partial); antisymmetric tensors are mapped to zero."
  },
  {
   "property": "C45",
   "status": "proved",
   "theorems": [
    "Verif.Props.C45_push_index",
    "Verif.Props.C45_composition",
    "Verif.Props.C45_inverse"
   ],
   "note": "rank 1, 2 and 4, every dimension, commutative (semi)rings; Eigen inverse() is a parameter assumed to be a two-sided inverse"
  },
  {
   "property": "C46",
   "status": "partial",
   "theorems": [
    "Verif.Props.C46_least_partial",
    "Verif.Props.C46_square_partial",
    "Verif.Props.C46_overflow",
    "Verif.Props.C46_nonpos",
    "Verif.Props.C46_false"
   ],
   "note": "Proved for 1..92680 (squares up to 304); beyond this int overflows, and non-positive arguments recurse forever."
  },
  {
   "property": "C47",
   "status": "partial",
   "theorems": [
    "Verif.Props.C47_local_partial",
    "Verif.Props.C47_local_values",
    "Verif.Props.C47_global_partial",
    "Verif.Props.C47_global_rank_fails",
    "Verif.Props.C47_false"
   ],
   "note": "C47_false / C47_global_rank_fails: on global collections clone throws and leaves a field behind unless the component shape has one axis; partial theorems: all attributes and values for one axis (global) and all values (local)"
  },
  {
   "property": "C48",
   "status": "proved",
   "theorems": [
    "Verif.Props.C48_reshape",
    "Verif.Props.C48_reshape_tag",
    "Verif.Props.C48_stale_count"
   ],
   "note": "exact success condition and effect of both reshape versions; finding: the entry count is stale after reshape with a tag (C48_stale_count)"
  },
  {
   "property": "C49",
   "status": "partial",
   "theorems": [
    "Verif.Props.C49_global_partial",
    "Verif.Props.C49_false",
    "Verif.Props.C49_local_partial"
   ],
   "note": "C49_false: a clone is always column-major with default strides; partial theorems: everything else agrees, and the layout agrees exactly for column-major originals"
  },
  {
   "property": "C50",
   "status": "proved",
   "theorems": [
    "Verif.Props.C50_same_layout",
    "Verif.Props.C50_components_needed",
    "Verif.Props.C50_refl_symm",
    "Verif.Props.C50_collections"
   ],
   "note": "C50_collections: after any programs the layouts of the two fields coincide entirely, strides and buffer size included, for global and local collections. C50_components_needed shows why the statement asks for equal component counts: the reported relation ignores the size of the last component."
  },
  {
   "property": "C51",
   "status": "partial",
   "theorems": [
    "Verif.Props.C51_follows",
    "Verif.Props.C51_history_partial",
    "Verif.Props.C51_false",
    "Verif.Props.C51_old_zero",
    "Verif.Props.C51_old_beyond"
   ],
   "note": "C51_follows: the map follows the state field for every memory size; C51_history_partial: it shows the history for memories N with N+1 a power of two; C51_false otherwise (consequence of C21)"
  },
  {
   "property": "C52",
   "status": "partial",
   "theorems": [
    "Verif.Props.C52_indices",
    "Verif.Props.C52_write",
    "Verif.Props.C52_read",
    "Verif.Props.C52_round_trip",
    "Verif.Props.C52_local_partial",
    "Verif.Props.C52_false"
   ],
   "note": "Proved for global state fields (any decomposition, storage order, memory size and number of cycles; entries of the history that share a field, see C21, come back consistently). For local collections with equal order of the pixels (C52_local_partial), and with ascending orders over any decompositions in whole programs (C62, C66); C52_false is the negation for other orders."
  },
  {
   "property": "C53",
   "status": "proved",
   "theorems": [
    "Verif.Props.C53_push_back",
    "Verif.Props.C53_sequence",
    "Verif.Props.C53_initialise",
    "Verif.Props.C53_initialise_fails"
   ],
   "note": "single call, sequences of calls interleaved with other fields, effect and failure condition of initialise"
  },
  {
   "property": "C54",
   "status": "partial",
   "theorems": [
    "Verif.Props.C54_in_bounds_partial",
    "Verif.Props.C54_exact",
    "Verif.Props.C54_false"
   ],
   "note": "C54_false: the assertions of operator[] admit nb_entries and, for pixel maps, many more; C54_exact gives the two sets; iteration stays in bounds (C54_in_bounds_partial)"
  },
  {
   "property": "C55",
   "status": "proved",
   "theorems": [
    "Verif.Props.C55_gradient"
   ],
   "note": "full formula of the gradient in terms of shape functions, node table and nodal values"
  },
  {
   "property": "C56",
   "status": "partial",
   "theorems": [
    "Verif.Props.C56_construct",
    "Verif.Props.C56_eq",
    "Verif.Props.C56_add_sub",
    "Verif.Props.C56_laws",
    "Verif.Props.C56_assoc",
    "Verif.Props.C56_div",
    "Verif.Props.C56_mod_partial",
    "Verif.Props.C56_false",
    "Verif.Props.C56_push_back",
    "Verif.Props.C56_array",
    "Verif.Props.C56_stale",
    "Verif.Props.C56_assign",
    "Verif.Props.C56_dim",
    "Verif.Props.C56_get",
    "Verif.Props.C56_python",
    "Verif.Props.C56_python_dim"
   ],
   "note": "All operations proved; % and %= do not reject different dimensions (negation proved, exact behaviour given). C56_python: len, [] and list in python; C56_python_dim: python DynCcoord(d) with d above 3 reads components which do not exist."
  },
  {
   "property": "C57",
   "status": "partial",
   "theorems": [
    "Verif.Props.C57_false",
    "Verif.Props.C57_dict_ignored",
    "Verif.Props.C57_scalar_partial",
    "Verif.Props.C57_new_key",
    "Verif.Props.C57_rejected",
    "Verif.Props.C57_get"
   ],
   "note": "C57_false: assigning a dict is silently lost (C57_dict_ignored) and new keys are rejected (C57_new_key); C57_scalar_partial: numbers and matrices under existing keys"
  },
  {
   "property": "C58",
   "status": "partial",
   "theorems": [
    "Verif.Props.C58_false",
    "Verif.Props.C58_zero",
    "Verif.Props.C58_errors"
   ],
   "note": "C58_false: the output is zeroed before the arguments are checked; C58_zero says what it holds afterwards"
  },
  {
   "property": "C59",
   "status": "partial",
   "theorems": [
    "Verif.Props.C59_total",
    "Verif.Props.C59_false",
    "Verif.Props.C59_text_partial"
   ],
   "note": "False as stated: C59_false (all dimensionless units with a tag print as the empty text). C59_text_partial says exactly which units share a text."
  },
  {
   "property": "C60",
   "status": "partial",
   "theorems": [
    "Verif.Props.C60_wrap",
    "Verif.Props.C60_false",
    "Verif.Props.C60_wrapped_partial",
    "Verif.Props.C60_exact"
   ],
   "note": "C60_wrap proves the claim for fields of collections in both views. False for arrays wrapped with their own strides: C60_false; C60_exact says when it holds."
  },
  {
   "property": "C61",
   "status": "partial",
   "theorems": [
    "Verif.Props.C61_fortran",
    "Verif.Props.C61_fortran_pixel",
    "Verif.Props.C61_c_order_partial",
    "Verif.Props.C61_rejected",
    "Verif.Props.C61_false"
   ],
   "note": "Proved for Fortran-contiguous arrays (both constructors). False for C-contiguous ones: C61_false; C61_rejected: always rejected with several sub-points if one of the first two grid axes has one point; C61_c_order_partial covers arrays without such axes."
  },
  {
   "property": "C62",
   "status": "proved",
   "theorems": [
    "Verif.Props.C62_places",
    "Verif.Props.C62_entries",
    "Verif.Props.C62_new",
    "Verif.Props.C62_append",
    "Verif.Props.C62_read",
    "Verif.Props.C62_any_program",
    "Verif.Props.C62_round_trip",
    "Verif.Props.C62_frames"
   ],
   "note": "C62_new, C62_append, C62_read: sequences of operations simulate a table; C62_any_program, C62_round_trip: independent of the program that opens the file. Pixels of local collections are added in ascending order (C37_false otherwise); programs read only what has been written (C63_false otherwise); the names of hidden variables are not used; a file that is appended has all its local collections written (C63_append_entries otherwise). A write to a file opened for reading names a field of a global collection first: an unread local field is silently not written (C66_silent)."
  },
  {
   "property": "C63",
   "status": "partial",
   "theorems": [
    "Verif.Props.C63_unwritten",
    "Verif.Props.C63_false",
    "Verif.Props.C63_written_partial",
    "Verif.Props.C63_trailing",
    "Verif.Props.C63_append_entries",
    "Verif.Props.C63_read_first"
   ],
   "note": "False as stated: C63_false (a value never written is read without error), C63_trailing (appended frames are lost), C63_append_entries and C63_read_first (entries of local pixels are lost). What holds is C62."
  },
  {
   "property": "C64",
   "status": "proved",
   "theorems": [
    "Verif.Props.C64_new",
    "Verif.Props.C64_variables",
    "Verif.Props.C64_again"
   ],
   "note": "C64_new, C64_variables: any list of collections on a common domain with distinct names, registered with the default arguments; C64_again: the file opened by another program. Attributes are left out (C39)."
  },
  {
   "property": "C65",
   "status": "partial",
   "theorems": [
    "Verif.Props.C65_unique",
    "Verif.Props.C65_kept",
    "Verif.Props.C65_taken",
    "Verif.Props.C65_false",
    "Verif.Props.C65_rejected_defined",
    "Verif.Props.C65_rejected_dimensions",
    "Verif.Props.C65_skipped",
    "Verif.Props.C65_hidden",
    "Verif.Props.C65_append_before",
    "Verif.Props.C65_rejected_partial"
   ],
   "note": "False as stated: C65_false; C65_rejected_defined, C65_rejected_dimensions, C65_skipped, C65_hidden, C65_append_before show what follows. Proved: names stay distinct, variables stay registered, a name in use is always rejected, and four kinds of rejections without any change (C65_rejected_partial)."
  },
  {
   "property": "C66",
   "status": "proved",
   "theorems": [
    "Verif.Props.C66_collective",
    "Verif.Props.C66_new",
    "Verif.Props.C66_programs",
    "Verif.Props.C66_round_trip",
    "Verif.Props.C66_silent"
   ],
   "note": "C66_collective: all processes define the same header; C66_new, C66_programs, C66_round_trip: from the registration of collections to the values that are read, for any list of programs. As for C62, the pixels of local collections ascend, programs read only what has been written, the names of local collections are not used as names of fields, and a program that appends finds all local collections written. All programs store the same fields. A write to a file opened for reading names a field of a global collection first: an unread local field is silently not written (C66_silent)."
  },
  {
   "property": "C67",
   "status": "partial",
   "theorems": [
    "Verif.Props.C67_new_partial",
    "Verif.Props.C67_existing_partial",
    "Verif.Props.C67_close",
    "Verif.Props.C67_uses_partial",
    "Verif.Props.C67_limit",
    "Verif.Props.C67_false",
    "Verif.Props.C67_append_blocked",
    "Verif.Props.C67_foreign",
    "Verif.Props.C67_example",
    "Verif.Props.C67_clash",
    "Verif.Props.C67_close_fails"
   ],
   "note": "Proved for sequences of calls that rename no attribute to a name in use, with collections registered before updates in append mode, and at most 30 attributes in a file that is opened (C67_new_partial, C67_existing_partial, C67_uses_partial, C67_close). False in general: C67_false (limit of 30), C67_clash, C67_append_blocked; closing fails in C67_foreign, C67_close_fails. Types are compared exactly and sizes by number of elements."
  },
  {
   "property": "C68",
   "status": "partial",
   "theorems": [
    "Verif.Props.C68_expm_lower",
    "Verif.Props.C68_expm",
    "Verif.Props.C68_logm_alt",
    "Verif.Props.C68_logm_alt_defined",
    "Verif.Props.C68_inverse",
    "Verif.Props.C68_logm_partial",
    "Verif.Props.C68_logm_defined",
    "Verif.Props.C68_solver",
    "Verif.Props.C68_logm_identity",
    "Verif.Props.C68_false",
    "Verif.Props.C68_logm_lower"
   ],
   "note": "expm and logm_alt are proved for all dimensions in exact arithmetic (C68_expm, C68_logm_alt, C68_inverse), with the eigenvalue solver as a parameter that is assumed correct (C68_solver: one exists). logm is proved for distinct eigenvalues (C68_logm_partial) and is undefined otherwise: C68_false, C68_logm_identity, C68_logm_defined. C68_logm_lower: wrong for matrices that are not symmetric. Rounding is not modelled."
  },
  {
   "property": "C69",
   "status": "proved",
   "theorems": [
    "Verif.Props.C69_gradient",
    "Verif.Props.C69_transpose",
    "Verif.Props.C69_values",
    "Verif.Props.C69_components",
    "Verif.Props.C69_rejected",
    "Verif.Props.C69_mismatch",
    "Verif.Props.C69_outside"
   ],
   "note": "C69_gradient and C69_transpose: values by the strides of the fields, all other fields and data of the collections unchanged, both fields in one or in different collections. C69_values: all these values exist; C69_components: index of a component of the derivative; C69_rejected: other storage orders are rejected after the output was set to zero. The storage orders and grids outside the statement are covered by C32, C58 and C69_rejected."
  },
  {
   "property": "C70",
   "status": "proved",
   "theorems": [
    "Verif.Props.C70_shows",
    "Verif.Props.C70_iterates",
    "Verif.Props.C70_same",
    "Verif.Props.C70_before",
    "Verif.Props.C70_initialise",
    "Verif.Props.C70_put",
    "Verif.Props.C70_coherent",
    "Verif.Props.C70_agree",
    "Verif.Props.C70_stale_pad",
    "Verif.Props.C70_stale_push",
    "Verif.Props.C70_popped",
    "Verif.Props.C70_popped_again",
    "Verif.Props.C70_reshaped",
    "Verif.Props.C70_static_before"
   ],
   "note": "C70_shows, C70_iterates, C70_put, C70_coherent, C70_agree, C70_same, C70_before, C70_initialise, for all programs that follow the rules of the statement (Lives, Maps.Careful). Each rule is needed: C70_stale_pad, C70_stale_push, C70_popped, C70_reshaped. C70_static_before: a static map is silently empty before the initialisation. Every growth of a buffer is taken to move it. C70_iterates has the hypotheses of C22 (no gaps between pixels, entry count up to date)."
  },
  {
   "property": "C71",
   "status": "partial",
   "theorems": [
    "Verif.Props.C71_made_iff",
    "Verif.Props.C71_made",
    "Verif.Props.C71_view",
    "Verif.Props.C71_in_use",
    "Verif.Props.C71_rejected",
    "Verif.Props.C71_atomic_partial",
    "Verif.Props.C71_optional_again",
    "Verif.Props.C71_optional_first",
    "Verif.Props.C71_optional_taken",
    "Verif.Props.C71_retry_partial",
    "Verif.Props.C71_state_made_iff",
    "Verif.Props.C71_state_static",
    "Verif.Props.C71_state_memory",
    "Verif.Props.C71_state_follows",
    "Verif.Props.C71_state_rejected",
    "Verif.Props.C71_mean",
    "Verif.Props.C71_atomic_false",
    "Verif.Props.C71_retry_false",
    "Verif.Props.C71_mean_empty"
   ],
   "note": "C71_made_iff, C71_made, C71_view (all later careful programs), C71_state_made_iff, C71_state_static, C71_state_memory, C71_state_follows, C71_optional_again, C71_optional_first, C71_mean are proved in full. False: C71_atomic_false (a constructor that throws leaves the field, C71_rejected and C71_state_rejected say when; C71_atomic_partial: sub-point iterates in column-major order), C71_retry_false (an optional field whose get has thrown can then not be filled; C71_retry_partial, C71_optional_taken); the static mean over no pixels is not a number (C71_mean, C71_mean_empty)."
  },
  {
   "property": "C72",
   "status": "partial",
   "theorems": [
    "Verif.Props.C72_assign_partial",
    "Verif.Props.C72_false",
    "Verif.Props.C72_self",
    "Verif.Props.C72_shape",
    "Verif.Props.C72_pixel_rejected",
    "Verif.Props.C72_negative",
    "Verif.Props.C72_wraps",
    "Verif.Props.C72_packed",
    "Verif.Props.C72_view",
    "Verif.Props.C72_set",
    "Verif.Props.C72_refused",
    "Verif.Props.C72_before"
   ],
   "note": "C72_assign_partial (one memory for array and field, any order of the axes, zero strides), C72_self, C72_shape, C72_view, C72_set (any python session), C72_refused are proved in full. False: C72_false (an array that shows the field itself in other places, for example its transpose); C72_negative (negative strides are divided as unsigned numbers; C72_wraps: right on machines whose addresses wrap around), C72_packed (strides that are no multiple of the element size), C72_before (a view taken before the initialisation is detached, an assignment writes through a null pointer). Conversions of element types are left to NumPy."
  },
  {
   "property": "C73",
   "status": "partial",
   "theorems": [
    "Verif.Props.C73_one",
    "Verif.Props.C73_programs_partial",
    "Verif.Props.C73_stops",
    "Verif.Props.C73_elements",
    "Verif.Props.C73_offsets",
    "Verif.Props.C73_refused",
    "Verif.Props.C73_matrix",
    "Verif.Props.C73_false",
    "Verif.Props.C73_gap",
    "Verif.Props.C73_local",
    "Verif.Props.C73_shape"
   ],
   "note": "C73_one and C73_programs_partial: any program on fields that are stored alike without gaps (for = on global collections: the same shape suffices). C73_elements: the elements exist; C73_offsets: what the vector operations do for any layouts; C73_refused; C73_matrix. False in general: C73_false (different storage orders), C73_gap (pixels with gaps), C73_local (= between local collections), C73_shape (other shapes are accepted)."
  },
  {
   "property": "C74",
   "status": "partial",
   "theorems": [
    "Verif.Props.C74_sub_pt_partial",
    "Verif.Props.C74_pixel_partial",
    "Verif.Props.C74_every_column",
    "Verif.Props.C74_refused",
    "Verif.Props.C74_write",
    "Verif.Props.C74_maps",
    "Verif.Props.C74_false",
    "Verif.Props.C74_refused_contiguous"
   ],
   "note": "C74_sub_pt_partial and C74_pixel_partial for column-major collections; C74_every_column, C74_maps, C74_write, C74_refused. False for row-major collections (C74_false); C74_refused_contiguous: some contiguous pixels are refused because of C04_false."
  },
  {
   "property": "C75",
   "status": "partial",
   "theorems": [
    "Verif.Props.C75_false",
    "Verif.Props.C75_same_partial",
    "Verif.Props.C75_dimension",
    "Verif.Props.C75_construct",
    "Verif.Props.C75_exact",
    "Verif.Props.C75_unset"
   ],
   "note": "The claim is false of the code (C75_false): the static iterator does not look at the contiguity flag. C75_same_partial where the dynamic iteration is permitted; C75_exact: without one-point axes these are exactly the good cases; C75_dimension, C75_construct, C75_unset."
  },
  {
   "property": "C76",
   "status": "proved",
   "theorems": [
    "Verif.Props.C76_get",
    "Verif.Props.C76_cast",
    "Verif.Props.C76_register",
    "Verif.Props.C76_program",
    "Verif.Props.C76_state",
    "Verif.Props.C76_state_program",
    "Verif.Props.C76_popped"
   ],
   "note": "C76_get, C76_cast, C76_register for single calls; C76_program, C76_state, C76_state_program for any further calls. C76_popped shows why fields of a state field must not be popped."
  },
  {
   "property": "C77",
   "status": "partial",
   "theorems": [
    "Verif.Props.C77_static",
    "Verif.Props.C77_pixels",
    "Verif.Props.C77_indices_partial",
    "Verif.Props.C77_pixel_map",
    "Verif.Props.C77_uninitialised",
    "Verif.Props.C77_false"
   ],
   "note": "C77_static and C77_pixels are proved in full. For maps sized at run time enumerate_indices is right over sub-points or with one sub-point per pixel (C77_indices_partial); over pixels it is wrong (C77_false; C77_pixel_map says what it does). C77_uninitialised."
  },
  {
   "property": "C78",
   "status": "partial",
   "theorems": [
    "Verif.Props.C78_false",
    "Verif.Props.C78_slice",
    "Verif.Props.C78_map",
    "Verif.Props.C78_pixels",
    "Verif.Props.C78_frame",
    "Verif.Props.C78_register",
    "Verif.Props.C78_collected",
    "Verif.Props.C78_never_back",
    "Verif.Props.C78_strong_partial",
    "Verif.Props.C78_undefined",
    "Verif.Props.C78_programs_partial",
    "Verif.Props.C78_careful_partial",
    "Verif.Props.C78_window",
    "Verif.Props.C78_weak",
    "Verif.Props.C78_frame_use"
   ],
   "note": "The full claim is false (C78_false: f.s does not keep its field; C78_slice, C78_map, C78_pixels, C78_frame, C78_register). Proved: C78_collected and C78_never_back in full; objects of the other classes are always safe (C78_strong_partial) and so are programs that use only these (C78_programs_partial) or that hold on to collections and files (C78_careful_partial); exactly when the others can be used (C78_window, C78_weak, C78_frame_use). The references kept by pybind11 and NumPy are a model of these libraries."
  },
  {
   "property": "C79",
   "status": "partial",
   "theorems": [
    "Verif.Props.C79_sum_wraps",
    "Verif.Props.C79_sum",
    "Verif.Props.C79_sum_real",
    "Verif.Props.C79_one_type",
    "Verif.Props.C79_max",
    "Verif.Props.C79_logical",
    "Verif.Props.C79_bcast",
    "Verif.Props.C79_scan",
    "Verif.Props.C79_scan_int",
    "Verif.Props.C79_matrix_partial",
    "Verif.Props.C79_matrix_false",
    "Verif.Props.C79_matrix_serial",
    "Verif.Props.C79_choose_sum",
    "Verif.Props.C79_choose_int",
    "Verif.Props.C79_python_false",
    "Verif.Props.C79_python_exact",
    "Verif.Props.C79_python_sum_partial",
    "Verif.Props.C79_python_sum_float",
    "Verif.Props.C79_python_truncates",
    "Verif.Props.C79_python_bcast_undefined",
    "Verif.Props.C79_python_bcast_false",
    "Verif.Props.C79_python_bcast_partial",
    "Verif.Props.C79_python_scan_partial",
    "Verif.Props.C79_factory"
   ],
   "note": "Scalars in C++ are proved in full (C79_sum, C79_sum_wraps, C79_sum_real, C79_max, C79_logical, C79_scan, C79_scan_int, C79_bcast). Matrices in contiguous memory (C79_matrix_partial); for parts of larger matrices it is false (C79_matrix_false, C79_matrix_serial). In python the overload is chosen by value on each rank: false (C79_python_false, C79_python_bcast_false, C79_python_truncates), right for integers below 2^31 and floats; C79_python_exact says exactly when integers can be summed. MPI and the overload resolution of pybind11 are trusted models; exact arithmetic for floating point."
  },
  {
   "property": "C80",
   "status": "partial",
   "theorems": [
    "Verif.Props.C80_call_partial",
    "Verif.Props.C80_program_partial",
    "Verif.Props.C80_start",
    "Verif.Props.C80_shows",
    "Verif.Props.C80_store_load",
    "Verif.Props.C80_index",
    "Verif.Props.C80_pixel_sub_pt",
    "Verif.Props.C80_false",
    "Verif.Props.C80_row_major_aliases"
   ],
   "note": "Refinement proved for all programs (C80_program_partial, C80_call_partial), started by the python constructor (C80_start) or from any initialised collection, also local or strided (C80_shows); C80_store_load and C80_pixel_sub_pt are consequences for all sizes. Missing: f.p of fields with several sub-points in row-major collections, for which the claim is false (C80_false, C80_row_major_aliases). numpy indexing is a trusted model; NaN and floating point are not involved, values are copied."
  },
  {
   "property": "C81",
   "status": "partial",
   "theorems": [
    "Verif.Props.C81_uses_partial",
    "Verif.Props.C81_program_partial",
    "Verif.Props.C81_write_read",
    "Verif.Props.C81_value_partial",
    "Verif.Props.C81_kind",
    "Verif.Props.C81_truncates",
    "Verif.Props.C81_huge",
    "Verif.Props.C81_bytes",
    "Verif.Props.C81_rejects",
    "Verif.Props.C81_false",
    "Verif.Props.C81_update_types"
   ],
   "note": "Proved for texts, lists of int of 64 bits, and lists of float and of int that are exactly a double: whole programs with any number of uses of the file (C81_program_partial, C81_uses_partial), single values (C81_value_partial), the type in the file (C81_kind), rejected values (C81_rejects). The full claim is false: lists of np.float32 are truncated to integers (C81_false, C81_truncates), int beyond 64 bits are rounded (C81_huge), bytes come back as str or make the dictionary unreadable (C81_bytes). The overload resolution of pybind11 is a trusted model; the conditions of C67 remain (30 attributes, no clash of names, registration before updates)."
  },
  {
   "property": "C82",
   "status": "partial",
   "theorems": [
    "Verif.Props.C82_new_partial",
    "Verif.Props.C82_programs_partial",
    "Verif.Props.C82_round_trip_partial",
    "Verif.Props.C82_make",
    "Verif.Props.C82_session_partial",
    "Verif.Props.C82_false"
   ],
   "note": "Refinement proved for whole programs on any number of processes, from the python constructors on (C82_session_partial, C82_make), for chains of programs with other decompositions and storage orders (C82_programs_partial), and the round trip of every element as a consequence (C82_round_trip_partial). Missing: programs that read a frame of a field that was not written, for which the claim is false (C82_false); f.p in row-major collections as in C80; names with characters that disturb dimension names, scalar fields with several sub-points (C64, C65); local collections and state fields, which are in C66 without the python layer."
  },
  {
   "property": "C83",
   "status": "partial",
   "theorems": [
    "Verif.Props.C83_no_complex",
    "Verif.Props.C83_complex_rejected",
    "Verif.Props.C83_complex_error",
    "Verif.Props.C83_left_behind",
    "Verif.Props.C83_types",
    "Verif.Props.C83_false",
    "Verif.Props.C83_round_trip_partial"
   ],
   "note": "The full claim is false of the code (C83_false: the types are not compared when a file is opened). Proved in full: C83_no_complex, C83_complex_rejected, C83_complex_error, C83_types; C83_round_trip_partial gives the exact condition (equal types) for global fields; C83_left_behind: dimensions of a rejected complex field stay."
  },
  {
   "property": "C84",
   "status": "partial",
   "theorems": [
    "Verif.Props.C84_shortest",
    "Verif.Props.C84_pointwise_partial",
    "Verif.Props.C84_false"
   ],
   "note": "C84_pointwise_partial for maps with the same number of entries (all over pixels, or over sub-points of fields with the same number of them); C84_shortest says in general what a loop does. False for maps over pixels together with maps over sub-points (C84_false). Maps of one collection; the right hand side of a statement is evaluated before it is assigned."
  },
  {
   "property": "C85",
   "status": "partial",
   "theorems": [
    "Verif.Props.C85_exact",
    "Verif.Props.C85_value_partial",
    "Verif.Props.C85_rejected",
    "Verif.Props.C85_subtract",
    "Verif.Props.C85_false"
   ],
   "note": "The full claim is false of the code (C85_false: m -= m[0]). C85_exact says what happens for any operation and any entry; C85_value_partial: values in other fields, and operator=; C85_subtract."
  },
  {
   "property": "C86",
   "status": "partial",
   "theorems": [
    "Verif.Props.C86_exact",
    "Verif.Props.C86_false",
    "Verif.Props.C86_refused",
    "Verif.Props.C86_accepted",
    "Verif.Props.C86_large_part",
    "Verif.Props.C86_programs_partial",
    "Verif.Props.C86_numpy_refused",
    "Verif.Props.C86_numpy_partial",
    "Verif.Props.C86_contiguous_partial",
    "Verif.Props.C86_contiguous_exact",
    "Verif.Props.C86_contiguous_overlap"
   ],
   "note": "The full claim is false of the code (C86_false: a domain of 2048^3 points is refused however it is distributed, being counted as 0 points). C86_exact: the count is the product modulo 2^32 as an int; C86_refused and C86_accepted say exactly which domains are refused; C86_large_part; C86_programs_partial: programs on grids below 2^31 points behave as with unbounded counts; C86_contiguous_partial, C86_contiguous_exact and C86_contiguous_overlap: the test for contiguous buffers, whose running product is an int. Numbers of components are still taken as unbounded."
  },
  {
   "property": "C87",
   "status": "proved",
   "theorems": [
    "Verif.Props.C87_calls",
    "Verif.Props.C87_finite",
    "Verif.Props.C87_ends",
    "Verif.Props.C87_reads_race_free",
    "Verif.Props.C87_global_race_free",
    "Verif.Props.C87_local_race_free",
    "Verif.Props.C87_write_read",
    "Verif.Props.C87_hangs",
    "Verif.Props.C87_overlap",
    "Verif.Props.C87_local_write_read"
   ],
   "note": "C87_calls, C87_finite, C87_ends for all calls that do not race; C87_global_race_free, C87_local_race_free, C87_reads_race_free: fields with parts that do not overlap do not race; C87_write_read, C87_local_write_read. C87_hangs and C87_overlap show what happens without the hypotheses. Trusted: a collective call returns after all processes have made it, and what was copied before it is seen after it."
  },
  {
   "property": "C88",
   "status": "partial",
   "theorems": [
    "Verif.Props.C88_false",
    "Verif.Props.C88_assign_partial",
    "Verif.Props.C88_map_undefined",
    "Verif.Props.C88_copy",
    "Verif.Props.C88_self",
    "Verif.Props.C88_memory"
   ],
   "note": "The full claim is false of the code (C88_false: a map assigned to a number). C88_assign_partial: all sequences of numbers and matrices; C88_map_undefined, C88_copy, C88_self, C88_memory say exactly which other assignments are undefined."
  },
  {
   "property": "C89",
   "status": "partial",
   "theorems": [
    "Verif.Props.C89_defined",
    "Verif.Props.C89_exists",
    "Verif.Props.C89_leak",
    "Verif.Props.C89_values_partial",
    "Verif.Props.C89_end_partial",
    "Verif.Props.C89_no_cycle",
    "Verif.Props.C89_same",
    "Verif.Props.C89_false"
   ],
   "note": "The full claim is false of the code (C89_false: a dictionary added to itself is never destroyed). C89_defined, C89_exists and C89_same hold without restriction; C89_values_partial and C89_end_partial if no dictionary contains itself, C89_no_cycle says which statement can make that happen, C89_leak what is never destroyed."
  },
  {
   "property": "C90",
   "status": "partial",
   "theorems": [
    "Verif.Props.C90_volume",
    "Verif.Props.C90_dimensions",
    "Verif.Props.C90_cubic",
    "Verif.Props.C90_tiles",
    "Verif.Props.C90_inside",
    "Verif.Props.C90_python_partial",
    "Verif.Props.C90_python_wraps",
    "Verif.Props.C90_false",
    "Verif.Props.C90_cube"
   ],
   "note": "Volumes and positions are proved in full in exact arithmetic (C90_volume, C90_tiles, C90_inside, C90_cubic, C90_cube; C90_dimensions: arguments of different dimensions are not rejected). Numbering in python is proved up to 2^31 pixels (C90_python_partial); beyond the last pixel the numbers wrap around (C90_python_wraps). The full claim is false (C90_false: negative numbers give coordinates outside of the grid, and numbers are computed in int)."
  },
  {
   "property": "C91",
   "status": "partial",
   "theorems": [
    "Verif.Props.C91_accept",
    "Verif.Props.C91_fixed",
    "Verif.Props.C91_maps",
    "Verif.Props.C91_assign",
    "Verif.Props.C91_overlap",
    "Verif.Props.C91_zero_partial",
    "Verif.Props.C91_zero_exact",
    "Verif.Props.C91_tight",
    "Verif.Props.C91_false",
    "Verif.Props.C91_zero_gaps",
    "Verif.Props.C91_vec_partial",
    "Verif.Props.C91_plus_orders",
    "Verif.Props.C91_resize",
    "Verif.Props.C91_zero_defined",
    "Verif.Props.C91_vec_defined",
    "Verif.Props.C91_copy_rejects",
    "Verif.Props.C91_programs_partial",
    "Verif.Props.C91_inside_false",
    "Verif.Props.C91_inside_partial",
    "Verif.Props.C91_matrix_exact",
    "Verif.Props.C91_matrix_block"
   ],
   "note": "The full claim is false of the code (C91_false: set_zero on a strided array; C91_plus_orders: += of fields of different order; C91_inside_false: the size is compared with the pixels, not with the places of a buffer with gaps; C91_matrix_block: blocks of matrices; C91_overlap). Assignment of global fields is proved for all strides (C91_assign); all operations and programs for fields without gaps (C91_zero_partial, C91_zero_exact, C91_vec_partial, C91_programs_partial, C91_tight says which these are), C91_accept, C91_fixed, C91_maps, C91_matrix_exact, C91_inside_partial."
  },
  {
   "property": "C92",
   "status": "partial",
   "theorems": [
    "Verif.Props.C92_rank_partial",
    "Verif.Props.C92_rank_one",
    "Verif.Props.C92_maps_partial",
    "Verif.Props.C92_rank_sound",
    "Verif.Props.C92_push_partial",
    "Verif.Props.C92_push_one",
    "Verif.Props.C92_one_exact",
    "Verif.Props.C92_false",
    "Verif.Props.C92_inverse",
    "Verif.Props.C92_dot_partial",
    "Verif.Props.C92_dot_false",
    "Verif.Props.C92_dot_one",
    "Verif.Props.C92_ddot_partial",
    "Verif.Props.C92_ddot_false",
    "Verif.Props.C92_tensmult"
   ],
   "note": "The full claim is false of the code (C92_false: in one dimension every tensor is taken for a vector, so that second- and fourth-order tensors are multiplied with F only once; C92_one_exact says when the result is right anyway; C92_dot_false, C92_ddot_false, C92_dot_one: calls that do not compile). From two dimensions on the order is recovered and all operations are the ones of index notation (C92_rank_partial, C92_push_partial, C92_dot_partial, C92_ddot_partial); C92_inverse and C92_tensmult hold in all dimensions."
  },
  {
   "property": "C93",
   "status": "proved",
   "theorems": [
    "Verif.Props.C93_linear",
    "Verif.Props.C93_linear_stored",
    "Verif.Props.C93_mean",
    "Verif.Props.C93_forces",
    "Verif.Props.C93_uniform"
   ],
   "note": "C93_linear and C93_linear_stored (for stored fields), C93_mean, C93_forces (any weights), C93_uniform, for gap-free periodic grids as in C55 and C69. Nodes of elements may lie anywhere in their pixels; with several nodes per pixel zero mean needs the gradients to balance for each of them (BalancedNodes)."
  },
  {
   "property": "C94",
   "status": "proved",
   "theorems": [
    "Verif.Props.C94_programs",
    "Verif.Props.C94_others",
    "Verif.Props.C94_read",
    "Verif.Props.C94_same"
   ],
   "note": "C94_programs (any sequence of programs with different subsets of the fields), C94_others (what a program does not have stays as it is), C94_read; C94_same: C66 is the special case of all fields. A program that adds to a file needs the entries of the local collections it uses to have been written (C63), and fields of one of its collections come from one collection of the program that created the file."
  },
  {
   "property": "C95",
   "status": "partial",
   "theorems": [
    "Verif.Props.C95_calls",
    "Verif.Props.C95_new",
    "Verif.Props.C95_programs_partial",
    "Verif.Props.C95_false"
   ],
   "note": "The full claim is false of the code (C95_false: a program that opens a file with Append and updates an attribute before it registers its collections leaves the library in define mode, and all its writes fail). C95_calls: on a registered file the data calls are exactly those without attribute calls; C95_new: creation of a file; C95_programs_partial: any sequence of programs, without updates before registration in existing files."
  },
  {
   "property": "C96",
   "status": "partial",
   "theorems": [
    "Verif.Props.C96_false",
    "Verif.Props.C96_push_back",
    "Verif.Props.C96_calls_partial",
    "Verif.Props.C96_programs_partial",
    "Verif.Props.C96_clone_partial",
    "Verif.Props.C96_write"
   ],
   "note": "The full claim is false of the code (C96_false: clone of a field of a global collection before its initialisation copies through null pointers; C96_push_back: clone of a local field after push_back). C96_calls_partial: all other calls, on every collection; C96_clone_partial: clones in sensibly used collections; C96_programs_partial: programs of any length; C96_write: writes, exactly."
  },
  {
   "property": "C97",
   "status": "partial",
   "theorems": [
    "Verif.Props.C97_arguments_global",
    "Verif.Props.C97_arguments_local",
    "Verif.Props.C97_transfer",
    "Verif.Props.C97_programs_partial",
    "Verif.Props.C97_converts_write",
    "Verif.Props.C97_converts_read",
    "Verif.Props.C97_left_independent",
    "Verif.Props.C97_stuck",
    "Verif.Props.C97_recovers",
    "Verif.Props.C97_false"
   ],
   "note": "The full claim is false of the code (C97_false: a read of a local field that throws leaves PnetCDF in the independent mode; C97_left_independent, C97_stuck: every transfer of a global field then throws until one of a local field succeeds, C97_recovers). C97_transfer: one transfer, any outcome; C97_programs_partial: programs of any length that succeed in the serial build; C97_arguments_global, C97_arguments_local: element counts, types and pointer steps; C97_converts_write, C97_converts_read: variables of other types."
  },
  {
   "property": "C98",
   "status": "partial",
   "theorems": [
    "Verif.Props.C98_outcomes",
    "Verif.Props.C98_calls",
    "Verif.Props.C98_returns",
    "Verif.Props.C98_returns_iff",
    "Verif.Props.C98_defines",
    "Verif.Props.C98_sums",
    "Verif.Props.C98_missing",
    "Verif.Props.C98_read_partial",
    "Verif.Props.C98_false",
    "Verif.Props.C98_waits"
   ],
   "note": "Registration is proved in full: C98_outcomes, C98_calls, C98_returns for any number of processes and any sequence of registrations, refused ones included (pixels of local collections lie in the subdomain; storage orders are row- or column-major); C98_defines and C98_sums tie the calls to the result; C98_returns_iff: equal calls are exactly what is needed. For reading local fields the claim is false (C98_false, C98_waits: a frame that was appended and not written, with a process that has no pixels); C98_missing says exactly when, C98_read_partial: frames in the file."
  },
  {
   "property": "C99",
   "status": "partial",
   "theorems": [
    "Verif.Props.C99_create_refused_partial",
    "Verif.Props.C99_programs_refused_partial",
    "Verif.Props.C99_step",
    "Verif.Props.C99_fails",
    "Verif.Props.C99_run_partial",
    "Verif.Props.C99_create_partial",
    "Verif.Props.C99_programs_partial",
    "Verif.Props.C99_round_trip",
    "Verif.Props.C99_stuck",
    "Verif.Props.C99_false"
   ],
   "note": "The full claim is false of the code (C99_false: a program that asks for a frame of a local field that does not exist and catches the exception can read other fields in the serial build and not in the parallel one; C99_stuck: a file in the independent mode refuses all global fields, for writing and reading, and changes nothing). Proved: operations and runs that succeed in the serial build do the same in the parallel one (C99_step, C99_run_partial), those that fail in the one fail in the other (C99_fails, not for writes to files opened for reading), programs that create a file (C99_create_partial), chains of programs (C99_programs_partial) and the round trip (C99_round_trip). With refused calls too (unknown names, frames that do not exist, writes to files opened for reading) programs and chains of programs do the same in both builds (C99_create_refused_partial, C99_programs_refused_partial), unless a local field is read at a frame before the first one, written first to a file opened for reading, or read where nothing was written. Requests of a process before a failing one are taken to have no effect."
  },
  {
   "property": "C100",
   "status": "proved",
   "theorems": [
    "Verif.Props.C100_files",
    "Verif.Props.C100_finds",
    "Verif.Props.C100_others",
    "Verif.Props.C100_read_only",
    "Verif.Props.C100_refuses",
    "Verif.Props.C100_overwrites"
   ],
   "note": "C100_files: outcomes and contents for any sequence of programs and files (well-formed collections, fields read only where they were written, writes in read mode only such as are refused, see C66_silent; each file open once at a time); C100_finds: a later program reads what was written; C100_others: files that no call names; C100_read_only: any calls on a file opened for reading, or refused by Write; C100_refuses: the modes; C100_overwrites: Overwrite forgets everything."
  },
  {
   "property": "C101",
   "status": "partial",
   "theorems": [
    "Verif.Props.C101_refused_partial",
    "Verif.Props.C101_step",
    "Verif.Props.C101_run",
    "Verif.Props.C101_read_local",
    "Verif.Props.C101_write_local",
    "Verif.Props.C101_create_partial",
    "Verif.Props.C101_programs_partial",
    "Verif.Props.C101_serial_partial",
    "Verif.Props.C101_false"
   ],
   "note": "The full claim is false of the code (C101_false: reading a local field in a frame that was appended and not written; the process without local pixels waits for ever). Proved: as long as no call ends on some processes with an exception and on others without, all make the same calls and come to their end, for operations (C101_step), sequences (C101_run), programs that create a file (C101_create_partial) and programs that open it afterwards (C101_programs_partial), also with calls refused on all processes; if all calls succeed in the serial build nobody waits in the parallel one (C101_serial_partial); for local fields the processes come back exactly if the outcomes agree (C101_read_local, C101_write_local). C101_refused_partial: programs whose calls succeed or are refused, without an assumption on the outcomes, as long as nothing is read that was not written, no local field is read at a frame before the first one or written first to a file opened for reading. Missing: the other programs, for which it fails in C101_false; opening and closing and the calls for attributes."
  },
  {
   "property": "C102",
   "status": "partial",
   "theorems": [
    "Verif.Props.C102_stays",
    "Verif.Props.C102_loop",
    "Verif.Props.C102_programs_partial",
    "Verif.Props.C102_false",
    "Verif.Props.C102_late"
   ],
   "note": "The full claim is false of the code (C102_false: file[n] of a file with n frames is accepted and later stands for the frame appended next, see C34_past_end). Proved: programs behave as the table says, including programs that open the file afterwards, if they do not ask for that frame (C102_programs_partial with late = false) or if the table gives the row appended next for it (late = true); reads only of what has been written, writes in read mode only such as are refused, as in C66. Without conditions: frames stay (C102_stays) and loops go once through the frames."
  },
  {
   "property": "C103",
   "status": "partial",
   "theorems": [
    "Verif.Props.C103_objects",
    "Verif.Props.C103_files",
    "Verif.Props.C103_write_returns",
    "Verif.Props.C103_throws_partial",
    "Verif.Props.C103_false"
   ],
   "note": "The last sentence is false of the code (C103_false: write of a local field of a closed object that was opened for reading returns normally, because no request is made). Proved: everything else, for all programs and all ways in which the library chooses unused ids (C103_objects, with the tables of C100 in C103_files), exactly when write on a closed object returns normally (C103_write_returns), and that calls naming a field of a global collection throw (C103_throws_partial)."
  },
  {
   "property": "C104",
   "status": "partial",
   "theorems": [
    "Verif.Props.C104_create",
    "Verif.Props.C104_programs_partial",
    "Verif.Props.C104_false"
   ],
   "note": "The full claim is false of the code (C104_false: the refused write of a local field to a file open for reading leaves the file in the independent mode, and reading fails afterwards). Proved: programs that create files without any such condition (C104_create), and sequences of programs in which none begins to write a local field to a file open for reading (C104_programs_partial); as in C102 nothing is read that has not been written; file[n] of a file with n frames is allowed (late = true)."
  },
  {
   "property": "C105",
   "status": "partial",
   "theorems": [
    "Verif.Props.C105_exec",
    "Verif.Props.C105_create_partial",
    "Verif.Props.C105_programs_partial",
    "Verif.Props.C105_false"
   ],
   "note": "The full claim is false of the code (C105_false: a loop reads a local field at a frame that has been appended and not written; a process without pixels waits for ever). Proved: whenever the program ends with the same outcome on all processes they make the same calls (C105_exec, C105_create_partial), and this is so for all programs of C104_programs_partial (C105_programs_partial): nothing is read that has not been written, no local field is written to a file open for reading; file[n] of a file with n frames is allowed (late = true)."
  },
  {
   "property": "C106",
   "status": "proved",
   "theorems": [
    "Verif.Props.C106_iterator",
    "Verif.Props.C106_reversed",
    "Verif.Props.C106_all",
    "Verif.Props.C106_programs",
    "Verif.Props.C106_past_end",
    "Verif.Props.C106_late"
   ],
   "note": "Conditions as in the property: what is read has been written, and file[n] of a file with n frames is not asked for (see C102_false). Without the second condition the same holds with file[n] standing for the frame that is appended next (C106_past_end). The iterators themselves behave as claimed in every state, without conditions (C106_iterator, C106_reversed, C106_all)."
  },
  {
   "property": "C107",
   "status": "proved",
   "theorems": [
    "Verif.Props.C107_same",
    "Verif.Props.C107_steps",
    "Verif.Props.C107_returns"
   ],
   "note": "Conditions as in the property; they are needed, see C104_false (local field written to a file open for reading) and C105_false (reading what has not been written). file[n] of a file with n frames is allowed and stands for the frame appended next (late = true)."
  },
  {
   "property": "C108",
   "status": "partial",
   "theorems": [
    "Verif.Props.C108_loop_partial",
    "Verif.Props.C108_recurrence_partial",
    "Verif.Props.C108_size",
    "Verif.Props.C108_registered_partial",
    "Verif.Props.C108_false",
    "Verif.Props.C108_exact",
    "Verif.Props.C108_mapped_partial"
   ],
   "note": "Proved for all memories N with N + 1 a power of two (C108_loop_partial, C108_recurrence_partial; from the registration on, C108_registered_partial, also for MappedStateField, C108_mapped_partial). C108_exact: these are exactly the memories for which time stepping works; for others the history shares fields (C21) and the values are wrong, C108_false with N = 2."
  }
 ]
}