{
 "claims": [
  {
   "property": "C01",
   "status": "proved",
   "theorems": [
    "Litl.C01_index_bijective",
    "Litl.C01_allocated_size",
    "Litl.C01_unique_position"
   ],
   "note": "All dimensions and non-negative shapes, on unbounded integers."
  },
  {
   "property": "C02",
   "status": "proved",
   "theorems": [
    "Litl.C02_index_eq_offset",
    "Litl.C02_shapeStride",
    "Litl.C02_step_along_axis",
    "Litl.C02_variable_dimension"
   ],
   "note": "All shapes and positions, inside of the domain or not, on unbounded integers."
  },
  {
   "property": "C03",
   "status": "proved",
   "theorems": [
    "Litl.C03_domain_storage_order"
   ],
   "note": "All shapes with positive lengths."
  },
  {
   "property": "C04",
   "status": "proved",
   "theorems": [
    "Litl.C04_box_iteration",
    "Litl.C04_box_iteration_unique",
    "Litl.C04_storage_order"
   ],
   "note": "All non-empty boxes of dimension at least 1."
  },
  {
   "property": "C05",
   "status": "partial",
   "theorems": [
    "Litl.C05_empty_box_diverges",
    "Litl.C05_violated",
    "Litl.C05_terminates_iff_nonempty_partial"
   ],
   "note": "The code violates the property: looping over any empty box does not terminate (C05_empty_box_diverges). Full statement: C05_Statement, negated by C05_violated."
  },
  {
   "property": "C06",
   "status": "proved",
   "theorems": [
    "Litl.C06_at_throws_iff",
    "Litl.C06_at_value"
   ],
   "note": "All shapes and positions."
  },
  {
   "property": "C07",
   "status": "proved",
   "theorems": [
    "Litl.C07_at_throws_iff",
    "Litl.C07_at_value"
   ],
   "note": "On 64-bit machine integers with mixed signedness; container sizes below 2^63."
  },
  {
   "property": "C08",
   "status": "proved",
   "theorems": [
    "Litl.C08_contains_iff",
    "Litl.C08_contains_iff_visited",
    "Litl.C08_contains_safe"
   ],
   "note": "Integral positions; all shapes."
  },
  {
   "property": "C09",
   "status": "partial",
   "theorems": [
    "Litl.C09_domain_1d_partial",
    "Litl.C09_wrong_dimension",
    "Litl.C09_violated"
   ],
   "note": "The code violates the property for each dimension but 1 (C09_wrong_dimension, C09_violated). Full statement: C09_Statement."
  },
  {
   "property": "C10",
   "status": "proved",
   "theorems": [
    "Litl.C10_shift_positions",
    "Litl.C10_shift_shape",
    "Litl.C10_grow_shrink",
    "Litl.C10_grow_neg",
    "Litl.C10_fromShape",
    "Litl.C10_fromCenter",
    "Litl.C10_eq",
    "Litl.C10_scalar_shift"
   ],
   "note": "All boxes and vectors."
  },
  {
   "property": "C11",
   "status": "partial",
   "theorems": [
    "Litl.C11_size_count_partial",
    "Litl.C11_size_right_iff",
    "Litl.C11_violated"
   ],
   "note": "The code violates the property for boxes with a negative length and no null length (C11_violated); C11_size_right_iff characterises the boxes for which it holds."
  },
  {
   "property": "C12",
   "status": "proved",
   "theorems": [
    "Litl.C12_surround_partition"
   ],
   "note": "All non-empty boxes and margins with non-positive front and non-negative back."
  },
  {
   "property": "C13",
   "status": "proved",
   "theorems": [
    "Litl.C13_project",
    "Litl.C13_clamp_closest",
    "Litl.C13_clamp_inside"
   ],
   "note": "clamp(position, box) cannot be instantiated (it reads box.front[i], where front is a method); only the overload with a shape is modelled."
  },
  {
   "property": "C14",
   "status": "proved",
   "theorems": [
    "Litl.C14_slice_throws_iff",
    "Litl.C14_isContiguous_iff",
    "Litl.C14_slice_exact",
    "Litl.C14_slice_contiguous",
    "Litl.C14_contiguous_complete"
   ],
   "note": "All regions and slice dimensions; completeness of the contiguity test is proved too."
  },
  {
   "property": "C15",
   "status": "proved",
   "theorems": [
    "Litl.C15_section2",
    "Litl.C15_section1",
    "Litl.C15_nested",
    "Litl.C15_write"
   ],
   "note": "All shapes; nesting and writes included."
  },
  {
   "property": "C16",
   "status": "proved",
   "theorems": [
    "Litl.C16_iteration",
    "Litl.C16_iteration_unique",
    "Litl.C16_access"
   ],
   "note": "Non-empty regions inside of the raster; see C05 for empty ones."
  },
  {
   "property": "C17",
   "status": "proved",
   "theorems": [
    "Litl.C17_ball_iteration",
    "Litl.C17_ball_iteration_unique",
    "Litl.C17_l1_distance",
    "Litl.C17_l2_distance",
    "Litl.C17_negative_radius_diverges"
   ],
   "note": "Exact arithmetic: the radius is rational and powers are exact; exponents are positive naturals."
  },
  {
   "property": "C18",
   "status": "partial",
   "theorems": [
    "Litl.C18_size_eq_box",
    "Litl.C18_shape",
    "Litl.C18_size_partial",
    "Litl.C18_violated"
   ],
   "note": "The code violates the property: size() is that of the bounding box (C18_violated); C18_size_partial gives the exact condition under which it is right."
  },
  {
   "property": "C19",
   "status": "proved",
   "theorems": [
    "Litl.C19_axis_sampling",
    "Litl.C19_kth_value",
    "Litl.C19_unique",
    "Litl.C19_empty",
    "Litl.C19_real_sampling",
    "Litl.C19_position_sampling_shape",
    "Litl.C19_default_overflows"
   ],
   "note": "Positive steps. Floating point samplings in exact arithmetic."
  },
  {
   "property": "C20",
   "status": "partial",
   "theorems": [
    "Litl.C20_visits_size_elements",
    "Litl.C20_full_sampling_partial",
    "Litl.C20_default_sampling_partial",
    "Litl.C20_out_of_bounds",
    "Litl.C20_violated"
   ],
   "note": "The code violates the property: iteration ends after as many elements as the data, not as the samples (C20_visits_size_elements, C20_out_of_bounds, C20_violated)."
  },
  {
   "property": "C21",
   "status": "partial",
   "theorems": [
    "Litl.C21_fixed_dimension_partial",
    "Litl.C21_move_construction",
    "Litl.C21_shape_construction",
    "Litl.C21_pointer_construction",
    "Litl.C21_too_large",
    "Litl.C21_variable_dimension",
    "Litl.C21_violated"
   ],
   "note": "Fixed dimensions are proved; the code violates the property for variable dimension, because the shape is moved from before it is used (C21_variable_dimension, C21_violated)."
  },
  {
   "property": "C22",
   "status": "proved",
   "theorems": [
    "Litl.C22_eq_iff_same_pixels",
    "Litl.C22_ne",
    "Litl.C22_equivalence",
    "Litl.C22_shape_matters"
   ],
   "note": "All shapes and element types."
  },
  {
   "property": "C23",
   "status": "partial",
   "theorems": [
    "Litl.C23_inf_not_inf",
    "Litl.C23_whole_empty",
    "Litl.C23_violated",
    "Litl.C23_recognition_partial"
   ],
   "note": "The code violates the property: inf() is filled with -inf (C23_inf_not_inf, C23_whole_empty, C23_violated)."
  },
  {
   "property": "C24",
   "status": "proved",
   "theorems": [
    "Litl.C24_in_place",
    "Litl.C24_operand_unchanged",
    "Litl.C24_self",
    "Litl.C24_exact",
    "Litl.C24_element_wise",
    "Litl.C24_models_agree",
    "Litl.C24_short_operand",
    "Litl.C24_commutative",
    "Litl.C24_associative",
    "Litl.C24_distributive",
    "Litl.C24_add_sub",
    "Litl.C24_mul_div",
    "Litl.C24_neg",
    "Litl.C24_increment"
   ],
   "note": "All sizes and element types with the stated laws; aliasing included."
  },
  {
   "property": "C25",
   "status": "partial",
   "theorems": [
    "Litl.C25_exact",
    "Litl.C25_in_place_partial",
    "Litl.C25_idempotent_partial",
    "Litl.C25_divide_by_element",
    "Litl.C25_out_of_place",
    "Litl.C25_violated"
   ],
   "note": "The code violates the property when the scalar is an element of the container (C25_exact, C25_violated)."
  },
  {
   "property": "C26",
   "status": "partial",
   "theorems": [
    "Litl.C26_fixed_dimension",
    "Litl.C26_negative",
    "Litl.C26_variable_dimension",
    "Litl.C26_zero_partial",
    "Litl.C26_only_zero",
    "Litl.C26_violated"
   ],
   "note": "The code violates the property for all scalars but 0 (C26_only_zero, C26_violated)."
  },
  {
   "property": "C27",
   "status": "proved",
   "theorems": [
    "Litl.C27_generate",
    "Litl.C27_apply",
    "Litl.C27_call_count"
   ],
   "note": "All functions with state (call order and count are observable), sizes and aliased arguments."
  },
  {
   "property": "C28",
   "status": "partial",
   "theorems": [
    "Litl.C28_range",
    "Litl.C28_range_difference",
    "Litl.C28_linspace_partial",
    "Litl.C28_linspace_single",
    "Litl.C28_linspace_int_partial",
    "Litl.C28_linspace_divisible_partial",
    "Litl.C28_linspace_decreasing_wrong",
    "Litl.C28_linspace_int_small",
    "Litl.C28_linspace_empty",
    "Litl.C28_violated"
   ],
   "note": "range() is proved; linspace() is proved for exact fields and sizes of at least 2, and refuted for integers (C28_linspace_decreasing_wrong, C28_violated) and small sizes."
  },
  {
   "property": "C29",
   "status": "proved",
   "theorems": [
    "Litl.C29_min",
    "Litl.C29_max",
    "Litl.C29_minmax",
    "Litl.C29_same_values",
    "Litl.C29_empty"
   ],
   "note": "All linear orders (no NaN)."
  },
  {
   "property": "C30",
   "status": "proved",
   "theorems": [
    "Litl.C30_nth",
    "Litl.C30_history_independent",
    "Litl.C30_defined",
    "Litl.C30_min",
    "Litl.C30_max",
    "Litl.C30_extrema_defined",
    "Litl.C30_sorted_rank"
   ],
   "note": "All histories of queries, and all the behaviours which the C++ standard allows for nth_element and sort. `C30_extrema_defined`: `min()` and `max()` have a result as soon as there is a value (added after a mutant of `Max` survived)."
  },
  {
   "property": "C31",
   "status": "partial",
   "theorems": [
    "Litl.C31_exact",
    "Litl.C31_defined",
    "Litl.C31_half_integer_partial",
    "Litl.C31_swapped",
    "Litl.C31_violated"
   ],
   "note": "The code violates the property: interpolation weights are swapped (C31_exact, C31_swapped, C31_violated). Evaluation order of the operands is a parameter."
  },
  {
   "property": "C32",
   "status": "partial",
   "theorems": [
    "Litl.C32_floating_partial",
    "Litl.C32_nonneg_floor",
    "Litl.C32_divisible_partial",
    "Litl.C32_negative_wrong",
    "Litl.C32_violated"
   ],
   "note": "Exact floating point values are proved; the code violates the property for integers (C32_negative_wrong, C32_violated)."
  },
  {
   "property": "C33",
   "status": "partial",
   "theorems": [
    "Litl.C33_defined",
    "Litl.C33_exact",
    "Litl.C33_counts_partial",
    "Litl.C33_upper_bound",
    "Litl.C33_total",
    "Litl.C33_violated"
   ],
   "note": "The code violates the property when a value equals the last bound: it writes out of bounds (C33_upper_bound, C33_violated). `C33_defined`: `sort()` and `histogram()` have a result in every state; `C31_defined` and `C64_defined` for quantiles."
  },
  {
   "property": "C34",
   "status": "proved",
   "theorems": [
    "Litl.C34_short",
    "Litl.C34_long",
    "Litl.C34_no_duplicate"
   ],
   "note": "All sizes; formatting of single elements is not modelled."
  },
  {
   "property": "C35",
   "status": "partial",
   "theorems": [
    "Litl.C35_violated",
    "Litl.C35_requirement",
    "Litl.C35_allocated_partial",
    "Litl.C35_pointed",
    "Litl.C35_is_aligned",
    "Litl.C35_alignment_null",
    "Litl.C35_alignment_partial",
    "Litl.C35_alignment_overflow"
   ],
   "note": "64-bit words. The code violates the property when the number of bytes wraps around and at address 2^63 (C35_violated, C35_alignment_overflow)."
  },
  {
   "property": "C36",
   "status": "proved",
   "theorems": [
    "Litl.C36_no_double_free",
    "Litl.C36_freed_by_owner"
   ],
   "note": "All finite histories of operations on any number of buffers."
  },
  {
   "property": "C37",
   "status": "partial",
   "theorems": [
    "Litl.C37_violated",
    "Litl.C37_assignments_violated",
    "Litl.C37_losses",
    "Litl.C37_lost_forever",
    "Litl.C37_no_leak_partial"
   ],
   "note": "The code violates the property: the move constructor and both assignments leak (C37_losses, C37_lost_forever, C37_violated); C37_no_leak_partial covers all the histories without them."
  },
  {
   "property": "C38",
   "status": "proved",
   "theorems": [
    "Litl.C38_aux",
    "Litl.C38_deep_copy",
    "Litl.C38_shared_copy",
    "Litl.C38_moved",
    "Litl.C38_copy_of_null",
    "Litl.C38_failed_copy"
   ],
   "note": "All buffers, contents and interleavings of writes."
  },
  {
   "property": "C39",
   "status": "proved",
   "theorems": [
    "Litl.C39_output",
    "Litl.C39_local"
   ],
   "note": "Engines, seeding and distributions are arbitrary deterministic functions."
  },
  {
   "property": "C40",
   "status": "partial",
   "theorems": [
    "Litl.C40_violated",
    "Litl.C40_values",
    "Litl.C40_outcomes",
    "Litl.C40_nonneg",
    "Litl.C40_sum_partial",
    "Litl.C40_probabilities",
    "Litl.C40_map",
    "Litl.C40_salt_and_pepper"
   ],
   "note": "Exact arithmetic with explicit epsilon. The code violates the property for sums of probabilities within the tolerance below 1 (C40_violated).  C40_map: listed values are sorted and have the first probability given for them."
  },
  {
   "property": "C41",
   "status": "proved",
   "theorems": [
    "Litl.C41_constant",
    "Litl.C41_constant_defined",
    "Litl.C41_nearest",
    "Litl.C41_periodic",
    "Litl.C41_periodic_unique"
   ],
   "note": "All non-empty rasters and integral positions."
  },
  {
   "property": "C42",
   "status": "partial",
   "theorems": [
    "Litl.C42_spec_integral",
    "Litl.C42_spec_affine",
    "Litl.C42_mirrored",
    "Litl.C42_at_integers",
    "Litl.C42_violated",
    "Litl.C42_centers_partial",
    "Litl.C42_constant_partial",
    "Litl.C42_affine_exact"
   ],
   "note": "Exact arithmetic (any linearly ordered field with floor). The code violates the property: weights are swapped (C42_mirrored, C42_at_integers, C42_violated)."
  },
  {
   "property": "C43",
   "status": "partial",
   "theorems": [
    "Litl.C43_exact",
    "Litl.C43_value",
    "Litl.C43_nonneg_partial",
    "Litl.C43_negative",
    "Litl.C43_integers_partial",
    "Litl.C43_violated"
   ],
   "note": "Exact arithmetic. The code violates the property below -1/2 (C43_exact, C43_negative, C43_violated)."
  },
  {
   "property": "C44",
   "status": "proved",
   "theorems": [
    "Litl.C44_keys",
    "Litl.C44_quadratic",
    "Litl.C44_affine",
    "Litl.C44_integral",
    "Litl.C44_local",
    "Litl.C44_continuous"
   ],
   "note": "Exact arithmetic; any dimension."
  },
  {
   "property": "C45",
   "status": "partial",
   "theorems": [
    "Litl.Kernel.C45_edges_partial",
    "Litl.Kernel.C45_exact",
    "Litl.Kernel.C45_flat_partial",
    "Litl.Kernel.C45_1d_partial",
    "Litl.Kernel.C45_row_start_2d",
    "Litl.Kernel.C45_column_partial",
    "Litl.Kernel.C45_too_large",
    "Litl.Kernel.C45_extrapolation_methods",
    "Litl.Kernel.C45_1d_overrun",
    "Litl.Kernel.C45_violated",
    "Litl.Kernel.C45_deep_violated",
    "Litl.Kernel.C45_kernelize",
    "Litl.Kernel.C45_kernelize_centered",
    "Litl.Kernel.C45_1d_large_partial",
    "Litl.Kernel.C45_1d_outside",
    "Litl.Kernel.C45_1d_iff",
    "Litl.Kernel.C45_row_start",
    "Litl.Kernel.C45_wide_partial"
   ],
   "note": "The code violates the property at row starts and for kernels of dimension 3 and more (C45_violated, C45_deep_violated, C45_row_start_2d), and for kernels longer than the raster (C45_too_large, C45_1d_overrun). C45_exact gives the value everywhere. C45_row_start describes what is computed at the starts of rows in any dimension (C45_row_start_2d in closed form in 2D): together with C45_edges_partial and C45_exact, the output is characterised at every pixel.  In 1D, the outcome is settled for kernels of any length: the correlation is right if and only if no side of the window is longer than the raster, and is undefined behavior otherwise (C45_1d_iff, C45_1d_large_partial, C45_1d_outside). In any dimension, kernels which are wider than the raster along the first axis are right everywhere, since all of the pixels are extrapolated (C45_wide_partial)."
  },
  {
   "property": "C46",
   "status": "proved",
   "theorems": [
    "Litl.LineKernel.C46_correlation",
    "Litl.LineKernel.C46_bulk"
   ],
   "note": "All lines at least as long as the kernel, strides and origins; any commutative ring."
  },
  {
   "property": "C47",
   "status": "partial",
   "theorems": [
    "Litl.LineKernel.C47_exact_partial",
    "Litl.LineKernel.C47_violated",
    "Litl.LineKernel.C47_origin_after",
    "Litl.LineKernel.C47_short"
   ],
   "note": "The code violates the property for short lines (C47_violated); C47_exact_partial gives the exact domain of validity. `C47_origin_after`: the origin is not checked, and the behaviour is undefined if it is farther than the end of the kernel (added after a mutant of `innerProduct` survived).  C47_short: lines which are not longer than the part of the kernel after its origin are undefined behavior, wherever they are in memory."
  },
  {
   "property": "C48",
   "status": "partial",
   "theorems": [
    "Litl.LineKernel.C48_exact_partial",
    "Litl.LineKernel.C48_partial",
    "Litl.LineKernel.C48_violated",
    "Litl.LineKernel.C48_step_violated"
   ],
   "note": "The code violates the property (C48_violated, C48_step_violated); C48_exact_partial gives the exact domain of validity."
  },
  {
   "property": "C49",
   "status": "proved",
   "theorems": [
    "Litl.SeparableKernel.C49_pass_short",
    "Litl.SeparableKernel.C49_short",
    "Litl.SeparableKernel.C49_along",
    "Litl.SeparableKernel.C49_combine",
    "Litl.SeparableKernel.C49_separable",
    "Litl.SeparableKernel.C49_order",
    "Litl.SeparableKernel.C49_sequence"
   ],
   "note": "All kernels along distinct axes; any commutative ring. Messages are printed with %i: for value types which are not promoted to int, see C119.  C49_pass_short and C49_short: a pass along an axis with too few pixels makes the correlation undefined."
  },
  {
   "property": "C50",
   "status": "partial",
   "theorems": [
    "Litl.SeparableKernel.C50_exact",
    "Litl.SeparableKernel.C50_symmetric_partial",
    "Litl.SeparableKernel.C50_violated"
   ],
   "note": "The code violates the property: the composed kernel is flipped (C50_exact, C50_violated); proved for symmetric kernels."
  },
  {
   "property": "C51",
   "status": "partial",
   "theorems": [
    "Litl.MedianFilter.C51_median_odd",
    "Litl.MedianFilter.C51_median_even",
    "Litl.MedianFilter.C51_median_small",
    "Litl.MedianFilter.C51_odd_partial",
    "Litl.MedianFilter.C51_even",
    "Litl.MedianFilter.C51_two",
    "Litl.MedianFilter.C51_apply_partial",
    "Litl.MedianFilter.C51_apply_too_large",
    "Litl.MedianFilter.C51_apply_empty",
    "Litl.MedianFilter.C51_default_region",
    "Litl.MedianFilter.C51_radius",
    "Litl.MedianFilter.C51_violated",
    "Litl.MedianFilter.C51_even_violated"
   ],
   "note": "The code violates the property for windows with an even number of positions (C51_even, C51_two, C51_violated, C51_even_violated), and for the default region (C51_default_region). Odd windows are proved whatever the implementation of nth_element. `C51_apply_too_large`: nothing is filtered if the output cannot be allocated.  `C51_apply_empty`: filtering a raster without pixels is undefined behavior."
  },
  {
   "property": "C52",
   "status": "partial",
   "theorems": [
    "Litl.C52_construct",
    "Litl.C52_inverse",
    "Litl.C52_inverse_inverse",
    "Litl.C52_fftw_lengths",
    "Litl.C52_fftwShape",
    "Litl.C52_violated",
    "Litl.C52_layout",
    "Litl.C52_half_shape",
    "Litl.C52_half_suffices",
    "Litl.C52_half_minimal"
   ],
   "note": "Lengths which do not fit in int are converted by FFTW's interface (C52_violated); everything else is proved for all shapes."
  },
  {
   "property": "C53",
   "status": "partial",
   "theorems": [
    "Litl.C53_round_trip_partial",
    "Litl.C53_normalize",
    "Litl.C53_late_inverse",
    "Litl.C53_functions_partial",
    "Litl.C53_violated",
    "Litl.C53_normalize_value"
   ],
   "note": "In exact arithmetic, assuming that FFTW computes the unnormalised DFT as documented; lengths of 2^31 and more are refuted (C53_violated)."
  },
  {
   "property": "C54",
   "status": "proved",
   "theorems": [
    "Litl.Pipeline.C54_not_reevaluated",
    "Litl.Pipeline.C54_at_most_once",
    "Litl.Pipeline.C54_after_prerequisites",
    "Litl.Pipeline.C54_get",
    "Litl.Pipeline.C54_fetch",
    "Litl.Pipeline.C54_evaluated",
    "Litl.Pipeline.C54_upstream_evaluated",
    "Litl.Pipeline.C54_failed",
    "Litl.Pipeline.C54_retried"
   ],
   "note": "All graphs and histories, with failures, caught exceptions and evaluations which get other steps."
  },
  {
   "property": "C55",
   "status": "partial",
   "theorems": [
    "Litl.Pipeline.C55_milliseconds",
    "Litl.Pipeline.C55_total",
    "Litl.Pipeline.C55_partial",
    "Litl.Pipeline.C55_violated"
   ],
   "note": "The clock of the code may go backwards, in which case the property does not hold (C55_violated)."
  },
  {
   "property": "C56",
   "status": "partial",
   "theorems": [
    "Litl.Chronometer.C56_elapsed",
    "Litl.Chronometer.C56_count",
    "Litl.Chronometer.C56_start_stop",
    "Litl.Chronometer.C56_running",
    "Litl.Chronometer.C56_increments",
    "Litl.Chronometer.C56_total_partial",
    "Litl.Chronometer.C56_total_bounds_partial",
    "Litl.Chronometer.C56_total_lt",
    "Litl.Chronometer.C56_violated",
    "Litl.Chronometer.C56_stop_without_start",
    "Litl.Chronometer.C56_stop_never_started",
    "Litl.Chronometer.C56_mean",
    "Litl.Chronometer.C56_empty",
    "Litl.Chronometer.C56_stdev",
    "Litl.Chronometer.C56_min_max"
   ],
   "note": "Exact arithmetic. The code violates the property for integral units, because increments are truncated (C56_total_lt, C56_violated)."
  },
  {
   "property": "C57",
   "status": "partial",
   "theorems": [
    "Litl.IterationBenchmark.C57_any_dimension",
    "Litl.IterationBenchmark.C57_partial",
    "Litl.IterationBenchmark.C57_program",
    "Litl.IterationBenchmark.C57_empty_partial",
    "Litl.IterationBenchmark.C57_empty_positions",
    "Litl.IterationBenchmark.C57_short",
    "Litl.IterationBenchmark.C57_violated"
   ],
   "note": "The code violates the property for empty rasters (C57_empty_positions, C57_violated); proved for all shapes with positive lengths. `C57_short`: reads out of bounds if a raster is shorter than the output.  C57_program: the dispatcher of the benchmark program yields the sum for each known case, and throws for any other."
  },
  {
   "property": "C58",
   "status": "partial",
   "theorems": [
    "Litl.Segment.C58_exact",
    "Litl.Segment.C58_partial",
    "Litl.Segment.C58_window",
    "Litl.Segment.C58_violated",
    "Litl.Segment.C58_window_violated"
   ],
   "note": "The code violates the property unless the front is zero (C58_exact, C58_window_violated)."
  },
  {
   "property": "C59",
   "status": "partial",
   "theorems": [
    "Litl.C59_exact",
    "Litl.C59_partial",
    "Litl.C59_bounds",
    "Litl.C59_violated"
   ],
   "note": "The code violates the property for negative integers (C59_exact, C59_violated)."
  },
  {
   "property": "C60",
   "status": "partial",
   "theorems": [
    "Litl.Matrix.C60_diagonal_partial",
    "Litl.Matrix.C60_identity_partial",
    "Litl.Matrix.C60_diagonal_too_long",
    "Litl.Matrix.C60_access",
    "Litl.Matrix.C60_violated"
   ],
   "note": "Diagonal and identity matrices are proved; element access with operators returns a dangling reference (C60_access, C60_violated)."
  },
  {
   "property": "C61",
   "status": "proved",
   "theorems": [
    "Litl.C61_slice",
    "Litl.C61_slice_too_long",
    "Litl.C61_extend",
    "Litl.C61_round_trip",
    "Litl.C61_round_trip'",
    "Litl.C61_extend_too_short"
   ],
   "note": "All vectors and dimensions, including out-of-bounds ones."
  },
  {
   "property": "C62",
   "status": "partial",
   "theorems": [
    "Litl.Exception.C62_message",
    "Litl.Exception.C62_append",
    "Litl.Exception.C62_what",
    "Litl.Exception.C62_what_append",
    "Litl.Exception.C62_partial",
    "Litl.Exception.C62_lines",
    "Litl.Exception.C62_violated",
    "Litl.Exception.C62_out_of_bounds",
    "Litl.Exception.C62_null_ptr"
   ],
   "note": "what() is a C string: the property does not hold for messages with null characters (C62_violated)."
  },
  {
   "property": "C63",
   "status": "partial",
   "theorems": [
    "Litl.C63_fill",
    "Litl.C63_range_exact",
    "Litl.C63_violated",
    "Litl.C63_linspace_max",
    "Litl.C63_independent_partial"
   ],
   "note": "The code violates the property for elements of the container (C63_range_exact, C63_linspace_max, C63_violated)."
  },
  {
   "property": "C64",
   "status": "partial",
   "theorems": [
    "Litl.C64_median_partial",
    "Litl.C64_median_odd",
    "Litl.C64_mad_partial",
    "Litl.C64_mad_integers_partial",
    "Litl.C64_median_unique",
    "Litl.C64_violated",
    "Litl.C64_defined"
   ],
   "note": "References returned by nth() may be read after the second call to nth(), depending on the evaluation order (C64_violated); proved for the other orders. Exact arithmetic. `C64_mad_integers_partial`: for integers, `mad()` is right if the median is an integer, and otherwise exactly 1/2 too small, because deviations are truncated."
  },
  {
   "property": "C65",
   "status": "partial",
   "theorems": [
    "Litl.SeparableKernel.C65_exact",
    "Litl.SeparableKernel.C65_partial",
    "Litl.SeparableKernel.C65_violated"
   ],
   "note": "The code violates the property: the sign is the opposite (C65_exact, C65_violated)."
  },
  {
   "property": "C66",
   "status": "proved",
   "theorems": [
    "Litl.C66_no_failure",
    "Litl.C66_undefined",
    "Litl.C66_failure",
    "Litl.C66_direct",
    "Litl.C66_inverse_complex",
    "Litl.C66_inverse_real"
   ],
   "note": "All supported shapes (positive lengths below 2^31), signals and histories; FFTW as documented; exact arithmetic."
  },
  {
   "property": "C67",
   "status": "proved",
   "theorems": [
    "Litl.C67_convolution"
   ],
   "note": "All supported shapes and signals; FFTW as documented; exact arithmetic."
  },
  {
   "property": "C68",
   "status": "partial",
   "theorems": [
    "Litl.Limits.C68_partial",
    "Litl.Limits.C68_epsilon",
    "Litl.Limits.C68_violated"
   ],
   "note": "All integral types; epsilon() is 0 instead of 1 (C68_epsilon, C68_violated)."
  },
  {
   "property": "C69",
   "status": "proved",
   "theorems": [
    "Litl.C69_unary",
    "Litl.C69_binary",
    "Litl.C69_scalar",
    "Litl.C69_new_instance",
    "Litl.C69_complex"
   ],
   "note": "All functions, sizes and aliases; scalars are copied on call (unlike C25). Hidden min/max(other) are left out."
  },
  {
   "property": "C70",
   "status": "partial",
   "theorems": [
    "Litl.C70_violated",
    "Litl.C70_size_partial",
    "Litl.C70_array_size",
    "Litl.C70_pointer",
    "Litl.C70_container",
    "Litl.C70_values_vector",
    "Litl.C70_values_array",
    "Litl.C70_view_values",
    "Litl.C70_view_shared",
    "Litl.C70_moveTo",
    "Litl.C70_moved_raster",
    "Litl.C70_raster_array"
   ],
   "note": "All sizes and values; refuted for empty containers based on std::array (C70_violated, C70_array_size, C70_values_array, C70_raster_array); everything else proved."
  },
  {
   "property": "C71",
   "status": "partial",
   "theorems": [
    "Litl.C71_violated",
    "Litl.C71_exact",
    "Litl.C71_bytes_partial",
    "Litl.C71_lossy",
    "Litl.C71_existing",
    "Litl.C71_failed",
    "Litl.C71_missing",
    "Litl.C71_dimension",
    "Litl.C71_negative",
    "Litl.C71_truncated"
   ],
   "note": "All shapes, bytes and sequences of calls. Refuted: only as many bytes as there are pixels are written (C71_violated, C71_exact, C71_lossy), existing files are silently kept (C71_existing), failures are never reported (C71_failed, C71_missing). Proved for 1-byte values and new files (C71_bytes_partial)."
  },
  {
   "property": "C72",
   "status": "partial",
   "theorems": [
    "Litl.C72_samples_partial",
    "Litl.C72_partial",
    "Litl.C72_offset",
    "Litl.C72_violated",
    "Litl.C72_null_step",
    "Litl.C72_too_large"
   ],
   "note": "All kernels, sizes and samplings for which the 1D correlation is correct, through the intermediate raster (C72_samples_partial), in particular all images not smaller than the kernel (C72_partial). Refuted for value types of which the width is not a value (C72_offset, C72_violated)."
  },
  {
   "property": "C73",
   "status": "partial",
   "theorems": [
    "Litl.C73_destroyed_once",
    "Litl.C73_losses",
    "Litl.C73_no_leak_partial",
    "Litl.C73_arrays_partial",
    "Litl.C73_assigned",
    "Litl.C73_violated",
    "Litl.C73_violated_assigned",
    "Litl.C73_owned",
    "Litl.C73_dangling",
    "Litl.C73_moved",
    "Litl.C73_allocation_failure",
    "Litl.C73_planner",
    "Litl.C73_functions"
   ],
   "note": "Refuted in full: moving a plan object into another one loses the FFTW plan of the latter (C73_violated, exact: C73_losses), and after dft.in() = raster the transform still reads the former buffer (C73_assigned). Proved: at most one destruction in all histories; no loss without move assignment; arrays match without rebinding; safety while owners live, UB of inverses of destroyed plans and of moved-from plans; the memory of the rasters returned by complexDft() and the like is never freed (C73_functions). `C73_allocation_failure`: failures of allocation are not detected before planning."
  },
  {
   "property": "C74",
   "status": "partial",
   "theorems": [
    "Litl.C74_box",
    "Litl.C74_ball",
    "Litl.C74_subraster",
    "Litl.C74_subraster_ub",
    "Litl.C74_samplings",
    "Litl.C74_violated",
    "Litl.C74_violated_box",
    "Litl.C74_increments_partial",
    "Litl.C74_retreat",
    "Litl.C74_equality"
   ],
   "note": "Refuted: it++ returns the next element for boxes, balls and subrasters (exact results C74_box, C74_ball, C74_subraster: the first element is skipped and the end is visited, which is out of bounds for subrasters iff the region starts at the first pixel, C74_subraster_ub); undefined for samplings; samples++ increments only the result. Proved for ++it, all numbers of increments, including past the end."
  },
  {
   "property": "C75",
   "status": "partial",
   "theorems": [
    "Litl.C75_generate",
    "Litl.C75_apply",
    "Litl.C75_seed",
    "Litl.C75_reproducible_partial",
    "Litl.C75_violated",
    "Litl.C75_clock",
    "Litl.C75_clock_seed",
    "Litl.C75_continues",
    "Litl.C75_alternate",
    "Litl.C75_complex",
    "Litl.C75_random"
   ],
   "note": "Refuted: StablePoissonNoise accepts the seed -1 and then its operator()() depends on the clock, contrary to its documentation. Proved for all other seeds: values are the successive draws of the seeded engine (seed modulo 2^32), additive noises add them, objects continue, complex draws alternate; random() gives the draws of the clock-seeded engine."
  },
  {
   "property": "C76",
   "status": "partial",
   "theorems": [
    "Litl.Lifetimes.C76_partial",
    "Litl.Lifetimes.C76_ball_iterator",
    "Litl.Lifetimes.C76_subraster_iterator",
    "Litl.Lifetimes.C76_cursor",
    "Litl.Lifetimes.C76_violated",
    "Litl.Lifetimes.C76_owner",
    "Litl.Lifetimes.C76_slice",
    "Litl.Lifetimes.C76_slice_moved",
    "Litl.Lifetimes.C76_forever",
    "Litl.Lifetimes.C76_moved",
    "Litl.Lifetimes.C76_temporary"
   ],
   "note": "Refuted: iterators over balls and subrasters refer to a box which is their own member, so that a copy refers to the box of the iterator it is a copy of: it dangles once that one is destroyed, e.g. after an algorithm which takes iterators by value and returns one. C76_ball_iterator and C76_subraster_iterator are exact; C76_partial holds for anything else, and for cursors as long as the original iterator lives. Slices follow moved VecRasters, subrasters and decorators do not (C76_slice, C76_slice_moved, C76_moved); decorators of temporaries are unusable (C76_temporary); nothing becomes usable again (C76_forever)."
  },
  {
   "property": "C77",
   "status": "partial",
   "theorems": [
    "Litl.ProgramOptions.C77_first",
    "Litl.ProgramOptions.C77_partial",
    "Litl.ProgramOptions.C77_violated",
    "Litl.ProgramOptions.C77_after_failure",
    "Litl.ProgramOptions.C77_accepts",
    "Litl.ProgramOptions.C77_has",
    "Litl.ProgramOptions.C77_flag",
    "Litl.ProgramOptions.C77_words",
    "Litl.ProgramOptions.C77_invalid",
    "Litl.ProgramOptions.C77_program_name"
   ],
   "note": "Refuted: options are accumulated in the same variables map, which does not overwrite explicit values, so that the value is that of the first command line which gives it (C77_first); a failed command line makes later faultless ones throw (C77_after_failure). Proved for options not given in earlier command lines (C77_partial). Boost's store is modelled from its documentation, the lexical analysis of the command line is a parameter. C77_accepts: a further command line is accepted exactly when each option not given earlier is declared and convertible, and has at most one token."
  },
  {
   "property": "C78",
   "status": "partial",
   "theorems": [
    "Litl.C78_box_translated",
    "Litl.C78_box_translations",
    "Litl.C78_box_opposite",
    "Litl.C78_box_opposite_swapped",
    "Litl.C78_ball_opposite_partial",
    "Litl.C78_ball_translated",
    "Litl.C78_ball_translations",
    "Litl.C78_ball_box",
    "Litl.C78_ball_eq",
    "Litl.C78_violated"
   ],
   "note": "-box = {-front, -back} has its front beyond its back as soon as it has two positions, hence the loop over it does not terminate (C78_box_opposite, C78_violated). Translations and opposites of balls: proved for all."
  },
  {
   "property": "C79",
   "status": "partial",
   "theorems": [
    "Litl.Checked.C79_index",
    "Litl.Checked.C79_index_variable",
    "Litl.Checked.C79_size_iff",
    "Litl.Checked.C79_size_refines",
    "Litl.Checked.C79_size_partial",
    "Litl.Checked.C79_bounded_pos",
    "Litl.Checked.C79_at",
    "Litl.Checked.C79_domain",
    "Litl.Checked.C79_box_size",
    "Litl.Checked.C79_loop_partial",
    "Litl.Checked.C79_domain_loop",
    "Litl.Checked.C79_loop_sound",
    "Litl.Checked.C79_loop_front",
    "Litl.Checked.C79_loop_back",
    "Litl.Checked.C79_violated"
   ],
   "note": "Violated by shapes with an axis of length 0 whose first lengths have a too big product (C79_size_iff is the exact condition), and by loops over boxes which reach -2^63 or 2^63 - 1 (C79_loop_front, C79_loop_back). Otherwise proved."
  },
  {
   "property": "C80",
   "status": "partial",
   "theorems": [
    "Litl.MatrixEigen.C80_partial",
    "Litl.MatrixEigen.C80_copy",
    "Litl.MatrixEigen.C80_copy_of_copy",
    "Litl.MatrixEigen.C80_assign_sum",
    "Litl.MatrixEigen.C80_assign_to_copy",
    "Litl.MatrixEigen.C80_destroyed",
    "Litl.MatrixEigen.C80_dangling",
    "Litl.MatrixEigen.C80_without_assignment_partial",
    "Litl.MatrixEigen.C80_violated"
   ],
   "note": "Refuted: the default copy constructor of Matrix copies the Eigen::Map, which views the elements of the original matrix, and the default assignment assigns through the views: `c = a + b` sets c to a, and assigning to a copy overwrites the original. Proved for programs without copies, and for programs without assignments. `C80_destroyed`: destroyed matrices cannot be used."
  },
  {
   "property": "C81",
   "status": "partial",
   "theorems": [
    "Litl.MatrixEigen.C81_unchanged",
    "Litl.MatrixEigen.C81_partial",
    "Litl.MatrixEigen.C81_violated"
   ],
   "note": "Refuted: the result of Eigen's inverse() is discarded, and the matrix is unchanged; this is the inverse of exactly those matrices whose square is the identity."
  },
  {
   "property": "C82",
   "status": "proved",
   "theorems": [
    "Litl.Kernel.C82_kernel",
    "Litl.Kernel.C82_1d",
    "Litl.LineKernel.C82_line",
    "Litl.LineKernel.C82_cancellation"
   ],
   "note": "The models of the correlations are parametric in the arithmetic: `Sim.kernel_correlates` and `Sim.line_correlates` (Lemmas/Simulation) relate runs in two arithmetics. Rounded runs are related to exact runs which also sum absolute values and count terms. `C82_kernel` needs the same hypotheses as C45; `C82_1d` and `C82_line` hold everywhere. `Binary.rounding` shows that binary formats with gradual underflow (float, double) satisfy the axioms of `Rounding`; `C82_cancellation` shows that the bound cannot be relative to the result. Missing from the model: overflows, NaN, contraction to fused multiply-add."
  },
  {
   "property": "C83",
   "status": "proved",
   "theorems": [
    "Litl.Kernel.C83_order",
    "Litl.Kernel.C83_shift",
    "Litl.LineKernel.C83_line",
    "Litl.LineKernel.C83_line_shift",
    "Litl.SeparableKernel.C83_separable",
    "Litl.SeparableKernel.C83_separable_shift"
   ],
   "note": "Proved for values with any addition and multiplication (no law), for ND kernels where C45 holds (edges; 1D and 2D kernels but at row starts) and for lines where C46 holds. C83_separable and C83_separable_shift: separable kernels, along any axes (C83_separable) or distinct ones."
  },
  {
   "property": "C84",
   "status": "proved",
   "theorems": [
    "Litl.Kernel.C84_spread",
    "Litl.Kernel.C84_confined",
    "Litl.LineKernel.C84_line_spread",
    "Litl.LineKernel.C84_line_confined"
   ],
   "note": "Proved both ways, for ND kernels and lines, where C83 holds. Users who mask pixels with NaN and zero weights should know that it does not work."
  },
  {
   "property": "C85",
   "status": "proved",
   "theorems": [
    "Litl.SeparableKernel.C85_separable"
   ],
   "note": "Proved from C83_separable (the passes in any arithmetic) by induction on the passes."
  },
  {
   "property": "C86",
   "status": "partial",
   "theorems": [
    "Litl.C86_linspace_bounds",
    "Litl.C86_linspace_sorted_partial",
    "Litl.C86_linspace_accurate",
    "Litl.C86_range_sorted",
    "Litl.C86_range_accurate",
    "Litl.C86_range_exact_partial",
    "Litl.C86_linspace_binary_partial",
    "Litl.C86_linspace_overshoot",
    "Litl.C86_violated",
    "Litl.C86_range_stuck",
    "Litl.C86_range_violated"
   ],
   "note": "`Props/FillRounding.lean`: `C86_linspace_bounds` (exact bounds), `C86_linspace_accurate` (error bound), `C86_linspace_sorted_partial` and `C86_linspace_binary_partial` (sorted as long as the size is at most a quarter of 2^p and the bounds are not too close). Violated in general: `C86_linspace_overshoot`, with 2^(p+1) - 3 values from 0 to 2^p - 1 (about 33 million `float`s), the value before the last one is greater than the last one. `C86_range_sorted`, `C86_range_accurate`, `C86_range_exact_partial`; the documented \"the difference between two adjacent values is exactly `step`\" is violated: `C86_range_stuck` (all the values are the same when the step is less than half of the last bit of the minimum)."
  },
  {
   "property": "C87",
   "status": "partial",
   "theorems": [
    "Litl.Distribution.C87_sum",
    "Litl.Distribution.C87_mean_accurate",
    "Litl.Distribution.C87_sum_exact_partial",
    "Litl.Distribution.C87_mean_of_constant",
    "Litl.Distribution.C87_violated"
   ],
   "note": "`Props/DistributionRounding.lean`: `C87_sum`, `C87_mean_accurate`, `C87_sum_exact_partial`. The mean is not always between the minimum and the maximum: `C87_mean_of_constant`, in every binary format of at least 3 bits, the mean of three values 2^p - 2 is 2^p - 3 (`C87_violated`, for `float`)."
  },
  {
   "property": "C88",
   "status": "partial",
   "theorems": [
    "Litl.LineKernel.C88_origins",
    "Litl.LineKernel.C88_exact_partial",
    "Litl.LineKernel.C88_neutral",
    "Litl.LineKernel.C88_violated"
   ],
   "note": "`C88_origins`: the origin is the center or the first value, depending on the order in which the parameters are initialized; `C88_exact_partial` (centered for all compilers if, and only if, there is at most one value), `C88_neutral` (the neutral kernel may shift the line by one), `C88_violated`."
  },
  {
   "property": "C89",
   "status": "partial",
   "theorems": [
    "Litl.Kernel.C89_exact",
    "Litl.Kernel.C89_modular_partial",
    "Litl.Kernel.C89_signed",
    "Litl.Kernel.C89_unsigned_short",
    "Litl.Kernel.C89_violated",
    "Litl.LineKernel.C89_line_partial",
    "Litl.SeparableKernel.C89_separable_partial",
    "Litl.Kernel.C89_bounded_partial",
    "Litl.LineKernel.C89_line_exact",
    "Litl.LineKernel.C89_line_bounded_partial",
    "Litl.SeparableKernel.C89_separable_bounded_partial",
    "Litl.SeparableKernel.C89_separable_violated"
   ],
   "note": "`C89_violated` (int kernel {2^31-1, 1, -1}); `C89_exact` gives the exact outcome for every integral type: the exact correlation converted to the type, or undefined behaviour if a product or partial sum overflows the promoted type. `C89_modular_partial` (types narrower than unsigned short, and unsigned types not narrower than unsigned int: always right modulo), `C89_signed` (defined iff all products and partial sums in storage order are values of the type), `C89_unsigned_short` (undefined iff a product overflows int). `C89_line_partial` and `C89_separable_partial` for line and separable kernels of the modular types. `bool` is out of scope (std::vector<bool>). C89_line_exact gives the outcome of line kernels for all integral types; C89_bounded_partial, C89_line_bounded_partial and C89_separable_bounded_partial give exact results for all types when absolute values add up to a value of the type; C89_separable_violated shows that intermediate sums may overflow although the correlation is 0."
  },
  {
   "property": "C90",
   "status": "partial",
   "theorems": [
    "Litl.Distribution.C90_exact",
    "Litl.Distribution.C90_safe_partial",
    "Litl.Distribution.C90_signed",
    "Litl.Distribution.C90_unsigned_short",
    "Litl.Distribution.C90_violated",
    "Litl.Distribution.C90_mean",
    "Litl.Distribution.C90_mean_zero",
    "Litl.Distribution.C90_mean_signed",
    "Litl.Distribution.C90_mean_empty"
   ],
   "note": "`C90_violated` (the single unsigned short 50000); `C90_exact` (defined iff neither the values nor the squares overflow when summed), `C90_signed`, `C90_unsigned_short` (defined iff no value exceeds 46340), `C90_safe_partial` (other types: always defined and right if representable). `C90_mean` and `C90_mean_zero`: the sum is reduced before it is divided, such that the mean of at least 256 bytes is 0. C90_mean_signed and C90_mean_empty give the means of signed integers (those of negative sums are huge) and of no value."
  },
  {
   "property": "C91",
   "status": "partial",
   "theorems": [
    "Litl.Kernel.C91_exact",
    "Litl.Kernel.C91_error_partial",
    "Litl.Kernel.C91_null",
    "Litl.Kernel.C91_violated",
    "Litl.LineKernel.C91_line_partial",
    "Litl.SeparableKernel.C91_separable_partial"
   ],
   "note": "`C91_violated`: the result of a constant raster is not constant, because borders are truncated before multiplication while the interior is truncated after each addition. `C91_exact` gives both outcomes; `C91_error_partial` bounds the errors by the number of kernel values (interior) and the sum of their magnitudes (border), and shows that there are none for rasters of integers; `C91_null`: box filters of rasters in [0, 1) are null. `C91_line_partial` and `C91_separable_partial` for line and separable kernels."
  },
  {
   "property": "C92",
   "status": "partial",
   "theorems": [
    "Litl.Distribution.C92_defined",
    "Litl.Distribution.C92_in_range",
    "Litl.Distribution.C92_exact",
    "Litl.Distribution.C92_rank",
    "Litl.Distribution.C92_extrema",
    "Litl.Distribution.C92_accurate",
    "Litl.Distribution.C92_bounds_partial",
    "Litl.Distribution.C92_median",
    "Litl.Distribution.C92_quantile_of_constant",
    "Litl.Distribution.C92_violated"
   ],
   "note": "`C92_violated`: the quantile of {3, 3} for q = 0.2 is 3.0000000000000004 in double precision. `C92_defined` characterises the values of q for which the behaviour is defined, `C92_in_range` shows that they include [0, 1] in spite of rounding; `C92_exact` is what is computed; `C92_rank` and `C92_extrema`: quantiles of integer abscissas are exact; `C92_median`: the median is the rounded mean of the middle values; `C92_accurate` and `C92_bounds_partial`: error bounds."
  },
  {
   "property": "C93",
   "status": "partial",
   "theorems": [
    "Litl.C93_exact",
    "Litl.C93_closest_partial",
    "Litl.C93_inside",
    "Litl.C93_area_partial",
    "Litl.C93_out_of_bounds",
    "Litl.C93_large_partial",
    "Litl.C93_undefined",
    "Litl.C93_violated"
   ],
   "note": "Violated: at the number just before 1/2 (0.49999999999999994), x + 0.5 is rounded to 1 and pixel 1 is read, out of bounds if the raster has one pixel. C93_exact gives the index read at every position up to 2^(p-2); beyond 2^53, C93_large_partial. Conversions which overflow are undefined behavior (C93_undefined)."
  },
  {
   "property": "C94",
   "status": "partial",
   "theorems": [
    "Litl.C94_near_partial",
    "Litl.C94_weight_one",
    "Litl.C94_constant",
    "Litl.C94_undefined",
    "Litl.C94_bounds",
    "Litl.C94_nonneg_partial",
    "Litl.C94_negative_partial",
    "Litl.C94_at_integers",
    "Litl.C94_accurate",
    "Litl.C94_monotone",
    "Litl.C94_overshoot",
    "Litl.C94_violated"
   ],
   "note": "C94_bounds: between the neighbors as soon as weights are less than 1, i.e. everywhere but at negative integers (where floor is off by one, C40) and at tiny negative positions whose offset is rounded to 1. There, C94_overshoot (3 and -2^53 give 4) violates the bounds. C94_monotone and C94_accurate complete it.  At any position, values are within bounds if the neighbors have the same sign and none is more than twice another one (C94_near_partial); where the computed weight is 1, the value of a line is given exactly by C94_weight_one."
  },
  {
   "property": "C95",
   "status": "partial",
   "theorems": [
    "Litl.C95_integral",
    "Litl.C95_constant_partial",
    "Litl.C95_accurate",
    "Litl.C95_drift",
    "Litl.C95_violated"
   ],
   "note": "Constants are not reproduced (C95_violated: 2^53 - 1 at 1/2 gives 2^53), unless their multiples up to 5 are numbers (C95_constant_partial). C95_integral: exact at nonnegative integers. C95_accurate: the error is at most about 180 units in the last place per axis, amplified by 5/4 per axis."
  },
  {
   "property": "C96",
   "status": "partial",
   "theorems": [
    "Litl.C96_exact",
    "Litl.C96_unique",
    "Litl.C96_contains",
    "Litl.C96_only",
    "Litl.C96_partial",
    "Litl.C96_sqrt",
    "Litl.C96_violated",
    "Litl.C96_sqrt_violated"
   ],
   "note": "The exact set is given by C96_exact: every position of the ball is visited (C96_contains), and positions which are not in the ball but are visited are at the distance of the number next to the power of the radius (C96_only): e.g. (4, 5) for std::sqrt(41) (C96_violated). (1, 1, 1) is not in the ball of radius std::sqrt(3) (C96_sqrt_violated); C96_sqrt settles the other distances. Exact if the power of the radius is a number (C96_partial)."
  },
  {
   "property": "C97",
   "status": "partial",
   "theorems": [
    "Litl.C97_constant",
    "Litl.C97_same",
    "Litl.C97_bounds_partial",
    "Litl.C97_near_partial",
    "Litl.C97_bounds_wide",
    "Litl.C97_accurate",
    "Litl.C97_overshoot",
    "Litl.C97_violated"
   ],
   "note": "False for float at nonnegative positions, where it holds for double and long double: the difference of the neighbors is rounded to float and then interpolated in double, hence just below position 1 between 3 and -2^24 the result is 255/64 (C97_violated). Proven: bounds for long double (C97_bounds_wide), bounds on a line when the difference is representable (C97_bounds_partial), constants (C97_constant), accuracy of about 3 float units per dimension, including an error on the data (C97_accurate).  C97_near_partial: in any dimension, if the neighbors have the same sign and none is more than twice another one (Sterbenz)."
  },
  {
   "property": "C98",
   "status": "partial",
   "theorems": [
    "Litl.C98_order",
    "Litl.C98_min",
    "Litl.C98_max",
    "Litl.C98_sorted",
    "Litl.C98_nth",
    "Litl.C98_sort",
    "Litl.C98_histogram",
    "Litl.C98_histogram_nan",
    "Litl.C98_history",
    "Litl.C98_sum",
    "Litl.C98_without",
    "Litl.C98_sort_without",
    "Litl.C98_equal",
    "Litl.C98_median_nan",
    "Litl.C98_median_numbers",
    "Litl.C98_inverted",
    "Litl.C98_violated",
    "Litl.C98_undefined",
    "Litl.C98_partial"
   ],
   "note": "False: 3, NaN, 1 is considered as sorted by the constructor, such that min() is 3 and max() is 1 (C98_violated, C98_inverted), and std::nth_element is undefined for 2, 1, NaN (C98_undefined). Exact results: the requirement of sorting algorithms (C98_order), min() and max() of containers (C98_min, C98_max: NaNs are ignored unless first), what is considered as sorted (C98_sorted), nth(), sort() and histogram() of distributions with NaN (C98_nth, C98_sort, C98_histogram, C98_histogram_nan: values after the first NaN are not counted), sums (C98_sum), equality (C98_equal), and the median filter (C98_median_nan, C98_median_numbers).  C98_sort_without: without NaN, sorting yields the sorted values and sets the flag."
  },
  {
   "property": "C99",
   "status": "partial",
   "theorems": [
    "Litl.C99_values_partial",
    "Litl.C99_remainder",
    "Litl.C99_real",
    "Litl.C99_undefined",
    "Litl.C99_integers_partial",
    "Litl.C99_mul_iff",
    "Litl.C99_add_partial",
    "Litl.C99_sub_iff",
    "Litl.C99_div_iff",
    "Litl.C99_fraction",
    "Litl.C99_channels",
    "Litl.C99_negative",
    "Litl.C99_example",
    "Litl.C99_violated",
    "Litl.C99_exact",
    "Litl.C99_remainder_undefined"
   ],
   "note": "Violated by floating point scalars and by division; exact conditions per operator proved (C99_mul_iff, C99_sub_iff, C99_div_iff, C99_fraction, C99_undefined). Floating point scalars are exact rationals."
  },
  {
   "property": "C100",
   "status": "partial",
   "theorems": [
    "Litl.C100_derive",
    "Litl.C100_derive_undefined",
    "Litl.C100_plans_partial",
    "Litl.C100_functions_partial",
    "Litl.C100_alias",
    "Litl.C100_violated"
   ],
   "note": "C100_plans_partial and C100_functions_partial: exact for degrees less than half the number of values. C100_alias: what is returned for higher frequencies. C100_violated: three values of sin(2x)."
  },
  {
   "property": "C101",
   "status": "partial",
   "theorems": [
    "Litl.Chronometer.C101_mean",
    "Litl.Chronometer.C101_variance",
    "Litl.Chronometer.C101_integers_partial",
    "Litl.Chronometer.C101_number",
    "Litl.Chronometer.C101_empty",
    "Litl.Chronometer.C101_equal",
    "Litl.Chronometer.C101_different",
    "Litl.Chronometer.C101_violated"
   ],
   "note": "C101_integers_partial: a number, null exactly if all increments are equal, for sums of squares up to a 16th of 2^p. C101_mean, C101_variance: error bounds for all increments. C101_number: a number if the variance exceeds the errors. C101_equal, C101_different, C101_violated: NaN for realistic increments in nanoseconds."
  },
  {
   "property": "C102",
   "status": "proved",
   "theorems": [
    "Litl.Kernel.C102_kernel_related",
    "Litl.Kernel.C102_kernel_signal",
    "Litl.Kernel.C102_kernel_weights",
    "Litl.Kernel.C102_kernel_outcome",
    "Litl.Kernel.C102_kernel_map",
    "Litl.Kernel.C102_kernel_parts",
    "Litl.Kernel.C102_kernel_monotonic",
    "Litl.Kernel.C102_kernel_monotonic_rounded",
    "Litl.Kernel.C102_kernel_opposite_rounded",
    "Litl.C102_extrapolation",
    "Litl.Kernel.C102_superposition",
    "Litl.LineKernel.C102_line_signal",
    "Litl.LineKernel.C102_line_weights",
    "Litl.LineKernel.C102_line_monotonic",
    "Litl.SeparableKernel.C102_separable_signal",
    "Litl.SeparableKernel.C102_separable_monotonic",
    "Litl.C102_interpolation",
    "Litl.C102_linear_monotonic",
    "Litl.C102_cubic_not_monotonic",
    "Litl.MedianFilter.C102_median_contrast"
   ],
   "note": "Relational parametricity of the model of correlation: related inputs give related outputs, by induction over the executions; linearity is obtained from executions on pairs. Even windows of median filters are not covered."
  },
  {
   "property": "C103",
   "status": "proved",
   "theorems": [
    "Litl.C103_always",
    "Litl.C103_listed",
    "Litl.C103_input",
    "Litl.C103_tolerance",
    "Litl.C103_distinct"
   ],
   "note": "Rounded subtractions and rounded probabilities; std::discrete_distribution is assumed to draw index i with probability weight i / sum of weights. C103_always (never the input if the sum is at least 1: the tolerance of Random.h:395 is large enough), C103_tolerance (a tolerance is necessary), C103_listed and C103_input (probabilities, for all sums), C103_distinct (keys of maps)."
  },
  {
   "property": "C104",
   "status": "partial",
   "theorems": [
    "Litl.C104_uniform",
    "Litl.C104_uniform_add",
    "Litl.C104_uniform_add_partial",
    "Litl.C104_half",
    "Litl.C104_gaussian",
    "Litl.C104_gaussian_partial",
    "Litl.C104_gaussian_unsigned",
    "Litl.C104_gaussian_null",
    "Litl.C104_uniform_unsorted",
    "Litl.C104_poisson_default",
    "Litl.C104_shot",
    "Litl.C104_violated",
    "Litl.C104_complex",
    "Litl.C104_real"
   ],
   "note": "Does not hold (C104_violated): the default mean of Poisson noises is 0, which the standard excludes (C104_poisson_default), as are null data (C104_shot, exact: all data must be positive); the Gaussian noise of unsigned integers is undefined as soon as -1 or less is drawn (C104_gaussian_unsigned, exact condition in C104_gaussian); half the highest value is rounded up, such that adding twice the bound overflows (C104_half, exact condition in C104_uniform_add). Proved: C104_uniform, C104_uniform_add_partial, C104_gaussian_partial (signed types), C104_complex, C104_real."
  },
  {
   "property": "C105",
   "status": "partial",
   "theorems": [
    "Litl.C105_correlation",
    "Litl.C105_periodic",
    "Litl.C105_1d_partial",
    "Litl.C105_edges_partial",
    "Litl.C105_flat_partial",
    "Litl.C105_padded",
    "Litl.C105_separable",
    "Litl.C105_violated"
   ],
   "note": "Proved for 1D kernels, for the pixels close to the borders in any dimension, for all pixels but the row starts of 1D and 2D kernels on rasters of any dimension, for any pixel which the ND kernel computes correctly (C105_periodic), and for separable kernels. Violated (C105_violated) at the row starts of ND kernels, where the correlation itself is wrong (C45)."
  },
  {
   "property": "C106",
   "status": "partial",
   "theorems": [
    "Litl.Container.C106_rounding",
    "Litl.Container.C106_vector",
    "Litl.Container.C106_short",
    "Litl.Container.C106_scalar_partial",
    "Litl.Container.C106_exact",
    "Litl.Container.C106_violated",
    "Litl.Container.C106_sum_error_partial",
    "Litl.Container.C106_product_error_partial",
    "Litl.Container.C106_quotient_error_partial",
    "Litl.Container.C106_tiny_divisor",
    "Litl.Container.C106_divisor",
    "Litl.Container.C106_commutative",
    "Litl.Container.C106_neutral",
    "Litl.Container.C106_order",
    "Litl.Container.C106_difference_zero",
    "Litl.Container.C106_difference_exact",
    "Litl.Container.C106_inverse_violated",
    "Litl.Container.C106_inverse_partial",
    "Litl.Container.C106_increment",
    "Litl.Container.C106_increment_stuck"
   ],
   "note": "Violated for scalars which are not values of the container's type (C106_violated, for every operator and every precision): they are rounded first because the parameter is a const T&. Error bounds are proved for them; non-null scalars can even become null divisors (C106_tiny_divisor). Dividing back is violated in every precision (C106_inverse_violated), and holds for powers of two. C106_rounding proves that the arithmetic of all floating point models is rounding to nearest, ties to even, as specified without exponents or mantissas in Spec/Nearest."
  },
  {
   "property": "C107",
   "status": "partial",
   "theorems": [
    "Litl.C107_fill",
    "Litl.C107_isolated",
    "Litl.C107_failure",
    "Litl.C107_sequential",
    "Litl.C107_order",
    "Litl.C107_plans",
    "Litl.C107_disjoint",
    "Litl.C107_owners",
    "Litl.C107_executions_partial",
    "Litl.C107_two",
    "Litl.C107_inverse",
    "Litl.C107_compose",
    "Litl.C107_same",
    "Litl.C107_functions",
    "Litl.C107_function_plans",
    "Litl.C107_round_trips",
    "Litl.C107_violated"
   ],
   "note": "The documentation says that several plans can be executed in parallel. This holds for plans which own their buffers (C107_owners, C107_executions_partial, C107_round_trips), and is wrong for a plan and its inverse or composed plan, which share buffers (C107_violated, C107_inverse, C107_compose); C107_two is the exact condition. Actions are atomic in the model; this is sound because programs with data races have undefined behaviour, and actions without data races do not observe each other."
  },
  {
   "property": "C108",
   "status": "partial",
   "theorems": [
    "Litl.Checked.C108_sound",
    "Litl.Checked.C108_outcomes_partial",
    "Litl.Checked.C108_memory_partial",
    "Litl.Checked.C108_overflow",
    "Litl.Checked.C108_flat_partial",
    "Litl.Checked.C108_violated"
   ],
   "note": "The correlation of C45 with each operation on positions checked to be a value of type Index. The outcomes are the same (C108_outcomes_partial) if the windows at the pixels are in the range of Index, which holds for less than 2^62 pixels (C108_memory_partial); C108_flat_partial transports C45 to machine integers. C108_sound holds for any sizes. Refuted in full (C108_violated): a line of 2^62 + 1 pixels of one byte and a kernel of the same length overflow (C108_overflow). Pointers and values are those of C45; the extrapolator is arbitrary."
  },
  {
   "property": "C109",
   "status": "partial",
   "theorems": [
    "Litl.C109_in_order_unique",
    "Litl.C109_tuple_foreach",
    "Litl.C109_tuple_transform",
    "Litl.C109_foreach",
    "Litl.C109_transform_calls",
    "Litl.C109_transform_partial",
    "Litl.C109_transform_any_order",
    "Litl.C109_violated",
    "Litl.C109_transform_state",
    "Litl.C109_arguments",
    "Litl.C109_arguments_undefined",
    "Litl.C109_generate",
    "Litl.C109_generate_calls",
    "Litl.C109_vector_operators",
    "Litl.C109_scalar_operators",
    "Litl.C109_operators_orders",
    "Litl.C109_serialize",
    "Litl.C109_serialize_injective"
   ],
   "note": "generate() and apply(): single outcome whatever the evaluation order of the arguments, in all cases (C109_generate). Operators: single outcome if operands do not overlap or are the same; the condition is needed (C109_operators_orders). seqTransform() on a sequence which is not a tuple works on a copy of the function and in any order: the desired statement, that it behaves as on a tuple, is violated for functions with a state (C109_violated), and holds for others (C109_transform_partial)."
  },
  {
   "property": "C110",
   "status": "partial",
   "theorems": [
    "Litl.Container.C110_sizes",
    "Litl.C110_sub_values_partial",
    "Litl.C110_closed_partial",
    "Litl.C110_wide_partial",
    "Litl.C110_polynomial_partial",
    "Litl.C110_narrow_partial",
    "Litl.C110_violated",
    "Litl.C110_overflow",
    "Litl.C110_memory"
   ],
   "note": "Holds for types which are closed under their operators (C110_closed_partial, in memory and whatever the evaluation order: C110_memory), for integers at least as wide as int (C110_wide_partial), and whenever intermediate results are values of the type (C110_sub_values_partial). Violated for narrower integers, e.g. (a + b) / 2 of unsigned chars (C110_violated); polynomials have the same result when both are defined (C110_polynomial_partial), but each may overflow without the other (C110_overflow)."
  },
  {
   "property": "C111",
   "status": "proved",
   "theorems": [
    "Litl.C111_layout",
    "Litl.C111_layout_unique",
    "Litl.C111_fill",
    "Litl.C111_fill_undefined",
    "Litl.C111_convert",
    "Litl.C111_convert_pixels",
    "Litl.C111_convert_undefined",
    "Litl.C111_integrate",
    "Litl.C111_integrate_pixels",
    "Litl.C111_integrate_undefined",
    "Litl.C111_sections",
    "Litl.C111_sections_undefined"
   ],
   "note": "Layout of C111_layout, which is the only one (C111_layout_unique). Loops by steps are exact (C111_fill, C111_convert, C111_convert_pixels, C111_integrate, C111_integrate_pixels), and undefined otherwise (C111_fill_undefined, C111_convert_undefined, C111_integrate_undefined). Sections are independent (C111_sections), with unchecked indices (C111_sections_undefined)."
  },
  {
   "property": "C112",
   "status": "partial",
   "theorems": [
    "Litl.C112_violated",
    "Litl.C112_color_partial",
    "Litl.C112_gray",
    "Litl.C112_data",
    "Litl.C112_rounding_partial",
    "Litl.C112_gray_rounding"
   ],
   "note": "Holds for colors which are not gray (C112_color_partial in exact arithmetic). In double precision, the hue, saturation and value remain in the documented ranges and are within 2^-28, 2^-40 and 2^-51 of the exact ones (C112_rounding_partial). Violated for gray colors, whose hue and saturation are never initialized, nor is the value of black (C112_violated, C112_gray, C112_gray_rounding); the conversion along the first axis, which reads them, is then undefined (C112_data)."
  },
  {
   "property": "C113",
   "status": "partial",
   "theorems": [
    "Litl.C113_exact",
    "Litl.C113_iff",
    "Litl.C113_monotone",
    "Litl.C113_error",
    "Litl.C113_finite",
    "Litl.C113_violated",
    "Litl.C113_partial",
    "Litl.Distribution.C113_quantile",
    "Litl.Distribution.C113_late",
    "Litl.Distribution.C113_defined",
    "Litl.Distribution.C113_rank",
    "Litl.Distribution.C113_extrema",
    "Litl.Distribution.C113_mean",
    "Litl.Distribution.C113_above_max"
   ],
   "note": "Refuted for 64 bit integers (C113_violated): an integer is unchanged if and only if it has at most 53 significant bits (C113_exact), therefore the type is wide enough if and only if the integral type has at most 53 digits (C113_iff, C113_partial). Conversions are monotone, accurate and finite (C113_monotone, C113_error, C113_finite). Quantiles of integers are those of the converted integers (C113_quantile, C113_rank), and quantile(0) is min() if and only if min() has at most 53 significant bits (C113_extrema); a quantile can be greater than max() (C113_above_max)."
  },
  {
   "property": "C114",
   "status": "partial",
   "theorems": [
    "Litl.C114_extrapolation",
    "Litl.C114_values",
    "Litl.C114_empty",
    "Litl.C114_inside",
    "Litl.C114_defined",
    "Litl.C114_undefined",
    "Litl.C114_raster",
    "Litl.C114_line",
    "Litl.C114_double",
    "Litl.C114_violated",
    "Litl.C114_partial",
    "Litl.C114_last_pixel",
    "Litl.C114_domain_violated",
    "Litl.C114_domain_partial"
   ],
   "note": "Extrapolation never overflows and equals that on unbounded integers.  Interpolation over extrapolation is false as stated: positions are converted to the index type whatever their magnitude, e.g. 2^63 (C114_violated); the theorem C114_defined is the exact set of positions, which is |x| < 2^63 in double precision (C114_double).  Interpolation over a bare raster is defined where all neighbors are pixels (C114_raster) and, along a line, only there (C114_line): at the last pixel, linear interpolation reads out of bounds (C114_last_pixel)."
  },
  {
   "property": "C115",
   "status": "partial",
   "theorems": [
    "Litl.MedianFilter.C115_odd",
    "Litl.MedianFilter.C115_even",
    "Litl.MedianFilter.C115_small",
    "Litl.MedianFilter.C115_average",
    "Litl.MedianFilter.C115_output",
    "Litl.MedianFilter.C115_output_odd",
    "Litl.MedianFilter.C115_overflow",
    "Litl.MedianFilter.C115_wrap",
    "Litl.MedianFilter.C115_defined",
    "Litl.MedianFilter.C115_wide",
    "Litl.MedianFilter.C115_constant_unsigned",
    "Litl.MedianFilter.C115_constant_signed",
    "Litl.MedianFilter.C115_constant_long",
    "Litl.MedianFilter.C115_violated",
    "Litl.MedianFilter.C115_partial",
    "Litl.MedianFilter.C115_narrow_partial"
   ],
   "note": "C115_odd, C115_even and C115_small say what is computed for every list. C115_average proves the average right (truncated toward zero) if the sum is a number of the promoted type of at most 53 bits; C115_defined says exactly when it is defined; C115_wrap gives the wrong value of unsigned types; C115_wide bounds the error otherwise. C115_constant_unsigned, C115_constant_signed and C115_constant_long give constant images which are not reproduced. C115_violated refutes the full statement; C115_partial and C115_narrow_partial prove it where it holds."
  },
  {
   "property": "C116",
   "status": "partial",
   "theorems": [
    "Litl.C116_owning",
    "Litl.C116_owning_partial",
    "Litl.C116_view_binary",
    "Litl.C116_view_unary",
    "Litl.C116_view_unchanged_iff",
    "Litl.C116_views_partial",
    "Litl.C116_twice",
    "Litl.C116_functions",
    "Litl.C116_postfix",
    "Litl.C116_violated"
   ],
   "note": "C116_owning proves the property by induction over expressions for containers which own their elements. For views, C116_view_binary and C116_view_unary say what is overwritten, C116_view_unchanged_iff that the argument of a function is unchanged only if the function does nothing, C116_twice that a + b - a is 0, C116_functions that f(a) + g(a) depends on the order of evaluation, C116_postfix that a++ returns the new elements. C116_views_partial proves the value right, and bounds what is overwritten, if views are disjoint and occur once. C116_violated refutes the full statement."
  },
  {
   "property": "C117",
   "status": "partial",
   "theorems": [
    "Litl.C117_binary",
    "Litl.C117_undefined",
    "Litl.C117_generate",
    "Litl.C117_iff",
    "Litl.C117_partial",
    "Litl.C117_generate_partial",
    "Litl.C117_apply_partial",
    "Litl.C117_generate_undefined",
    "Litl.C117_violated",
    "Litl.C117_not_commutative"
   ],
   "note": "Violated: rasters of shapes (2, 3) and (3, 2) are silently combined at different positions (C117_violated). C117_iff characterizes the shapes for which the positions match; C117_binary, C117_generate, C117_undefined and C117_generate_undefined give what happens for any shapes; the _partial theorems are the property for equal shapes."
  },
  {
   "property": "C118",
   "status": "partial",
   "theorems": [
    "Litl.C118_period",
    "Litl.C118_all",
    "Litl.C118_elements_partial",
    "Litl.C118_seeds",
    "Litl.C118_seeds_partial",
    "Litl.C118_shift",
    "Litl.C118_outputs",
    "Litl.C118_next",
    "Litl.C118_violated",
    "Litl.C118_violated_elements"
   ],
   "note": "Violated: the seeds 0 and 1, and the seeds which are equal modulo 2^31 - 1, give the same noise (C118_seeds), and elements which are 2^31 - 2 apart have the same engine (C118_period, with a proof that the multiplier is a primitive root). C118_shift and C118_outputs: the noises of any two seeds are the same up to a shift; e.g. the seed 48271 is the default one shifted by one element (C118_next)."
  },
  {
   "property": "C119",
   "status": "partial",
   "theorems": [
    "Litl.C119_types",
    "Litl.C119_separable",
    "Litl.C119_separable_partial",
    "Litl.C119_undefined",
    "Litl.C119_violated",
    "Litl.LineKernel.C119_line_partial",
    "Litl.LineKernel.C119_line_undefined",
    "Litl.LineKernel.C119_line_short",
    "Litl.Convolution.C119_2d_partial",
    "Litl.Convolution.C119_2d_undefined",
    "Litl.Convolution.C119_2d_short",
    "Litl.Convolution.C119_2d_value"
   ],
   "note": "Violated. C119_types gives the printable types; C119_separable is the exact condition for a separable correlation to give a raster; C119_undefined: with floating point, complex or 64-bit values, correlating along at least one axis never gives a raster and is undefined where it should. C119_separable_partial: same outcomes with types promoted to int. For 1D kernels: C119_line_partial, C119_line_undefined (exact), C119_line_short (the unsigned bound of the second loop wraps around).  2D correlations by 1D kernels: C119_2d_partial (same outcomes for types printed as int, without wrap around), C119_2d_undefined (no result for other types), C119_2d_short (no result for rows which are too short), C119_2d_value (with C72, values)."
  },
  {
   "property": "C120",
   "status": "proved",
   "theorems": [
    "Litl.LineKernel.C120_separable",
    "Litl.LineKernel.C120_value",
    "Litl.LineKernel.C120_2d"
   ],
   "note": "C120_separable is unconditional; C120_value is in any dimension; C120_2d relates three implementations. Values of any commutative semiring; messages are in C119."
  },
  {
   "property": "C121",
   "status": "partial",
   "theorems": [
    "Litl.C121_four",
    "Litl.C121_exact",
    "Litl.C121_partial",
    "Litl.C121_time",
    "Litl.C121_stable",
    "Litl.C121_noise",
    "Litl.C121_violated"
   ],
   "note": "Violated: std::mt19937 reduces seeds modulo 2^32, so that 0 and 2^32 give the same noise (C121_violated). C121_exact: two seeds other than -1 give the same values iff they are the same modulo 2^32. C121_four: values 395, 396, 622 and 623 determine the seed modulo 2^32. C121_partial: seeds lower than 2^32 give different values before the 624-th one. C121_time: with seed -1, values only depend on the time modulo 2^32. C121_stable: engines of the elements of a stable Poisson noise are the same iff elements are congruent modulo 2^31 - 2.  C121_noise: with C75, states of noises with the same parameters are the same iff seeds are the same modulo 2^32."
  },
  {
   "property": "C122",
   "status": "partial",
   "theorems": [
    "Litl.C122_smallest",
    "Litl.C122_box",
    "Litl.C122_length",
    "Litl.C122_variable",
    "Litl.C122_partial",
    "Litl.C122_negative",
    "Litl.C122_violated",
    "Litl.C122_violated_overflow"
   ],
   "note": "Violated: shape() of balls of variable dimension throws whatever the ball (C122_variable, C122_violated), and bounds may overflow (C122_violated_overflow). Exact: C122_box (when the box can be computed), C122_length (when lengths can be). C122_smallest: in exact arithmetic, the box is the smallest one. C122_partial: fixed dimensions, away from the bounds of Index. C122_negative: for negative radii, boxes are empty up to -1 included, but contain the center between -1 and 0."
  },
  {
   "property": "C123",
   "status": "partial",
   "theorems": [
    "Litl.C123_partial",
    "Litl.C123_copy",
    "Litl.C123_exact",
    "Litl.C123_violated",
    "Litl.C123_null",
    "Litl.C123_overflow"
   ],
   "note": "Violated: the holder has a destructor but neither copy nor move operations, thus any program which copies or moves a raster to another one has undefined behaviour before all rasters are destroyed (C123_copy, C123_violated). C123_partial: programs without copies. C123_exact: complete programs are well defined iff they do not copy rasters. C123_null: failed allocations are not reported. C123_overflow: the number of bytes may overflow."
  },
  {
   "property": "C124",
   "status": "partial",
   "theorems": [
    "Litl.C124_partial",
    "Litl.C124_array_partial",
    "Litl.C124_variable_partial",
    "Litl.C124_moved",
    "Litl.C124_shape",
    "Litl.C124_violated"
   ],
   "note": "Violated: a VecRaster of fixed dimension keeps its shape when its pixels are moved (C124_shape, C124_violated), and accessing any pixel is undefined until it is assigned (C124_moved, for all programs). C124_partial: rasters which were not moved since they were constructed or assigned. C124_array_partial: arrays, whether or not they were moved. C124_variable_partial: variable dimension, where what remains of moved rasters is consistent."
  },
  {
   "property": "C125",
   "status": "proved",
   "theorems": [
    "Litl.C125_generate",
    "Litl.C125_apply",
    "Litl.C125_agree",
    "Litl.C125_components",
    "Litl.C125_local",
    "Litl.C125_same_engine"
   ],
   "note": "Proved for any engine, distributions and square root: C125_generate, C125_apply, C125_agree, C125_components, C125_local. C125_same_engine: both components are seeded alike, hence draw the same random numbers. Conversions from double to integral value types are left out."
  },
  {
   "property": "C126",
   "status": "proved",
   "theorems": [
    "Litl.C126_ends",
    "Litl.C126_traversal",
    "Litl.C126_values",
    "Litl.C126_empty",
    "Litl.C126_empty_view",
    "Litl.C126_at",
    "Litl.C126_sections"
   ],
   "note": "Proved for rasters and views of any shape, and by C126_empty_view and C126_at for those without pixels, the exact outcomes: at() throws, whereas back() reads out of any buffer, and front() of a view returns an element which is not its own if there is one."
  },
  {
   "property": "C127",
   "status": "partial",
   "theorems": [
    "Litl.Matrix.C127_product",
    "Litl.Matrix.C127_diagonal_partial",
    "Litl.Matrix.C127_identity",
    "Litl.Matrix.C127_identity_iff",
    "Litl.Matrix.C127_violated"
   ],
   "note": "Violated: the operators are those of EuclidArithmetic, i.e. they work element by element. The product by the identity drops all of the elements out of the diagonal, and is neutral if and only if the matrix is diagonal; products of diagonal matrices are right."
  },
  {
   "property": "C128",
   "status": "partial",
   "theorems": [
    "Litl.Affinity.C128_run",
    "Litl.Affinity.C128_scale",
    "Litl.Affinity.C128_scale_iff",
    "Litl.Affinity.C128_origin_partial",
    "Litl.Affinity.C128_violated"
   ],
   "note": "Violated: the translations by minus the center and by the center cancel, and the matrices are multiplied element by element. After any sequence of translations, scalings, rotations and products, the state stands for a map which multiplies each coordinate by the product of the factors and adds the sum of the translations (invariant by induction on the calls): neither the center nor the rotations have an effect. Scaling is about the center if and only if each coordinate of the center is null or has factor one. This is about the state of the object: operator(), transformTo() and inverse() cannot be instantiated because there is no product of a matrix by a vector. Exact arithmetic."
  },
  {
   "property": "C129",
   "status": "partial",
   "theorems": [
    "Litl.CorrelationBenchmark.C129_partial",
    "Litl.CorrelationBenchmark.C129_one",
    "Litl.CorrelationBenchmark.C129_two",
    "Litl.CorrelationBenchmark.C129_large",
    "Litl.CorrelationBenchmark.C129_violated"
   ],
   "note": "Violated: with one pixel along each axis the behavior is undefined (C129_one), and with two it is either undefined or correct, depending on the evaluation order of function arguments (C129_two). From 3 on it holds (C129_partial). The three theorems together settle every side.  C129_large: above the maximum size of vectors, an exception is thrown."
  },
  {
   "property": "C130",
   "status": "partial",
   "theorems": [
    "Litl.OptionObjects.C130_partial",
    "Litl.OptionObjects.C130_copy",
    "Litl.OptionObjects.C130_positional",
    "Litl.OptionObjects.C130_violated",
    "Litl.OptionObjects.C130_never",
    "Litl.OptionObjects.C130_dangling"
   ],
   "note": "Violated: m_add points to the m_named of the object it is initialised with, and copies share the pointer, such that options which are declared with a copy go to the original (C130_copy), those of the copy never change (C130_never), and the behavior is undefined if the original is destroyed (C130_dangling). It holds if options are never declared with copies or moved-to objects (C130_partial).  C130_positional: a positional option of a copy is bound by the copy but unknown to it."
  },
  {
   "property": "C131",
   "status": "partial",
   "theorems": [
    "Litl.OptionObjects.C131_exact",
    "Litl.OptionObjects.C131_partial",
    "Litl.OptionObjects.C131_unlimited",
    "Litl.OptionObjects.C131_violated"
   ],
   "note": "Violated: options of several tokens get the tokens which remain after all of the other options, even those which are declared after them (C131_exact); two such options are undefined (C131_unlimited). Holds if only the last option has several tokens (C131_partial)."
  },
  {
   "property": "C132",
   "status": "partial",
   "theorems": [
    "Litl.Pipeline.C132_exact",
    "Litl.Pipeline.C132_least",
    "Litl.Pipeline.C132_partial",
    "Litl.Pipeline.C132_exponential",
    "Litl.Pipeline.C132_violated"
   ],
   "note": "Violated: the value of a step is fetched once for each path to it in the graph of prerequisites, even if everything has been evaluated before (C132_exact; at least so many times if evaluations call get(), C132_least). Hence the number of calls may be exponential in the number of steps (C132_exponential). Holds for steps to which there is a single path (C132_partial)."
  },
  {
   "property": "C133",
   "status": "partial",
   "theorems": [
    "Litl.Pipeline.C133_partial",
    "Litl.Pipeline.C133_nested",
    "Litl.Pipeline.C133_violated"
   ],
   "note": "Violated: the time of a step which is first got in the evaluation of another one, of which it is not a prerequisite, is counted for both. With n nested evaluations, the total is n times the elapsed time (C133_nested). Holds if evaluations only get prerequisites (C133_partial), since evaluations are then not nested."
  },
  {
   "property": "C134",
   "status": "partial",
   "theorems": [
    "Litl.PipelineParallel.C134_exact",
    "Litl.PipelineParallel.C134_partial",
    "Litl.PipelineParallel.C134_twice",
    "Litl.PipelineParallel.C134_violated"
   ],
   "note": "Violated, as the FIXME of line 182 says. There may be a data race if and only if a thread gets a step which has not been evaluated, or of which a prerequisite has not, while another one gets any step, even an evaluated one (C134_exact). A step may be evaluated by all of the threads (C134_twice). Sharing a pipeline is safe once all that is got has been evaluated (C134_partial)."
  }
 ]
}
