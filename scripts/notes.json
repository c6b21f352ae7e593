{
 "C01": {
  "note": "All dimensions and non-negative shapes, on unbounded integers."
 },
 "C02": {
  "note": "All shapes and positions, inside of the domain or not, on unbounded integers."
 },
 "C03": {
  "note": "All shapes with positive lengths."
 },
 "C04": {
  "note": "All non-empty boxes of dimension at least 1."
 },
 "C05": {
  "note": "The code violates the property: looping over any empty box does not terminate (C05_empty_box_diverges). Full statement: C05_Statement, negated by C05_violated."
 },
 "C06": {
  "note": "All shapes and positions."
 },
 "C07": {
  "note": "On 64-bit machine integers with mixed signedness; container sizes below 2^63."
 },
 "C08": {
  "note": "Integral positions; all shapes."
 },
 "C09": {
  "note": "The code violates the property for each dimension but 1 (C09_wrong_dimension, C09_violated). Full statement: C09_Statement."
 },
 "C10": {
  "note": "All boxes and vectors."
 },
 "C11": {
  "note": "The code violates the property for boxes with a negative length and no null length (C11_violated); C11_size_right_iff characterises the boxes for which it holds."
 },
 "C12": {
  "note": "All non-empty boxes and margins with non-positive front and non-negative back."
 },
 "C13": {
  "note": "clamp(position, box) cannot be instantiated (it reads box.front[i], where front is a method); only the overload with a shape is modelled."
 },
 "C14": {
  "note": "All regions and slice dimensions; completeness of the contiguity test is proved too."
 },
 "C15": {
  "note": "All shapes; nesting and writes included."
 },
 "C16": {
  "note": "Non-empty regions inside of the raster; see C05 for empty ones."
 },
 "C17": {
  "note": "Exact arithmetic: the radius is rational and powers are exact; exponents are positive naturals."
 },
 "C18": {
  "note": "The code violates the property: size() is that of the bounding box (C18_violated); C18_size_partial gives the exact condition under which it is right."
 },
 "C19": {
  "note": "Positive steps. Floating point samplings in exact arithmetic."
 },
 "C20": {
  "note": "The code violates the property: iteration ends after as many elements as the data, not as the samples (C20_visits_size_elements, C20_out_of_bounds, C20_violated)."
 },
 "C21": {
  "note": "Fixed dimensions are proved; the code violates the property for variable dimension, because the shape is moved from before it is used (C21_variable_dimension, C21_violated)."
 },
 "C22": {
  "note": "All shapes and element types."
 },
 "C23": {
  "note": "The code violates the property: inf() is filled with -inf (C23_inf_not_inf, C23_whole_empty, C23_violated)."
 },
 "C24": {
  "note": "All sizes and element types with the stated laws; aliasing included."
 },
 "C25": {
  "note": "The code violates the property when the scalar is an element of the container (C25_exact, C25_violated)."
 },
 "C26": {
  "note": "The code violates the property for all scalars but 0 (C26_only_zero, C26_violated)."
 },
 "C27": {
  "note": "All functions with state (call order and count are observable), sizes and aliased arguments."
 },
 "C28": {
  "note": "range() is proved; linspace() is proved for exact fields and sizes of at least 2, and refuted for integers (C28_linspace_decreasing_wrong, C28_violated) and small sizes."
 },
 "C29": {
  "note": "All linear orders (no NaN)."
 },
 "C30": {
  "note": "All histories of queries, and all the behaviours which the C++ standard allows for nth_element and sort. `C30_extrema_defined`: `min()` and `max()` have a result as soon as there is a value (added after a mutant of `Max` survived)."
 },
 "C31": {
  "note": "The code violates the property: interpolation weights are swapped (C31_exact, C31_swapped, C31_violated). Evaluation order of the operands is a parameter."
 },
 "C32": {
  "note": "Exact floating point values are proved; the code violates the property for integers (C32_negative_wrong, C32_violated)."
 },
 "C33": {
  "note": "The code violates the property when a value equals the last bound: it writes out of bounds (C33_upper_bound, C33_violated). `C33_defined`: `sort()` and `histogram()` have a result in every state; `C31_defined` and `C64_defined` for quantiles."
 },
 "C34": {
  "note": "All sizes; formatting of single elements is not modelled."
 },
 "C35": {
  "note": "64-bit words. The code violates the property when the number of bytes wraps around and at address 2^63 (C35_violated, C35_alignment_overflow)."
 },
 "C36": {
  "note": "All finite histories of operations on any number of buffers."
 },
 "C37": {
  "note": "The code violates the property: the move constructor and both assignments leak (C37_losses, C37_lost_forever, C37_violated); C37_no_leak_partial covers all the histories without them."
 },
 "C38": {
  "note": "All buffers, contents and interleavings of writes."
 },
 "C39": {
  "note": "Engines, seeding and distributions are arbitrary deterministic functions."
 },
 "C40": {
  "note": "Exact arithmetic with explicit epsilon. The code violates the property for sums of probabilities within the tolerance below 1 (C40_violated).  C40_map: listed values are sorted and have the first probability given for them."
 },
 "C41": {
  "note": "All non-empty rasters and integral positions."
 },
 "C42": {
  "note": "Exact arithmetic (any linearly ordered field with floor). The code violates the property: weights are swapped (C42_mirrored, C42_at_integers, C42_violated)."
 },
 "C43": {
  "note": "Exact arithmetic. The code violates the property below -1/2 (C43_exact, C43_negative, C43_violated)."
 },
 "C44": {
  "note": "Exact arithmetic; any dimension."
 },
 "C45": {
  "note": "The code violates the property at row starts and for kernels of dimension 3 and more (C45_violated, C45_deep_violated, C45_row_start_2d), and for kernels longer than the raster (C45_too_large, C45_1d_overrun). C45_exact gives the value everywhere. C45_row_start describes what is computed at the starts of rows in any dimension (C45_row_start_2d in closed form in 2D): together with C45_edges_partial and C45_exact, the output is characterised at every pixel.  In 1D, the outcome is settled for kernels of any length: the correlation is right if and only if no side of the window is longer than the raster, and is undefined behavior otherwise (C45_1d_iff, C45_1d_large_partial, C45_1d_outside). In any dimension, kernels which are wider than the raster along the first axis are right everywhere, since all of the pixels are extrapolated (C45_wide_partial)."
 },
 "C46": {
  "note": "All lines at least as long as the kernel, strides and origins; any commutative ring."
 },
 "C47": {
  "note": "The code violates the property for short lines (C47_violated); C47_exact_partial gives the exact domain of validity. `C47_origin_after`: the origin is not checked, and the behaviour is undefined if it is farther than the end of the kernel (added after a mutant of `innerProduct` survived).  C47_short: lines which are not longer than the part of the kernel after its origin are undefined behavior, wherever they are in memory."
 },
 "C48": {
  "note": "The code violates the property (C48_violated, C48_step_violated); C48_exact_partial gives the exact domain of validity."
 },
 "C49": {
  "note": "All kernels along distinct axes; any commutative ring. Messages are printed with %i: for value types which are not promoted to int, see C119.  C49_pass_short and C49_short: a pass along an axis with too few pixels makes the correlation undefined."
 },
 "C50": {
  "note": "The code violates the property: the composed kernel is flipped (C50_exact, C50_violated); proved for symmetric kernels."
 },
 "C51": {
  "note": "The code violates the property for windows with an even number of positions (C51_even, C51_two, C51_violated, C51_even_violated), and for the default region (C51_default_region). Odd windows are proved whatever the implementation of nth_element. `C51_apply_too_large`: nothing is filtered if the output cannot be allocated.  `C51_apply_empty`: filtering a raster without pixels is undefined behavior."
 },
 "C52": {
  "note": "Lengths which do not fit in int are converted by FFTW's interface (C52_violated); everything else is proved for all shapes."
 },
 "C53": {
  "note": "In exact arithmetic, assuming that FFTW computes the unnormalised DFT as documented; lengths of 2^31 and more are refuted (C53_violated)."
 },
 "C54": {
  "note": "All graphs and histories, with failures, caught exceptions and evaluations which get other steps."
 },
 "C55": {
  "note": "The clock of the code may go backwards, in which case the property does not hold (C55_violated)."
 },
 "C56": {
  "note": "Exact arithmetic. The code violates the property for integral units, because increments are truncated (C56_total_lt, C56_violated)."
 },
 "C57": {
  "note": "The code violates the property for empty rasters (C57_empty_positions, C57_violated); proved for all shapes with positive lengths. `C57_short`: reads out of bounds if a raster is shorter than the output.  C57_program: the dispatcher of the benchmark program yields the sum for each known case, and throws for any other."
 },
 "C58": {
  "note": "The code violates the property unless the front is zero (C58_exact, C58_window_violated)."
 },
 "C59": {
  "note": "The code violates the property for negative integers (C59_exact, C59_violated)."
 },
 "C60": {
  "note": "Diagonal and identity matrices are proved; element access with operators returns a dangling reference (C60_access, C60_violated)."
 },
 "C61": {
  "note": "All vectors and dimensions, including out-of-bounds ones."
 },
 "C62": {
  "note": "what() is a C string: the property does not hold for messages with null characters (C62_violated)."
 },
 "C63": {
  "note": "The code violates the property for elements of the container (C63_range_exact, C63_linspace_max, C63_violated)."
 },
 "C64": {
  "note": "References returned by nth() may be read after the second call to nth(), depending on the evaluation order (C64_violated); proved for the other orders. Exact arithmetic. `C64_mad_integers_partial`: for integers, `mad()` is right if the median is an integer, and otherwise exactly 1/2 too small, because deviations are truncated."
 },
 "C65": {
  "note": "The code violates the property: the sign is the opposite (C65_exact, C65_violated)."
 },
 "C66": {
  "note": "All supported shapes (positive lengths below 2^31), signals and histories; FFTW as documented; exact arithmetic."
 },
 "C67": {
  "note": "All supported shapes and signals; FFTW as documented; exact arithmetic."
 },
 "C68": {
  "note": "All integral types; epsilon() is 0 instead of 1 (C68_epsilon, C68_violated)."
 },
 "C69": {
  "note": "All functions, sizes and aliases; scalars are copied on call (unlike C25). Hidden min/max(other) are left out."
 },
 "C70": {
  "note": "All sizes and values; refuted for empty containers based on std::array (C70_violated, C70_array_size, C70_values_array, C70_raster_array); everything else proved."
 },
 "C71": {
  "note": "All shapes, bytes and sequences of calls. Refuted: only as many bytes as there are pixels are written (C71_violated, C71_exact, C71_lossy), existing files are silently kept (C71_existing), failures are never reported (C71_failed, C71_missing). Proved for 1-byte values and new files (C71_bytes_partial)."
 },
 "C72": {
  "note": "All kernels, sizes and samplings for which the 1D correlation is correct, through the intermediate raster (C72_samples_partial), in particular all images not smaller than the kernel (C72_partial). Refuted for value types of which the width is not a value (C72_offset, C72_violated)."
 },
 "C73": {
  "note": "Refuted in full: moving a plan object into another one loses the FFTW plan of the latter (C73_violated, exact: C73_losses), and after dft.in() = raster the transform still reads the former buffer (C73_assigned). Proved: at most one destruction in all histories; no loss without move assignment; arrays match without rebinding; safety while owners live, UB of inverses of destroyed plans and of moved-from plans; the memory of the rasters returned by complexDft() and the like is never freed (C73_functions). `C73_allocation_failure`: failures of allocation are not detected before planning."
 },
 "C74": {
  "note": "Refuted: it++ returns the next element for boxes, balls and subrasters (exact results C74_box, C74_ball, C74_subraster: the first element is skipped and the end is visited, which is out of bounds for subrasters iff the region starts at the first pixel, C74_subraster_ub); undefined for samplings; samples++ increments only the result. Proved for ++it, all numbers of increments, including past the end."
 },
 "C75": {
  "note": "Refuted: StablePoissonNoise accepts the seed -1 and then its operator()() depends on the clock, contrary to its documentation. Proved for all other seeds: values are the successive draws of the seeded engine (seed modulo 2^32), additive noises add them, objects continue, complex draws alternate; random() gives the draws of the clock-seeded engine."
 },
 "C76": {
  "note": "Refuted: iterators over balls and subrasters refer to a box which is their own member, so that a copy refers to the box of the iterator it is a copy of: it dangles once that one is destroyed, e.g. after an algorithm which takes iterators by value and returns one. C76_ball_iterator and C76_subraster_iterator are exact; C76_partial holds for anything else, and for cursors as long as the original iterator lives. Slices follow moved VecRasters, subrasters and decorators do not (C76_slice, C76_slice_moved, C76_moved); decorators of temporaries are unusable (C76_temporary); nothing becomes usable again (C76_forever)."
 },
 "C77": {
  "note": "Refuted: options are accumulated in the same variables map, which does not overwrite explicit values, so that the value is that of the first command line which gives it (C77_first); a failed command line makes later faultless ones throw (C77_after_failure). Proved for options not given in earlier command lines (C77_partial). Boost's store is modelled from its documentation, the lexical analysis of the command line is a parameter. C77_accepts: a further command line is accepted exactly when each option not given earlier is declared and convertible, and has at most one token."
 },
 "C78": {
  "note": "-box = {-front, -back} has its front beyond its back as soon as it has two positions, hence the loop over it does not terminate (C78_box_opposite, C78_violated). Translations and opposites of balls: proved for all."
 },
 "C79": {
  "note": "Violated by shapes with an axis of length 0 whose first lengths have a too big product (C79_size_iff is the exact condition), and by loops over boxes which reach -2^63 or 2^63 - 1 (C79_loop_front, C79_loop_back). Otherwise proved."
 },
 "C80": {
  "note": "Refuted: the default copy constructor of Matrix copies the Eigen::Map, which views the elements of the original matrix, and the default assignment assigns through the views: `c = a + b` sets c to a, and assigning to a copy overwrites the original. Proved for programs without copies, and for programs without assignments. `C80_destroyed`: destroyed matrices cannot be used."
 },
 "C81": {
  "note": "Refuted: the result of Eigen's inverse() is discarded, and the matrix is unchanged; this is the inverse of exactly those matrices whose square is the identity."
 },
 "C82": {
  "note": "The models of the correlations are parametric in the arithmetic: `Sim.kernel_correlates` and `Sim.line_correlates` (Lemmas/Simulation) relate runs in two arithmetics. Rounded runs are related to exact runs which also sum absolute values and count terms. `C82_kernel` needs the same hypotheses as C45; `C82_1d` and `C82_line` hold everywhere. `Binary.rounding` shows that binary formats with gradual underflow (float, double) satisfy the axioms of `Rounding`; `C82_cancellation` shows that the bound cannot be relative to the result. Missing from the model: overflows, NaN, contraction to fused multiply-add."
 },
 "C83": {
  "note": "Proved for values with any addition and multiplication (no law), for ND kernels where C45 holds (edges; 1D and 2D kernels but at row starts) and for lines where C46 holds. C83_separable and C83_separable_shift: separable kernels, along any axes (C83_separable) or distinct ones."
 },
 "C84": {
  "note": "Proved both ways, for ND kernels and lines, where C83 holds. Users who mask pixels with NaN and zero weights should know that it does not work."
 },
 "C85": {
  "note": "Proved from C83_separable (the passes in any arithmetic) by induction on the passes."
 },
 "C86": {
  "note": "`Props/FillRounding.lean`: `C86_linspace_bounds` (exact bounds), `C86_linspace_accurate` (error bound), `C86_linspace_sorted_partial` and `C86_linspace_binary_partial` (sorted as long as the size is at most a quarter of 2^p and the bounds are not too close). Violated in general: `C86_linspace_overshoot`, with 2^(p+1) - 3 values from 0 to 2^p - 1 (about 33 million `float`s), the value before the last one is greater than the last one. `C86_range_sorted`, `C86_range_accurate`, `C86_range_exact_partial`; the documented \"the difference between two adjacent values is exactly `step`\" is violated: `C86_range_stuck` (all the values are the same when the step is less than half of the last bit of the minimum)."
 },
 "C87": {
  "note": "`Props/DistributionRounding.lean`: `C87_sum`, `C87_mean_accurate`, `C87_sum_exact_partial`. The mean is not always between the minimum and the maximum: `C87_mean_of_constant`, in every binary format of at least 3 bits, the mean of three values 2^p - 2 is 2^p - 3 (`C87_violated`, for `float`)."
 },
 "C88": {
  "note": "`C88_origins`: the origin is the center or the first value, depending on the order in which the parameters are initialized; `C88_exact_partial` (centered for all compilers if, and only if, there is at most one value), `C88_neutral` (the neutral kernel may shift the line by one), `C88_violated`."
 },
 "C89": {
  "note": "`C89_violated` (int kernel {2^31-1, 1, -1}); `C89_exact` gives the exact outcome for every integral type: the exact correlation converted to the type, or undefined behaviour if a product or partial sum overflows the promoted type. `C89_modular_partial` (types narrower than unsigned short, and unsigned types not narrower than unsigned int: always right modulo), `C89_signed` (defined iff all products and partial sums in storage order are values of the type), `C89_unsigned_short` (undefined iff a product overflows int). `C89_line_partial` and `C89_separable_partial` for line and separable kernels of the modular types. `bool` is out of scope (std::vector<bool>). C89_line_exact gives the outcome of line kernels for all integral types; C89_bounded_partial, C89_line_bounded_partial and C89_separable_bounded_partial give exact results for all types when absolute values add up to a value of the type; C89_separable_violated shows that intermediate sums may overflow although the correlation is 0."
 },
 "C90": {
  "note": "`C90_violated` (the single unsigned short 50000); `C90_exact` (defined iff neither the values nor the squares overflow when summed), `C90_signed`, `C90_unsigned_short` (defined iff no value exceeds 46340), `C90_safe_partial` (other types: always defined and right if representable). `C90_mean` and `C90_mean_zero`: the sum is reduced before it is divided, such that the mean of at least 256 bytes is 0. C90_mean_signed and C90_mean_empty give the means of signed integers (those of negative sums are huge) and of no value."
 },
 "C91": {
  "note": "`C91_violated`: the result of a constant raster is not constant, because borders are truncated before multiplication while the interior is truncated after each addition. `C91_exact` gives both outcomes; `C91_error_partial` bounds the errors by the number of kernel values (interior) and the sum of their magnitudes (border), and shows that there are none for rasters of integers; `C91_null`: box filters of rasters in [0, 1) are null. `C91_line_partial` and `C91_separable_partial` for line and separable kernels."
 },
 "C92": {
  "note": "`C92_violated`: the quantile of {3, 3} for q = 0.2 is 3.0000000000000004 in double precision. `C92_defined` characterises the values of q for which the behaviour is defined, `C92_in_range` shows that they include [0, 1] in spite of rounding; `C92_exact` is what is computed; `C92_rank` and `C92_extrema`: quantiles of integer abscissas are exact; `C92_median`: the median is the rounded mean of the middle values; `C92_accurate` and `C92_bounds_partial`: error bounds."
 },
 "C93": {
  "note": "Violated: at the number just before 1/2 (0.49999999999999994), x + 0.5 is rounded to 1 and pixel 1 is read, out of bounds if the raster has one pixel. C93_exact gives the index read at every position up to 2^(p-2); beyond 2^53, C93_large_partial. Conversions which overflow are undefined behavior (C93_undefined)."
 },
 "C94": {
  "note": "C94_bounds: between the neighbors as soon as weights are less than 1, i.e. everywhere but at negative integers (where floor is off by one, C40) and at tiny negative positions whose offset is rounded to 1. There, C94_overshoot (3 and -2^53 give 4) violates the bounds. C94_monotone and C94_accurate complete it.  At any position, values are within bounds if the neighbors have the same sign and none is more than twice another one (C94_near_partial); where the computed weight is 1, the value of a line is given exactly by C94_weight_one."
 },
 "C95": {
  "note": "Constants are not reproduced (C95_violated: 2^53 - 1 at 1/2 gives 2^53), unless their multiples up to 5 are numbers (C95_constant_partial). C95_integral: exact at nonnegative integers. C95_accurate: the error is at most about 180 units in the last place per axis, amplified by 5/4 per axis."
 },
 "C96": {
  "note": "The exact set is given by C96_exact: every position of the ball is visited (C96_contains), and positions which are not in the ball but are visited are at the distance of the number next to the power of the radius (C96_only): e.g. (4, 5) for std::sqrt(41) (C96_violated). (1, 1, 1) is not in the ball of radius std::sqrt(3) (C96_sqrt_violated); C96_sqrt settles the other distances. Exact if the power of the radius is a number (C96_partial)."
 },
 "C97": {
  "note": "False for float at nonnegative positions, where it holds for double and long double: the difference of the neighbors is rounded to float and then interpolated in double, hence just below position 1 between 3 and -2^24 the result is 255/64 (C97_violated). Proven: bounds for long double (C97_bounds_wide), bounds on a line when the difference is representable (C97_bounds_partial), constants (C97_constant), accuracy of about 3 float units per dimension, including an error on the data (C97_accurate).  C97_near_partial: in any dimension, if the neighbors have the same sign and none is more than twice another one (Sterbenz)."
 },
 "C98": {
  "note": "False: 3, NaN, 1 is considered as sorted by the constructor, such that min() is 3 and max() is 1 (C98_violated, C98_inverted), and std::nth_element is undefined for 2, 1, NaN (C98_undefined). Exact results: the requirement of sorting algorithms (C98_order), min() and max() of containers (C98_min, C98_max: NaNs are ignored unless first), what is considered as sorted (C98_sorted), nth(), sort() and histogram() of distributions with NaN (C98_nth, C98_sort, C98_histogram, C98_histogram_nan: values after the first NaN are not counted), sums (C98_sum), equality (C98_equal), and the median filter (C98_median_nan, C98_median_numbers).  C98_sort_without: without NaN, sorting yields the sorted values and sets the flag."
 },
 "C99": {
  "note": "Violated by floating point scalars and by division; exact conditions per operator proved (C99_mul_iff, C99_sub_iff, C99_div_iff, C99_fraction, C99_undefined). Floating point scalars are exact rationals."
 },
 "C100": {
  "note": "C100_plans_partial and C100_functions_partial: exact for degrees less than half the number of values. C100_alias: what is returned for higher frequencies. C100_violated: three values of sin(2x)."
 },
 "C101": {
  "note": "C101_integers_partial: a number, null exactly if all increments are equal, for sums of squares up to a 16th of 2^p. C101_mean, C101_variance: error bounds for all increments. C101_number: a number if the variance exceeds the errors. C101_equal, C101_different, C101_violated: NaN for realistic increments in nanoseconds."
 },
 "C102": {
  "note": "Relational parametricity of the model of correlation: related inputs give related outputs, by induction over the executions; linearity is obtained from executions on pairs. Even windows of median filters are not covered."
 },
 "C103": {
  "note": "Rounded subtractions and rounded probabilities; std::discrete_distribution is assumed to draw index i with probability weight i / sum of weights. C103_always (never the input if the sum is at least 1: the tolerance of Random.h:395 is large enough), C103_tolerance (a tolerance is necessary), C103_listed and C103_input (probabilities, for all sums), C103_distinct (keys of maps)."
 },
 "C104": {
  "note": "Does not hold (C104_violated): the default mean of Poisson noises is 0, which the standard excludes (C104_poisson_default), as are null data (C104_shot, exact: all data must be positive); the Gaussian noise of unsigned integers is undefined as soon as -1 or less is drawn (C104_gaussian_unsigned, exact condition in C104_gaussian); half the highest value is rounded up, such that adding twice the bound overflows (C104_half, exact condition in C104_uniform_add). Proved: C104_uniform, C104_uniform_add_partial, C104_gaussian_partial (signed types), C104_complex, C104_real."
 },
 "C105": {
  "note": "Proved for 1D kernels, for the pixels close to the borders in any dimension, for all pixels but the row starts of 1D and 2D kernels on rasters of any dimension, for any pixel which the ND kernel computes correctly (C105_periodic), and for separable kernels. Violated (C105_violated) at the row starts of ND kernels, where the correlation itself is wrong (C45)."
 },
 "C106": {
  "note": "Violated for scalars which are not values of the container's type (C106_violated, for every operator and every precision): they are rounded first because the parameter is a const T&. Error bounds are proved for them; non-null scalars can even become null divisors (C106_tiny_divisor). Dividing back is violated in every precision (C106_inverse_violated), and holds for powers of two. C106_rounding proves that the arithmetic of all floating point models is rounding to nearest, ties to even, as specified without exponents or mantissas in Spec/Nearest."
 },
 "C107": {
  "note": "The documentation says that several plans can be executed in parallel. This holds for plans which own their buffers (C107_owners, C107_executions_partial, C107_round_trips), and is wrong for a plan and its inverse or composed plan, which share buffers (C107_violated, C107_inverse, C107_compose); C107_two is the exact condition. Actions are atomic in the model; this is sound because programs with data races have undefined behaviour, and actions without data races do not observe each other."
 },
 "C108": {
  "note": "The correlation of C45 with each operation on positions checked to be a value of type Index. The outcomes are the same (C108_outcomes_partial) if the windows at the pixels are in the range of Index, which holds for less than 2^62 pixels (C108_memory_partial); C108_flat_partial transports C45 to machine integers. C108_sound holds for any sizes. Refuted in full (C108_violated): a line of 2^62 + 1 pixels of one byte and a kernel of the same length overflow (C108_overflow). Pointers and values are those of C45; the extrapolator is arbitrary."
 },
 "C109": {
  "note": "generate() and apply(): single outcome whatever the evaluation order of the arguments, in all cases (C109_generate). Operators: single outcome if operands do not overlap or are the same; the condition is needed (C109_operators_orders). seqTransform() on a sequence which is not a tuple works on a copy of the function and in any order: the desired statement, that it behaves as on a tuple, is violated for functions with a state (C109_violated), and holds for others (C109_transform_partial)."
 },
 "C110": {
  "note": "Holds for types which are closed under their operators (C110_closed_partial, in memory and whatever the evaluation order: C110_memory), for integers at least as wide as int (C110_wide_partial), and whenever intermediate results are values of the type (C110_sub_values_partial). Violated for narrower integers, e.g. (a + b) / 2 of unsigned chars (C110_violated); polynomials have the same result when both are defined (C110_polynomial_partial), but each may overflow without the other (C110_overflow)."
 },
 "C111": {
  "note": "Layout of C111_layout, which is the only one (C111_layout_unique). Loops by steps are exact (C111_fill, C111_convert, C111_convert_pixels, C111_integrate, C111_integrate_pixels), and undefined otherwise (C111_fill_undefined, C111_convert_undefined, C111_integrate_undefined). Sections are independent (C111_sections), with unchecked indices (C111_sections_undefined)."
 },
 "C112": {
  "note": "Holds for colors which are not gray (C112_color_partial in exact arithmetic). In double precision, the hue, saturation and value remain in the documented ranges and are within 2^-28, 2^-40 and 2^-51 of the exact ones (C112_rounding_partial). Violated for gray colors, whose hue and saturation are never initialized, nor is the value of black (C112_violated, C112_gray, C112_gray_rounding); the conversion along the first axis, which reads them, is then undefined (C112_data)."
 },
 "C113": {
  "note": "Refuted for 64 bit integers (C113_violated): an integer is unchanged if and only if it has at most 53 significant bits (C113_exact), therefore the type is wide enough if and only if the integral type has at most 53 digits (C113_iff, C113_partial). Conversions are monotone, accurate and finite (C113_monotone, C113_error, C113_finite). Quantiles of integers are those of the converted integers (C113_quantile, C113_rank), and quantile(0) is min() if and only if min() has at most 53 significant bits (C113_extrema); a quantile can be greater than max() (C113_above_max)."
 },
 "C114": {
  "note": "Extrapolation never overflows and equals that on unbounded integers.  Interpolation over extrapolation is false as stated: positions are converted to the index type whatever their magnitude, e.g. 2^63 (C114_violated); the theorem C114_defined is the exact set of positions, which is |x| < 2^63 in double precision (C114_double).  Interpolation over a bare raster is defined where all neighbors are pixels (C114_raster) and, along a line, only there (C114_line): at the last pixel, linear interpolation reads out of bounds (C114_last_pixel)."
 },
 "C115": {
  "note": "C115_odd, C115_even and C115_small say what is computed for every list. C115_average proves the average right (truncated toward zero) if the sum is a number of the promoted type of at most 53 bits; C115_defined says exactly when it is defined; C115_wrap gives the wrong value of unsigned types; C115_wide bounds the error otherwise. C115_constant_unsigned, C115_constant_signed and C115_constant_long give constant images which are not reproduced. C115_violated refutes the full statement; C115_partial and C115_narrow_partial prove it where it holds."
 },
 "C116": {
  "note": "C116_owning proves the property by induction over expressions for containers which own their elements. For views, C116_view_binary and C116_view_unary say what is overwritten, C116_view_unchanged_iff that the argument of a function is unchanged only if the function does nothing, C116_twice that a + b - a is 0, C116_functions that f(a) + g(a) depends on the order of evaluation, C116_postfix that a++ returns the new elements. C116_views_partial proves the value right, and bounds what is overwritten, if views are disjoint and occur once. C116_violated refutes the full statement."
 },
 "C117": {
  "note": "Violated: rasters of shapes (2, 3) and (3, 2) are silently combined at different positions (C117_violated). C117_iff characterizes the shapes for which the positions match; C117_binary, C117_generate, C117_undefined and C117_generate_undefined give what happens for any shapes; the _partial theorems are the property for equal shapes."
 },
 "C118": {
  "note": "Violated: the seeds 0 and 1, and the seeds which are equal modulo 2^31 - 1, give the same noise (C118_seeds), and elements which are 2^31 - 2 apart have the same engine (C118_period, with a proof that the multiplier is a primitive root). C118_shift and C118_outputs: the noises of any two seeds are the same up to a shift; e.g. the seed 48271 is the default one shifted by one element (C118_next)."
 },
 "C119": {
  "note": "Violated. C119_types gives the printable types; C119_separable is the exact condition for a separable correlation to give a raster; C119_undefined: with floating point, complex or 64-bit values, correlating along at least one axis never gives a raster and is undefined where it should. C119_separable_partial: same outcomes with types promoted to int. For 1D kernels: C119_line_partial, C119_line_undefined (exact), C119_line_short (the unsigned bound of the second loop wraps around).  2D correlations by 1D kernels: C119_2d_partial (same outcomes for types printed as int, without wrap around), C119_2d_undefined (no result for other types), C119_2d_short (no result for rows which are too short), C119_2d_value (with C72, values)."
 },
 "C120": {
  "note": "C120_separable is unconditional; C120_value is in any dimension; C120_2d relates three implementations. Values of any commutative semiring; messages are in C119."
 },
 "C121": {
  "note": "Violated: std::mt19937 reduces seeds modulo 2^32, so that 0 and 2^32 give the same noise (C121_violated). C121_exact: two seeds other than -1 give the same values iff they are the same modulo 2^32. C121_four: values 395, 396, 622 and 623 determine the seed modulo 2^32. C121_partial: seeds lower than 2^32 give different values before the 624-th one. C121_time: with seed -1, values only depend on the time modulo 2^32. C121_stable: engines of the elements of a stable Poisson noise are the same iff elements are congruent modulo 2^31 - 2.  C121_noise: with C75, states of noises with the same parameters are the same iff seeds are the same modulo 2^32."
 },
 "C122": {
  "note": "Violated: shape() of balls of variable dimension throws whatever the ball (C122_variable, C122_violated), and bounds may overflow (C122_violated_overflow). Exact: C122_box (when the box can be computed), C122_length (when lengths can be). C122_smallest: in exact arithmetic, the box is the smallest one. C122_partial: fixed dimensions, away from the bounds of Index. C122_negative: for negative radii, boxes are empty up to -1 included, but contain the center between -1 and 0."
 },
 "C123": {
  "note": "Violated: the holder has a destructor but neither copy nor move operations, thus any program which copies or moves a raster to another one has undefined behaviour before all rasters are destroyed (C123_copy, C123_violated). C123_partial: programs without copies. C123_exact: complete programs are well defined iff they do not copy rasters. C123_null: failed allocations are not reported. C123_overflow: the number of bytes may overflow."
 },
 "C124": {
  "note": "Violated: a VecRaster of fixed dimension keeps its shape when its pixels are moved (C124_shape, C124_violated), and accessing any pixel is undefined until it is assigned (C124_moved, for all programs). C124_partial: rasters which were not moved since they were constructed or assigned. C124_array_partial: arrays, whether or not they were moved. C124_variable_partial: variable dimension, where what remains of moved rasters is consistent."
 },
 "C125": {
  "note": "Proved for any engine, distributions and square root: C125_generate, C125_apply, C125_agree, C125_components, C125_local. C125_same_engine: both components are seeded alike, hence draw the same random numbers. Conversions from double to integral value types are left out."
 },
 "C126": {
  "note": "Proved for rasters and views of any shape, and by C126_empty_view and C126_at for those without pixels, the exact outcomes: at() throws, whereas back() reads out of any buffer, and front() of a view returns an element which is not its own if there is one."
 },
 "C127": {
  "note": "Violated: the operators are those of EuclidArithmetic, i.e. they work element by element. The product by the identity drops all of the elements out of the diagonal, and is neutral if and only if the matrix is diagonal; products of diagonal matrices are right."
 },
 "C128": {
  "note": "Violated: the translations by minus the center and by the center cancel, and the matrices are multiplied element by element. After any sequence of translations, scalings, rotations and products, the state stands for a map which multiplies each coordinate by the product of the factors and adds the sum of the translations (invariant by induction on the calls): neither the center nor the rotations have an effect. Scaling is about the center if and only if each coordinate of the center is null or has factor one. This is about the state of the object: operator(), transformTo() and inverse() cannot be instantiated because there is no product of a matrix by a vector. Exact arithmetic."
 },
 "C129": {
  "note": "Violated: with one pixel along each axis the behavior is undefined (C129_one), and with two it is either undefined or correct, depending on the evaluation order of function arguments (C129_two). From 3 on it holds (C129_partial). The three theorems together settle every side.  C129_large: above the maximum size of vectors, an exception is thrown."
 },
 "C130": {
  "note": "Violated: m_add points to the m_named of the object it is initialised with, and copies share the pointer, such that options which are declared with a copy go to the original (C130_copy), those of the copy never change (C130_never), and the behavior is undefined if the original is destroyed (C130_dangling). It holds if options are never declared with copies or moved-to objects (C130_partial).  C130_positional: a positional option of a copy is bound by the copy but unknown to it."
 },
 "C131": {
  "note": "Violated: options of several tokens get the tokens which remain after all of the other options, even those which are declared after them (C131_exact); two such options are undefined (C131_unlimited). Holds if only the last option has several tokens (C131_partial)."
 },
 "C132": {
  "note": "Violated: the value of a step is fetched once for each path to it in the graph of prerequisites, even if everything has been evaluated before (C132_exact; at least so many times if evaluations call get(), C132_least). Hence the number of calls may be exponential in the number of steps (C132_exponential). Holds for steps to which there is a single path (C132_partial)."
 },
 "C133": {
  "note": "Violated: the time of a step which is first got in the evaluation of another one, of which it is not a prerequisite, is counted for both. With n nested evaluations, the total is n times the elapsed time (C133_nested). Holds if evaluations only get prerequisites (C133_partial), since evaluations are then not nested."
 },
 "C134": {
  "note": "Violated, as the FIXME of line 182 says. There may be a data race if and only if a thread gets a step which has not been evaluated, or of which a prerequisite has not, while another one gets any step, even an evaluated one (C134_exact). A step may be evaluated by all of the threads (C134_twice). Sharing a pipeline is safe once all that is got has been evaluated (C134_partial)."
 }
}
