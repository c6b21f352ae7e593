# Formal model of kabasset/Raster ("Litl") in Lean 4

The C++ sources in /repo are read as text; nothing is compiled from them. This
document says what is modelled, how each property of `properties.jsonl` is
proved, and what is trusted.

## 1. Modelling conventions

* **Layout.** `lean/Verif/Model/*.lean` holds the transcription of the C++
  code, function by function; each definition carries the file and lines it
  comes from. `lean/Verif/Spec/*.lean` holds the small independent
  specifications (what a user expects, written without the model's helpers).
  `lean/Verif/Lemmas/*.lean` holds auxiliary lemmas. `lean/Verif/Props/*.lean`
  holds the property theorems (named `Cxx_...`), each followed by an `example`
  which exhibits a concrete non-trivial instance of its hypotheses.
* **Integers.** `Index` is `long`, `std::size_t` is a 64-bit unsigned integer.
  Both are modelled as unbounded `Int`/`Nat` unless the property is about
  wrap-around or mixed signedness (C07, C23, C28, C32, C47, C35), where values
  are reduced modulo 2^64 explicitly. Hence signed overflow of coordinates
  (beyond 2^63) is outside of the model elsewhere.
* **Positions, shapes** are `List Int`, axis 0 first. `Position<N>` (N >= 0) is a
  list of length N; `Position<-1>` is a list of any length.
* **Memory** is a `List`/function from raw offsets to values; a view is an
  offset into it. An access outside of the buffer is a distinct outcome
  (`none` / `Except.error`), never a default value.
* **Loops** `for (it = begin; it != end; ++it)` are modelled either by a step
  relation (so that non-termination can be stated) or by recursion on fuel with a
  theorem which gives the exact fuel needed.
* **Floating point.** `double`/`float` are modelled by `ℝ`, `ℚ` or an arbitrary field:
  rounding is modelled in the properties which are about it (C82, C85 to C87, C92 to C97, C101, C103, C106, and any arithmetic
  at all in C83 and C84).
* **Unspecified library results** (`std::nth_element`, random engines, FFTW, the
  allocator) are parameters; theorems quantify over every behaviour allowed by
  their documentation.
* **Code which violates its documented property.** The model stays faithful to
  the code. The full property is kept in view as `def Cxx_Statement : Prop`; its
  negation is `Cxx_violated` (or `Cxx_..._violated`). Beside it, the exact result
  of the code is proved for all inputs whenever possible (`Cxx_exact` or a
  descriptive name), and the part of the property which does hold is proved under an
  explicit extra hypothesis, with suffix `_partial` and a docstring which says
  what is missing.
* **Failures.** `Res α = Except Fail α`, where `Fail` distinguishes each C++ exception
  (`sizeError`, `outOfBounds`, `alignment`, `exception`, `stdError`) from undefined
  behaviour (`ub`). Property theorems say which one occurs.
* **Evaluation order.** Where the C++ standard leaves it unspecified and it matters
  (operands of `+` in `quantile()`), it is a parameter (`EvalOrder`).

## 2. Properties

"Refuted" means that the model of the code provably does not meet the property, in which
case the exact behaviour and the part which holds are proved.

| id | model and proof | outcome |
|----|-----------------|---------|
| C01 | Horner recursion of `IndexRecursionImpl` on lists; induction on the shape with an explicit inverse (unravel). | proved |
| C02 | Same model plus the variable-dimension loop with its `SizeError`; equality with the stride sum by induction. | proved |
| C03 | `Box::Iterator::next` transcribed (carry loop); the trace from `begin` is the list of unravelled indices; uses C04. | proved |
| C04 | Iteration as repeated `next`; invariant: "position of rank k in the box" by induction on dimension and k. | proved |
| C05 | Invariant `current >= front` componentwise: an empty box never reaches `back`, hence never `end`. | refuted for *every* empty box |
| C06 | `Raster::at` loop with error outcome; exact characterisation of throw/result. | proved |
| C07 | 64-bit arithmetic explicit (mod 2^64) for `-s`, `s-1`, `i + s`. | proved |
| C08 | `contains` loop vs. iteration trace of C03 and index range of C01. | proved |
| C09 | `zero()` has `abs(N)` = 1 element for N = -1, and `front + shape` truncates to the length of the left operand. | refuted for all dimensions but 1 |
| C10 | Direct transcription; pointwise laws by list induction. | proved |
| C11 | `shapeSize(shape())` compared with the cardinality. | refuted for inverted boxes, exact condition proved |
| C12 | `surround` loop transcribed; membership/disjointness by induction over the axes. | proved |
| C13 | `project`, `clamp(position, shape)`. | proved |
| C14 | `isContiguous<M>` and `slice<M>` transcribed; index of front + q splits as base + slice index. | proved |
| C15 | `section` via `slice`; write-through via injectivity of the index (C01). | proved |
| C16 | `Subraster::operator[]`, `SubrasterIterator` transcribed on raw offsets. | proved |
| C17 | `BallIterator` as filtered box iteration; radius rational, exact powers. | proved (exact arithmetic) |
| C18 | `Ball::size` returns the bounding box size. | refuted, exact condition proved |
| C19 | `AxisSampling` over Int with truncating division; over ℚ for floating point. | proved |
| C20 | `DataSamples` end iterator uses the data size. | refuted for strict subsamplings |
| C21 | Constructors with move-before-use of the shape. | proved for fixed dimension, refuted for N = -1 |
| C22 | `operator==` on shape and data. | proved |
| C23 | `inf()` is filled with `-inf`. | refuted |
| C24 | `std::transform` on memory with aliasing; algebraic laws inherited from the element type. | proved |
| C25 | Scalar captured by reference: in-place loop over memory with an aliased scalar. | refuted when aliased, exact result proved |
| C26 | Boost's `a - V` builds `V(a)` i.e. a vector of dimension `a`. | refuted for all scalars but 0 |
| C27 | State-monadic transcription of the loops. | proved |
| C28 | `range` and `linspace` in memory. | `range` proved; `linspace` proved for fields and size >= 2, refuted for integers |
| C29 | `std::minmax_element` semantics. | proved |
| C30 | State machine over arbitrary histories with `nth_element`/`sort` as relations; invariant: permutation of the data, sorted flag sound. | proved |
| C31 | Weights are swapped in the code. | refuted, exact result proved |
| C32 | `T / size_t` division. | proved for exact reals, refuted for integers |
| C33 | Loop over sorted values and bins; the last-bin increment goes out of bounds. | refuted iff a value equals the last bound |
| C34 | Token list of `operator<<`. | proved |
| C35 | Addresses as 64-bit words (`BitVec 64`). | proved but for wrap-around and address 2^63, which are refuted |
| C36 | Heap + buffers transition system, invariant over histories. | proved |
| C37 | Same system. | refuted (moves and assignments leak), proved for all other histories |
| C38 | Same system with contents. | proved |
| C39 | Engines as arbitrary state machines. | proved |
| C40 | Weights over ℚ with explicit epsilon. | refuted within the tolerance, proved elsewhere |
| C41 | Extrapolation methods on integral positions. | proved |
| C42 | Multilinear interpolation over any ordered field with floor. | refuted (weights are swapped), exact result proved |
| C43 | Truncation of `x + 0.5`. | refuted below -1/2, exact condition proved |
| C44 | Keys' cubic convolution, recursion over the axes; continuity in ℝ^n. | proved |
| C45 | Kernel loops on raw offsets, `surround` of C12. | refuted at row starts and in 3D, exact result proved everywhere |
| C46-C48 | Three loops of `LineKernel` with unsigned bounds, strides and steps. | C46 proved, C47/C48 refuted with the exact domain of validity |
| C49 | Axis-wise correlation over a commutative ring. | proved |
| C50 | `compose()` correlates an impulse. | refuted (flipped), proved for symmetric kernels |
| C51 | `median` with relational `nth_element`; filter loops. | refuted for even sizes, proved for odd ones |
| C52 | Plans, buffers and FFTW lengths. | proved but for lengths which do not fit in `int`, which are refuted |
| C53, C66, C67 | Sessions of plans over ℂ; FFTW as the unnormalised DFT, and plan creation overwrites buffers. | proved but for lengths which do not fit in `int` |
| C54 | Big-step relation with failures and re-entrant evaluations; invariants over histories. | proved |
| C55 | Same model with clock readings. | refuted if the clock goes backwards, proved otherwise |
| C56 | State machine over start/stop/reset with conversion to the unit. | refuted for integral units (truncation), bounds and exact cases proved |
| C57 | All nested loops transcribed; folds over different enumerations of the domain. | refuted for empty rasters, proved in any dimension otherwise |
| C58 | Direct. | refuted unless the front is 0 |
| C59 | Direct. | refuted for negative integers |
| C60 | Fill loops on row-major data; lifetime of the temporary in `operator()`. | fill proved, access refuted |
| C61 | Direct. | proved |
| C62 | Strings as character lists, C strings end at the first NUL. | refuted with NUL characters, proved otherwise |
| C63 | Memory model of C28 with arguments inside of the container. | refuted for aliased arguments, exact results proved |
| C64 | On top of C30/C31, evaluation order as a parameter. | proved but for late reads of references, which are refuted |
| C65 | Derivation kernels on top of C49, any ordered ring. | refuted for sign 1 (opposite sign), exact sign proved |
| C68 | Integral types by width and signedness. | proved but for `epsilon()`, which is refuted |
| C69 | Element-wise functions in a common memory, with aliases; copies at newly allocated addresses. | proved |
| C70 | Owning holders as lists of elements (vector, array of N), views as intervals of memory. | refuted for empty containers on arrays; rest proved |
| C71 | File as shape and bytes behind CFITSIO's functions with their status; all sequences of calls. | refuted for values of several bytes and existing files; 1-byte values proved |
| C72 | Both passes of 1D correlations, through the intermediate raster; conversions of offsets to the value type. | refuted for narrow value types; proved when offsets are values of the type and samples are where LineKernel is correct (C47, C63) |
| C73 | State machine of plan objects over that of C36; invariants of histories. | never destroyed twice: proved; refuted for move assignment, which loses the plan, and for assignments to `in()`; proved without them; dangling inverses, and leak of the functions: proved |
| C74 | Loops with `*it++` as a relation, compared to the range-based loops; iterates of `next`. | refuted; exact behaviours proved; proved for `++it` and `-=` |
| C75 | Engine and stateful distributions as parameters; loops of C27. | refuted for the stable noise of seed -1; proved for other seeds |
| C76 | State machine of objects reduced to their references; invariants relating the state to the history of operations. | refuted for copies of iterators over balls and subrasters, which are exactly characterised; proved for others; moved rasters: proved |
| C77 | Model of the documented behaviour of Boost's `store`; induction on command lines. | refuted for repeated calls, with the exact value; proved for options given for the first time; words of strings: proved |
| C78 | Sorted lists with the same elements are equal; C04, C05, C10 and C17. | refuted for the opposite of boxes (exact condition); proved for balls and translations |
| C79 | Each operation is checked to be a value of type `Index`; refinement of the models on unbounded integers. | refuted for empty shapes and extreme boxes; proved for rasters with pixels |
| C80 | Heap of objects, each with its elements and the address which is viewed; refinement of programs on values. | refuted for copies; proved without copies, and without assignments |
| C81 | Matrices of Mathlib over the rationals. | refuted; exact for involutive matrices |
| C82 | Abstract roundings (relative error, underflow, idempotence); binary formats over the rationals as instances; runs in two arithmetics. | proved |
| C83 | Correlation as a fold over the window in storage order, in an arithmetic without laws. | proved, where C45 holds |
| C84 | Absorbing values and preserved properties over the ordered fold. | proved, where C45 holds |
| C85 | Passes in any arithmetic (C83); error bound per pass, composed. | proved |
| C86 | `rangeMem`, `linspaceMem` over `Fl R` (rounded operators) | violated (linspace is not always sorted; the difference of range is not always the step), exact conditions proved |
| C87 | `ofValues`, `mean` over `Fl R` (rounded operators) | violated (the mean can be out of bounds), error bounds proved |
| C88 | `LineKernel.Centered` (relation) | violated (unspecified evaluation order) |
| C89 | `Number t`: `Option Int` with the arithmetic of C++ integers of type `t`, promotions included; the kernels of Model/Kernel, LineKernel and SeparableKernel are instantiated with it | violated (overflow of intermediate results); exact outcome proved for ND kernels |
| C90 | `Distribution.ofIntegers` with `Number t` | violated (overflow of useless squares) |
| C91 | `Mixed`: rationals whose accumulation is truncated; `Kernel.CorrelatesMixed` where extrapolated values are truncated first | violated (truncated accumulators); exact outcome and error bounds proved |
| C92 | `QuantileFl`: `quantile()` with rounded abscissa, weights and products, conversion to an index, and all evaluation orders | violated (overshoot by one ulp); definedness, exact outcome and error bounds proved |
| C93 | `Model/InterpolationRounding`: `indexOf`, `nearestFl`: rounding of x + 0.5, truncation to 64 bits with overflow as undefined behavior | violated (`C93_violated`); `C93_exact`, `C93_inside`, `C93_large_partial` |
| C94 | `offsetOf`, `linearFormulaFl`, `linearFl`: each operation is rounded | violated (`C94_violated`) where the weight is 1; `C94_constant`, `C94_bounds`, `C94_monotone`, `C94_accurate`, `C94_at_integers` |
| C95 | `cubicFormulaFl`, `cubicFl`: each operation is rounded, in the order of the source | violated for constants (`C95_violated`); `C95_integral`, `C95_constant_partial`, `C95_accurate` |
| C96 | `Model/BallRounding`: rounded sums of powers; `std::pow` is any faithful function | violated at the boundary (`C96_violated`, `C96_sqrt_violated`); `C96_exact`, `C96_contains`, `C96_only`, `C96_sqrt`, `C96_partial` |
| C97 | Model/InterpolationMixed: the linear interpolation where positions, values and operations have three formats. | violated for float (`C97_violated`), proven for long double, accuracy proven |
| C98 | `Model/NaN`: values are numbers or NaN, with the comparisons of IEEE 754; sorting algorithms are undefined unless `<` is a strict weak ordering of the values | violated (`C98_violated`, `C98_undefined`), exact behavior proven, `C98_partial` without NaN |
| C99 | conversions of the scalar and of the results, integral promotions and overflow | violated (documented example clears or leaves channels unchanged); exact conditions proved |
| C100 | loop over the coefficients, with plans on the memory model of C53 and C66, and with functions | violated for aliased frequencies; exact for degrees less than half the number of values (proved for plans and functions) |
| C101 | conversion of the counts to double, rounded sums, products and quotients; the square root is a parameter | violated (NaN for realistic increments in nanoseconds); proved for small counts, error bounds for all |
| C102 | Two or three executions of the existing models of filters and interpolators, on related values | proved |
| C103 | weights with rounded subtractions, rounding of requested probabilities; discrete distribution by its probabilities (assumed) | proved: `C103_always`, `C103_listed`, `C103_input`, `C103_tolerance`, `C103_distinct` |
| C104 | distributions by their preconditions and supports, any value of which may be drawn; sums with promotions and conversions | violated: `C104_violated`; exact: `C104_uniform_add`, `C104_gaussian`, `C104_shot`, `C104_poisson_default`; `C104_uniform`, `C104_uniform_add_partial`, `C104_gaussian_partial`, `C104_complex`, `C104_real` |
| C105 | No new model: correlation by ND kernels (C45) and separable kernels (C49) with periodic extrapolation (C41) or padding, and sessions of plans (C67). Independent specification of flipped, wrapped and padded signals in `Spec/FourierFilter`. | Violated at row starts of ND kernels, as C45; proved elsewhere for 1D and 2D kernels, and in full for separable kernels. |
| C106 | `ArithmeticRounding`: operators in a binary format, with conversion of scalars. Independent specification of rounding in `Spec/Nearest`. | Vectors proved; scalars violated, with exact results and bounds. |
| C107 | `DftThreads`: threads are lists of actions on plans; data races are undefined behaviour; otherwise any interleaving. | Violated for plans which share buffers; exact condition, isolation, sequential equivalence and round trips proved. |
| C108 | `KernelOverflow`: the operations on positions of the correlation are checked to be values of type `Index`, as in `Overflow`; refinement of `Kernel`. | Refuted for windows out of the range of `Index`; equivalence with unbounded integers proved otherwise, in particular for less than 2^62 pixels. |
| C109 | `Model/SeqUtils`: permutations of evaluation steps; function objects with a state; `std::transform` copies its function | proved but for functions with a state in `seqTransform` on vectors: violated |
| C110 | `Model/Formula`: trees of operators evaluated container by container, or element by element without conversion of intermediate results | violated for types narrower than `int`; proved for other types, and for polynomials which do not overflow |
| C111 | `Model/Channels`: loops of iterators with `!=` as `While` relations, with undefined accesses; operations on sections | proved |
| C112 | `Model/Hsv`, `Model/HsvRounding`: members which are not assigned are indeterminate; exact arithmetic and `double` | violated for gray colors; proved for other ones |
| C113 | Model/Floating: conversion of integers to `double`, quantiles and means of integers in the arithmetic of `double` | refuted for 64 bit integers; exact characterization; proved for at most 53 digits |
| C114 | `Model/Extrapolation`: extrapolation methods on 64-bit integers, with overflows as undefined behaviour; decorators as functions. | false for positions which have no indices and at the last pixel of bare rasters; exact sets of positions otherwise |
| C115 | `MedianOfIntegers` (Model/MedianIntegers): the median on machine integers, with promoted sums, products in double precision and conversions | Violated: sums of values of at least 32 bits wrap (unsigned) or overflow (signed, undefined behaviour), and sums of more than 53 bits lose digits; proved for narrower types (`_partial`) |
| C116 | `Model/NewInstance`: expression trees over containers in a common memory; copies of owning containers are allocated, copies of views alias | violated for views (`C116_violated`, `C116_twice`, `C116_functions`, `C116_postfix`); proved for owning containers (`C116_owning`, `C116_owning_partial`); values of linear expressions of views (`C116_views_partial`) |
| C117 | Model/PixelWise: binary operators, generate and apply on rasters with shapes, through flat data | violated; exact condition on shapes proved (C117_iff) |
| C118 | `minstd_rand` of Model/Random; engines' seeds observed with a distribution which returns them | violated; exact: `C118_period`, `C118_seeds`, `C118_all`, `C118_shift`, `C118_outputs` |
| C119 | Model/Printf.lean and Printf2d.lean: promoted arguments, conversion specifications and printf() as a check which is undefined on mismatch; correlations of SeparableKernel and LineKernel with their messages. LP64; long long is considered as long; the text itself is not modelled. | violated in general; proved exactly for each kind of value type |
| C120 | Model/KernelAlong.lean: the loop of Kernel1d::correlateAlong over the lines of the raster. | proved |
| C121 | `std::mt19937` from [rand.eng.mers], in Model/Mersenne (words, twist, tempering) | violated; exact: `C121_exact`, `C121_time`, `C121_four`, `C121_stable`; `C121_partial` for seeds lower than 2^32 |
| C122 | Model/BallMachine.lean: radius as NaN, infinity or rational; conversion to Index and checked 64-bit operations | violated; exact: `C122_box`, `C122_length`, `C122_variable`, `C122_smallest`, `C122_negative`; `C122_partial` for fixed dimensions without overflow |
| C123 | Programs on named rasters, on a heap of blocks with indeterminate elements (`Model/MallocHolder`) | violated; exact characterisation |
| C124 | Programs on named rasters with vector or array holders, dimension parameter N (`Model/RasterMoves`) | violated; characterised for each holder |
| C125 | `Model/SystemNoise.lean`: the two generators of `SystemNoise` and its call operator, on top of `generateMem` and `applyMem` | proved |
| C126 | Model/Ends: front(), back(), begin(), end() and emtpy() of views in a buffer, with sizes of type std::size_t, and the loop over the values | proved (Props/Ends) |
| C127 | `Matrix.mulAssign`, from `Container.vectorOp` | violated (`C127_violated`); exact (`C127_product`, `C127_identity`, `C127_identity_iff`), right for diagonal matrices (`C127_diagonal_partial`) |
| C128 | `Affinity` (state: matrix, translation, center), `new`, `translate`, `scale`, `rotate`, `mul`, `add`, `run` | violated (`C128_violated`); exact for any sequence of calls (`C128_run`, `C128_scale`, `C128_scale_iff`), right about the origin (`C128_origin_partial`) |
| C129 | CorrelationBenchmark: the program as a relation, for any of the unspecified origins of the kernels | violated; settled for every side |
| C130 | OptionObjects: heap of objects with pointers between them | violated; holds without declarations with copies |
| C131 | OptionObjects: positional options of Boost | violated; exact for at most one unlimited option, undefined for more |
| C132 | Pipeline: events of runs | violated; the number of fetches is the number of paths |
| C133 | Pipeline: events of runs, with a clock which does not go backwards | violated; holds if evaluations only get prerequisites |
| C134 | PipelineParallel: interleavings of the actions of threads | violated; exact condition for data races |

## 3. Trusted base

* The Lean 4.33.0 kernel and the axioms `propext`, `Classical.choice`, `Quot.sound`: each
  theorem depends on a subset of these three (`#print axioms`, which `vcheck` runs).
  No axiom is declared, no `sorry`, `native_decide` or `bv_decide` is used.
* The reading of the C++ text into the definitions under `Verif/Model`; each definition cites
  the file and lines of which it is the transcription.
* The meaning of the external code which is called: the C++ standard library (`transform`,
  `copy`, `nth_element`, `sort`, `min_element`, `minmax_element`, `map`, `tuple`, chrono, `fmod`-free
  arithmetic), boost's operators (C24, C26) and the documented `store` of Boost.Program_options (C77), its `options_description_easy_init` and `positional_options_description` (C130, C131; Boost is not available here, such that they are transcribed from knowledge of its sources), FFTW's documented transforms and array layout
  (C52, C53, C66, C67), the engines `std::mt19937` and `std::minstd_rand` of [rand.eng] (C118, C121), Eigen's maps (C60, C80: copies view the same memory, assignments copy the coefficients), CFITSIO's functions (C71).
* Exact arithmetic in place of floating point: theorems on `double` or `float` values hold for exact
  fields (ℚ, ℝ, ℂ, or any field or ring as stated), rounding being out of the model except in the properties which are listed in section 1.

### What each model covers

| model | /repo files | simplifications |
|-------|-------------|-----------------|
| Core, Machine | exceptions as outcomes, 64-bit integers | failures carry no message (messages are in Exceptions) |
| Vector, Box, Raster, RasterCtor, View | LitlRaster/Vector.h, Box.h, BoxIterator.h, Raster.h, impl/Raster.hpp, Subraster.h, SubrasterIterator.h; LitlContainer/Holders.h | unbounded coordinates |
| Ball, Sampling | LitlRaster/Ball.h, BallIterator.h, Sampling.h | exact arithmetic; iterators are values |
| Container, Arithmetic, Fill | LitlContainer/DataContainer.h, ContiguousContainer.h, Arithmetic.h, Math.h; LitlTypes/SeqUtils.h (printing) | element operations are parameters |
| Distribution | LitlContainer/DataDistribution.h | exact arithmetic, no NaN |
| AlignedBuffer | LitlContainer/AlignedBuffer.h | words are 64-bit; allocations succeed |
| Random | LitlContainer/Random.h | engines and distributions are parameters |
| Interpolation | LitlTransforms/Interpolation.h, InterpolationMethods.h | exact arithmetic |
| Kernel, LineKernel, SeparableKernel, MedianFilter | LitlTransforms/Kernel.h, Convolution.h (dense part), LineKernel.h, SeparableKernel.h, MedianFilter.h; LitlTypes/Segment.h | exact arithmetic or arbitrary ring |
| Dft | LitlTransforms/Dft.h, DftPlan.h, DftMemory.h | FFTW as documented, exact arithmetic |
| Pipeline, Chronometer, IterationBenchmark | LitlRun/StepperPipeline.h, Chronometer.h, IterationBenchmark.h and .cpp, src/program/LitlBenchmarkIteration.cpp:15-36 | clocks are arbitrary inputs |
| Exceptions, Limits | LitlTypes/Exceptions.h, TypeUtils.h | integral types by width and signedness |
| Math | LitlContainer/Math.h, LitlRaster/Raster.h:480-500 | functions of `<cmath>` and `<complex>` are parameters |
| Holders | LitlContainer/Holders.h, DataContainer.h:54-77, Sequence.h, Vector.h:69-85 | value semantics of std::vector and std::array |
| Fits | LitlIo/Fits.h | CFITSIO as documented: calls do nothing once the status is set |
| Convolution | LitlTransforms/Convolution.h:109-200 | one exact value type; no printing |
| DftMemory | LitlTransforms/DftMemory.h, DftPlan.h:100-221 and Dft.h:224-265 | contents of the buffers left out; the planner accesses both arrays; `fftw_cleanup` left out |
| Matrix | LitlRaster/Matrix.h | Eigen's view is in MatrixEigen |
| Iterators | LitlRaster/BoxIterator.h, BallIterator.h, SubrasterIterator.h and Sampling.h: `++`, `-=`, `==`, `reset` | life times: see C76 |
| Noise | LitlContainer/Random.h:33-260, 299-301; Sequence.h:41-45; Raster.h:512-516 | engines and distributions are parameters, without their preconditions |
| Life times | reference and pointer members of views, decorators and iterators, copy and move constructors, destructors | assignments left out; names of objects are not reused |
| ProgramOptions | LitlRun/ProgramOptions.h: `parse`, `has`, `as`, `flag` | lexical analysis of options is Boost's: a parameter |
| Regions (operators) | Box.h:200-268, Ball.h:125-196 | C78 |
| Overflow | LitlRaster/Vector.h, Raster.hpp, Box.h, BoxIterator.h on 64-bit integers | only what C79 states |
| MatrixEigen | LitlRaster/Matrix.h:53-60, 122-136 | elements of trivial types; Eigen's determinant is a parameter |
| Rounding | value types of LitlTransforms/Kernel.h, LineKernel.h | no overflow, NaN, fused multiply-add |
| QuantileRounding | DataDistribution.h:147-155 | `T` is `double`; no infinities or NaNs |
| InterpolationRounding | `TypeUtils.h` (`floor`), `InterpolationMethods.h` (`NearestNeighbor`, `Linear`, `Cubic`) | interpolation with rounded arithmetic and 64-bit indices |
| BallRounding | `BallIterator.h` | balls with rounded powers and sums |
| NaN | `DataDistribution.h`, `DataContainer.h`, `MedianFilter.h` | order statistics, extrema, histograms, medians and equality of data with NaNs |
| ScalarConversion | LitlContainer/Arithmetic.h:28-38 for integral value types | scalars are integers or rationals; the remainder by a floating point scalar is by its truncation |
| ImpulseRounding | LitlContainer/Random.h:332-418 | no overflow or NaN; `std::discrete_distribution` is its probabilities |
| NoiseRange | LitlContainer/Random.h:50-315, LitlTypes/TypeUtils.h:143-145, 248-257 | integral types but `bool`; standard preconditions |
| ArithmeticRounding | LitlContainer/Arithmetic.h:15-38, 98-123 for floating point value types | no overflow; results which are not finite are one outcome |
| KernelOverflow | LitlTransforms/Kernel.h, LitlRaster/Box.h on 64-bit integers | pointers, values and the extrapolator are not checked (see Kernel) |
| SeqUtils | LitlTypes/SeqUtils.h | all functions; tuples are lists over one type, orders of evaluation are permutations |
| Formula | doc/pixelwise.dox; LitlContainer/Arithmetic.h, DataContainer.h:187-214 | scalars are already converted (C99); containers of one type; no fused multiply-add |
| Channels | doc/channels.dox, LitlDemoChannels_test.cpp; Raster::section | pixel functions are pure; nested rasters are not modelled |
| Hsv, HsvRounding | LitlDemoChannels_test.cpp:26-94 | exact arithmetic, then rounded operations |
| Floating | LitlTypes/TypeUtils.h:100-107; LitlContainer/DataDistribution.h:109-111, 147-155 for integers | arithmetic of `double` is a parameter, without overflow |
| Extrapolation | LitlTransforms/LitlTransforms/Interpolation.h:25-179, InterpolationMethods.h:16-90, LitlRaster/LitlRaster/Box.h:311-318 | finite positions; decorators are functions |
| MedianIntegers | MedianFilter.h:75-92 | `nth_element` as a relation, as in MedianFilter; the usual arithmetic conversions of two values of the same type |
| NewInstance | Arithmetic.h:87-93, 151-157, 170-177, 237-243; Math.h:123-139; Holders.h:203-227; AlignedBuffer.h:129-136 | memory is never freed; all the containers of an expression are of the same kind; scalars are not elements of the containers (see C25) |
| Model/PixelWise | LitlContainer/LitlContainer/Arithmetic.h:15-26, DataContainer.h:186-214 | owning rasters, functions without state |
| Printf, Printf2d | LitlTransforms/LitlTransforms/SeparableKernel.h:200-210, Convolution.h:71-104, 118-200 | messages are not modelled, only whether arguments match; long long as long; complex numbers as an argument which is never accepted |
| KernelAlong | LitlTransforms/LitlTransforms/Convolution.h:52-65 | kernel and rasters have the same value type, messages apart (see Printf) |
| Mersenne | LitlContainer/Random.h:117-118, 140 | the engine is that of the C++ standard (trusted); sequences of values instead of the circular buffer of the state |
| BallMachine | LitlRaster/Ball.h:55-56, 74-119, Box.h:51-53 | rational radii instead of doubles |
| MallocHolder | LitlDemo/tests/src/LitlDemoBasics_test.cpp:9-39, LitlContainer/LitlContainer/DataContainer.h:54-66, 80-81, LitlRaster/LitlRaster/Raster.h:176-177, 189-191 | Shapes are left out |
| RasterMoves | LitlRaster/LitlRaster/Raster.h:175-227, LitlContainer/LitlContainer/Holders.h:133-136, 184-187 | All rasters of a program have the same type; vectors which were moved are empty, as is the case in practice |
| SystemNoise | LitlDemo/tests/src/LitlDemoRandom_test.cpp:38-71 | values of one type, without conversions; distributions are parameters |
| Ends | LitlContainer/LitlContainer/ContiguousContainer.h:95-192 | pointers are offsets in the allocated buffer |
| MatrixProduct (mulAssign) | LitlRaster/LitlRaster/Matrix.h:27-33, LitlContainer/LitlContainer/Arithmetic.h:15-26 | operands are distinct objects; exact operations |
| MatrixProduct (Affinity) | LitlTransforms/LitlTransforms/Affinity.h:13-61 | exact operations; `operator()`, `transformTo()` and `inverse()` cannot be instantiated |
| CorrelationBenchmark | LitlRun/src/program/LitlBenchmarkCorrelation.cpp:24-30 | values are all zero, hence exact; overflow of the size is that of C79; the memory is large enough |
| OptionObjects | LitlRun/LitlRun/ProgramOptions.h:51-106, 127, 184-187 | options are names; Boost is trusted to be as described in section 3; containers which are moved from are empty |
| PipelineParallel | LitlRun/LitlRun/StepperPipeline.h:82-111, 147-152, 181-189 | actions on the map are atomic and races are conflicting next actions; evaluations do not call get(); no times |

## 4. Not modelled

* `LitlIo` other than the open modes of FITS files (external libraries), `Mask`, `StructuringElement`, the evaluation of `Affinity`, and
  what cannot be instantiated at this commit (`variance`, `clamp(position, box)`,
  `SeparableKernel::laplacian`, `window` and `operator[]`, `LineKernel::correlateSamplesTo`'s callers).
* Rounding of floating point numbers (except in C82, C83, C85, C86, C87, C90 to C97, C101, C103, C106), NaN and infinities (except in C84, C98); signed overflow of coordinates except where
  stated (C79 for indices and loops, C108 for correlations); allocation failures; threads (the library has none; use of plans by several threads is C107, where actions are atomic unless there is a data race, and FFTW is assumed to be thread-safe for `fftw_execute()` only).
