{"id": "C01", "title": "Pixel index is a bijection", "statement": "For every raster shape with non-negative lengths, the raw index of a position establishes a one-to-one correspondence between the positions of the domain and the integers 0 <= k < number of pixels; in particular two distinct pixels never share storage and every stored element is the pixel of exactly one position.", "quantifier": "all dimensions, all shapes, all positions", "why_tests_cant": "shapes and positions are unbounded; a test fixes a shape and a few positions", "anchors": ["LitlRaster/LitlRaster/impl/Raster.hpp: IndexRecursionImpl::index, Raster::index", "LitlRaster/LitlRaster/Vector.h: shapeSize"]}
{"id": "C02", "title": "Row-major memory layout and fixed/variable-dimension agreement", "statement": "The raw index is the sum over axes of coordinate times stride, the stride of axis i being the product of the lengths of the lower axes: moving by one along axis i moves by exactly that stride in memory, whatever the position (inside the domain or not). Fixed- and variable-dimension rasters of the same shape compute the same index, and a variable-dimension raster raises a size error exactly when the position has the wrong number of coordinates.", "quantifier": "all dimensions, shapes, positions and axes", "why_tests_cant": "infinitely many shapes/axes; tests sample one shape", "anchors": ["LitlRaster/LitlRaster/impl/Raster.hpp: IndexRecursionImpl", "LitlRaster/LitlRaster/Vector.h: shapeStride"]}
{"id": "C03", "title": "Domain iteration visits every pixel once, in storage order", "statement": "Looping over the domain of a (fixed-dimension) raster with at least one pixel terminates after exactly size() positions and the k-th visited position has raw index k.", "quantifier": "all shapes with positive lengths, all dimensions >= 1", "why_tests_cant": "needs induction over the iteration for every shape", "anchors": ["LitlRaster/LitlRaster/BoxIterator.h: Box::Iterator::next, begin, end", "LitlRaster/LitlRaster/impl/Raster.hpp: Raster::domain"]}
{"id": "C04", "title": "Box iteration is complete, duplicate-free and ordered", "statement": "Looping over a non-empty box visits exactly the positions p with front <= p <= back (componentwise), each exactly once, in increasing storage order for any raster which contains the box, and the number of visited positions equals the box size.", "quantifier": "all dimensions >= 1, all front <= back", "why_tests_cant": "unbounded boxes; completeness and absence of duplicates is a statement over all positions", "anchors": ["LitlRaster/LitlRaster/BoxIterator.h: Box::Iterator", "LitlRaster/LitlRaster/Box.h: Box::size"]}
{"id": "C05", "title": "Iterating over an empty box visits nothing", "statement": "Looping over a box which contains no position (some length <= 0), e.g. the domain of a raster with a null length, terminates without visiting any position.", "quantifier": "all empty boxes of any dimension", "why_tests_cant": "non-termination can never be established by a finite test", "anchors": ["LitlRaster/LitlRaster/BoxIterator.h: Box::Iterator::next, Box::Iterator::endPosition", "LitlRaster/LitlRaster/impl/Raster.hpp: Raster::domain"]}
{"id": "C06", "title": "Checked access with backward indexing (ND)", "statement": "at(position) raises an out-of-bounds error if and only if some coordinate is outside [-length, length-1]; otherwise it designates the pixel whose coordinates are obtained by adding the length to negative coordinates, and this pixel always lies inside the data.", "quantifier": "all shapes with non-negative lengths, all positions", "why_tests_cant": "all inputs incl. the error boundary in each axis", "anchors": ["LitlRaster/LitlRaster/impl/Raster.hpp: Raster::at", "LitlTypes/LitlTypes/Exceptions.h: OutOfBoundsError::mayThrow"]}
{"id": "C07", "title": "Checked access with backward indexing (1D), on machine integers", "statement": "at(i) on a container of n elements raises an out-of-bounds error iff i < -n or i >= n and otherwise designates element i (i >= 0) or n + i (i < 0), despite the mixed signed/unsigned 64-bit arithmetic of the implementation.", "quantifier": "all sizes below 2^63 and all 64-bit signed indices", "why_tests_cant": "2^127 inputs, wrap-around semantics", "anchors": ["LitlContainer/LitlContainer/DataContainer.h: DataContainer::at"]}
{"id": "C08", "title": "contains() characterises the domain and guarantees safe subscripting", "statement": "contains(p) holds iff p is one of the positions visited when looping over the domain, and in that case the raw index of p is a valid element index of the raster.", "quantifier": "all shapes and positions", "why_tests_cant": "universally quantified over shapes and positions", "anchors": ["LitlRaster/LitlRaster/Raster.h: Raster::contains", "LitlRaster/LitlRaster/impl/Raster.hpp: Raster::index, Raster::domain"]}
{"id": "C09", "title": "The domain of a variable-dimension raster has the dimension of the raster", "statement": "For a raster whose dimension is set at runtime, domain() spans from the first to the last pixel position, i.e. it is the box from 0 to shape - 1 of the same dimension as the raster.", "quantifier": "all runtime shapes", "why_tests_cant": "ranges over all runtime dimensions and shapes", "anchors": ["LitlRaster/LitlRaster/impl/Raster.hpp: Raster::domain", "LitlRaster/LitlRaster/Vector.h: Vector::zero", "LitlContainer/LitlContainer/Arithmetic.h: LITL_VECTOR_OPERATOR_INPLACE"]}
{"id": "C10", "title": "Box algebra", "statement": "Shifting a box shifts its set of positions and preserves its shape; growing then shrinking by the same margin is the identity; growing by a margin m is shrinking by -m; a box built from a front and a shape has this front and shape; a box built from a center and a radius r is the set of positions at L-infinity distance at most r of the center; two boxes are equal iff they have the same bounds.", "quantifier": "all boxes, margins, shifts, scalars, of all dimensions", "why_tests_cant": "algebraic laws over unbounded integer boxes", "anchors": ["LitlRaster/LitlRaster/Box.h: Box::operator+=, Box::operator-=, Box::fromShape, Box::fromCenter, Box::shape, Box::operator=="]}
{"id": "C11", "title": "Box size is its number of positions", "statement": "size() of a box is the number of positions p with front <= p <= back.", "quantifier": "all boxes, including empty ones", "why_tests_cant": "all boxes; counting claim over unbounded sets", "anchors": ["LitlRaster/LitlRaster/Box.h: Box::size, Box::shape", "LitlRaster/LitlRaster/Vector.h: shapeSize"]}
{"id": "C12", "title": "Surrounding boxes form a partition", "statement": "For a non-empty box b and a margin with non-positive front and non-negative back, b.surround(margin) returns non-empty, pairwise disjoint boxes, disjoint from b, at most two per axis, whose union with b is exactly the box b grown by the margin.", "quantifier": "all dimensions, boxes and margins", "why_tests_cant": "set equality over all positions of unbounded boxes", "anchors": ["LitlRaster/LitlRaster/Box.h: Box::surround"]}
{"id": "C13", "title": "Projection and clamping", "statement": "Projecting a box along an axis keeps exactly its front hyperplane along this axis; clamping a position to a shape yields the componentwise closest position inside the domain, and leaves positions of the domain unchanged.", "quantifier": "all boxes, axes, positions, shapes with positive lengths", "why_tests_cant": "universally quantified", "anchors": ["LitlRaster/LitlRaster/Box.h: Box::project, project, clamp"]}
{"id": "C14", "title": "Contiguity test is sound and complete, and slices are exact views", "statement": "For a non-empty region inside a raster, the region's pixels seen as an M-dimensional slice occupy consecutive raw indices in order when isContiguous<M>() accepts it; the slice then has the region's first M lengths as shape and its element at any position q of the slice domain is the raster pixel at front + q. slice<M>() raises an exception exactly when isContiguous<M>() rejects the region.", "quantifier": "all dimensions N, all 1 <= M <= N, all shapes, all regions inside the domain, all positions", "why_tests_cant": "quantified over dimensions, shapes, regions and positions", "anchors": ["LitlRaster/LitlRaster/impl/Raster.hpp: Raster::isContiguous, Raster::slice"]}
{"id": "C15", "title": "Sections are exact views and compose", "statement": "For an N-dimensional raster, section(front, back) is the N-dimensional view whose pixel at q is the raster pixel at q + (0,...,0,front); section(i) is the (N-1)-dimensional view whose pixel at q is the raster pixel at (q, i); sections never fail, they can be nested, and writing to a pixel of a section modifies exactly the corresponding pixel of the raster and no other.", "quantifier": "all shapes, section bounds inside the raster, positions, values, nesting depths", "why_tests_cant": "quantified over shapes/positions; frame condition over all other pixels", "anchors": ["LitlRaster/LitlRaster/impl/Raster.hpp: Raster::section, Raster::slice"]}
{"id": "C16", "title": "Subrasters are exact (possibly non-contiguous) views", "statement": "For a non-empty region inside a raster, the subraster's value at q is the raster value at q + front, and iterating over the subraster yields, in order, the values of the raster at the positions of the region in box-iteration order, touching only memory of the raster, then terminates.", "quantifier": "all dimensions, shapes and non-empty regions inside the domain", "why_tests_cant": "needs induction over the iteration for every region", "anchors": ["LitlRaster/LitlRaster/Subraster.h: Subraster::operator[]", "LitlRaster/LitlRaster/SubrasterIterator.h: SubrasterIterator"]}
{"id": "C17", "title": "Ball iteration enumerates exactly the ball", "statement": "Looping over a ball of radius r >= 0 and norm L1 or L2 visits exactly the integer positions at distance at most r from the center, each once, in increasing storage order.", "quantifier": "all radii >= 0, centers, dimensions >= 1, P in {1,2} (and any P >= 1)", "why_tests_cant": "completeness of the bounding-box filter for all real radii", "anchors": ["LitlRaster/LitlRaster/BallIterator.h: BallTraits::Iterator", "LitlRaster/LitlRaster/Ball.h: Ball::box"]}
{"id": "C18", "title": "Ball size is its number of positions", "statement": "size() of a ball is the number of positions which are visited when looping over it.", "quantifier": "all balls", "why_tests_cant": "quantified over all radii/dimensions", "anchors": ["LitlRaster/LitlRaster/Ball.h: Ball::size"]}
{"id": "C19", "title": "Axis sampling enumerates the arithmetic progression", "statement": "For step > 0, iterating over a sampling (front, back, step) yields front, front+step, ... up to the last value not above back, i.e. exactly the values congruent to front modulo step in [front, back] in increasing order, nothing if back < front; size() is their number.", "quantifier": "all front, back, step > 0", "why_tests_cant": "unbounded integers; truncating division corner cases for back < front", "anchors": ["LitlRaster/LitlRaster/Sampling.h: AxisSampling::size, AxisSampling::Iterator"]}
{"id": "C20", "title": "Data samples iterate over the samples only", "statement": "Iterating over data samples of a buffer with a given sampling and stride visits exactly the elements at stride * (front + k * step), for each sample k of the sampling, and therefore stays inside the buffer when the sampling does.", "quantifier": "all sizes, samplings, strides", "why_tests_cant": "all samplings", "anchors": ["LitlRaster/LitlRaster/Sampling.h: DataSamples::begin, DataSamples::end, DataSamples::count"]}
{"id": "C21", "title": "Raster construction checks sizes", "statement": "Constructing a raster from a shape and a list or iterable of values succeeds iff the number of values is the number of pixels of the shape, and raises a size error otherwise; a successfully constructed raster always holds exactly as many elements as its shape has pixels, in the given order.", "quantifier": "all shapes (fixed- or variable-dimension) and value lists", "why_tests_cant": "all shapes and lists", "anchors": ["LitlRaster/LitlRaster/Raster.h: Raster::Raster", "LitlContainer/LitlContainer/Holders.h: StdHolder, SizeError"]}
{"id": "C22", "title": "Raster equality is shape and value equality", "statement": "Two rasters compare equal iff they have the same shape and the same value at every position of the domain; equality is an equivalence relation and != is its negation; rasters with same data but different shapes differ.", "quantifier": "all rasters of all shapes", "why_tests_cant": "universally quantified over rasters", "anchors": ["LitlRaster/LitlRaster/Raster.h: operator==, operator!=", "LitlContainer/LitlContainer/ContiguousContainer.h: operator=="]}
{"id": "C23", "title": "The unlimited box and infinite position", "statement": "Position::inf() is recognised by isInf(), and Box::whole() contains every position with non-negative coordinates (up to the maximum index).", "quantifier": "all positions", "why_tests_cant": "quantified over all positions", "anchors": ["LitlRaster/LitlRaster/Vector.h: Vector::inf, Vector::isInf", "LitlRaster/LitlRaster/Box.h: Box::whole"]}
{"id": "C24", "title": "Vector arithmetic is element-wise", "statement": "For containers of the same size, U op V and U op= V compute element i from elements i of the operands only, keep the size, leave the right operand unchanged unless it is the same object, and inherit the algebraic laws (commutativity, associativity, distributivity, inverse) of the element type; aliasing both operands (V += V) is safe.", "quantifier": "all sizes, all values, all operators + - * /, unary -, ++, --", "why_tests_cant": "laws over all containers", "anchors": ["LitlContainer/LitlContainer/Arithmetic.h: ArithmeticMixin, VectorArithmetic, EuclidArithmetic"]}
{"id": "C25", "title": "Scalar arithmetic uses the same scalar for every element", "statement": "V op= a and V op a apply the value a (as it was on call) to every element, wherever a is stored - including when a is an element of V itself, as in V /= V[0].", "quantifier": "all containers and scalars, including references to elements", "why_tests_cant": "aliasing cases over all sizes and positions of the aliased element", "anchors": ["LitlContainer/LitlContainer/Arithmetic.h: LITL_SCALAR_OPERATOR_INPLACE"]}
{"id": "C26", "title": "Scalar minus vector", "statement": "a - V is the vector whose elements are a - V[i].", "quantifier": "all vectors and scalars", "why_tests_cant": "all vectors and scalars", "anchors": ["LitlContainer/LitlContainer/Arithmetic.h: VectorArithmetic, boost::subtractable2_left", "LitlRaster/LitlRaster/Vector.h: Vector(T dim)"]}
{"id": "C27", "title": "generate() and apply() evaluate element-wise, in order", "statement": "generate(f, others...) calls f exactly once per element in increasing index order with the elements of the other containers at this index, and stores the result at this index; apply(f, others...) does the same with the element's former value as first argument, even though it is done in place.", "quantifier": "all sizes, all (possibly stateful) functions, all operand containers of sufficient size", "why_tests_cant": "arbitrary stateful functions", "anchors": ["LitlContainer/LitlContainer/DataContainer.h: DataContainer::generate, DataContainer::apply, iteratorTupleApply"]}
{"id": "C28", "title": "range() and linspace()", "statement": "range(min, step) assigns min + i * step to element i. linspace(min, max) assigns evenly spaced values such that the first is min and the last is exactly max.", "quantifier": "all sizes, all bounds and steps, all arithmetic value types", "why_tests_cant": "all sizes incl. 0 and 1; integer division semantics", "anchors": ["LitlContainer/LitlContainer/DataContainer.h: DataContainer::range, DataContainer::linspace"]}
{"id": "C29", "title": "min(), max() and minmax() are the extrema", "statement": "For a non-empty container, min() and max() return values which belong to the container and bound all of its elements, and minmax() returns the same pair.", "quantifier": "all non-empty containers", "why_tests_cant": "all containers", "anchors": ["LitlContainer/LitlContainer/DataContainer.h: DataContainer::min, DataContainer::max, DataContainer::minmax"]}
{"id": "C30", "title": "Order statistics do not depend on the history of queries", "statement": "Whatever the sequence of min/max/nth/quantile/mad/sort/histogram queries made before on a distribution object, nth(n) returns the n-th smallest value of the initial data, and min()/max() the extrema.", "quantifier": "all data and all finite histories of queries (and all standard-conforming partial sorting algorithms)", "why_tests_cant": "all histories; in-place partial sorting makes the state history-dependent", "anchors": ["LitlContainer/LitlContainer/DataDistribution.h: DataDistribution::nth, DataDistribution::min, DataDistribution::max, DataDistribution::sort"]}
{"id": "C31", "title": "Quantiles interpolate linearly between order statistics", "statement": "quantile(q) for q in [0, 1] is the linear interpolation at abscissa q * (n-1) of the sorted data; in particular it is monotone in q.", "quantifier": "all data and all q in [0, 1]", "why_tests_cant": "continuum of q", "anchors": ["LitlContainer/LitlContainer/DataDistribution.h: DataDistribution::quantile"]}
{"id": "C32", "title": "Mean", "statement": "mean() returns the sum of the values divided by the number of values, as a real number, for every element type.", "quantifier": "all non-empty data of integral or floating type", "why_tests_cant": "all data; machine conversion rules", "anchors": ["LitlContainer/LitlContainer/DataDistribution.h: DataDistribution::mean, DataDistribution::sum"]}
{"id": "C33", "title": "Histogram counts", "statement": "For sorted bins, the k-th count of histogram(bins) is the number of values in [bins[k], bins[k+1]) (the last bin being closed), without accessing memory outside of the counts.", "quantifier": "all data and all sorted bin lists of at least two bounds", "why_tests_cant": "all data and bins, boundary values", "anchors": ["LitlContainer/LitlContainer/DataDistribution.h: DataDistribution::histogram"]}
{"id": "C34", "title": "Printed representation", "statement": "The printed form of a container lists all elements in order separated by commas when there are at most 7 of them, and otherwise the first three and last three; no element is printed twice.", "quantifier": "all containers", "why_tests_cant": "all sizes", "anchors": ["LitlContainer/LitlContainer/ContiguousContainer.h: operator<<"]}
{"id": "C35", "title": "Aligned buffers are aligned and fit in the allocation", "statement": "A buffer which allocates its memory with a power-of-two alignment requirement starts at a multiple of the requirement and its elements lie inside the allocated block; a buffer which points to existing data accepts exactly the well aligned pointers and raises an alignment error otherwise; alignment() is the largest power of two which divides the address.", "quantifier": "all sizes, element sizes, power-of-two alignments, addresses returned by the allocator", "why_tests_cant": "all 2^64 addresses", "anchors": ["LitlContainer/LitlContainer/AlignedBuffer.h: AlignedBuffer::AlignedBuffer, isAligned, alignment, AlignedBuffer::alignAs"]}
{"id": "C36", "title": "No double free and no free of foreign memory", "statement": "Whatever the history of construction, copy, move, assignment, release, reset and destruction of aligned buffers, no block is freed twice, memory which is not owned by a buffer is never freed by it, and each block is owned by at most one buffer.", "quantifier": "all finite histories over any number of buffers", "why_tests_cant": "unbounded histories", "anchors": ["LitlContainer/LitlContainer/AlignedBuffer.h: AlignedBuffer"]}
{"id": "C37", "title": "Owned memory is eventually freed", "statement": "Whatever the history, once all buffers are destroyed, every block which was allocated by buffers and not explicitly released has been freed.", "quantifier": "all finite histories", "why_tests_cant": "unbounded histories", "anchors": ["LitlContainer/LitlContainer/AlignedBuffer.h: AlignedBuffer::AlignedBuffer(AlignedBuffer&&), AlignedBuffer::operator="]}
{"id": "C38", "title": "Copies of owning buffers are independent, copies of views share", "statement": "After copying an owning buffer, writing to the copy never changes the original and conversely; after copying a non-owning buffer, both designate the same memory; a moved-from buffer does not designate memory any more.", "quantifier": "all buffers and all subsequent writes", "why_tests_cant": "all contents/histories", "anchors": ["LitlContainer/LitlContainer/AlignedBuffer.h: AlignedBuffer::AlignedBuffer(const AlignedBuffer&), AlignedBuffer::AlignedBuffer(AlignedBuffer&&)"]}
{"id": "C39", "title": "Stable Poisson noise is local", "statement": "With the same seed, if two containers have the same value at index k then the stable Poisson noise gives the same output at index k for both, whatever the other values and however many random draws they consume.", "quantifier": "all seeds, containers, indices, and all engines/distributions", "why_tests_cant": "all inputs and random engines", "anchors": ["LitlContainer/LitlContainer/Random.h: StablePoissonNoise"]}
{"id": "C40", "title": "Impulse noise only substitutes listed values", "statement": "Each output of the impulse noise is either the input value or one of the listed impulse values, and the weights given to the random selection are non-negative, sum to one whenever the listed probabilities sum to less than one, and assign to the i-th impulse its listed probability.", "quantifier": "all impulse maps, inputs and random draws", "why_tests_cant": "all random draws", "anchors": ["LitlContainer/LitlContainer/Random.h: ImpulseNoise"]}
{"id": "C41", "title": "Extrapolation never reads outside of the raster", "statement": "For every (possibly out-of-domain) integral position, constant, nearest-neighbor and periodic extrapolation return the raster's own value inside the domain and only read pixels of the domain; outside they respectively return the constant, the value of the closest pixel, and the value of the pixel congruent modulo the shape.", "quantifier": "all shapes with positive lengths, all integral positions", "why_tests_cant": "unbounded positions", "anchors": ["LitlTransforms/LitlTransforms/InterpolationMethods.h: OutOfBoundsConstant, NearestNeighbor::at, Periodic", "LitlTransforms/LitlTransforms/Interpolation.h: Extrapolator"]}
{"id": "C42", "title": "Linear interpolation", "statement": "Linear interpolation reproduces the raster at integral positions, is exact for affine data, and in between is the multilinear combination of the 2^N neighbors with weights decreasing with distance.", "quantifier": "all dimensions, rasters, real positions", "why_tests_cant": "continuum of positions", "anchors": ["LitlTransforms/LitlTransforms/InterpolationMethods.h: Linear", "LitlTypes/LitlTypes/TypeUtils.h: floor"]}
{"id": "C43", "title": "Nearest-neighbor interpolation", "statement": "Nearest-neighbor interpolation returns the value at the integral position closest to the real position, including at negative (extrapolated) positions.", "quantifier": "all real positions", "why_tests_cant": "continuum of positions", "anchors": ["LitlTransforms/LitlTransforms/InterpolationMethods.h: NearestNeighbor"]}
{"id": "C44", "title": "Cubic interpolation", "statement": "Cubic interpolation reproduces the raster at all integral positions (negative ones included), depends on the 4^N neighbors only, reproduces constants and affine (indeed quadratic) data, and is continuous across pixels.", "quantifier": "all dimensions, rasters, real positions", "why_tests_cant": "continuum of positions", "anchors": ["LitlTransforms/LitlTransforms/InterpolationMethods.h: Cubic", "LitlTypes/LitlTypes/TypeUtils.h: floor"]}
{"id": "C45", "title": "Correlation by an ND kernel", "statement": "The correlation of an extrapolated raster by an ND kernel has at each position p the value sum over k in the kernel window of kernel[k] * raster[p + k], the raster being extrapolated outside its domain; inputs and outputs are never accessed out of bounds.", "quantifier": "all dimensions, shapes, kernels, origins, values", "why_tests_cant": "all shapes and values", "anchors": ["LitlTransforms/LitlTransforms/Kernel.h: Kernel::correlateTo, Kernel::correlateWithoutExtrapolation, Kernel::correlateWithExtrapolation"]}
{"id": "C46", "title": "1D correlation with cropping", "statement": "Correlating a line (any stride) of n samples by a 1D kernel gives at each i the sum of kernel[j] * in[i + j - origin] over the j for which i + j - origin is a valid index, for any line at least as long as the kernel, and never reads outside of the line or kernel.", "quantifier": "all kernels, origins, strides, lines with n >= kernel size", "why_tests_cant": "all kernels and lines", "anchors": ["LitlTransforms/LitlTransforms/LineKernel.h: LineKernel::correlate", "LitlTransforms/LitlTransforms/Convolution.h: Kernel1d::sparseCorrelate1dTo"]}
{"id": "C47", "title": "1D correlation of short lines", "statement": "The same formula holds for lines shorter than the kernel, e.g. a kernel of length 3 along an axis of length 1.", "quantifier": "all kernels and line lengths >= 1", "why_tests_cant": "all lengths; unsigned wrap-around", "anchors": ["LitlTransforms/LitlTransforms/LineKernel.h: LineKernel::correlate", "LitlTransforms/LitlTransforms/Convolution.h: Kernel1d::sparseCorrelate1dTo"]}
{"id": "C48", "title": "Sampled 1D correlation", "statement": "Correlating the samples (front, back, step) of a line gives the values of the full correlation at the sampled indices, in order, exactly as many outputs as samples.", "quantifier": "all samplings, kernels, lines", "why_tests_cant": "all samplings", "anchors": ["LitlTransforms/LitlTransforms/Convolution.h: Kernel1d::sparseCorrelate1dTo", "LitlTransforms/LitlTransforms/LineKernel.h: LineKernel::correlate"]}
{"id": "C49", "title": "Separable correlation", "statement": "Correlating a raster by a separable kernel along distinct axes equals the correlation by the outer product kernel with zero extrapolation, and does not depend on the order of the axes.", "quantifier": "all dimensions, shapes, kernels, axis orders", "why_tests_cant": "all rasters/kernels; algebraic law", "anchors": ["LitlTransforms/LitlTransforms/SeparableKernel.h: SeparableKernel", "LitlTransforms/LitlTransforms/LineKernel.h: LineKernel::correlateAlong"]}
{"id": "C50", "title": "Composition of separable kernels", "statement": "compose() returns an ND kernel which, applied to a raster, gives the same result as the separable kernel it comes from.", "quantifier": "all separable kernels and rasters", "why_tests_cant": "all kernels", "anchors": ["LitlTransforms/LitlTransforms/SeparableKernel.h: SeparableKernel::compose"]}
{"id": "C51", "title": "Median filter", "statement": "The value of the median filter is the median of the values in the window: the middle element of the sorted values for odd window sizes, the mean of the two middle elements for even sizes.", "quantifier": "all neighborhoods, all standard-conforming nth_element implementations", "why_tests_cant": "all value lists and all partial sorting implementations", "anchors": ["LitlTransforms/LitlTransforms/MedianFilter.h: median, MedianFilter"]}
{"id": "C52", "title": "DFT plans: shapes and buffer sharing", "statement": "The inverse of a plan has input and output shapes swapped, shares the buffers of the plan without owning them, and the inverse of the inverse has the shapes of the plan; the output of a real DFT has floor(w/2)+1 columns, which is what the Hermitian-symmetric half of the spectrum needs; fftw is given the logical shape with axes reversed.", "quantifier": "all shapes", "why_tests_cant": "all shapes", "anchors": ["LitlTransforms/LitlTransforms/DftPlan.h: DftPlan", "LitlTransforms/LitlTransforms/DftMemory.h: fftwShape", "LitlTransforms/LitlTransforms/Dft.h: RealDftTransform, ComplexDftTransform, Inverse"]}
{"id": "C53", "title": "DFT round trip", "statement": "Transforming, applying the inverse transform and normalizing gives back the input signal, for complex and for real signals, for every logical shape with positive lengths.", "quantifier": "all shapes and signals (in exact arithmetic)", "why_tests_cant": "all signals", "anchors": ["LitlTransforms/LitlTransforms/DftPlan.h: DftPlan::transform, DftPlan::normalize, DftPlan::normalizationFactor"]}
{"id": "C54", "title": "Pipeline steps are evaluated at most once, after their prerequisites", "statement": "Whatever the sequence of get() calls on a pipeline, each step is evaluated at most once between resets, only after all its direct and indirect prerequisites, and get(S) returns only once S and all prerequisites have been evaluated; if a step's evaluation fails, it and its dependents are not considered evaluated and will be retried, while already evaluated steps are not re-evaluated.", "quantifier": "all step DAGs, all histories of get and reset, all failure points", "why_tests_cant": "all DAGs, histories and failure points", "anchors": ["LitlRun/LitlRun/StepperPipeline.h: StepperPipeline::get, StepperPipeline::evaluateGet"]}
{"id": "C55", "title": "Pipeline timings", "statement": "milliseconds(S) is negative iff S has not been evaluated since the last reset, and the total is the sum of the times of the evaluated steps.", "quantifier": "all histories", "why_tests_cant": "all histories", "anchors": ["LitlRun/LitlRun/StepperPipeline.h: StepperPipeline::milliseconds, StepperPipeline::reset"]}
{"id": "C56", "title": "Chronometer bookkeeping", "statement": "After any sequence of start/stop/reset, the elapsed time is the offset given at construction or last reset plus the sum of the recorded increments, the count is the number of stops since the last reset, and for alternating start/stop sequences the elapsed time minus offset is the total time spent between starts and stops.", "quantifier": "all histories of start/stop/reset with any non-decreasing clock", "why_tests_cant": "all histories", "anchors": ["LitlRun/LitlRun/Chronometer.h: Chronometer"]}
{"id": "C57", "title": "All looping strategies are equivalent", "statement": "Nested loops over coordinates in any of the documented orders, loops over positions of the domain, over raw indices and over iterators all compute the same pixel-wise sum of two rasters.", "quantifier": "all 3D shapes and values", "why_tests_cant": "all shapes and values", "anchors": ["LitlRun/LitlRun/IterationBenchmark.h: IterationBenchmark", "doc/primer.dox: primer-access"]}
{"id": "C58", "title": "Segment built from a size", "statement": "A segment built from a front and a size has this front and this size, and the window of a line kernel of n elements with origin o is the segment [-o, n-1-o].", "quantifier": "all fronts and sizes", "why_tests_cant": "all integers", "anchors": ["LitlTypes/LitlTypes/Segment.h: Segment", "LitlTransforms/LitlTransforms/LineKernel.h: LineKernel::window"]}
{"id": "C59", "title": "Integer floor", "statement": "floor<Index>(x) is the largest integer not greater than x.", "quantifier": "all finite real x", "why_tests_cant": "continuum", "anchors": ["LitlTypes/LitlTypes/TypeUtils.h: floor"]}
{"id": "C60", "title": "Identity and diagonal matrices", "statement": "The identity (resp. diagonal) N x M matrix has ones (resp. the given values) at (i, i) and zeros elsewhere, and element access (row, column) returns the corresponding element.", "quantifier": "all N, M, diagonals", "why_tests_cant": "all sizes", "anchors": ["LitlRaster/LitlRaster/Matrix.h: Matrix::identity, Matrix::diagonal, Matrix::operator()"]}
{"id": "C61", "title": "Vector dimension changes", "statement": "slice<M>() keeps the first M coordinates; extend<M>(padding) keeps the coordinates and takes the missing ones from the padding; slicing an extended vector gives it back.", "quantifier": "all vectors and dimensions", "why_tests_cant": "all vectors", "anchors": ["LitlRaster/LitlRaster/Vector.h: Vector::slice, Vector::extend"]}
{"id": "C62", "title": "Error messages accumulate context", "statement": "The message of an exception starts with prefix and message, and every appended line is kept in order and indented by its level; what() never loses previously appended lines.", "quantifier": "all histories of append()", "why_tests_cant": "all histories", "anchors": ["LitlTypes/LitlTypes/Exceptions.h: Exception"]}
{"id": "C63", "title": "range(), linspace() and fill() use their arguments as on call", "statement": "range(min, step), linspace(min, max) and fill(value) give the same result whether their arguments, which are taken by reference, are independent variables or elements of the container which is being filled.", "quantifier": "all sizes, all positions of the arguments inside or outside of the container", "why_tests_cant": "aliasing cases over all sizes and positions of the aliased elements", "anchors": ["LitlContainer/LitlContainer/DataContainer.h: DataContainer::fill, DataContainer::range, DataContainer::linspace"]}
{"id": "C64", "title": "Median and median absolute deviation", "statement": "For non-empty data of floating point type, median() is the middle value of the sorted data (the average of both middle values if their number is even), and mad() is the median of the absolute differences to the median, whatever the history of queries.", "quantifier": "all non-empty data and all finite histories of queries", "why_tests_cant": "all data and histories", "anchors": ["LitlContainer/LitlContainer/DataDistribution.h: DataDistribution::median, DataDistribution::mad, DataDistribution::quantile"]}
{"id": "C65", "title": "Derivation kernels follow the documented direction", "statement": "With sign = 1, the result of the Prewitt, Sobel and Scharr kernels is positive wherever the window is inside the raster and the input strictly increases along the derivation axis, and with sign = -1 it is negative.", "quantifier": "all dimensions, derivation and averaging axes, strictly increasing inputs and interior positions", "why_tests_cant": "all inputs and dimensions; the documentation of sobel() states the direction of differentiation, which unit tests do not exercise", "anchors": ["LitlTransforms/LitlTransforms/SeparableKernel.h: SeparableKernel::prewitt, SeparableKernel::sobel, SeparableKernel::scharr"]}
{"id": "C66", "title": "DFT coefficients at raster positions", "statement": "Whatever has been done with a plan and its inverses before, transform() does not access memory out of the buffers, and leaves at each position k of the output the sum, for all positions j of the input, of in(j) exp(-+2 i pi sum_s j_s k_s / n_s), with axes in the order of the rasters; inverse real transforms do so for the Hermitian spectrum of which half is given.", "quantifier": "all shapes with positive lengths less than 2^31, all signals, all histories of plan creations, fillings, transforms and normalizations", "why_tests_cant": "all shapes, signals and histories", "anchors": ["LitlTransforms/LitlTransforms/DftPlan.h: DftPlan::transform", "LitlTransforms/LitlTransforms/Dft.h: allocateFftwPlan, fftwShape"]}
{"id": "C67", "title": "Convolution in Fourier domain", "statement": "As in the documented example, multiplying the coefficients of a signal by those of a kernel, applying the inverse plan and normalizing yields the circular convolution of the signal with the kernel, for complex and real signals.", "quantifier": "all shapes with positive lengths less than 2^31, all signals (in exact arithmetic)", "why_tests_cant": "all shapes and signals", "anchors": ["LitlTransforms/LitlTransforms/DftPlan.h: DftPlan"]}
{"id": "C68", "title": "Key values of integral types", "statement": "For all integral types, Limits::min() and Limits::max() are the lowest and highest values, halfMin() and halfMax() are the half of them (rounded up for the latter, true for Booleans) without overflow, inf() is the maximum, epsilon() is the difference between two consecutive values, and almostMin() and almostMax() are the values next to the minimum and maximum.", "quantifier": "all integral types, whatever their width and signedness", "why_tests_cant": "tests cover the types of a platform; the documentation covers any type", "anchors": ["LitlTypes/LitlTypes/TypeUtils.h: Limits"]}
{"id": "C69", "title": "Element-wise mathematical functions", "statement": "V.f(), V.f(U) and V.f(s), for the functions f of Math.h, replace each element x of V with f(x), f(x, y) or f(x, s), where y is the element of U at the same index and s the value of the scalar on call, even if it is an element of V, and modify nothing else; f(V), f(V, U) and f(V, s) create a container with these values and leave V unchanged; real(), imag(), abs(), arg() and norm() of a complex raster keep the shape and apply to each pixel.", "quantifier": "all functions, sizes, values, positions of the operands in memory, and shapes", "why_tests_cant": "all sizes and aliases of the operands", "anchors": ["LitlContainer/LitlContainer/Math.h: MathFunctionsMixin", "LitlRaster/LitlRaster/Raster.h: LITL_MATH_COMPLEX_TO_REAL"]}
{"id": "C70", "title": "Construction of containers", "statement": "A container constructed with a size has this size; one constructed from a list, an iterable, a pointer or a moved container holds exactly the given values in order, or the construction throws if the sizes mismatch; moveTo() gives exactly the values; views share the memory they are given, and only this memory.", "quantifier": "all sizes, values, owning holders (vector, array of any size) and views", "why_tests_cant": "all sizes of all holders, including empty ones", "anchors": ["LitlContainer/LitlContainer/Holders.h: StdHolder, PtrHolder, SizeError", "LitlContainer/LitlContainer/DataContainer.h: DataContainer", "LitlContainer/LitlContainer/Sequence.h: Sequence", "LitlRaster/LitlRaster/Vector.h: Vector"]}
{"id": "C71", "title": "FITS round trip", "statement": "A raster written to a FITS file by Fits::write() and read back by Fits::read() with the same value type and dimension has the same shape and the same pixel values; a failed operation is reported.", "quantifier": "all value types, dimensions, shapes, values, and states of the file and of the Fits object", "why_tests_cant": "all types and values: a test on zero or 1-byte values does not reveal lost bytes; all sequences of calls after a failure", "anchors": ["LitlIo/LitlIo/Fits.h: Fits::read", "LitlIo/LitlIo/Fits.h: Fits::write"]}
{"id": "C72", "title": "2D correlation by a 1D kernel", "statement": "Kernel1d::correlate2dTo(in, out) and sparseCorrelate2dTo(in, sampling, out) set each pixel of out to the correlation, along both axes, of the zero-padded image by the tensor product of the kernel with itself, at the sampled position; no value is read or written out of the rasters.", "quantifier": "all kernels, origins, image sizes, samplings and value types", "why_tests_cant": "all sizes, origins and samplings relatively to the kernel; all value types, in which offsets are converted", "anchors": ["LitlTransforms/LitlTransforms/Convolution.h: sparseCorrelate2dTo", "LitlTransforms/LitlTransforms/Convolution.h: correlate2dTo", "LitlRaster/LitlRaster/Sampling.h: DataSamples::operator+="]}
{"id": "C73", "title": "Life cycle of DFT plans", "statement": "FFTW plans are destroyed exactly once, when or before the last plan object is destroyed, whatever the constructions, moves, inversions and compositions; the transform of a plan object reads in() and writes out(), and is safe as long as the objects which own its buffers are alive.", "quantifier": "all histories of plan objects and of the rasters which share memory with them", "why_tests_cant": "all interleavings of moves, assignments and destructions; leaks and dangling pointers are silent", "anchors": ["LitlTransforms/LitlTransforms/DftMemory.h: FftwAllocator", "LitlTransforms/LitlTransforms/DftPlan.h: DftPlan, inverse, compose, transform", "LitlTransforms/LitlTransforms/Dft.h: complexDft, inverseComplexDft, realDft, inverseRealDft"]}
{"id": "C74", "title": "Increments of iterators", "statement": "Iterators over boxes, balls, subrasters and samplings behave as input iterators: *it++ gives the current element and moves to the next one, so that loops with *it++ visit the same elements as range-based loops; ++it goes through the elements in order up to end(); -= undoes +=.", "quantifier": "all boxes, balls, subrasters, samplings and numbers of increments", "why_tests_cant": "all shapes and numbers of increments; reading one element before the first one is silent most of the time", "anchors": ["LitlRaster/LitlRaster/BoxIterator.h: Iterator::operator++, operator==, reset", "LitlRaster/LitlRaster/BallIterator.h: Iterator::operator++", "LitlRaster/LitlRaster/SubrasterIterator.h: Iterator::operator++", "LitlRaster/LitlRaster/Sampling.h: AxisSampling::Iterator, DataSamples"]}
{"id": "C75", "title": "Reproducibility of random noises", "statement": "Noises with the same parameters and the same seed, other than -1, generate the same values whatever the clock and the container; a StablePoissonNoise is reproducible whatever its seed; applying an additive noise to a container adds the values which would be generated with the same seed; a noise object goes on from where it was; a complex noise is made of real and imaginary values which are drawn alternately.", "quantifier": "all seeds, clocks, engines, distributions (with or without a state), containers and numbers of elements", "why_tests_cant": "all seeds and clocks; results of engines cannot be enumerated", "anchors": ["LitlContainer/LitlContainer/Random.h: RandomGenerator, ComplexDistribution, UniformNoise, GaussianNoise, PoissonNoise, StablePoissonNoise", "LitlContainer/LitlContainer/Sequence.h: random", "LitlRaster/LitlRaster/Raster.h: random"]}
{"id": "C76", "title": "Life times of views, decorators and iterators", "statement": "A slice, section, subraster, sampling view, extrapolator, interpolator or iterator, and any copy of it, can be used as long as it lives and the objects which it has been made from live, provided that the rasters are not moved: no function follows a dangling reference or pointer.", "quantifier": "All programs: finite sequences of constructions, copies, moves and destructions of regions, rasters, views, decorators and iterators.", "why_tests_cant": "Dangling references usually still give the expected values in tests, because the memory has not been reused; tests cover a handful of sequences of constructions and destructions.", "anchors": ["LitlRaster/LitlRaster/BoxIterator.h:19", "LitlRaster/LitlRaster/BoxIterator.h:113", "LitlRaster/LitlRaster/BallIterator.h:17-23", "LitlRaster/LitlRaster/BallIterator.h:77-102", "LitlRaster/LitlRaster/SubrasterIterator.h:23-25", "LitlRaster/LitlRaster/SubrasterIterator.h:81-109", "LitlRaster/LitlRaster/Subraster.h:97-106", "LitlRaster/LitlRaster/Sampling.h:65-68", "LitlRaster/LitlRaster/Sampling.h:230-233", "LitlTransforms/LitlTransforms/Interpolation.h:75-83", "LitlTransforms/LitlTransforms/Interpolation.h:170-178", "LitlContainer/LitlContainer/Holders.h:217-227"]}
{"id": "C77", "title": "Values of the options of the last command line", "statement": "After parse() has returned, as(name) is the value which the command line gives to the option, or else its default value, whatever has been parsed before; the words of a string are the arguments; a command line which throws has no effect on later ones.", "quantifier": "All sets of options, all sequences of command lines, all strings.", "why_tests_cant": "Tests parse a few command lines, and the second ones give only options which the first ones do not.", "anchors": ["LitlRun/LitlRun/ProgramOptions.h:111-113", "LitlRun/LitlRun/ProgramOptions.h:125-156", "LitlRun/LitlRun/ProgramOptions.h:161-173"]}
{"id": "C78", "title": "Translated and opposite regions", "statement": "The loop over region + v (or - v, + a, - a, ++, --) visits the translated positions of the region, in the same order; the loop over -region visits the opposites of the positions of the region.", "quantifier": "All boxes and balls of any dimension, radius >= 0 and norm; all translations.", "why_tests_cant": "Tests check the bounds of a few regions, not the positions which are visited, for all regions and vectors.", "anchors": ["LitlRaster/LitlRaster/Box.h:200-268", "LitlRaster/LitlRaster/Ball.h:125-196"]}
{"id": "C79", "title": "Index computations do not overflow", "statement": "If the number of pixels is a value of type Index, then the number of pixels, the strides, the raw indices of pixels, at(), the domain, the size of boxes and the loops over boxes are computed without signed overflow.", "quantifier": "All shapes, positions and boxes of 64-bit coordinates.", "why_tests_cant": "Tests use small rasters, and overflow is undefined behaviour which tests may not see.", "anchors": ["LitlRaster/LitlRaster/Vector.h:203-227", "LitlRaster/LitlRaster/impl/Raster.hpp:25-70", "LitlRaster/LitlRaster/impl/Raster.hpp:83-130", "LitlRaster/LitlRaster/Box.h:44-46", "LitlRaster/LitlRaster/Box.h:83-99", "LitlRaster/LitlRaster/BoxIterator.h:24-107"]}
{"id": "C80", "title": "Matrices are values", "statement": "An operation on a matrix changes that matrix only, a matrix which is copied or assigned has the elements of the right-hand side, and determinant() is that of the elements of the matrix.", "quantifier": "All programs which construct, copy, assign, modify, combine and destroy any number of matrices.", "why_tests_cant": "Each matrix holds a view of its elements which copies share: what fails depends on the history of copies and lifetimes.", "anchors": ["LitlRaster/LitlRaster/Matrix.h:53-60", "LitlRaster/LitlRaster/Matrix.h:122-136", "LitlContainer/LitlContainer/Arithmetic.h:168-177"]}
{"id": "C81", "title": "inverse() inverts matrices", "statement": "inverse() replaces an invertible matrix with its inverse.", "quantifier": "All invertible square matrices.", "why_tests_cant": "No test exists; a test on an involutive matrix, like the identity, passes although nothing is computed.", "anchors": ["LitlRaster/LitlRaster/Matrix.h:126-131"]}
{"id": "C82", "title": "Correlation is accurate in floating point arithmetic", "statement": "With floating point values (rounded products and sums, with gradual underflow), the correlation terminates without undefined behaviour, and wherever the algorithm is right in exact arithmetic, the computed pixel differs from the exact sum of n products by at most ((1+u)^n - 1) times the sum of their absolute values, plus n (1+u)^n eta for underflows, where u is the unit roundoff and eta the largest underflow error.", "quantifier": "All roundings, kernels, rasters or lines, extrapolations, positions.", "why_tests_cant": "Tests use small integers, whose sums and products are exact; error bounds hold for all values and roundings, and depend on the order of the operations.", "anchors": ["LitlTransforms/LitlTransforms/Kernel.h:108-160", "LitlTransforms/LitlTransforms/LineKernel.h:84-113"]}
{"id": "C83", "title": "Correlation is shift invariant bit for bit", "statement": "Wherever the algorithm is right in exact arithmetic, each output pixel is computed as products added one by one to zero in storage order of the window, with or without extrapolation; hence the outcome is unique, and pixels with equal neighborhoods (in the same raster, a tile of it, or another raster) are equal bit for bit.", "quantifier": "All arithmetics (no law assumed: floating point, saturation, special values), kernels, rasters or lines, strides, extrapolations, positions.", "why_tests_cant": "Tests compare a few results in an arithmetic where the order hardly matters; border and bulk pixels are computed by different loops.", "anchors": ["LitlTransforms/LitlTransforms/Kernel.h:79-160", "LitlTransforms/LitlTransforms/LineKernel.h:83-113"]}
{"id": "C84", "title": "Special values spread to the windows which contain them, and only there", "statement": "A value which is absorbing for additions and products (NaN) makes each output pixel whose window contains it absorbing, even where its weight in the kernel is zero; conversely, a property of values which the operations preserve (e.g. not NaN) holds at each output pixel whose window has it, whatever the rest of the input.", "quantifier": "All arithmetics with such values, kernels, rasters or lines, extrapolations, positions.", "why_tests_cant": "Tests use finite values only; the claim is about which inputs each output depends on.", "anchors": ["LitlTransforms/LitlTransforms/Kernel.h:79-160", "LitlTransforms/LitlTransforms/LineKernel.h:83-113"]}
{"id": "C85", "title": "Separable correlation is accurate in floating point arithmetic", "statement": "With floating point values (rounded products and sums, gradual underflow), the correlation by a separable kernel has one outcome, and each output pixel differs from the exact correlation by the outer product by at most ((1+u)^n - 1) times the sum of the absolute values of the terms, plus (1+u)^n w eta for underflows, where n is the sum of the lengths of the line kernels (not the size of the window), and w is the number of products of the passes weighted by the absolute sums of the subsequent kernels.", "quantifier": "All roundings, separable kernels along distinct axes, rasters at least as large as the kernels, positions.", "why_tests_cant": "Tests compare a few values to a tolerance; the error bound is about all values, and about intermediate rasters which are rounded too.", "anchors": ["LitlTransforms/LitlTransforms/SeparableKernel.h:167-225", "LitlTransforms/LitlTransforms/LineKernel.h:83-113"]}
{"id": "C86", "title": "range() and linspace() in floating point arithmetic", "statement": "With floating point values: the first and last values of linspace() are exactly min and max; the intermediate values are within a few rounding errors of the evenly spaced ones, sorted, and between the bounds. The values of range() are sorted in the direction of the step, exact when they are floating point numbers, and have an error which grows with the index otherwise; adjacent values differ by exactly step.", "quantifier": "All roundings and binary formats, sizes, bounds, minima and steps.", "why_tests_cant": "Tests check a few sizes and bounds for which rounding is harmless; whether a value overshoots the bound depends on the size, the bounds and the format.", "anchors": ["LitlContainer/LitlContainer/DataContainer.h:132-170"]}
{"id": "C87", "title": "Sum and mean in floating point arithmetic", "statement": "With floating point values, the sum of a DataDistribution differs from the exact one by at most ((1+u)^(n-1) - 1) times the sum of the absolute values, and is exact when the partial sums are floating point numbers; the mean differs by at most ((1+u)^n - 1) times the mean of the absolute values (plus underflow), and is between the minimum and the maximum.", "quantifier": "All roundings and binary formats, data.", "why_tests_cant": "Tests check a few data sets, with tolerances or with exact values; whether the mean is out of bounds depends on the data and the format.", "anchors": ["LitlContainer/LitlContainer/DataDistribution.h:46-54", "LitlContainer/LitlContainer/DataDistribution.h:88-90", "LitlContainer/LitlContainer/DataDistribution.h:109-111"]}
{"id": "C88", "title": "Line kernels from values are centered", "statement": "LineKernel(values) has its origin at the center of the values, such that e.g. the kernel {0, 1, 0} leaves a line unchanged.", "quantifier": "All values, and all evaluation orders which are allowed by the standard.", "why_tests_cant": "values.size() is evaluated before or after the vector was moved from, depending on the compiler: tests only see the order of the compiler they are built with.", "anchors": ["LitlTransforms/LitlTransforms/LineKernel.h:38-43"]}
{"id": "C89", "title": "Correlation of integers is right if representable", "statement": "Correlating integer rasters with integer kernels gives the correlation, at each pixel where it is a value of the value type: intermediate results do not matter.", "quantifier": "All integral types of 7 to 64 digits, kernels, rasters and extrapolators.", "why_tests_cant": "Whether products and partial sums overflow depends on all the values under the window and on the integral promotions of the type; an overflow is undefined behaviour, which usually yields the expected value in tests.", "anchors": ["LitlTransforms/LitlTransforms/Kernel.h:92-159", "LitlTransforms/LitlTransforms/LineKernel.h:80-117", "LitlTransforms/LitlTransforms/SeparableKernel.h:165-181", "LitlTypes/LitlTypes/TypeUtils.h:17-19"]}
{"id": "C90", "title": "Distributions of integers can be constructed and summed", "statement": "A distribution of integers can be constructed from any values, and its sum is that of the values as soon as it is a value of the value type.", "quantifier": "All integral types of 7 to 64 digits, all values.", "why_tests_cant": "The constructor also sums the squares, which no query uses; they overflow for values which look harmless, and overflows are undefined behaviour without visible effects in tests.", "anchors": ["LitlContainer/LitlContainer/DataDistribution.h:47-54", "LitlContainer/LitlContainer/DataDistribution.h:88-90", "LitlContainer/LitlContainer/DataDistribution.h:109-111"]}
{"id": "C91", "title": "Correlating real rasters with integer kernels", "statement": "The correlation of a raster of real numbers with a kernel of integers is the exact correlation, converted to an integer: in particular, the result of a constant raster is constant.", "quantifier": "All kernels of integers, rasters of real numbers, and extrapolators.", "why_tests_cant": "The accumulators of different code paths have the type of the kernel, not that of the raster; the error depends on all the partial sums, and is null for the rasters of integers which tests are made of.", "anchors": ["LitlTransforms/LitlTransforms/Kernel.h:79-159", "LitlTransforms/LitlTransforms/LineKernel.h:80-117", "LitlTransforms/LitlTransforms/SeparableKernel.h:165-181"]}
{"id": "C92", "title": "Quantiles in floating point arithmetic", "statement": "For a non-empty distribution of floating point values and q between 0 and 1, quantile(q) does not read out of the values, whatever the rounding errors and the history of queries; the result is between the minimum and the maximum; quantile(0), quantile(1) and quantile(0.5) are the minimum, the maximum and the median.", "quantifier": "All binary floating point formats, distributions, histories of queries, evaluation orders, and q.", "why_tests_cant": "A rounded abscissa which would exceed the last index by one only occurs for some sizes and some q; the results which overshoot the maximum by one unit in the last place are those of some values and weights only, and tests compare with tolerances.", "anchors": ["LitlContainer/LitlContainer/DataDistribution.h:95-118", "LitlContainer/LitlContainer/DataDistribution.h:147-155"]}
{"id": "C93", "title": "Nearest-neighbor interpolation in floating point arithmetic", "statement": "For every floating point position within half a pixel of the raster, nearest-neighbor interpolation reads the closest pixel of the raster, and no position of this area makes it read out of bounds.", "quantifier": "All binary floating point formats, dimensions, and positions.", "why_tests_cant": "Adding 0.5 rounds: 0.49999999999999994 is the only wrong position below 2^51, one among some 10^19.", "anchors": ["LitlTransforms/LitlTransforms/InterpolationMethods.h:60-66"]}
{"id": "C94", "title": "Linear interpolation in floating point arithmetic", "statement": "In floating point arithmetic, linear interpolation reproduces constants exactly, is between the values of the neighbors, is monotonic between two pixels, and is accurate up to a few units in the last place of the largest neighbor.", "quantifier": "All binary floating point formats, dimensions, rasters and positions.", "why_tests_cant": "Overshoots of one unit depend on the low-order bits of values and weights; tests compare with tolerances.", "anchors": ["LitlTransforms/LitlTransforms/InterpolationMethods.h:98-116", "LitlTypes/LitlTypes/TypeUtils.h:165-169"]}
{"id": "C95", "title": "Cubic interpolation in floating point arithmetic", "statement": "In floating point arithmetic, cubic interpolation returns the value of the pixel at integral positions, reproduces constants, and is accurate up to a given number of units in the last place of the largest neighbor.", "quantifier": "All binary floating point formats, dimensions, rasters and positions.", "why_tests_cant": "The coefficients of a constant cancel exactly only if its multiples by 3 and 5 are not rounded; tests use small integers, for which they are not.", "anchors": ["LitlTransforms/LitlTransforms/InterpolationMethods.h:125-147", "LitlTypes/LitlTypes/TypeUtils.h:165-169"]}
{"id": "C96", "title": "Iterating over balls in floating point arithmetic", "statement": "Although powers, sums and the radius are floating point numbers, iterating over a ball visits exactly the positions at a distance of at most the radius, each once, in storage order; a ball of radius std::sqrt(n) contains the positions at a squared distance of at most n.", "quantifier": "All binary floating point formats, faithful power functions, norms, dimensions, centers, and radii whose distances are representable.", "why_tests_cant": "Whether a position of the boundary is visited depends on the last bit of a rounded square; tests use integral radii, for which everything is exact.", "anchors": ["LitlRaster/LitlRaster/BallIterator.h:17-31", "LitlRaster/LitlRaster/BallIterator.h:58-75"]}
{"id": "C97", "title": "Linear interpolation of values which are not doubles", "statement": "Linear interpolation of a raster of floats or long doubles at a double position yields a value between those of the neighbors, close to that of the multilinear formula, and reproduces constant data exactly.", "quantifier": "All binary formats of positions, values and common type, dimensions, rasters and positions whose neighbors have indices.", "why_tests_cant": "Whether the result escapes the range of the neighbors depends on which of three roundings occur in which precision; tests compare a few results with a tolerance.", "anchors": ["LitlTransforms/LitlTransforms/InterpolationMethods.h:98-116", "LitlTypes/LitlTypes/TypeUtils.h:105"]}
{"id": "C98", "title": "Data with NaNs", "statement": "If some values of a container are NaN, its extrema, order statistics, histograms and medians are either NaN or those of the numbers; queries have no undefined behavior; a container without NaN equals its copies.", "quantifier": "All data, positions of NaNs, bins, and implementations of the sorting algorithms.", "why_tests_cant": "No test has a NaN; which values are returned depends on where the NaNs are and on the sorting algorithms, whose behavior is undefined for most data with NaN.", "anchors": ["LitlContainer/LitlContainer/DataDistribution.h:47-54", "LitlContainer/LitlContainer/DataDistribution.h:95-102", "LitlContainer/LitlContainer/DataDistribution.h:163-193", "LitlContainer/LitlContainer/DataContainer.h:222-232", "LitlTransforms/LitlTransforms/MedianFilter.h:80-92", "LitlContainer/LitlContainer/ContiguousContainer.h:198-200"]}
{"id": "C99", "title": "Scalar operands of another type", "statement": "For a container of integers, `v op= k` and `v op k` replace every element e by the value of e op k, truncated when stored, whatever the type of the scalar k, provided that the results are values of the value type. (Violated: k is converted to the value type first, so that multiplying a raster of unsigned char by 0.2125, as in the documentation, clears it, by 1.5 does nothing, dividing by 0.5 divides by zero, and negative or too large floating point scalars are undefined behaviour. Holds for scalars which are values of the value type, and for integers of any type with +, - and * on narrow or unsigned types.)", "quantifier": "for all integral value types, all element values, all operators, and all integer or finite floating point scalars", "why_tests_cant": "Tests use scalars of the value type; the failure depends on the pair of types, on the fraction of the scalar and on each element, and the documentation's own example is only printed.", "anchors": ["LitlContainer/LitlContainer/Arithmetic.h:28-38", "LitlContainer/LitlContainer/Arithmetic.h:168-195", "LitlDemo/tests/src/LitlDemoChannels_test.cpp:158-178"]}
{"id": "C100", "title": "Derivation in Fourier domain", "statement": "The programs of the DFT documentation (fill, transform, multiply the k-th coefficient by i k, transform back, normalize; with plans or with functions) turn the values of a periodic function over [0, 2 pi) into those of its derivative. (Violated for functions whose frequencies reach half the number of values: these are aliased, and the result is the derivative of another function. Holds exactly for every trigonometric polynomial of degree less than half the number of values, even or odd.)", "quantifier": "for all trigonometric polynomials with real coefficients, all numbers of values below 2^31, all sessions of plans sharing buffers and all transforms allowed by FFTW's specification", "why_tests_cant": "The demo only prints the result for the sine and 360 values; whether the loop indexing, the half-spectrum shape, normalization and parity of the size are right for all functions and sizes is a statement over continuous coefficients.", "anchors": ["LitlDemo/tests/src/LitlDemoDft_test.cpp:17-57", "LitlDemo/tests/src/LitlDemoDft_test.cpp:59-89", "LitlTransforms/LitlTransforms/DftPlan.h:60-256"]}
{"id": "C101", "title": "Statistics of the chronometer in floating point arithmetic", "statement": "For doubles, the standard deviation of the increments of a chronometer is a number as soon as there is an increment, and it is null exactly if all the increments are equal. (Violated: the variance is the difference of the mean of the squares and the square of the mean, which rounding errors make negative: five equal increments of 94906262 ns, or two increments of about 1 s which differ by 1 ns, yield NaN. Holds for integral counts with a sum of squares of at most 2^49; the squared deviation is within a few rounding errors of the mean of the squares, for all increments.)", "quantifier": "for all binary formats, all lists of increments, integral or not, and all square root functions", "why_tests_cant": "The test checks a handful of millisecond counts; the failure depends on the accumulated rounding errors of sums of squares, and most lists of increments do not trigger it.", "anchors": ["LitlRun/LitlRun/Chronometer.h:66-73", "LitlRun/LitlRun/Chronometer.h:113-124"]}
{"id": "C102", "title": "Filters are linear, monotonic, and independent of the values", "statement": "Correlation (ND, line and separable kernels), extrapolation and interpolation are linear: the result for a linear combination of rasters is the combination of the results, and correlation is linear in the kernel, too. With non-negative weights, larger inputs give larger outputs, even in floating point arithmetic; linear interpolation preserves the order, cubic interpolation does not. Errors, undefined behaviors and termination do not depend on the values. Correlation commutes with conversions which are ring homomorphisms, and with the real and imaginary parts; in floating point arithmetic it commutes with negation. Median filters with odd windows commute with changes of contrast.", "quantifier": "for all kernels, windows, origins, shapes, rasters, weights, memory contents, and relations between values which sums and products preserve, including where the result is not the documented correlation", "why_tests_cant": "These are relations between several executions on different data, for all data and all kernels; a test compares one execution to one expected result.", "anchors": ["LitlTransforms/LitlTransforms/Kernel.h:79-159", "LitlTransforms/LitlTransforms/LineKernel.h:83-112", "LitlTransforms/LitlTransforms/SeparableKernel.h:167-225", "LitlTransforms/LitlTransforms/InterpolationMethods.h:28-147", "LitlTransforms/LitlTransforms/MedianFilter.h:49-92"]}
{"id": "C103", "title": "Impulse noise in floating point arithmetic", "statement": "For probabilities which are not negative and are rounded to double, each listed value of an impulse noise is the outcome with the requested probability, divided by the sum of the requested probabilities if it is more than one, and the input is untouched with the remaining probability if any, up to four times the machine epsilon per listed value; in particular, if the requested probabilities sum to one or more, then the input is never returned in spite of rounding errors, as documented.", "quantifier": "all maps of up to 2^50 values, whatever the probabilities and their order, and all inputs", "why_tests_cant": "rounding errors depend on the number, the values and the order of the probabilities; frequencies are only known statistically by drawing", "anchors": ["LitlContainer/LitlContainer/Random.h: ImpulseNoise (weights, distribution, operator())"]}
{"id": "C104", "title": "Noises with default parameters are well defined", "statement": "For any integral value type, the uniform, Gaussian and Poisson noises can be used with default parameters: the preconditions of the underlying distributions are met and the values which are drawn are values of the type, between half the lowest and half the highest values for the uniform noise; adding the default uniform noise to data between half the lowest and half the highest values does not overflow; shot noise can be applied to non-negative data. The same holds for the bounds and standard deviations of floating point and complex types.", "quantifier": "all integral types but bool, all containers, all values which may be drawn", "why_tests_cant": "failures depend on the values which are drawn, and undefined behaviour cannot be observed", "anchors": ["LitlContainer/LitlContainer/Random.h: UniformNoise, GaussianNoise, PoissonNoise, StablePoissonNoise, RandomGenerator::add, ComplexDistribution", "LitlTypes/LitlTypes/TypeUtils.h: Limits"]}
{"id": "C105", "title": "Filtering in Fourier domain is filtering in image domain", "statement": "The same filter can be applied with a kernel or with Fourier transforms: with periodic extrapolation, the pixels of the correlation by an ND kernel are those of the normalized output of the inverse plan whose input is the product of the coefficients of the raster by those of the flipped and wrapped kernel; so are those of the correlation by a separable kernel, if the raster is padded with as many zeros as the largest radius of the kernel.", "quantifier": "All shapes with positive lengths less than 2^31, kernels, origins, rasters, for complex and real transforms (in exact arithmetic).", "why_tests_cant": "Relates the outputs of two unrelated algorithms for all shapes, kernels and values; wrapping and padding are only wrong for some combinations of sizes and origins.", "anchors": ["LitlTransforms/LitlTransforms/DftPlan.h: DftPlan", "LitlTransforms/LitlTransforms/Kernel.h: Kernel::correlateTo", "LitlTransforms/LitlTransforms/SeparableKernel.h: SeparableKernel", "LitlTransforms/LitlTransforms/InterpolationMethods.h: Periodic"]}
{"id": "C106", "title": "Element-wise operators of containers of floating point values are correctly rounded", "statement": "Each element of V op U, and of V op a where a is of any floating point type, is the number of the value type which is nearest to the exact result, ties to even. Sums and products are commutative; neutral scalars change nothing; the order of elements is preserved by positive scalars; a difference is null for equal elements only; multiplying then dividing by a scalar gives the elements back; ++V adds one.", "quantifier": "All binary formats (precision and smallest number), containers, scalars, without overflow.", "why_tests_cant": "Rounding errors appear for few values: a scalar which is converted to the value type first gives a wrong last bit for a small part of the pairs of operands.", "anchors": ["LitlContainer/LitlContainer/Arithmetic.h: LITL_VECTOR_OPERATOR_INPLACE", "LitlContainer/LitlContainer/Arithmetic.h: LITL_SCALAR_OPERATOR_INPLACE", "LitlContainer/LitlContainer/Arithmetic.h: operator++"]}
{"id": "C107", "title": "Fourier transform plans can be executed in parallel", "statement": "Several plans can be executed in parallel in different threads: there is no data race, nothing fails, and each thread gets what it would get alone, in any order of execution; e.g. round trips in parallel give back the signals. Two plans can be executed in parallel if and only if they share no buffer: not a plan and its inverse() or compose()d plan, nor one plan twice. Functions such as complexDft() cannot be called in parallel.", "quantifier": "All numbers of threads and actions, interleavings, plans (constructed, inverted, composed and used in any order), shapes and values.", "why_tests_cant": "Interleavings are exponentially many and data races are rarely observed.", "anchors": ["LitlTransforms/LitlTransforms/DftPlan.h: DftPlan::transform", "LitlTransforms/LitlTransforms/DftPlan.h: DftPlan::inverse", "LitlTransforms/LitlTransforms/DftPlan.h: DftPlan::compose", "LitlTransforms/LitlTransforms/Dft.h: complexDft", "LitlTransforms/LitlTransforms/DftMemory.h: FftwAllocator", "doc/dft.dox: thread-safe"]}
{"id": "C108", "title": "Correlation by an ND kernel does not overflow", "statement": "Computing on 64-bit signed integers of type Index the inner box, the surrounding boxes, their sizes, the positions of the windows, and the raw indices of the pixels, a correlation does not overflow, and its outcome is that on unbounded integers, whatever the extrapolation method. This is always the case of rasters of values of at least 2 bytes. Conversely, when the window at the last pixel goes past the largest Index, the correlation overflows.", "quantifier": "All dimensions, shapes, windows which contain the origin and are at most one pixel longer than the raster, values, extrapolation methods and outputs.", "why_tests_cant": "Overflows would require rasters of 2^62 pixels to be observed, and boundary conditions of each operation to be met.", "anchors": ["LitlTransforms/LitlTransforms/Kernel.h: Kernel::correlateTo", "LitlTransforms/LitlTransforms/Kernel.h: Kernel::correlateWithoutExtrapolation", "LitlTransforms/LitlTransforms/Kernel.h: Kernel::correlateWithExtrapolation", "LitlRaster/LitlRaster/Box.h: Box::surround", "LitlRaster/LitlRaster/Box.h: Box::operator-=", "LitlRaster/LitlRaster/Box.h: Box::operator+="]}
{"id": "C109", "title": "Element-wise functions do not depend on the order of evaluation", "statement": "Whatever the order in which the compiler evaluates the arguments *it++ of the function given to generate() or apply(), the function gets the elements of the containers at the same index, in the order of the containers, and every iterator is incremented once. Whatever the order in which std::transform visits the elements, arithmetic operators have the same result, if operands are the same container or do not overlap, and seqTransform() gives the value of the i-th element at index i. seqForeach() and seqTransform() on tuples call the function from the first element to the last one. serialize() writes the arguments in order, separated by a comma and a space. As one would like it, seqTransform() treats all sequences as tuples.", "quantifier": "All orders of evaluation, containers, aliases, sequences, functions (with or without a state) and states.", "why_tests_cant": "A compiler and standard library pick one order of evaluation; tests only observe this one.", "anchors": ["LitlTypes/LitlTypes/SeqUtils.h: iteratorTupleApply", "LitlTypes/LitlTypes/SeqUtils.h: seqForeach", "LitlTypes/LitlTypes/SeqUtils.h: seqTransform", "LitlTypes/LitlTypes/SeqUtils.h: serialize", "LitlContainer/LitlContainer/DataContainer.h: DataContainer::generate", "LitlContainer/LitlContainer/Arithmetic.h: LITL_VECTOR_OPERATOR_INPLACE"]}
{"id": "C110", "title": "Formulae with generate() and with operators are equivalent", "statement": "Evaluating a formula on containers and scalars, like a * k + b, with generate() and a function which evaluates it for each element, or in place with apply(), has the same outcome as with the operators of containers, as documented. In particular, the outcome is undefined for one iff it is for the other.", "quantifier": "All formulae (any nesting of +, -, *, /, % between containers, or between a container and a scalar), containers, sizes, integral types, and types with closed operators (floating point types).", "why_tests_cant": "Both implementations agree on most values; they differ by the conversions of intermediate results, for some values of some types only.", "anchors": ["doc/pixelwise.dox: Generate and Apply", "LitlContainer/LitlContainer/DataContainer.h: DataContainer::generate", "LitlContainer/LitlContainer/DataContainer.h: DataContainer::apply", "LitlContainer/LitlContainer/Arithmetic.h: LITL_VECTOR_OPERATOR_INPLACE", "LitlContainer/LitlContainer/Arithmetic.h: LITL_SCALAR_OPERATOR_INPLACE"]}
{"id": "C111", "title": "The layouts of vector pixels are equivalent, and channels are independent", "statement": "A raster of structures and a raster whose first axis is that of the components have the same memory layout; filling, converting or integrating the latter by steps of the number of components does to every pixel what the pixel function does with the former. With components along the last axis, modifying sections changes the pixels of these channels and no other. Outside of the documented conditions (sizes which are not multiples of the number of components, too small outputs, more weights than components, sections after the last one), the behaviour is undefined rather than silently wrong.", "quantifier": "All shapes, dimensions, numbers of components, pixel functions, weights, contents, sets and orders of channels.", "why_tests_cant": "The demo program runs one color and one shape, and only prints results; iterator loops with != are sensitive to sizes.", "anchors": ["doc/channels.dox", "LitlDemo/tests/src/LitlDemoChannels_test.cpp: color_along_0_test", "LitlDemo/tests/src/LitlDemoChannels_test.cpp: color_along_2_test", "LitlDemo/tests/src/LitlDemoChannels_test.cpp: vector_along_2_test", "LitlRaster/LitlRaster/impl/Raster.hpp: Raster::section"]}
{"id": "C112", "title": "Conversion from RGB to HSV", "statement": "For every RGB color, the HSV color of the documented use case has all of its members initialized, with H in [0, 360), and S and V in [0, 1], and it represents the same color: converting back gives the RGB color.", "quantifier": "All of the triples of components.", "why_tests_cant": "The demo program converts one color, which is not gray, and only prints the result; reading uninitialized members often looks right.", "anchors": ["doc/channels.dox", "LitlDemo/tests/src/LitlDemoChannels_test.cpp: rgbToHsv", "LitlDemo/tests/src/LitlDemoChannels_test.cpp: rgbDataToHsvData", "LitlDemo/tests/src/LitlDemoChannels_test.cpp: Hsv"]}
{"id": "C113", "title": "Floating point type of integers", "statement": "`TypeTraits<T>::Floating` is wide enough to handle any value of type `T`: converting an integer to it does not change the integer, and the statistics which are returned as `Floating` are consistent with the integral ones (`quantile(0)` is `min()`, `quantile(1)` is `max()`).", "quantifier": "All of the integral types of at most 64 digits, and all of their values; all of the distributions of integers and all of the histories of queries.", "why_tests_cant": "Tests use small integers; those which are changed have more than 53 significant bits.", "anchors": ["LitlTypes/LitlTypes/TypeUtils.h: TypeTraits::Floating", "LitlContainer/LitlContainer/DataDistribution.h: DataDistribution::quantile", "LitlContainer/LitlContainer/DataDistribution.h: DataDistribution::mean"]}
{"id": "C114", "title": "Extrapolated and interpolated values are defined at any position", "statement": "An extrapolator returns a value at any integral position, without overflow, even at the extrema of the index type: that of a pixel, or the constant out of the domain.  An interpolator over an extrapolator returns a value at any position.  An interpolator over a raster returns a value at any position between the pixels.", "quantifier": "For all rasters with pixels of any dimension, extrapolation methods (constant, nearest neighbor, periodic), interpolation methods (nearest neighbor, linear, cubic), and positions (integral or in double precision).", "why_tests_cant": "Tests evaluate a few positions close to a small raster; overflows and reads out of bounds depend on the magnitude of the position and on the borders, for every combination of methods and dimension.", "anchors": ["LitlTransforms/LitlTransforms/Interpolation.h:66-72", "LitlTransforms/LitlTransforms/Interpolation.h:95-108", "LitlTransforms/LitlTransforms/InterpolationMethods.h:27-89", "doc/interpolation.dox:10-14"]}
{"id": "C115", "title": "Median of integers", "statement": "The median filter of integral pixels returns a defined value which lies in the range of the neighbors, for an even number of neighbors (above two, see C51) as for an odd one: averaging the two middle neighbors neither overflows nor loses digits; in particular a constant image is reproduced.", "quantifier": "For every integral type, every list of neighbors of the type, every outcome of std::nth_element, and every value of the neighbors", "why_tests_cant": "The average is computed as (a + b) * .5, where the sum is a number of the promoted type and the product is a double. Overflow requires values above half of the range, and inexact products require sums of more than 53 bits; tests use small values or floating point pixels and odd windows.", "anchors": ["LitlTransforms/LitlTransforms/MedianFilter.h:75-92"]}
{"id": "C116", "title": "New-instance operators and functions do not modify their operands", "statement": "The new-instance operators (a + b, a - b, -a, a * k, a++...) and functions (sin(a), pow(a, b)...) return a new container and leave their operands unchanged, whatever the kind of containers; expressions made of them have the expected value whatever the order in which the compiler evaluates the operands.", "quantifier": "For all expressions, containers (owning or views, e.g. sections of rasters), element-wise operations, values, and orders of evaluation", "why_tests_cant": "Operators copy the left operand and modify the copy. Copies of views share the elements, so that whether the operands are modified, and whether an expression has the expected value, depends on the kind of the containers, on the number of times each of them occurs in the expression, and on the order of evaluation which is chosen by the compiler.", "anchors": ["LitlContainer/LitlContainer/Arithmetic.h:87-93", "LitlContainer/LitlContainer/Arithmetic.h:151-157", "LitlContainer/LitlContainer/Arithmetic.h:170-177", "LitlContainer/LitlContainer/Math.h:123-139", "LitlContainer/LitlContainer/Holders.h:203-227", "doc/pixelwise.dox:10-30"]}
{"id": "C117", "title": "Pixel-wise operations combine the pixels at the same position", "statement": "Whatever the shapes of two rasters of the same dimension, combining them with a binary operator either raises an error, or combines the pixels at the same position.", "quantifier": "all shapes with positive lengths, all pixel values, all operators and functions, any number of arguments", "why_tests_cant": "Tests use operands of the same shape; the exact set of shapes for which the positions match is over all pairs of shapes.", "anchors": ["LitlContainer/LitlContainer/Arithmetic.h:15-26", "LitlContainer/LitlContainer/DataContainer.h:186-214", "LitlRaster/LitlRaster/Raster.h:176"]}
{"id": "C118", "title": "Stable Poisson noises of different elements, or of different seeds, differ", "statement": "StablePoissonNoise draws each element from an engine of its own: the engines of different elements are seeded differently, and noises of different seeds use different engines for the same element.", "quantifier": "For all seeds, all indices of elements, and all containers, engines and distributions", "why_tests_cant": "The seeds of the engines are the values of a multiplicative generator; whether and when they repeat depends on the order of the multiplier modulo 2^31 - 1, and repetitions only occur after 2^31 - 2 elements or for pairs of seeds which tests do not try.", "anchors": ["LitlContainer/LitlContainer/Random.h:260-316"]}
{"id": "C119", "title": "Messages of correlations do not make the behaviour undefined", "statement": "The correlation of a raster by a separable kernel, of a line by a 1D kernel, or of an image along both axes by a 1D kernel, has the same outcomes whether or not messages are printed, for every value type which is supported by the library.", "quantifier": "For all value types, kernels, axes, inputs, samplings", "why_tests_cant": "Separable kernels are only tested with int; with other types the arguments of printf() do not match the conversion specifications, which is undefined but generally prints a wrong number and goes on, such that tests pass.", "anchors": ["LitlTransforms/LitlTransforms/SeparableKernel.h:200-210", "LitlTransforms/LitlTransforms/Convolution.h:71-104", "LitlTransforms/LitlTransforms/Convolution.h:118-200"]}
{"id": "C120", "title": "Correlation along an axis by 1D kernels", "statement": "Kernel1d::correlateAlong has the same outcomes as a pass of a separable kernel with the same values along the axis. For kernels which are not too long for the raster (C47), each pixel is the correlation, along this axis only, of the raster with zero extrapolation. For 2D images whose width is a value of the type of pixels, correlating along the first axis and then along the second one, or the converse, is equivalent to correlate2dTo.", "quantifier": "For all kernels, origins, axes, shapes and values", "why_tests_cant": "Tests compare both ways for a single constant image and a single kernel of ones, where axes, strides and kernel orientation are interchangeable.", "anchors": ["LitlTransforms/LitlTransforms/Convolution.h: correlateAlong", "LitlTransforms/LitlTransforms/Convolution.h: correlate2dTo", "LitlTransforms/LitlTransforms/SeparableKernel.h: correlateAlong"]}
{"id": "C121", "title": "Seeds of random noises", "statement": "Random noises which are constructed with different seeds (other than -1) do not draw the same sequence of values from their engines.", "quantifier": "For all seeds of 64 bits, and all clocks", "why_tests_cant": "There are 2^128 pairs of seeds, and engines have to be compared on all the values they draw.", "anchors": ["LitlContainer/LitlContainer/Random.h:117-118", "LitlContainer/LitlContainer/Random.h:140", "LitlContainer/LitlContainer/Random.h:306-310"]}
{"id": "C122", "title": "Bounding box of balls", "statement": "The bounding box of a ball whose radius is not negative is the smallest box which contains the positions of the ball, and the shape of the ball is that of its bounding box, whatever the dimension, fixed or variable.", "quantifier": "For all norms, radii, dimensions and centers of 64-bit coordinates", "why_tests_cant": "The radius is converted from double to Index, and bounds are computed on 64-bit integers: there are too many radii and centers, and undefined conversions and overflows generally go unnoticed.", "anchors": ["LitlRaster/LitlRaster/Ball.h:74-119", "LitlRaster/LitlRaster/Box.h:51-53"]}
{"id": "C123", "title": "Rasters with the custom holder of the documentation", "statement": "Rasters with the holder of the documentation, `MallocHolder`, which is given as a minimal class which meets the requirements on holders, are values like any other rasters: whatever the sequence of constructions, copies, moves, assignments, reads, writes and destructions, provided that there is enough memory, the behaviour is defined, elements have the values which were last written, copies are independent, and the memory is freed once there are no more rasters.", "quantifier": "all programs (sequences of operations on any number of rasters), element types and sizes", "why_tests_cant": "double frees and leaks depend on sequences of operations, and cannot be observed from results; the test constructs a single raster", "anchors": ["LitlDemo/tests/src/LitlDemoBasics_test.cpp: MallocHolder, MallocRaster", "LitlContainer/LitlContainer/ContiguousContainer.h: SizedData", "LitlContainer/LitlContainer/DataContainer.h: DataContainer", "LitlRaster/LitlRaster/Raster.h: Raster"]}
{"id": "C124", "title": "Sizes of rasters are those of their shapes, whatever the program", "statement": "Whatever the sequence of constructions, copies, moves, assignments, transfers to containers and destructions, the size of each raster is the number of its pixels according to its shape, such that loops over the domain are within the bounds of the data.", "quantifier": "all programs (sequences of operations on any number of rasters), dimensions (fixed or variable), owning holders, shapes and pixel values", "why_tests_cant": "the invariant is about all sequences of operations, and accesses out of bounds need not be observable", "anchors": ["LitlRaster/LitlRaster/Raster.h: Raster (constructors, copyable, movable)", "LitlContainer/LitlContainer/Holders.h: StdHolder, moveTo", "LitlRaster/LitlRaster/Vector.h: Vector"]}
{"id": "C125", "title": "Compound noises", "statement": "With the compound noise of the documentation (shot noise of the flux plus Gaussian noise whose mean and variance are the dark current), generating a new container from the flux and the dark current and applying the noise to the flux in place give the same values; for a given seed, whatever the clock, these values are the sum of what PoissonNoise of this seed makes of the flux, of the dark current, and of its square root times what GaussianNoise of this seed generates; changing the dark current of an element does not change the values of the others; changing the flux of an element does not change the values of the previous ones.", "quantifier": "all value types, engines, distributions, seeds other than -1, clocks, containers of any size, arguments which do not start before the result and overlap it, indices", "why_tests_cant": "Values are random and depend on the engine and on the whole history of draws: tests only print the results.", "anchors": ["LitlDemo/tests/src/LitlDemoRandom_test.cpp:38-71", "doc/random.dox:76-98", "LitlContainer/LitlContainer/Random.h:237-253", "LitlContainer/LitlContainer/DataContainer.h:187-214"]}
{"id": "C126", "title": "First and last elements, and loops over values", "statement": "The first and last elements of a raster or of a view with pixels, front() and back(), are the pixels at the first and last positions of its domain, and at(0) and at(-1). The loops over its values (begin() to end()) and over the positions of its domain visit the same pixels in the same order. emtpy() tells whether there are pixels, and if there are none, the loop over the values visits nothing. The sections of a raster follow each other in memory from begin() to end().", "quantifier": "for all dimensions, shapes, offsets in any buffer, and values", "why_tests_cant": "Tests read the ends of a few small containers; the agreement of value-wise and position-wise loops is relied upon for all shapes, views and sections, and the sizes are unsigned, such that the index of the last element of an empty container wraps.", "anchors": ["LitlContainer/LitlContainer/ContiguousContainer.h:95-192", "LitlContainer/LitlContainer/DataContainer.h:110-114", "LitlRaster/LitlRaster/impl/Raster.hpp:195-215"]}
{"id": "C127", "title": "Products of matrices", "statement": "a *= b replaces the square matrix a with the matrix product of a by b; in particular the identity is neutral.", "quantifier": "All sizes, and all pairs of square matrices over any commutative ring.", "why_tests_cant": "No test exists; a test on diagonal matrices, such as scalings, passes although the product is that of the elements.", "anchors": ["LitlRaster/LitlRaster/Matrix.h:27-33", "LitlContainer/LitlContainer/Arithmetic.h:15-26", "LitlContainer/LitlContainer/Arithmetic.h:168-188"]}
{"id": "C128", "title": "Affinities are about their center", "statement": "An affinity of center c which is scaled by f stands for the map of x to c + f (x - c).", "quantifier": "All dimensions, centers, factors and points.", "why_tests_cant": "No test exists, and a test about the origin, the default center, passes.", "anchors": ["LitlTransforms/LitlTransforms/Affinity.h:17-61"]}
{"id": "C129", "title": "The correlation benchmark completes for every side", "statement": "For every side which is at least 1, the correlation benchmark terminates normally, and its output is the raster of zeros of the input shape.", "quantifier": "All sides from 1 on for which the size of the 4D raster is representable, and all evaluation orders the compiler may choose.", "why_tests_cant": "The program is not tested. It is run with the default side of 100, where every access is in bounds; the accesses out of bounds for small sides need not crash, and depend on the evaluation order chosen by the compiler.", "anchors": ["LitlRun/src/program/LitlBenchmarkCorrelation.cpp:24-30", "LitlTransforms/LitlTransforms/SeparableKernel.h:72-76"]}
{"id": "C130", "title": "Copies of program options are independent", "statement": "A program which only uses living ProgramOptions objects is defined, and the options of each object are those which have been declared with it, or with the object it is copied or moved from before the copy.", "quantifier": "All sequences of constructions, copies, moves, destructions and declarations.", "why_tests_cant": "Tests declare the options of one object which is never copied; declarations with a copy go to the original, which only fails visibly when the original is destroyed or the copy parses.", "anchors": ["LitlRun/LitlRun/ProgramOptions.h:51-52", "LitlRun/LitlRun/ProgramOptions.h:58-106", "LitlRun/LitlRun/ProgramOptions.h:184-187"]}
{"id": "C131", "title": "Positional options in the order of declaration", "statement": "The positional tokens of a command line are given to the positional options in the order of their declaration, as many of them to each option as it accepts, and an exception is thrown if some remain.", "quantifier": "All lists of positional options with at most one of several tokens, all command lines.", "why_tests_cant": "Tests declare positional options of one token each.", "anchors": ["LitlRun/LitlRun/ProgramOptions.h:58-76", "LitlRun/LitlRun/ProgramOptions.h:125-130"]}
{"id": "C132", "title": "Getting a step fetches each value once", "statement": "get<S>() calls doGet() once for S, and once for each of its direct and indirect prerequisites.", "quantifier": "All graphs of steps, all states of the pipeline, all runs of get() which return and whose evaluations do not call get().", "why_tests_cant": "Tests have a few steps, for which doGet() is cheap and without side effect; the number of calls depends on the shape of the graph.", "anchors": ["LitlRun/LitlRun/StepperPipeline.h:82-103", "LitlRun/LitlRun/StepperPipeline.h:147-152", "LitlRun/LitlRun/StepperPipeline.h:181-189"]}
{"id": "C133", "title": "The total time of a pipeline is not more than the elapsed time", "statement": "The sum of the times of the steps of a pipeline is not more than the time which has elapsed since its construction, if the clock does not go backwards, whatever the steps whose values are got in the evaluation of other steps.", "quantifier": "All graphs of steps without cycle, all sequences of get() and reset(), failing or not, all times.", "why_tests_cant": "Tests of timings have steps which do not get the values of others in their evaluation; times depend on the clock.", "anchors": ["LitlRun/LitlRun/StepperPipeline.h:129-133", "LitlRun/LitlRun/StepperPipeline.h:181-189"]}
{"id": "C134", "title": "Pipelines can be shared by threads", "statement": "Whatever the steps which threads get on the same pipeline, there is no data race, and each step is evaluated at most once.", "quantifier": "All graphs of steps, all pipelines of which some steps have been evaluated, all numbers of threads, all sequences of calls of get(), all interleavings.", "why_tests_cant": "Tests are sequential, and a test with threads would only run a few interleavings; data races need not have visible effects.", "anchors": ["LitlRun/LitlRun/StepperPipeline.h:82-111", "LitlRun/LitlRun/StepperPipeline.h:147-152", "LitlRun/LitlRun/StepperPipeline.h:181-189"]}
