{
 "C01": {
  "note": "Division by a factor is proved for non-negative strides only (C01_div_partial); for negative strides the code's unsigned division is wrong, witness C01_div_neg_false."
 },
 "C02": {
  "note": "Equality implies set equality; the converse holds for length >= 2. For length 0 or 1 the code compares strides, witness C02_false."
 },
 "C03": {
  "note": "For non-empty domains. The empty contiguous domain starting at 0 is mishandled (last() wraps), witness C03_empty_false.",
  "partial": true
 },
 "C04": {
  "note": "apply_intr needs y contiguous, subset_from_intr needs intr to have dom's stride, as in all callers."
 },
 "C05": {
  "note": "1-D, 2-D and 3-D, all dimension orders."
 },
 "C06": {
  "note": "All extents, processor counts; wrap-free extents below 2^63."
 },
 "C12": {
  "note": "Non-empty unit-stride sub-domains. The empty sub-domain is mishandled (C12_empty_false) and the code's extent is not checked against the sub-domain (C12_extent_false)."
 },
 "C14": {
  "note": "For Map (one processor per subblock) and Replicated_map. put and get are executed by all processes; the broadcast delivers the root's value to all."
 },
 "C15": {
  "note": "Chained assignment between any two maps that partition the space into contiguous patches, every interleaving, eager and synchronous sends; instances for Map and Replicated_map. Partial: one chain unit per element. For interleaved complex data the claim is false (C15_complex_false). Sides are assumed not to share storage; 32-bit stride/length of Chain_builder::add not modelled."
 },
 "C16": {
  "note": "Message lists match pairwise, no self sends, no deadlock under either buffering behaviour, and every step decreases the remaining work."
 },
 "C17": {
  "note": "One dimension, one patch per subblock, unit data stride (the preconditions of the strategy)."
 },
 "C18": {
  "note": "Map and Replicated_map, 1-3 dimensions."
 },
 "C19": {
  "note": "False of the two-size constructor of aligned column-major layouts (pads the wrong dimension) and of aligned 2-D layouts with no rows (total size wraps)."
 },
 "C20": {
  "note": "False of the two-size constructor of aligned column-major layouts."
 },
 "C21": {
  "note": "Agreement fails for total_size of aligned 2-D layouts, for aligned_512 and for element types larger than a byte (bytes versus elements); the theorems state exactly which part agrees."
 },
 "C22": {
  "note": "Pointer arithmetic in unbounded integers; no_index slices of distributed views not modelled."
 },
 "C23": {
  "note": "Construction preconditions are hypotheses; the diagonal view checks none and C23_diag_unchecked_false shows what happens without."
 },
 "C24": {
  "note": "Permute_order is wrong for the two cyclic permutations (C24_permuted_false); C24_permuted_partial says exactly when it is right."
 },
 "C25": {
  "note": ""
 },
 "C26": {
  "note": "is_compatible of direct data access against dense and aligned layouts in 1-3 dimensions."
 },
 "C27": {
  "note": "Copy accessors: sync-in, sync-out, destruction and end-to-end effect; the remote accessor's buffer size defect is C27_remote_size_false."
 },
 "C28": {
  "note": "Matrix copy: the generic fallback and the same-pointer shortcut are refuted (C28_fallback_false, C28_same_ptr_false); partial theorems cover disjoint operands and the in-place square transpose."
 },
 "C29": {
  "note": "All nine loop nests, arbitrary expression trees including cached non-elementwise nodes."
 },
 "C30": {
  "note": ""
 },
 "C31": {
  "note": "Buffer copy is complete; chain-to-chain copy is false for empty records and empty chains (C31_empty_record_false, C31_no_record_false)."
 },
 "C32": {
  "note": "Exact integer streams over ZMod 2^32; conversions to floating point are C35."
 },
 "C33": {
  "note": "Main and second generators as linear congruential sequences; full period."
 },
 "C34": {
  "note": ""
 },
 "C35": {
  "note": "False of column-major destinations (C35_colmajor_false) and of the half-open range for float (C35_range_float_false); proved for row-major order and for double."
 },
 "C36": {
  "note": "Over any semiring; rounding not modelled."
 },
 "C37": {
  "note": ""
 },
 "C38": {
  "note": "Over any ring; rounding not modelled."
 },
 "C39": {
  "note": "Over any ordered field with floor; false for integer element types (C39_integer_false), which are proved when the range is a multiple of the number of intervals."
 },
 "C40": {
  "note": "One-axis swap along columns is false for non-square matrices (C40_axis_cols_false); empty vectors read element 0 (C40_empty_false)."
 },
 "C41": {
  "note": "1-D and 2-D, all supports, symmetries and decimations; the output size wraps when a symmetric kernel exceeds the input (C41_min_size_false).",
  "partial": true
 },
 "C42": {
  "note": "1-D and 2-D, all supports; the code conjugates the input, not the reference."
 },
 "C43": {
  "note": "2-D complete; 1-D same support divides by the wrong number at the end of the output for even reference sizes (C43_same_false)."
 },
 "C44": {
  "note": "Vectors and matrices of any size; count, stored indices in order, untouched rest."
 },
 "C45": {
  "note": "Least index at or after begin satisfying the predicate, or the size; begin when beyond the end."
 },
 "C46": {
  "note": "gather, scatter (last write wins, untouched elsewhere) and their inverse law; index type of any dimension."
 },
 "C47": {
  "note": "clip and invclip in all cases over a linear order; swap of vectors and of dense matrices of the same dimension order. False for matrices of different dimension order (linear one-index access is the storage offset): C47_swap_order_false."
 },
 "C48": {
  "note": "All functors, 1/2/3-D, all dimension orders. The branch for long single-precision vectors ignores the stride (C48_stride_false) and sums z*z instead of |z|^2 for complex meansqval (C48_meansq_complex_false); proved for unit stride / real. Rounding not modelled."
 },
 "C49": {
  "note": "All loop orders; first in traversal order; C49_empty_reads shows the read of element 0 of an empty view."
 },
 "C50": {
  "note": "gems, kron of vectors, dot, cvjdot complete. gemp and kron of matrices when the type of alpha holds the products: with a narrower alpha (int) the intermediate is truncated (C50_gemp_false, C50_kron_false). outer conjugates by the type of alpha: C50_outer_false for real alpha and v with complex w. Rounding not modelled."
 },
 "C51": {
  "note": "Vectors and matrices, both dimensions, separate and in place. Rounding not modelled."
 },
 "C52": {
  "note": "Any list of frames; exact arithmetic of the phase."
 },
 "C53": {
  "note": "Histories of any length from a user-storage constructor, over an explicit heap with allocation. The claim needs user storage: release(true) of a block without it, and admit(true) after a null pointer, fail (negations). Data are unspecified after a change of ownership without update.",
  "partial": true
 },
 "C54": {
  "note": "User and host formats (array, interleaved, split); any_storage_format not modelled (see DESIGN)."
 },
 "C55": {
  "note": "Host/device copies of one block. Partial: proved for histories that go through the access functions; false for at() writes, for user storage after admit, and for release (device not read back)."
 },
 "C56": {
  "note": "Intrusive and non-intrusive handles as histories of counted operations. Partial: counts stay below 2^32 and the four listed misuses are excluded; each is shown to fail."
 },
 "C57": {
  "note": "Partial: proved for calls that run one at a time (no MPI, any number of sessions), and for every interleaving while one thread holds an object (with or without MPI). False for the first/last two objects made or destroyed concurrently, for a second session under MPI, and the default allocator is not finalised without MPI."
 },
 "C58": {
  "note": "Free list modelled as words in the pool, with program stores. Partial: proved for histories in which a block is given back only while some byte above it is free, and only next to a free block of its own size on its lower side. False otherwise: joining downwards counts the wrong size; giving back above the last free block drops the list or follows program data; requests near 2^64 wrap."
 },
 "C59": {
  "note": "align_array pointer arithmetic, aligned_allocator and the owning array class. The allocator theorems carry the size hypotheses the code needs; without them the three _false theorems give a request whose size wraps, a count whose byte size wraps, and an alignment that is not a power of two.",
  "partial": true
 },
 "C60": {
  "note": "Partial: descriptors of integral types compare no dimensions and 3-D acceptance does not look at the middle stride; both are refuted with witnesses. Proved: type codes, acceptance exactly when written with the same layout in 1-D and 2-D, and every writer's own descriptor is accepted. Own descriptors: the storage size is exact (C60_storage); describe_data of a strided view records too small a storage size (C60_storage_false)."
 },
 "C61": {
  "note": "All overloads over exact real/complex numbers and a memory of addressed cells: complex 1-D in and out of place, real forward and inverse with half spectra, 2-D and 3-D, lines of dftm; each is the discrete Fourier transform of the specification (sum over roots of unity), scaled as asked, and writes nothing outside its result. Round trips proved. Split-complex modelled in 1-D; for larger split arrays only the offset arithmetic: offset() takes int, proved right below 2^31 and refuted above.",
  "partial": true
 },
 "C62": {
  "note": "Toeplitz solver over a star field: if no division by zero occurs and no decomposition error is raised, the returned x solves T x = b for n >= 2; positive definite systems never divide by zero. Refuted: n = 1 reads an empty view; a zero diagonal divides by zero without being reported.",
  "partial": true
 },
 "C63": {
  "note": "Both evaluation strategies, both dimension orders, matrix distinct or in place; local products under has_same_map equal the part of the global product held there, on the right processors. Refuted: a short vector is read past its end (no size check), the documented case-2 mapping is rejected for column vectors, and a vector that is a row of the destination is overwritten while needed.",
  "partial": true
 },
 "C64": {
  "note": "BLAS by its definition (argument checks, elements read and written), evaluators and wrappers modelled. Proved for views with adjacent minor elements and positive strides fitting an int: gemp, prod (mm, mv, vm), outer real and complex, dot and dotc (either stride sign), with frame conditions. Refuted: result views with non-unit minor stride, submatrices in mv/vm/outer (sizes passed as leading dimension), reversed operands, empty inner dimensions, complex<double> dot through float, sizes of 2^32.",
  "partial": true
 },
 "C65": {
  "note": "LAPACK factorisations are parameters with their documented contract; trsm, getrs, potrs, mqr by definition. Proved: LU success iff invertible, op(A)X=B for all ops; Cholesky both triangles; rsol, covsol, lsqsol with normal equations and minimal residual (RCLike); prodq with the full Q and two of the four products with the skinny Q. Refuted: skinny Q1*B and B*Q1^H read outside of the temporary; rank deficiency and singular matrices are not reported by solve.",
  "partial": true
 },
 "C66": {
  "note": "Real and complex numbers, exact <cmath>; the FFT by its definition. Proved: Blackman values, symmetry, range; Hanning below 2^32 elements; Bessel iteration ends and is right to 1e-8 beyond 3, polynomial right to 2e-4 up to 3; Kaiser ends, symmetric, within 2e-4 of the definition; cheby is the Dolph-Chebyshev window for every length and ripple, never divides by zero. Refuted: hanning with 2^32 elements or more never ends; bessel_I_0 is off by 1.8e-4 at 3 where 1.6e-7 is claimed (coefficients of J_0).",
  "partial": true
 },
 "C67": {
  "note": "FFTW is any executor that keeps what its manual promises (structure Lib, shown inhabited); exact complex numbers; interleaved storage. Proved below 2^31 elements: all transforms of fft (1 to 3 dimensions, any axis) and fftm, in and out of place, with scaling, input preserved, buffers large enough, alignment promises kept; exchanging real and imaginary parts gives the inverse. Refuted: sizes and strides are narrowed to int; split inverse transforms break FFTW's separation rule; aligned split rows are not aligned with an alignment of 16.",
  "partial": true
 },
 "C68": {
  "note": "gebrd, orgbr/ungbr and bdsqr are assumed to do what LAPACK documents; exact real or complex numbers; sizes below 2^31. Proved for all sizes and storage kinds: decomposition, products, columns. Refuted: the check of u and v by value is off by one; failure to converge aborts instead of being reported.",
  "partial": true
 },
 "C69": {
  "note": "Sizes and local sizes for all domains; programs of any length over views with caches. Refuted: domains keep first index and stride; is_power_of_two narrows to 32 bits; distributed real Fftm by reference is always rejected; results are computed at the first look instead of at the call and copies may differ; x = fft(x) runs the out of place transform in place (exact error for the default transform).",
  "partial": true
 },
 "C70": {
  "note": "Slices of vectors for all starts, stops, steps and chains of slices; matrices with columns in order; rows, columns and diagonals of matrices at the start of their storage; assignment to slices without shared elements; components one by one; arrays; first(). Refuted: zero step, steps near 2^64, slices of reversed matrices, rows, columns and diagonals of submatrices, rows out of range, ref on strided vectors, overlapping slice assignment, components as a whole, arrays outliving their block, zero as initial value, size of empty matrices, printing empty vectors."
 },
 "C71": {
  "note": "Even sizes, any echo and buffers: spectrum, grid, indices, image; the variants agree for square sizes; greatest error of numeric images. Refuted: odd numbers of pulses leave an element unset; the shifted reference (freqswap along columns) accesses outside for tall and stays unset for wide sizes; pixels that are not numbers are not reported. Exact arithmetic."
 },
 "C72": {
  "note": "Files with the format first, any chunks of even size before the data, whole frames; reading what was written; bounds for arbitrary bytes. Refuted: odd chunks, chunks before the format, incomplete frames, sample sizes not whole bytes, missing data (does not end), short files, the RIFF size, more than four channels, sizes from 2^32, byte order, 16 bit samples written twice."
 },
 "C73": {
  "note": "Images up to 2^32 bytes, written in every shape, read if square; data sets of any number of dimensions; wrong sizes throw; handles of objects that are not copied; grey levels in exact arithmetic. Refuted: reading other shapes, images over 2^32 bytes, samples of 16 bits, query_extent of more dimensions, status of H5Dread, copies of dataset, type handles, ranges over 2^120."
 },
 "C74": {
  "note": "Proved for strides that are not negative, interleaved storage or stride 1, outputs not shorter than the corrected part and successful decompositions; refuted for reversed and empty views, split storage, real transforms, algorithm hints, few outputs, copies of solvers, statuses and products with Q."
 },
 "C75": {
  "note": "Any nesting, sizes and strides, exact arithmetic; a matrix inside of a further product may overlap the result. Refuted: overlap with an argument that is read late, results of a narrower type, sizes of prodh, prodj, prodt, prod3, prod4."
 },
 "C76": {
  "note": "Promotion, expressions (also fused), three-argument functions, ite, jmul, comparisons and bnot are proved for the types of the promotion table when values fit; fusion is proved value-preserving, overflow included, for one unwidened type under any idempotent rounding. Refuted: char, unsigned and long double promotions, fusion of narrow and mixed types, ite of unlisted types, jmul with a narrower first argument, the type of minmg, mixed-sign comparisons, bnot of bool."
 },
 "C77": {
  "note": "Sliding sums are proved to be the window sums for all gates, all reads in range; the three detection versions are proved to list the same cells, which are the right ones where the window is not cut; the filter bank by expression and all fast convolutions are proved to be circular convolutions (convolution theorem), equal to the filter output from value K-1 on. Refuted: counts of cut windows (missed targets and false alarms), bins not a multiple of four, more targets than room, different filters in ImplFast, first values, more coefficients than points, the zero replica."
 },
 "C78": {
  "note": "Comparison is proved over every ordered field; bitwise assignment and polar conversion by an invariant of loops that write in place; iterators with wrapping arithmetic; counts against costs of formulas; printing by unique decomposition of texts. Refuted: zero without absolute tolerance, complex numbers by parts, m ^= m.transpose(), v ^= v(0), overlapping polar conversion, distances backwards with steps other than one, postfix increment, counts of transposed products and running sums, instants by default, time stamp counters through float, rows of tensors printed without separators."
 },
 "C79": {
  "note": "An invariant of the network with messages of several statements under way gives determinism and progress; each statement (local, distributed, parallel expression with copies of the operands) is shown to be such a stage and to assign the values of the right-hand side; induction over the program. Refuted: index functions assigned to arrays replicated over some of the processes, the check against mixing local and distributed data."
 },
 "C80": {
  "note": "Simulation between a machine with counted blocks, derived blocks held by value, expression blocks and element proxies, and a specification in which a view is a table of references; induction over programs. Refuted: overlapping operands, tensors scaled by their own elements, stored expressions, references into temporaries, exchange of elements, sizes of operands, distribution and constness of converted copies, ranges of tensor access."
 },
 "C81": {
  "note": "Processes as request programs over MPI types given by displacement lists; a time order of starts and waits gives progress from every reachable state, by induction over schedules; any number of calls; proved for all six methods. Refuted: the check of Impl_alltoall (square matrices only), local copies of processes with different positions in the two sets, rotated receives when the number of senders does not divide 2^64."
 },
 "C82": {
  "note": "Option texts round-trip through the parser (decimal numbers by induction); the calibration ends because the loop count strictly grows below 2^64; the steady state converges by a factor 10 per pass; sweep times bounded by an invariant over the rows. Refuted: -ms divides by 100, missing value of the last option, sizes that wrap or are shifted by 32, zero times, -lat prints the greatest as least, -samples 0, the linear progression measures for about half the goal."
 },
 "C83": {
  "note": "Handles refine a semantics by references alone (invariant: count = references, by induction over programs, for all classes of handles). Extensions proved equal to an inductive splitting in words. Access proved equal to a machine with block and buffer only. Refuted: devices are not retained when copied, null kernels, programs and devices end the program when destroyed, buffer assignment does not return, callbacks to destroyed variables, texts over 1023 characters, sync of copied blocks, ignored layout and byte size of buffer access, Python kernels without buffers and empty data."
 },
 "C84": {
  "note": "Resampling proved over any semiring on the model of Fir (C36) with a polyphase decomposition; responses, modulation and linear phase over the reals; correlation from the transforms; the delay estimate from a strict bound on the overlap and the model of maxval (C49). Refuted: the rounded output length beyond 2^24, the points of freqz (0 to 2 pi, not pi), odd numbers of samples (spectrum and magnitudes not all set), delays of more than half of the time (unsigned difference)."
 },
 "C85": {
  "note": "Groups by a denotation independent of the MPI functions, both directions; tasks by one global sequence of collective calls whose parts are the calls of the processes, from which matching and absence of deadlock in every interleaving follow. Refuted: exclude of an empty range, MPI_UNDEFINED from translate_ranks, local_processor_index with a default-constructed communicator, calls and tasks with a null communicator, maps used in a task (reference to the default communicator), the cached processor_set, logical instead of bitwise reductions of int, unsupported datatypes, counts beyond int."
 },
 "C86": {
  "note": "Packings are stated as promises about pointer and strides (adjacent lines, contiguous elements, lines on a boundary), independent of the library's tests. Refuted: aligned_512, aligned, boundaries beyond that of the allocator, aligned split data, the layout type of direct access, size(0) of a copied line, parts as one line, size() with run-time layouts, storage_size() of padded blocks, Python slices declared dense."
 },
 "C87": {
  "note": "Checked and unchecked builds are both covered: the theorems quantify over whether assertions are kept. Refuted: buffers of another format in run-time accessors, the reported format, allocate() twice or over a buffer, deallocate() on a buffer, destruction after deallocate(), failed resizes and constructions, retrying a failed resize, get and put by index, null pairs, constant pointers as pairs, unknown formats."
 },
 "C88": {
  "note": "Values and counts hold whether or not the traversal reaches an operation, since the first element evaluates it. Refuted: that the traversal reaches every node (it stops at const types and at diagonals), that a kept expression keeps its meaning, that copies share an evaluation made later, that overlapping elementwise reads are safe."
 },
 "C89": {
  "note": "The positive theorems cover the types and shapes the modules are compiled for. Refuted: the modules of bool and int, conversion of views whose module is not loaded, functions left out of the exports, elementwise functions of views of unequal sizes, mixed element types, matrix-vector functions, reductions with an axis, solvers, Fourier transforms, complex results, the parallel functions, casts."
 },
 "C90": {
  "note": "Proved for `Map` and `Replicated_map`, for assignments with transposed sides and for local views of partial views. Refuted: patch_from_global_index (returns the subblock), whole-index conversion and replicated or partial views on processors without data, conversions of transposed, partial and local views, maps of sub-domains of transposed matrices, of permuted tensors and of diagonals, local views of partial views of partial views."
 },
 "C91": {
  "note": "Values of all calls that compile, which calls compile, sums where the types agree and assignment are proved. Refuted: adaptable objects without explicit result type for unary and ternary, the element type of unary results (nested calls do not compile, sums are converted to the argument's type), mixing vectors and expressions."
 },
 "C92": {
  "note": "FFTs, multiple FFTs on axes 0 and 1, FIR filters, ranges and calls are proved for all arguments. Refuted: convolution (no kernel is passed, every construction fails), correlation (arguments in another order), IIR filters (views instead of blocks, numerators and denominators exchanged), other directions and axes, min_zeropad, wrong sizes in calls, enumerations as numbers, resetting FIR filters."
 },
 "C93": {
  "note": "Reading, sending, constructing, receiving into data reached directly, the choice between direct access and copy, and the test for processors are proved for all sequences. Refuted: what is written or received never reaches a block that must be copied (for example real and imaginary parts), messages under way that share data with a directly reached destination, comparison and long distances of iterators over vectors."
 },
 "C94": {
  "note": "Interpolation between and beyond the samples, running integrals (exact for straight lines), pulses and the constant sweep of chirps are proved over the rationals. Refuted: interpolation below the first sample and without samples, the inverted distribution (one step too low, negative for small samples), the rate of chirps (twice, downwards), conversion of negative sine samples, the noise length for long arrays, grids of odd numbers of processors."
 },
 "C95": {
  "note": "The block-based product, the bounds of the interpolation, the choice by type, the circular convolution by padding, even mirrored spectra and the documented solutions are proved. Refuted: the weights and the end of the fused interpolation, the pointer-based product for anything but four columns without gaps, power-of-two sizes 0 and multiples of 2^32, zero padding of the kernel, long kernels, odd mirrored spectra, the equation of the QR example."
 },
 "C96": {
  "note": "Products, kernels, sizes, convolutions of kernels up to one element more than the input, correlations, transforms, and what the distance and the precision loop give are proved, and that library and reference agree. Refuted: outer products of a real and a complex vector and the scale of unbiased correlations with same support (both as in the library), longer kernels, transforms to more precision, relative distances of small vectors, the distance 0 dB of a negated vector, the lowest bit of precision, independence and range of random data, grids using all processors."
 },
 "C97": {
  "note": "Processor sets, the check of the FIR benchmark when the decimation divides the samples before the last call, the values of STREAM and exactly when its check passes, operations and elements of products, checks on processors with all rows, SIMD stores for multiples of the vector size and maxima up to 2^24 elements are proved. Refuted: all processors but the first (always out of bounds), the pipeline on one processor, other decimations, blocks with stride 0, 33 loops of STREAM with float, 8 with int, integer relative errors, operations of large products, elements written, the check of products along columns on several processors, SIMD stores for other sizes, the maximum of 2^26 elements."
 },
 "C98": {
  "note": "Conformance, product conformance, equivalence, soundness of equality, shifts and that they respect equality are proved for all domains; sizes, completeness of equality, products and quotients within bounds. Refuted: the size of a domain of 2^32 by 2^32, equality of empty domains of different shapes, products and quotients of equal domains."
 },
 "C99": {
  "note": "Vertices, extents, total sizes (modulo 2^64, equal to the sizes of domains), orders, comparison of pointers of one type and the byte order of little-endian processors are proved. Refuted: the refusal of dimensions by vertices of one coordinate, pointers of different types, and big-endian processors, for which the header does not compile."
 },
 "C100": {
  "note": "Construction, shapes, owners, local indices within the shape, domains of subblocks of vectors, and the refusal of tuples of the wrong length are proved. Refuted: negative sizes are taken modulo 2^64, domains of subblocks of matrices and tensors raise TypeError, local indices outside the shape are not refused (or divide by zero), and indices outside the shape or maps not applied end the interpreter."
 },
 "C101": {
  "note": "Sizes for references of at least two elements not longer than the input, operations with minimal support, placement of blocks, and up to 127 huge pages are proved. Refuted: references of one element are written past their end, longer references ask for almost 2^64 outputs, operations with full and equal support are overstated for every reference of two or more, and 128 pages overflow int."
 },
 "C102": {
  "note": "Variants 4 and 6 to 10 are proved for all sizes, variants 3 and 5 for matrices with rows, variant 2 for matrices with rows whose second is real. Refuted: variant 2 multiplies complex matrices with the conjugate of the second; variants 2, 3 and 5 ask for row 0 of matrices without rows; reported memory is too large by the number of rows, bytes read too few, and none written."
 },
 "C103": {
  "note": "Sizes are proved for coefficients that fit into the input; the check is proved to accept correct results with full support always, with equal support for two or three rows and columns, with minimal support for three by three. Refuted: coefficients larger than the input ask for almost 2^64 rows, and correct results for other sizes are reported as errors."
 },
 "C104": {
  "note": "Proved for both classes, all their modes and any number of calls, for vectors below 2^31 elements. Refuted for larger ones: sizes are converted to int, so that of 2^32 + r elements only r are transferred. Modes outside the tables use a data type that was never set."
 }
}