{"id": "C01", "title": "A one-dimensional domain denotes exactly its arithmetic progression, and domain arithmetic acts on that set", "statement": "Domain<1>(first,stride,length) denotes the indices first, first+stride, ..., first+(length-1)*stride in that order; operator+ / operator- with an offset shift every index by the offset, and operator* / operator/ with a factor multiply / divide the step between consecutive indices while keeping the first index and the length; a domain built from in-range arguments is never reported invalid.", "quantifier": "for every first index, every signed stride, every length and every offset or factor, as long as the exact result is representable", "why_tests_cant": "strides may be negative and the element type of an index is unsigned, so the code computes through modular 64-bit arithmetic; samples cannot exclude a wrong wrap-around", "anchors": ["src/vsip/domain.hpp: Domain<1>, impl_nth, impl_last, impl_add_in, impl_sub_out, impl_mul_by, impl_div_by"]}
{"id": "C02", "title": "Domain equality is set equality", "statement": "Two domains compare equal exactly when they contain the same indices (a domain and its reversal are equal).", "quantifier": "for every pair of valid domains", "why_tests_cant": "equality is decided from three numbers while the claim is about sets of arbitrary size; degenerate lengths are easily missed", "anchors": ["src/vsip/domain.hpp: Domain<1>::impl_equals, operator== (l.458-461)"]}
{"id": "C03", "title": "Intersecting a contiguous domain with another domain yields exactly the common indices", "statement": "intersect(a,b,out), for a of unit stride and b of positive stride, returns true and sets out to a domain containing exactly the indices common to a and b when there are any, and returns false when there are none; in two and three dimensions it does this per dimension.", "quantifier": "for every pair of domains of one, two or three dimensions with unit stride on the left and positive stride on the right", "why_tests_cant": "the claim quantifies over unbounded first/stride/length combinations and the code has separate branches with rounding", "anchors": ["src/ovxx/domain_utils.hpp: intersect"]}
{"id": "C04", "title": "Re-basing an intersection onto another domain keeps element correspondence", "statement": "If intr is the part of a contiguous domain y that is needed, apply_intr(x,y,intr) selects in x exactly the positions that correspond to the positions of intr in y, in the same order; for intr a run of consecutive members of dom, subset_from_intr(dom,intr) gives, for every k, the position in dom at which the k-th index of intr lies.", "quantifier": "for every domain x, every contiguous y of equal length and every non-empty sub-domain intr of y; for every dom of positive stride and every non-empty run intr of it with the same stride", "why_tests_cant": "holds for every sub-range of every domain; wrong offsets only show for particular strides and starts", "anchors": ["src/ovxx/domain_utils.hpp: apply_intr, subset_from_intr"]}
{"id": "C05", "title": "Multi-dimensional index traversal visits every index exactly once, in dimension order", "statement": "Starting from the zero index, repeatedly calling next<Order> while valid() holds produces every index of the extent exactly once, in the lexicographic order given by the dimension order (last order dimension fastest), and then stops being valid.", "quantifier": "for every extent (including empty dimensions) of one, two or three dimensions and each dimension order", "why_tests_cant": "a claim about a complete run of an unbounded loop for every extent", "anchors": ["src/ovxx/domain_utils.hpp: next, valid"]}
{"id": "C06", "title": "Block distribution partitions the index range", "statement": "For a block distribution of n indices over p subblocks the subblock domains are contiguous, in order, pairwise disjoint and together cover 0..n-1 exactly; subblock_from_index names the subblock whose domain contains the index; local and global indices convert into each other without loss.", "quantifier": "for every n, every p > 0 and every index", "why_tests_cant": "n and p are unbounded and the interesting cases (n < p, n not divisible by p) are number theoretic", "anchors": ["src/vsip/impl/dist.hpp: Block_dist", "src/ovxx/parallel/dist_utils.hpp: segment_size, segment_start"]}
{"id": "C07", "title": "Block-cyclic distribution partitions the index range into patches", "statement": "For a cyclic distribution of n indices over p subblocks with contiguity c, every index lies in exactly one patch of exactly one subblock: the one named by subblock_from_index and patch_from_index; patch sizes agree with the subblock size, and local/global index conversion are inverse to each other.", "quantifier": "for every n, p > 0, c > 0 and every index", "why_tests_cant": "partial last chunks, empty subblocks and wrap-around of chunks are an infinite family of cases", "anchors": ["src/vsip/impl/dist.hpp: Cyclic_dist", "src/ovxx/parallel/dist_utils.hpp: segment_size, segment_chunks, segment_chunk_size"]}
{"id": "C08", "title": "Block distribution is balanced", "statement": "The number of indices held by any two subblocks of a block distribution differs by at most one, sizes are non-increasing in the subblock number, and the sizes add up to the number of indices.", "quantifier": "for every number of indices and every number of subblocks", "why_tests_cant": "quantifies over all sizes and processor counts", "anchors": ["src/ovxx/parallel/dist_utils.hpp: segment_size"]}
{"id": "C09", "title": "Every element of a mapped array has exactly one home", "statement": "For a Map<D0,D1,D2> applied to an extent, each global index belongs to exactly one patch of exactly one subblock; subblock_from_global_index, patch_from_global_index, local_from_global_index, global_from_local_index, subblock_domain, global_domain and local_domain all agree on that home.", "quantifier": "for every combination of whole/block/cyclic distributions in up to three dimensions, every extent and every index", "why_tests_cant": "combines several unbounded parameters per dimension with row-major subblock numbering", "anchors": ["src/vsip/map.hpp: Map, split_tuple, impl_subblock_from_global_index, impl_patch_from_global_index, impl_local_from_global_index, impl_global_from_local_index, impl_subblock_domain, impl_global_domain, impl_local_domain"]}
{"id": "C10", "title": "Subblocks and processors are matched one to one", "statement": "subblock(pr) and the processor list of a subblock are inverse to each other: each subblock of a map is held by exactly one of the map's processors, and a processor that holds no subblock is told so (no_subblock).", "quantifier": "for every processor set of distinct processors and every number of subblocks not larger than the set", "why_tests_cant": "must hold for every processor numbering and every subblock count", "anchors": ["src/vsip/map.hpp: subblock, impl_rank_from_proc, processor_begin, processor_end", "src/vsip/impl/replicated_map.hpp"]}
{"id": "C11", "title": "Slicing a distributed array slices its map", "statement": "Fixing one (or two) indices of a distributed matrix or tensor gives a view whose map puts each element on the processor and at the position where the parent's map puts it.", "quantifier": "for every map, every fixed index, every remaining index", "why_tests_cant": "requires the row-major subblock arithmetic to be right for every number of subblocks per dimension and every slice", "anchors": ["src/ovxx/parallel/map_utils.hpp: map_project_1, map_project_2"]}
{"id": "C12", "title": "A subview of a distributed array keeps its elements where they are", "statement": "Taking a sub-domain of a distributed array produces a map under which every element of the sub-domain is held by the same processor as in the parent, at the local position given by the parent-local domain; no element is lost or duplicated.", "quantifier": "for every parent map with whole or block distributions, every sub-domain", "why_tests_cant": "quantifies over all sub-domains crossing an arbitrary number of subblock borders", "anchors": ["src/ovxx/parallel/subset_map_decl.hpp: subset_map"]}
{"id": "C13", "title": "Equal maps distribute equally", "statement": "If two maps compare equal (operator==, or map_equal for an applied map), then every subblock is held by the same processors and has the same global domain under both, so a purely local element-wise copy implements the distributed assignment.", "quantifier": "for every pair of maps and every extent", "why_tests_cant": "equality compares a handful of parameters while the conclusion is about all indices", "anchors": ["src/vsip/map.hpp: operator==, map_equiv, map_equal", "src/ovxx/parallel/assign.hpp"]}
{"id": "C14", "title": "A distributed block behaves like one shared array", "statement": "After any sequence of put operations executed by all processes, get(i) returns on every process the value of the last put to i (or the initial value).", "quantifier": "for every map, every extent, every history of put and get operations and every process", "why_tests_cant": "quantifies over histories and process counts", "anchors": ["src/ovxx/parallel/distributed_block.hpp: get, put"]}
{"id": "C15", "title": "Distributed assignment delivers every element", "statement": "After lhs = rhs between two arrays with arbitrary (possibly different) maps, each process finds, for every global index it holds of lhs, the value rhs had at that index before the assignment.", "quantifier": "for every pair of maps over any process sets with single-or-multiple patches, every extent and every content", "why_tests_cant": "the number of map pairs is infinite and the communication lists are computed independently on each process", "anchors": ["src/ovxx/parallel/assign_chain.hpp: build_send_list, build_recv_list, build_copy_list, exec"]}
{"id": "C16", "title": "Distributed assignment communicates consistently", "statement": "For each ordered pair of processes the sequence of messages one sends equals, in number, order and element sequence, the sequence the other expects; no process sends to itself; hence with in-order point-to-point channels the exchange completes under every schedule.", "quantifier": "for every pair of maps, every process count and every interleaving of the processes", "why_tests_cant": "a property of all schedules; deadlocks and mismatches only show for particular map pairs and timings", "anchors": ["src/ovxx/parallel/assign_chain.hpp: build_send_list, build_recv_list, exec_send_list, exec_recv_list"]}
{"id": "C17", "title": "One-dimensional distributed assignment by offset messages delivers every element", "statement": "The vector-only transfer strategy (offset/length messages between single-patch maps) leaves in each element of lhs the value of the same element of rhs.", "quantifier": "for every pair of single-patch one-dimensional maps and every length", "why_tests_cant": "unbounded sizes and processor counts; boundary fragments appear only for particular size/processor combinations", "anchors": ["src/ovxx/parallel/assign_block_vector.hpp"]}
{"id": "C18", "title": "foreach_point touches every locally held element exactly once with its true global index", "statement": "foreach_point applies the function once to every element the process holds, passing the global index at which that element lives; over all processes each element of a non-replicated array is visited exactly once.", "quantifier": "for every map, extent and process", "why_tests_cant": "nested loops over patches and indices for unbounded extents", "anchors": ["src/ovxx/parallel/util.hpp: foreach_patch, foreach_point"]}
{"id": "C19", "title": "Every memory layout is injective and in bounds", "statement": "For dense, unit-stride, and aligned layouts in every dimension order, distinct in-range indices have distinct offsets and each offset is smaller than the layout's total size; dense layouts use every offset.", "quantifier": "for every extent, every dimension order and every in-range index", "why_tests_cant": "pairs of indices in unbounded extents; a single colliding pair corrupts data silently", "anchors": ["src/ovxx/layout.hpp: Applied_layout::index, total_size, stride, size"]}
{"id": "C20", "title": "Aligned layouts start every line on the alignment boundary", "statement": "In an aligned layout each line along the fastest dimension starts at an offset that is a multiple of the alignment, its stride is the least such multiple that is at least the line length, and this does not depend on which constructor was used.", "quantifier": "for every extent, every alignment and both dimension orders", "why_tests_cant": "holds for all sizes; wrong rounding shows only for sizes not divisible by the alignment", "anchors": ["src/ovxx/layout.hpp: Applied_layout for aligned packings"]}
{"id": "C21", "title": "Run-time layouts agree with compile-time layouts", "statement": "A layout object configured at run time (Rt_layout) computes for each index the same offset, strides and total size as the compile-time layout with the same dimension order, packing and alignment.", "quantifier": "for every extent, order, packing, alignment and index", "why_tests_cant": "two independent implementations must agree on unbounded inputs", "anchors": ["src/ovxx/layout.hpp: Applied_layout<Rt_layout<D>>, Applied_layout<Layout<...>>"]}
{"id": "C22", "title": "Direct data access through any stack of subviews reaches the same elements as get and put", "statement": "For any view obtained from stored data by composing subsetting, slicing, transposition, permutation and diagonal views (and real/imag parts), the address base + sum of stride(d)*index(d) reported for direct data access is the address of the element that get/put with that index access.", "quantifier": "for every composition (of any depth) of view operators, every underlying layout and every index", "why_tests_cant": "compositions of arbitrary depth", "anchors": ["src/ovxx/expr/subset.hpp", "src/ovxx/expr/sliced.hpp", "src/ovxx/expr/transposed.hpp", "src/ovxx/expr/permuted.hpp", "src/ovxx/expr/diag.hpp", "src/ovxx/expr/component.hpp"]}
{"id": "C23", "title": "Writing through a subview changes exactly one element of the parent", "statement": "put(i,v) through any stack of subviews changes only one element of the underlying array: a following get(i) through the same view returns v, and get of any other index through the view is unchanged; in-range view indices always reach in-range parent elements.", "quantifier": "for every composition of view operators whose construction preconditions hold, every index and value", "why_tests_cant": "needs injectivity and bounds for view stacks of any depth", "anchors": ["src/ovxx/expr/subset.hpp", "src/ovxx/expr/sliced.hpp", "src/ovxx/expr/transposed.hpp", "src/ovxx/expr/permuted.hpp", "src/ovxx/expr/diag.hpp"]}
{"id": "C24", "title": "The dimension order attributed to a view is the memory order of its data", "statement": "The dimension order a transposed, permuted or sliced view of dense data reports (and that algorithms use to pick the fastest dimension) lists the dimensions from largest to smallest stride.", "quantifier": "for every dimension order of the parent and every permutation or slice", "why_tests_cant": "a type-level computation over all orders and permutations that no run of one program exercises", "anchors": ["src/ovxx/expr/permuted.hpp: Permute_order", "src/ovxx/expr/transposed.hpp: Transpose_order", "src/ovxx/expr/sliced.hpp: Sliced_order"]}
{"id": "C25", "title": "Real and imaginary views are independent lenses", "statement": "Writing the real (imaginary) part view of a complex array changes the real (imaginary) part of that element only; reading both parts and recombining gives the element back.", "quantifier": "for every array, index, value and history of such writes", "why_tests_cant": "a law over all histories and both storage formats", "anchors": ["src/ovxx/expr/component.hpp", "src/ovxx/storage/traits.hpp"]}
{"id": "C26", "title": "Direct data access honours the requested layout", "statement": "When direct access is granted without a copy for a requested dense layout, the elements of the block really lie at the offsets of that dense layout.", "quantifier": "for every block extent, strides and requested dimension order", "why_tests_cant": "must hold for all size/stride combinations, including dimensions of size 0 or 1", "anchors": ["src/ovxx/dda/accessor.hpp: is_compatible"]}
{"id": "C27", "title": "Direct data access by copy synchronises correctly", "statement": "With copy access, the buffer equals the block's contents after sync-in, and after the accessor is destroyed (or sync_out is called) a block accessed for output holds exactly the buffer's contents, while a block accessed for input only is unchanged.", "quantifier": "for every block, layout, sync policy and buffer modification history", "why_tests_cant": "histories of reads and writes between sync points", "anchors": ["src/ovxx/dda/accessor.hpp: Accessor", "src/ovxx/dda/block_copy.hpp"]}
{"id": "C28", "title": "Matrix copy and transposition strategies all equal element-wise assignment", "statement": "Whichever strategy matrix assignment picks (memory copy, strided copy, in-place or out-of-place transposition), afterwards lhs(i,j) equals the former rhs(i,j) for all i, j, and no other memory is changed.", "quantifier": "for all sizes, strides and both dimension orders of each side", "why_tests_cant": "unbounded sizes/strides with several hand-written fast paths", "anchors": ["src/ovxx/assign/copy.hpp"]}
{"id": "C29", "title": "Element-wise expression assignment computes each element from the old operands", "statement": "Assigning an expression tree of unary, binary and ternary element-wise operations to a view stores at each index the value of the expression at that index; if lhs appears in the expression only at the same index, the result is still computed from the old values.", "quantifier": "for every expression tree, every size and traversal order", "why_tests_cant": "trees of any depth and loops of any length, aliasing included", "anchors": ["src/ovxx/assign/loop_fusion.hpp", "src/ovxx/expr/unary.hpp", "src/ovxx/expr/binary.hpp", "src/ovxx/expr/ternary.hpp"]}
{"id": "C30", "title": "Backend dispatch runs the first applicable backend and none other", "statement": "An operation is executed by the first backend of the list that accepts the operation at compile time and run time; if no backend accepts, an error is raised and nothing is executed.", "quantifier": "for every list of backends and every validity predicate", "why_tests_cant": "quantifies over all backend lists and validity outcomes", "anchors": ["src/ovxx/dispatcher/dispatcher.hpp: Dispatcher"]}
{"id": "C31", "title": "Packing and unpacking strided records are inverse", "statement": "Copying a chain of strided records into a buffer packs its elements in record order; copying between two chains of equal total size moves the k-th element of the source to the k-th position of the destination whatever the record boundaries; nothing else is written.", "quantifier": "for all chains of records with any starts, strides and lengths", "why_tests_cant": "record boundaries of the two chains interleave arbitrarily", "anchors": ["src/ovxx/parallel/copy_chain.cpp", "src/ovxx/parallel/copy_chain.hpp"]}
{"id": "C32", "title": "Parallel random streams interleave to the sequential stream", "statement": "With the non-portable generator, the k streams with ids 1..k obtained from the same seed yield, interleaved, the sequence of the single-stream generator: value j of stream id is value id-1+j*k (suitably offset) of the sequential stream.", "quantifier": "for every seed, every number of streams k > 0, every id and every position", "why_tests_cant": "infinite sequences and arbitrary k", "anchors": ["src/vsip/random.hpp: Rand_base"]}
{"id": "C33", "title": "Generator states do not repeat before the full period", "statement": "The linear congruential generators used have full period 2^32: starting at any seed all 2^32 states are visited before one repeats.", "quantifier": "for every seed", "why_tests_cant": "a test would have to run 2^32 steps for each of 2^32 seeds", "anchors": ["src/vsip/random.hpp: Rand_base constants"]}
{"id": "C34", "title": "Portable streams start where the documented skip places them", "statement": "With the portable generator, stream id starts exactly (2^32-1)/k*(id-1) steps into the seed's sequence.", "quantifier": "for every seed, number of streams and id", "why_tests_cant": "the skip count is of the order of 2^32 and is computed by a binary shortcut", "anchors": ["src/vsip/random.hpp: Rand_base (portable skip-ahead)"]}
{"id": "C35", "title": "Filling a view with random numbers equals drawing them one at a time", "statement": "randu/randn on a vector, matrix or tensor of given size produce the same numbers, in the element order, as the same number of scalar draws, and leave the generator in the same state; uniform numbers lie in [0,1).", "quantifier": "for every generator state and every size", "why_tests_cant": "infinitely many generator states; bounds must hold for each 32-bit state", "anchors": ["src/vsip/random.hpp: Rand::randu, randn"]}
{"id": "C36", "title": "FIR filtering is independent of how the input is cut into frames", "statement": "With state saving enabled, filtering a signal frame by frame and concatenating the outputs gives the decimated convolution of the whole signal with the kernel: y[j] = sum_k h[k]*x[j*d-k].", "quantifier": "for every kernel, symmetry, decimation, and input", "why_tests_cant": "the frame count is unbounded and the decimation phase carries over between frames", "anchors": ["src/ovxx/signal/fir.hpp", "src/vsip/impl/signal/fir.hpp"]}
{"id": "C37", "title": "FIR filtering without state saving is memoryless", "statement": "With state saving disabled, each call's output depends only on that call's input, as if the filter were new; reset() restores the initial state.", "quantifier": "for every kernel, decimation and history of calls", "why_tests_cant": "quantifies over call histories", "anchors": ["src/ovxx/signal/fir.hpp", "src/vsip/impl/signal/fir.hpp"]}
{"id": "C38", "title": "IIR filtering is independent of how the input is cut into frames", "statement": "With state saving, filtering consecutive frames gives the same as filtering their concatenation, and each second-order section realises its difference equation; the cascade is the composition of the sections.", "quantifier": "for every set of coefficients, every input and every cut", "why_tests_cant": "recursive filters have unbounded memory", "anchors": ["src/vsip/impl/signal/iir.hpp"]}
{"id": "C39", "title": "Histogram counts every input exactly once in the documented bin", "statement": "A histogram call adds one to exactly one bin for every input value: bin 0 for values below the minimum, the last bin for values at or above the maximum, and otherwise the bin of the interval containing the value; with accumulation counts add up over calls.", "quantifier": "for every range, number of bins, input and call history", "why_tests_cant": "must hold for each value and each range, including integer element types", "anchors": ["src/vsip/impl/signal/histo.hpp"]}
{"id": "C40", "title": "Frequency swap is the half rotation", "statement": "freqswap moves element (i + ceil(M/2)) mod M to i in each dimension, and works equally when source and destination are the same array; applied twice to even-sized data it is the identity.", "quantifier": "for every size (even and odd) and both dimensions", "why_tests_cant": "in-place cyclic permutation must be right for all sizes", "anchors": ["src/ovxx/signal/freqswap.hpp", "src/vsip/impl/signal/freqswap.hpp"]}
{"id": "C41", "title": "Convolution output equals the mathematical convolution for each support", "statement": "For full, same and minimum support, output n is the decimated convolution sum of the (symmetry-expanded) kernel with the zero-extended input; the number of outputs equals the documented output size and no out-of-range input is read.", "quantifier": "for all kernel lengths, input lengths, decimations and supports", "why_tests_cant": "index bounds of three loops per support vary with unbounded sizes", "anchors": ["src/ovxx/signal/conv.hpp"]}
{"id": "C42", "title": "Correlation output equals the mathematical correlation for each support", "statement": "For full, same and minimum support, output n is the sum of reference*conj(input) over the overlapping range, and no out-of-range element is read.", "quantifier": "for all sizes and supports", "why_tests_cant": "loop bounds depend on unbounded sizes", "anchors": ["src/ovxx/signal/corr.hpp"]}
{"id": "C43", "title": "Unbiased correlation divides by the number of overlapping terms", "statement": "With unbiased scaling each output is divided by the number of products that contribute to it.", "quantifier": "for all sizes, supports and outputs", "why_tests_cant": "off-by-one in the tail appears only for particular parities", "anchors": ["src/ovxx/signal/corr.hpp: corr_full, corr_same, corr_min"]}
{"id": "C44", "title": "indexbool reports all true positions in order", "statement": "indexbool returns the number of true elements and stores the indices of the first size() of them, in traversal order, leaving further entries of the index view untouched.", "quantifier": "for every source and every capacity of the index view", "why_tests_cant": "all sources and capacities", "anchors": ["src/vsip/selgen.hpp: indexbool"]}
{"id": "C45", "title": "first finds the least index from the start position", "statement": "first(begin,p,v,w) returns the least index >= begin satisfying the predicate, or the size when there is none (or begin when begin is beyond the end).", "quantifier": "for all vectors, predicates and start positions", "why_tests_cant": "quantifies over all inputs", "anchors": ["src/vsip/selgen.hpp: first"]}
{"id": "C46", "title": "gather and scatter are inverse on distinct indices", "statement": "gather returns the selected values in order; scatter stores them so that gathering with the same distinct indices returns the source and elements at other positions are untouched; with repeated indices the last write wins.", "quantifier": "for all index lists and sources", "why_tests_cant": "all permutations and repetitions of indices", "anchors": ["src/vsip/selgen.hpp: gather, scatter"]}
{"id": "C47", "title": "clip and invclip follow their case distinction; swap exchanges contents", "statement": "clip replaces values at or below the lower threshold and at or above the upper threshold by the clip values and keeps the others; invclip replaces exactly the values in the closed band; swap exchanges the contents of two disjoint views; a ramp starts with its first value and each element is the one before plus the increment.", "quantifier": "for all values, thresholds and sizes", "why_tests_cant": "all orderings of value and thresholds, including inverted thresholds", "anchors": ["src/vsip/selgen.hpp: clip, invclip, swap"]}
{"id": "C48", "title": "Reductions compute their mathematical definition over all elements exactly once", "statement": "sumval, sumsqval, meanval, meansqval, alltrue, anytrue and their boolean/bitwise variants equal the mathematical value over all elements of the view, whatever its size, stride or dimension order.", "quantifier": "for all views", "why_tests_cant": "special paths for large sizes and strided views", "anchors": ["src/ovxx/reductions/reductions.hpp", "src/ovxx/reductions/functors.hpp"]}
{"id": "C49", "title": "Extremum searches return an extremal value and where it is", "statement": "maxval/minval/maxmgval/minmgval(view, idx) return a value no other element exceeds and an index at which the view has that value, the first such in traversal order.", "quantifier": "for all non-empty views over a total order", "why_tests_cant": "all inputs, ties included", "anchors": ["src/ovxx/reductions/reductions_idx.hpp"]}
{"id": "C50", "title": "Generalized matrix operations satisfy their defining equations", "statement": "gemp stores alpha*op(A)*op(B)+beta*C, gems stores alpha*op(A)+beta*C, outer gives alpha*v*w^H, kron the Kronecker product, each element exactly once.", "quantifier": "for all sizes, operand transformations and contents without aliasing", "why_tests_cant": "all sizes; index arithmetic of the Kronecker product covers every cell exactly once", "anchors": ["src/vsip/impl/matvec.hpp: gemp, gems, outer, kron"]}
{"id": "C51", "title": "cumsum yields prefix sums, also in place", "statement": "cumsum stores at each position the sum of the inputs up to and including it along the chosen dimension, also when input and output are the same view.", "quantifier": "for all sizes and contents", "why_tests_cant": "all sizes, aliasing", "anchors": ["src/vsip/impl/matvec.hpp: cumsum"]}
{"id": "C52", "title": "modulate is continuous across frames", "statement": "Modulating a signal frame by frame, passing the phase returned by one call to the next, gives the same as modulating the whole signal at once.", "quantifier": "for all signals, frame cuts, frequencies and start phases", "why_tests_cant": "any number of frames", "anchors": ["src/vsip/impl/matvec.hpp: modulate"]}
{"id": "C53", "title": "User storage admit/release protocol preserves data", "statement": "After admit(true) the block shows the user's data; after release(true) the user's buffers hold what the block showed; data written while released (user side) or admitted (block side) is never lost; release without a preceding admit changes nothing.", "quantifier": "for every history of admit, release, rebind, put and user-side writes and every user format", "why_tests_cant": "a property of operation histories", "anchors": ["src/ovxx/storage/manager.hpp: admit, release, rebind, find", "src/ovxx/storage/user.hpp"]}
{"id": "C54", "title": "Complex storage formats round-trip", "statement": "Converting an array between interleaved, split and array-of-complex user formats and back gives the original values; element i of each format is independent of the others.", "quantifier": "for all arrays and all format pairs", "why_tests_cant": "all lengths and formats", "anchors": ["src/ovxx/storage/traits.hpp", "src/ovxx/storage/user.hpp"]}
{"id": "C55", "title": "Host and device copies stay coherent", "statement": "A read of the block on host or device always sees the most recent write made through the block's interface on either side.", "quantifier": "for every history of host and device accesses", "why_tests_cant": "histories; staleness appears only for particular interleavings of accesses", "anchors": ["src/ovxx/storage/manager.hpp", "src/ovxx/opencl/storage.hpp"]}
{"id": "C56", "title": "Reference-counted blocks live exactly as long as they are referenced", "statement": "Under any sequence of creating, copying, assigning, resetting and destroying reference-counted handles, an object is destroyed exactly once, when its last handle goes away, and never accessed afterwards.", "quantifier": "for every history of handle operations, including self-assignment and null handles", "why_tests_cant": "histories of arbitrary length and aliasing", "anchors": ["src/ovxx/refcounted.hpp"]}
{"id": "C57", "title": "Library initialisation is balanced", "statement": "With any number of vsipl objects created and destroyed in any nesting (and from several threads) global set-up happens exactly once before first use and tear-down exactly once after the last one is gone.", "quantifier": "for every history and thread interleaving", "why_tests_cant": "interleavings", "anchors": ["src/ovxx/library.cpp: initialize, finalize", "src/vsip/initfin.hpp"]}
{"id": "C58", "title": "The pool allocator never hands out overlapping memory", "statement": "Blocks returned by the huge-page allocator and not yet released are pairwise disjoint and inside the pool; releasing makes the memory reusable and the reported available amount is the amount of free memory.", "quantifier": "for every history of allocations and deallocations", "why_tests_cant": "allocation histories", "anchors": ["src/ovxx/huge_page_allocator.cpp: allocate, deallocate"]}
{"id": "C59", "title": "Aligned allocation returns aligned, recoverable blocks inside the underlying allocation", "statement": "alloc_align returns an address that is a multiple of the alignment, whose requested size lies inside the memory obtained, and from which free_align recovers the original address.", "quantifier": "for every power-of-two alignment of at least the pointer size, size and base address", "why_tests_cant": "all base addresses", "anchors": ["src/ovxx/aligned_allocator.hpp", "src/ovxx/allocator.cpp: alloc_align, free_align"]}
{"id": "C60", "title": "Serialization descriptors accepted as compatible describe exactly the block's memory", "statement": "If is_compatible accepts a descriptor for a dense block type, interpreting the described memory through the descriptor's sizes and strides gives the same elements as rebinding the block to it; a block's own descriptor is accepted by its type.", "quantifier": "for every descriptor and block type", "why_tests_cant": "all sizes/strides/type codes", "anchors": ["src/vsip/serialization.hpp: is_compatible, describe_user_storage"]}
{"id": "C61", "title": "Forward and inverse DFT are inverse up to scaling, in place and out of place", "statement": "The default DFT backend computes X[w] = sum_k x[k] exp(-+2*pi*i*k*w/N); inverse after forward gives N*x; the real transforms use exactly N/2+1 coefficients and reconstruct the real signal; 2-D transforms are row transforms followed by column transforms.", "quantifier": "for all N > 0 and all inputs", "why_tests_cant": "all sizes; exact arithmetic identity", "anchors": ["src/ovxx/signal/fft/dft.hpp"]}
{"id": "C62", "title": "The Toeplitz solver solves its system", "statement": "If toepsol returns without error, the returned x satisfies T x = b for the Hermitian Toeplitz matrix T given by its first row.", "quantifier": "for all sizes and all inputs in exact arithmetic", "why_tests_cant": "recursion over unbounded size", "anchors": ["src/vsip/impl/solver/toepsol.hpp"]}
{"id": "C63", "title": "vmmul multiplies along the chosen dimension whatever the evaluation strategy", "statement": "vmmul<row>(v,m)(i,j) = v(j)*m(i,j) and vmmul<col>(v,m)(i,j) = v(i)*m(i,j), both element-wise and via the row/column-wise reduced evaluation.", "quantifier": "for all sizes, dimension orders", "why_tests_cant": "all sizes", "anchors": ["src/vsip/impl/vmmul.hpp", "src/ovxx/expr/vmmul.hpp"]}
{"id": "C64", "title": "Products evaluated with the BLAS are the products of the views", "statement": "For every product, outer product, dot product and gemp that the BLAS back end accepts (ct_valid, rt_valid), the elements of the result view are the mathematically defined values of the operand views and nothing outside the result view is written.", "quantifier": "for all sizes, strides, orders and values", "why_tests_cant": "all strides and orders of subviews; sizes above int", "anchors": ["src/ovxx/lapack/blas.hpp: Evaluator<op::dot|outer|prod|gemp, be::blas, ...>, dot, dotc, gemv, gemm, ger"]}
{"id": "C65", "title": "The LU, Cholesky and QR solvers return solutions", "statement": "Given LAPACK factorisations that satisfy their documentation, lud::solve, chold::solve, qrd::rsol/covsol/lsqsol/prodq, covsol and llsqsol return the solutions (least-squares solutions, products with Q) of the systems they were given, or report failure.", "quantifier": "for all sizes, operations, sides, Q storage kinds, right hand sides and matrices", "why_tests_cant": "all matrices and shapes; rank-deficient and skinny cases", "anchors": ["src/ovxx/lapack/lu.hpp", "src/ovxx/lapack/cholesky.hpp", "src/ovxx/lapack/qr.hpp", "src/vsip/impl/solver/covsol.hpp", "src/vsip/impl/solver/llsqsol.hpp", "src/vsip/impl/solver/qr.hpp"]}
{"id": "C66", "title": "Window functions have the values of their definitions", "statement": "blackman, hanning, kaiser and cheby end for every length above one, write every element once, and return a symmetric window with the values of its definition (Dolph-Chebyshev for cheby, ratio of modified Bessel functions for kaiser, to the accuracy the code claims).", "quantifier": "for all lengths above one, all beta and ripple", "why_tests_cant": "all lengths, in particular those of 2^32 and more; real-number accuracy over an interval; division by the sum of a spectrum which has to be nonzero for every length", "anchors": ["src/ovxx/signal/window.cpp: blackman, hanning, bessel_I_0, kaiser, acosh, cheby"]}
{"id": "C67", "title": "Transforms computed through FFTW are the transforms of the blocks they are given", "statement": "Given an FFTW that keeps its documented promises, every fft and fftm of the FFTW back end (complex and real, forward and inverse, in and out of place, 1 to 3 dimensions, along any axis) leaves in its output block the scaled discrete Fourier transform of its input block, whatever the layouts of the blocks, leaves the input block alone, copies into buffers that are large enough, and executes plans only on arrays FFTW allows for that plan.", "quantifier": "for all sizes, alignments, block layouts, axes, numbers of lines and scales, and every FFTW that keeps its promises", "why_tests_cant": "all layouts, alignments and axes; sizes beyond 2^31; requirements of FFTW that only some CPUs and plans depend on", "anchors": ["src/ovxx/fftw/fft.cpp: turn, rigor, make_flags", "src/ovxx/fftw/fftw.cpp: planner, fft, fftm", "src/ovxx/signal/fft/workspace.hpp l.398-545", "src/ovxx/dda/accessor.hpp l.118-194, 619-700", "src/ovxx/aligned_array.hpp: array_cast"]}
{"id": "C68", "title": "Singular value decompositions, their products and their columns", "statement": "For every matrix of any size and every choice of storage, decompose leaves the singular values in decreasing order and the asked columns of unitary U and V with A = U S V^H; produ and prodv multiply by U, V or their conjugate transposes from either side; u and v return the asked range of columns; requests that the object cannot meet are rejected, and failure to converge is reported.", "quantifier": "for all matrices, sizes, storage kinds, sides, column ranges, and every LAPACK that keeps its documentation", "why_tests_cant": "all shapes times nine storage combinations; non-convergence cannot be provoked easily; ranges at the boundary", "anchors": ["src/ovxx/lapack/svd.hpp", "src/vsip/impl/solver/svd.hpp"]}
{"id": "C69", "title": "Transforms by value: sizes, late evaluation and assignment", "statement": "input_size and output_size have first index 0, stride 1 and n/2+1 elements along the axis on the complex side of real transforms; transforms of distributed matrices with whole lines are computed with the right local sizes; the view returned by an Fft or Fftm by value has the values of the transform at the time of the call, and assigning it to any view, also to the argument itself, stores them.", "quantifier": "for all domains, axes, kinds of transforms, programs that create, copy, look at and assign results and write to memory, and all layouts", "why_tests_cant": "depends on the order of calls, changes of arguments and first looks; results are evaluated late and cached; aliasing of argument and destination", "anchors": ["src/ovxx/signal/fft/util.hpp: is_power_of_two, io_size", "src/ovxx/signal/fft.hpp: Interface, Fft, Fftm", "src/ovxx/signal/fft/functor.hpp", "src/ovxx/expr/unary.hpp l.79-157", "src/ovxx/assign/rbo.hpp"]}
{"id": "C70", "title": "Python front end: slices, rows, columns, arrays, copies", "statement": "Slicing a Python vector or matrix selects exactly the elements the Python slice selects, in its order, also of views that are slices themselves; rows, columns, diagonals and references name the elements of the view they are taken of; out of range indices and zero steps raise exceptions; assigning to a slice stores the values the right hand side had before; component views read and write the components of the block, one by one and as a whole; NumPy arrays made of blocks keep the storage alive; initial values, sizes, printing and first() do as documented.", "quantifier": "for all slices (start, stop, step present or absent, any sign), sizes, chains of slices, storage contents and programs that create and drop arrays and blocks", "why_tests_cant": "the tests slice contiguous views with small positive steps; the errors are in views of views, reversed views, empty slices, zero values and object lifetimes", "anchors": ["src/ovxx/python/block.hpp: Block", "python/src/block_api.hpp", "python/src/vector.py", "python/src/matrix.py", "python/src/_block.py", "python/src/selgen/selection.py"]}
{"id": "C71", "title": "Radar benchmark: spotlighting, interpolation, image, comparison", "statement": "Digital spotlighting gives the spectrum the centred transforms define, whatever the buffers held; the grid covers all wavenumbers with room for the interpolation, whose indices are the nearest lines and in bounds; the image is the magnitude of the centred inverse transform of the interpolated spectrum; the variant for graphics processors gives the same image; the comparison reports the greatest error of all pixels and reports pixels that are not numbers.", "quantifier": "for all echoes, sizes, wavenumbers, references and prior contents of storage", "why_tests_cant": "the benchmark is run on one data set with even sizes; merged shifts, changes of sign and the index range of the interpolation hold by arithmetic over all sizes, and uninitialised storage often holds zeros", "anchors": ["share/apps/ssar/kernel1.hpp: Kernel1_base, Kernel1", "share/apps/ssar/diffview.cpp"]}
{"id": "C72", "title": "Wave files: reading, writing, byte order", "statement": "The decoder returns format and data of every wave file as RIFF defines it and never leaves its structures or the buffer whose size it returned; it reports files without data or with too little; what the encoder writes is a RIFF file and is read again with the same information, on hosts of either byte order.", "quantifier": "for all formats, chunk lists, sizes, sample data, byte sequences and both byte orders", "why_tests_cant": "the examples read back two files they wrote themselves, on x86, with whole frames and no other chunks; the errors need odd chunks, other chunk orders, incomplete frames, truncated files or another byte order", "anchors": ["share/examples/audio/wav.hpp: Decoder, Encoder", "src/ovxx/byteswap.hpp: byteswap"]}
{"id": "C73", "title": "Images and data sets in files", "statement": "PNG images of every shape, depth and size are written and read with each element in its place and its value; HDF5 data sets keep elements and sizes, and wrong sizes, types and failures are reported; handles are closed exactly once; grey levels are within 0 and 255 and keep order.", "quantifier": "for all image sizes and formats, dimensions of data sets, storage contents, programs that create, copy and drop data sets, and values", "why_tests_cant": "no test reads a PNG file; data sets are written and read once with matching types; shapes, sizes from 2^32, copies and failures are not exercised", "anchors": ["src/ovxx/io/png.hpp: decoder, encoder", "src/ovxx/io/hdf5.hpp: dataset, file", "share/apps/ssar/viewtopng.cpp: convert_to_greyscale"]}
{"id": "C74", "title": "C-VSIPL back end passes data, options and results faithfully", "statement": "The back end that calls a C-VSIPL library binds each view to storage that contains all of its elements and no more, destroys each object once, passes options with their meaning, reads and writes the elements of the views given to products, filters and transforms, computes the outputs of convolutions that it corrects itself, and reports solutions and failures of solvers as the library does.", "quantifier": "All offsets, strides, sizes, orders of dimensions, storage formats, transforms, kernels, decimations, sequences of copies of block wrappers, operations and libraries that meet their contract.", "why_tests_cant": "The faults appear only with reversed, split or strided data, empty views, real transforms, decimated symmetric kernels, copies of solvers or failed decompositions, which the tests do not combine; sizes and strides are unbounded.", "anchors": ["src/ovxx/cvsip/view.hpp:506-866", "src/ovxx/cvsip/block.hpp:242-297", "src/ovxx/cvsip/common.hpp:35-100", "src/ovxx/cvsip/matvec.hpp:178-397", "src/ovxx/cvsip/fir.hpp:195-205", "src/ovxx/cvsip/fft.cpp:148-595", "src/ovxx/cvsip/conv.hpp:243-339", "src/ovxx/cvsip/lu.hpp:32-92", "src/ovxx/cvsip/cholesky.hpp:34-92", "src/ovxx/cvsip/qr.hpp:41-179"]}
{"id": "C75", "title": "Products of matrices and vectors in expressions", "statement": "prod, prodj, prodh and prodt of matrices and vectors, nested and combined with transposition and elementwise functions, give the sums that define them for the values before the assignment, change nothing else, accept exactly arguments of agreeing sizes, and do not depend on the type or place of the result.", "quantifier": "for all expressions of products, transpositions and elementwise functions over stored matrices of all sizes, strides and memory contents, and all results apart from the arguments that are read late", "why_tests_cant": "tests assign to new matrices of the same type with agreeing sizes; which arguments may overlap the result depends on the nesting, which is unbounded", "anchors": ["src/vsip/impl/matvec_prod.hpp: Evaluator<op::prod>, Product_base, prod, prodh, prodj, prodt, prod3, prod4", "src/ovxx/expr/binary.hpp: Binary<Operation, LBlock, RBlock, false>", "src/ovxx/assign/rbo.hpp"]}
{"id": "C76", "title": "Elementwise operators and functions have the widest type and the value written", "statement": "For element types and expressions of views and scalars: the type of a result is the wider of the operand types whatever their order; the value of a sum, difference, product, quotient, am, ma, msb, sbm, expoavg, ite, jmul, comparison, logical or bitwise function is the mathematical one whenever all values fit; and fusing A*B+C into one block changes neither type nor value.", "quantifier": "all pairs and triples of arithmetic element types, all expression trees, all element values, all roundings of the floating types", "why_tests_cant": "the test programs use float, double and complex operands of equal or listed types; the promotion table is a finite table of pairs but expressions nest without bound and element values range over whole types; missing table rows only show up for type pairs no test instantiates", "anchors": ["src/vsip/impl/promotion.hpp:18-62", "src/ovxx/expr/operations.hpp:42-84", "src/ovxx/view/operators.hpp:35-148", "src/ovxx/view/fns_elementwise.hpp:106-138", "src/ovxx/view/fns_elementwise.hpp:253-265", "src/ovxx/view/fns_elementwise.hpp:428-465", "src/ovxx/math/scalar.hpp:40-42", "src/ovxx/math/scalar.hpp:99-113", "src/ovxx/math/scalar.hpp:215-217", "src/ovxx/math/scalar.hpp:327-381", "src/ovxx/math/scalar.hpp:433-459"]}
{"id": "C77", "title": "Detection, filter bank and fast convolution kernels compute what they are named for", "statement": "For every cube, window and guard size: each version of the detection kernel compares every cell with the mean of exactly the cells in its window and lists the cells that exceed the threshold, in order, reading and writing inside of its arrays; for every bank of filters each version gives the outputs of those filters; and every version of fast convolution gives the circular convolution of each row with the replica.", "quantifier": "all cube sizes and contents, all numbers of cells and guard cells with 2(c+g) < gates, all numbers of rows, points and coefficients, all complex data", "why_tests_cant": "the benchmarks run on fixed sizes with random noise and strong targets, use the same filter for all rows, compare with the expected values only in the middle of the rows, and time the convolutions on zeros; the sliding sums are right only by an invariant over all gates", "anchors": ["benchmarks/hpec_kernel/cfar.cpp:74-347", "benchmarks/hpec_kernel/cfar.cpp:387-558", "benchmarks/hpec_kernel/cfar.cpp:689-742", "benchmarks/hpec_kernel/firbank.cpp:190-375", "benchmarks/fastconv.cpp:46-624", "benchmarks/fastconv.cpp:740-943"]}
{"id": "C78", "title": "Comparison, bitwise assignment, polar conversion, iterators, counts, clock and printing do what their callers rely on", "statement": "For all values: equal is the stated tolerance test, symmetric and reflexive, and compares views by sizes and all elements; v op= w replaces every element by op of the old values; recttopolar gives modulus and argument of the old elements; processor iterators visit each value once and their differences undo their moves; operation counts equal the costs of the formulas; instants order and subtract as time does; printed text determines the elements.", "quantifier": "all ordered fields, tolerances, sizes, addresses and contents, all iterators and moves, all instants, all texts", "why_tests_cant": "these helpers are what the tests themselves use to compare and to time; overlaps, negative distances, transposed counts, counters after minutes and ambiguous text occur in no test", "anchors": ["src/ovxx/equal.hpp:24-116", "src/vsip/impl/vector.hpp:100-135", "src/vsip/matrix.hpp:304-350", "src/vsip/complex.hpp:43-57", "src/ovxx/value_iterator.hpp:16-80", "src/ovxx/ops_count.hpp:23-293", "src/ovxx/chrono.hpp:29-119", "src/ovxx/output.hpp:76-119"]}
{"id": "C79", "title": "A program of statements on distributed arrays computes what one process with all the data would", "statement": "For every sequence of element-wise assignments between arrays with arbitrary maps, run by all processes without barriers under any interleaving: the processes never deadlock, and at the end each process holds for each of its elements the value that one process with all the data would have computed, nothing else having changed; assignments that mix local and distributed data are rejected and all others accepted.", "quantifier": "all process sets, maps, layouts, expressions of arrays, scalars and index functions, statement lists, interleavings, buffering of messages, initial contents", "why_tests_cant": "messages of later statements can overtake slow processes; the number of interleavings, maps and programs is unbounded and tests run a few programs on a few processes", "anchors": ["src/ovxx/assign.hpp:28-80", "src/ovxx/parallel/assign.hpp:24-97", "src/ovxx/parallel/assign_fwd.hpp:28-39", "src/ovxx/parallel/expr.hpp:36-343", "src/ovxx/parallel/map_subset_block.hpp:19-81", "src/ovxx/expr/binary.hpp:26-40", "src/ovxx/expr/ternary.hpp:27-43", "src/vsip/impl/map.hpp:1120-1208"]}
{"id": "C80", "title": "Programs of views behave as if a view were a table of array elements", "statement": "For every sequence of statements that make arrays, copies of views, subviews, unevaluated expressions, deep copies and references to elements, assign through them, and destroy views in any order: every statement reads and writes the elements its view designates, all right-hand-side elements being read before the first is written; a block stays allocated exactly while something designates it and is released after the last use; indices outside the sizes are rejected by every access alike; a converted copy has the distribution and constness of its source.", "quantifier": "all programs of such statements of any length, all dimensions and sizes, all chains of subviews (subset, row, transposed, diagonal, permuted), all element operations", "why_tests_cant": "programs and chains of views are unbounded; errors in counting or aliasing show only for particular orders of destruction and particular overlaps", "anchors": ["src/vsip/impl/vector.hpp:46-231", "src/vsip/matrix.hpp:40-260", "src/vsip/tensor.hpp:70-507", "src/ovxx/view/utils.hpp:82-86", "src/ovxx/element_proxy.hpp:19-147", "src/ovxx/block_traits.hpp:134-191", "src/ovxx/expr/binary.hpp:56-128"]}
{"id": "C81", "title": "The corner-turn programs move every element without deadlock", "statement": "For each of the six corner-turn methods of the MPI benchmark: whenever the constructor accepts a matrix distributed by rows over the senders and by columns over the receivers, then however the processes are interleaved and however often the turn is repeated, no process deadlocks or touches memory outside its buffers, and each receiver ends with exactly its columns of the matrix, stored by rows or by columns; every matrix whose sizes are multiples of the numbers of processes is accepted.", "quantifier": "all numbers of processes, all sets of senders and receivers, all matrix sizes divisible by them, all values, all interleavings, all numbers of calls, all orders of requests", "why_tests_cant": "numbers of processes, sizes and interleavings are unbounded; the rotated order of requests goes wrong only for numbers of processes that are not powers of two, the local copy only for overlapping sets in different order", "anchors": ["benchmarks/mpi/alltoall.cpp:62-210", "benchmarks/mpi/alltoall.cpp:327-453", "benchmarks/mpi/alltoall.cpp:645-740", "benchmarks/mpi/alltoall.cpp:843-902", "benchmarks/mpi/alltoall.cpp:1005-1098", "benchmarks/mpi/alltoall.cpp:1198-1470"]}
{"id": "C82", "title": "The benchmark driver measures the sizes and times it says", "statement": "The driver of the benchmarks reads every command line into the settings it describes; measures exactly the sizes of the progression; its calibration ends for all measured times, and with calls of constant time finds the number of calls that takes the goal; a measurement without end settles on that number; every row of a sweep comes from its own consecutive calls, with the median, least and greatest speed; and every row is measured for about the goal.", "quantifier": "all command lines of options with int values, all settings, all functors with arbitrary times per call, all numbers of samples and sizes", "why_tests_cant": "the timings are not reproducible and the settings unbounded; the wrong unit of -ms, the wrapped sizes and the half goal of the linear progression give plausible output", "anchors": ["benchmarks/main.cpp:40-172", "benchmarks/loop.hpp:77-156", "benchmarks/loop.hpp:163-239", "benchmarks/loop.hpp:243-418", "benchmarks/loop.hpp:421-507"]}
{"id": "C83", "title": "The OpenCL classes count references, return texts and move data as they should", "statement": "Every right program with OpenCL handles is never undefined, each object is counted once for each reference and lives as long as it is referred to; the default context and queue are created once; the extensions are the words of the runtime's text; when an access ends the block has the value that block and buffer alone would give it; elements are found at the offsets of the requested layout; Python passes buffers to kernels in order and reads back what it wrote.", "quantifier": "all programs over any number of variables and objects (constructors, copies, assignments, destructors, C calls), all texts, all sequences of kernels and synchronisations under every policy, all layouts and sizes", "why_tests_cant": "wrong counts show only after the right sequence of copies and destructions, and only on runtimes that count devices; the missing return statement and the dead callback variable often work by chance", "anchors": ["src/ovxx/opencl/context.hpp:20-97", "src/ovxx/opencl/device.hpp:22-100", "src/ovxx/opencl/kernel.hpp:26-100", "src/ovxx/opencl/buffer.hpp:20-36", "src/ovxx/opencl/dda.hpp:58-112", "python/src/opencl/cl.cpp:53-118"]}
{"id": "C84", "title": "The signal processing examples resample, filter and find delays as described", "statement": "All three resampling methods give the values of upsampling, filtering and downsampling; windowed coefficients, modulation and responses are those of their definitions, and filtering a tone multiplies it by the response; the filter class convolves circularly with the size last configured; the matched filter gives the correlations with the shifted references, never above the bound of the energies, and the simulation finds the delay put in.", "quantifier": "all rates, lengths, signals and coefficients; all windows and frequencies; all sequences of reconfigurations and calls; all numbers of samples and frequencies, durations, chirp rates, amplitudes and delays", "why_tests_cant": "the examples run with one set of constants and print or compare a single result; the failures need odd lengths, long delays or more than 2^24 samples", "anchors": ["share/examples/dsp/resample.cpp:52-152", "share/examples/dsp/fir_window.hpp:59-73", "share/examples/dsp/freqz.hpp:63-100", "share/examples/signal/filter.cpp:79-180", "share/examples/radar/matched_filter.cpp:54-326"]}
{"id": "C85", "title": "Groups, communicators and tasks confine work to the processes chosen", "statement": "Computations with process groups give the processes denoted in the order denoted; the own rank and index are the position in the communicator; splitting groups processes by color and orders them by key; nested tasks run without error or deadlock, every process makes exactly the calls of the tasks it was chosen for together with the other chosen ones, communicators are freed once and the default communicator is restored; maps and processor sets follow the communicator they were made with; reductions and broadcasts over processes give the values of the library's reductions and the data of the root.", "quantifier": "all numbers of processes, all expressions of groups, all colors and keys, all programs of nested tasks, all interleavings of collective calls, all values and lengths", "why_tests_cant": "the one example uses two flat tasks and prints; interleavings, empty ranges, preallocated maps inside tasks and lengths beyond int never occur in tests", "anchors": ["src/ovxx/mpi/group.hpp:26-154", "src/ovxx/mpi/communicator.hpp:27-214", "src/ovxx/mpi/communicator.cpp:28-77", "src/ovxx/mpi/service.cpp:70-105", "share/examples/parallel/task.cpp:51-109", "src/vsip/map.hpp:98-144", "src/vsip/impl/parallel.hpp:20-39"]}
{"id": "C86", "title": "Data access delivers the layout asked for, directly where the view's declared layout allows it and by copying otherwise", "statement": "The layout every stack of view blocks declares (dimensions, order, packing, format) is true of the pointer and strides it hands out; for every view and every requested layout, the access chosen at compile time and by is_compatible at run time delivers the packing, order, format and sizes asked for; direct access leads to the elements the view reads, costs nothing and needs no buffer; a copy has its elements at places of their own inside a buffer of the required size.", "quantifier": "all stacks of views, all sizes and strides, all dimension orders, all requested layouts, all addresses", "why_tests_cant": "the choice depends on types, strides and addresses together; tests try a few layouts of fresh blocks, whose addresses happen to be well aligned, and no 512-byte boundaries, split rows or Python slices", "anchors": ["src/ovxx/adjust_layout.hpp:24-148", "src/ovxx/dda/accessor.hpp:44-115", "src/ovxx/dda/accessor.hpp:204-307", "src/ovxx/dda/accessor.hpp:371-444", "src/ovxx/dda/accessor.hpp:539-616", "src/ovxx/expr/sliced.hpp:455-484", "src/ovxx/expr/sliced.hpp:630-674", "src/ovxx/expr/component.hpp:125-215", "src/vsip/dda.hpp:29-49", "src/ovxx/layout.hpp:68-96", "src/ovxx/python/block.hpp:497-509"]}
{"id": "C87", "title": "Storage and pointers of a format chosen at run time own, free, address and copy complex data correctly", "statement": "Storage of complex data of a fixed or a run-time format, through any sequence of resizes with or without buffers and any failures of allocation, has the size asked for, refers to the buffer given or to memory of its own in its format, never frees a buffer, frees its own memory once with its size, and leaves in use exactly what was in use before; pointers keep format and addresses through conversions; elements are read and written at their places; copies through the storage of run-time accessors come back unchanged and touch nothing else.", "quantifier": "all formats, sizes, buffers, sequences of operations, patterns of failing allocations, layouts and values, builds with and without assertions", "why_tests_cant": "tests use one format per build, never let an allocation fail, never resize between buffers of different formats, and cannot see a leaked block or a pointer never set", "anchors": ["src/ovxx/storage/host.hpp:17-400", "src/ovxx/pointer.hpp:37-265", "src/ovxx/storage/traits.hpp:141-216", "src/ovxx/dda/block_copy.hpp:63-235", "src/ovxx/dda/accessor.hpp:618-765"]}
{"id": "C88", "title": "Operations inside expressions are evaluated once, on the memory at the time of the assignment", "statement": "Assigning an expression with operations that are not element by element anywhere in it gives each element the value the expression has on the memory before the assignment, provided no element is written before it is read element by element and none twice, and changes nothing else; each operation is applied exactly once, and not again when the same expression is assigned again; the traversal before the loop reaches every operation.", "quantifier": "all expressions of elementwise blocks, views of them, and operations of one and two arguments, all memories, all destinations and orders of elements, all qualifications of the nested block types", "why_tests_cant": "tests assign fresh expressions of small depth to distinct views and look at values only; they neither count operations nor read a kept expression before and after its arguments change", "anchors": ["src/ovxx/expr/traversal.hpp:33-178", "src/ovxx/expr/evaluate.hpp:19-60", "src/ovxx/expr/unary.hpp:79-157", "src/ovxx/expr/binary.hpp:130-215", "src/ovxx/assign/loop_fusion.hpp:24-80", "src/ovxx/view/operators.hpp:26-60"]}
{"id": "C89", "title": "Functions of the Python front end find their modules and give results of the right type and shape", "statement": "Every function of the Python front end given blocks of element types it is compiled for finds the module of those types, calls the function of that name, and returns a view or number with the element type and shape of the operation; otherwise it raises an exception. No call computes on data outside its arguments or returns a result of another type.", "quantifier": "all functions of the elementwise, reduction, matrix-vector, solver, signal, selection and parallel modules, all element types and all shapes of the arguments, all sets of modules already loaded", "why_tests_cant": "the tests of the front end call a handful of functions on float vectors of equal sizes with every module loaded; they never try the other element types, mixed types, unequal sizes or a fresh interpreter", "anchors": ["python/src/_import.py:10-33", "python/src/math/elementwise.py:12-66", "python/src/math/elementwise.hpp:20-256", "python/src/math/matvec.py:11-150", "python/src/math/matvec_api.hpp:21-118", "python/src/parallel/block.py:11-46", "src/ovxx/python/converter.hpp:21-70"]}
{"id": "C90", "title": "The parallel support functions and the maps of views say where elements are", "statement": "For every element of a view, the support functions name the subblock, the patch and the local index of one place, which some processor holds, and convert it back; processors without data are told that nothing is there; transposed, permuted, diagonal and partial views have maps of their own indices; assigning to or from a transposed distributed matrix moves every element to its transposed place; the local view of a partial view is the part held there.", "quantifier": "all maps with whole, block and cyclic dimensions over all sets of processors, replicated and local maps, maps of transposed and partial views, all indices, all processors, all pairs of maps in assignments, with and without assertions", "why_tests_cant": "tests call the support functions for block maps on processors that hold data; no test asks for a patch, for a processor without data, or for a view of a view", "anchors": ["src/vsip/impl/parallel.hpp:48-290", "src/ovxx/parallel/support.hpp:20-237", "src/ovxx/parallel/transpose_map_decl.hpp:20-190", "src/ovxx/parallel/subset_map_decl.hpp:24-311", "src/ovxx/expr/subset.hpp:20-268", "src/ovxx/expr/transposed.hpp:24-92", "src/ovxx/expr/permuted.hpp:83-120", "src/ovxx/expr/diag.hpp:24-68", "src/vsip/impl/replicated_map.hpp:70-195"]}
{"id": "C91", "title": "User-supplied element functions give views of their values", "statement": "unary, binary and ternary with a function pointer, an adaptable object, or an object and an explicit result type give a view whose elements are the function of the elements of the arguments, of the function's result type; such views can be assigned, reduced, and used as arguments of further calls.", "quantifier": "all functions with any parameter and result types, all three kinds of functions, with and without explicit result type, all views including results of earlier calls", "why_tests_cant": "the test has eight fixed calls from float vectors to int results that are assigned to float vectors; no call is nested, reduced, mixed with writable views or made with an adaptable object and no explicit type, and calls that do not compile cannot be in a test", "anchors": ["src/vsip/impl/fns_userelt.hpp:17-333", "src/ovxx/view/operators.hpp:25-59", "src/ovxx/view/functors.hpp:68-98", "src/ovxx/expr/unary.hpp:37-76", "src/ovxx/expr/ternary.hpp:60-80", "src/vsip/impl/reductions/reductions.hpp:48-54"]}
{"id": "C92", "title": "Python signal processing objects are the C++ objects asked for", "statement": "Constructing conv, corr, fft, fftm, fir or iir in Python with arguments as its parameters are named gives the C++ object with these parameters (type, direction, sizes, scale, axis, symmetry, region, decimation, state, hint, effort), its attributes agree with it, bad arguments raise an exception, and calls with data of its types and sizes run it.", "quantifier": "all data types that have a module, all lengths, scale factors, axes, directions, numbers of times, enumeration members, views", "why_tests_cant": "the tests construct one real FFT and one multiple FFT with fixed arguments and never conv, corr, fir or iir; the number of possible arguments is unbounded and the extension modules are not built by default", "anchors": ["python/src/signal/conv.py:12-25", "python/src/signal/corr.py:26-38", "python/src/signal/fft.py:27-50", "python/src/signal/fftm.py:27-51", "python/src/signal/fir.py:26-45", "python/src/signal/iir.py:29-47", "python/src/signal/fft.hpp:138-241", "python/src/signal/fftm.hpp:149-281", "python/src/signal/conv.hpp:60-124", "python/src/signal/corr.hpp:55-89", "python/src/signal/fir.hpp:61-117", "python/src/signal/iir.hpp:56-84", "src/vsip/impl/signal/iir.hpp:27-41", "src/ovxx/signal/fft.hpp:84-115"]}
{"id": "C93", "title": "Data kept accessible for distributed assignments is synchronised, and what is received arrives in the destination", "statement": "A Persistent_data object shows the block's current values after sync_in and brings what was written through its pointer into the block by sync_out, as its policy says; a distributed assignment of vectors leaves every element received in the local block of the destination and sends the values the source holds; processor_has_block says which processors hold a replicated subblock.", "quantifier": "all blocks reached directly or by copy, all sequences of synchronisations and writes, all lists of messages and of local copies, any number of executions, all processor sets", "why_tests_cant": "the tests of distributed assignment use dense destinations, whose data is reached directly; copies of the destination are made only for real and imaginary parts and strided local blocks, on more than one process", "anchors": ["src/ovxx/dda/persistent.hpp:24-68", "src/ovxx/parallel/assign_block_vector.hpp:57-64", "src/ovxx/parallel/assign_block_vector.hpp:140-190", "src/ovxx/parallel/assign_block_vector.hpp:512-611", "src/ovxx/dda/accessor.hpp:371-444", "src/ovxx/dda/accessor.hpp:539-616", "src/ovxx/vector_iterator.hpp:16-67", "src/ovxx/parallel/map_traits.hpp:63-75", "src/vsip/impl/replicated_map.hpp:128-143"]}
{"id": "C94", "title": "The radar, audio and beamforming examples compute the signals they describe", "statement": "lerp interpolates linearly between samples and stays at the end values outside them; ctrapz gives the areas of the trapezia; the transformed uniform samples invert the integral of the density; a pulse has its amplitude exactly during its duration; the frequency of a chirp changes by its frequency rate; sine samples have defined 14-bit values; the noise parts of all sensors lie inside the filtered noise; the grid of processors uses all processors.", "quantifier": "all increasing sample places and values of any length, all instants, rates, starts and durations, all sample values in [-1, 1], all rates, lengths and numbers of sensors, all numbers of processors", "why_tests_cant": "the examples run one set of parameters and print or plot the result without checking it", "anchors": ["share/examples/radar/clutter.cpp:50-93", "share/examples/radar/clutter.cpp:149-164", "share/examples/radar/waveforms.cpp:59-70", "share/examples/radar/waveforms.cpp:86-150", "share/examples/audio/wav_stereo.cpp:53-66", "share/examples/python/beamformer.py:44-103", "share/examples/python/parallel/dist_matrix.py:71-76"]}
{"id": "C95", "title": "The examples of custom evaluators, convolutions and solvers compute what they describe", "statement": "The fused scaling and interpolation passes through the scaled samples; the custom products give the matrix product for a 4 x 4 matrix and any second matrix they accept; the custom operation takes the backend its description says for every type and size; the padded kernel is padded with zeros, the padded input gives the circular convolution, mirroring the lower half keeps the spectrum of a real signal; each solver example returns the solution of the equation it describes.", "quantifier": "all vectors and sizes, all matrices and numbers of columns, all types and sizes, all kernels, inputs, contents of memory and spectra", "why_tests_cant": "the examples run on constant data (all ones or twos) and print the result without comparing it; reading outside an array of equal values shows nothing", "anchors": ["share/examples/eval/evaluation.cpp:41-59", "share/examples/dispatch/mprod.cpp:55-75", "share/examples/dispatch/mprod-dda.cpp:50-72", "share/examples/dispatch/mprod-dda.cpp:112-151", "share/examples/dispatch/ct_custom.cpp:90-130", "share/examples/dispatch/rt_custom.cpp:66-126", "share/examples/signal/conv.cpp:186-228", "share/examples/signal/conv.cpp:248-280", "share/examples/solvers/qr.cpp:31-96", "share/examples/solvers/lu.cpp:31-97", "share/examples/solvers/covsol.cpp:31-100", "share/examples/solvers/llsqsol.cpp:31-99"]}
{"id": "C96", "title": "The reference functions of the tests compute what the tests compare with", "statement": "The reference products, outer products, convolutions, correlations and Fourier transforms of the test support are the mathematical ones for every size the library accepts; the distance used to accept results is relative; the precision is the lowest bit; random test data are independent and lie in the stated range; the grid of processors uses all of them.", "quantifier": "all sizes, kernels, supports, decimations, elements of rings and fields, vectors, numbers of significant bits and of processors", "why_tests_cant": "the tests take these functions for the truth: where library and reference make the same mistake, or the distance accepts any small result, a test passes", "anchors": ["support/test/ref/matvec.hpp:25-189", "support/test/ref/conv.hpp:25-163", "support/test/ref/corr.hpp:23-209", "support/test/ref/dft.hpp:41-128", "support/test/diff.hpp:40-95", "support/test/precision.hpp:26-41", "support/test/random.hpp:32-55", "support/storage.hpp:92-108"]}
{"id": "C97", "title": "The benchmarks measure and check the operations they name", "statement": "The processor sets of the benchmarks are those their letters stand for; the checks of the FIR, STREAM, vector-matrix product, SIMD store and maximum benchmarks pass when the operation is right; operations and bytes per point are those of the operation; the loops touch all elements of the problem and no others.", "quantifier": "all numbers of processors, sizes, decimations, loop counts, parts of a distributed matrix and vector sizes", "why_tests_cant": "benchmarks are run with default parameters on powers of two and on one processor; what fails for other loop counts, decimations, sizes or processors never shows", "anchors": ["benchmarks/create_map.hpp:38-69", "benchmarks/dist_vmul.cpp:30-62", "benchmarks/fir.cpp:25-170", "benchmarks/stream.cpp:30-186", "benchmarks/vmmul.cpp:40-300", "benchmarks/maxval.cpp:103-162", "benchmarks/simd/memwrite.cpp:30-140"]}
{"id": "C98", "title": "Domains of several dimensions compare, conform and move like their sets of indices", "statement": "Two domains of several dimensions conform exactly if their lengths agree in every dimension; product conformance is that of matrix products; size() is the number of indices; domains are equal exactly if they contain the same indices, and equality is an equivalence that arithmetic respects; adding, subtracting, multiplying and dividing act on every dimension as on integers.", "quantifier": "all numbers of dimensions, all first indices, strides and lengths, all scalars", "why_tests_cant": "the tests compare a handful of small domains; reversed, empty and very large domains, wrap-around and combinations of equality with arithmetic are not tried", "anchors": ["src/vsip/domain.hpp:132-133", "src/vsip/domain.hpp:228-325", "src/vsip/domain.hpp:339-398", "src/vsip/domain.hpp:445-500"]}
{"id": "C99", "title": "Vertices, lengths, orders, pointers and byte order mean what they say", "statement": "Coordinates and equality of vertices are those of their coordinates, and dimensions a vertex does not have are refused; extents are the sizes of the block and total sizes those of the domains; the valid orders of D dimensions are the permutations of these D dimensions; pointers are the same exactly if they point to the same address; is_big_endian says whether the processor is.", "quantifier": "all vertices of one to three dimensions, all lengths, all orders, all pointers, all byte orders and ways to find them", "why_tests_cant": "no test indexes a vertex out of range, lets a size overflow, names an order that is not valid, compares pointers of different types or runs on a big-endian processor", "anchors": ["src/ovxx/vertex.hpp:19-155", "src/ovxx/length.hpp:19-75", "src/ovxx/order_traits.hpp:17-60", "src/ovxx/is_same_ptr.hpp:14-47", "src/ovxx/detail/endian.hpp:11-72"]}
{"id": "C100", "title": "Maps used from Python keep track of owners and refuse wrong arguments", "statement": "A map made in Python has the numbers of subblocks given on the first processors given, takes the sizes of the shape it is applied to, and then every index has exactly one owner, local indices tell the elements of a subblock apart, and the domain of a subblock has as many elements as there are indices in it. Wrong arguments raise an exception.", "quantifier": "all lists of processors, numbers of subblocks, shapes, indices, subblocks and dimensions", "why_tests_cant": "no test uses maps from Python; wrong arguments end the interpreter rather than fail a test", "anchors": ["python/src/parallel/map.cpp:16-125", "python/src/support.cpp:28-38", "src/vsip/map.hpp:99-143", "src/vsip/map.hpp:302-322", "src/vsip/map.hpp:544-596", "src/vsip/map.hpp:764-803", "src/vsip/map.hpp:902-925"]}
{"id": "C101", "title": "The benchmark of correlations measures a valid correlation and counts its operations; its memory is laid out without overlap", "statement": "For every valid size the benchmark makes vectors of the sizes the correlation asks for and stays inside them; the operations it counts are those of the products made; blocks placed in given memory take the bytes from their offset on, each once; huge pages are mapped and touched as many as asked for.", "quantifier": "all supports, reference and input sizes, all formats, sizes and offsets of blocks, all numbers of pages", "why_tests_cant": "benchmarks check no result, operation counts are only printed, and running with one element, with references longer than the input or with 2 GB of huge pages is not tried", "anchors": ["benchmarks/corr.cpp:21-180", "benchmarks/alloc_block.hpp:34-241", "src/ovxx/signal/corr.hpp:90-215"]}
{"id": "C102", "title": "The variants of the matrix product compute the product", "statement": "Each of the variants of the matrix product in the benchmark gives the product of its two arguments, whatever the result held before, and stays inside the matrices; the bytes reported are those of the matrices.", "quantifier": "all semirings of elements, real and complex, all sizes that fit, also 0, all contents", "why_tests_cant": "the benchmark checks no result and only multiplies matrices of ones, for which conjugation makes no difference; it is never run with empty matrices", "anchors": ["benchmarks/prod_var.cpp:34-305", "benchmarks/loop.hpp:185-205", "benchmarks/loop.hpp:368", "src/vsip/impl/matvec.hpp:43-89", "src/vsip/matrix.hpp:106-117"]}
{"id": "C103", "title": "The benchmarks of two-dimensional convolutions make outputs of the right size and accept correct results", "statement": "The output has the size the convolution asks for, for all coefficients and inputs; the check of the first output accepts the result of a correct convolution.", "quantifier": "all supports, all sizes of coefficients and inputs", "why_tests_cant": "the benchmarks are run with three by three coefficients, the sizes for which the expected values were written", "anchors": ["benchmarks/conv2d.cpp:26-62", "benchmarks/cvsip/conv2d.cpp:34-40", "benchmarks/cvsip/conv2d.cpp:131-171", "benchmarks/cvsip/conv2d.cpp:211-234", "src/ovxx/signal/conv.hpp:103-121"]}
{"id": "C104", "title": "The MPI copy benchmark transfers whole vectors and frees each data type once", "statement": "In each mode, for each size and any number of calls, each call transfers as many floats as the vectors have; no data type is used before it is made or after it is freed; every data type is freed exactly once.", "quantifier": "all modes, all sizes, all numbers of calls", "why_tests_cant": "leaked or stale data types show up only after many calls or not at all, and vectors of 2^31 elements are not measured", "anchors": ["benchmarks/mpi/copy.cpp:105-138", "benchmarks/mpi/copy.cpp:176-193", "benchmarks/mpi/copy.cpp:195-289", "benchmarks/mpi/copy.cpp:342-495"]}
