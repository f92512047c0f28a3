# Formal model of openvsip: design

Source of truth: `/repo` (read as text; never built or run). Everything here is Lean 4 (`lean/`), kernel checked.

## Organisation

For every area `X` there are up to four files below `lean/Verif/`:

* `X/Model.lean`  – the code that exists, function by function; each definition cites file and lines of `/repo`
* `X/Spec.lean`   – a small independent specification (readable knowing only the English property)
* `X/Lemmas.lean` – helper lemmas and invariants
* `X/Props.lean`  – the property theorems, each followed by an `example` meeting its hypotheses

Conventions. `index_type`/`length_type` are 64-bit unsigned, `stride_type` 64-bit signed.  Where wrap-around matters
(domain arithmetic, `intersect` on empty domains, the random generators) the model uses explicit modular arithmetic; elsewhere
`Nat`/`Int` with the stated preconditions.  `OVXX_PRECONDITION`/`assert` conditions appear as hypotheses (they are the
documented contract); behaviour outside of them is undefined and, where the property speaks about it, is modelled as
a distinct outcome (`none`/`ub`).  Floating point is replaced by exact arithmetic in a (semi)ring/field/ordered field,
except where rounding itself is the subject.

## Plan per property

| id | model | proof idea |
|----|-------|-----------|
| C01 | `Domain<1>` with 64-bit wrap (`impl_nth`, ctor validity, operators) | refinement to `Int` progression under representability |
| C02 | `impl_equals` | iff set equality for length ≥ 2; negation witness for length ≤ 1 |
| C03 | `intersect` 1-D incl. strided branch, 2-D, 3-D | interval/progression arithmetic; witness for the wrapped empty domain |
| C04 | `apply_intr`, `subset_from_intr` | algebra on progressions |
| C05 | `next`/`valid` | loop = enumeration list; nodup + complete + sorted |
| C06, C08 | `segment_size`, `segment_start`, `Block_dist` | div/mod arithmetic |
| C07 | block-cyclic segment functions, `Cyclic_dist` | div/mod arithmetic |
| C09, C10 | `Map<D0,D1,D2>` with lists of distributions, `split_tuple` | per-dimension partition lifted through mixed-radix round trip |
| C11 | `map_project_1/2` | mixed-radix arithmetic |
| C12 | `subset_map` ctor | per-subblock intersection, uses C03/C04 |
| C13 | `operator==`, `map_equal` | congruence + partition |
| C14 | per-process state, `put` on owner, `get` = owner value broadcast | refinement to a function `index → value` over histories |
| C15, C16 | per-process send/recv/copy lists, channels as FIFO queues | lists computed on two sides are equal; progress; final state |
| C17 | block-vector message lists | intervals |
| C18 | foreach loops | enumeration |
| C19–C21 | `Applied_layout` variants | mixed radix; witness for the column-major aligned constructor |
| C22–C25 | inductive type of view stacks over stored data | structural induction |
| C26, C27 | `is_compatible`, accessor state machine | algebra / histories |
| C28 | transposition and copy loops on memory functions | loop invariants; witness for swapped sizes |
| C29 | expression trees, loop | induction |
| C30 | dispatcher list recursion | induction |
| C31 | `Copy_chain` | list equations |
| C32–C35 | LCG over `ZMod 2^32`/`BitVec 32` | affine-map iteration; Hull–Dobell |
| C36, C37 | FIR state machine | invariant over stream prefix |
| C38 | biquad cascade | fold over append |
| C39 | histogram | counting; witness for integer types |
| C40 | freqswap loops | permutation |
| C41–C43 | convolution / correlation loops | finite sums |
| C44–C47 | selection functions | list induction |
| C48, C49 | reduction loops | fold |
| C50–C52 | matvec loops | sums, prefix sums |
| C53–C55 | storage manager state machine | refinement over histories |
| C56 | heap of counted objects + handles | invariant count = number of handles |
| C57 | threads with interleaved atomic steps | invariant / race witness |
| C58 | free list | invariant; witness for the defects |
| C59 | alignment arithmetic | bit/mod arithmetic |
| C60 | descriptors | algebra; witness |
| C61 | DFT over ℂ | roots of unity |
| C62 | Levinson recursion over a field with star | induction |
| C63 | vmmul loops | element-wise |
| C64 | BLAS calls on memory | address arithmetic; witnesses |
| C65 | solvers over a star field | matrix algebra |
| C66 | windows over ℝ and ℂ | series bounds; Chebyshev polynomials |
| C67 | plans as records of their arguments, FFTW as any executor that keeps its manual's promises | address maps of plan, buffer and block are equal; induction over lines |
| C68 | matrices as functions with sizes, LAPACK as parameters with documented contracts | product of unitary factors, the middle one extended by the identity; cases on storage kinds and shapes |
| C69 | views as functors with optional caches, programs over memory and views | a cached view survives every command; invariant of the loop of the out of place transform in one memory |
| C70 | slices as `PySlice_GetIndicesEx` defines them, blocks as offset, sizes and strides in wrapping arithmetic | selection specified recursively from the Python reference; arithmetic progressions; simulation of loops over storage; reference counts |
| C71 | kernel1 as sums over ℂ with filters, padding and shifts as index functions; the grid over ℝ with conversions to int; buffers with arbitrary prior contents | swapped halves as permutations and signs; nearest line from floor; linearity of transforms; loops as folds |
| C72 | wave files byte by byte: streams, structures as byte arrays, outcomes return, throw, undefined and endless | RIFF specified by an encoder of chunks; little endian numbers by induction; the search loop by induction on chunks |
| C73 | rows of bytes at 32 bit offsets in dense storage; data sets in row-major order; handles as a transition system; grey levels over ℚ with overflow | writing rows by induction; mixed radix positions; ownership invariant; floor |
| C74 | views as block size, offset, stride; wrappers as a transition system; the library as a parameter with a contract | bounds of strided views; rows written by induction; counting of owners; contract of solvers |
| C75 | argument blocks with caches read from one memory that is also written | loop invariant: no write before the first read, all caches filled after it; induction on expressions |
| C76 | the promotion table, C++ conversions and the operators that build and fuse blocks | finite tables by `decide`; induction on expressions; conversion lemmas for wrapping and idempotent rounding |
| C77 | HPEC kernels and fast convolution | partial: sums, lists and circular convolutions proved; refuted for cut windows, odd numbers of bins, room, different filters |
| C78 | utilities | partial: comparison, views, in-place loops, iterators, counts, clock, text proved; refuted for overlaps, negative distances, transposed counts, default instants, counters, tensor rows |
| C79 | distributed programs | partial: no deadlock, same result under every interleaving, result of the sequential program; refuted for index functions on partly replicated arrays and for the mixing check |
| C80 | programs of views | partial: machine with counted blocks simulates views as tables of references; blocks live exactly as long as needed; refuted for overlaps, stored expressions, references into temporaries, exchanges, unequal operands, tensor access out of range |
| C81 | corner-turn programs | partial: every interleaving of any number of calls ends with the transposed distribution, no deadlock, no access outside buffers; refuted for matrices that are not square (alltoall), local copies with different positions, rotated receives of numbers that do not divide 2^64 |
| C82 | benchmark driver | partial: options, sizes, calibration, steady state, rows and measurement times proved; refuted for `-ms`, a missing last value, sizes outside `unsigned`, measured time zero, `-lat`, `-samples 0`, `-linear` |
| C83 | OpenCL classes | partial: contexts, queues, default objects and kernels on blocks proved; the other handles, extensions, access, layout and Python functions up to the refuted cases |
| C84 | signal processing examples | partial: resampling, windows, modulation, tones, filter classes, correlation and bound proved; output length, freqz, real input and estimated delay up to the refuted cases |
| C85 | MPI groups, communicators and tasks | partial: groups, ranks, split, tasks (all interleavings), frees and the example proved; exclude of nothing, null and default communicators, maps in tasks, processor_set, integer reductions and long broadcasts refuted |
| C86 | Choice of access and declared layouts | partial: declared layouts, packing, order, format, reach, buffers and costs proved for all stacks of views and requests; aligned_512, aligned, allocation boundaries, aligned split data, four size functions, parts as lines and Python slices refuted |
| C87 | Run-time formats: storage, pointers, copies | partial: ownership through all sequences of resizes, failures in the classes of fixed format, conversions, copies in own memory and in buffers proved; formats of buffers, explicit allocate and deallocate, failures of the run-time class and of constructors, element access and null pairs refuted |
| C88 | Lazy evaluation: traversal, caches, loops | partial: values, single evaluation and stability proved for all expressions; reach of the traversal characterised exactly and refuted in general; kept expressions and copies refuted |
| C89 | Python front end: modules, types and shapes of results | partial: proved for the types and shapes modules are compiled for; fourteen kinds of calls outside refuted with witnesses |
| C90 | Parallel support functions; maps of views of views | partial: descriptions by Map and Replicated_map proved, corner turns proved on top of C15; patches, processors without data, conversions and several views of views refuted |
| C91 | User-supplied element functions | partial: values, compiling calls, sums and assignment proved; adaptable objects, nested calls, mixed views and sums of type-changing unary functions refuted |
| C92 | Python signal processing objects | partial: FFTs, multiple FFTs, FIR filters, ranges and calls proved; convolution, correlation, IIR filters, other directions and axes, zero padded regions and resetting refuted |
| C93 | persistent data access of distributed assignments, iterators over processor sets | partial: reading, sending, receiving into directly reached data and processor sets proved; receiving into copied data (real and imaginary parts), shared data and iterator comparison refuted |
| C94 | interpolation, integration, waveforms and parameters of the radar, audio and beamforming examples | partial: interpolation, integrals, pulses and constant sweeps proved; inverted distribution, chirp rate, negative samples, long arrays and odd grids refuted |
| C95 | custom evaluators, convolution and solver examples | partial: block product, circular convolution, even spectra, choices and documented solutions proved; fused interpolation, pointer product, zero padding, odd spectra and the QR example refuted |
| C96 | reference functions of the tests | partial: products, convolution, correlation, transforms, distances and agreement with the library proved; mixed outer products, scale, long kernels, relative distance, lowest bit, random data and full grids refuted |
| C97 | operations and checks of the benchmarks | partial: processor sets, FIR check, STREAM, products, SIMD stores and maxima proved within bounds; their failures outside of them refuted with witnesses or for all cases |
| C98 | domains of several dimensions | partial: conformance, equivalence, soundness and shifts proved; sizes, completeness, products and quotients within bounds, refuted outside |
| C99 | vertices, lengths, orders, pointers, byte order | partial: proved except for one-dimensional vertices, pointers of different types and big-endian processors, which are refuted |
| C100 | maps used from Python | partial: construction, application, owners, local indices and domains for vectors proved; negative sizes, domains of matrices, indices outside the shape refuted |
| C101 | benchmark of correlations, memory of benchmarks | partial: sizes, minimal support, placement and up to 127 pages proved; one-element and long references, other operation counts and more pages refuted |
| C102 | variants of the matrix product | partial: variants 4, 6-10 proved, 3 and 5 with rows, 2 for real matrices; complex outer products, empty matrices and reported bytes refuted |
| C103 | benchmarks of two-dimensional convolutions | partial: sizes that fit and the check for the default coefficients proved; larger coefficients and the check for other sizes refuted |
| C104 | data types of the MPI copy benchmark | partial: transfers and life cycle proved for sizes that fit an int; larger sizes refuted |

## Trusted base

* The Lean 4.33.0 kernel, and Mathlib as installed (its theorems are checked by the same kernel).
* Axioms: every property theorem depends on at most `propext`, `Classical.choice` and `Quot.sound` (`#print axioms` on all theorems named in
  `MANIFEST.json`; `vcheck` repeats the check).  No axiom is added here, and there is no `sorry`, `native_decide` or `bv_decide`.
* The reading of the C++ text: each model definition cites the lines it stands for.  Nothing connects the Lean text with the C++ text but that
  reading.  `seeded/LOG.jsonl` records edits of the model that imitate realistic bugs and which theorems they break.
* C++ semantics as used by the models: unsigned arithmetic wraps at 2^64 (`Domain`, `Layout`, `Views`, `Signal`, `Aligned`, `HugePage`), signed conversion is
  two's complement, division by zero and access outside of an object are undefined (`none` or a `wrong` state), an out-of-contract call
  (`OVXX_PRECONDITION`, `assert`) is outside the hypotheses.

## What is modelled, and how far

| area (`lean/Verif/`) | code | simplifications |
|---|---|---|
| Domain, Dist, Map, Traversal | `vsip/domain.hpp`, `ovxx/domain_utils.hpp`, `vsip/impl/dist.hpp`, `ovxx/parallel/dist_utils.hpp`, `vsip/map.hpp`, `ovxx/parallel/map_utils.hpp`, `subset_map_decl.hpp`, `replicated_map.hpp` | wrap-around only in Domain; elsewhere lengths are natural numbers; template type mismatches that do not compile are `none` |
| Distributed | `distributed_block.hpp`, `assign_chain.hpp`, `assign_block_vector.hpp`, `mpi/chain_builder.hpp`, foreach | processes with FIFO channels per pair; MPI itself is the channel model; persistent requests and datatype commit are not modelled |
| Layout, Views, Dda, Assign | `vsip/layout.hpp`, `ovxx/layout.hpp`, `ovxx/expr/*.hpp` views, `dda/*.hpp`, `assign/copy.hpp`, transposition | byte alignment of the base pointer is a parameter |
| Expr, Chain | expression blocks, loop fusion, `dispatcher.hpp`, `copy_chain.cpp` | C++ overload resolution is not modelled: the selected evaluator is a parameter of the dispatcher model |
| Random | `vsip/random.hpp` | `U32` arithmetic exact; conversion to `float` exact rounding for the range claims |
| Signal, Filter | `fir`, `iir`, `histo`, `freqswap`, `conv`, `corr` (reference back ends) | values in a ring or field, so rounding is not modelled |
| Select, Reduce, Matvec, Vmmul | `selgen.hpp`, `reductions*.hpp`, `matvec.hpp`, `vmmul.hpp` | values exact |
| Solver | `lapack/{lu,cholesky,qr}.hpp`, `vsip/impl/solver/{covsol,llsqsol,qr}.hpp` | LAPACK's factorisations are parameters with their documented contract; values exact; work array sizes not modelled |
| Blas | `lapack/blas.hpp` | the BLAS is given by its definition (netlib reference), not by its code; values in a commutative star ring; operands and result do not overlap |
| Storage, Coherence, Refcount, Library, HugePage, Aligned, Serial | `user.hpp`, `manager.hpp`, `refcounted.hpp`, `library.cpp`, `huge_page_allocator.cpp`, `aligned_array.hpp`, `serialization.hpp` | memory is a finite map of words; sequential consistency for threads |
| Dft | `signal/fft/dft.hpp` | exact complex numbers; split-complex arrays only in one dimension |
| Toep | `solver/toepsol.hpp` | exact star field |
| Window | `signal/window.cpp` | exact real and complex numbers and functions; the transform by its definition |
| Fftw | `fftw/fft.cpp`, `fftw/fftw.cpp`, `signal/fft/workspace.hpp`, run-time data access in `dda/accessor.hpp` | FFTW itself is the structure `Lib` of its documented promises (inhabited by `reference`); exact complex numbers; interleaved storage but for the section on split storage; the arrays of one call do not overlap |
| Svd | `lapack/svd.hpp`, `vsip/impl/solver/svd.hpp` | LAPACK routines are parameters with contracts; exact numbers; sizes fit `int`; workspace arrays are not modelled |
| Rbo | `signal/fft/util.hpp`, sizes and checks of `signal/fft.hpp`, `signal/fft/functor.hpp`, the non-elementwise `expr/unary.hpp`, `assign/rbo.hpp` | one memory; caches are values; results with one index; scale 1 |
| Py | `ovxx/python/block.hpp`, `python/src/block_api.hpp`, `vector.py`, `matrix.py`, `_block.py`, `selgen/selection.py` | storage is a map from addresses; `PySlice_GetIndicesEx` by its published definition; no device buffers, distributed blocks or element type conversions |
| Ssar | `share/apps/ssar/kernel1.hpp`, `share/apps/ssar/diffview.cpp` | exact real and complex arithmetic; transforms as sums; `freqswap` between different views as its index function; sizes far below 2^64 |
| Wav | `share/examples/audio/wav.hpp`, `ovxx/byteswap.hpp` | the stream is that of a file; structures without padding; `bswap_…` given a pointer is taken to have no effect (it does not compile with current headers) |
| Io | `ovxx/io/png.hpp`, `ovxx/io/hdf5.hpp`, `share/apps/ssar/viewtopng.cpp` | libpng and HDF5 by their documentation; compression, palettes, interlacing, conversion of number types and error callbacks left out |
| Cv | `src/ovxx/cvsip/{view,block,common,matvec,fir,conv,lu,cholesky,qr}.hpp`, `fft.cpp` | The C library is a parameter with its documented contract; memory is a function of the address in elements; exact arithmetic |
| Prod | `vsip/impl/matvec_prod.hpp`, `ovxx/expr/binary.hpp` (non-elementwise), `ovxx/assign/rbo.hpp` | generic back end; vectors as matrices of one row or column; one value type with a conversion for the result; sizes inside elementwise expressions taken to agree |
| Elem | `src/vsip/impl/promotion.hpp`, `src/ovxx/expr/operations.hpp`, `src/ovxx/view/operators.hpp` (fusion), `src/ovxx/view/fns_elementwise.hpp` (functors, result types), `src/ovxx/math/scalar.hpp` (arithmetic, logical, comparison functions) | values are rationals; floating types round by an arbitrary function, no infinities or NaNs; conversions to whole types cut and wrap; signed overflow is undefined; transcendental functions, `max`/`min`, `is_normal` and the view dispatch are left out |
| Hpec | `benchmarks/hpec_kernel/cfar.cpp`, `benchmarks/hpec_kernel/firbank.cpp` (`ImplFast`, `ImplExpr`), `benchmarks/fastconv.cpp` | exact numbers; transforms are the sums of C61; one turn of the timing loops; rows of `located` are lists of what was stored; distribution over processors, random data, file input, `cfar_c.cpp` and `Impl4vc` (the same expression as `Impl1ip`) left out |
| Util | `ovxx/equal.hpp`, bitwise assignments of `vsip/impl/vector.hpp` and `vsip/matrix.hpp`, `recttopolar` of `vsip/complex.hpp`, `ovxx/value_iterator.hpp`, `ovxx/ops_count.hpp` (`dot`, `gemp`, `cumsum`, `fir`), `ovxx/chrono.hpp`, `ovxx/output.hpp` | exact numbers, a quotient by zero compares as false; a view is the addresses of its elements; counts without wraparound; `float` by cutting to 24 bits; texts of elements given |
| Spmd | `ovxx/assign.hpp`, `ovxx/parallel/assign.hpp`, `ovxx/parallel/assign_fwd.hpp`, `ovxx/parallel/expr.hpp`, `ovxx/parallel/map_subset_block.hpp`, `has_same_map` and `transform` of the expression blocks | operators of up to three arguments; one message unit per element; arrays do not share storage; temporaries have names; parallel expressions that may not be reorganised are left out; `map_subset_block::map()`, which leaks a map at each call (l.42), is not modelled |
| ViewProg | constructors, assignment, element access and destruction in `vsip/impl/vector.hpp`, `vsip/matrix.hpp`, `vsip/tensor.hpp`; `ovxx/element_proxy.hpp`, `by_ref_traits`/`by_value_traits`/`by_value_proxy`, `expr::Binary` | one element type; blocks of the derived layers of area Views without component views; one expression operator of two arguments; locality, threads and exceptions left out |
| Turn | `benchmarks/mpi/alltoall.cpp` | MPI by its standard: messages matched in order per pair of processes, a send may wait for its receive; displacements in elements; source buffers constant; timing and output left out |
| Bench | `benchmarks/main.cpp`, `benchmarks/loop.hpp` | times are rational numbers without rounding; the functor is its time per call; allocators, `-pause`, `-verbose`, `-pool`, `single` and the text of the output left out |
| Ocl | `src/ovxx/opencl/*.hpp`, `context.cpp`, `command_queue.cpp`, `python/src/opencl/cl.cpp` | the OpenCL runtime is its standard; creating objects succeeds; one class of handles at a time; devices are those that are counted; `blas.hpp`, `library.cpp` and events left out |
| Dsp | `share/examples/dsp`, `share/examples/signal/filter.cpp`, `share/examples/radar/matched_filter.cpp` | exact real and complex numbers, transforms by definition; resampling with any numbers instead of the constants; output text left out |
| Mpi | `src/ovxx/mpi/{group,communicator,service,datatype}`, `share/examples/parallel/task.cpp`, `Map::Data` of `src/vsip/map.hpp`, `processor_set` | MPI as its standard says, errors returned; processes are ranks of the world; freeing groups left out; float sums left out |
| Access | `src/ovxx/adjust_layout.hpp`, `is_compatible`, `get_block_access` and local accessors of `src/ovxx/dda/accessor.hpp`, `get_block_layout` of view blocks, `src/vsip/dda.hpp` | addresses are given numbers; device, distributed and run-time accessors left out except the kind chosen and `size()`; the values copied are those of C27 |
| RtFmt | `src/ovxx/storage/host.hpp`, `src/ovxx/pointer.hpp`, `storage_traits` for run-time formats, `src/ovxx/dda/block_copy.hpp` and the storage of run-time accessors | memory counted in scalars, every block at an address of its own; complex data only; places given by the layout are a list of distinct numbers (C21); overloads that are ambiguous or do not compile are left out |
| Lazy | `src/ovxx/expr/{traversal,evaluate}.hpp`, caches of `expr::Unary/Binary<…, false>`, the loops of `assign/loop_fusion.hpp` | indices are numbers, ternary operations are like binary ones; a cache belongs to one copy of a block (copies made later share it, which gives the same values); operations are arbitrary functions of all elements of their arguments |
| PyMath | `python/src/_import.py`, `python/src/{math,signal,selgen,parallel}` front end, `src/ovxx/python/converter.hpp` | element values are not modelled, only types, shapes, exceptions and reads outside the arguments; Boost.Python's overload resolution is modelled by the registered argument types |
| ParView | `src/vsip/impl/parallel.hpp`, `src/ovxx/parallel/{support,transpose_map_decl,subset_map_decl}.hpp`, maps of `expr/{subset,transposed,permuted,diag}.hpp` | a failed assertion and an exception leaving a `VSIP_NOTHROW` function are both the end of the program; `transpose_map` keeps a reference to the parent's map, whose lifetime is not modelled; indices passed to the functions are indices of the view |
| UserElt | `src/vsip/impl/fns_userelt.hpp`, result types of `src/ovxx/view/{operators,functors}.hpp`, `sumval` | two element types, an integer and a real one, without overflow or rounding; functions are pure; overload resolution and template argument deduction are written out for the overloads of this file; sizes of several arguments are not compared, as in the code |
| PySig | `python/src/signal/{conv,corr,fft,fftm,fir,iir}.py` and their bindings `*.hpp`, argument conversion of Boost.Python, the constructor of `Iir`, `io_size` | blocks are described by type and shape; scale factors are rational; two exceptions of Boost.Python are identified with those of Python; values computed by the C++ objects are the subject of other areas |
| Persist | `ovxx/dda/persistent.hpp`, its use in `ovxx/parallel/assign_block_vector.hpp`, `ovxx/vector_iterator.hpp`, `processor_begin`/`processor_end` of `Replicated_map`, `processor_has_block` | local blocks are functions of an index; which messages there are is the subject of C17; split buffers are not distinguished |
| Radar | `share/examples/radar/clutter.cpp`, `radar/waveforms.cpp`, `fill_sine` of `audio/wav_stereo.cpp`, the parameters of `python/beamformer.py` and `python/parallel/dist_matrix.py` | floating point numbers are rationals, the Weibull density and the exponential are not modelled (any density, the phase only) |
| Custom | `share/examples/eval/evaluation.cpp`, `dispatch/mprod.cpp`, `dispatch/mprod-dda.cpp`, `dispatch/ct_custom.cpp`, `dispatch/rt_custom.cpp`, `signal/conv.cpp` (l.186-280), the data of `solvers/*.cpp` | floating point numbers are rationals; the solvers are taken to solve the equations stated for them (C65); FFTs are not modelled here |
| TestRef | `support/test/ref/*.hpp`, `support/test/diff.hpp`, `precision.hpp`, `random.hpp`, `support/storage.hpp` (l.92-108) | elements of rings and fields, distances on rationals with the logarithm left out (it is monotonic), rounding to nearest even; one processor; `create_view.hpp`, `ramp.hpp` and the storage classes are not modelled |
| BenchOps | `benchmarks/create_map.hpp`, `dist_vmul.cpp` (maps), `fir.cpp`, `stream.cpp`, `vmmul.cpp`, `maxval.cpp`, `simd/memwrite.cpp` | exact arithmetic except overflow in STREAM and rounding of indices in `maxval`; times not modelled; the local part of a matrix is given by its first row and number of rows; the C variant of STREAM is the same loop |
| DomainN | `vsip/domain.hpp` (several dimensions) | a list of one-dimensional domains; comparing domains of different numbers of dimensions does not compile and is excluded by hypotheses |
| Vocab | `ovxx/vertex.hpp`, `length.hpp`, `order_traits.hpp`, `is_same_ptr.hpp`, `detail/endian.hpp` | a vertex is the list of its coordinates; types of pointers are numbers; the preprocessor is modelled as far as the marker macros and `#if` go; processors that no branch of the header names are left out |
| PyMap | `python/src/parallel/map.cpp`, the part of `support.cpp` about domains | numbers given for `length_type` and `index_type` outside tuples are natural; the communicator is the list of its processors; the set of low-level processors created by `impl_apply` is left out |
| BenchCorr | `benchmarks/corr.cpp`, `alloc_block.hpp`, the loops of `ovxx/signal/corr.hpp` as far as their products are counted | operations are exact numbers, not `float`; times are left out; the operating system maps what it is asked to |
| ProdVar | `benchmarks/prod_var.cpp` | exact elements of a semiring; variant 1 is the library's product and left out; variants that differ only in how elements are fetched (3 and 5, 7 to 9) share one definition; times and operation counts left out |
| BenchConv | `benchmarks/conv2d.cpp`, `benchmarks/cvsip/conv2d.cpp` | exact rational elements; the C library's convolution is taken to be that of `signal/conv.hpp`; times and operation counts left out |
| MpiSend | `benchmarks/mpi/copy.cpp` | one side of the transfer; MPI reduced to live data types and their counts of floats; requests, processors and times left out |

Not modelled: floating-point rounding (except where the property is about it), input/output, the CUDA, OpenCL and SAL back ends, FFTW itself, the
code of the BLAS and of LAPACK, the profiler, the parallel services other than the message lists, the Python bindings, and the C API (`cvsip`).

## Where the code disagrees with the properties

Every disagreement is proved: a theorem with the suffix `_false` refutes the statement with a concrete witness, and the theorem with the suffix
`_partial` proves what remains.  The tables are generated from the doc comments by `tools/design.py`.

<!-- generated: begin -->

### Refuted

| theorem | file | what it says |
|---|---|---|
| `C01_div_neg_false` | Verif/Domain/Props.lean | C01 (division) is false for negative strides: `Domain<1>(10,-4,3) / 2` does not have stride `-2` because the stride is converted to unsigned before dividing. |
| `C02_false` | Verif/Domain/Props.lean | C02 is false of the code for one-element domains: `Domain<1>(3,1,1)` and `Domain<1>(3,2,1)` both contain exactly the index 3 but compare unequal. |
| `C03_empty_false` | Verif/Domain/Props.lean | C03 does not extend to empty domains (which the constructors accept): the empty domain at index 0 "intersects" everything, because its last index wraps around. |
| `C100_domain_false` | Verif/PyMap/Props.lean | C100 is false (subblock domains of matrices and tensors). Domains of two and three dimensions cannot be turned into Python objects: asking for the domain of any subblock of a map applied to a matrix or a tensor raises `TypeError`. |
| `C100_local_false` | Verif/PyMap/Props.lean | C100 is false (local indices). `local_from_global_index` does not compare the index with the size. With fewer elements than subblocks every index beyond them divides by zero; with the same number in each subblock the index after the last has the local index 0. |
| `C100_negative_false` | Verif/PyMap/Props.lean | C100 is false (negative sizes). A negative size is not refused: it becomes the size 2^64 less. |
| `C100_refused_false` | Verif/PyMap/Props.lean | C100 is false (wrong arguments). Asking a map that is not applied, for an index outside the shape, or with the wrong number of directions does not raise an exception but ends the interpreter; so does applying a map that divides a direction the shape does not have. |
| `C101_ops_false` | Verif/BenchCorr/Props.lean | C101 is false (operations). With full support `M N` products are made, but `M (M - 1)` more are counted; with equal support, too, more operations are counted than made, for every reference of at least two elements. |
| `C101_pages_false` | Verif/BenchCorr/Props.lean | C101 is false (huge pages). From 128 pages (2 GB) on the number of bytes overflows `int`. |
| `C101_short_false` | Verif/BenchCorr/Props.lean | C101 is false (short references and inputs). A reference of one element, a valid size, is written past its end. With minimal support an input shorter than the reference by two or more asks for an output of almost 2^64 elements; the sizes of the benchmark start at 16, so every `-param` above 17 does. |
| `C102_bytes_false` | Verif/ProdVar/Props.lean | C102 is false (bytes). For matrices of two or more rows the memory reported is the number of rows times that of the three matrices, the bytes read are those of one row of each argument, and none are said to be written. |
| `C102_outer_false` | Verif/ProdVar/Props.lean | C102 is false (outer products of complex matrices). The outer product conjugates its second argument: variant 2 multiplies with the conjugate of the second matrix. For 1 and `i` it gives `-i`. |
| `C102_rows_false` | Verif/ProdVar/Props.lean | C102 is false (first rows). If one of the matrices has no rows the variants 2, 3 and 5 ask for a row that is not there, where the other variants have the product: nothing, or zeros. |
| `C103_check_false` | Verif/BenchConv/Props.lean | C103 is false (check). The sizes of the coefficients can be chosen, the values expected cannot: correct results are said to be wrong with minimal support for all square coefficients but three by three, and with equal support for those of one and of four or more rows. |
| `C103_sizes_false` | Verif/BenchConv/Props.lean | C103 is false (sizes). With minimal support and two or more rows of coefficients more than the input has, the output has almost 2^64 rows, with one more none. The benchmarks do not refuse this. |
| `C104_size_false` | Verif/MpiSend/Props.lean | C104 is false (large vectors). Sizes are converted to `int`: of vectors of 2^32 elements and some more only these are transferred, in every mode. |
| `C11_col_types_false` | Verif/Map/Props.lean | The type mix-ups are real: there is a well-formed matrix map (rows in blocks, columns whole) no column of which has a map. |
| `C11_replicated_false` | Verif/Map/Props.lean | Slicing a replicated array forgets its processor set: the slice claims to be held by processors that do not hold the parent. |
| `C12_empty_false` | Verif/Map/SubsetProps.lean | Non-emptiness of the sub-domain is needed: for the empty sub-domain `Domain<1>(0)` the map contains elements. |
| `C12_extent_false` | Verif/Map/SubsetProps.lean | The subblock extent the new map reports is the parent's, not that of the part selected: a subblock with 1 selected element claims to have 4. |
| `C15_complex_false` | Verif/Distributed/Props.lean | C15 is false for interleaved complex data (an element is two scalars, but `element_type` is the scalar type, so chains describe one scalar per element): two complex elements move from process 1 to process 0; in no execution is the second element (scalars 2 and 3) delivered. |
| `C19_aligned2col_sizes_false` | Verif/Layout/Props.lean | C19 is false for column-major aligned layouts built by the two-argument constructor: a 9×2 matrix with `aligned_8` stores elements (8,0) and (0,1) at the same place. |
| `C19_empty_aligned_false` | Verif/Layout/Props.lean | an aligned matrix without rows is given a total size near `2^64` |
| `C20_ctor_false` | Verif/Layout/Props.lean | C20 is false for columns: the two constructors give different strides, and the two-size constructor's stride may be shorter than a column |
| `C21_512_false` | Verif/Layout/Props.lean | C21 is false for `aligned_512`: `is_packing_aligned` has no entry for it, so the run-time layout is not padded. |
| `C21_bytes_false` | Verif/Layout/Props.lean | C21 is false for element sizes other than 1: run-time layouts align to `A` bytes, compile-time layouts to `A` elements. |
| `C21_total_false` | Verif/Layout/Props.lean | C21 is false for the total size of aligned matrices: the run-time layout includes the padding of the last row, the compile-time layout does not. |
| `C23_diag_unchecked_false` | Verif/Views/Props.lean | C23, where it fails. The constructor of a diagonal view checks nothing. Diagonal 5 of a 3x4 matrix is not empty: the unsigned difference wraps, the view has 3 elements and its element 0 is element (0,5) of the matrix. |
| `C24_permuted_false` | Verif/Views/Props.lean | C24, where it fails. `Permute_order` composes in the wrong order: for the permutation (1,2,0) of a dense 2x3x4 block it reports (1,2,0), though the strides of the view are 4, 1, 12. |
| `C27_remote_size_false` | Verif/Dda/Props.lean | C27, a defect nearby. `Accessor` for remote access (accessor.hpp l.489-494) allocates `b.size()` elements for a local block of the requested layout. For aligned layouts the block needs more: it writes beyond the end of its buffer. |
| `C28_fallback_false` | Verif/Assign/Props.lean | C28, where it fails (1). Assigning a column-major to a row-major matrix when neither has unit stride: the fallback passes the number of columns as the number of rows. For a 1x2 matrix the second element is not assigned and the memory behind the matrix is overwritten. |
| `C28_same_ptr_false` | Verif/Assign/Props.lean | C28, where it fails (2). Equal pointers are taken to mean "transpose of itself". A row-major view and a column-major view that start at the same element but have other strides: here `A.col-major 2x2 = A'` where `A'` takes every second row. |
| `C31_empty_record_false` | Verif/Chain/Props.lean | C31 is false for empty records. A strided record without elements yields an element: the chain `[(100, stride 2, 0 elements), (200, 1 element)]` copied to one element at 300 stores the byte from address 100 and fails the final precondition. |
| `C31_no_record_false` | Verif/Chain/Props.lean | A chain without records is dereferenced (undefined behaviour), although copying it to another empty chain should do nothing. |
| `C35_colmajor_false` | Verif/Random/Props.lean | C35 is false for other dimension orders. In a column-major 2×2 matrix element `(0,1)` receives the third number, not the second. |
| `C35_range_float_false` | Verif/Random/Props.lean | C35 (range, `float`) is false. For some seed the first draw is `2^32 - 1`, which rounds to 1. |
| `C39_integer_false` | Verif/Signal/Hist.lean | C39 is false for integer values: the width of the intervals is rounded down, and with range [0, 11) and 6 bins the value 10 leads to bin 6, beyond the histogram |
| `C40_axis_cols_false` | Verif/Signal/Swap.lean | C40 is false of the swap along columns: the loop runs over the number of rows, so with fewer rows than columns the last column is not written, and with more rows than columns columns outside the matrix are accessed |
| `C40_empty_false` | Verif/Signal/Swap.lean | C40: an empty vector makes the code read element 0 |
| `C41_kernel_size2_false` | Verif/Signal/Props.lean | The helper `conv_kernel_size` disagrees with the kernel built for even symmetric matrices (nothing calls it for matrices) |
| `C41_min_size_false` | Verif/Signal/Props.lean | C41 is false of the output size for a kernel the constructor accepts: two coefficients of a symmetric kernel of odd length make three, more than the one input, and the number of outputs wraps around to `2^64 - 1` |
| `C43_same_false` | Verif/Signal/Props.lean | C43 is false of same support and a reference of even size: the last output is the sum of two products but is divided by one |
| `C47_swap_order_false` | Verif/Select/Props.lean | C47 is false of a row-major and a column-major matrix: element (0,1) of the first does not receive element (0,1) of the second |
| `C48_meansq_complex_false` | Verif/Reduce/Props.lean | C48 is false of meansqval of long complex vectors of single precision: the mean squared magnitude of 4096 elements `i` comes out as -1 |
| `C48_stride_false` | Verif/Reduce/Props.lean | C48 is false of long strided vectors of single precision: the block sums read consecutive memory, so the sum of 4096 zeros lying two apart is 1 when a 1 lies between them |
| `C50_gemp_false` | Verif/Matvec/Props.lean | C50 is false of gemp with an `int` alpha and fractional matrices: 1 * (1/2) * 1 comes out as 0 |
| `C50_kron_false` | Verif/Matvec/Props.lean | C50 is false of kron with an `int` alpha |
| `C50_outer_false` | Verif/Matvec/Props.lean | C50 is false of the outer product of a real and a complex vector: the complex one is not conjugated |
| `C53_admit_null_false` | Verif/Storage/History.lean | Likewise a block constructed with a null pointer cannot be admitted with update. |
| `C53_release_false` | Verif/Storage/History.lean | The claim that `release(true)` works on every block fails: a block without user storage has nothing to release to (the assertion at user.hpp l.153, or a null pointer). |
| `C55_admit_false` | Verif/Coherence/Props.lean | It is false for a block with user storage: the device storage counts as valid from the start (manager.hpp l.70-76), so after `admit` the device does not see the user's data ... |
| `C55_reference_false` | Verif/Coherence/Props.lean | The claim is false for writes through a reference (manager.hpp l.308-312 does not invalidate the device): here the device has read the block, the host reads it, an element is written by reference, and the device still sees the old value. |
| `C55_release_false` | Verif/Coherence/Props.lean | ... and `release` does not bring data written on the device to the user (manager.hpp l.215-222 does not call `sync`). |
| `C56_member_false` | Verif/Refcount/Props.lean | It is false for aliasing: assigning to the last handle on an object a handle that is a member of this object (`p = p->next`) destroys the source before it is read (l.81-82). |
| `C56_null_false` | Verif/Refcount/Props.lean | The claim is false for null handles: assigning a null handle to one that is not calls `increment_count` on a null pointer (refcounted.hpp l.83). |
| `C56_overflow_false` | Verif/Refcount/Props.lean | It is false when there are more references than an `unsigned int` can count (l.59-61): with 2^32 + 1 references the count is 1, so dropping one of them destroys the object. |
| `C56_reset_false` | Verif/Refcount/Props.lean | It is false for `reset` with increment to the same object: the count drops to zero before it is incremented (l.90-93). |
| `C57_allocator_false` | Verif/Library/Props.lean | Without MPI the default allocator outlives the last object: `allocator::finalize` is called only with MPI (l.130-136), so a second session replaces the pointer and the first allocator is lost. |
| `C57_mpi_again_false` | Verif/Library/Props.lean | With MPI a second session ends in undefined behaviour: `mpi::finalize` deletes the buffer but leaves the pointer (service.cpp l.57-67), so `mpi::initialize` does not start MPI again and the second `finalize` deletes the buffer again. |
| `C57_race_fin_false` | Verif/Library/Props.lean | Two threads that destroy the last two objects at the same time: both see zero (l.137, outside the lock), so the global parts are torn down twice. |
| `C57_race_init_false` | Verif/Library/Props.lean | Two threads that make the first two objects at the same time: both add to `global_count` before either tests it (l.53-61, the test is outside the lock), so the global parts are never set up though both constructors have returned. |
| `C58_end_false` | Verif/HugePage/Props.lean | A block given back above the last free one replaces the free list instead of joining it (l.150-155): the pool is all free again, and the reported amount says so, but a request for all of it, or for two halves, fails. |
| `C58_join_false` | Verif/HugePage/Props.lean | Two blocks that do not overlap with a third are given back; joining the second with the first counts the second's size twice and forgets the first's (l.197), so the free block reaches into the third, and the next request is given memory the program still holds. |
| `C58_link_false` | Verif/HugePage/Props.lean | A block given back while nothing is free keeps what the program stored in its first word as the link to the next free block (l.150-155): here the program's data is taken for the address of a block it still holds. |
| `C58_wrap_false` | Verif/HugePage/Props.lean | A request of nearly 2^64 bytes wraps to none (l.85-87): it succeeds, with no memory, and the next request is given the same address. |
| `C59_count_false` | Verif/Aligned/Props.lean | `size * sizeof(T)` wraps in `alloc_align<T>` (l.64-70): 2^61 + 1 elements of 8 bytes are given 8 bytes. |
| `C59_power_false` | Verif/Aligned/Props.lean | The precondition admits alignments that are no powers of two; for those the result need not be a multiple. |
| `C59_wrap_false` | Verif/Aligned/Props.lean | Sizes near 2^64 wrap in `size + align` (l.44): `malloc` is asked for 15 bytes and the block does not hold the bytes that were requested. |
| `C60_dims_false` | Verif/Serial/Props.lean | For integral element types the dimension is not compared (l.139-149: the comparison is in the other branch): a matrix is accepted for a vector block. |
| `C60_format_false` | Verif/Serial/Props.lean | The storage format is not looked at: the same descriptor is accepted whatever format it states, so memory that holds split complex values is accepted for a block that reads interleaved ones. |
| `C60_storage_false` | Verif/Serial/Props.lean | `describe_data` of a view that is accessed directly records the number of its elements as storage size, not the extent of its memory: for every other element of a vector the described elements lie outside of the described storage. |
| `C60_stride_false` | Verif/Serial/Props.lean | Three-dimensional descriptors are accepted whatever the middle stride is (l.126-128): here rows of 4 elements lie 5 apart, and element (0, 1, 0) is not where the dense block looks for it. |
| `C61_offset_false` | Verif/Dft/Props.lean | It does not otherwise: the split 3-D transforms and `dftm` go wrong on arrays with a line 2^31 elements from the start. |
| `C62_one_false` | Verif/Toep/Props.lean | With one unknown the code reads the first element of an empty view (l.66), whatever the input. |
| `C62_zero_false` | Verif/Toep/Props.lean | A regular matrix with a zero in the corner: the code divides by zero (l.66) and does not throw. The system has the solution (2, 1). |
| `C63_alias_false` | Verif/Vmmul/Props.lean | A vector that is a row of the destination is changed while it is still needed, so the result is not the product with the row as it was. |
| `C63_case2_false` | Verif/Vmmul/Props.lean | The mapping the comment of l.122-125 calls case 2 ("vector data mapped distributed, matrix data mapped with same distribution along vector direction, and no distribution perpendicular") is not accepted for a vector along the rows' direction of a `Map<Block_dist, Whole_dist>`: the projection mixes up the types (see `C11_col_types_false`). |
| `C63_short_false` | Verif/Vmmul/Props.lean | Nothing checks the length of the vector: with a short one the evaluation reads past its end. |
| `C64_double_false` | Verif/Blas/Props.lean | The dot product of `complex<double>` vectors passes through a `float`: 2^24 + 1, a `double` but not a `float`, is not returned. |
| `C64_empty_false` | Verif/Blas/Props.lean | Empty inner dimension: the product of a 2 x 0 and a 0 x 2 matrix is zero, but dense row-major 2 x 0 matrices have a leading dimension of zero, which the BLAS refuses; the product of a column-major 2 x 0 matrix and an empty vector leaves the result as it was. |
| `C64_long_false` | Verif/Blas/Props.lean | Vectors of 2^32 elements: the size becomes zero when converted to `int`, and so does the dot product, whatever the values are. |
| `C64_negative_false` | Verif/Blas/Props.lean | A matrix whose rows are in reverse order, times a matrix: accepted by `rt_valid`, but the BLAS refuses a negative leading dimension and computes nothing, whatever the values are. |
| `C64_outer_gap_false` | Verif/Blas/Props.lean | The outer product into a submatrix: the number of columns is passed for the leading dimension, so rows after the first are written to the wrong place, also outside of the submatrix. |
| `C64_result_stride_false` | Verif/Blas/Props.lean | Matrix times matrix into a view whose elements are not adjacent: `rt_valid` looks at the operands only, so the product is accepted and written to the wrong places (here `[1] * [1 2]` into every other column). |
| `C64_reversed_false` | Verif/Blas/Props.lean | A column-major matrix times a reversed vector: `gemv` is given the pointer to the first element together with a negative increment, which the BLAS takes for a vector *starting at the far end* of where it lies (`dot` corrects for this, `gemv` does not). Memory outside of the vector is read. |
| `C64_submatrix_false` | Verif/Blas/Props.lean | A row-major submatrix times a vector: the number of columns is passed for the leading dimension, so the rows after the first are read from the wrong place (here the left 2 x 2 part of a 2 x 3 matrix). |
| `C64_submatrix_vecmat_false` | Verif/Blas/Props.lean | The same for a vector times a column-major submatrix. |
| `C65_prodq_false` | Verif/Solver/Props.lean | With the skinny `Q` saved, `Q₁ B` and `B Q₁ᴴ` are accepted (sizes and storage are as required) but never computed: the temporary has the size of `B`, so the assignment to the larger result reads outside of it. |
| `C65_rank_false` | Verif/Solver/Props.lean | Rank deficient systems are not reported: `decompose` of the zero matrix returns `true`, `covsol` and `lsqsol` then divide by zero. |
| `C65_singular_false` | Verif/Solver/Props.lean | `solve` never reports a failure: whatever it computes, it returns `true`; for a matrix without an inverse it divides by zero. |
| `C66_bessel_false` | Verif/Window/Props.lean | `bessel_I_0` is not accurate to 1.6e-7 as its comment claims: the coefficients are (but for the signs) those of Abramowitz and Stegun 9.4.1, for `J_0`, and not those of 9.8.1, for `I_0`. At 3 it is off by more than 1.8e-4, more than a thousand times as much. |
| `C66_hanning_false` | Verif/Window/Props.lean | `hanning` with 2^32 elements or more never ends: its counter is an `unsigned int`, which returns to 0 before it has reached the length. |
| `C67_int_false` | Verif/Fftw/Props.lean | C67 is false. FFTW's sizes and strides are `int`: a one-dimensional transform of 2^32 + 8 elements is planned as one of 8, and the plan of a 2 x 65536 x 65536 array has stride 0 in its first dimension, so that two elements of the output share a place. |
| `C67_split_rows_false` | Verif/Fftw/Props.lean | C67 is false (split storage). With an alignment of 16 bytes, transforms of 2 single precision complex numbers count as aligned, because the flags and the strides are computed for interleaved numbers; the real parts of the second row are at byte 8. |
| `C67_split_sep_false` | Verif/Fftw/Props.lean | C67 is false (split storage). FFTW requires that the separation of the real from the imaginary parts is that of the arrays planned for. An inverse transform passes them exchanged, also of the very buffers it was planned for, so the separation is never the same. |
| `C68_failure_false` | Verif/Svd/Props.lean | C68 is false (reporting failure). `decompose` never returns `false`, so that the `computation_error` of the interface by value is never thrown: when `bdsqr` does not converge its wrapper aborts the program. |
| `C68_u_false` | Verif/Svd/Props.lean | C68 is false (the check of `u` by value). `svd<T, by_value>::u` accepts `high` equal to the number of columns that are stored, one too many; the requirement of the object behind it fails then. |
| `C69_alias_false` | Verif/Rbo/Props.lean | C69 is false (`x = fft(x)`). Assigning the transform of a block to that block itself runs the out of place transform with input and output in the same place. With the default transform, of any length from 2 on, element 1 of the result is wrong whenever elements 1, 2, ... of `x` do not add up to 0: it is too large by that sum. |
| `C69_deferred_false` | Verif/Rbo/Props.lean | C69 is false (by value). If the argument is changed after the call and before the first look at the result, the result is that of the changed argument; and of two copies of one result, one looked at before and one after the change, the values differ. |
| `C69_domain_false` | Verif/Rbo/Props.lean | C69 is false (first index and stride). `input_size` and `output_size` are documented to return domains with first index 0 and stride 1; they return the domain given to the constructor, whatever its first index and stride. |
| `C69_fftm_real_false` | Verif/Rbo/Props.lean | C69 is false (distributed real transforms). A row-wise real transform of a distributed matrix whose rows are whole is rejected for every row length above 2, because the domains of input and output, which have `n` and `n/2 + 1` columns, are required to be equal. |
| `C69_power_false` | Verif/Rbo/Props.lean | C69 is false (`is_power_of_two`). It takes an `unsigned`: of 3 * 2^32 it sees 0, which it counts as a power of two. |
| `C70_col_false` | Verif/Py/Props.lean | C70 is false (columns of submatrices). `get_col` and `diag` drop the offset: column 0 of `m[1:3, 0:4:2]` starts at element 0, and not at element 4. |
| `C70_component_false` | Verif/Py/Props.lean | C70 is false (components as a whole). The component block offers direct data access with a pointer to scalars and the strides of the complex block, half of what they should be: `v.real().copy()` of `(1 + 2i, 3 + 4i)` is `1, 2`. |
| `C70_large_step_false` | Verif/Py/Props.lean | C70 is false (large steps). A slice with a step that reaches past the end selects one element. On a strided vector the product of step and stride overflows. |
| `C70_lifetime_false` | Verif/Py/Props.lean | C70 is false (lifetime of arrays). An array made from a block is to keep the storage alive. Its base object refers to the block by a C++ reference, which Python does not count: after `a = vector(array=[1.,2.]).__array__()` the storage is gone while `a` still points to it. |
| `C70_overlap_false` | Verif/Py/Props.lean | C70 is false (shared elements). `v[1:4] = v[0:3]` calls `memcpy` on overlapping regions, which is undefined, and `v[:] = v[::-1]` of three elements reads elements it has already overwritten: the result is `v2, v1, v2`. |
| `C70_ref_false` | Verif/Py/Props.lean | C70 is false (references). `ref(i)` adds the index to the offset without multiplying by the stride. |
| `C70_reversed_false` | Verif/Py/Props.lean | C70 is false (reversed columns). A matrix with its columns reversed, `m[:, ::-1]`, cannot be sliced: `m[:, ::-1][:, :]` builds a domain of physical coordinates that runs from 0 downwards, which the constructor of `Domain<1>` refuses by assertion. |
| `C70_row_false` | Verif/Py/Props.lean | C70 is false (rows of submatrices). `get_row` drops the offset of the block and takes the columns to be adjacent: row 0 of `m[1:3, 0:4:2]` is found at the first two elements of `m`, and not at elements 4 and 6. |
| `C70_row_range_false` | Verif/Py/Props.lean | C70 is false (rows out of range). `get_row` does not compare its index with the number of rows: `m[3]` of a 3 by 4 matrix is a vector outside the storage of 12 elements. Access by `get` compares, and raises an exception. |
| `C70_size_false` | Verif/Py/Props.lean | C70 is false (sizes). For the empty slice `m[0:0, :]` of a matrix with three columns, `size(0)` is 3: the idiom `a and b or c` takes zero rows for false. |
| `C70_str_false` | Verif/Py/Props.lean | C70 is false (printing). The empty vector, such as `v[0:0]`, cannot be printed: `__str__` asks for element -1. |
| `C70_zero_false` | Verif/Py/Props.lean | C70 is false (initial values). `vector(float, n, 0.)` is documented to be initialised to zero. The idiom `value and a or b` takes zero for an absent value and leaves the storage uninitialised. |
| `C70_zero_step_false` | Verif/Py/Props.lean | C70 is false (zero step). `v[::0]` should raise an exception. `PySlice_GetIndicesEx` reports the error, but `slice_to_domain` ignores the status and uses the variables it never set. |
| `C71_compare_false` | Verif/Ssar/Props.lean | C71 is false (comparison). If some pixel is not a number, `diffview` is to print 201. That value is overwritten, and the maximum passes over pixels that are not numbers: an image of which all pixels but the first are not numbers is reported as equal to the reference. |
| `C71_odd_false` | Verif/Ssar/Props.lean | C71 is false (odd sizes). With an odd number of pulses, the zero padding writes one element less than the row has, and leaves the last one as it was: here the result is what the buffer held, whatever the echo. |
| `C71_ref_false` | Verif/Ssar/Props.lean | C71 is false (reference, tall). With more fast time samples than lines of output, the constructor of both variants, which shifts the reference with `freqswap<col>`, accesses columns outside the matrix. |
| `C71_uninitialised_false` | Verif/Ssar/Props.lean | C71 is false (reference, wide). With fewer fast time samples than lines of output, as in the data set that comes with the benchmark (1072 and 1144), the columns of the shifted reference from 1072 on are never set, and the spectrum of the variant for graphics processors there is a multiple of what storage held. |
| `C72_bits_false` | Verif/Wav/Props.lean | C72 is false (sample size). Samples of 12 bits take two bytes; the decoder finds twice as many, of one byte. For samples of less than 8 bits it divides by zero. |
| `C72_channels_false` | Verif/Wav/Props.lean | C72 is false (channels). The encoder writes files of more than four channels, which the decoder refuses. |
| `C72_end_false` | Verif/Wav/Props.lean | C72 is false (no data). If a file has no data chunk, or ends before it, the decoder never returns. |
| `C72_frame_false` | Verif/Wav/Props.lean | C72 is false (incomplete frame). The decoder reads as many bytes as the file says, though the size it returned is that of whole frames: five bytes of stereo are written to a buffer of four. |
| `C72_odd_false` | Verif/Wav/Props.lean | C72 is false (odd chunks). Chunks of odd size are followed by a byte of padding, which the decoder does not pass over: it never finds the data of a file with a text of odd length, and never returns. |
| `C72_order_false` | Verif/Wav/Props.lean | C72 is false (order of chunks). If a chunk of more than 40 bytes comes before the format, the decoder reads it into the structure for the format, and past its end, before it looks at the identifier. |
| `C72_riff_false` | Verif/Wav/Props.lean | C72 is false (file size). The size in the file header is to count what follows it; the encoder writes the size of the whole file, 8 more. So nothing it writes is a file as RIFF defines it. |
| `C72_short_false` | Verif/Wav/Props.lean | C72 is false (short files). If the file ends within the data, reading succeeds, and the rest of the buffer is as it was. |
| `C72_size_false` | Verif/Wav/Props.lean | C72 is false (size). Sizes are computed with 32 bits: of 2^29 frames of two channels with four bytes, nothing is written but the header. |
| `C72_swap_false` | Verif/Wav/Props.lean | C72 is false (byte order). `byteswap` leaves its argument as it was. On a host that stores the most significant byte first, the file starts with `FFIR`, and is not recognised as a wave file. |
| `C72_twice_false` | Verif/Wav/Props.lean | C72 is false (16 bits). On such a host, even if `byteswap` swapped, samples of 16 bits would be written twice, the second time in the order of the host: the branch for other sizes is taken too. |
| `C73_copy_false` | Verif/Io/Props.lean | C73 is false (copies). The copy of an object has the same handle, which is closed with the first of the two: what `viewtopng` does when it passes its data set by value. The data set cannot be used after, and is closed again. |
| `C73_extent_false` | Verif/Io/Props.lean | C73 is false (extent). `query_extent<2>`, with which `viewtopng` starts, of a data set of three dimensions stores three sizes in an array of two, before it compares. |
| `C73_gray_false` | Verif/Io/Props.lean | C73 is false (grey levels). For a range of 2^127, which single precision can hold, the product with 255 is infinite, and so is what is converted. |
| `C73_large_false` | Verif/Io/Props.lean | C73 is false (large images). Offsets of rows are products of 32 bits: in an image of 70000 by 70000, row 61357 of the file is not that of the matrix, but bytes from 22704 on. |
| `C73_shape_false` | Verif/Io/Props.lean | C73 is false (shape). The decoder takes the height for the width. No image that is not square can be read into a matrix of its size; and one that is higher than wide is read into a square matrix, where row 1 does not start where that of the matrix does. |
| `C73_sixteen_false` | Verif/Io/Props.lean | C73 is false (16 bits). Samples of 16 bits are copied without change of byte order: on a host that stores the least significant byte first, what is read is the sample of the file only if both bytes are equal. |
| `C73_status_false` | Verif/Io/Props.lean | C73 is false (status). If a data set of real numbers is read into a complex view, `H5Dread` fails, but reading returns, and the view is what direct data access gave. |
| `C73_types_false` | Verif/Io/Props.lean | C73 is false (types). Every call of `has_value_type` leaves a type open, and for complex numbers two. |
| `C74_conj_false` | Verif/Cv/Props.lean | C74 is false (conjugation, zero padding). Conjugation is passed to the library as conjugate transposition (by `rsol` and `prodq`, which do not refuse it), and minimal support with zero padding as full support. |
| `C74_copy_false` | Verif/Cv/Props.lean | C74 is false (copies of solvers). The copy of a solver that holds a decomposition has none: `solve` returns `true` and the right sides, not the solution. |
| `C74_empty_false` | Verif/Cv/Props.lean | C74 is false (empty views). For an empty vector with stride 2 the block claims 2^64 - 1 elements of storage. |
| `C74_fir_false` | Verif/Cv/Props.lean | C74 is false (filters on reversed vectors). The pointer passed is that of the first element. For stride -1 and `n` elements the filter reads the `n` elements after it, in reversed order, none of which belongs to the vector. |
| `C74_fix_false` | Verif/Cv/Props.lean | C74 is false (few outputs). Three coefficients of a symmetric kernel, three inputs and decimation 8 give one output for full support, but three are corrected: the second is written far outside. |
| `C74_herm_false` | Verif/Cv/Props.lean | C74 is false (conjugate transposition). For `Q` of 5 rows and 3 columns, `Qᴴ B` with `B` of 5 rows is refused, and `B` of 3 rows is required: rows and columns are exchanged twice. |
| `C74_hint_false` | Verif/Cv/Props.lean | C74 is false (the hint). Who asks for speed is given little space, and who asks for little space is given speed. |
| `C74_leak_false` | Verif/Cv/Props.lean | C74 is false (views are not destroyed). The views made of user data are never destroyed: after `k` calls of a filter, two views each, `4 k` objects of the library remain. |
| `C74_outside_false` | Verif/Cv/Props.lean | C74 is false (greater results). `Q B` has more rows than `B` when `Q` has more rows than columns: the intermediate matrix has the size of `B`, and the copy to the result reads outside of it. |
| `C74_real_false` | Verif/Cv/Props.lean | C74 is false (real transforms). The view of the result of a real transform of length `n > 2` has `n` elements, though the result has `n/2 + 1`: it is bound to storage after the result. |
| `C74_refused_false` | Verif/Cv/Props.lean | C74 is false (refused operations). For real matrices conjugate transposition is transposition, and for complex ones transposition is meaningful, but both are refused with an exception. |
| `C74_return_false` | Verif/Cv/Props.lean | C74 is false (the value returned). `prodq` returns the status of the library as it is: `false` for success, `true` for failure. |
| `C74_reversed_false` | Verif/Cv/Props.lean | C74 is false (reversed views). A view of a reversed vector of four elements lies outside the block: its second element is before the first of the block. |
| `C74_split_false` | Verif/Cv/Props.lean | C74 is false (split storage). The dot product of a column of a matrix in split storage, stride 2, with a vector reads the first row instead: offset and stride are dropped. |
| `C74_status_false` | Verif/Cv/Props.lean | C74 is false (failures are not reported). After a decomposition that failed, `solve` returns `true` and the right sides; `qrd::decompose` returns `true` itself. |
| `C74_stride_false` | Verif/Cv/Props.lean | C74 is false (split storage, transforms). Rows of a column-major argument in split storage, transformed into a row-major result (here the identity as transform): row 0 of the 2 by 2 matrix is `0, 2`, and `0, 1` is read. |
| `C75_alias_false` | Verif/Prod/Props.lean | C75 is false (overlap). With the matrices `A = [1 2; 3 4]`, `B = [5 6; 7 8]`: the second element of the first row of `A = prod(A, B)` is 130, of the product 22; of `B = prod(A, B)` the lower left is 85 instead of 43; and `A = prodt(A, A)` gives 23 instead of 11. |
| `C75_narrow_false` | Verif/Prod/Props.lean | C75 is false (results of a narrower type). Sums are kept in the type of the result: the product of `[1/2 1/2]` with a column of ones, assigned to a matrix of integers, is 0, though its value is 1. |
| `C75_unchecked_false` | Verif/Prod/Props.lean | C75 is false (sizes are not checked). `prodh`, `prodj` and `prodt` accept any sizes, `prod3` and `prod4` any second argument: with too few rows (columns for `prodh` and `prodt`) they read outside of it; with more than three rows `prod3` leaves out those in excess. |
| `C76_bnot_false` | Verif/Elem/Props.lean | C76 is false (`bnot` of truth values). `~` of a `bool` is computed in `int`, where it is never zero: `bnot` of a view of `bool` is true everywhere. |
| `C76_compare_false` | Verif/Elem/Props.lean | C76 is false (comparisons of mixed signs). The values are compared in the type C++ converts both to: with a view of `int` and a view of `unsigned`, `-1` is larger than `1`, and equals the largest `unsigned`. |
| `C76_fuse_false` | Verif/Elem/Props.lean | C76 is false (fusion). Otherwise the fused block gives another value, another type or undefined behaviour. `300 * 300 + 1` with products of `short` and an `int` is `90001` fused and `24465` when the product is a view of `short`; `65535 * 32768 + 65535` over `unsigned short` overflows `int` when fused, and is `32767` otherwise; `A + B * C` with `A` of `char` and the others of `float` is a view of `float` when fused and of `char` otherwise. |
| `C76_ite_false` | Verif/Elem/Props.lean | C76 is false (`ite` of other types). The type of `ite(p, a, b)` is promoted from that of the condition. For unsigned types, `signed char`, `long long` and `long double` it stays `bool`: the choice between `5` and `7` is `1` either way. |
| `C76_jmul_false` | Verif/Elem/Props.lean | C76 is false (`jmul` keeps the first type). The product is stored in the first argument, and the variable of the promoted type is not used. Whatever `double` holds and `float` does not is rounded when the first argument is complex `float`: `1` times `v` is `v` rounded to `float`, although the result is complex `double`; with a complex `int` first, `1` times `0.5` is `0`. |
| `C76_minmg_false` | Verif/Elem/Props.lean | C76 is false (`minmg`). The smaller magnitude of two complex views is a complex view, whereas the larger one is real. |
| `C76_promotion_false` | Verif/Elem/Props.lean | C76 is false (missing promotions). The table has no row for `char` and no entry for unsigned types or `long double`; what is missing is the left type. A view of `char` plus a view of `float` is a view of `char`: `2 + 0.5` is `2`, whereas `0.5 + 2` is `2.5`; an unsigned `3` times `0.5` is `1`; a `bool` plus an unsigned `5` is `1`; a `double` plus a `long double` is a `double`. |
| `C77_bank_false` | Verif/Hpec/Props.lean | C77 is false (filter bank). `ImplFast` uses the first filter for all rows: with the filters 1 and 2 of one coefficient, the second row of the result is that of the filter 1. |
| `C77_bins_false` | Verif/Hpec/Props.lean | C77 is false (doppler bins). If their number is not a multiple of four, `ImplHybrid` reads outside of the cube, whatever it contains. |
| `C77_coefficients_false` | Verif/Hpec/Props.lean | C77 is false (more coefficients than points). The filters are copied to columns that do not exist. |
| `C77_counts_false` | Verif/Hpec/Props.lean | C77 is false (counts). Wherever the window is cut on the left, `gates_used` is one less than the number of cells summed; where it is cut on the right, one more. |
| `C77_replica_false` | Verif/Hpec/Props.lean | C77 is false (replica). The timed loops run with a replica of zeros that is not transformed (l.92-97): the data become zero. |
| `C77_room_false` | Verif/Hpec/Props.lean | C77 is false (room). `located` has 30 columns: with 32 bins, in each of them a strong first gate, `ImplVector` writes outside of it; `ImplSlice` counts 32, and the check of the results that follows reads as many. |
| `C77_targets_false` | Verif/Hpec/Props.lean | C77 is false (targets). Three gates, one cell on each side: 12, between cells of 1, is 144 times the mean of the squares and not found; 8 after a 1 is 64 times the square before it and is reported, with the threshold 100. |
| `C77_wrap_false` | Verif/Hpec/Props.lean | C77 is false (first values). With the filter 1, 1 on three points 1, 2, 3 the first value is 4, though the output of the filter is 1. |
| `C78_bits_false` | Verif/Util/Props.lean | C78 is false (overlap). `m ^= m.transpose()` uses elements that have been overwritten: with 1, 2, 4, 8 in a matrix of two rows the element below the diagonal becomes 2 instead of 6. |
| `C78_complex_false` | Verif/Util/Props.lean | C78 is false (complex numbers). Complex numbers are compared part by part: a difference of a billionth of the modulus counts as inequality if it falls on a part that is zero. |
| `C78_cumsum_false` | Verif/Util/Props.lean | C78 is false (running sums). The count for running sums of `n` numbers is that of computing each sum afresh, `n (n - 1) / 2` additions; adding each number to the sum before takes `n - 1`, so the count is too large for every `n` of three or more. |
| `C78_default_false` | Verif/Util/Props.lean | C78 is false (instants by default). A duration by default, `zero()` and an instant by default have no defined value, and so has a total that starts from one, whatever is added; a total that starts from a given value is right. |
| `C78_distance_false` | Verif/Util/Props.lean | C78 is false (distances). With a difference of two the distance to a later iterator is not negative: from 6 back to 2 it is 2147483646, though two steps lead from 2 to 6. |
| `C78_gemp_false` | Verif/Util/Props.lean | C78 is false (transposed products). The count of a matrix product takes sizes from the matrices as stored: for the transpose of 2 by 3 times 2 by 5, a result of 3 by 5 whose elements are inner products of length 2, it is 80 instead of 90. |
| `C78_polar_false` | Verif/Util/Props.lean | C78 is false (polar coordinates over other elements). If the moduli go to the real parts of the following elements, later elements are computed from moduli (here with the sum of the parts in place of the modulus). |
| `C78_postfix_false` | Verif/Util/Props.lean | C78 is false (postfix increment). `it++` returns a reference to a local object, so a loop that reads `*it++` has no defined value, whatever the range, unless it is empty. |
| `C78_print_false` | Verif/Util/Props.lean | C78 is false (printing tensors). The elements of a row of a tensor are printed without anything between: 1, 23 and 12, 3 give the same text. |
| `C78_scalar_false` | Verif/Util/Props.lean | C78 is false (a value of the vector itself). `v ^= v(0)` takes its argument by reference: the first step makes it zero, so that the other elements stay as they are. |
| `C78_tsc_false` | Verif/Util/Props.lean | C78 is false (time stamp counters). A counter is converted to `float` before it is scaled: after some minutes at one tick a nanosecond, readings a thousand ticks apart are the same, so the time between them is zero. |
| `C78_zero_false` | Verif/Util/Props.lean | C78 is false (no absolute tolerance). Without an absolute tolerance zero does not compare equal to itself: the relative error is a quotient of zeros. |
| `C79_mix_false` | Verif/Spmd/Props.lean | C79 is false (mixing local and distributed data). The check looks at the map of the first operand that is not a scalar (binary.hpp l.28-40, ternary.hpp l.28-43): a distributed array may be assigned the sum of a distributed and a local array; a local array may be assigned `ite(scalar, scalar, distributed)` or a ramp plus a distributed array. |
| `C79_replicated_false` | Verif/Spmd/Props.lean | C79 is false (index functions on replicated arrays). A vector replicated over processes 2 and 7 of the communicator {2, 3, 7} is assigned a ramp: process 3, which holds none of it, asks the `Replicated_map` for the domain of subblock `no_subblock`, and the assertion `sb == 0` stops it (expr.hpp l.150-152, replicated_map.hpp l.159-162). The same vector distributed by a `Map` over processes that do not include all is accepted. |
| `C80_expression_false` | Verif/ViewProg/Props.lean | C80 is false (expressions). An unevaluated expression does not keep its operands: reading `e = a + b` after `a` is gone is undefined behaviour, though `b`'s subview is kept. |
| `C80_local_false` | Verif/ViewProg/Props.lean | C80 is false (local copies). `as_local_view` gives a read-only view for a modifiable view and a modifiable one for a read-only view. |
| `C80_map_false` | Verif/ViewProg/Props.lean | C80 is false (distribution of copies). A vector constructed from a modifiable vector has the default map, not that of its source. |
| `C80_overlap_false` | Verif/ViewProg/Props.lean | C80 is false (overlap). `t += t.transpose<2,1,0>()` reads elements it has already changed. |
| `C80_proxy_false` | Verif/ViewProg/Props.lean | C80 is false (references). The reference `m.row(0)(1)` is a proxy that points into the temporary row: used after the statement it is undefined behaviour, though `m` still exists; the same reference made from the matrix itself works. |
| `C80_range_false` | Verif/ViewProg/Props.lean | C80 is false (ranges). A tensor's `operator()` checks nothing: `t(0,0,4)` of a 2×3×4 tensor is `t(0,1,0)`. |
| `C80_scalar_false` | Verif/ViewProg/Props.lean | C80 is false (scaling a tensor by one of its elements). `t *= t(0,0,0)` multiplies the first element by itself and all others by the square; the same statement on a vector or matrix is right. |
| `C80_sizes_false` | Verif/ViewProg/Props.lean | C80 is false (sizes). The sum of a vector of two and a vector of one element is accepted (the comparison of the sizes is commented out); its first element can be read, its second is read outside the operand. |
| `C80_swap_false` | Verif/ViewProg/Props.lean | C80 is false (exchange). `std::swap` of two elements of a row copies the proxy instead of the number (`T tmp(a); a = b; b = tmp`) and loses one of them. |
| `C81_check_false` | Verif/Turn/Props.lean | C81 is false (check of the columns). `Impl_alltoall` compares the number of columns of all receivers with the number of rows: a 48 by 64 matrix, which two processes can exchange, is rejected; no matrix that is not square passes. |
| `C81_fixup_false` | Verif/Turn/Props.lean | C81 is false (`test_fixup`). A process that is the second sender and the first receiver copies its second column block into the first row block: element (0, 0) of the matrix, which has arrived, is overwritten with element (1, 1), and element (1, 0) never arrives. |
| `C81_local_copy_false` | Verif/Turn/Props.lean | C81 is false (local copy of persistent requests). A process that is the second sender and the first receiver copies its second column block into the first row block, and its columns are wrong. |
| `C81_phase_false` | Verif/Turn/Props.lean | C81 is false (rotated receives). The subblock of a receive is an unsigned difference modulo the number of senders: when that number does not divide 2^64, the first receiver never receives from some sender. Of three processes two wait for ever. |
| `C82_calibration_false` | Verif/Bench/Props.lean | C82 is false (calibration). If the measured times are zero, the loop count grows until its conversion from `float` is undefined. |
| `C82_last_argument_false` | Verif/Bench/Props.lean | C82 is false (last argument). An option at the end of the command line without its value reads a null pointer. |
| `C82_latency_false` | Verif/Bench/Props.lean | C82 is false (latency). With `-lat` and more than one sample the number printed as least is the greatest. |
| `C82_linear_goal_false` | Verif/Bench/Props.lean | C82 is false (linear progression). The next loop count is chosen for twice the size, whatever the next size is: with `-linear 100 -start 10` every row after the first is measured for little more than half of the goal of 250 ms. |
| `C82_milliseconds_false` | Verif/Bench/Props.lean | C82 is false (`-ms`). The goal of `-ms 250` is 2.5 seconds, not 250 milliseconds: the value is divided by 100. |
| `C82_no_samples_false` | Verif/Bench/Props.lean | C82 is false (no samples). With `-samples 0` the median is read outside the vector of times. |
| `C82_sizes_false` | Verif/Bench/Props.lean | C82 is false (sizes). `-linear 100 -center 1000 -stop 30 -start 0` measures size 4294966796 where the progression is at -500; the 32nd power of two is a shift by 32; an empty `-mfile` gives a last index of 2^32 - 1 and a first size outside the array; `-steady 31` measures size 2^64 - 2^31. |
| `C82_steady_false` | Verif/Bench/Props.lean | C82 is false (steady state of fast calls). If the measured time is zero, or the number of calls that takes the goal is 2^31 or more, the conversion to `int` is undefined. |
| `C83_access_false` | Verif/Ocl/Props.lean | C83 is false (synchronisation of copied blocks). When the block is not accessed directly, `sync_in` copies the old copy on the host, not what the block holds now, and `sync_out` does not reach the block before the object is destroyed. |
| `C83_buffer_assign_false` | Verif/Ocl/Props.lean | C83 is false (assignment of buffers). `buffer::operator=` has no return statement: every assignment is undefined, and with it every allocation of an OpenCL storage. |
| `C83_callback_false` | Verif/Ocl/Props.lean | C83 is false (callback of a context). The runtime keeps the address of the variable that created the context: once this variable is destroyed, an error of the context, still referred to by a copy, is reported to a dead variable; for `default_context` the variable is a temporary, so every report is undefined. |
| `C83_device_copy_false` | Verif/Ocl/Props.lean | C83 is false (copies of devices). The copy constructor of `device` does not retain, its destructor releases: when a copy and its original are destroyed (as in `devices.push_back(device(id))`) the reference of the rest of the program is gone too, and the next call of its owner is undefined. |
| `C83_layout_false` | Verif/Ocl/Props.lean | C83 is false (layout and size of buffers). For a block with an OpenCL buffer the requested order is ignored, and `storage_size` is in bytes instead of elements. |
| `C83_long_text_false` | Verif/Ocl/Props.lean | C83 is false (long texts). A text with more than 1023 characters, as lists of extensions are, throws. |
| `C83_null_destroyed_false` | Verif/Ocl/Props.lean | C83 is false (null kernels). The destructors of `kernel` and `program` release the handle without testing it: destroying a default-constructed kernel ends the program, and so does `device`. |
| `C83_python_data_false` | Verif/Ocl/Props.lean | C83 is false (Python: no data). An empty list written, or no elements read, takes the address of the first element of an empty vector. |
| `C83_python_kernel_false` | Verif/Ocl/Props.lean | C83 is false (Python: kernels without buffers). A kernel called without buffers throws "too many arguments". |
| `C84_columns_false` | Verif/Dsp/Props.lean | C84 is false (odd numbers of samples). The last column of the magnitudes is never set. |
| `C84_delay_false` | Verif/Dsp/Props.lean | C84 is false (delays of more than half of the time). The difference is unsigned: a delay of `d` samples is estimated as 2^64 - (N - d) samples. |
| `C84_freqz_false` | Verif/Dsp/Props.lean | C84 is false (points of `freqz`). For the unit delay and two points, the second value is -1, the response at π; by the description (freqz.hpp l.46) it would be that at π/2. |
| `C84_length_false` | Verif/Dsp/Props.lean | C84 is false (output length). 2^24 + 1 is not a single: rounded to even it is 2^24, and with every 16th value kept the output has room for one value too few, into which the second method does not fit. |
| `C84_real_false` | Verif/Dsp/Props.lean | C84 is false (odd numbers of samples, real input). The last value of the spectrum is never set (with one sample, the bound of the loop wraps and it runs out of the vector). |
| `C85_allreduce_false` | Verif/Mpi/Props.lean | C85 is false (reductions of integers). `alltrue` and `anytrue` of integers are bitwise (reductions/functors.hpp l.38-39, 76-77), but `allreduce` uses the logical operations of MPI: 6 and 3 on two processes give 1, not 2; 2 and 4 give 1, not 6. |
| `C85_broadcast_false` | Verif/Mpi/Props.lean | C85 is false (broadcast). The number of elements is converted to `int`: 2^32 elements are not sent at all, 2^31 are an error. |
| `C85_equal_false` | Verif/Mpi/Props.lean | C85 is false (comparison). Comparing a null communicator with itself throws: MPI_Comm_compare does not accept MPI_COMM_NULL. |
| `C85_exclude_false` | Verif/Mpi/Props.lean | C85 is false (excluding nothing). `exclude` with an empty range of iterators of a `std::vector` gives the group without processes (group.hpp l.92) instead of the whole group; with pointers it gives the whole group. |
| `C85_index_false` | Verif/Mpi/Props.lean | C85 is false (own index). With the communicator of the default constructor, which has no processors in its list (communicator.cpp l.28-31), as default communicator `local_processor_index` runs off its end; with a null communicator, as processes outside a task have, `num_processors` throws though declared not to. |
| `C85_map_false` | Verif/Mpi/Props.lean | C85 is false (maps and the default communicator). A map keeps a reference to the default communicator (map.hpp l.143), not the communicator it was made with: used inside a task it sends to other processes than outside, or to none; and maps made for different processes compare equal. |
| `C85_null_false` | Verif/Mpi/Props.lean | C85 is false (calls outside a task). A call in a task without the test for a null communicator fails in the processes that do not take part, and so does a task directly inside another one. |
| `C85_processor_set_false` | Verif/Mpi/Props.lean | C85 is false (set of processors). `processor_set` keeps its first result (vsip/impl/parallel.hpp l.22-36): in a task of two of four processes it has four elements if it was called before the task. |
| `C85_supported_false` | Verif/Mpi/Props.lean | C85 is false (reductions of other types). Sums of `signed char`, `char` and complex numbers have an MPI datatype but are refused, as are sums of `bool`; means and the like are not handled. |
| `C85_translate_false` | Verif/Mpi/Props.lean | C85 is false (translated ranks). For a process that is not in the other group `translate_ranks` gives the value of MPI_UNDEFINED, not `no_rank` as `rank` does (group.hpp l.41, 121-122): as `index_type` it is 18446744073709518850. |
| `C86_512_false` | Verif/Access/Props.lean | C86 is false (aligned_512). `is_packing_aligned` has no entry for `aligned_512`, so `is_compatible` takes the branch of `any_packing`: a failed assertion, or without assertions a direct grant of data that is not even adjacent. |
| `C86_aligned_false` | Verif/Access/Props.lean | C86 is false (aligned). A request for `aligned` data divides by the boundary, which is zero: the test of any block that has the order and format asked for does, and so does the layout of a copy. |
| `C86_allocation_false` | Verif/Access/Props.lean | C86 is false (allocation). Memory is allocated on the boundary of the build (`OVXX_ALLOC_ALIGNMENT`, 32 by default), whatever the packing: a block stored with `aligned_64` is handed out for `aligned_64` without a look at its address, and a copy for `aligned_64` is put in such memory, too. |
| `C86_flat_size_false` | Verif/Access/Props.lean | C86 is false (size of a copied line). Undecided access with one dimension to a dense matrix reports the number of rows instead of the number of elements if it has to copy. |
| `C86_layout_type_false` | Verif/Access/Props.lean | C86 is false (layout type). The layout an accessor names for a request that leaves the packing open is dense where the block promises nothing, though the strides are the block's own. |
| `C86_part_false` | Verif/Access/Props.lean | C86 is false (parts as one line). A part of a dense matrix of split data is handed out directly with one dimension, but its stride is the stride of its rows. |
| `C86_python_false` | Verif/Access/Props.lean | C86 is false (Python blocks). Blocks of the Python bindings declare themselves dense. `v[::2]` of a vector of ten numbers shares its data with stride 2 and is handed out directly to functions asking for dense data. |
| `C86_rt_size_false` | Verif/Access/Props.lean | C86 is false (size with a run-time layout). `size()` of access with a run-time layout is the number of elements if it is direct and includes the padding if it copies. |
| `C86_split_false` | Verif/Access/Props.lean | C86 is false (split data). `is_compatible` multiplies strides by the size of the complex value; the arrays of split data have elements of half that size. The second row of this matrix starts 8 bytes after a multiple of 16. |
| `C86_storage_size_false` | Verif/Access/Props.lean | C86 is false (storage size). `storage_size()` of direct access is the number of elements, also where padding puts the last element behind that. |
| `C87_again_false` | Verif/RtFmt/Props.lean | C87 is false (destruction after `deallocate()`). Of storage of a run-time format: an assertion fails, whatever the format; without assertions, for split data, a pointer never set is freed. The classes of fixed format are destroyed without harm. |
| `C87_any_false` | Verif/RtFmt/Props.lean | C87 is false (unknown format). Storage asked for in an unknown format stops a checked build; in others it reports success with no memory, as does that of an accessor. |
| `C87_buffer_false` | Verif/RtFmt/Props.lean | C87 is false (another format's buffer). An accessor for split data takes a buffer that is an array; copying into it stops a checked build, and uses a pointer never set in others. |
| `C87_const_false` | Verif/RtFmt/Props.lean | C87 is false (constant pointers). Constant pointers hand out an array as a pair, with a second pointer never set, in checked builds too. |
| `C87_create_false` | Verif/RtFmt/Props.lean | C87 is false (failed construction). When the second array of split storage cannot be had during construction, the first is never freed, in either class: the destructor of an object whose constructor throws does not run. |
| `C87_element_false` | Verif/RtFmt/Props.lean | C87 is false (elements). `get` and `put` of storage of a run-time format use the first element, whatever the index; for split data they do not compile, nor does `offset`. |
| `C87_format_false` | Verif/RtFmt/Props.lean | C87 is false (reported format). Storage resized to a buffer of another format still reports the old one. |
| `C87_null_false` | Verif/RtFmt/Props.lean | C87 is false (null pairs). A null pointer of split format leaves its second pointer unset, and hands it out. |
| `C87_over_false` | Verif/RtFmt/Props.lean | C87 is false (allocating over a buffer). `allocate()` on storage of a run-time format that refers to a user's buffer replaces the buffer by memory it will not free. |
| `C87_resize_false` | Verif/RtFmt/Props.lean | C87 is false (failed resizes). When the memory for a resize cannot be had, storage of a run-time format cannot be destroyed: an assertion fails, or for split data a pointer never set is freed; when the second of two arrays cannot be had, the first is lost. |
| `C87_retry_false` | Verif/RtFmt/Props.lean | C87 is false (trying again). After a resize that failed, the same resize reports success, and the storage has no memory — or, for split data, only that of the real parts. |
| `C87_twice_false` | Verif/RtFmt/Props.lean | C87 is false (allocating twice). `allocate()` on storage of a run-time format that has its memory loses that memory: it is still in use after destruction. The classes of fixed format do nothing in this case. |
| `C87_user_false` | Verif/RtFmt/Props.lean | C87 is false (freeing a buffer). `deallocate()` on storage that refers to a user's buffer frees the buffer, in every class. |
| `C88_copies_false` | Verif/Lazy/Props.lean | C88 is false (copies). An operation is not always applied once: two assignments from copies of an expression made before it was read apply it twice, from one expression only once. |
| `C88_kept_false` | Verif/Lazy/Props.lean | C88 is false (kept expressions). A kept expression does not keep its meaning: `e = reverse(v)`, not read so far, has in `w = e + 0` the values `v` has then; if an element of `e` was read before `v` was changed, it has the old ones, unlike `w = reverse(v) + 0` and unlike `v + 0` kept the same way. |
| `C88_overlap_false` | Verif/Lazy/Props.lean | C88 is false (overlap). The condition of `C88_assign` cannot be left out: writing `v(i+1) = v(i) + reverse(v)(i)` from the front does not give the values on the memory before, though the operation itself has them. |
| `C88_visit_false` | Verif/Lazy/Props.lean | C88 is false (nodes of an expression). "Traversal traverses expression block trees, applying the given functor to each node" is false: in `w = v + (v + reverse(v))` the sum in parentheses has a `const` type, so its arguments are not visited; nor is the argument of a diagonal. The operation is left to the first element of the loop. |
| `C89_axis_false` | Verif/PyMath/Props.lean | C89 is false (axis). An axis that is neither 0 nor 1 is not refused: it is taken for 1. |
| `C89_bool_false` | Verif/PyMath/Props.lean | C89 is false (truth values). The type of a block of truth values, `numpy.bool_`, is not in the table, which has Python's `bool`: an array of truth values does not become a vector, and the result of `v == w` cannot be sliced. |
| `C89_cast_false` | Verif/PyMath/Props.lean | C89 is false (casts and submatrices). `cast` and `matrix.submatrix` raise an exception for all arguments. |
| `C89_complex_false` | Verif/PyMath/Props.lean | C89 is false (forms of complex types). `fftm` and `iir` refuse `numpy.complex128`, though they take `complex` and the type of a block of the same numbers, and refuse single precision, for which `fftm` has a module. |
| `C89_convert_false` | Verif/PyMath/Props.lean | C89 is false (conversion of integers and truth values). The table of modules has `_block_i` for `bool` and `_block_b` for `int`: converting the first such view raises an exception, and loads the other type's blocks. |
| `C89_fft_false` | Verif/PyMath/Props.lean | C89 is false (complex FFTs). There are modules for complex FFTs and correlations, but they cannot be reached: `dtype in (complex)` raises an exception for every type that is not real. So no FFT object works in place. |
| `C89_int_false` | Verif/PyMath/Props.lean | C89 is false (integers). `vector(int, n)` is a vector, but `vector(array=[1, 2, 3])` and `ramp(int, 0, 1, n)`, whose arrays have 64-bit integers, raise an exception. |
| `C89_left_out_false` | Verif/PyMath/Props.lean | C89 is false (functions left out). Not every function of `elementwise` works on numbers of every type it has a meaning for: `arg` of real numbers and the choice `ite` between complex ones raise an exception; `ite` by truth values does for all types. |
| `C89_loaded_false` | Verif/PyMath/Props.lean | C89 is false (types not loaded). A result of a type of which no block was made before cannot be returned: after making complex vectors only, `magsq` and `arg` raise an exception, as `euler` does after real ones, and `eq` until blocks of truth values are made (by `==`, which loads them). |
| `C89_matvec_false` | Verif/PyMath/Props.lean | C89 is false (functions that never work). `prodh`, `prodj`, `prodt` raise an exception for all arguments, and so do `kron` and `outer` of vectors of one type; of different types `outer` returns `None`, as `cvjdot`, `gemp`, `gems` and `cumsum` always do, and `kron` an array without the factor. `herm` of a real matrix raises an exception. |
| `C89_mixed_false` | Verif/PyMath/Props.lean | C89 is false (mixed products). `prod` has code for arguments of different types; it uses a name that is not defined and raises an exception for all of them. |
| `C89_parallel_false` | Verif/PyMath/Props.lean | C89 is false (parallel blocks). Distributed blocks cannot be made from arrays, nor of complex numbers in double precision, for which the source file has a name without the underscore. |
| `C89_sizes_false` | Verif/PyMath/Props.lean | C89 is false (unequal sizes). `mul(v, w)` with `w` shorter than `v` is not refused but reads behind the end of `w`; with `w` longer the rest is ignored. Functions of three arguments compare sizes and raise an exception. |
| `C89_solvers_false` | Verif/PyMath/Props.lean | C89 is false (solvers that never work). LU and Cholesky solvers cannot be created for any type, and the covariance and Toeplitz functions, the triangular solve of `qrd` and the products with singular vectors raise an exception whatever they are given. |
| `C90_conversions_false` | Verif/ParView/Props.lean | C90 is false (transposed and partial views, local views). For views of a transposed matrix or of a sub-domain of a distributed array, asking for the subblock of an index ends the program; for local views the question does not compile. |
| `C90_diag_false` | Verif/ParView/Props.lean | C90 is false (diagonals). A diagonal of a distributed matrix has the map of the matrix, whose domains have two dimensions and contain no index of the diagonal at all. |
| `C90_dim_false` | Verif/ParView/Props.lean | C90 is false (one dimension of a given subblock). `global_from_local_index(view, dim, sb, idx)` never compiles. |
| `C90_index_nothing_false` | Verif/ParView/Props.lean | C90 is false (whole indices without data). On a processor which holds nothing, `global_from_local_index(view, idx)` does not say that there is no such index: with assertions it ends the program, without them it names an element held by another processor. |
| `C90_nested_local_false` | Verif/ParView/Props.lean | C90 is false (local views of sub-domains of sub-domains). On every processor which holds something of `A(dom)(dom')`, asking for the local view ends the program. |
| `C90_patch_cyclic_false` | Verif/ParView/Props.lean | C90 is false (patches of cyclic views). The patch named may also exist and be another one: the element is not in it. |
| `C90_patch_false` | Verif/ParView/Props.lean | C90 is false (patches). `patch_from_global_index` returns the subblock: for a view in two blocks, the patch it names for an element of the second subblock does not exist. |
| `C90_permuted_false` | Verif/ParView/Props.lean | C90 is false (permuted tensors). A permuted tensor has the map of the tensor: its domains contain indices the view does not have. |
| `C90_replicated_nothing_false` | Verif/ParView/Props.lean | C90 is false (replicated views without data). On a processor outside the set of a replicated view, the functions about the local processor end the program when assertions are compiled in, and otherwise describe the whole view as if it were there. |
| `C90_subset_nothing_false` | Verif/ParView/Props.lean | C90 is false (partial views without data). On a processor which holds nothing of a view of a sub-domain, the functions about the local processor end the program when assertions are compiled in, and otherwise read before the beginning of a vector. |
| `C90_subset_transposed_false` | Verif/ParView/Props.lean | C90 is false (sub-domains of transposed matrices). The map of `A.transpose()(dom)` is the map of the whole transposed matrix: its domains contain indices the view does not have. |
| `C90_transposed_nothing_false` | Verif/ParView/Props.lean | C90 is false (transposed views without data). `no_subblock` fails the precondition of the functions of a transposed map, whatever the map below would answer: with assertions, asking on a processor without data for the domain of a transposed matrix ends the program. |
| `C91_mixed_false` | Verif/UserElt/Props.lean | C91 is false (functions of vectors and expressions). `binary` and `ternary` deduce one view template for all arguments, so a `Vector` and the result of another call, which is a `const_Vector`, cannot be combined: no such call compiles. |
| `C91_nested_false` | Verif/UserElt/Props.lean | C91 is false (functions of functions). A view made by `unary` with a function that changes the type is not accepted by `unary` again, nor as an argument of `ternary`: for no function, explicit result type or other views does the call compile. |
| `C91_sum_false` | Verif/UserElt/Props.lean | C91 is false (sums of unary results). `sumval(unary(f, v))` converts the sum to the element type of `v`: with integers and the function `x / 2` in real numbers the sum over three ones is 1, though the elements of the view are 1/2 each and a vector of real numbers initialised from it has the sum 3/2. |
| `C91_ternary_adaptable_false` | Verif/UserElt/Props.lean | C91 is false (adaptable ternary objects). There is no overload of `ternary` for objects without an explicit result type. |
| `C91_unary_adaptable_false` | Verif/UserElt/Props.lean | C91 is false (adaptable unary objects). `fns_userelt.hpp` l.225-240 is an overload of `unary` for objects with `result_type`, but it calls `std::ptr_fun` with the object: no call of it compiles, while the corresponding call of `binary` compiles for all functions and views of one kind. |
| `C91_unary_type_false` | Verif/UserElt/Props.lean | C91 is false (element type of unary results). The view returned by `unary` has the element type of the argument as template argument, whatever the function returns (`operators.hpp` l.30-32): for every function whose result type differs, the view's type is not that of its elements. |
| `C92_axis_false` | Verif/PySig/Props.lean | C92 is false (axes). An axis other than 0 and 1 is not refused: the object computes along axis 1 while its attribute has the number given. |
| `C92_conv_false` | Verif/PySig/Props.lean | C92 is false (convolution). The constructor of `conv` does not pass a kernel, nor has it a parameter for one: it raises an exception whatever it is given. |
| `C92_corr_false` | Verif/PySig/Props.lean | C92 is false (correlation). The constructor of `corr` passes the region first where the C++ function has it third: with the arguments its parameters are named after, it raises an exception. |
| `C92_direction_false` | Verif/PySig/Props.lean | C92 is false (directions). A direction other than `fwd` and `inv` is not refused: the object keeps it in its attribute and computes the inverse transform. |
| `C92_enum_false` | Verif/PySig/Props.lean | C92 is false (enumerations as numbers). A member of an enumeration is taken for a number: two arguments exchanged give an FFT of length 2 instead of an error. |
| `C92_iir_false` | Verif/PySig/Props.lean | C92 is false (IIR filters). The constructor of `iir` refuses matrices, as it passes them and not their blocks; and of blocks it takes the numerators for `a`, the denominators for `b`, against the names in the C++ class. |
| `C92_reset_false` | Verif/PySig/Props.lean | C92 is false (resetting filters). Both kinds of filter keep a state that the C++ class can reset, but a FIR filter cannot be reset from Python. |
| `C92_size_false` | Verif/PySig/Props.lean | C92 is false (sizes in calls). A vector of another size ends the program, as the C++ function is declared not to throw; it is not an exception Python could handle. |
| `C92_zeropad_false` | Verif/PySig/Props.lean | C92 is false (zero padded regions). `support_region.min_zeropad` can be asked for, but gives a convolution or correlation of the region `min`. |
| `C93_iterator_false` | Verif/Persist/Props.lean | C93 is false (comparing and counting iterators). Iterators over different vectors are equal if their positions are, because `operator==` compares the address of its left operand's block with itself; the difference of iterators `2 ^ 31` elements apart is negative; the value of `i++` and `i--` is a reference to a variable that no longer exists. |
| `C93_part_false` | Verif/Persist/Props.lean | C93 is false (real and imaginary parts). The real or imaginary part of a complex vector which is not split is always copied, whatever its length and stride: a distributed assignment to it loses every message. |
| `C93_receive_false` | Verif/Persist/Props.lean | C93 is false (receiving). If the local block of the destination must be copied, every message is lost: after any number of executions the block holds what it held before with the elements copied by the process itself, as if no message had come. |
| `C93_send_false` | Verif/Persist/Props.lean | C93 is false (sending directly). If the source is reached directly and shares its data with the destination, what the process stores while its messages are under way changes them. |
| `C93_write_false` | Verif/Persist/Props.lean | C93 is false (writing). Whatever policy a `Persistent_data` is given (`dda::out`, or `dda::inout`, the default): if the block cannot be reached directly, nothing written through its pointer arrives in the block, not by `sync_out` and not by the destructor, because the accessor inside always has the policy `dda::in`. |
| `C94_below_false` | Verif/Radar/Props.lean | C94 is false (interpolation before the first sample). Before the first sample place `lerp` does not give the first sample but continues the first line: with rising samples the value is below every sample. |
| `C94_chirp_false` | Verif/Radar/Props.lean | C94 is false (rate of chirps). The frequency of a chirp constructed with a frequency rate other than zero does not change by that rate per second: it changes by twice the rate, downwards. |
| `C94_empty_false` | Verif/Radar/Props.lean | C94 is false (interpolation without samples). Without samples every call with a place reads outside the vectors. |
| `C94_grid_false` | Verif/Radar/Props.lean | C94 is false (grid of processors). With an odd number of processors from five on the grid leaves out a processor. |
| `C94_integral_false` | Verif/Radar/Props.lean | C94 is false (integral without samples). Without samples, or with fewer values than places, `ctrapz` has no result: the lengths `len - 1` wrap around, the subviews lie outside. |
| `C94_inverse_false` | Verif/Radar/Props.lean | C94 is false (inverting the distribution). With equally spaced places the transformed sample is one step below the place where the integral of the density has the value of the uniform sample: at every place `v` between the second and the last, the sample `u` with integral `u` at `v` is transformed to `v - h`. |
| `C94_negative_false` | Verif/Radar/Props.lean | C94 is false (small samples). Every uniform sample below the area of the first interval (in particular zero) is transformed to a value below the first place, where the density is not defined: the clutter voltages can be negative. |
| `C94_noise_false` | Verif/Radar/Props.lean | C94 is false (noise of long arrays). The length of the noise is computed by dividing by the time sound needs along the sensors instead of multiplying by it: if that time is two seconds or more, the part of the noise of the last of several sensors (in the first direction) ends outside. |
| `C94_tone_false` | Verif/Radar/Props.lean | C94 is false (negative half waves). Every sample of a sine below minus one after scaling is converted to an unsigned type that cannot hold it: the conversion has no defined value. |
| `C95_circular_false` | Verif/Custom/Props.lean | C95 is false (circular convolution with long kernels). With a kernel that is longer by two or more than the input the index of the input wraps around and lies outside. |
| `C95_dda_false` | Verif/Custom/Props.lean | C95 is false (custom product with pointers, columns). The evaluator accepts a second matrix of any number of columns, but with any number of columns except none and four (eight in the example itself) it reads outside one of the arrays: the loops go over `n` rows of four elements instead of four rows of `n`. |
| `C95_kernel_false` | Verif/Custom/Props.lean | C95 is false (padding the kernel). The padded kernel is not padded with zeros: behind the kernel it holds what the memory held, so for every kernel shorter than the input some memory gives values other than zero. |
| `C95_mirror_false` | Verif/Custom/Props.lean | C95 is false (mirrored spectra of odd length). For odd lengths from five on the wrong value is mirrored: the spectrum of a real signal is changed whenever the two values in the middle of the lower half differ. For lengths below two the loop leaves the vector. |
| `C95_qr_false` | Verif/Custom/Props.lean | C95 is false (the QR example). The QR example says it solves `A x = b` but calls the covariance solver: its result does not solve `A x = b`. |
| `C95_resample_end_false` | Verif/Custom/Props.lean | C95 is false (end of the interpolation). Where a value of the result falls on the last sample it is zero, whatever the sample: the example's own constant vector is not kept. |
| `C95_resample_false` | Verif/Custom/Props.lean | C95 is false (interpolation at a sample). Where a value of the result falls on sample `j` (in particular the first value) the fused interpolation gives the next sample. |
| `C95_rows_false` | Verif/Custom/Props.lean | C95 is false (custom product with pointers, rows). The evaluator does not look at the distance between rows: for the left half of a matrix of eight columns the wrong elements are taken. With a first matrix whose only element other than zero is a one in row 0 and column 1 the first element is that of row 0 and column 4 of the whole second matrix instead of row 1 and column 0. |
| `C95_sizes_false` | Verif/Custom/Props.lean | C95 is false (backends chosen by size). The backend for powers of two is also taken for size 0 and for sizes like `3 * 2^32`, whose lower 32 bits are zero. |
| `C96_complex_range_false` | Verif/TestRef/Props.lean | C96 is false (range of complex random data). Only the real part is moved: the imaginary part stays between 0 and 1. |
| `C96_conv_false` | Verif/TestRef/Props.lean | C96 is false (convolutions with long kernels). With full support, if the kernel has at least two elements more than the input, the output after the length of the input makes the reference read outside the input. The library accepts such kernels and computes a value. |
| `C96_dft_sizes_false` | Verif/TestRef/Props.lean | C96 is false (transforms to more precision). Complex numbers of single precision to complex numbers of double precision: the assertion, which looks at the sizes of the types, refuses the transform with as many outputs as inputs. |
| `C96_diff_false` | Verif/TestRef/Props.lean | C96 is false (distances of small vectors). The distance is not relative: vectors of small elements are accepted whatever their difference is, even a vector and its negative, and a vector and zero. |
| `C96_grid_false` | Verif/TestRef/Props.lean | C96 is false (processors in grids). Some processors may be left out: one of five. |
| `C96_negated_false` | Verif/TestRef/Props.lean | C96 is false (the distance of a vector and its negative). The comment says 0 decibel; the ratio is 2, that is 3 decibel. |
| `C96_outer_false` | Verif/TestRef/Props.lean | C96 is false (outer products of a real and a complex vector). The reference conjugates nothing then; the library makes the same mistake (`C50_outer_false`), so that a comparison of the two finds no difference. |
| `C96_precision_false` | Verif/TestRef/Props.lean | C96 is false (the lowest bit of precision). The result is half of the lowest bit: the loop ends when the sum is rounded to 1. |
| `C96_random_false` | Verif/TestRef/Props.lean | C96 is false (independent random data). Every vector and every matrix is filled by a new generator with the same seed: two vectors of one length are equal, of two lengths one begins with the other, and two matrices of one size and order are equal. So the right-hand side of a system made in this way is the matrix itself, and the solution the unit matrix. |
| `C96_scale_false` | Verif/TestRef/Props.lean | C96 is false (the scale of unbiased correlations). With same support and a reference of even size the reference function divides by a number which is not the number of products, as the library does (`C43_same_false`): the comparison cannot find the mistake. |
| `C97_create_map_false` | Verif/BenchOps/Props.lean | C97 is false (all processors but the first). The loop that lists them runs over all processors: it always puts an element after the end of the vector. |
| `C97_fir_blocks_false` | Verif/BenchOps/Props.lean | C97 is false (blocks of a fixed problem). The blocks of `t_fir2` have stride 0: each is one element, repeated. The elements met are the multiples of the block size, so that of any problem of at least two elements element 1 is neither read nor written. |
| `C97_fir_false` | Verif/BenchOps/Props.lean | C97 is false (the check of the FIR benchmark). With `-p:d 3` the first call leaves a fraction of the decimation to the next one, whose outputs belong to other inputs: the check fails from the second call on, for the smallest size already. |
| `C97_maps_false` | Verif/BenchOps/Props.lean | C97 is false (pipeline on one processor). The map of the processors that are neither first nor last is asked for a vector of `2^64 - 1` processors when there is only one. |
| `C97_maxval_false` | Verif/BenchOps/Props.lean | C97 is false (the check of `maxval` for a long ramp). The last two of `2^26` elements are the same `float`, so that the maximum is found before the last one and the check fails. |
| `C97_simd_false` | Verif/BenchOps/Props.lean | C97 is false (SIMD stores). If the size is no multiple of the vector size, the simple loop writes after the end of the view, and the unrolled one leaves the last element as it is, so that the check fails. |
| `C97_stream_false` | Verif/BenchOps/Props.lean | C97 is false (STREAM with many loops). From 33 loops on, the numbers of `A` are no `float`s any more and the check of the benchmark fails, whatever the size: with `-loop_start 33` or more, the program stops. |
| `C97_stream_int_check_false` | Verif/BenchOps/Props.lean | C97 is false (checks with `int`). The relative error is computed by an integer division: any sum is accepted that is more than half of what it should be. |
| `C97_stream_int_false` | Verif/BenchOps/Props.lean | C97 is false (STREAM with `int`). After eight loops the elements are no `int`s; ten loops are the default. |
| `C97_vmmul_check_false` | Verif/BenchOps/Props.lean | C97 is false (the check of a product on several processors). With a vector along the columns the check goes through all rows of the matrix on every processor: on a processor that has not all of them it reads outside of its part. |
| `C97_vmmul_elems_false` | Verif/BenchOps/Props.lean | C97 is false (elements written by a product). The elements written are counted like those read: the vector, which is not written, is among them; and a vector that is shorter than the number of columns is not counted at all. |
| `C97_vmmul_ops_false` | Verif/BenchOps/Props.lean | C97 is false (operations of a large product). With 8192 rows, the operations of 65536 columns, the largest of the sweep, do not fit in an `int`: 281 million million operations per point are reported in place of 49152. |
| `C98_equal_empty_false` | Verif/DomainN/Props.lean | C98 is false (empty domains). "Two domains are equal if and only if they contain exactly the same indices" (l.458-461): a domain of no rows and 3 columns and one of no rows and 4 columns contain none, and are not equal. |
| `C98_product_equal_false` | Verif/DomainN/Props.lean | C98 is false (products of equal domains). A domain from 0 to 2 and one from 2 down to 0 are equal; twice the one ends at 4, twice the other would begin at 2 and end below 0: products and quotients of equal domains need not be equal. |
| `C98_size_false` | Verif/DomainN/Props.lean | C98 is false (sizes). A domain of 2^32 rows and 2^32 columns is not empty and has size 0. |
| `C99_dimension_false` | Verif/Vocab/Props.lean | C99 is false (dimensions of a vertex). Asking a vertex of two or three coordinates for one it does not have is caught by an assertion (or reads after the array without); a vertex of one coordinate has that coordinate in every dimension. |
| `C99_endian_false` | Verif/Vocab/Props.lean | C99 is false (byte order). On a big-endian processor, however it is recognised, the marker is defined as nothing and tested with `#if`: the header, and every program that includes it to swap bytes, does not compile, so `is_big_endian` is never true. |
| `C99_same_ptr_false` | Verif/Vocab/Props.lean | C99 is false (comparison of pointers). A pointer to complex numbers and a pointer to the real part of the first of them are never the same. |

### Partial

| theorem | file | what it says |
|---|---|---|
| `C01_div_partial` | Verif/Domain/Props.lean | C01 (division), proved only for non-negative strides. Missing: negative strides, for which the property is false of the code (`C01_div_neg_false`). |
| `C02_complete_partial` | Verif/Domain/Props.lean | C02 (completeness), proved for domains with at least two distinct indices. Missing: domains with at most one index, for which the property is false of the code (`C02_false`). |
| `C03_intersectN_partial` | Verif/Domain/Props.lean | C03 (two, three, any number of dimensions). Missing: empty domains, see `C03_empty_false`. |
| `C03_intersect_partial` | Verif/Domain/Props.lean | C03 (one dimension): `intersect` computes exactly the common indices. Missing: empty domains, see `C03_empty_false`. |
| `C100_domain_partial` | Verif/PyMap/Props.lean | C100, partial (subblock domains). For vectors, the domain of a subblock has as many elements as there are indices in that subblock, and the domain of a processor that is not listed is empty. Missing: matrices and tensors (`C100_domain_false`). |
| `C100_local_partial` | Verif/PyMap/Props.lean | C100, partial (local indices). Indices of the same subblock with the same local indices in all directions are the same. Missing: indices outside the shape (`C100_local_false`). |
| `C100_refused_partial` | Verif/PyMap/Props.lean | C100, partial (wrong arguments). Shapes and indices of no or more than three entries, and domains of no or more than three dimensions, raise `ValueError`; indices with a negative entry raise `OverflowError`. Missing: other wrong arguments (`C100_refused_false`). |
| `C101_ops_partial` | Verif/BenchCorr/Props.lean | C101, partial (operations). With minimal support the operations counted are those of the products made. Missing: full and equal support (`C101_ops_false`). |
| `C101_pages_partial` | Verif/BenchCorr/Props.lean | C101, partial (huge pages). For 1 to 127 pages the memory mapped has that many pages, and one byte of each of them, inside the memory, is touched. Missing: more pages (`C101_pages_false`). |
| `C102_outer_partial` | Verif/ProdVar/Props.lean | C102, partial (outer products). Variant 2 gives the product of real matrices, or of complex ones if the second is real. Missing: other complex matrices, see `C102_outer_false`, and matrices without rows. |
| `C102_rows_partial` | Verif/ProdVar/Props.lean | C102, partial (loops using first rows). The variants 3 and 5 give the product of matrices that have rows. Missing: matrices without, see `C102_rows_false`. |
| `C103_check_partial` | Verif/BenchConv/Props.lean | C103, partial (check). With full support the check accepts the result for all coefficients that fit; with equal support those of two or three rows and columns, with minimal support those of three by three. Missing: other sizes, see `C103_check_false`. |
| `C103_sizes_partial` | Verif/BenchConv/Props.lean | C103, partial (sizes). For coefficients that fit into the input, the benchmarks make an output of exactly the size the convolution asks for. Missing: other sizes, see `C103_sizes_false`. |
| `C104_transfers_partial` | Verif/MpiSend/Props.lean | C104, partial (transfers). In each mode and for any number of calls, each call transfers as many floats as the vectors have, no type is used before it is made or after it is freed, and every type is freed once. Missing: vectors of 2^31 elements and more, see `C104_size_false`. |
| `C11_col_partial` | Verif/Map/Props.lean | C11, column of a matrix (`matrix.col(i1)`). *Partial*: only compiles when both distributions have the same type. |
| `C11_replicated_partial` | Verif/Map/Props.lean | If the parent is replicated over all processors the slice is, too. Missing: other processor sets, see `C11_replicated_false`. |
| `C11_tensor_02_partial` | Verif/Map/Props.lean | C11, first and third dimension of a tensor fixed. *Partial*: the result type is `Map<D2>` but the argument has type `D1`. |
| `C11_tensor_12_partial` | Verif/Map/Props.lean | C11, second and third dimension of a tensor fixed. *Partial*: the result type is `Map<D2>` but the argument has type `D0`. |
| `C11_tensor_1_partial` | Verif/Map/Props.lean | C11, second dimension of a tensor fixed (`tensor(whole, i1, whole)`). *Partial*: the code copies distribution 0 with the type of distribution 1 (`copy_dist<D1>(map, 0)`), so it only compiles when the two have the same type. |
| `C11_tensor_2_partial` | Verif/Map/Props.lean | C11, third dimension of a tensor fixed. *Partial*: only compiles when all three distributions have the same type. |
| `C12_subset_partial` | Verif/Map/SubsetProps.lean | C12. `D` is the sub-domain, with position `k` standing for the parent's index `elemN D k`. The entries `es` of the new map are its subblocks: every position is in exactly one of them, which is held by the processor holding the parent's element, and the parent-local domain gives, at the same place, the parent's local index. Missing: empty sub-domains, see `C12_empty_false`, and the reported extents, see `C12_extent_false`. |
| `C15_chained_partial` | Verif/Distributed/Props.lean | C15 (partial: data whose element is one unit of the chain, i.e. all types but interleaved complex; see `C15_complex_false`). Chained assignment between any two arrays whose maps partition the same index space: in whatever order the processes run and however the MPI library buffers, when all have finished every process holds the right-hand side's value in every element it holds of the left-hand side, and no other memory has changed. |
| `C15_maps_partial` | Verif/Distributed/Props.lean | C15, instance: both sides are distributed by a `Map`. Missing: interleaved complex data, as above. |
| `C15_replicate_partial` | Verif/Distributed/Props.lean | C15, instance: from a `Map` to a `Replicated_map` (the way distributed data become local, assign_local.hpp). Missing: interleaved complex data, as above. |
| `C19_aligned2col_partial` | Verif/Layout/Props.lean | C19, aligned columns built from an extent (partial: see `C19_aligned2col_sizes_false` for the other constructor) |
| `C20_cols_partial` | Verif/Layout/Props.lean | C20, columns, constructor from an extent. Missing: the constructor from sizes, see `C20_ctor_false`. |
| `C21_aligned2_partial` | Verif/Layout/Props.lean | C21, aligned matrices, element size 1: same offsets and strides (partial: not the total size, see below, and not for `aligned_512` or other element sizes) |
| `C21_aligned3_partial` | Verif/Layout/Props.lean | C21, aligned tensors, element size 1, every order: also the total size |
| `C24_exchange_partial` | Verif/Views/Props.lean | The permutations that exchange two dimensions of row-major data (and the identity) report the right order; the two rotations do not. Missing: the two rotations, see `C24_permuted_false`. |
| `C24_permuted_partial` | Verif/Views/Props.lean | C24. The order a permuted view reports is correct exactly when it lists, in the parent's order, the view dimensions showing them; for instance for all permutations that exchange two dimensions of row-major data. Missing: the other permutations, see `C24_permuted_false`. |
| `C28_disjoint_partial` | Verif/Assign/Props.lean | C28 for matrices that share no memory, whichever strategy is picked, except the generic fallback from column-major to row-major for matrices that are not square. Missing: that fallback, see `C28_fallback_false`. |
| `C28_inplace_partial` | Verif/Assign/Props.lean | C28, in place: assigning the transpose of a square matrix to itself. Missing: other views that start at the same element, see `C28_same_ptr_false`. |
| `C31_chains_partial` | Verif/Chain/Props.lean | C31 (chains). Copying a chain to another one of the same byte count, neither containing an empty record, moves the `k`-th element of the source to the `k`-th position of the destination whatever the record boundaries are, writes nothing else, terminates and meets the final precondition. Partial: chains without records and records without elements are excluded (`C31_empty_record_false`). |
| `C35_range_float_partial` | Verif/Random/Props.lean | Exactly the 128 largest integers round to one. Missing: those integers, see `C35_range_float_false`. |
| `C35_row_partial` | Verif/Random/Props.lean | C35 (vectors and row-major views). Element `i`, `(i,j)`, `(i,j,k)` of a view in row-major order gets the number with its row-major position. Missing: other dimension orders, see `C35_colmajor_false`. |
| `C39_integer_partial` | Verif/Signal/Hist.lean | C39 for integer values whose range is a multiple of the number of intervals: then the bin is the right one. Missing: other ranges, see `C39_integer_false`. |
| `C40_axis_cols_partial` | Verif/Signal/Swap.lean | C40 for the swap along the columns of square matrices (missing: other shapes, see `C40_axis_cols_false`) |
| `C41_kernel_size_partial` | Verif/Signal/Props.lean | C41, partial (helpers for the size of the kernel): for vectors the helper gives the size of the kernel that is built; for matrices it does unless the kernel is symmetric of even size, where it gives one column too few. Missing: that case, see `C41_kernel_size2_false`. |
| `C43_unbiased_partial` | Verif/Signal/Props.lean | C43: with full and minimum support each output is divided by the number of products contributing to it; with same support for references of odd size and away from the end of the output (missing: `C43_same_false`) |
| `C47_swap_matrix_partial` | Verif/Select/Props.lean | C47 for dense matrices: swap exchanges the contents when both have the same dimension order (missing: different orders, see `C47_swap_order_false`) |
| `C48_vector_mean_partial` | Verif/Reduce/Props.lean | as `C48_vector_sum_partial`, for meanval |
| `C48_vector_meansq_partial` | Verif/Reduce/Props.lean | as `C48_vector_sum_partial`, for meansqval; long single-precision vectors also have to be real, that is `magsq z` has to be what is extracted from `z * z` (see `C48_meansq_complex_false`) |
| `C48_vector_sum_partial` | Verif/Reduce/Props.lean | C48 for vectors in memory: the sums are right when the vector is short, not single precision, or has unit stride (missing: long strided vectors, see `C48_stride_false`) |
| `C48_vector_sumsq_partial` | Verif/Reduce/Props.lean | as `C48_vector_sum_partial`, for sumsqval |
| `C50_gemp_partial` | Verif/Matvec/Props.lean | C50: gemp, when the type of alpha holds the products of the elements (missing: narrower types of alpha, see `C50_gemp_false`) |
| `C50_kron_matrices_partial` | Verif/Matvec/Props.lean | C50: kron of matrices, when the type of alpha holds the products (missing: narrower types of alpha, see `C50_kron_false`); every element of the result is covered |
| `C50_outer_partial` | Verif/Matvec/Props.lean | C50: outer product, when alpha and `v` are complex or `w` is real (missing: real alpha and `v` with complex `w`, see `C50_outer_false`) |
| `C55_history_partial` | Verif/Coherence/Props.lean | C55 for blocks without user storage: a read on host or device sees the most recent write on either side and no copy touches unallocated memory, provided references from `at()` are written only when a host write by `put` or pointer has followed the last device access. Missing for the full claim: unguarded writes through references and blocks with user storage, for which it is false (below). |
| `C56_history_partial` | Verif/Refcount/Props.lean | C56: under every legal history of fewer than 2^32 operations no null pointer, destroyed object or destroyed handle is accessed, and at every point (the prefixes of a legal history are legal) the objects alive are exactly those with a reference. Missing for the full claim: assigning a null handle, assigning from or to a handle that goes away with the old object, `reset` with increment to an object that only this handle refers to, and more than 2^32 references, for all of which it is false (below). |
| `C56_once_partial` | Verif/Refcount/Props.lean | C56: an object that has been destroyed stays destroyed: with the theorem above, it is destroyed exactly once, when its last reference goes. Missing: as above. |
| `C57_end_partial` | Verif/Library/Props.lean | C57, continued: when the other threads have destroyed their objects and thread 0 destroys its last, the global parts are torn down exactly once, and with MPI the thread's allocator and communicator are gone. Missing: as above; without MPI the allocator stays, see `C57_allocator_false`. |
| `C57_interleaved_partial` | Verif/Library/Props.lean | C57, with or without MPI, and any interleaving of the threads' steps: once thread 0 has made its object, and while it keeps one, the other threads may make and destroy objects as they like: the global parts are set up exactly once and not torn down, nothing is undefined, and a thread whose constructor has returned has its allocator and (with MPI) its communicator. Missing: threads that race for the first or the last object, see `C57_race_init_false`, `C57_race_fin_false`. |
| `C57_serial_partial` | Verif/Library/Props.lean | C57, without MPI: when the calls run one at a time – from any number of threads, in any order, as often as one likes – the global parts are set up each time the first object appears and torn down each time the last goes, and at no other time; so they are up exactly while there is an object. A thread that has an object has its default allocator. Missing: simultaneous calls, see `C57_race_init_false`, `C57_race_fin_false`; MPI, see `C57_mpi_again_false`. |
| `C58_data_partial` | Verif/HugePage/Props.lean | C58, data: after such a history, asking for memory or giving some back changes no word of the blocks the program keeps. Missing: as above. |
| `C58_history_partial` | Verif/HugePage/Props.lean | C58 for the histories of `PoolOk`: the allocator never goes wrong, the blocks the program holds are apart, inside the pool and 128-byte aligned, the reported amount is the number of free bytes, and a request fails only if no run of free bytes is long enough. Missing: other histories, see `C58_join_false`, `C58_end_false`, `C58_link_false`, `C58_wrap_false`. |
| `C60_accept_3_partial` | Verif/Serial/Props.lean | C60, three dimensions, any order – for descriptors whose middle stride (which is not checked) is right. Missing: other middle strides, see `C60_stride_false`. |
| `C60_dims_partial` | Verif/Serial/Props.lean | C60, dimension, for element types that are not integral: only descriptors of the block's dimension are accepted. Missing: integral element types, see `C60_dims_false`. |
| `C61_offset_partial` | Verif/Dft/Props.lean | `offset` moves both pointers by the given number of elements when it fits an `int`. Missing: greater numbers, see `C61_offset_false`. |
| `C62_definite_partial` | Verif/Toep/Props.lean | A definite matrix (the quadratic form of every leading block vanishes at zero only) is never refused: the solution is returned. Missing: one unknown and a zero first entry, see `C62_one_false`, `C62_zero_false`. |
| `C62_solves_partial` | Verif/Toep/Props.lean | For two or more unknowns and a first entry whose real part is not zero, `toepsol` stays inside its vectors and either returns a solution of the system, or throws and then a leading block of the matrix is singular (`w` is a nonzero vector it sends to zero). Partial: one unknown, and a zero first entry, are excluded (see the two theorems below). |
| `C64_dot_partial` | Verif/Blas/Props.lean | The dot product, with strides of either sign or zero. Partial: for complex types `toFloat` must not change the result (`C64_double_false`), and sizes and strides have to fit an `int` (`C64_long_false`). |
| `C64_dotc_partial` | Verif/Blas/Props.lean | `dot(a, conj(b))`. Partial as `C64_dot_partial`. |
| `C64_gemp_accepted_partial` | Verif/Blas/Props.lean | Operands of any strides whose lines do not overlap: whenever the evaluator of matrix products accepts them, the product is right. So operands whose elements are not adjacent are declined. Partial as `C64_gemp_partial`. |
| `C64_gemp_partial` | Verif/Blas/Props.lean | `gemp`, any of the eight combinations of orders: `R := alpha A B + beta R`, and nothing else is written. Partial: nothing in the evaluator makes sure that the result has adjacent elements (`C64_result_stride_false`), that strides are positive (`C64_negative_false`), that the inner dimension is not empty (`C64_empty_false`) or that numbers fit an `int`. |
| `C64_matvec_accepted_partial` | Verif/Blas/Props.lean | The same for matrix times vector: an accepted row-major matrix, if its lines follow each other without gaps, gives the product whatever its strides and that of the vector are. |
| `C64_matvec_partial` | Verif/Blas/Props.lean | Matrix times vector. Partial: a row-major matrix has to be packed (`C64_submatrix_false`), a column-major one needs operands with positive strides (`C64_reversed_false`), and the inner dimension is not empty (`C64_empty_false`). |
| `C64_outer_complex_partial` | Verif/Blas/Props.lean | The outer product of complex vectors, `alpha a bᴴ`. Partial as `C64_outer_partial`. |
| `C64_outer_partial` | Verif/Blas/Props.lean | The outer product of real vectors. Partial: the result has to be packed, that is its lines have to follow each other without gaps (`C64_outer_gap_false`). |
| `C64_prod_partial` | Verif/Blas/Props.lean | Matrix times matrix (partial as `C64_gemp_partial`). |
| `C64_vecmat_accepted_partial` | Verif/Blas/Props.lean | The same for vector times matrix. |
| `C64_vecmat_partial` | Verif/Blas/Props.lean | Vector times matrix. Partial as `C64_matvec_partial`, with rows and columns exchanged. |
| `C65_prodq_partial` | Verif/Solver/Props.lean | `prodq`, with the first n columns `Q₁` saved: `Q₁ᴴ B` and `B Q₁`. Partial: the other two products, `Q₁ B` and `B Q₁ᴴ`, read outside of a matrix (`C65_prodq_false`). |
| `C66_bessel_partial` | Verif/Window/Props.lean | `bessel_I_0` beyond 3: the iteration ends and is right to 1e-8. (Partial: for the other arguments see `C66_bessel_poly_partial`.) |
| `C66_bessel_poly_partial` | Verif/Window/Props.lean | `bessel_I_0` up to 3: the polynomial is right to 2e-4 only. |
| `C66_hanning_partial` | Verif/Window/Props.lean | `hanning`, lengths below 2^32: ends after `len` steps with the window of the definition, symmetric, above 0 and at most 1. Partial: see `C66_hanning_false` for the other lengths. |
| `C66_kaiser_partial` | Verif/Window/Props.lean | `kaiser`: ends for every length from 2 on and every `beta`; symmetric, positive, 1 in the middle of odd lengths, and within 2e-4 of the definition `I0(beta sqrt(1 - c²)) / I0(beta)` with `c` from -1 to 1. (Partial: with the accuracy claimed for `bessel_I_0` it would be 4e-7.) |
| `C67_buffers_partial` | Verif/Fftw/Props.lean | C67. A block that has to be copied fits the buffer it is copied to, input and output, of every transform of every dimension (partial: the array has less than 2^31 elements). |
| `C67_complex_partial` | Verif/Fftw/Props.lean | C67. Complex transforms out of place, in one, two and three dimensions: whatever the layout of the two blocks, the output block holds the scaled transform of the input block, which is left as it was (partial: the array has less than 2^31 elements). |
| `C67_in_place_partial` | Verif/Fftw/Props.lean | C67. Complex transforms in place (partial: the array has less than 2^31 elements). |
| `C67_lines_buffers_partial` | Verif/Fftw/Props.lean | C67. A matrix with no more lines than planned fits the buffers of the transforms of rows or columns, although the planner pads lines as if elements were scalars (partial: sizes below 2^31; the alignment is a multiple of the size of a complex number). |
| `C67_lines_forward_partial` | Verif/Fftw/Props.lean | C67. Real to complex transforms of the rows or columns (partial: sizes below 2^31; the alignment is a multiple of the size of a complex number, which `make_flags` does not test). |
| `C67_lines_in_place_partial` | Verif/Fftw/Props.lean | C67. The same in place (partial: sizes below 2^31). |
| `C67_lines_inverse_partial` | Verif/Fftw/Props.lean | C67. Complex to real transforms of the rows or columns: every line of the input block is the half of a Hermitian spectrum (partial: as before). |
| `C67_lines_partial` | Verif/Fftw/Props.lean | C67. Complex transforms of the rows or columns of a matrix: every line along `ax` of the output block is the scaled transform of that line of the input block; the block may have fewer lines than were planned for (partial: sizes below 2^31). |
| `C67_real_forward_partial` | Verif/Fftw/Props.lean | C67. Real to complex transforms along any axis `A`: the output block, halved along `A`, holds the scaled forward transform of the real values of the input block, which is left as it was (partial: the array has less than 2^31 elements). |
| `C67_real_inverse_partial` | Verif/Fftw/Props.lean | C67. Complex to real transforms along any axis `A`: if the input block holds the half along `A` of a Hermitian spectrum `X`, the output block holds the scaled inverse transform of all of `X`; the input block is left as it was although FFTW may overwrite its input in two and three dimensions (partial: the array has less than 2^31 elements). |
| `C68_u_partial` | Verif/Svd/Props.lean | C68, partial (`u` by value). `svd<T, by_value>::u(low, high)` returns a new matrix of columns `low` to `high` of `U`, if these exist. Missing: the check lets `high` be one too large, see `C68_u_false`. |
| `C69_assign_partial` | Verif/Rbo/Props.lean | C69, partial (assignment). `y = fft(x)`, with the default transform: if `y` has no element in common with `x`, it gets the transform of `x`, and nothing else changes; if the result has been looked at before, `y` gets the values found then, whatever it overlaps. Missing: overlapping blocks, see `C69_alias_false`. |
| `C69_blocks_partial` | Verif/Rbo/Props.lean | C69, partial (two blocks of one memory). The default transform from one strided block to another that shares no element with it stores the transform of the input, element by element, and changes nothing else. Missing: overlapping blocks, see `C69_alias_false`. |
| `C69_by_value_partial` | Verif/Rbo/Props.lean | C69, partial (by value). The values found are those of the transform at the time of the call if, until the first look, memory keeps the values the transform reads. Missing: the transform is not computed when it is called, see `C69_deferred_false`. |
| `C70_col_partial` | Verif/Py/Props.lean | C70, partial (columns). `m.col(i)` is column `i` of a matrix that starts at the beginning of its storage. Missing: other submatrices, see `C70_col_false`. |
| `C70_component_partial` | Verif/Py/Props.lean | C70, partial (components as a whole). Copying or assigning a component block finds its first element, if the block starts the storage. Missing: all other elements, see `C70_component_false`. |
| `C70_diag_partial` | Verif/Py/Props.lean | C70, partial (diagonal). `m.diag()` is the diagonal of a matrix that starts at the beginning of its storage. Missing: other submatrices. |
| `C70_lifetime_partial` | Verif/Py/Props.lean | C70, partial (lifetime of arrays). As long as the block is referenced from Python, its arrays can be used and released. Missing: arrays that outlive the block, see `C70_lifetime_false`. |
| `C70_ref_partial` | Verif/Py/Props.lean | C70, partial (references). `ref(i)` names element `i` of a vector with adjacent elements. Missing: other vectors, see `C70_ref_false`. |
| `C70_row_partial` | Verif/Py/Props.lean | C70, partial (rows). `m[i]` is row `i`, counted from the end when `i` is negative, of a matrix that starts at the beginning of its storage and has adjacent columns. Missing: submatrices and matrices with a column step, see `C70_row_false`; indices out of range, see `C70_row_range_false`. |
| `C70_row_slice_partial` | Verif/Py/Props.lean | C70, partial (part of a row). `m[i, s]` selects from row `i`. Missing: as for `C70_row_partial`. |
| `C70_setitem_partial` | Verif/Py/Props.lean | C70, partial (assignment). `v[s] = w`, for a vector `w` with as many elements as the slice selects and none of them in `v`, gives every selected element its value and changes nothing else. Missing: vectors that share elements, see `C70_overlap_false`. |
| `C70_size_partial` | Verif/Py/Props.lean | C70, partial (sizes). `m.size(d)` is the number of rows for `d = 0` and of columns for `d = 1`, of a matrix with at least one row. Missing: no rows, see `C70_size_false`. |
| `C70_slice2_partial` | Verif/Py/Props.lean | C70, partial (slices of matrices). `m[s, t]` is the matrix of the selected rows and columns, for every two slices, when the columns of `m` are not already in reverse order. Missing: matrices whose columns are reversed, see `C70_reversed_false`. |
| `C70_str_partial` | Verif/Py/Props.lean | C70, partial (printing). A vector of one to six elements is printed in full, a longer one by its first five elements and dots. Missing: the empty vector, see `C70_str_false`. |
| `C70_value_partial` | Verif/Py/Props.lean | C70, partial (initial values). `vector(dtype, n, value)` has all its elements equal to `value`, if `value` counts as true in Python. Missing: zero, see `C70_zero_false`. |
| `C71_compare_partial` | Verif/Ssar/Props.lean | C71, partial (comparison). The number printed by `diffview` is the greatest error of all pixels, if all pixels are numbers. Missing: pixels that are not numbers, see `C71_compare_false`. |
| `C71_image_partial` | Verif/Ssar/Props.lean | C71, partial (image). The image is the magnitude of the centred inverse transform of the matched spectrum, interpolated to the grid; the shifts made by changing signs, and the one left out, do not matter. For even sizes; the buffers may hold anything. Missing: odd sizes, see `C71_odd_false`; rounding. |
| `C71_spotlight_partial` | Verif/Ssar/Props.lean | C71, partial (spotlighting). The matched, spotlighted spectrum computed row by row, with swapped halves and two merged shifts, is that of the centred transforms, for even sizes, whatever the buffers held before. Missing: odd sizes, see `C71_odd_false`. |
| `C71_variants_partial` | Verif/Ssar/Props.lean | C71, partial (variants). The variant with whole matrices, which replaces every shift by changes of sign, gives the same image, for even sizes and as many fast time samples as lines of output. Missing: other sizes, see `C71_ref_false` and `C71_uninitialised_false`. |
| `C72_read_partial` | Verif/Wav/Props.lean | C72, partial (reading). The decoder finds channels, rate, sample size and data of every wave file with the format first, with or without extension, any number of other chunks of even size before the data, and anything after. Missing: chunks of odd size, other chunks before the format, sample sizes that are not whole bytes, incomplete frames; see the theorems below. |
| `C72_roundtrip_partial` | Verif/Wav/Props.lean | C72, partial (written and read). What is written is read again, with the same information, for up to four channels and data of less than 2^32 bytes. Missing: more channels and greater sizes, see `C72_channels_false` and `C72_size_false`. |
| `C73_decode_partial` | Verif/Io/Props.lean | C73, partial (reading images). A square image is read into a matrix of its size: the bytes of element `(i, j)` are those of the file, and storage after the matrix is left alone. Missing: other shapes, see `C73_shape_false`; greater images, see `C73_large_false`. |
| `C73_encode_partial` | Verif/Io/Props.lean | C73, partial (writing images). For every format with whole bytes per element, row `i` of the file holds the elements of row `i` in order, byte by byte, and nothing outside the matrix is read, for images up to 2^32 bytes. Missing: greater images, see `C73_large_false`. |
| `C73_gray_partial` | Verif/Io/Props.lean | C73, partial (grey levels). The grey level of a value between least and greatest is the integer part of its share of 255: within 0 and 255, not decreasing, 0 for the least and 255 for the greatest value. In exact arithmetic, for ranges up to 2^120. Missing: greater ranges, see `C73_gray_false`; rounding. |
| `C73_handles_partial` | Verif/Io/Props.lean | C73, partial (handles). As long as no object of class `dataset` is copied, every object has an open handle of its own, no closed handle is used or closed again, and every open handle has an object. Missing: copies, see `C73_copy_false`. |
| `C73_roundtrip_partial` | Verif/Io/Props.lean | C73, partial (written and read). A square image that is written and read again is the same in every byte. Missing: as above. |
| `C74_conv_partial` | Verif/Cv/Props.lean | C74, partial (corrected convolutions). Where the output has at least as many elements as are corrected, the corrected elements are the convolution with the whole kernel, given or completed by symmetry, for full support and for same support, and the others stay as the library left them. Missing: shorter outputs, see `C74_fix_false`. |
| `C74_dot_partial` | Verif/Cv/Props.lean | C74, partial (dot products). For interleaved storage or stride 1 the dot products are the sums of products, with the second argument conjugated where asked. Missing: split storage with other strides, see `C74_split_false`. |
| `C74_enum_partial` | Verif/Cv/Props.lean | C74, partial (enumerations). Storage of Q, the supports of convolutions and the operations without conjugation are passed on as they are. Missing: the hint, see `C74_hint_false`; conjugation and zero padding, see `C74_conj_false`. |
| `C74_fftm_partial` | Verif/Cv/Props.lean | C74, partial (multiple transforms). For any transform of the library, out of place, with `n` elements read and `m` written per vector: if the elements of the result have distinct addresses, every row, or every column, of the result is the transform of that of the argument, and nothing else is written. In split storage the element strides of argument and result must agree. Missing: other split storage, see `C74_stride_false`. |
| `C74_fir_partial` | Verif/Cv/Props.lean | C74, partial (filters). With a positive stride the filter reads and writes element `i` at `i * stride`, inside the block. Missing: negative strides, see `C74_fir_false`. |
| `C74_mview_partial` | Verif/Cv/Props.lean | C74, partial (views of matrices). The same for matrices, with either order of dimensions. Missing: as for vectors. |
| `C74_prod_partial` | Verif/Cv/Props.lean | C74, partial (matrix products). Vector-matrix, matrix-vector and matrix-matrix products are the sums that define them, for every order of dimensions and all strides; vectors in split storage need stride 1. Missing: other strides in split storage, see `C74_split_false`. |
| `C74_prodq_partial` | Verif/Cv/Props.lean | C74, partial (sizes for products with Q). Without conjugate transposition, the sizes required of the arguments are those of the product with `op(Q)`, of the left or right side. Missing: conjugate transposition, see `C74_herm_false`. |
| `C74_solve_partial` | Verif/Cv/Props.lean | C74, partial (solving). After a decomposition that returned `true`, `solve` returns `true` with a solution of `op(A) X = B` for every operation it does not refuse, and of `A X = B` for Cholesky decompositions. Missing: copies and failed decompositions, see `C74_copy_false` and `C74_status_false`. |
| `C74_view_partial` | Verif/Cv/Props.lean | C74, partial (views of vectors). With a stride that is not negative, a view of at least one element lies in the block bound for it, and the last element of the block is the last of the view, so no more storage is claimed than the view has. Missing: negative strides and empty views, see `C74_reversed_false` and `C74_empty_false`. |
| `C75_assign_partial` | Verif/Prod/Props.lean | C75, partial (assignment). `r = prod(x, y)` and its relatives, for expressions `x` and `y` of stored matrices, transpositions, elementwise functions and further products, of agreeing sizes: every element of `r` gets the value of the product for the memory before the assignment, and nothing else changes. A matrix that stands inside of a further product may overlap the result, even be it; one that stands outside may not. If the result has a narrower type, its elements are the converted values, as long as the conversion can be put off to the end. Missing: overlap with arguments, see `C75_alias_false`; conversions that round, see `C75_narrow_false`. |
| `C75_checked_partial` | Verif/Prod/Props.lean | C75, partial (sizes are checked). `prod` accepts matrices exactly if sizes agree. Missing: the other functions, see `C75_unchecked_false`. |
| `C76_bnot_partial` | Verif/Elem/Props.lean | C76, partial (`bnot`). In a signed type `bnot(x)` is `-x - 1`, in an unsigned one of `w` bits it is `2^w - 1 - x`; twice `bnot` is the value. Missing: `bool`, where it is false. |
| `C76_compare_partial` | Verif/Elem/Props.lean | C76, partial (comparisons). Between the types of the table a comparison is that of the values, when the wider type holds both. Missing: the other types, where it is false. |
| `C76_expoavg_partial` | Verif/Elem/Props.lean | C76, partial (`expoavg`). Over `float` or `double` the exponential average is `ab + (1 - a)c` when the values fit, and it lies between `b` and `c` for a weight between `0` and `1`. Missing: mixed types. |
| `C76_expr_partial` | Verif/Elem/Props.lean | C76, partial (expressions). An expression of sums, differences, products and quotients over `bool`, `short`, `int`, `long`, `float` and `double` whose intermediate values fit their types has the type and the value the program wrote, also where the operators fuse a product and a sum. Missing: the other types and values that do not fit. |
| `C76_fuse_partial` | Verif/Elem/Props.lean | C76, partial (fusion). In an expression over elements of one type that C++ does not widen (`int` and wider, and the floating types), fusing `A * B + C` changes nothing: the result, and whether there is one, is that of storing the product first. Missing: mixed and narrow types, where it is false. |
| `C76_ite_partial` | Verif/Elem/Props.lean | C76, partial (`ite`). Over the types of the table, and `char`, the choice between two values is one of them. Missing: the other types, where it is false. |
| `C76_jmul_partial` | Verif/Elem/Props.lean | C76, partial (`jmul`). The product with the conjugate of the second argument, when the first argument has the wider type. Missing: the other order, where it is false; rounding in between. |
| `C76_promotion_partial` | Verif/Elem/Props.lean | C76, partial (promotion). Between `bool`, `short`, `int`, `long`, `float` and `double`, and complex types of them, the type of a result is the wider of the two, whatever the order and grouping of the arguments; it is complex as soon as one of them is. Missing: the other types, where it is false. |
| `C76_three_partial` | Verif/Elem/Props.lean | C76, partial (functions of three arguments). `ma`, `msb`, `am` and `sbm` are `ab + c`, `ab - c`, `(a + b)c` and `(a - b)c`, over the types of the table, when the values fit. Missing: the other types and values that do not fit. |
| `C77_bankFast_partial` | Verif/Hpec/Props.lean | C77, partial (filter bank row by row). The same for `ImplFast` if all filters are equal. Missing: different filters, see `C77_bank_false`. |
| `C77_bank_partial` | Verif/Hpec/Props.lean | C77, partial (filter bank by one expression). Row `i` of the result is the circular convolution of row `i` of the inputs with filter `i`; from the `K - 1`st value on it is the output of the filter, before it contains the last values of the input too. Missing: the first values, see `C77_wrap_false`. |
| `C77_detect_partial` | Verif/Hpec/Props.lean | C77, partial (the three versions). There is a list of places for every gate such that: `ImplSlice` counts all of them and stores as many as there is room for; `ImplVector`, and `ImplHybrid` if the number of doppler bins is a multiple of four, store all if there is room for all, and write outside of the rows of `located` if not; and for gates without a cut window the places are the cells that exceed the threshold, in order. Missing: cut windows, see `C77_targets_false`; other numbers of bins, see `C77_bins_false`; room, see `C77_room_false`. |
| `C77_sums_partial` | Verif/Hpec/Props.lean | C77, partial (sums and counts). For every gate the loops reach it once, in order, read inside of the data only, and have the sum of the cells in its window; `gates_used` is the number of these cells for gates that have a full window on both sides, and for those within the guard distance of an end. Missing: the count for gates with part of a window on one side, see `C77_counts_false`. |
| `C78_bits_partial` | Verif/Util/Props.lean | C78, partial (bitwise assignment). `v op= w` and `m op= w` replace every element by `op` of itself and the element of `w`, and nothing else, if no element of `w` is one that was written before it is read. Missing: other overlaps, for which this is false (`C78_bits_false`). |
| `C78_clock_partial` | Verif/Util/Props.lean | C78, partial (clock). With a POSIX clock later instants have larger values, and the difference of two instants is the time between them in nanoseconds, as long as the values fit 64 bits. Missing: instants by default (`C78_default_false`) and time stamp counters (`C78_tsc_false`). |
| `C78_counts_partial` | Verif/Util/Props.lean | C78, partial (operation counts). The count of an inner product is the cost of its formula, for real and complex numbers; that of a matrix product is the cost of the formula of one element times the number of elements if neither matrix is transposed, plus one for each element of a conjugated matrix; that of a filter is the cost of one product and one addition per coefficient and output if the decimation divides the input size. Missing: transposed products and running sums, for which the counts are wrong. |
| `C78_cumsum_partial` | Verif/Util/Props.lean | C78, partial (running sums). For up to two numbers the count is that of the additions needed. Missing: more numbers, see `C78_cumsum_false`. |
| `C78_iterators_partial` | Verif/Util/Props.lean | C78, partial (iterators). With a difference of one, moving an iterator by any `int` and subtracting gives that `int` back; with any difference this holds for moves forward that stay in range; a loop from a beginning to an end visits the values between, each once; moving back undoes moving forward, and of two places ahead and in range the nearer compares less. Missing: distances backwards with other differences (`C78_distance_false`) and the postfix operators (`C78_postfix_false`). |
| `C78_polar_partial` | Verif/Util/Props.lean | C78, partial (polar coordinates). `recttopolar` stores modulus and argument of every element, also over the real and imaginary parts themselves, if it writes nothing that is read or written for a later element. Missing: other overlaps (`C78_polar_false`). |
| `C78_print_partial` | Verif/Util/Props.lean | C78, partial (printing). The text of a vector, and of a row of a matrix, determines the elements if their texts contain no space or end of line. Missing: rows of tensors (`C78_print_false`). |
| `C78_scalar_partial` | Verif/Util/Props.lean | C78, partial (bitwise assignment of a value). `v op= val` applies `op` with the same value to every element if `val` is not itself an element of `v`. Missing: elements of the vector (`C78_scalar_false`). |
| `C78_tsc_partial` | Verif/Util/Props.lean | C78, partial (time stamp counters). Readings of fewer than 2^24 ticks, and readings whose lower half is zero with fewer than 2^24 in the upper half, are exact. Missing: others (`C78_tsc_false`). |
| `C79_built_partial` | Verif/Spmd/Props.lean | C79, partial (building). The program is built if every array assigned an expression with an index function has a `Map`, or is replicated over all processes of the communicator. Missing: arrays replicated over some of the processes (`C79_replicated_false`). |
| `C79_mix_partial` | Verif/Spmd/Props.lean | C79, partial (mixing). Every legal assignment is accepted; an accepted one is legal if its operands all have the same sort of map and one of them is looked at. Missing: operands of different sorts, arrays hidden behind scalars or index functions (`C79_mix_false`). |
| `C79_program_partial` | Verif/Spmd/Props.lean | C79, partial (programs). For all maps (block, cyclic, whole, replicated; different ones for different arrays; some processes without data), all storage of the local blocks with distinct addresses, all sequences of conforming statements `array = expression of arrays, scalars and index functions`, for which the program is built without failed assertion: from any memories in which every process holds the values `G` of its elements, under any interleaving, with or without blocking waits, some process can go on until all are done, and then every process holds, for each of its elements of each array, the value that one process with all the data would have computed, and no other cell of an array has changed. Missing: index functions assigned to arrays replicated over some of the processes only (`C79_replicated_false`), expressions that may not be reorganised, arrays that share storage, interleaved complex elements (`C15_complex_false`). |
| `C80_map_partial` | Verif/ViewProg/Props.lean | C80, partial (distribution of copies). A view constructed from a view with another block type gets the distribution of its source. Missing: vectors from modifiable vectors (`C80_map_false`). |
| `C80_plain_partial` | Verif/ViewProg/Props.lean | C80, partial (programs without kept references). If no expression is stored and no reference kept, no condition on lifetimes is needed: whatever views are destroyed when, subviews and copies stay valid. Missing: overlapping operands (`C80_overlap_false`). |
| `C80_program_partial` | Verif/ViewProg/Props.lean | C80, partial (programs). A meaningful program runs without touching a freed block or a destroyed view and reads the numbers it should, if no statement reads an element at one index after having stored it at another, unevaluated expressions are read while there are views of their arrays, and references are used while their views exist. Missing: overlapping operands (`C80_overlap_false`, `C80_scalar_false`), expressions that outlive their operands (`C80_expression_false`), references that outlive their views (`C80_proxy_false`). |
| `C80_range_partial` | Verif/ViewProg/Props.lean | C80, partial (ranges). `view(i…)` and `view.get(i…)` accept the same indices and mean the same element for vectors and matrices, and for tensors inside the sizes. Missing: tensor indices outside the sizes (`C80_range_false`). |
| `C81_alltoall_partial` | Verif/Turn/Props.lean | C81, partial (`Impl_alltoall`). Whenever the constructor accepts the sizes, every process ends with its columns of the matrix, stored by columns or by rows, for any number of processes and any matrix. Missing: matrices that are not square; the constructor rejects them (`C81_check_false`) although the communication itself would be right. |
| `C81_alltoallv_partial` | Verif/Turn/Props.lean | C81, partial (`Impl_alltoallv`). For any disjoint or overlapping sets of senders and receivers, every receiver ends with its columns of the matrix, if local data go through MPI or if the processes that send and receive have the same position in both sets. Missing: local data copied by `test_fixup` in a process with different positions; refuted by `C81_fixup_false`. |
| `C81_persistent_x_partial` | Verif/Turn/Props.lean | C81, partial (`Impl_persistent_x`). Persistent requests between any sets of senders and receivers, one element at a time or with MPI types, all started together: no interleaving of the processes deadlocks or leaves a buffer, and after any number of calls every receiver has its columns of the matrix. Missing: a rotated order of the receives (`phase > 0`) when the number of senders does not divide 2^64, refuted by `C81_phase_false`; a process that sends and receives with different positions, refuted by `C81_local_copy_false`. |
| `C81_phases_partial` | Verif/Turn/Props.lean | C81, partial (`Impl_persistent_x` in phases). The same when in every phase a process waits for its send and its receive before it starts the next, for equally many senders and receivers whose number divides 2^64. Missing: sets of different sizes; other numbers of processes, refuted by `C81_phase_false`; different positions, refuted by `C81_local_copy_false`. |
| `C82_calibration_partial` | Verif/Bench/Props.lean | C82, partial (calibration). If each call takes the same positive time `c`, and the goal is at least 20 ms, the calibration finds the number of calls that takes the goal, rounded down, and at least one. Missing: calls too fast for a `size_t` count, in particular calls of measured time zero (C82_calibration_false). |
| `C82_goal_partial` | Verif/Bench/Props.lean | C82, partial (measurement time). If a call takes a time proportional to its size and the number of operations per point is constant, every row of a calibrated sweep over powers of two is measured for more than the goal less one call, and for at most 9/8 of the goal or one call. Missing: the linear progression (C82_linear_goal_false), and calls too fast for an `int` count. |
| `C82_options_partial` | Verif/Bench/Props.lean | C82, partial (command line). Every command line of options with `int` values gives the settings that the options describe, in order, without a message (`-data` only with at least 3 samples). Missing: `-ms` (C82_milliseconds_false) and an option without its value (C82_last_argument_false). |
| `C82_rates_partial` | Verif/Bench/Props.lean | C82, partial (printed rates). For the metrics of speed with more than one sample, the three numbers printed are the speed of the median time, the least and the greatest speed. Missing: the latency (C82_latency_false). |
| `C82_sizes_partial` | Verif/Bench/Props.lean | C82, partial (sizes). The size measured at each step is that of the progression, provided it is an `unsigned` number, the shift is less than 32 and `start + stop` is an `unsigned` number. Missing: the other sizes (C82_sizes_false). |
| `C82_steady_later_partial` | Verif/Bench/Props.lean | C82, partial (steady state after a change). Whatever the times were in the first `m` passes, if each call takes the same positive time `c` from then on, the number of calls is that which takes the goal from the 12th pass after it on; the size measured is 2^start. Missing: as for C82_steady_partial; `start` of 31 or more (C82_sizes_false). |
| `C82_steady_partial` | Verif/Bench/Props.lean | C82, partial (steady state). If each call takes the same positive time `c`, the measurement without end uses, from the 12th pass on, the number of calls that takes the goal, rounded down, and at least one. Missing: calls so fast that the number is not an `int`, in particular of measured time zero (C82_steady_false). |
| `C83_access_partial` | Verif/Ocl/Props.lean | C83, partial (access). Whatever kernels and synchronisations a program runs while an `opencl::Data` object exists, for every policy, the block has in the end the value it would have if there were only the block and the buffer; the block may be changed meanwhile if it is accessed directly. Missing: changes to blocks that are copied (`C83_access_false`). |
| `C83_buffers_partial` | Verif/Ocl/Props.lean | C83, partial (buffers). The same for `buffer`. Missing: programs that assign buffers (`C83_buffer_assign_false`). |
| `C83_devices_partial` | Verif/Ocl/Props.lean | C83, partial (devices). The same for `device`. Missing: programs that copy devices (`C83_device_copy_false`) or destroy a null device (`C83_null_destroyed_false`). |
| `C83_extensions_partial` | Verif/Ocl/Props.lean | C83, partial (extensions). For texts of at most 1023 characters `extensions` gives exactly the words of the text. Missing: longer texts (`C83_long_text_false`). |
| `C83_kernels_partial` | Verif/Ocl/Props.lean | C83, partial (kernels and programs). The same for `kernel` and `program`. Missing: programs that destroy a variable with a null handle (`C83_null_destroyed_false`). |
| `C83_layout_partial` | Verif/Ocl/Props.lean | C83, partial (layout). If the block is in the requested order, or has no OpenCL buffer, element `(i, j)` is found at the offset of the requested order, and the size of the storage without an OpenCL buffer is the number of elements. Missing: blocks with OpenCL buffers in another order, and their size (`C83_layout_false`). |
| `C83_python_data_partial` | Verif/Ocl/Props.lean | C83, partial (Python: data). What is written to a buffer is read back, and what was behind it is unchanged. Missing: nothing written or read (`C83_python_data_false`). |
| `C83_python_kernel_partial` | Verif/Ocl/Props.lean | C83, partial (Python: kernels). A kernel called with one to four buffers gets buffer `i` as argument `i`, and no other argument; with more it throws. Missing: kernels without buffers (`C83_python_kernel_false`). |
| `C84_delay_partial` | Verif/Dsp/Props.lean | C84, partial (estimated delay). Whatever the rate of the chirp and the amplitude of the pulse, a delay of `d` samples is found exactly if it is at most half of the time. Missing: greater delays and odd numbers of samples, for which it is refuted; delays that are no whole number of samples; odd numbers of frequencies, which do not contain frequency 0. |
| `C84_freqz_partial` | Verif/Dsp/Props.lean | C84, partial (frequency response). Value `k` is the response at the frequency `2 π k / N`: the quotient of those of both sets of coefficients, or that of `b` divided by the constant. Missing: that the `N` points go from 0 to π (refuted). |
| `C84_length_partial` | Verif/Dsp/Props.lean | C84, partial (output length). Up to 2^24 values before the last step, the output length is that number divided by `Q`, rounded up. Missing: more values, for which it is refuted. |
| `C84_real_partial` | Verif/Dsp/Props.lean | C84, partial (matched filter for real input). With an even number of samples the real version gives the same. Missing: odd numbers, for which it is refuted. |
| `C85_allreduce_partial` | Verif/Mpi/Props.lean | C85, partial (reductions). Sums of `int` and the logical reductions of `bool` over all processes are those of a view with the values of all processes. Missing: `all_true` and `any_true` of `int`, see `C85_allreduce_false`; sums of `float` depend on the order. |
| `C85_broadcast_partial` | Verif/Mpi/Props.lean | C85, partial (broadcast). Up to 2^31-1 elements are broadcast from the process of the given rank to all others, and nothing else changes. Missing: more elements, see `C85_broadcast_false`. |
| `C85_equal_partial` | Verif/Mpi/Props.lean | C85, partial (comparison). Two communicators are equal exactly if they are the same. Missing: null communicators, see `C85_equal_false`. |
| `C85_groups_partial` | Verif/Mpi/Props.lean | C85, partial (groups). A computation with groups succeeds exactly if all ranks given are different and in range, and then has the processes it denotes in the order it denotes. Missing: an empty range given to `exclude` with other iterators than pointers to `int`, see `C85_exclude_false`. |
| `C85_index_partial` | Verif/Mpi/Props.lean | C85, partial (own index). With a default communicator made from an MPI communicator or a subgroup, `num_processors`, `local_processor` and `local_processor_index` are the number of its processes and the position of the own one. Missing: a communicator of the default constructor, and a null one, see `C85_index_false`. |
| `C85_map_partial` | Verif/Mpi/Props.lean | C85, partial (maps and the default communicator). While the default communicator is the one a map was made with, messages for its subblocks go to the first processes of it. Missing: maps used in a task they were made outside of, see `C85_map_false`. |
| `C85_processor_set_partial` | Verif/Mpi/Props.lean | C85, partial (set of processors). As long as the default communicator has the same number of processes, `processor_set` gives all its processors. Missing: other sizes, see `C85_processor_set_false`. |
| `C85_translate_partial` | Verif/Mpi/Props.lean | C85, partial (translated ranks). Ranks of processes that are in both groups are translated to the ranks of the same processes. Missing: processes that are not in the other group, see `C85_translate_false`. |
| `C86_packing_partial` | Verif/Access/Props.lean | C86, partial (packing). Access to any view, with any request for one of the packings but `aligned` and `aligned_512`, never fails an assertion and delivers the packing, order and sizes asked for, whether it is granted directly or by copying; a direct grant costs nothing and needs no buffer, a copy has its elements at places of their own in a buffer of the required size. Missing: `aligned`, `aligned_512`, aligned split data, and allocations that are not on the boundary asked for, for which this is false. |
| `C87_buffer_partial` | Verif/RtFmt/Props.lean | C87, partial (copies in buffers). With a buffer of the layout's format — arrays and interleaved data counting as one — large enough and, for split data, of two separate arrays, the accessor takes no memory, the elements go to their parts in the buffer, come back unchanged, and nothing outside the buffer is touched. Missing: buffers of another format, which the constructors accept. |
| `C87_failing_partial` | Verif/RtFmt/Props.lean | C87, partial (failing allocations). Storage of a fixed format, or of a format chosen at run time other than split in a build without assertions, once made: whatever requests for memory fail in the course of its resizes, each exception being caught, nothing goes wrong, and after its destruction exactly what was in use before is in use. Missing: the class for all formats in split format or with assertions, and the constructors, both refuted below. |
| `C87_offset_partial` | Verif/RtFmt/Props.lean | C87, partial (offsets). Moving a pointer to an array or to interleaved data by `i` elements gives a pointer of the same format to the parts of element `i`. Missing: split data, for which the code does not compile. |
| `C88_visit_partial` | Verif/Lazy/Props.lean | C88, partial (reach of the traversal). `expr::evaluate` leaves no operation to be evaluated by the elements exactly if each is the assigned block itself or an argument of a block it descends to, which it does from the assigned block and from blocks whose types are not `const`. Missing: operations below a `const` block, which all operators and functions return, and below a diagonal. |
| `C89_convert_partial` | Verif/PyMath/Props.lean | C89, partial (conversion of C++ views). A C++ vector or matrix of numbers becomes a Python view of its type and shape whatever is loaded. Missing: integers and truth values, whose modules are interchanged, see `C89_convert_false`. |
| `C89_elementwise_partial` | Verif/PyMath/Props.lean | C89, partial (element by element). A function of `elementwise` given numbers of a type for which its module has it, of equal shapes, returns a view of that shape and of the type the function has in mathematics, provided blocks of that type have been loaded. Missing: the last condition, see `C89_loaded_false`; functions left out, see `C89_left_out_false`; unequal sizes, see `C89_sizes_false`. |
| `C89_matvec_partial` | Verif/PyMath/Props.lean | C89, partial (matrices and vectors). For numbers of one type and fitting sizes, `dot` gives a number of that type, `trans` the transposed shape, `herm` of complex matrices too, `prod` the shape of the product of matrices, of a row with a matrix and of a matrix with a column, and `vmmul` along rows or columns the shape of the matrix. Missing: mixed types and the functions of `C89_matvec_false`. |
| `C89_modules_partial` | Verif/PyMath/Props.lean | C89, partial (modules). The data type of every block but those of truth values leads back to its module: new blocks, blocks from arrays and subviews have the element type of what they were made from. Missing: truth values, see `C89_bool_false`. |
| `C89_reduce_partial` | Verif/PyMath/Props.lean | C89, partial (reductions). Sums and means of real numbers have their type, extremes come with an index of as many numbers as there are dimensions. Missing: complex sums and means, which raise an exception. |
| `C89_signal_partial` | Verif/PyMath/Props.lean | C89, partial (signal processing). For `float`, `numpy.float64` and `numpy.float32`, as types or taken from a block, each class and function finds the module of its type; for complex types given as in a block, convolution, multiple FFTs and IIR filters in double precision do. Missing: complex FFTs and correlation, see `C89_fft_false`, and the other forms of complex types, see `C89_complex_false`. |
| `C89_solvers_partial` | Verif/PyMath/Props.lean | C89, partial (solvers). The matrices made for results have the right shapes: for `prodq` that of the product of `op(Q)` and `b`, on either side, for factors saved in either form; for `lsqsol` of `qrd`, and `llsqsol`, one row for each column of the matrix; for singular values as many as the smaller size, and for `u` and `v` the columns asked for. Missing: the solvers of `C89_solvers_false`. |
| `C90_patch_partial` | Verif/ParView/Props.lean | C90, partial (patches). For views without cyclic dimensions the patch named exists exactly for the elements of the first subblock, and contains them. Missing: all others, see `C90_patch_false`, `C90_patch_cyclic_false`. |
| `C91_nested_partial` | Verif/UserElt/Props.lean | C91, partial (functions of functions). Where the inner function keeps the type, `unary<R>(g, unary(f, v))` compiles for every `g` of one parameter and holds `g` of `f` of the elements. Missing: inner functions that change the type, see `C91_nested_false`. |
| `C92_conv_partial` | Verif/PySig/Props.lean | C92, partial (convolution). The class of the extension module, given a kernel, makes a convolution with all parameters. Missing: the region `min_zeropad`, see `C92_zeropad_false`, and the Python class, see `C92_conv_false`. |
| `C92_corr_partial` | Verif/PySig/Props.lean | C92, partial (correlation). Given the sizes of reference and input for `support` and `r`, and the region for `i`, it makes the correlation. Missing: the order of the parameters, see `C92_corr_false`; the region `min_zeropad`, see `C92_zeropad_false`. |
| `C92_iir_partial` | Verif/PySig/Props.lean | C92, partial (IIR filters). Given the block of the numerators and that of the denominators, in this order, it makes the filter. Missing: matrices, and the order the names suggest, see `C92_iir_false`. |
| `C93_distance_partial` | Verif/Persist/Props.lean | C93, partial (distances). The difference of two iterators is that of their positions. Missing: distances of `2 ^ 31` elements and more (refuted). |
| `C93_receive_partial` | Verif/Persist/Props.lean | C93, partial (receiving). If the local block of the destination is reached directly, then after any number of executions of an assignment it holds what it held before, with the elements this process copied itself and the messages it received in their places, one execution after the other. Missing: destinations whose local block must be copied (refuted). |
| `C94_grid_partial` | Verif/Radar/Props.lean | C94, partial (grid of processors). The grid of processors of the distributed matrix never needs more processors than there are, and leaves out at most one; it uses all of them for even numbers and three (and one). Missing: all processors, see `C94_grid_false`. |
| `C94_noise_partial` | Verif/Radar/Props.lean | C94, partial (noise of the beamformer). If sound needs at most a second along the sensors, the part of the noise of every sensor from every direction lies inside the filtered noise. Missing: longer arrays, see `C94_noise_false`. |
| `C94_tone_partial` | Verif/Radar/Props.lean | C94, partial (tones). A sample of a sine that is not below minus one after scaling is its value cut off to an integer and takes 14 bits. Missing: the other samples, see `C94_tone_false`. |
| `C95_dda_partial` | Verif/Custom/Props.lean | C95, partial (custom product with pointers). For four columns and matrices without gaps the product with pointers writes exactly the elements of the product. Missing: other numbers of columns and rows apart, see `C95_dda_false` and `C95_rows_false`. |
| `C95_kernel_partial` | Verif/Custom/Props.lean | C95, partial (padded kernel). The padded kernel begins with the kernel and has the length of the input. Missing: zeros behind it, see `C95_kernel_false`. |
| `C95_mirror_partial` | Verif/Custom/Props.lean | C95, partial (mirrored spectra). For even lengths setting the upper half of the spectrum from the lower half gives the mirrored spectrum and keeps the spectrum of every real signal. Missing: odd lengths and lengths below two, see `C95_mirror_false`. |
| `C95_resample_partial` | Verif/Custom/Props.lean | C95, partial (fused interpolation). Between two samples the fused interpolation gives a point of a straight line through the two scaled samples, but with the samples exchanged; equal samples are kept. Missing: the samples in their order and the end, see `C95_resample_false` and `C95_resample_end_false`. |
| `C95_sizes_partial` | Verif/Custom/Props.lean | C95, partial (backends chosen by size). The example of a choice by type and size takes B for `float`, else C for sizes that are powers of two, else D, for sizes from 1 to 2^32 - 1. Missing: other sizes, see `C95_sizes_false`. |
| `C96_conv_partial` | Verif/TestRef/Props.lean | C96, partial (convolution). For kernels of at most one element more than the input, the reference is the decimated convolution sum. Missing: longer kernels, see `C96_conv_false`. |
| `C96_dft_sizes_partial` | Verif/TestRef/Props.lean | C96, partial (sizes of transforms). Of elements of one type the assertion asks for equal sizes, of real elements to complex ones for the first half. Missing: complex elements to complex ones of more precision, see `C96_dft_sizes_false`. |
| `C96_grid_partial` | Verif/TestRef/Props.lean | C96, partial (grids of processors). The grid is not empty, uses no more processors than there are, and leaves fewer of them unused than it has rows. Missing: that every processor is used, see `C96_grid_false`. |
| `C96_outer_partial` | Verif/TestRef/Props.lean | C96, partial (outer products). The reference outer product conjugates the second vector if both are complex. Missing: a real and a complex vector, see `C96_outer_false`. |
| `C97_create_map_partial` | Verif/BenchOps/Props.lean | C97, partial (maps for copies). All processors, the first and the last are right. Missing: all but the first, see `C97_create_map_false`. |
| `C97_fir_blocks_partial` | Verif/BenchOps/Props.lean | C97, partial (blocks of a fixed problem). Blocks of one element meet all elements, once and in order. Missing: all longer ones, see `C97_fir_blocks_false`. |
| `C97_fir_partial` | Verif/BenchOps/Props.lean | C97, partial (the check of the FIR benchmark). The check passes, however often the filter has been called and whatever the output vector held before, if the samples of the calls before the last are a multiple of the decimation. Missing: other decimations, see `C97_fir_false`. |
| `C97_maps_partial` | Verif/BenchOps/Props.lean | C97, partial (maps of the distributed product). With two processors or more every letter gives the processors it stands for. Missing: one processor, see `C97_maps_false`. |
| `C97_maxval_partial` | Verif/BenchOps/Props.lean | C97, partial (the checks of `maxval`). Up to `2^24` elements the checks of both ramps pass. Missing: more, see `C97_maxval_false`. |
| `C97_simd_partial` | Verif/BenchOps/Props.lean | C97, partial (SIMD stores). Both loops fill a view whose size is a multiple of the vector size, and nothing else; the unrolled one writes nothing outside for any size. Missing: other sizes, see `C97_simd_false`. |
| `C97_vmmul_check_partial` | Verif/BenchOps/Props.lean | C97, partial (the check of a product). A right product passes the check, if the vector has the length of the rows or the processor has all rows. Missing: products with a vector along the columns on several processors, see `C97_vmmul_check_false`. |
| `C97_vmmul_elems_partial` | Verif/BenchOps/Props.lean | C97, partial (elements of a product). The elements read per column are right if the vector is as long as the rows, or if its length is a multiple of the number of columns. Missing: other vectors, and all elements written, see `C97_vmmul_elems_false`. |
| `C97_vmmul_ops_partial` | Verif/BenchOps/Props.lean | C97, partial (operations of a product). The number of operations per column is right, if that of all is an `int`. Missing: larger ones, see `C97_vmmul_ops_false`. |
| `C98_div_partial` | Verif/DomainN/Props.lean | C98, partial (quotients). Dividing what was multiplied gives the domain back if no stride is negative and the products fit; dividing by 0 is undefined. Missing: negative strides (`C01_div_neg_false`). |
| `C98_equal_complete_partial` | Verif/DomainN/Props.lean | C98, partial (domains with the same indices are equal). Proved for domains with at least two distinct indices in every dimension. Missing: dimensions with one index (`C02_false`) and empty domains (`C98_equal_empty_false`), for which it is false. |
| `C98_mul_partial` | Verif/DomainN/Props.lean | C98, partial (products). Multiplying by a number whose product with every stride fits multiplies the strides and keeps the first indices and the lengths, in every dimension. Missing: equal domains need not have equal products (`C98_product_equal_false`). |
| `C98_size_partial` | Verif/DomainN/Props.lean | C98, partial (sizes). The size is the product of the lengths, if that is below 2^64 and no length is 0. Missing: larger domains, for which it is false (`C98_size_false`). |
| `C99_endian_partial` | Verif/Vocab/Props.lean | C99, partial (byte order). Where the header compiles, `is_big_endian` is false, which is right: the processor is not. It does compile for little-endian processors. Missing: big-endian processors, `C99_endian_false`. |
| `C99_same_ptr_partial` | Verif/Vocab/Props.lean | C99, partial (comparison of pointers). Pointers to the same type are the same exactly if the addresses are, `const` or not; pointers that are said to be the same have the same address; split storage is the same if both of its arrays are. Missing: pointers to different types, `C99_same_ptr_false`. |

<!-- generated: end -->

Seen while reading, not proved: `swap` of submatrix views uses the one-dimensional `get(i)` of a Subset block; `parallel/support.hpp` implements
`block_patch_from_global_index` by `impl_subblock_from_global_index`; `Chain_builder::add` narrows strides and lengths to `int`; the run-time
`get_block_access` ignores `S & copy`; `Rand_base` does not terminate if `numprocs` is a multiple of 2^32 (l.85); `any_storage_format`'s get and put ignore
the index (traits l.173-215); `huge_page_allocator.cpp` l.71 overflows `int` from 128 pages on;
`byteswap.hpp` passes pointers to `bswap_*` and ignores the results; `operator=` of the LAPACK solvers has no return statement; `cheby<double>` computes its
frequencies with `float`, and `kaiser<float>` overflows for large `beta`.
