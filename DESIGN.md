# A Lean 4 model of n-west/bliss

`/repo` holds bliss (a drift search for narrow-band signals in radio-telescope
filterbank data) and bland (its strided n-dimensional array library). This
project models the host (CPU) code as total Lean functions and the CUDA kernels as
interleaved steps of threads, and proves the properties in `properties.jsonl`
about the model.

## Layout

* `lean/Verif/Base.lean` – outcomes of C++ code (`ok`, `throws`, `ub`) and buffers.
* `lean/Verif/<Area>/Model.lean` – the model, function by function, each definition
  citing the file and lines it models and every simplification.
* `lean/Verif/<Area>/Spec.lean` – where needed, a small specification written
  without the model's helpers (sums along a path, reachability, ...).
* `lean/Verif/<Area>/Lemmas*.lean` – helper lemmas.
* `lean/Verif/<Area>/Props.lean` – the property theorems `Cxx_...`, each followed
  by `example`s that show that its hypotheses are met by a concrete non-trivial case.
* `MANIFEST.json` – property → theorems.
* `seeded/LOG.jsonl` – log of the wrong-program experiments.

## Modelling conventions

* **Undefined behaviour.** `Outcome α := ok a | throws e | ub`. Out-of-bounds
  access, division by zero in integers, `front()` of an empty vector, float→int
  conversion of a NaN etc. give `ub`. "Property holds" therefore includes "and
  the outcome is not `ub`" wherever the code can reach one.
* **Buffers.** A memory block is `Int → Option α`; `none` is outside the
  allocation. Loads and stores outside give `ub`.
* **Floating point.** Values are elements of an arbitrary type `F` with
  uninterpreted operations (`+ - * /`, `<`), applied in exactly the order in which
  the code applies them. No algebraic law is assumed unless it is a visible
  hypothesis of the theorem, and then only laws that IEEE-754 satisfies with NaN
  included (transitivity or irreflexivity of `<`). Theorems so stated hold bit for
  bit for `float`/`double`. Where a property is about rounding itself (the drift
  path) rounding to `p` bits is defined on rationals and its error bound is proved.
  Statements that are only true in exact arithmetic say so and use a linear
  ordered field.
* **Integers.** `int`/`int64_t` are modelled as unbounded `Int` except where the
  property is about wrap-around (8-bit RFI counters, 8-bit masks) or about
  conversion of a negative value to `size_t`. Overflow of 64-bit index arithmetic
  is outside the model. `numel()` is exact in the array model; the code accumulates
  it in an `int`, so every theorem about array loops speaks of arrays with fewer than
  2^31 elements (C73 proves agreement below and failure above).
* **GPU.** A kernel launch is a family of threads over one memory
  (`Verif/Gpu/Sched.lean`). Each step is one access to shared memory; an execution
  is any interleaving of the steps of all threads; a fault of one thread ends it
  with `ub`. Theorems quantify over the number of threads and over all
  interleavings, so no scheduling or fairness assumption is made. Accesses are
  sequentially consistent, except that plain loads in the merge kernel may also
  return an earlier value of the cell. Kernels of one stream run one after the other.
  `Verif/Gpu/Prog.lean` gives threads as programs of loads and stores and shows,
  once, that a launch whose threads write disjoint addresses that no other thread
  touches gives what each thread gives alone.
* **Environment.** Files, HDF5, Cap'n Proto framing, and printing
  are parameters or are left out; see *Trusted base*.

## Properties: what is modelled and how it is proved

| Id | Model | Proof |
|----|-------|-------|
| C01 | loop nest of the CPU integrator on buffers with strides | invariant over the loop nest; refinement to a per-cell sum |
| C02 | same, loads/stores checked | from the same invariant; negation with witness for drifts that do not fit |
| C03 | generic integrator through the modelled `slice` | both refine the same per-cell sum |
| C04 | same loops on `UInt8` counters | counter = number of flagged samples mod 256; negation (256 flags → 0) |
| C05 | `compute_drifts` | list characterisation; negation when the step does not divide the range |
| C06 | binary32/binary64 rounding on ℚ | error bounds of rounding to p bits |
| C07 | extended floats (finite, ±inf, NaN) | negation: the outcome is `ub` for T = 1 |
| C08 | C01 over a linear ordered field | bounds on sums |
| C09 | C01 | equality of sums for cells whose path stays inside; negation at the edge |
| C10, C11 | queue search on a grid | well-founded recursion, invariants on visited/queue, reachability |
| C12–C16 | threshold search | same invariants; running maximum; C14, C16 negated with witnesses, partial theorems |
| C17 | local maxima search | the model never reports anything for a positive distance (negation), characterisation otherwise |
| C18 | hit construction | list map; SNR equality |
| C19 | `filter_hits` | list filter characterisation |
| C20, C21 | `hit` comparison and state | lexicographic order lemmas; negation of the round trip, partial for kept fields |
| C22–C27 | greedy event matching over lists with a distance oracle | invariants over the loop; negations for extent, symmetry, empty cadence; `Event/MeansFloat` bounds the rounding of the averages |
| C28–C33 | scan as a state machine over a file | invariant "cache agrees with file"; negation of the upper bound; `Scan/SliceFloat` repeats C29 and C31 with every operation rounded to double |
| C34 | channelization inference with `int` division | case analysis; `ub` ranges |
| C35, C36 | cadence validation, name extraction | negation, list induction |
| C37–C41 | serialization maps, framed message stream, dispatch on strings | round trips, prefix property; negations for lost fields |
| C42 | shape interpretation | decision logic; negation |
| C43–C56 | bland views (shape, strides, offsets), slicing, odometer loops, reductions | mixed-radix odometer lemma, refinement of every loop to a pointwise spec |
| C57 | deferred arrays as a state machine over a heap of shared cells | invariant over operation histories |
| C58 | parser on strings | case analysis; negation for the unreachable branches |
| C59 | index map of the shift | bijection for odd lengths; out-of-bounds write for even lengths |
| C60–C63 | flaggers and noise estimation on masks | pointwise characterisations; negations |
| C64 | scan-level lifts | state-machine model; negation for operations that edit a copy |
| C65 | output path logic of the command line tool | induction over inputs; negation |
| C66 | threshold search | reachability invariant over the queue |
| C67 | event search | invariant over the candidates processed |
| C68 | slicing of targets and cadences | list induction |
| C69 | `set_device` on scans and cadences | state machine with error outcomes |
| C70, C71 | writes and reads of message streams with a crash point | prefix property; negations |
| C72, C73 | type names, `numel` | case analysis; product of a list, 64-bit wrap |
| C74 | `Stat/Integer.lean`: the five reductions on `int32_t`, `int64_t`, `uint8_t`, `uint32_t` with an accumulator of the same type: unsigned wrap, signed overflow undefined, the factor `1/n` as an integer | no overflow along the accumulation by induction; residues; Cauchy-Schwarz for the masked deviation; negations for all data and with concrete arrays |
| C75, C76 | noise power accessors, normalization | unfolding to the reductions; negations |
| C77–C80 | the four kernels of the GPU component search | rely/guarantee over all interleavings; measure for termination; negations for overflow and borders |
| C81, C82 | the GPU integrator, and the CPU one, each with its own offset arithmetic (`Gpu/Offsets.lean`) | race-free launch projects to threads run alone; refinement to sums along a path; a line over an even number of steps has no point near a half-integer |
| C83 | the GPU local-maximum search | threads claim records with an atomic counter and fill them field by field; invariant over all interleavings |
| C84 | the CUDA element-wise and assignment kernels, with their 32-bit indices and four-entry index array | the carry chain of a thread equals unravelling of its element number; race-free launch |
| C85 | the CUDA reductions: blocks of threads with shared memory and barriers, Kahan-compensated partial results, tree, grid-stride loop over results, host dispatch | phases between barriers are race-free, so each has one result; loop invariant of a block; exact arithmetic collapses the tree to a sum over the enumerated elements |
| C86 | the CUDA `count_true` kernel: blocks with shared memory and barriers, one atomic addition per block to a common 32-bit counter | every execution of the blocks projects to one without the counter; invariant: the counter is the sum of the blocks that have added |
| C87 | drift computation, CPU integration, conversion to the drift plane, component search and hit search in one chain | composition of C07 (cells), C12, C13, C15, C18; comparison of path sums term by term; in floats (`F32`, every operation rounded) by bounding the error of each cell of the plane below the gap between the tone and any other line |
| C88 | the CPU and CUDA reductions over rationals with a rounding after every operation (`double` accumulators and `float` results on the CPU; Kahan sums and tree on the device) | standard error analysis: induction over left-to-right sums, invariant of the compensated sum, induction over the tree; negations with IEEE round-to-nearest-even on concrete and on unboundedly long arrays |
| C89 | the table of a `.dat` file as text: fixed-point and integer formatting by fmt, double rounding of the end and centre frequencies | splitting lemmas (lines, tabs), digits by induction, half a unit in the last place; negation for the column names |
| C90 | the reader of `.dat` files: the three regular expressions as sequences of atoms with a greedy backtracking matcher, `getline` | soundness of the matcher, uniqueness of the split at white space; symbolic matches of the header; negations for hits and channel width |
| C91 | both sexagesimal formatters with a rounding after every double operation | error analysis and decimal reading; negation for 60 seconds by proof and with IEEE doubles |
| C92 | conversion of every supported element type, the usual arithmetic conversions and the four operations, comparisons and `logical_and` on single elements | arithmetic on exact rationals; negations by concrete values |
| C93 | the kernel `rc2c_shift_abs_square` with its 512 threads that all do the same work; the transform is a parameter | threads that write equal values: every schedule agrees with one thread alone; negations for bin 0 and long arrays |
| C94 | the mirror loop of `fft` on CUDA and the CPU stub | index arithmetic; negations for odd lengths |
| C95 | `gen_coarse_channel_response`: padding, shift, slice, reshape, reduce, divide; taps and transform are parameters | composition of the array theorems; negation for the whole function |
| C96 | `equalize_passband_filter` on what a read delivers | C47; negation by the shape loop |
| C97 | `read_data` on top of `get_data_shape`, with HDF5's hyperslab copy stated as an assumption; composed with opening a scan and reading a channel (C30, C34) | index arithmetic of row-major copies; negations for other axes |
| C98 | `read_mask` | evaluation; negations |
| C99 | `read_data_attr<double>`, `read_data_attr<int64_t>` down to the bytes of an attribute, with two's complement and IEEE decoding as specification | case analysis, exactness of rounding; negations with concrete bytes and for all 8-bit attributes |
| C100 | `read_data_attr<std::string>` | list reasoning; negation for every padding |
| C101 | `blandDLTensor`: constructors, copy, assignment, destructor, `to_dlpack` and its deleter, as a state machine over reference counts and lenders | invariant over all histories; negations |
| C102 | `to_dlpack`, the constructor from a `DLManagedTensor`; DLPack's address rule as specification | index arithmetic; negations for slices, byte offsets, missing strides |
| C103 | `scalarize` with and without index, with its 32-bit accumulator | C104, modular arithmetic; negations |
| C104 | `bland::to` with all its branches; `memcpy` as a loop of loads and stores | loop invariant; exact description and negations |
| C105 | `write_to_file`, `read_from_file` on the bytes of memory and file | odometer invariant (C14); negations for every other element size and file length |
| C106, C107 | the chain file, scan, coarse channel, `integrate_drifts`, `hit_search`, hits file | composition of C30, C97, C98, C87, C07, C18, C37, C39; error analysis of the double operations on frequency and rate; `Hit/EndToEndFloat` repeats it with rounded floats |
| C108, C109 | objects `coarse_channel`, `frequency_drift_plane` and `ndarray_deferred` with their shared cells, all calls on them | simulation by values: relation between heap and values kept by every call |
| C110 | scans with maps of shared channel objects on a heap | simulation by the value model of `Scan/Model.lean`; shared objects differ at most in their device, which every read sets |
| C111, C112 | the choice of implementation and C++ element type from the attributes of the arrays, for all operations; the current CUDA device as process state | typing and placement of lists of actions, closed under the combinators of the code; induction over histories; exact acceptance conditions and counterexamples |
| C113 | the output forms of the reductions and `var`, for any output view | loop invariant over a heap in which the output may be any view apart from the input; counterexamples for overlap, shape and `var` |
| C114 | both passes of `standardized_moment` over views, means in an array of their own; exact real powers for the value | loop invariant with three multi-indices; algebra of central moments, limit argument for the scale |
| C115 | the bytes of a hits file: segment table, pointers and data words of `Hit` and `Signal`, and the checks of Cap'n Proto's reader | round trip of the encoding by computation on the layout; induction over the hits; well-founded induction over the file for arbitrary bytes |
| C116 | `integrate_drifts` and `hit_search` as in C87, on samples in two units | every loop commutes with the change of unit; powers of two commute with rounding to nearest |
| C117 | the steps of `bliss_find_hits` on one channel, composed from the models of C60, C61, C63, C80 and C87, with the samples and flags in one memory | composition of the contracts of the steps; larger buffers give the same result |
| C118 | as C117, on data in two units | the kurtosis is invariant and the noise estimate scales; then C116 |
| C119 | `firdes`, `sinc_lpf`, `sinc`, `hamming_window` over the reals, every operation followed by a rounding with a given error | forward error analysis; `cos(x/2)cos(x/4)cos(x/8) = sinc(x)/sinc(x/8)` near zero |
| C120 | `Misc/Repr.lean`: index increment, position and print loop of `pretty_print`, on top of the model of `bland::to`; the specification lays out an array recursively over its dimensions. | induction over the dimensions: a block of turns prints the layout of a subarray; cutting at 25 elements |
| C121 | `Misc/Repr.lean`: `ndarray::size`. | case distinction |
| C122 | `Misc/Elements.lean`: the operation on one pair of elements with C++'s promotions, conversions, wrap-around and undefined behaviour, for the five element types | congruences modulo 2^n; case analysis over the type pairs |
| C123 | `Misc/Elements.lean`: comparison in the common type | the conversion keeps the numbers; monotone rounding |
| C124 | `Misc/Elements.lean`: bit vectors of the common width, cut to a byte | bit by bit |
| C125 | `Misc/Elements.lean`: unary element operations | as C122; for roots a representable number between the root and the next integer |
| C126 | `Flag/Outliers.lean`: `flag_magnitude(coarse_channel)` as mean, deviation and threshold on the heap model; `Flag/OutliersFloat.lean`: the same in IEEE arithmetic | one-sided Chebyshev inequality over lists of samples; negation for rounding by kernel evaluation |
| C127 | `Cadence/ToDat.lean`: `bliss_hits_to_dat` main program on the message, scan and .dat models | composition of C38 and C89; text lemmas for the name |
| C128 | `Misc/Python.lean`: `__getstate__`, `__setstate__` on the heap model | loop induction and dense addresses; counterexamples for all slices and all objects |
| C129 | `Misc/Python.lean`: argument conversion, library operation, export | composition of C102 with C44, C47, C48, C50 |
| C130 | `Misc/Create.lean`: constructor with a value, `fill`, `zeros`, `ones`, `rand_*` on the heap model | loop invariants; dense addresses |
| C131 | `Nd/Large.lean`: the element-wise loops starting at the `int` sum of the offsets | sum modulo 2^32; the view seen by the code is the view moved as a whole; negations |
| C132 | `Gpu/SameAsHost.lean`: expressions evaluated call by call on the CPU and by launches on the device; the device's square root | induction over the expression with C47, C48, C50 and C84; negations |
| C133 | `Hit/Threshold.lean`: two runs of `hit_search` with different options | from C12, C13 and C18: the peak of one run is a cell above the threshold of the other; kernel evaluation for the negations |
| C134 | `Event/Veto.lean`: the search with and without the scans of other targets | the cached search is shown to simulate a search with a pure distance; induction over scans and hits shows the candidates are independent of the OFF hits |
| C135 | `Scan/Metadata.lean`: the attributes read by the constructor, getters, setters | case analysis over the fifteen fields; induction over the history of set calls |
| C136 | `Drift/Linear.lean`: runs of the CPU integrator on related spectra | cells as sums over paths (C01); linearity and monotonicity of the sums, translation of paths |
| C137 | `Hit/Brighter.lean`: the drift search on two spectra; the whole chain on two concrete channels | monotone cells (C136), completeness of clusters (C12); kernel evaluation for the counterexample |
| C138 | `Event/Frame.lean`: event search on a cadence and on its shifted or mirrored copy | the search without a cache commutes with every map of hits that preserves distances; the cache does not show for symmetric distances, nor when no two scans start at the same time, because then no pair is asked for in both orders (C134); in double arithmetic a counterexample (`Event/FrameFloat.lean`) |
| C139 | `Event/Frame.lean`: event search on two cadences with the same positions | same lemma, for maps of hits that keep position, duration and drift, in any arithmetic; counterexample with infinities (`Event/FrameFloat.lean`) |
| C140 | `Gpu/Tone.lean`, `Gpu/ToneFloat.lean`: the CUDA integrator followed by the CUDA component search | cells of the plane are means along paths (C81); the tone's path is the only one without a weaker sample; the strongest peak is reported under every schedule (C77) |
| C141 | `Event/Isolated.lean`, `IsolatedFloat.lean`: `event_search` on a cadence that holds an isolated signal | candidates that start from other hits never take a hit of the signal, and the one that starts from its first hit takes exactly one hit per scan; invariant over the remaining hits of the later scans; then C134 for the other targets; in floating point the rounding errors of distance and average are bounded |
| C142 | `Event/Isolated.lean`: `distance_func` in exact arithmetic; `Event/DistFloat.lean`: its rounding errors | closed form of the distance, then bounds; negations with all rates in a range |
| C143 | `Event/FromFile.lean`: the cadence that `event_search` sees before and after a trip through a file | C38 for the file, then the search on both: equal distances (C138) for exact records, C141 in floating point with the rounding of the times as an error of measurement; concrete negation |
| C144 | `Hit/Single.lean`, `Hit/SingleTone.lean`: one hit from a coarse channel with one tone, none from a silent one; `Event/EndToEnd.lean`: files to events; `Event/EndToEndExample.lean`: a cadence of three files; `Hit/Window.lean`, `Event/AmongExample.lean`: the same among other signals | composition of C106 (reading and searching), C12 (clusters), C90 (hits of a scan) and C141 (events in floating point); among other signals with C148, and since no cluster reaches across quiet channels |
| C145 | `Gpu/Clip.lean`: sequences of device calls, normalization, sigma clipping; `Gpu/ClipProps.lean` | composition of C84 (element-wise launches), C85 (reductions) and C103 (scalarize); induction over the rounds; negation for the code as written |
| C146 | `Hit/Equalize.lean`: `equalize_passband_filter` before the steps of C117 | the quotient is a fresh channel (C96); then C118 with the identity or a power of two as unit |
| C147 | `Hit/Survive.lean`, `Hit/SurviveFloat.lean`, `Hit/SurviveSmear.lean`: the steps of C117 on a channel with a tone | the search recovers the tone (C87); the line whose flags the hit carries must meet the tone, since a line of background is below the threshold; so it stays within the largest drift of the tone, where nothing is flagged that `filter_hits` looks at; with rounding, by the error bounds of C87 and C144 |
| C148 | `Comp/Local.lean`, `Hit/Local.lean`, `Hit/SurviveFloat.lean`, `Hit/LocalSmear.lean`: component search of two planes that agree in a range of channels with a quiet margin | breadth-first growth never crosses the margin, so each component is on one side; the two scans keep equal visited marks and equal components inside (simulation by induction over the scan); lines that start in the range stay within twice the drift |
| C149 | `Comp/Shift.lean`, `Hit/Shift.lean`: component search of two planes of different widths that agree on a range of channels up to a shift | the raster scan as a loop over the list of cells; the cells of the range appear in the same order in both lists; simulation of the two scans and of each flood fill, as in C148, up to the shift; the fields of a cluster move with it |
| C150 | `Hit/Chain.lean`: all steps on a coarse channel read from a file; `Event/Chain.lean`: files to events; `Event/ChainExample.lean`: a cadence of three files | the arrays read (C106) meet the hypotheses of C117's composition, so the search runs with the measured noise; the one hit of the signal (C144) starts on a line whose channels have no flag that `filter_hits` looks at; then as C144 |
| C151 | `Misc/HotPixels.lean`: `flagHotPixels` with deviation, mean, threshold and the new array | C53, C47, C48 and C103 make every step succeed; the returned array is a fresh block, so its elements are the unspecified contents; a content that inverts the specification refutes the property |
| C152 | `Misc/ResponseTool.lean`: options, help screen, response and file | the response never returns (C95), so only the help screen ends a run; even sizes are undefined (C95) |
| C153 | `Misc/HostRun.lean`: `main` from files to output, with sigma clipping as in C62 and the other steps any functions | the steps of a scan contain sigma clipping, which never returns, so no channel can be read and `scan::hits` never returns hits; then C65's loop stops at the first scan |
| C154 | `Hit/Range.lean`: IEEE single precision with subnormals, infinities and NaN (`I32`), the same integration run over it and over unbounded exponents (`F32`) | induction along a drift line: the partial sum is 0 or between 2^-102 and k 2^100; a literal witness for overflow |
| C155 | `Hit/Smear.lean`, `Hit/SmearFloat.lean`, `Hit/SmearFreq.lean`: the model of C87, with tones of `w` channels (`SmearedTone`) | overlap of windows counted, over samples at most the noise floor or at most a level above it: a line of more bins gains less from the noise than it loses in power, one of fewer bins has more noise, one of as many bins overlaps in full only if it is the same line; noise of lines by error analysis of square root, quotient and conversion |
| C156 | `Gpu/Smear.lean`, `Gpu/SmearFloat.lean`: the GPU programs of C81 and C123 and the tone of C155 | lines with a sample in the tone are in the band at that time, so the share of a line's samples in the tone is at most the ratio of widths; then as C155, in exact and in float arithmetic |
| C157 | `Gpu/MaximaTone.lean`: the GPU integration of C81 and the search of C83 | the strongest cell away from the borders is a maximum, so C83 reports it; with nothing else above the threshold its band ends at both neighbours |
| C158 | `Gpu/Hits.lean`: the GPU searches of C77 and C83, their export, `hit_search` and `filter_hits` | the exported counts of each method, followed through the filter; concrete flagged planes for the violations |

Properties the code violates are recorded with the negation (a theorem with a
concrete witness) and the strongest positive part (`_partial`).

## Trusted base

* Lean 4.33.0's kernel and the Mathlib modules imported; axioms at most
  `propext`, `Classical.choice`, `Quot.sound`.
* The reading of the C++ code: the tie between `/repo` and the model is by
  citation only.
* For GPU code also: the execution model stated under *GPU* above (no weaker
  reorderings than those), and that a launch reported as successful runs every
  thread to its end.
* Not modelled: Python bindings except those of C128 and C129, HDF5 and Cap'n Proto internals (a
  message stream is any framing with the laws `Framing.LawfulOn`; for hits files the bytes
  of Cap'n Proto's encoding are written out in `Verif/File/Capnp.lean` and the laws proved), the C++ standard
  library beyond the behaviour stated at each use, memory exhaustion, 64-bit
  overflow of index arithmetic, `int` loop counters beyond 2^31, contraction of a product and a sum
  into one rounding by the compiler, host threads, printing.

### Source files

Modelled: `bliss/core` (cadence, coarse_channel, event, hit, noise_power, scan;
`frequency_drift_plane` as the arrays it holds, and as objects with shared cells in C108), `bliss/drift_search`
(all of it; the choice of device in `Misc/Dispatch.lean`),
`bliss/estimators`, `bliss/flaggers`, `bliss/preprocess`, `bliss/file_types`
(Cap'n Proto files, HDF5 shapes, windows and attributes, and `.dat` files), `bliss_find_hits.cpp` (its
loop over inputs); in bland the arrays, views, ownership, exchange with other
frameworks, moves between devices, raw files, deferred arrays, element-wise
operations, reductions, creators and FFT shift of the CPU, and the choice of element type
and device of every operation (`dispatcher.hpp`, `device_dispatch.hpp`). CUDA:
`connected_components_cuda.cu`, `local_maxima_cuda.cu`, `drift_integration_cuda.cu`,
`elementwise_{binary,unary,scalar}_op*.cuh`, `assignment_kernel` of `ops_cuda.cu`,
`statistical_cuda.cu`, `count.cuh`, `frequency_cuda.cu` (all but the transform). Also
`bliss/rfi` and `bliss_generate_channelizer_response.cpp`.

Not modelled: `bliss/python`, `bliss_debug_demo.cpp`,
`event_search.cpp` (a command line tool whose body is commented out: it returns at once), the remaining CUDA
sources of bland, the FFT itself.
