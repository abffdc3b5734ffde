# Design of the formal model of Eisvogel

## 1. Ground rules
* The model is plain total Lean 4 under `lean/Verif/`: index vectors are `List Nat`, buffers are lists, stateful components are
  functions `State → Op → Res (State × Out)`.  A failing `assert` (`Res.abort`), a thrown exception (`Res.throw`), undefined
  behaviour (`Res.ub`) and a loop that does not end (`Res.diverge`) are *distinct outcomes* and are never totalised away: a
  theorem that says "returns `.ok …`" says that none of them happens.  Asserts are active in Eisvogel's build
  (`CMakeLists.txt` sets no `-DNDEBUG`).
* `std::size_t` is `Nat` with explicit `% 2^64` (`wadd`, `wsub`, `vmul`, …) where the code adds, subtracts or multiplies; the
  guards under which no wrap-around happens are hypotheses (`Small`, `SimOk.total`, `DomOk`, …), and the wrap-around itself is
  used where the code relies on it (`contains`, `INFTY` chunk sizes).  32-bit `int` conversions in the rebuild are modelled (`i32`).
* Loops whose end is not evident carry fuel; running out of fuel is `Res.diverge`, and the theorems show that the fuel chosen
  by the model is enough (so that `diverge` means non-termination of the code, e.g. `C02_chunk_size_zero_diverges`).
* Floating point: where a property is about *data movement*, scalars are an arbitrary type or 32-bit patterns (`Nat`); where it is about
  *numerics*, they are elements of an arbitrary ordered field (or `ℝ`).  Rounding is modelled in C79 to C81 (interpolation and
  signal request from the grid indices on, for any arithmetic with a relative error bound) and in the counterexample
  `C39_assertion_fails`, which is stated for the exact dyadic values of concrete floats.
* Files are a function from names to contents; the contents of chunk files and of the index are the actual byte sequences written by
  the serialiser (`Bytes/`, `Stream/`).  One `write`/`rename`/`remove` of a file is atomic in the model,
  except for C82, where a crash may leave arbitrary contents in every file that the call at hand has opened for writing.
* Every definition of the program carries a comment with the file and the lines of /repo it models; simplifications are in that comment.
* Property theorems are named `Cnn_…`.  They are stated with a small specification section of their own (headed
  `### Specification` or kept in a `Spec.lean`), and are followed by `example`s with concrete, non-trivial cases that meet the hypotheses.
  `_partial` marks a theorem that proves less than the property of `properties.jsonl`; the comment says what is missing and,
  where the *code* violates the rest, there is a theorem with a concrete counterexample.

## 2. Trusted base
1. Lean 4.33.0's kernel, and the elaborator for the correspondence of source text and statement.
2. The axioms `propext`, `Classical.choice`, `Quot.sound` (`#print axioms` on each theorem of MANIFEST.json shows a subset of these).
   No axioms of our own, no compiled evaluation: `decide +kernel` is evaluated by the kernel.
3. Mathlib definitions used in statements: `List`, `Finset`/`Multiset` basics, ordered fields, `⌈·⌉`, `⌊·⌋`, `ℝ`, `Real.sqrt`.
4. The reading of the C++ recorded in the definitions.  This is not machine-checked: the code was not compiled or run.
   It is checked by mutation: `seeded/LOG.jsonl` lists edits of the model that a realistic bug would make, and which theorems then fail.

## 3. What is modelled
| Model | Code (under /repo/eisvogel unless said otherwise) |
|---|---|
| `Base`, `Iter/Model` | core/impl/Vector.hh (arithmetic, comparison), core/impl/IteratorUtils.hh (element, chunk and penetrating loops, `empty_range`) |
| `Array/Model`, `Array/Alias` | core/impl/NDVecArray.hh/.hxx: strides, owning arrays, views, read/write, `fill_from`, `Append`, `SwapAxes`, `resize`, `clear`, copy/assign, element loops, `index_loop_over_array_chunks`; the row-copy fast path |
| `Array/Numpy` | NDVecArray.hxx 405-500 `save_as_numpy` |
| `Bytes/Model` | core/impl/Serialization.hh, DefaultSerializationTraits.hxx: all traits used by stored data, host byte order a parameter |
| `Stream/NullSup`, `Stream/Streamer` | NDVecArraySerialization.hh, NDVecArrayStreamer.hh/.hxx (`serialize`, `append_slice`, `mark_as_final`, `deserialize`), MathUtils.hh 12-15 |
| `Cache/Model` | core/impl/Cache.hh/.hxx with slots, neighbour pointers and map |
| `Tree/Pool`, `Tree/BBox`, `Tree/Model` | core/impl/RStarTree.hh/.hxx: memory pool, bounding boxes, insertion with forced reinsertion and splits, update, bulk (STR) rebuild, point and region search; ChunkUtils.hh |
| `Dist/Model`, `Dist/Lib`, `Dist/Hist` | core/impl/DistributedNDVecArray.hh/.hxx: chunk metadata, `ChunkCache` (register, append, retrieve, remove, flush, evict, destructor), `ChunkIndex`, `ChunkLibrary` (register, `AppendSlice`, `operator[]`, `FillArray`, `GetChunks`, `SwapAxes`, flush, move, clear, delete, import, shape queries, element loops) and histories of these calls on several libraries over one file system |
| `Dist/Crash` | the same operations stopped after any number of file-system steps |
| `Rebuild/Model`, `Rebuild/Pad` | DistributedNDVecArray.hxx 1198-1363 `RebuildChunks`, `RebuildChunksPartial`, boundary filling; GreensFunction.hxx 6-36 (boundary evaluator of the cylindrical Green's function) |
| `Ops/Downsample` | core/impl/NDVecArrayOperations.hxx |
| `Green/Quad`, `Green/Interp`, `Green/Inner`, `Green/Track`, `Green/Resample` | core/impl/Quadrature.hh, Interpolation.hh/.hxx, GreensFunction.hh/.hxx 40-473, Symmetry.hxx (projection), Current.hh/.hxx, Vector.hxx 132-157 |
| `Meep/Stats` | meep/impl/MEEPCylindricalGreensFunctionCalculator.hxx 9-70, 175-205 (running maximum, dynamic-range limit) |
| `Meep/Overlap`, `Meep/Padding` | same file 208-291 (stored part of a simulation chunk), 533-561 (padding of the storage domain); ChunkUtils.hh |
| `Meep/Save`, `Meep/Jobs` | same file 292-439 (saving callback), 453-612 (one process), 622-642 (merge) |
| `Meep/Slices`, `Meep/Rechunk`, `Meep/Fill`, `Meep/Finish`, `Meep/Pipeline`, `Meep/Domain` | same file 646-737 (partition, rechunking by several processes), 739-825 (the four stages), 461-598, 803-823 (domains, loop in time, recorded coordinates) |
| `Meep/Source` | core/impl/Geometry.hxx, core/impl/Antenna.hxx, MEEP calculator 470-483; /repo/extern/corsika |
| `Analytic/Field`, `Analytic/Gamma`, `Analytic/Calc` | core/impl/AnalyticGreensFunctionCalculator.hxx, MathUtils.hxx (incomplete gamma function) |
| `Green/Create`, `Green/Signal` | GreensFunction.hxx constructors; core/impl/SignalCalculator.hxx; /repo/extern/corsika/impl/C8SignalCalculator.hxx |
| `App/Table`, `App/Csv`, `App/Export` | /repo/applications/dipole/dipole.cxx (tables), /repo/tests/test_utils/CSVReader.hxx, core/impl/SignalExport.hxx |
| `Shower/Model`, `Shower/File` | /repo/extern/shower_profile: shower_creator, shower_1D, charge-excess profiles, constants |

## 4. What is not modelled
MEEP itself (fields, its division into chunks, time steps and their number are inputs of the theorems, subject to stated conditions); MPI: the
processes of a calculation run one after the other in directories of their own (they share no files until the merge); floating-point
rounding outside of the interpolation and of `AccumulateSignal` (C79 to C81 and C85 model the rounding there, everything else is over exact ordered
fields; overflow, underflow and NaN are not modelled); console output and progress bars; the operating system's file system beyond
atomic single-file operations (no disk-full, no torn writes except in C82, no `std::filesystem` errors); memory exhaustion; the C++ memory model (all code is single-threaded);
floating-point rounding inside the closed formulas of `AnalyticGreensFunctionCalculator` (modelled over the reals); 2D showers (their headers are not in the
repository) and the atmosphere models of `extern/`; the main programs of `applications/` and `examples/` beyond the parts named above; python scripts.

## 5. Per property: what is modelled and how it is proved
| Id | Modelled | Proof |
|----|----------|-------|
| C01 | `index_loop_over_elements` as recursion over dimensions | membership iff in box, `Nodup`, lexicographic order by induction on dimensions |
| C02 | `index_loop_over_chunks` with fuel and 64-bit `+` | fuel suffices; exact cover; counterexamples for wrap and size 0 |
| C03 | strides and flat index | mixed-radix injectivity/surjectivity by induction |
| C04-C09 | `NDVecArray` as header (strides, offset, shape) over a buffer | read-after-write per index; copy of views: negation |
| C10-C12 | big-endian codecs on byte lists; short reads are UB | round trips with arbitrary suffix, for every host byte order and block size |
| C13, C14 | `suppress_null`/`desuppress_null` | induction with the run accumulator generalised |
| C15, C16 | streamer as bytes per serialization chunk | refinement to the plain array; negations for misaligned appends |
| C17 | linked-list cache with slots, pointers, map | forward simulation to an LRU list |
| C18 | index-linked free/alloc lists | forward simulation to (allocated list, free list) |
| C19, C35, C54 | boxes with wrapping `contains` | set-theoretic characterisation |
| C20-C25 | the tree as arrays of nodes and entries; order of equal elements in sorts arbitrary (`Sorter`) | invariant (`Core`) preserved by each operation, induction over histories |
| C26 | chunk metadata | induction over operations, byte round trip |
| C27 | cache + file system | forward simulation to "all chunks in memory" (`memStep`) |
| C28-C31, C33, C47, C53 | whole library, several libraries over one file system | invariant `WInv` relating the state of the program to abstract pieces; `runW_ok` by induction over `AllLegal` histories |
| C48 | operations stopped after n file-system steps | invariant at every prefix; counterexample for `FlushLibrary` |
| C32, C46 | rebuild, penetrating loop | exact set of visited indices; refinement of the output library by induction over chunks |
| C34 | downsampling with wrapping arithmetic | per-dimension ceiling arithmetic |
| C36, C37 | kernels and interpolation routine over an ordered field, reads with bounds | ring identities; index ranges |
| C38, C39 | time-chunk walk, blocked double loop over the chunk library | reduction to a sum over samples; negation for all-null chunks |
| C40 | blocked quadrature | induction over blocks |
| C41 | cylindrical projection over ℝ | algebra |
| C42 | `fill_array` over the chunk library | exact per-sample characterisation; general theorem that a sample on the far face of a chunk with padding equal to the support is undefined behaviour (`Green/FarFace.lean`), counterexamples |
| C43 | running maximum over histories | induction; negation of "per location" |
| C44 | `rechunk_mpi` as an interleaving of the processes' steps over one file system (one call of `RebuildChunksPartial` is one step: it reads the input directory, which nobody writes before the barrier, and reads and writes the directory of its own partition); in `fineStep` the calls overlap in time, one chunk being one step | invariant over all schedules (`phase1`; `fine_run` for arbitrary sequences of the finer steps), then induction over the merge (`merging`); closing a library that was only read rewrites identical files (`close_same`) |
| C45 | saving callback | every history of saving steps is an allowed library history, result by C30 |
| C49 | bytes of the NumPy file | against a relational specification of format 1.0 |
| C50 | `empty_range` | characterisation and counterexample |
| C51 | shower profile | in-bounds, contiguity for any arithmetic; interpolation over a field |
| C52 | append along several axes | writing through (cache size 0): induction over the calls with the file history of C16; rejection of a waiting chunk; duplication on a change of axis in every state, with a concrete run |
| C55 | padding of the storage domain | ceiling arithmetic |
| C56 | jobs and merge | C45 per job, then the importing history (C47) |
| C57 | whole calculation up to the merged array | C55 + C54 + C56; the union of the clipped chunks is the padded domain, counting of elements for the 64-bit sizes |
| C59 | reading sessions | the cache stays clean (`CC.Clean`), so that eviction and flush write nothing |
| C60 | the calculation with the parallel rechunking | C57 + C44; indices of the finished array are traced back to places in the calculation domain (`IsPlace`); counterexample for the axis |
| C61 | both MEEP callbacks, the field statistics and all of C57 / C60 | simulation of the callbacks by the abstract save step: after each step the buffers hold `IsSample`; then C57 / C60 |
| C62 | dependence on the division | bounds for the block maximum from neighbours; counterexample with two divisions |
| C64 | both loops of the incomplete gamma function, over the reals | closed form of numerators and denominators by a third solution of the recurrence (finite integrals), whose alternating sign encloses the value; remainder of the exponential series; Mathlib integral as the specification |
| C65 | the lambdas of the field evaluation (lines 10-96 of the analytic calculator), NaN as a value | closed formula; derivative of the incomplete gamma function; Gauss's law by differentiating the formula in both directions; limits in Mathlib |
| C63 | ElectricDipole as a whole: step sizes, chunk loop with evaluation and registration, RebuildChunks, construction of the Green's function, reopening | invariant of the chunk loop (each registered chunk has the samples), then the theorems on rebuilding (C32), creating and opening (C66) |
| C69 | Finish (stage four, lines 803-824) on top of the models of C60, C58, C66 and C36-C39 | composition: chunks on disk from C60 give the samples of the mirrored field (`holds_parts`), loading gives `Serves`, and `answers` turns this into inner products and signals |
| C70 | SignalCalculator, C8SignalCalculator on top of the Green's function model | induction over the list of calls with `Answers`; a sum is invariant under permutation |
| C71 | the contribution of a track from C70 | equality of radial coordinate, current and delay under the transformation; trapezoid weights add up at the cut |
| C72 | lin_interp, sort, reorder, impulse response of applications/dipole | sortedness of any result of the sort; search for the neighbouring rows |
| C73 | CSVReader, `getline` on lists of characters | induction over the rows |
| C74 | coordinate conversion, `eps`, antenna current and position, CORSIKA interface | algebra in an ordered field |
| C75 | ExportSignal and CSVReader | the exported text is a file of good rows, then C73 |
| C76 | as C65 | derivatives of the retarded filter functions in distance and time; algebra |
| C77 | all readers (`takeBytes`: reading beyond the end is undefined) | readers do not depend on what follows what they consume (`Reader`, closed under composition), plus the round trips C11, C15, C26 |
| C78 | as C27-C30, C48 | invariant: chunks in the ledger have at most appended rows outstanding in the cache (`Slack`, `Calm`), so that their files hold what they contained (`FileHas`), and the index on disk lists them |
| C79 | Interpolation.hxx with an abstract rounding arithmetic (`Arith`, `Arith.Rounds u`) | propagation calculus `Near u k` (k roundings relative to a magnitude) through kernels, inner sums and outer sums |
| C80 | accumulate_inner_product from the floating-point indices on, with abstract rounding arithmetic | `Near` calculus for local positions, induction on remaining samples; counterexamples in single precision with ties to even |
| C81 | accumulate_inner_product with abstract rounding arithmetic (as C80), all values of the signal | `Near` calculus through interpolation, inner product and accumulation, induction on chunks; piecewise-polynomial Lipschitz bound of the kernels for the forward error |
| C82 | for every call the set of files it opens for writing up to any point (`Touch.lean`, along the model of C27-C30) | names of chunks with outstanding operations are invariant (`Pend`), so the files of saved chunks are never in that set; then as C78 |
| C83 | the profile file byte by byte (`Shower/File.lean`), the maps of the constructor | induction over the file; the stored energies are the first occurrences, from which the nearest is selected |
| C84 | `fill_from`, `operator=`, `Append`, `SwapAxes` on one buffer, with the overlap conditions of the unsequenced copies (`Array/Alias.lean`) | sources that are not written to keep their contents, so the loop equals the one of C05 |
| C85 | `apply_accumulate` and helpers with rounding operations, contraction of products and sums left open (`Green/TrackF.lean`); not modelled: overflow, underflow, reassociation and reciprocals of `-ffast-math` | error calculus of C79-C81, induction over points, sample blocks and integration blocks; explicit binary32 values for the violation |
| C86 | the streamer with its buffer as memory of which each byte may be uninitialised, streams with `failbit` (`Stream/Buffer.lean`) | simulation of the model without buffer; for truncated files, the spliced file (`Stream/Stale.lean`) |
| C87 | `greenAt` (the interpolation of the stored samples, C36/C38) against a field of which they are the samples (`Green/Accuracy.lean`) | moments of the kernels, Taylor's theorem, one axis after the other |
| C88 | `apply_accumulate` as in C39, against the integral along the track (`Green/Convolution.lean`) | C39, C87, error of the trapezoidal rule (`Green/Quadrature.lean`, Mathlib) |
| C89 | `greenAt` in the first cell, with the mirrored samples that `gridField` (C67) and `meepField` (C69) contain | C87 with the box extended to the mirror image; the weights of the cubic kernel for the negation |
| C90 | the pipeline of C67 against the exact field of the dipole (`Analytic/Converge.lean`) | smoothness of the filter and of the field, compactness, C87, C88, C67 |
| C91 | `print_dimensions` and `fill_tracks` of a shower with given attributes (`Course`) | the fold as minimum and maximum over the points, convexity along a track, distance of a point of one track to the next point of the other; concrete showers for the negations |
| C92 | `meepField` (C69) with the coordinates of `coordsOf` (C58), read through `greenAt` and `apply` | the samples are those of the field at the recorded coordinates up to its change over one cell and step (C58), then C87 and C88; the exact coordinates of the first and last grid point for the lower bound |
| C93 | interpolation (Keys and linear kernels) and `accumulate_inner_product` over symbolic expressions (`Green/FastMath.lean`); the rules by which a compiler may rewrite them (`Rewrites`): commutativity, associativity, distributivity and factoring, neutral elements, with contraction as omitted roundings | every rule keeps value and does not increase the magnitude; every execution of an expression is within (1+u)^cost - 1 of its magnitude |
| C94 | `fill_tracks` (C51) and `AccumulateSignal` (C70) one after the other, the loops of the example program (`Shower/Signal.lean`) | the tracks are pieces of the axis; C88 for each of them, the Lipschitz constant of the profile, telescoping sums |
| C95 | `DumpJSONTreeStructure` with its three helpers and the printing of vectors, byte by byte (`Tree/Dump.lean`) | the bytes are derived in the grammar of `Tree/Json.lean`; every node and entry is below the root once (invariant of C20-C25) |
| C96 | the export program (`Green/ExportGreen.lean`) on the disk written by the dipole calculator | resampling for chunks of the regular grid (`resample_grid`), composition with C66, C42 and C49; the export succeeds exactly when no sample falls between two chunks (`C96_exactly_when`) |
| C97 | the conversion program (`Shower/Convert.lean`), followed by the reader of C83; arithmetic of doubles with relative rounding errors | the file is that of a list of showers, for which C83 holds; error bound of the conversions of units |
| C98 | the export program on the result of the four stages of a calculation with MEEP | `meep_serves` (from C57, C60, C66), then as C96 |
| C99 | the scripts in examples/plot_greens_function, with NumPy indexing, `linspace`, `meshgrid`, `flip`, `transpose`, and the positions of vertices and pixels of Matplotlib (from their documentation) | arithmetic of floors; coordinates of the samples are in the pixels with their number |
| C100 | construction, resizing and assignment with a value, `clear`, resizing without a value, on the array model | from the theorem on `fill` (C05) with the whole shape as region; flat positions of the rows |
| C101 | programs with library objects of their own over the file system of C28, one call per step | locality: a call on a file system in which the files outside the program's directories are replaced does the same and leaves those files alone (`step_loc`, through every library, cache, index and tree function); induction over the interleaving |
| C102 | the processes of C61 with a common file system; one library call or one callback of a simulation chunk per step | locality of each step (through C101's `step_loc`); two interleavings with the same steps of each process leave the same files (`team_any`: forth and back to each process alone); one process after the other is one of them |
| C103 | the programs of C101 with the operations that read; `FlushIndex` also as two file operations | a program that only read has a clean cache and an unchanged index (`step_clean` of C26/C99), so closing leaves all files as they are (`Meep.close_same`), hence no call changes what another program knows; counterexample for opening between the two file operations |
| C58 | Domain: regions, storage domain, main loop in time, coordinates (lines 461-534, 577-598, 805-823) | floor and ceiling facts in an ordered field; induction over the loop in time with the smallest sufficient number of steps |
| C67 | composition of the models of C63, C66, C38, C39 | the loaded library, being clean, serves the samples of the dipole's field on all points that the interpolation uses (region predicate); chunk ends from the chunk loop |
| C68 | fmax, requested steps, number of steps (as in C63) | Fourier integral of t^N exp(-ct) by induction over N; arithmetic of rounding down |
| C66 | the Green's function constructors: flush, second library on the directory, `green.meta`, both destructors; opening | WInv carried through flush and close; the second library is clean, so closing it rewrites the index with the same bytes; C11 for the metadata |

## 6. Defects of the code found while modelling
Machine-checked (theorem in brackets) unless marked †.
* A reopened library starts its chunk identifiers at 0 again: chunks are mixed up or an assert fails (`C29_reopened_library_mixes_chunks`, `C29_reopened_library_aborts`, `C47_import_after_reopen_mixes_chunks`).
* `FlushLibrary` writes the index before the chunks (`C48_flush_crash_loses_chunk`).
* `AppendSlice`/`operator[]` without a chunk dereference a null pointer (`C31_append_to_nothing_is_ub`, `C30_get_uncovered_is_ub`); appending to an all-zero chunk throws (`C31_append_to_null_throws`).
* Appending along one axis and then another stores data twice (`C52_axis_change_duplicates`); appends to a streamer file along another axis or with a non-dividing chunk length corrupt it (`C16_*_wrong`).
* An all-zero chunk with overlap is reloaded without its padding and aborts (`C30_padded_null_aborts`).
* `FillArray` does not detect an uncovered region (`C30_uncovered_not_detected`); `GetShape`/element loops silently give zeros/nothing when there are gaps (`C53_loop_with_gap_visits_nothing`), and the loop without a range assumes start 0 (`C53_loop_misses_elements`).
* Corner padding after `RebuildChunks` is stale memory (`C32_corner_padding_is_stale`); the penetrating loop overruns for a chunk outside the array (`C46_disjoint_chunk_overruns`).
* Copying a view yields a wrong array (`C08_copy_of_view_wrong`); `empty_range` compares whole vectors (`C50_empty_range_wrong`); appending to a view is UB (`C06_append_view_is_ub`).
* A chunk size 0 never ends (`C02_chunk_size_zero_diverges`), an `INFTY` chunk at start > 0 wraps (`C02_infty_chunk_wraps`).
* The inner product is misaligned after an all-zero chunk (`C38_misplaced`) and reads an uninitialised buffer (`C38_uninitialised`); interpolation reads past a chunk's end (`C37_over_read`) or silently gives zero without padding (`C37_silent_zero`); outside of the library it dereferences null (`C38_outside_is_undefined`).
* The assertion on the delay can fail with floats (`C39_assertion_fails`); `Ignore` mode depends on the blocking (`C39_ignore_depends_on_blocks`).
* `fill_array` leaves out samples on the far face or reads out of bounds (`C42_left_out`, `C42_last_missing`, `C42_far_face`, `C42_slice_zero`).
* The running maximum is per 2×2 cell (`C43_not_per_location`).
* `ChunkUtils::overlaps` is true for an empty range inside another (`C54_empty_overlaps`); an empty storage domain aborts (`C55_empty_aborts`).
* If the radial start of the storage domain is not a multiple of the downsampling factor and there is no room for the whole padding before it, the padding at negative radius is mirrored at the first stored row instead of the axis (`C60_axis_fails`): with start 1 and factor 2 the value for r = -1 is the field at r = 3.
* A Green's function whose array does not start at the origin is written without complaint but cannot be opened: an assertion ends the program (`C66_load_needs_origin`).
* The result depends on how MEEP divides the domain (number of processes): the 2×2 blocks of the dynamic-range statistics are counted from each simulation chunk's first stored index (`C62_depends_on_division`).
* `create_shower()` with its default argument indexes out of bounds (`C51_default_index_out_of_bounds`); the constructor stores a stray record at end of file (`C51_stray_record`); the first point of a profile is not scaled (`C51_first_point_not_scaled`).
* The last row of a table is refused by the interpolation (`C72_last_refused`), an impulse response that begins after time 0 is refused in between (`C72_impulse_late`); an empty line or short row in a text file is undefined behaviour (`C73_empty_line`, `C73_short_row`).
* The location of the antenna that the CORSIKA interface reports is always the origin (`C74_location_wrong`); the source is off the axis (`C74_off_axis`).
* No reader checks the state of the stream: a file that ends early is undefined behaviour (`C77_index_undefined`, `C77_chunk_undefined`, `C77_meta_undefined`).
* Crash after `SwapAxes` before the index is written: transposed chunk files with the old index, wrong values (`C78_swap_crash`). Crash after `AppendSlice`: the file is longer than the index says and later appends are misplaced (`C78_append_crash`).
* † (C80) `accumulate_inner_product` computes the number of samples per chunk by a rounded division and asserts that the rounded position of the last one is inside the chunk: for a chunk end of 7 and samples 0.3f + k·0.1f the assertion fails and the program aborts; with padding equal to the support of the kernel (accepted by the check of line 384) a chunk [16, 30) with samples 17.1f + k·0.1f is read behind the end of its array.
* `FlushIndex` truncates `index.bin` in place: a crash inside a flush or the destructor leaves an index that cannot be read, and the whole library is lost (`C82_torn_index`). `MoveLibrary` and `ImportLibrary(move = true)` remove the only index before the new one is on disk: a crash loses the data (`C82_move_crash`, `C82_import_crash`; the latter also if the process dies between the import and the next flush).
* The loader of shower profiles accepts files that end within a shower and fills the rest with zeros (`C83_truncated_accepted`); a missing file is a null pointer that is used (`C83_missing_file`).
* `a.Append<0>(a)` copies out of bounds for every non-empty array, `SwapAxes` into the array itself does not transpose, and `fill_from` between overlapping regions of one array smears (`C84_append_self_undefined`, `C84_swap_axes_self`, `C84_overlap_smears`). None of them is called this way in the repository.
* `AccumulateSignal` can stop at `assert(convolution_t_start >= 0.0)` (GreensFunction.hxx 324) because of rounding: track from 0 to 0.8f, samples from 0 in steps of 0.16f (`C85_abort`).
* A truncated chunk file is read without error when the streamer has been used before, and the missing values are taken from the array read before (NDVecArrayStreamer.hxx 184-189, `C86_truncated_stale`).
* The overlap at negative radius has the radial component mirrored without change of sign, in the analytic and in the MEEP Green's functions; between the axis and the first grid point the cubic kernel therefore gives it too small by the factor f (2 - f) (`C89_radial_wrong`).
* `print_dimensions` uses the step 1., so tracks with a finer step (as in the example that calls it) leave the printed region; its maximal distance starts from the distance to the origin instead of the axis; its minimal distance ignores the tracks between the points (`C91_*`).
* † `02calculate_shower_emission.cpp` runs the loop over the tracks twice, so the signal it writes is doubled (C94).
* Charge lists of the wrong length are not noticed when a shower library is converted (`C97_lengths`).
* † `greens_function_still.py` ignores the begin of the range of times and fails at its end; `animate_greens_function.py` divides by the number of samples instead of the number of steps; `greens_function_absmax_annotated.py` multiplies an array that was loaded read-only, which raises an exception (C99).
* † An array with an extent of zero cannot be constructed or resized with a value (an assertion in `fill` fails), only without one (C100).
* `FlushIndex` (574-585) empties `index.bin` before writing it, and runs whenever a library is closed, also after reading only: a second program that opens the library at that moment fails (`C103_open_during_close_fails`).
* † `RemoveChunk` never deletes the chunk file; `MoveLibrary` moves the chunk files before the index; `get_chunkfile_path` overflows its 36-byte uuid buffer with the terminator; the `RebuildChunks` overload without overlap cannot be instantiated (`static_assert`, 1283); `fill_weights` on an empty block writes out of bounds.

## 7. Partial properties and why
See the notes in MANIFEST.json; each names the hypothesis that is missing and, if the code is at fault, the counterexample theorem.
