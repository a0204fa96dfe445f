# votess: formal model and proofs — design

## 1. What is modelled, and at which level

The source is C++17/SYCL (`/repo`). The model is a set of total, computable Lean 4
functions, one per C++ function, in `lean/Verif/Model/*.lean`. Every definition
cites the file and lines it models and says where it simplifies.

* **Undefined behaviour is an outcome.** Functions that access buffers live in
  `Except UB`. An access outside a buffer (or outside the task's own row of a
  shared work buffer), a division by zero, a non-terminating 8-bit loop, … is
  `Except.error …`. Nothing is assumed away; the "no UB" statements are theorems.
* **Floating point.** Three levels.
  1. `class FP F D` (`Model/Basic`): an *uninterpreted* set of operations (`add`, `mul`,
     `lt`, …), no laws at all. Everything that does not depend on arithmetic laws (memory
     safety, termination, status flags, row format, chunk/thread/schedule
     independence, sorting, dnn, …) is proved for every instance, hence also
     for IEEE-754 with rounding, infinities and NaN.
  2. `Model/Exact`: exact arithmetic in any linearly ordered field `K` with floor
     (ℚ, ℝ); heap priorities are `WithTop K` (for `+inf`). Geometric correctness
     (nearest neighbours, Voronoi cells) is proved in this instance.
  3. `Model/Ieee`: IEEE-754 binary formats, round to nearest even, gradual underflow,
     infinities, NaN. The program uses `float`, `F32`. C65–C67, C69–C71, C74, C75 and C78–C81 carry the geometric
     results over to single precision under explicit conditions on the points, C68 shows
     that the conditions are needed. Assumed: every operation is evaluated and rounded in
     `float` (no `-ffast-math` and so not `-fp-model=fast`, the default
     of `icpx`; no extended precision; fused multiply-add is allowed in C75 and C78–C81, absent elsewhere;
     there a device may also compute `1.0f / triple_product` with an error of 2.5 units in the last place; denormals are kept, except in C83, where results and coordinates below
     `2^-126` become zero, format `b32z`).
     `Model/Double`: `double` coordinates, with the expressions that stay `float` (C76, C77;
     fused multiply-add for `double` only on the GPU, `Fm` in the format `b64`).
* **Integers.** `Ti` (int) values are unbounded `Int` unless the property is about
  their width (`Model/Int32`, C51: every `int` expression for sizes and positions with
  checked 32-bit arithmetic). Values stored in `uint8_t` buffers are reduced mod 256; the
  8-bit loop counters of `boundary::compute` wrap as in the code. `unsigned short`
  narrowing of `k`, `p_maxsize`, `t_maxsize` outside their range is an error outcome.
* **Rows of shared buffers.** `P`, `T`, `dR`, `knn`, `dknn`, `heap_*` are flat
  arrays in which task `i` owns a row. The sequential model gives a task its row
  as a list; leaving the row is `UB.oob`. The concurrency model
  (`Model/Prog`, `Model/TaskProg`) puts the rows back at their flat addresses and
  interleaves single memory accesses.
* **While loops** carry fuel; running out of fuel is the outcome `UB.diverge`, and
  the theorems show it does not happen.
* **Parameter objects.** `Model/Args`: `vtargs` values are texts, read and written by
  models of `operator<<`/`operator>>` for `int`, `unsigned`, `size_t`, `bool`.
  `Model/ArgsCall`: the objects that exist during a call (by-value copies, assignments by
  recompute) in a store, with 32-bit sizes.

### Part of the source → model

| source | model |
|--------|-------|
| `src/xyzset.ipp` sort, ids, offsets, `validate_*` | `Model/XyzSet`, `Model/Validate` |
| `src/heap.ipp` | `Model/Heap`; access by access in `Model/TaskProg` |
| `src/knn.ipp` CPU / GPU | `Model/Knn`, `Model/TaskProg` / `Model/Gpu` |
| `src/planes.ipp`, `src/sradius.ipp`, `src/utils.ipp` | `Model/Planes` |
| `src/boundary.ipp` CPU / GPU | `Model/Boundary`, `Model/TaskProg` (both, with counter width) |
| `src/cc.ipp` CPU / GPU | `Model/CC`, `Model/TaskProg` (both, with layout) |
| `src/status.ipp` | `Model/Status` |
| `src/dnn.ipp`, `tmpnn_*` of `src/votess.ipp` | `Model/Dnn`, `Model/Driver` |
| `src/votess.ipp` CPU driver, recompute, report | `Model/Driver`, `Model/ArgsCall`, `Model/Stdout` |
| `src/votess.ipp` SYCL driver and kernel | `Model/Gpu` |
| `include/arguments.hpp` | `Model/Args`, `Model/FloatText` |
| `suppress::stdout` | `Model/Stdout` |
| `src/main.cpp` `parse_args`, `main` | `Model/Cli` |
| `src/pybind11/pyvotess.cpp` | `Model/Py`, `Model/PyCall` |

### Assumptions about things outside the source

* `getopt_long` as documented, permuting mode, `POSIXLY_CORRECT` unset (`Model/Cli`).
* Extraction of a `float` from text and the file system are parameters of the model of
  `main`: C42–C45 and C60 hold for every such function. A text below 1 may be read as
  `1.0f`; the theorems then speak about the point that was read. C72 and C74 use the
  extraction of libstdc++ in the C locale (`Model/Text`): decimal numerals, rounded to
  nearest, ties to even; overflow fails. Insertion of a `float` or `double` into a stream is
  `%.6g` in the C locale, correctly rounded (`Model/FloatText`).
* pybind11 conversions as documented, Python's `for` over an object that has only
  `__getitem__` (`Model/Py`).
* C++ memory model: only "programs without data races behave as if sequentially
  consistent". That there is no race is proved (C34).
* SYCL: work items of one launch interleave arbitrarily, uninitialised device memory holds
  arbitrary values, an `nd_range` whose global size is no multiple of the local size is not
  launched, device calls succeed (`Model/Gpu`).
* `std::thread::hardware_concurrency()` is a parameter; when it returns 0 and no thread
  count is given, the outcome is a division by zero.

### Not modelled

SYCL runtime, queues and buffer life times, asynchronous device errors; the
benchmark `main` in the `#else` part of `src/main.cpp`; overloads that no call selects (`src/cc.ipp:227-448`,
`src/knn.ipp:129-222`, `src/heap.ipp:76-140`); the text written by `print_device`
(`src/votess.ipp:38-90`); allocation failure and `std::bad_alloc` for sizes that
fit in `int`; the wall-clock
profiling; performance. Assumed of the device code: its `float` operations round as on the host,
except that (C75, C78, C80, C81) a product may be contracted into the addition that uses it and a
quotient of computed values may be off by 2.5 units in the last place; the one-time reciprocal `1/gr`
is correctly rounded; denormal results are kept, or (C83) all flushed to zero, where a result counts as
denormal if it is so after rounding; sums are not reassociated. A selection
`!c*a + c*b` (`utils::bmin`, heap and status updates) yields the selected value and counts, for later
contraction, as the selected expression (`Tree.plus` in `Model/Fma`).

## 2. Properties and proofs

| id | modelled as | proof idea |
|----|-------------|------------|
| C01–C05, C55 | `Model/XyzSet`: id computation, 256-bucket counting pass, LSD passes, offset table, all buffer accesses checked | a pass equals the stable bucket concatenation; LSD induction on passes gives a stable sort by id; counting lemma for offsets |
| C06, C07 | `Model/Heap`: `maxheapify`, `sort` on a row | sift-down invariant (heap except at one node), permutation lemma |
| C08 | `Model/Knn`: shell enumeration with `is_inshell` | cell is visited in the shell of its Chebyshev distance, and only there |
| C09–C12 | `Model/Knn`: cell scan, heap insertion, early exit | "k smallest" invariant over the multiset of visited points; geometric lower bound on unvisited cells |
| C13–C15 | `Model/Planes` | ring identities, ordered-field inequalities |
| C16–C19 | `Model/Boundary` | loop invariant: successor table is a simple cycle, its edges are the unmatched directed edges of the absorbed triangles |
| C20, C21, C28–C31 | `Model/CC` for arbitrary `FP` | invariant "no repeated directed edge" (and closedness) over all cuts; capacity count |
| C22, C23, C54 | `Model/CC` in exact arithmetic | new vertex lies on the edge between a removed and a kept vertex; completeness by an LP local-optimality argument on a perturbed copy (no general-position assumption) |
| C27 | `Model/CC`, `Model/Boundary` in exact arithmetic | a boundary computation can only get stuck if the removed triangles are no disc; the surface is a sphere (`Proofs/Sphere*`: every closed chain mod 2 bounds), the removed and the kept vertices are both connected (walks along edges that improve the signed distance), so they are discs |
| C24–C26, C53, C64 | `Model/Driver` + `Spec/Voronoi`, `Spec/Tessellation` | C09 + C15 + C22 + C23 (+ C27 and C28 for C64) |
| C32–C33, C36–C39, C44 | `Model/Driver`, `Model/ArgsCall`: run/thread loops, recompute | each row equals the pure per-index function of `Spec/Driver`; induction over runs and rounds; frame lemma for the store of objects |
| C34 | `Model/Prog`, `Model/TaskProg`: tasks as access-level programs on flat memory, arbitrary interleavings | footprints disjoint by address arithmetic; commutation/diamond argument; simulation with the row model |
| C35, C38 | `Model/Driver` recompute | measure on k; explicit UB outcome |
| C40, C41 | `Model/Dnn` | list induction; concrete counterexample for empty rows |
| C42–C45, C60 | `Model/Args`, `Model/Cli` | association map; digit parser round trip; fold over options; whole runs of `main` |
| C46 | `Model/Status` on `BitVec 8` | finite bit facts lifted over operation sequences |
| C47–C50, C56–C59 | `Model/Gpu` | step-by-step equality with the CPU programs; disjoint footprints of work items; stride counterexample |
| C51 | `Model/Int32` | range lemmas |
| C52 | `Model/Stdout`: exit-path model of the RAII guard | case analysis over exits |
| C61–C63 | `Model/Py` | C90 for whole numbers; index arithmetic mod 2^64 |
| C65 | `Model/Ieee`, `Model/XyzSet` in `F32` | rounding error and monotonicity of rounding; whole table of resolutions 1…1290 by kernel evaluation |
| C66 | `Model/Knn` in `F32` | monotonicity of rounded distances; lower bound of unvisited cells with rounding |
| C67 | `Model/Driver` in `F32` | simulation (`Proofs/CellSim`): two arithmetics that take the same decisions give the same cell; error bounds for planes, vertices, cut test and radius (`Proofs/IeeeCell`); `Margins` (`Spec/Margin`) is a condition on the true corners, scaled by the distances between the points (C82), that makes all decisions the exact ones and implies general position; it is asked only for points that the algorithm can reach before the security radius ends the cell (`Proofs/MarginReach`), and of the candidate list only the part that matters must be in the exact order (`Proofs/MarginBase`: `KnnApprox`) |
| C68 | `Model/Driver` in `F32` | four calls evaluated by the kernel, and the exact cell refuted by a point |
| C69 | `Model/Gpu` in `F32` | the simulation of the CPU search by the device search for any arithmetic (`Proofs/GpuKnn`, relation between priorities), instance for binary32; then C67 |
| C70 | `Model/Driver` in `F32` and exact | both sides list exactly the touching points (C67, C64) |
| C71 | `storePt`, `Model/Driver` in `F32` | the error bounds of C67 carry a factor μ; stored coordinates within (μ−1)/2 units of 2^-24 of the true ones need μ-fold margins (`Proofs/IeeeStored`); C67 is μ = 1, C71 is μ = 2 |
| C72 | `Model/Text`: `scanDec`, `scanF32` | scanner against the grammar `Spec/Numeral` (both directions); nearest: floats are multiples of the last place, smaller floats lie below the binade |
| C73 | `Model/Text`: `printText`, `saveText` | C41 gives the lines of tokens; characters line by line; reading back with the integer reader of C44 |
| C74 | `cliMain` with `scanF32` | C45 reduces the run to a call; the number of rows is the number of points for every successful call (`Proofs/RowCount`); rows by C71, text by C73 |
| C75 | `Model/Fma`: `Fm ch`, `Model/Driver`, `Model/Gpu` in `Fm ch` | the error analysis of C66, C67, C69, C71 again for the class `Sgl` of arithmetics in which an addition may use the exact value of a product (`Proofs/Sgl*`); the bounds hold for the exact and for the rounded product |
| C76 | `Model/Double`: `Dbl` (values with their C++ type), `F64` | monotone rounding in any format at least as wide as binary32 (`Proofs/Wide`); `1.0f / gr` is a multiple of 2^-47, so that a quotient is below `gr` by more than a rounding error exactly if it was not rounded down |
| C77 | `Dbl` on the CPU, `Fm ch` in the format `b64` on the GPU | the analysis of C75 with the rounding error of the format as a parameter: one for coordinates (`om`), one for expressions of the edge length (`ga`); both are classes of arithmetics `Sgl`, so that C71, C75 and C77 are instances of the same theorems (`Proofs/SglInput`) |
| C78 | as C71, C75, C77 | the simulation is point by point; `Matters` depends only on closer points (`Proofs/Elsewhere`), and the farthest point of a cell is a corner (`Proofs/CornerFar`), which makes `Matters` decidable |
| C79 | `Model/PyCall`, `Model/Py`, `Model/Driver` in `Fm ch` | the two roundings together are a conversion with error at most 2^-25 + 2^-54, for which the analysis of C71 works with μ = 2 + 2^-29 (`Proofs/SglConv`) |
| C80 | as C79, C75 | margins of the ten points by an integer test with a soundness proof (`Proofs/IntMargin`) |
| C81 | as C24, C71, C75, C69 | the early exit is taken as soon as a point beyond the cell is the next candidate, because the corners of the cell computed so far are corners of the cell of the closer points (`Proofs/RadiusReach`); conversely the point at which it is taken is beyond, by four times the distance of the farthest corner |
| C82 | as C67, C75 | errors of planes, triple products, vertices and the cut test relative to the sizes of the planes involved (`Proofs/SglCell`: `cross_ap`, `triple_ap`, `coord_ap`, `vertex_ap`, `dot_ap`), neighbour distances relative to `span` (`Proofs/SglAgree`); for two points the only corners are those of the box |
| C83 | as C75, C77, C81 with formats `b32z`, `b64z` | the absolute part of every rounding error bound is `2^-126` instead of `2^-150` (`Proofs/Ieee`: `flush_err`, `rnd_err`; `Proofs/Wide`), rounding stays monotone and idempotent; sort: flushing moves no coordinate to another cell |
| C84 | `Navigable` (`Spec/Walk`): walks end at a nearest point, the rows connect all points, nearest points are listed | a location not nearest to `p` is outside its cell, so outside the cell cut out by the row (`CorrectRow.cell`): some listed point is closer; induction on the number of closer points. Nearest points: a location just beyond the middle between the two |
| C85 | `DelaunayRows`, `DelaunayExact` (`Spec/Delaunay`): listed points and empty balls with centre in the box | `Touch` gives the ball; conversely, from the centre of a ball with two points on its surface go a little towards the other point: this location is outside the cell of `p` but inside the one cut out by a row without the point |
| C86 | images of neighbours under the symmetries of the box (`Spec/Symmetry`) are neighbours of the image | `BoxIso`: distances, box, faces, bisectors, determinants and sizes of planes are preserved; so are cells, corners and margins |
| C87 | length of rows; a point with more neighbours than `k` or `p_maxsize - 6` shows in the report | every selected candidate has its own plane (`Hist`), so there are at most `psize - 6`; with a clean report the row has all neighbours of C85 |
| C88 | a row without added points is the old row | the cell cut out by old points only is the cell among all of them, a common point of two old cells stays in both |
| C89 | `Computed`: eight ways to get a table; any two list the same points | each table is exact for the points as given (C71, C75, C77, C79, C83), and exact rows of reordered points list the same points |
| C90 | `Model/FloatText`, `Model/Args`, `Model/Py` | the six digits are `rne (x·10^(5-e))`; reading stops at the point or at `e`, so the integer part of the rounded value is read, also after a carry; the text is a numeral of Spec/Numeral with the rounded value |
| C91 | `SameGroups` (Spec/Linking) of `Listed` / of the rows of `Computed` | a pair of points alone in the ball between them is listed (C84); any other pair has a third point with two shorter distances: well-founded induction over the distances |
| C92 | `NearToFar`, `NextIsListed` (Spec/Linking) | a point that is not nearest has a nearer point in its row (C84), and exact rows are symmetric |
| C93 | `RowOfAll` (Props/Halo) | a place of the cell is nearer to `p` than to anything more than twice as far away, so left out points cut nothing off |
| C94 | `RayPath`, `FirstHit`, `Traversable` (Spec/Ray) | the difference of squared distances to two points is linear along a line; every crossing leads to a point nearer to the end of the line, so the path is finite |

Specifications are in `Verif/Spec`, helper lemmas in `Verif/Proofs`, property theorems
(`Cnn_…`) with their examples in `Verif/Props`.

### What the proofs found

These are properties one would expect, and which the code does not have. Each is proved in
negated form with a concrete witness, next to the part that holds.

* C05, C65: `1.0f / gr` rounds, so that for 358 of the resolutions 1…1290 a coordinate
  `1 - 2^-24` gets a cell number outside the grid: the sort then writes outside its table or
  files the point in a wrong cell. C66: the neighbour search then misses it.
* C12: with `k` larger than the number of other points rows are padded with point 0. Harmless
  in exact arithmetic; C68: in `float` a neighbour may appear twice or the cell may fail. The
  command line option `-k 0` uses `k = n` for fewer than 64 points and so always pads.
* C05: the validation of the points comes after the sort that relies on it.
* C18: with `p_maxsize ≥ 256` the boundary of a cut with several vertices is never found.
* C30: a failed cell returns its unfiltered candidates, indistinguishable from a result.
* C37–C39: recompute does not ensure valid cells as the README says (planes may overflow in the
  last round); it reads out of bounds for a single point; its counters are those of cleared flags.
* C41: text output merges rows if a row is empty.
* C45: `--gridres` appears in the help text but is not accepted; the device option is
  ignored. The README gives `dev_suppress_stdout` the default `false`; the code has `true`.
* C49: with chunks the GPU reads wrong coordinates and can return wrong neighbours. C57: its status
  bytes are never initialised, so its report means nothing and recompute may do nothing. C58: the
  work-group size must divide every launch.
* C60, C63: row numbers refer to the sorted points, which neither the command line program nor
  the Python module shows to the caller.
* C61: a Python `float` of 10^6 or more is stored as `1e+06` and the like and
  read back as its leading digit.
* C62: Python rows can be read past their end, and a `for` loop over a row never stops
  regularly.
* C76: with `double` coordinates the same happens for 585 of these resolutions at `1 - 2^-53`, and the CPU
  search, in which `gl * r` is still a `float`, can return a neighbour that is not the nearest.
* C68: four points with coordinates 1/3 and 2/3 make the cell computation report an infinite
  boundary; three nearly degenerate points give a wrong row without any report.

## 3. Trusted base

* The Lean 4.33.0 kernel and Mathlib (imported module by module).
* The faithfulness of the model to the C++ text, by reading (citations in each definition), and
  the assumptions listed in section 1.
* No `sorry`, no `native_decide`, no `bv_decide`, no own axioms. Some whole-table and witness
  computations use `decide +kernel`, i.e. evaluation by the kernel itself.

Mutation tests of the model are recorded in `seeded/LOG.jsonl`.

Axioms of the 381 property theorems (`#print axioms`):

* **no axiom** (1 theorems): C46_bits_injective.

* **`propext`** (4 theorems): C34_deterministic, C43_bool_roundtrip, C45_lines, C52_default.

* **`Quot.sound`, `propext`** (39 theorems): C06_root_max, C13_dot_eval, C14_intersect_singular,
  C15_radius_bounds, C40_assign, C40_at, C40_offsets, C40_row_size, C40_size, C41_empty_row_merges,
  C41_lines, C41_unrestricted_false, C43_int_as_bool, C43_int_roundtrip, C43_nthreads,
  C43_text_as_int, C43_truncation, C45_points, C46_status_init, C47_grid_256, C49_location,
  C49_reads, C49_unchunked, C50_bmax, C50_bmax3, C50_bmin, C50_bmin3, C50_select, C51_next_k,
  C51_sort_loop, C52_call, C52_program, C52_restored, C55_validate_xyzset, C59_fallback,
  C62_python_for, C62_python_item, C62_python_negative, C73_savetxt_readable.

* **`Classical.choice`, `Quot.sound`, `propext`** (337 theorems): C01_sort_permutes, C02_ascending,
  C02_ids_right, C02_negative_id, C03_offset_table, C04_idempotent, C04_stable, C05_sort_safe_iff,
  C05_unit_box_safe, C05_validation_too_late, C06_heap_safe, C06_heap_update, C07_heap_sort,
  C07_heap_sort_safe, C08_cell_numbers, C08_shells, C09_knn_exact, C10_grid_independent,
  C11_any_arithmetic, C11_distinct, C12_padding, C12_padding_harmless, C13_bisect_neg,
  C13_bisect_pos, C13_bisect_zero, C14_intersect_on, C14_intersect_order, C14_intersect_unique,
  C15_security_radius, C16_boundary_edges, C16_boundary_loop, C17_boundary_safe, C18_wide_limit,
  C19_order_independent, C20_closed_surface, C20_exact, C21_cell_safe, C21_cell_too_small,
  C22_vertices_in_cell, C23_span_affine, C23_span_distance, C24_complete_cell, C24_row,
  C24_tessellation, C24_vertices, C25_missing_irrelevant, C25_returned_touch, C25_tessellation,
  C26_exact_neighbours, C26_row, C26_symmetric, C26_tessellation_symmetric, C27_any_order,
  C27_counter, C27_no_infinite_boundary, C27_only_overflow, C27_states, C27_success,
  C28_no_vertex_overflow, C28_vertex_bound, C29_flags, C30_failed_row, C31_sublist,
  C32_chunking_irrelevant, C32_chunks_partition, C32_rows, C33_thread_ranges,
  C33_threads_irrelevant, C34_call, C34_recompute, C34_recompute_start, C34_region, C34_round,
  C34_runs, C34_terminates, C35_recompute_terminates, C35_rounds, C35_terminates,
  C36_completed_before, C36_completed_during, C37_only_overflow, C37_readme_false, C37_rows,
  C37_tessellation, C38_no_candidates, C38_single_point, C38_single_point_exact, C39_counters,
  C39_flags_lost, C39_recompute_counters, C42_default, C42_keys_fixed, C42_last_assignment, C42_map,
  C42_unassigned, C42_unknown_key_throws, C43_negative_nthreads, C44_bad_value, C44_call,
  C44_result, C44_twice, C44_unchanged, C45_abbreviation, C45_ambiguous, C45_device_ignored,
  C45_double_dash, C45_failure, C45_gridres, C45_help_text, C45_params, C45_parse_error,
  C45_parse_iff, C45_run, C45_settings, C45_spellings, C45_tables, C46_status_ops,
  C47_same_neighbours, C48_same_cell, C48_small_tables, C49_chunk_wrong, C51_alloc, C51_cell_number,
  C51_chunked, C51_default_limit, C51_device_plane_index, C51_flat, C51_grid, C51_plane_index,
  C51_recompute_limit, C51_result, C51_result_fits, C51_row_index, C51_run_start, C51_vertex_index,
  C51_whole, C52_overlap_dangling, C52_throw, C53_parameter_independent, C53_tessellation,
  C54_never_emptied, C55_validate_sort, C55_validate_sort_iff, C55_warnings, C56_launch_settles,
  C56_possible, C56_same_table, C57_flags, C57_recompute_skipped, C57_report_meaningless,
  C58_divisible, C58_sufficient, C60_file_order_wrong, C60_ordered_input, C60_printed_lines,
  C61_float_large, C61_float_small, C61_python_reject, C61_python_set, C63_order_wrong, C63_ordered,
  C64_enough_room, C64_recompute, C65_call, C65_call_recompute, C65_cell, C65_cell_good,
  C65_cell_small, C65_cell_unit, C65_misplaced, C65_outside, C65_power_of_two, C65_witness,
  C66_bad_grid, C66_knn, C66_no_padding, C66_not_exact, C67_enough_room, C67_no_infinite,
  C67_recompute, C67_row, C67_tessellation, C68_infinite, C68_missing, C68_padding_infinite,
  C68_repeated, C69_neighbours, C69_possible, C69_same_table, C69_tessellation, C70_parameters,
  C70_same_as_exact, C70_symmetric, C71_enough_room, C71_gpu, C71_recompute, C71_same_as_exact,
  C71_tessellation, C72_fails_iff, C72_line, C72_nearest, C72_numeral_is_read, C72_read_is_numeral,
  C73_print, C73_print_layout, C73_savetxt, C74_auto_k_wrong, C74_program, C74_program_ordered,
  C75_depends, C75_enough_room, C75_gpu, C75_gpu_possible, C75_recompute, C75_tessellation,
  C75_two_builds, C76_call, C76_cell, C76_early_exit, C76_grid_iff, C76_grids, C76_misplaced,
  C76_no_early_exit, C76_outside, C76_witness, C77_better, C77_doubles, C77_doubles_room,
  C77_enough_room, C77_gpu, C77_gpu_possible, C77_recompute, C77_same_as_float, C77_tessellation,
  C78_double, C78_elsewhere, C78_enough_room, C78_fused, C78_gpu, C78_recompute, C78_report,
  C79_any_device, C79_cpu, C79_gpu_possible, C79_one_cell, C80_cpp, C80_python, C81_double,
  C81_double_report, C81_exact, C81_float, C81_float_report, C81_fused, C81_fused_report, C81_gpu,
  C81_gpu_double, C81_radius_iff, C81_report, C82_cluster, C82_not_wide, C82_pair, C82_wide,
  C83_enough_room, C83_gpu, C83_gpu_double, C83_gpu_possible, C83_matters, C83_recompute,
  C83_same_rows, C83_same_sort, C83_served, C83_tessellation, C84_double, C84_exact,
  C84_exact_recompute, C84_exact_room, C84_few_disconnected, C84_first, C84_float,
  C84_float_recompute, C84_float_report, C84_flush, C84_fused, C84_gpu, C84_navigable, C84_ordered,
  C85_double, C85_exact, C85_exact_recompute, C85_exact_room, C85_exact_rows, C85_float,
  C85_float_report, C85_flush, C85_gpu, C85_outside, C85_rows, C86_double, C86_exact, C86_float,
  C86_flush, C86_general, C86_gpu, C86_margins, C87_cell, C87_exact, C87_float, C87_rows,
  C88_changed, C88_double, C88_exact, C88_float, C88_flush, C88_gpu, C89_agree, C89_exact,
  C89_same_order, C90_bool, C90_digit, C90_fixed, C90_numeral, C90_python, C90_special, C90_whole,
  C91_computed, C91_exact, C91_exact_recompute, C92_computed, C92_exact, C92_next, C93_computed,
  C93_exact, C93_halo, C93_parts, C94_computed, C94_exact, C94_follow.
