# Design of the formal model

Source: TopoSimplify/plugin (Go), read as text from `/repo`, never built or run.
Model and proofs: Lean 4.33, `/verif/lean/Verif`.

## Layout

* `Verif/Model/*` – the model, one Lean definition per Go function or loop, each with the Go file and lines.
* `Verif/Spec/*` – small specifications stated without the model's helpers (chains of ranges, pieces, covers, index contents).
* `Verif/Lemmas/*` – auxiliary proofs.
* `Verif/Props/*` – the property theorems (names carry the property id), with examples that meet their hypotheses.
* `Verif/Demo/*` – concrete geometries (integers on an axis, rational points of the plane, the real plane with sets as constraints) that meet all hypotheses of the pipeline theorems, and whole runs.
* `seeded/LOG.jsonl` – record of the wrong programs the theorems were tested against.

## Modelling decisions

* Go `int` is `Int` (unbounded; overflow is not modelled). Slices are lists; where aliasing matters (pointer identity
  of pieces, in-place selection, shared slices) it is modelled explicitly by identifiers or array positions.
* `float64` is `Fl K`: NaN, -inf, a value of an arbitrary linear order `K`, +inf, with IEEE comparison results
  (every comparison with NaN is false). Rounding is not modelled in general: distances are arbitrary values (C88, C89 bound the effect of errors). C07 is also proved for the
  Euclidean distances over the reals; the sampling window of `selectBox` (C22) is over the reals.
* Panics and non-termination are explicit: a model function returns `Res α` = `ok a | panic | timeout`; loops take fuel.
  `Yields f a`: from some fuel on the result is `ok a` (termination and no panic). `Diverges f`: `timeout` for every fuel.
  `Panics f`: from some fuel on the result is `panic`. `Lemmas/Mono.lean` proves that more fuel never changes an outcome.
* The geometry library (`github.com/intdxdt/...`) is not part of /repo. It is a parameter (`Lib`, `LnrLib`): theorems hold for every
  behaviour of its predicates, with the few needed facts as visible hypotheses (`EnvOK`, `InstOK`, `HullNear`, `CtxSound`, ...).
* Map iteration order, goroutine interleaving, heap ties, sort stability: universally quantified (oracles `ord`, `ordRm` or step relations).
* The spatial index (`hdb`) is modelled as the actual tree algorithms; its numeric heuristics (which child, which split index,
  which order) are an arbitrary parameter with minimal legality conditions (`Hdb.Legal`), and the heuristics of the code are an instance
  (`Model/HdbHeur.lean`, `C22_codeHeur_legal`). `Model/Hdb.lean` is on trees of values. `Model/HdbMem.lean` is the same code on memory: arrays of cells, slices
  with capacity, pointers into arrays, in-place changes, `append` with an arbitrary growth policy; C72 proves that both agree. In it the children of a node
  are reordered by a permutation that depends on the boxes only (what `sort.Sort` with the comparison of `split.go` can see). The neighbour search is only on values.
* Identity of pieces: the main model compares identifiers where the code compares pointers. `Model/Pointers.lean` is the code with addresses (`hdb.Load`
  stores pointers into the loaded slice; taking a value copy gives a new address), and C69 proves that both have the same outcomes. That the slices
  of pieces behind these addresses are never overwritten is C90 (`Model/PieceMem.lean`). Identifiers are
  handed out by `ids : Nat → Int` (injective), `g` counts those already used. The order oracles depend only on the identifiers used so far and the list.
* Goroutines: `Model/Conc.lean` has one step per transition of each goroutine (spawn, receive, take an identifier, send, finish, close).
  The order of spawning is arbitrary. Work inside one job is atomic apart from the identifier source; this is justified by `C36_independent`
  and by `simplify` touching only its own instance. `ConcurProcs` is 8 in the code and arbitrary (at least 1) in the model.

## Hypotheses used by the theorems

All are visible in the statements. They restrict the parameters, that is, the geometry library, the score function and the order oracles.

* `EnvOK`: legal index heuristics, a legal priority queue, map orders that permute, and the intersection of a point with anything is at most one point.
* `InstOK`: at least two vertices; hulls of sub-lines exist and have valid boxes; the score function returns on every sub-line, names an interior vertex of
  sub-lines with interior vertices, and the threshold relation splits only inside; the constraint index is a well-formed tree. `C11_refuted` shows a score without this.
* `LnrOK`: the vertex sort permutes, the segment search returns indices of its input (whole-run theorems).
* `SortSound`: coincidence of points is an equivalence and the vertex sort puts coincident vertices together (C23, C24, and inside `HullNear`).
* `SearchSound`: the segment search returns exactly the segments with intersecting boxes (C25, and inside `HullNear`).
* `HullNear`: exact priority queue; box distance bounds the distance to a piece; a piece is within `eps` of its own vertices and of the crossings of its segments (C12, C13).
* `CtxSound`: exact priority queue; minimum distance at least 0; box distance bounds the distance to the constraints; a hull is near whatever its sub-line is near (`HullSound`) (C30, C32).
* `Planar.Exact`, `Planar.ExactLnr` (`Spec/Planar.lean`; C73-C78): the library answers as sets of points of the plane do (intersection, distance, bounding box, corners of
  the convex hull, intersection points of segments), arithmetic exact. `HullNear` and `CtxSound` are proved from it (`Lemmas/PlanarNear.lean`, `Lemmas/PlanarExact.lean`), so C12, C13 and C30 hold there
  without geometric hypotheses. `Planar.Setting` adds a queue with tolerance τ not above the minimum distance. `Demo/Exact.lean` has the (noncomputable) instance.
* `Arith.Exact` (C70, C80, C81): on finite values the operations of `offset/sed.go` are those of the real numbers. `segDist`, `segDistSq` (C07, C79, C81, C82): the distance functions passed to
  `maxOffset` are the exact distance to the segment and its square.
* `Demo/` contains instances used by the examples. That these hypotheses hold for the real geometry library with `float64` is assumed, not proved.

## Properties

Status and theorems are those of `MANIFEST.json`; statements are in `properties.jsonl`.

| id | property | status | modelled and how proved | theorems (namespace `Verif`) |
|----|----|----|----|----|
| C01 | Splitting an index range loses and repeats nothing | proved | Rng.Split: induction on the sorted index list against a specification of "cut points" | `C01_split_cover`, `C01_split_empty` |
| C02 | Contiguity and merging of ranges agree | proved | Contiguous, merge.Range: arithmetic | `C02_contiguous_iff`, `C02_contiguous_comm`, `C02_merge_union`, `C02_merge_mem`, `C02_equals_iff`, `C02_contiguous_degenerate` |
| C03 | The offset score names a farthest interior vertex | proved | maxOffset loop: loop invariant (last argmax) | `C03_maxOffset`, `C03_maxOffset_none`, `C03_maxOffset_short` |
| C04 | Decomposition covers the polyline exactly once | proved | decompose loop with explicit stack: invariant: accepted pieces + stack reversed = cover of [0,n-1] | `C04_decompose_cover`, `C04_decompose_short` |
| C05 | Decomposition terminates for every non-negative threshold | proved | same: measure on the stack | `C05_decompose_terminates`, `C05_maxOffset_terminates` |
| C06 | A threshold below zero is handled, not looped on | partial | same: refuted: divergence theorem for every polyline — refuted: the decomposition diverges for every polyline when the threshold is negative or NaN | `C06_negative_threshold_diverges` |
| C07 | Unconstrained simplification respects the tolerance | proved | same, instance over the reals: score of accepted piece bounds each interior vertex | `C07_piece_tolerance`, `C07_real_tolerance`, `C07_real_tolerance_square`, `C07_simplify_tolerance` |
| C08 | Unconstrained output is a strictly increasing index list with both ends | proved | dp.Simple: sorted set specification | `C08_simple` |
| C09 | Constrained output is a sub-sequence of the input with both ends | proved | whole Simplify pipeline on the modelled index: cover invariant through split, load, remove, merge | `C09_subsequence`, `KeptIndices.sublist` |
| C10 | Constrained simplification of one polyline terminates | proved | same: measure: total surplus size — termination for all inputs whose geometric predicates meet EnvOK/InstOK (score function splits inside the range, see C11 for the exception) | `C10_terminates`, `C10_never_panics` |
| C11 | SED simplification of data without usable time stamps terminates | partial | same with NaN scores: refuted: concrete divergent run — refuted: with no usable times the split of a piece is the piece itself and a single vertex, so a violated constraint is never resolved; holds without constraints and for distances that are numbers | `C11_refuted`, `C11_unconstrained_partial`, `C11_usable_partial` |
| C12 | Self-intersection vertices survive simplification | proved | ToSelfIntersects + pipeline: invariant: fixed vertices are piece boundaries — assumes that the tolerance of the priority queue is smaller than EpsilonDist; vertices of reported self-intersections; which ones are reported is C23/C25 | `C12_survive`, `C12_coincident` |
| C13 | Junction vertices of a feature class survive | proved | FC pipeline: same invariant, per feature — assumes that the tolerance of the priority queue is smaller than EpsilonDist | `C13_survive`, `C13_shared` |
| C14 | Features are never mixed up | proved | FC pipeline: per feature cover invariant | `C14_not_mixed` |
| C15 | Feature class simplification terminates | proved | FC pipeline: measure | `C15_terminates`, `C15_never_panics` |
| C16 | The spatial index holds exactly what was put in and not taken out | proved | hdb: invariant by induction on histories, refinement to a multiset — for every history and every legal heuristics; C22_codeHeur_legal shows the heuristics in the code are legal | `Hdb.C16_contents`, `Hdb.C22_codeHeur_legal` |
| C17 | Range search is exact | proved | hdb: invariant by induction on histories, refinement to a multiset | `Hdb.C17_search`, `Hdb.C17_intersects_iff` |
| C18 | Nearest-neighbour search returns exactly the items within the distance, nearest first | partial | hdb: invariant by induction on histories, refinement to a multiset; refuted for a queue with a tolerance — exact for a queue popping a minimum, C18_knn_partial; the code compares distances with a tolerance, for which C18_refuted shows a search that misses an item within the bound and C18_knn_tolerant_partial says which items can be missed and C18_knn_band that none is when no stored item lies in the band of the tolerance | `Hdb.C18_knn_partial`, `Hdb.C18_knn_tolerant_partial`, `Hdb.C18_knn_band`, `Axis.C18_refuted` |
| C19 | Removing an item removes that item and nothing else | proved | hdb: invariant by induction on histories, refinement to a multiset | `Hdb.C19_remove` |
| C20 | The spatial index stays balanced and its boxes stay exact | proved | hdb: invariant by induction on histories, refinement to a multiset | `Hdb.C20_structure` |
| C21 | Collision test is exact | proved | Collides: from the invariant | `Hdb.C21_collides` |
| C22 | Bulk loading rearranges but never loses items | partial | selectBox, multiSelect on arrays: loop invariants; the sampling window over the reals; concrete run evaluated by the kernel — rearrangement, termination, no index outside the slice: for all inputs, also with the sampling window of the code over the reals; partition: proved for ranges of at most 600, refuted above that (the window is computed from the bounds of the call, not of the round) | `Sel.C22_selectBox`, `Sel.C22_selectBox_window`, `Sel.C22_multiSelect`, `Hdb.C22_codeHeur_legal`, `Sel.C22_partition_partial`, `Sel.C22_refuted` |
| C23 | Every repeated vertex of a polyline is reported | partial | lnr searches: refuted for the greatest location, proved for all others — refuted: the last group of coincident vertices in sort order is never reported; C23_planar_partial is exact for all other groups | `C23_planar_partial`, `C23_last_never_reported`, `C23_refuted` |
| C24 | Every shared vertex of a feature class is reported | partial | lnr searches: refuted for the greatest location, proved for all others — refuted: the last group of coincident vertices in sort order is never reported; C24_junctions_partial is exact for all other groups | `C24_junctions_partial`, `C24_feature_partial`, `C24_last_never_reported`, `C24_refuted` |
| C25 | Every crossing of two segments is examined once | proved | nonPlanarIntersection: loop invariant on the pair cache | `C25_nonplanar`, `C25_ends` |
| C26 | The geometric relation test is exact | proved | relate: decision logic | `C26_geom_iff` |
| C27 | The distance relation test is exact | proved | relate: decision logic | `C27_dist_iff` |
| C28 | Simplification never brings a line closer than documented | partial | relate: refuted by a concrete case; the part that holds proved by case analysis — refuted: when the original piece already is nearer than the minimum distance the relation accepts any simplification; C28_keeps_distance_partial is the part that holds | `C28_refuted`, `C28_keeps_distance_partial` |
| C29 | The sidedness test accepts only deformations that sweep over no constraint | proved | homotopy chain: invariant of the linked chain | `C29_terminates`, `C29_accept_sound`, `C29_reject_stuck`, `C29_piece` |
| C30 | Every output segment satisfies the requested context relations | partial | pipeline: invariant: each stored piece was validated; refuted for minimum distances within the tolerance of the queue — proved for a minimum distance that exceeds the tolerance of the priority queue, with distances up to that tolerance, which is nothing for a queue that pops a minimum; refuted for a smaller minimum distance, C30_refuted: the search passes over a constraint | `C30_context_partial`, `C30_feature_class_partial`, `Axis.C30_refuted` |
| C31 | Collinear pieces also satisfy the context relations | partial | pipeline: refuted by a concrete run — refuted: pieces whose hull is a segment are never checked against the constraints; C30_context_partial is what holds for the other pieces | `C31_refuted`, `C30_context_partial` |
| C32 | Restricting to neighbours within the minimum distance loses no violation | proved | context filter: lemma under metric hypotheses — the statement is about the constraints within the minimum distance, C32_relations; C32_validate and C32_validate_tolerant are about the constraints found by the search, with a queue that pops a minimum and with a queue that compares with a tolerance | `C32_relations`, `C32_validate`, `C32_validate_tolerant`, `C32_negative_accepts` |
| C33 | No new self-intersection is introduced | partial | pipeline: invariant over the deformation loop and the merge pass for pieces that are examined; refuted for single segments by a concrete run — holds between output segments that replace more than one segment and have a hull of more than two corners; refuted in general by a spike whose parts are single segments, which are not examined | `C33_crossing_partial`, `C33_refuted` |
| C34 | Merging fragments respects tolerance and constraints | partial | merge pass: case analysis of one step — refuted for the constraint checks of a merge (the rejected successor is missing from the index); the union, range and contents parts hold | `C34_step_partial`, `C34_pass`, `C34_refuted` |
| C35 | The tolerance also holds for constrained output | partial | pipeline: refuted by a concrete run — refuted: pieces split because of a constraint are accepted whatever their score; holds when all constraint switches are off | `C35_tolerance_partial`, `C35_refuted` |
| C36 | Every polyline is simplified exactly once and the call returns | proved | goroutine state machines: invariants over the step relation — state machine with one step per goroutine transition; a job takes finitely many identifiers (C10) | `Conc.C36_never_crashes`, `Conc.C36_no_deadlock`, `Conc.C36_terminates`, `Conc.C36_returns`, `Conc.C36_completes`, `Conc.C36_exactly_once`, `Conc.C36_at_most_once`, `Conc.C36_independent` |
| C37 | The set of pieces to deform does not depend on the schedule | proved | goroutine state machines: invariants over the step relation | `Conc.C37_never_crashes`, `Conc.C37_no_deadlock`, `Conc.C37_terminates`, `Conc.C37_returns`, `Conc.C37_completes`, `Conc.C37_results`, `Conc.C37_schedule` |
| C38 | Work is partitioned completely | proved | chunkTasks: induction | `Conc.C38_chunks` |
| C39 | Piece identifiers are unique under concurrency | proved | identifier source: step relation in which taking an identifier is one atomic step (assumed, see below); uniqueness by an invariant. A source that is not atomic is not modelled — the identifier source itself (external iter.Igen) is assumed to hand out successive values atomically | `Conc.C39_unique`, `Conc.C39_streams` |
| C40 | Feature identifiers round-trip | proved | composeId/indexPos: decimal round trip | `Text.C40_round_trip`, `Text.C40_injective` |
| C41 | One output feature per input line, in order, none lost | partial | output grouping: refuted in general, proved when every line yields geometry — refuted: a document without line geometry before one with line geometry makes the writer panic, a null geometry makes the reader panic; proved when every document has line geometry | `Io.C41_features_partial`, `Io.C41_ordered_partial`, `Io.C41_crash`, `Io.C41_gap_crash`, `Io.C41_parse`, `Io.C41_null_geometry`, `Io.C41_refuted` |
| C42 | Output coordinates are 2-D or 3-D consistently | proved | extractCoords: induction | `Io.C42_coords`, `Io.C42_dimension` |
| C43 | Input file lines are read completely | proved | line readers: induction on characters | `Text.C43_lines`, `Text.C43_last_newline` |
| C44 | The line reader delivers every non-blank line | partial | line readers: induction on characters; refuted for an unterminated last line — refuted: a last line without newline is dropped and the reader always returns an error; proved for terminated last lines | `Text.C44_terminated_partial`, `Text.C44_delivered`, `Text.C44_refuted`, `Text.C44_never_success`, `Text.C44_readWKT`, `Text.C44_readWKT_refuted`, `Text.C44_geometries` |
| C45 | The piece queue is a double-ended queue that never blocks | partial | queue with lock state: simulation; refuted for empty pop — refuted: Pop, PopLeft, First and Last on an empty queue panic while holding the lock; proved for all sequences that never take from an empty queue | `Queue.C45_deque_partial`, `Queue.C45_locked`, `Queue.C45_refuted`, `Queue.C45_reader_refuted` |
| C46 | Command line is accepted exactly when one configuration source is given | proved | main argument logic: decision logic | `Io.C46_exit13`, `Io.C46_saved` |
| C47 | Degenerate lines do not crash the run | partial | program on a line with fewer than two coordinates: never completes; lines with two or more complete — refuted: such a run never completes, it panics; proved that runs of usable lines complete | `C47_never_completes`, `C47_refuted`, `C47_completes_partial` |
| C48 | A piece always carries the coordinates of its index range | proved | pipeline: invariant | `C48_coords`, `C48_merged` |
| C49 | The merge pass never panics and never skips a fresh pair | proved | merge pass: cover invariant, key injectivity | `C49_no_panic`, `C49_cacheKey` |
| C50 | Merging by fragment size keeps the cover | proved | ContiguousFragmentsBySize: invariant — index and list hold the same pieces of one polyline | `C50_merge_by_size`, `Axis.fiveRun_case` |
| C51 | Cross-feature conflicts select every conflicting piece | partial | SelectFeatureClass: refuted by a concrete configuration; proved when ranges differ — refuted: the selection is keyed by index range only, so pieces of different features with equal ranges overwrite each other | `C51_selected_partial`, `C51_refuted` |
| C52 | Coordinate arrays are parsed completely or rejected | proved | parsers, options, base64: induction | `Io.C52_parsed`, `Io.C52_rejected`, `Io.C52_bad_entry` |
| C53 | Every configured option reaches the simplifier | proved | parsers, options, base64: induction | `Io.C53_options`, `Io.C53_meaning` |
| C54 | A configuration file and its base64 form are equivalent | proved | parsers, options, base64: induction | `Text.C54_round_trip`, `Text.C54_accepted`, `Io.C54_file_or_base64`, `Io.C54_text` |
| C55 | The result does not depend on scheduling or hashing | partial | whole run: two runs compared step by step; refuted for the shape of the index by a concrete pair of runs — schedules and map iteration orders: proved for every queue, C55_schedules; shape of the index: proved for a queue that pops a minimum, C55_shapes_partial; refuted for a queue that compares with a tolerance like hdb/kobj.go, C55_shape_refuted | `C55_schedules`, `C55_shapes_partial`, `Axis.C55_shape_refuted` |
| C56 | Contiguity of two pieces is symmetric and needs a shared end point | proved | IsContiguous, Collapsible, Select: decision logic | `C56_contiguous`, `C56_symmetric` |
| C57 | Deformation candidates always come from the two pieces compared | proved | IsContiguous, Collapsible, Select: decision logic | `C57_only_neighbours`, `C57_segments`, `C57_blocked`, `C57_contiguous`, `C57_noncontiguous` |
| C58 | Bulk selection sorts the groups between each other | partial | selectBox, multiSelect: cut invariant of the stack of ranges, on top of the partition theorem — holds on ranges of at most 600 except for a last group of one item, which is never separated; refuted by five items in groups of two | `Sel.C58_groups_partial`, `Sel.C58_refuted` |
| C59 | Every input feature keeps its own properties in the output | partial | encode.go grouping: concrete document — refuted for feature collections: the features of one document are merged into one output feature with the properties of the first; proved (C41_features_partial) for documents holding one feature | `Io.C59_refuted`, `Io.C41_features_partial` |
| C60 | The program writes one sub-line per input line | proved | main.go from arguments to written text: composition of the stage theorems — with the assumptions about libraries and lines collected in Engine.OK; concrete case Axis.prog_case | `Io.C60_program` |
| C61 | Merging by fragment size leaves no mergeable pair behind | proved | ContiguousFragmentsBySize: same invariant as C50 — index and list hold the same pieces of one polyline | `C61_no_mergeable_pair` |
| C62 | Every shape of the constraint file constrains every polyline | partial | constraint reader: induction on documents, features and parts; index contents from the load theorem — refuted: a feature with null geometry makes the reader panic, and geometry collections are dropped; proved for files in which every feature has a geometry, where collections count as having no shapes. The conversion of coordinate arrays to geometry values is outside /repo | `Io.C62_read_partial`, `Io.C62_shapes_partial`, `Io.C62_program_partial`, `C62_indexed`, `Io.C62_panics_iff`, `Io.C62_null_geometry`, `Io.C62_collection_dropped` |
| C63 | The stack decomposition is the recursive Douglas-Peucker procedure | proved | dpLoop: the stack is a list of pending recursive calls (RecStack) — the recursive procedure is Spec/Recursive RecDP | `C63_decompose_recursive`, `C63_recursive_total` |
| C64 | A larger threshold keeps a subset of the vertices | proved | induction on the recursive procedure — dp.Simplify; for ConstDP.Simplify see C66 | `C64_nested`, `C64_nested_square` |
| C65 | Unconstrained simplification is idempotent | proved | each kept range of the second run is a concatenation of kept ranges of the first; scores recomputed on the shortened list — dp.Simplify; for ConstDP.Simplify see C66 | `C65_idempotent`, `C65_idempotent_sed` |
| C66 | With all constraints off the constrained simplification is the plain one | partial | ranges only merge after the decomposition; concrete runs — proved: only vertices kept by dp.Simplify at the same or a smaller threshold; refuted: the merge pass makes a larger threshold keep more vertices on one line, and a second run remove vertices on another | `C66_within_partial`, `C66_refuted_threshold`, `C66_refuted_twice` |
| C67 | The sidedness test accepts every deformable sub-line | partial | C29_reject_stuck contraposed; concrete chain — proved when no disjoint geometry meets any triangle of three vertices in order; refuted by a Z-shaped sub-line between two points, where a vertex has to be inserted | `C67_accept_partial`, `C67_refuted` |
| C68 | Limited nearest-neighbour search returns the nearest ones | proved | limited and unlimited drains compared step by step — a queue that compares with a tolerance may return others, see C18 | `Hdb.C68_limit`, `Hdb.C68_nearest` |
| C69 | Comparing pieces by pointer is comparing them by identifier | proved | step-by-step simulation: addresses in the index are injective (Mem.OK) and every pointer in the work list is the address stored for its piece or for none (Covers, Obj) — model of addresses: Model/Pointers.lean; the functional model compares identifiers | `C69_simplify`, `C69_featureClass` |
| C70 | The synchronised score is the distance to the position at the same time | proved | cosine and sine of the argument (Complex.cos_arg, Complex.sin_arg) times the length are the coordinate differences — arithmetic of the real numbers (Arith.Exact); equal times: C11 | `C70_distance`, `C70_zero_iff` |
| C71 | Squared scores give the same simplification as plain ones | proved | every use of the score is through the vertex it names and the verdict of the relation (SameChoice); both runs are equal step by step — hypothesis Squares, proved for both distances of the code over the reals: squares_segDist, squares_sed; it fails for negative thresholds, C71_negative | `C71_dp`, `C71_simplify`, `C71_featureClass` |
| C72 | The stored index holds the tree the algorithms build | proved | separation-style representation: every array of the tree is owned once; insertion as recursion along the path of pointers, removal from the root down; simulation of the value-level functions — the heuristics (choice of child, order after sorting, split position, order of bulk loading) are those of C16, given by boxes; the growth of append is a parameter; the neighbour search is not repeated at this level | `Hdb.Mem.C72_memory_tree`, `Hdb.Mem.C72_memory_reads` |
| C73 | The sidedness test certifies a deformation in the plane | proved | acceptance is a sequence of vertex removals over free triangles (C29); each removal is a path homotopy inside the triangle; concatenation and reparametrisation by the path groupoid of Mathlib — hypothesis Planar.Exact (exact library), met by Demo/Exact.lean exactLib; deformation = continuous map of the square, Spec/Planar.lean Deforms; the converse fails, C67 | `Planar.C73_sidedness` |
| C74 | The simplified line is a deformation of the input line | proved | removals of the pieces composed along the chain of ranges; pieces whose hull has two corners: a connected line with a segment as hull covers it, so its triangles lie in the line — hypotheses Planar.Setting: exact library, queue tolerance τ ≤ minimum distance m, index holds the constraints (C62); without τ ≤ m refuted by C30_refuted | `Planar.C74_deformation`, `Planar.C74_feature_class` |
| C75 | The simplified line keeps off what the input line keeps off | proved | every piece was validated, is a single segment, or lies on a straight line (C30 with the library hypotheses discharged for sets) — hypotheses as for C74; vertices on one straight line: the segment may be shorter than the part it replaces, so it may miss a constraint that part meets | `Planar.C75_whole_line`, `Planar.C75_each_segment`, `Planar.C74_feature_class` |
| C76 | Places where a line meets itself are kept | proved | C12, C13, C25 with the library hypotheses discharged for sets — hypotheses Planar.Exact, Planar.ExactLnr, queue tolerance at most EpsilonDist; the exception at the place that sorts last is a defect of the code, C23, C24 | `Planar.C76_meets_itself`, `Planar.C76_shared` |
| C77 | A crossing is new only between a straight and a bent part | proved | the laws assumed in C33 derived from exact plane geometry; parity by continuous angle sums (winding numbers); straight parts cover their chord — hypotheses Planar.Exact, EpsilonDist not negative; the excepted case does occur, C33_refuted | `Planar.C77_no_new_crossing`, `Planar.chords_meet`, `Planar.Exact.crossLaws` |
| C78 | Avoiding new crossings works across the features of a class | partial | invariant over the joint deformation stage: two pieces are still to be examined, or next to each other, or were compared; features that were not split again rely on the single run (C33); refuted by a concrete run with four features — false as stated: deform/cls.go keeps the selections of one search in a map keyed by the index range only, so of two conflicting pieces of different features with equal ranges one is lost (C78_refuted, four features, all geometric laws hold); proved when no piece has, among its neighbours and itself, pieces of different features with equal ranges (RangesApart) | `C78_crossing_partial`, `Planar.C78_no_new_crossing_partial`, `Plane.C78_refuted` |
| C79 | The tolerance holds for all points of both lines | proved | the points within e of a segment form a closed convex set, so they contain the whole sub-line; the other direction by connectedness of the sub-line (nearest points on the segment cannot jump over a point of it) — distance = infDist to the segment in a real normed space (segDist, segDistSq of C07); with a constraint switched on the tolerance itself fails, C35 | `C79_simplify`, `C79_constrained` |
| C80 | With the synchronised score the tolerance holds at every time | proved | the difference of two uniform motions is affine in time, so the places within e of the uniform move form a convex set in the plane and time — motion = line in the plane and time (Spec/Motion.lean); Arith.Exact as in C70; times that do not increase: C11 | `C80_simplify`, `C80_constrained` |
| C81 | One can walk along both lines within the tolerance | partial | walks matched vertex by vertex, joined at common vertices, and merged along one segment when the matched points come in order; refuted by a walk that would have to turn back — holds for the synchronised score; false for the distance to the chord: the line 0, D, 0, D lies on its chord, is replaced by one segment and is at Fréchet distance at least D/2 (C81_refuted, any tolerance, any bound); proved when no replaced part turns back with respect to its segment (Onward) | `C81_sed`, `C81_sed_constrained`, `C81_simplify_partial`, `C81_constrained_partial`, `C81_refuted` |
| C82 | When a line shrinks to a point | proved | corollary of C79; conversely the scores of all vertices against a chord without length are their distances to the end — exact distances as in C79; a ring may so become two equal vertices | `C82_closed`, `C82_extent` |
| C83 | Geometry files are read back as they were written | proved | induction over the lines; a cut-off last line has no newline and is dropped by the reader — hypothesis Codec on the text of a line (WKT text of the geometry library); characters stand for bytes; the error of the reader is never nil, C44 | `Io.C83_round_trip`, `Io.C83_cut`, `Io.C83_failed`, `Io.C83_survives` |
| C84 | Lines and constraints from TOML documents | proved | each loop as a relation between lists (loop_iff); permutations of related lists — decoding TOML and the constructors of the geometry library are parameters; these functions are not called by main.go | `Io.C84_geometries`, `Io.C84_rejected`, `Io.C84_order`, `Io.C84_input`, `Io.C84_input_order` |
| C85 | Pieces that share an index array do not disturb each other | proved | invariant over all interleavings: finished slices lie in arrays nobody fills; the third index in merge/merge.go:50 forces append into a new array, an example shows the damage without it — library functions called with coordinates are taken not to write to Idxs; Coords.Slice is taken to share the array with its capacity (the worst case) | `Idx.C85_reads`, `Idx.C85_unwritten`, `Idx.C85_no_panic`, `Idx.C85_apart` |
| C86 | With constraints the tolerance is kept up to a factor of two | proved | invariant of decomposition, splits and merges: every piece lies in an accepted range; a connectedness argument near its chord — exact distances as in C79; every piece lies in a range that was accepted by the score | `C86_simplify`, `C86_feature_class`, `C86_forward`, `C86_feature_class_forward`, `C86_factor`, `C86_back` |
| C87 | With constraints and the synchronised score the motion is kept within twice the tolerance at every time | proved | same invariant; the tube around a uniform move is convex — exact arithmetic as in C80 | `C87_simplify`, `C87_feature_class` |
| C88 | With rounding the synchronised tolerance is kept up to an explicit error | proved | forward error analysis of sed.go operation by operation (Lemmas/Rounding.lean); an accepted rounded score is an exact distance below the larger tolerance, then C80, C81, C87 — Arith.Rounds is the standard model of rounding with underflow below and overflow above limits; that Go's float64 and math library satisfy it (with k a few units in the last place) is an assumption; exact arithmetic is the case k = n = 0 | `C88_score`, `C88_simplify`, `C88_constrained`, `C88_feature_class` |
| C89 | With inexact chord distances the tolerance is kept up to their error | proved | the verdict with an error is a verdict of the exact distance for the larger tolerance; then C79, C86 — hypothesis ErrorLe on the distance functions of the library (external); exact distances are d = 0 | `C89_simplify`, `C89_constrained`, `C89_feature_class`, `C89_unconstrained`, `C89_forward` |
| C90 | Pieces the index points to are never overwritten | proved | step relation on memory (Model/PieceMem.lean: cells, slices, addresses) beside the model of values; invariant: slices in use have arrays of their own, addresses in an index lie in no such array — which pieces are computed and removed is left open (every choice is a step); values of pieces are opaque | `Piece.C90_stored`, `Piece.C90_index`, `Piece.C90_slices`, `Piece.C90_line`, `Piece.C90_gathered`, `Piece.C90_joint` |
| C91 | An insertion descends into the child that needs the least enlargement | partial | invariant of the scan (Lemmas/HdbHeur.lean Scan); areas are Lebesgue measures of regions — false: hdb/insert.go:103-105 compares the areas of the enlarged boxes without subtracting the areas before, so an item inside one child is put into another that must grow (C91_contained_passed_over); the tie rule compares with the area of a child dropped before (C91_tie_not_smallest); proved: least enlarged area up to the tolerance, and what follows for growth and for ties | `Hdb.C91_choose_partial`, `Hdb.C91_plane_partial`, `Hdb.C91_contained_passed_over`, `Hdb.C91_tie_not_smallest` |
| C92 | An overflowing node is split where the groups overlap least | partial | invariant of the scan (SplitScan); the code's intersection area is the measure of the intersection — least overlap proved (areas as Lebesgue measures); the tie rule is false: minArea may still hold the area of a position with more overlap (C92_tie_not_smallest, bucket size 9); proved except for that case (C92_tie_partial) | `Hdb.C92_least_overlap`, `Hdb.C92_tie_partial`, `Hdb.C92_tie_first`, `Hdb.C92_tie_not_smallest` |
| C93 | An overflowing node is split along the axis with the smaller total margin | partial | sums over positions rewritten; a list has only one arrangement in order when the keys are distinct — sums and axis proved; the last part is false when entries have equal lower x sides, because they are sorted along x again out of the order along y (C93_remeasured); proved for distinct lower sides (C93_axis_partial) | `Hdb.C93_total_margin`, `Hdb.C93_axis`, `Hdb.C93_axis_partial`, `Hdb.C93_remeasured` |
| C94 | The lines in the saved file keep the tolerance | proved | C60 generalised to any relation that holds of all results of the simplification (Io.program_lines), with C79, C86 and C89 — the error of the computed distances is a parameter (C89) | `Io.C94_program_tolerance` |
| C95 | The lines in the saved file respect the constraints that were read | proved | Io.program_lines with C74, C75; the index of every instance holds the constraints read — exact predicates are an assumption (Planar.Exact) | `Io.C95_program_constraints` |
| C96 | The motions in the saved file follow the motions read | proved | Io.program_lines with C80, C87 — exact arithmetic; with rounding see C88 | `Io.C96_program_motion` |
| C97 | No data races between the goroutines | proved | invariant over executions with a trace: which accesses happen before the next event of which goroutine — what a worker touches is an assumption of the model: its own instance, and common memory read-only (Model/Race) | `Conc.C97_instances`, `Conc.C97_no_workers`, `Conc.C97_search` |
| C98 | How a run of the program ends, exactly | proved | inversion of the program step by step; C41, C47 and C06 for the cases that fail; the writer characterised exactly (group_iff) — libraries as in Engine.Sane (both scores of the form of maxOffset with usable distances); exit code 13 is C46 | `Io.C98_saves`, `Io.C98_panics`, `Io.C98_hangs`, `Io.C98_exit1` |
| C99 | The result for a feature class does not depend on the run | partial | two runs side by side: which pieces are selected is a function of the polylines and ranges in the index; induction over the rounds, rounds that only return single segments set apart — violated when new self-intersections are to be avoided: the selection is keyed by the index range alone, so the order of the index, which comes from an earlier map order, decides which of two conflicting pieces of different features is split (C99_refuted).  Proved: without that option for all map orders and schedules; with it when no piece has neighbours of different features with the same index range; with an exact queue also for all index shapes and identifiers | `C99_schedules_free`, `C99_schedules_partial`, `C99_shapes_partial`, `Plane.C99_refuted` |
| C100 | The program saves the same file in every run | partial | naturality: every operation of the index commutes with renaming identifiers; two runs side by side; the writer sorts by number, so its map order does not matter — violated for feature classes when new self-intersections are to be avoided (C100_refuted, two runs of the whole program that differ in map order only).  Proved in full for lines simplified one by one, and for feature classes without that option (C100_file); for all feature classes when no piece has neighbours of different features with the same index range (C100_file_partial).  C100_identifiers: one polyline, all identifier sequences, with the code's own index heuristics (codeHeur_blind) | `C100_identifiers`, `Engine.C100_run_partial`, `Io.C100_file_partial`, `Io.C100_file`, `codeHeur_blind`, `Plane.C100_refuted` |
| C101 | The work of a run is bounded by the number of segments | proved | every split draws as many identifiers as it makes pieces and adds at least one piece; pieces form a chain over the vertices, so there are at most n-1 of them; a round that splits nothing is the last; a merge attempt draws one identifier and every piece is tried at most twice — the identifier bound is stated as: the result depends on that many first identifiers of the source alone.  The rounds are counted by a relation (Rounds) that reads the loop as written; the number is unique | `C101_identifiers`, `C101_rounds`, `C101_class_identifiers`, `C101_class_rounds` |
| C102 | A single segment left over could not be merged | partial | the step for a fragment finds both neighbours (box search and distance filter), leaves the memo keys of both pairs, and if the fragment survives, every pair it tried was refused; the memo key determines both ranges, no key covers a range with a piece boundary inside, so a union never meets an old key; invariant of the loop over the pieces dealt with — holds when the later of the two pieces is the single segment, or the earlier one is and the later one was there before the pass; fails when the later piece was made by the pass itself (C102_refuted): the earlier fragment had its turn and is not visited again.  Assumption: pieces sharing a vertex have boxes that intersect and a distance within EpsilonDist (Touching); derived for exact plane geometry | `C102_pass_partial`, `C102_run_partial`, `C102_plane_partial`, `C102_plain_partial`, `C102_refuted` |
| C103 | The constrained simplification is a recursive procedure | proved | induction over the rounds of the loop: a selected piece is exactly a rejected one, its two halves take its place, and the recursive procedure on both halves is that on the piece; bags of pieces as permutations; the split at fixed vertices is characterised by its set of ends, and a chain of ranges is determined by its ends — the option to avoid new self-intersections is off; where self-intersections are kept, the pieces around fixed vertices are assumed to be found (Splittable, derived in C12 from assumptions on the hulls).  The recursive procedure is a function (ConstrainedDP.unique) | `C103_loop`, `C103_run` |
| C104 | More constraints keep more vertices | partial | monotonicity of the recursive procedure in the set of rejected ranges, by induction; the verdict as a conjunction over the constraints near the piece; concrete runs for the negation — holds for the pieces before the merge pass, and for the result when no single segments are left for the merge pass: without the sidedness relation for more constraints (queue that pops in order), with all relations for more switches.  Fails in the merge pass (C104_refuted_merge), and with the sidedness relation a further constraint can make the verdict positive (C104_refuted_side).  The option to avoid new self-intersections is off in the partial theorems | `C104_constraints_partial`, `C104_relations_partial`, `C104_refuted_merge`, `C104_refuted_side` |
| C105 | Features of a class matter to each other only through junctions | proved | all pieces that reach the joint stage have been accepted by the validation, so its first round selects nothing; the pieces are regrouped by feature, a permutation; the features before the joint stage do not interact (C36) — the option to avoid new self-intersections is off for all features; with it the statement fails, as it should (Plane.C105_option_needed).  C105_recursive assumes Splittable as C103 does | `C105_alone`, `C105_others`, `C105_no_junctions`, `C105_recursive`, `Plane.C105_option_needed` |
| C106 | A larger threshold keeps a subset of the vertices, with constraints | partial | both phases cut at the vertex the same score names, so they walk down one tree of sub-lines; the threshold only decides where the first phase stops (C103) — holds before the merge pass without the option to avoid new self-intersections, if nothing is rejected or Douglas–Peucker keeps the fixed vertices anyway, and in the result if the merge pass finds no single segments; false with fixed vertices and rejected pieces (C106_refuted_fixed) and because of the merge pass (C66_refuted_threshold) | `C106_thresholds_partial`, `C106_refuted_fixed`, `ConstrainedDP.nested`, `ConstrainedDP.nested_free` |
| C107 | Simplification of one line is a fixed procedure on scores, fixed vertices and verdicts | proved | Spec/MergePass.lean `MergeSpec` (one pass, left to right) and C103's `ConstrainedDP` together make `SimplifySpec`, a function (`SimplifySpec.unique`). `C107_run` refines the model to it: `aggLoop_tried` shows that the merge pass with its cache, its index and its reinsertions follows `MergeSpec`. `C107_alike` transfers results between two runs over different libraries; no assumption on the option flags other than AvoidNewSelfIntersects off. — C107_run: the pieces of the result are the segments of SimplifySpec. C107_alike: lines judged alike keep the same vertices. Assumes that pieces sharing a vertex touch (Touching, proved for exact plane geometry in C102) and, with planarSelf, that fixed vertices lie near their own pieces (Splittable). | `C107_run`, `C107_alike`, `SimplifySpec.unique`, `MergeSpec.unique`, `MergeSpec.ends`, `MergeSpec.fixed_stays` |
| C108 | Moving, turning, mirroring or scaling everything keeps the same vertices | partial | `C107_alike` reduces the claim to the judgements on sub-lines: `Moved.score` (the same farthest vertex, the same comparison with the threshold), `ExactRun.verdict` and `Moved.verdict` (the three relations against all constraints, the deformation loop run in lockstep by `homotopy_pair`), `Moved.isLine` (as many hull corners), `ExactRun.fixed` (the vertices fixed by self-intersections are exactly the revisited places, except the one that sorts last, and the ends of crossing segments). The scores may be the distance or any increasing function of it. — Refuted: with planar self-intersections preserved, the repeated place that sorts last (greatest x, then y) is not found, so a half turn changes the kept vertices (C108_refuted). Proved: for all similarities when the repeated places found are the same, in particular without preserved self-intersections (C108_exact) and for shifts and positive scalings with any switches (C108_shift). | `Planar.C108_similar_partial`, `Planar.C108_shift`, `Planar.C108_exact`, `C108_refuted`, `Planar.ExactRun.fixed`, `Planar.ExactRun.verdict`, `Planar.Moved.verdict`, `Planar.Moved.score`, `Homotopy.homotopy_pair` |
| C109 | The direction in which a line is given does not matter | partial | `Mirrored` states what has to agree on a sub-line and its mirror image; `ConstrainedDP.mirror` proves that the procedure of C103 then gives the mirrored segments, by induction over the recursions. In exact plane geometry `Reversed.score` (greatest distances agree, the vertex too without ties), `Reversed.verdict`, `Reversed.isLine`, `Reversed.crossed` and `Reversed.revisited` establish it; `C107_run` ties the procedure to the runs and `MergeSpec.nothing` disposes of the merge pass. — Refuted three times: of equally far vertices the last one is taken (C109_refuted); the merge pass of single segments goes from left to right (C109_refuted_merge, without ties); the sidedness test removes vertices in the order of the line (C109_refuted_direction). Proved without the direction relation and without ties: both runs keep only vertices of the same sequence of segments, and the same vertices when no single segment can be joined. | `Planar.C109_reversal_partial`, `Planar.C109_exact`, `C109_refuted`, `C109_refuted_merge`, `C109_refuted_direction`, `ConstrainedDP.mirror`, `Planar.Reversed.verdict`, `Planar.Reversed.score`, `Planar.Reversed.crossed`, `Planar.Reversed.revisited`, `MergeSpec.nothing` |
| C110 | Simplifying a simplified line again changes nothing | partial | `Selected` and `ScoresFollow` state how a line through some of the vertices is judged; `ConstrainedDP.select` proves by induction over the recursions that the procedure of C103 then keeps every vertex. `Through.scores`: the last farthest vertex of a sub-line, if kept, is the last farthest among the kept ones. `ExactRun.rejected` turns the verdict into relations of sets (`Fits`), `Through.fits` combines them over the pieces of a sub-line. `MergeSpec.again`/`MergeSpec.nothing` decide the merge pass on single segments. — Refuted: in the second run every segment is single, so the merge pass tries pairs the first run did not (C110_refuted; without constraints C66). Proved in exact plane geometry, without the direction relation, for lines that do not run straight back, the same fixed vertices and a first run without merges: the second run changes something if and only if a single vertex of the simplified line can be taken out. Missing: first runs with merges. | `Planar.C110_again_partial`, `Planar.C110_concrete`, `C110_refuted`, `ConstrainedDP.select`, `Planar.Through.scores`, `Planar.Through.fits`, `Planar.ExactRun.rejected`, `MergeSpec.again`, `Planar.noSpikes_of_increasing` |
| C111 | Constraints out of reach of a line do not matter | partial | `InReach` is stated with distances from hulls only. `Passed` (in the search lemma of C18) says an item within the bound is missed only if another stored item beyond the bound may come out before it; `validate_unmistakable` concludes that without such items the verdict is that of the scan over all constraints, `verdict_reach` that this scan does not depend on constraints out of reach, and `simplify_same` (C55) carries equal verdicts to equal runs. — Refuted for the queue of the code, which compares distances with a tolerance: a constraint just out of reach can come out of the queue first and end the search (Axis.C111_refuted). Proved for a queue that pops in order (one line, a class, the simplification step of the program), and for the queue of the code when no constraint lies within the tolerance beyond the minimum distance. Assumed of the library: a box is never farther than a geometry inside it (proved for the exact plane). For a class also that no index ranges clash, see C99. | `C111_line_partial`, `C111_tolerant_partial`, `C111_class_partial`, `Engine.C111_run_partial`, `Planar.C111_plane_partial`, `Axis.C111_refuted`, `Axis.C111_case`, `verdicts_reach`, `validate_unmistakable` |
| C112 | With inexact distances the constraints are still respected, up to the error of the distances | proved | `Rough` is `Exact` with distances known up to e. `BoxNear` (search lemma) says what a box distance that need not be a lower bound still implies for the items in the box; `contextNeighbours_rough` follows the search with it, `Settled.respects_rough` gives the verdict of settled pieces, and `Judged` carries it to whole lines, classes and the saved file as in C74, C75 and C95. — Distances may be wrong by up to e; Intersects, convex hulls, boxes and Equals2D are taken to be exact. With e = 0 this is C74/C75/C95. | `Planar.C112_line`, `Planar.C112_feature_class`, `Engine.respects_rough`, `Io.C112_program`, `Planar.RoughSetting.judged`, `Hdb.contextNeighbours_rough`, `C32_validate_rough` |
| C113 | Inexact tests for common points: constraints are respected up to the part of them the test can be trusted on | proved | `Blurred` is `Rough` with the test for common points bounded from both sides. `JudgedUp` (Lemmas/PlanarPieces) carries verdicts with inner and outer parts from pieces to lines; the statements of C73, C74 and C112 are the case inner = outer. — Convex hulls, boxes and Equals2D are still taken to be exact. With inner = outer = constraint and r = 0 this is C112. | `Planar.C113_line`, `Planar.C113_feature_class`, `Engine.respects_blurred`, `Io.C113_program`, `Planar.BlurredSetting.judged` |
| C114 | Distances to boxes of the index, measured to the polygons of their corners, are good enough | proved | `WF.bbox_le_iff`: the box of a node is the least box around the items below it; `BoxNear` therefore needs distances only to least boxes around some items. `box_real`: around bounded constraints these have real sides. `C114_polygon` is a computation of the convex hull of four corners as a product of two intervals. — Point literals {x, y} are a parameter of the model; polygons are filled, as geom.Polygon is. | `Planar.C114_polygon`, `Planar.Drawn.blurred`, `Planar.C114_line`, `Planar.C114_feature_class`, `Io.C114_program`, `Planar.box_real`, `Hdb.WF.bbox_le_iff` |
| C115 | With rounding, the motions in the saved file follow the motions read up to an explicit error | proved | `Cut.rounds` and `RootCut.rounds` of C88 turn pieces accepted with rounding into pieces accepted exactly with `roundedEps`; `Engine.synchronised_rounds` carries this through the program as in C96. `Arith.Signs.hypot`: the computed hypotenuse is never negative, hence `C03_maxOffset` applies and the split vertex lies inside. — Rounding is a parameter: any arithmetic with relative error κ ≤ 1/64, absolute error η ≤ 1/64 below a limit Ω; the numbers for double precision are an example in C88. | `Io.C115_program`, `C115_split_inside`, `Engine.synchronised_rounds`, `Arith.Signs.hypot`, `sed_finite` |
| C116 | Convex hulls that leave out small corners are good enough | proved | `hull_near_line`: a line runs along the whole segment its vertices are within σ of (intermediate value theorem for the coordinate along the segment), so every point of its hull is within 2σ of the line. Such pieces are `Flat` and may be skipped; all other pieces are examined as in C113, with a search that misses at most σ more. — C113 is the case σ = 0 (`Blurred.blunt`). | `Planar.C116_line`, `Planar.C116_feature_class`, `Io.C116_program`, `Planar.hull_near_line`, `Planar.Blunt.hull_shape`, `Planar.BluntSetting.flat`, `Planar.Blurred.blunt` |
| C117 | Where the saved lines meet themselves and each other | partial | `Engine.GuaranteesIn` carries a relation that depends on the mode through the pipeline of C47; C76 and C13 give the vertices, C77 the segments of one line. For classes `hnear` turns a reported neighbour into two hulls within the distance 0 of the index search, so that `HullsApart` gives the `RangesApart` of C78; `program_parts` follows the list of all results, in the order of the parts, to the saved file. — The kept vertices and the lines treated one by one are proved in full for the exact plane (`C117_program`). Crossings between lines of a feature class are proved when no sub-line is near sub-lines of two lines with the same index range (`HullsApart`, a condition on the input alone); without it the claim is false (`C78_refuted`). | `Io.C117_program`, `Io.C117_program_class_partial`, `Engine.meetings`, `Engine.class_meetings`, `Planar.met_itself`, `Io.program_parts` |
| C118 | Crossings that exist are kept and hardly move | partial | The separation of C33 and C78 says that no pair of pieces in the result asks for deformation. Meeting parts are neighbours and not contiguous if they have no common end; then by C57 nothing was `Moved`, which for exact answers is the bound. Common ends are points of both segments. — Proved for parts that are not straight, for a class under the condition of C117. The code does not examine single segments again: after a split because of a constraint a crossing can be lost, `C118_refuted`. The displacement is ignored unless `avoid_new_self_intersects` is on, whatever `non_planar_self` says, `C118_off_refuted`. | `Planar.C118_kept_partial`, `Planar.C118_class_partial`, `Io.C118_program_partial`, `Io.C118_program_class_partial`, `Plane.C118_refuted`, `Plane.C118_off_refuted` |
| C119 | The keys of the configuration | proved | Induction over the members from the end: the settings after a list of members are what the list says. The keys are compared with the table of the readme, the folding of letters is characterised letter by letter. For the program: the configuration of the other program theorems (`Reads`) is the one the members say. — The model begins with the members of the parsed text. Syntax, text escapes and number literals are those of `encoding/json` and not modelled. | `Io.C119_settings`, `Io.C119_rejected`, `Io.C119_order`, `Io.C119_others`, `Io.C119_round_trip`, `Io.C119_reads`, `Io.C119_program` |
| C120 | The saved file is what a procedure of plane geometry prescribes | proved | `ExactRun.procedure` translates the procedure of C107 on scores and verdicts into plane geometry: scores are distances to the chord, verdicts are `Allowed`, the hull is a line exactly for straight sub-lines, the sidedness test is `Pull` (`homotopy_pull`, by induction over the pointer chain); `junctions_places` for feature classes. The specification is deterministic (`unique`), which gives one function for all runs. — For simplification type dp, exact geometry and AvoidNewSelfIntersects off. The specification mentions no function of the model except the list operations `between` and `verticesAt`. Junctions and repeated places are those the code finds, that is, not at the place that sorts last (deviations C23, C24). | `Planar.C120_run`, `Io.C120_program`, `Io.C120_function`, `Planar.Procedure.unique`, `Homotopy.homotopy_pull` |
| C121 | Moving the files moves the saved file | proved | The specification of C120 cannot tell the two requests apart (`Alike`): offsets, gaps and meeting are compared under the similarity and within the convex hull, by induction over the specification. The program theorem then follows from C120 for each run. — The condition on the order of places is necessary when self-intersections are kept, see `C108_refuted`. | `Io.C121_program`, `Io.C121_moved`, `Io.C121_reach`, `Io.C121_order` |
| C122 | Rounding errors smaller than the margins do not change the saved file | proved | `RoundRun` bounds the errors (on top of the blurred library of C113). Under `Decided` each comparison of the run has the outcome of the exact one: near/far and the farthest vertex by the bound on offsets, the verdict of the relations by C113's bounds for reported meetings and distances. `Follows` collects these facts, and with them the run of C107 is a `Procedure` of C120. — For simplification type dp without keeping self-intersections and with AvoidNewSelfIntersects off. The hulls are those of the exact geometry; the errors concern intersection tests, distances, boxes and offsets. | `Planar.C122_run`, `Io.C122_program`, `Planar.Follows.procedure` |
| C123 | The saved motions are what a procedure of plane geometry and time prescribes | proved | `FollowsBy` states that scores and verdicts of the code agree with given offsets and with `Allowed`; it turns the procedure of C107 into `ProcedureBy`. Verdicts do not depend on scores, so they come from C120 on the same instance with other scores (`chordEnv`); scores are synchronised offsets by C70. `C123_sed` instantiates this with the score function of offset/sed.go. — For AvoidNewSelfIntersects off and strictly increasing times (with equal times the score is NaN or wrong, see C70). The specification differs from that of C120 in the offsets only (`procedureBy_offsetOf`). | `Planar.C123_run`, `Io.C123_program`, `Io.C123_sed`, `Planar.ProcedureBy.unique`, `Planar.procedureBy_offsetOf` |
| C124 | What is saved for a motion does not depend on the clock, the place, constraints out of reach or a common drift | proved | By C123 the saved stops are a function `prescribedStops` of the request and the motion. Offsets of the moved motion are multiples of the old ones (`along` commutes with affine maps and clocks), those of a drifting one are the same; `AlikeBy` transports the whole procedure. — For AvoidNewSelfIntersects off. The drift is only claimed without constraints: constraints do not drift, and the places visited twice are others. | `Io.C124_program`, `Io.C124_drifting`, `Io.C124_clock`, `Io.C124_drift`, `Io.C124_reach`, `Io.C124_order`, `Io.SedProgram.prescribed` |
| C125 | Rounding errors smaller than the margins do not change which stops of a motion are saved | proved | C88 bounds the error of every score; with the margins, the comparison with the tolerance and the choice of the farthest stop come out as in exact arithmetic (`RoundMotionRun.scores`), the relations to constraints as in C122 (`RoundRun.allowed`). So the code follows the procedure of C123, whose result is unique. — For self-intersections neither kept nor avoided. C125_computed is the step from the float operations of offset/sed.go to an error bound on each score; IEEE double with round to nearest meets the assumptions with κ about 1.2e-16 (C88). | `Io.C125_program`, `Planar.C125_run`, `C125_computed`, `Engine.roundedMotion` |
| C126 | Rounding errors below the margins change nothing, also where self-intersections and junctions are kept | proved | A piece that contains the place has exact distance 0, so its computed distance is at most ε and EpsilonDist ≥ τ+3ε makes the inexact search reach it through every box on the path. So all pieces around a crossing are split, the fixed vertices are those of the places, and C122/C125 (rules decided with room to spare) give the rest. In a feature class C105 reduces the run to one line with its junctions. — The places where segments meet are assumed to be computed exactly (ExactLnr); distances, relations and scores may have errors. | `Planar.C126_run`, `Planar.C126_motion`, `Engine.roundedSelf`, `Engine.roundedMotionSelf`, `Io.C126_program`, `Io.C126_sed` |
| C127 | Places known up to an error: the same vertices are saved where decisions have room to spare | proved | Hulls, chords and lines of near places are near (Hausdorff), so gaps change by at most η, offsets by at most 2η, and each relation, each comparison with the threshold and each choice of the farthest vertex comes out the same. The two requests make the same calls at every sub-line the procedure can reach, so C120/C123's procedure has the same outcome on both. — Stated for exact libraries; together with C126 (whose programs save what Io.prescribed says) it also covers libraries with rounding errors. That the same vertices must be kept is a hypothesis: a place visited twice is lost under any error. | `Planar.C127_procedure`, `Planar.C127_motionProcedure`, `Io.C127_prescribed`, `Io.C127_prescribedStops`, `Io.C127_program`, `Io.C127_sed` |
| C128 | Lines and constraints known up to an error: the same vertices are saved where decisions have room to spare | proved | Two steps: C127 moves the line among fixed constraints, then the constraints are moved around the fixed line. A constraint and its moved copy play the same part for every sub-line (chord, line, triangles, distances), so exactly the same replacements are allowed. — Polygons with holes or concave polygons are covered only through a rule of drawing for which the movement is bounded by that of the vertices (Drawing). | `Planar.C128_procedure`, `Planar.C128_motionProcedure`, `Planar.drawing_line`, `Planar.drawing_hull`, `Io.C128_prescribed`, `Io.C128_prescribedStops`, `Io.C128_program`, `Io.C128_sed` |
| C129 | Motions known up to errors in place and time: the same stops are saved where decisions have room to spare | proved | A synchronized place moves by at most η + Vθ when places move by η and times by θ, so an offset moves by at most 2η + 2Vθ. The step of C128 then applies with this larger margin for the offsets. | `Planar.C129_procedure`, `Io.C129_prescribed`, `Io.C129_program` |
| C130 | Rounded computation on measured data saves what the exact procedure prescribes for the true data | proved | C126 says that the rounded program saves what is prescribed for the measured data; C128 and C129 say that this is what is prescribed for the true data. | `Io.C130_program`, `Io.C130_sed` |
| C131 | Where no decision is on the edge, all near enough lines are saved with the same vertex numbers | proved | Each of the finitely many decisions leaves room for all small enough errors: a segment that does not meet a set even after small moves has a positive distance from it, because it could be moved onto the nearest points otherwise. So the conditions of C127 hold for all small enough errors. — Times are fixed and constraints are fixed; explicit bounds with moving times and constraints are in C128 and C129. | `Planar.C131_general`, `Io.C131_prescribed`, `Io.C131_prescribedStops`, `Io.C131_program`, `Io.C131_sed` |
| C132 | The record of unmerged fragments is right | proved | Invariant over the outer loop, together with the one of C50. A recorded piece could be removed later only as the neighbour of a fragment it is near to and mergeable with; both relations are symmetric, so it would have been merged on its own turn (C61). — The record given by the caller is taken to be empty. A fragment all of whose neighbours were merged before its turn is not recorded by the code; the theorem does not ask for it. | `C132_unmerged`, `Axis.fiveRun3_case` |

## Deviations found in the code

Each is a theorem with a concrete witness or a divergence proof (`_refuted`, `_diverges`, `_crash`); the part that holds is kept as a `_partial` theorem.

* A negative or NaN threshold makes the decomposition loop forever (C06).
* With the SED offset and unusable times the score is NaN: the whole line is accepted and a violated constraint is split forever (C11).
* `selectBox` never updates `fleft`/`fright`: above 600 items the sampled window is stale and the partition fails (C22).
* `multiSelect` never separates a last group of one item (C58).
* `planarIntersects` and `FCPlanarSelfIntersection` never flush the final group: the greatest repeated location is not reported (C23, C24).
* `IsDistRelateValid` accepts anything when the original is already closer than the minimum distance (C28).
* The queue compares distances with a tolerance: a search can stop at an entry slightly beyond the bound and miss one within it (C18), so constraints can be
  passed over when the minimum distance is below the tolerance (C30), and the result can depend on the order of the entries in the constraint index (C55).
* Pieces whose hull is a segment skip the constraint checks (C31); `AvoidNewSelfIntersects` can be violated by single segments (C33; `C33_crossing_partial` proves it for the pieces that are examined).
* For the same reason crossings of single segments can be lost, and `non_planar_displacement` has no effect unless `avoid_new_self_intersects` is on (C118).
* Between the features of a class `AvoidNewSelfIntersects` can be violated by examined pieces as well: selections are keyed by index range, of two conflicting pieces with equal ranges one is lost (C78).
* For the same reason the result for a feature class depends on the iteration order of Go maps: the order of an earlier round decides the order in the index, and this decides which of two conflicting pieces with equal ranges is split (C99); two runs of the whole program on one file then save different files (C100).
* A rejected successor is missing from the index while the merge with the predecessor is validated (C34).
* The tolerance is not kept by pieces split because of a constraint (C35).
* A document without line geometry before one with line geometry makes the writer panic; null geometries make the reader panic (C41).
* `readlinesFromReader` drops an unterminated last line and never returns nil (C44).
* `Pop`, `PopLeft`, `First`, `Last` of the node queue panic on an empty queue while holding the lock (C45).
* A polyline with fewer than two coordinates makes the run panic (C47).
* `SelectFeatureClass` keys its selection by range only, losing pieces of other features with the same range (C51).
* Features of a collection are merged into one output feature with the properties of the first (C59).
* A null geometry in the constraint file makes the reader panic, geometry collections are dropped (C62).
* With all constraints off, the merge pass makes a larger threshold keep more vertices on some lines, and a second run remove more (C66).
* The merge pass leaves a single segment beside a piece it made afterwards, although the two could be made one (C102).
* More constraints can keep fewer vertices: the merge pass puts the smaller pieces together differently, and with the sidedness relation a further constraint
  disjoint from line and chord can turn a rejection into an acceptance (C104).
* A larger threshold can keep a vertex that a smaller one drops also without the merge pass: a piece between fixed vertices that is rejected is cut at the vertex farthest from its own chord, not from that of the line (C106).
* Whether a repeated vertex is kept depends on the orientation of the line: the repeated place that sorts last is not found, so turning line and constraints can change the result (C108).
* The result depends on the direction in which a line is given: of equally far vertices the last one is taken, single segments are merged from left to right, and the sidedness test removes vertices in the order of the line (C109).
* Adding a constraint farther away than the minimum distance can change the result: the queue compares with a tolerance, the constraint can come out before one within
  the minimum distance, and the search stops there (C111).
* Simplifying a simplified line again can remove more vertices: all segments are single then, so the merge pass tries more pairs (C66 without, C110 with constraints).
* The tolerance of the distance score bounds the Hausdorff distance (C79), not the Fréchet distance: a line that runs back and forth along its chord is replaced by the chord (C81).
* Insertion into the index compares enlarged areas, not enlargements: an item inside one child can be put into another (C91). The tie rules of `chooseSubtree` and `chooseSplitIndex` compare with the area of a candidate dropped before (C91, C92), and the arrangement that is split need not be the one whose margin was measured (C93). The index stays correct (C16-C21), only its boxes are larger than intended.
* The sidedness test only removes vertices, so it rejects some sub-lines that could be deformed into their chord (C67).

Noticed while reading, without a property of their own: unsupported document types are silently ignored; a negative minimum distance disables the constraint
checks (`C32_negative_accepts`); `NodeNeighbours` filters by box before distance; the comparison of `kobjCmp` is not transitive;
`-b -` counts as not given; in hdb/insert.go `chooseSubtree` keeps the previous `targetNode` when no child qualifies (all enlargements infinite or NaN), so below the root the item would be stored at a wrong level, at the root it panics (excluded by `Legal`); `chunkTasks` makes up to 2c−1 chunks; the constraint vertices are ignored when `PlanarSelf` is false;
`groupHullsByFC` merges instances sharing an identifier; `removeItem` looks at leaves irrespective of their box; `NewConstDP` passes its variadic square score as nil.

## What is modelled

Generated from the citations in the Lean comments: a function is listed when a comment cites lines of its body. A citation means that the definition was written from those lines; simplifications are stated in the comments.

| Go file | functions | Lean files citing them |
|----|----|----|
| box/box.go | MBRToPolygon | Model/Box |
| cfg.go | ArgObj.String, optsFromCfg, parseInput | Model/Cfg, Model/Io |
| common/common.go | SortInts, Geometry, SubCoordinates | Model/Geom, Model/IdxMem, Model/Rng |
| constdp/common.go | CacheKey | Model/ConstDP |
| constdp/constructor.go | NewConstDP, ConstDP.BuildContextDB | Model/ConstDP, Model/Pipeline |
| constdp/decompose.go | ConstDP.Decompose | Model/ConstDP |
| constdp/fc_group.go | groupHullsByFC | Model/ConstDP, Model/Node, Model/PieceMem |
| constdp/fc_simplify.go | SimplifyFeatureClass, SimplifyInstances | Model/Conc, Model/ConstDP, Model/PieceMem, Model/Pointers, Model/Race |
| constdp/node_aggregates.go | ConstDP.AggregateSimpleSegments | Model/ConstDP, Model/Decompose, Model/PieceMem, Model/Pointers |
| constdp/simple_0.go | findDeformableNodes, processConstSimplification, chunkTasks | Model/Conc, Model/ConstDP, Model/Pointers, Model/Race |
| constdp/simple_1.go | deformNodes | Model/ConstDP, Model/PieceMem |
| constdp/simple_2.go | cleanUpDB | Model/ConstDP, Model/PieceMem |
| constdp/simplify.go | ConstDP.Simplify | Model/ConstDP, Model/Node, Model/PieceMem, Model/Pointers |
| constdp/validate.go | ConstDP.ValidateMerge, ConstDP.ValidateContextRelation | Model/ConstDP, Model/Pointers |
| constrain/bycls.go | ByFeatureClassIntersection | Model/ConstDP, Model/Pointers |
| constrain/bygeom.go | ByGeometricRelation | Model/Relate |
| constrain/bymindist.go | ByMinDistRelation | Model/Relate |
| constrain/byself.go | BySelfIntersection | Model/ConstDP, Model/Pointers |
| constrain/byside.go | BySideRelation | Model/Relate |
| constrain/split.go | splitAtSelfIntersects | Model/ConstDP |
| constrain/toself.go | ToSelfIntersects | Model/ConstDP |
| ctx/ctx.go | ContextGeometry.AsPlanarVertex, ContextGeometry.IsPlanarVertex, ContextGeometry.AsNonPlanarVertex, ContextGeometry.IsNonPlanarVertex | Model/SelfInter |
| decompose/decompose.go | DouglasPeucker | Model/Decompose |
| deform/cls.go | optimizeNeighbours, SelectFeatureClass | Model/ConstDP, Model/Pointers |
| deform/contig.go | contiguousCandidates | Model/ConstDP, Model/Pointers |
| deform/ln.go | Select | Model/ConstDP, Model/Pointers |
| deform/noncontig.go | nonContiguousCandidates | Model/ConstDP, Model/Pointers |
| dp/dp.go | DouglasPeucker.ScoreRelation, DouglasPeucker.SquareScoreRelation, DouglasPeucker.Decompose, DouglasPeucker.Simplify, DouglasPeucker.Simple, DouglasPeucker.Options, DouglasPeucker.Coordinates | Model/ConstDP, Model/Decompose, Model/Node, Model/Pipeline, Model/Relate |
| encode.go | indexPos, groupById, groupPlnsAsGeoJSONS, isCoords3D, extractCoords, getMeta, createGeoJSONString, indices | Model/Io, Model/Pipeline, Model/Text |
| geometry/geojson.go | ReadInputConstraints, parseInputLinearFeatures, parseConstraintFeatures, createPolylineGeoms, createIGeom, createPoint, createPolyline, createPolygon, composeId, readJsonFile | Model/Constraints, Model/Io, Model/Text |
| geometry/geojson_geom.go | geoJsonPoints, geoJsonLineString, geoJsonPolygons | Model/Constraints, Model/Io |
| geometry/jsontype.go | JSONType.isGeometryType | Model/Constraints |
| geometry/pln.go | CreatePolyline, Polyline.SegmentBounds, Polyline.Range, Polyline.SubCoordinates | Model/Geom, Model/IdxMem, Model/SelfInter |
| geometry/polygon.go | CreatePolygon | Model/Constraints |
| geometry/pt.go | CreatePoint | Model/Constraints |
| geometry/types.go | LinearGeometry.LinearType, MultiLinearGeometry.LinearType | Model/Io |
| hdb/adj.go | Hdb.adjustParentBBoxes | Model/HdbMem |
| hdb/build.go | Hdb.buildTree | Model/Hdb, Model/HdbMem |
| hdb/clear.go | emptyMBR, Hdb.Clear | Model/Box, Model/Hdb, Model/HdbMem |
| hdb/collides.go | Hdb.Collides | Model/Hdb, Model/HdbMem |
| hdb/core.go | maxEntries, minEntries, swapItem | Model/Hdb, Model/Select |
| hdb/dbnode.go | newLeafNode, dbNode.addChild, makeChildren | Model/Hdb, Model/HdbMem |
| hdb/insert.go | Hdb.insert, Hdb.insertNode, Hdb.splitOnOverflow, chooseSubtree, bboxMargin, intersectionArea, contains, intersects | Model/Box, Model/Hdb, Model/HdbHeur, Model/HdbMem |
| hdb/knn.go | Hdb.Knn | Model/Knn |
| hdb/kobj.go | kobjCmp | Demo/Tolerance, Props/C18_Tolerance |
| hdb/load.go | Hdb.Load | Model/Hdb, Model/HdbMem, Model/PieceMem, Model/Pointers |
| hdb/mbr.go | calcBBox, distBBox, Hdb.allDistMargin | Model/Box, Model/Hdb, Model/HdbHeur, Model/HdbMem |
| hdb/remove.go | nodeSiblingAtIndex, removeNode, Hdb.condense, Hdb.Remove, Hdb.removeItem | Model/Hdb, Model/HdbMem |
| hdb/rtree.go | NewHdb | Model/Hdb, Model/HdbMem |
| hdb/search.go | Hdb.Search, Hdb.All, all | Model/Hdb, Model/HdbMem |
| hdb/select.go | multiSelect, selectBox | Model/Hdb, Model/HdbHeur, Model/Select, Model/Window |
| hdb/split.go | Hdb.split, Hdb.splitRoot, Hdb.chooseSplitIndex, Hdb.chooseSplitAxis | Model/Hdb, Model/HdbHeur, Model/HdbMem |
| hdb/util.go | splitAtIndex, sliceIndex | Model/Hdb, Model/HdbMem |
| homotopy/chain.go | NewChain, remove, ptrs | Model/Relate |
| homotopy/deform.go | chainDeformation, collapseVertex, isTriangleCollapsible | Model/Relate |
| homotopy/homotopy.go | Homotopy, filterContext | Model/Relate |
| io.go | readWKTInput, readTomlInput, readConstraints, readlinesFromReader, writeCoords, ConstToml.Geometries, ConstToml.parsePoints, ConstToml.parsePolylines, ConstToml.parsePolygons | Model/Text, Model/Toml |
| knn/knn.go | find, ScoreFn, PredicateFn | Model/Geom, Model/Knn |
| knn/neighbours.go | ContextNeighbours, NodeNeighbours | Model/ConstDP, Model/Knn, Model/Pointers |
| lnr/fc.go | FCPlanarSelfIntersection | Model/SelfInter |
| lnr/self.go | SelfIntersection, planarIntersects, nonPlanarIntersection, cacheKey | Model/SelfInter |
| lnr/vertices.go | vertices.Less, appendVertices | Model/SelfInter |
| main.go | main | Model/Io, Model/Pipeline |
| merge/merge.go | Range, ContiguousFragmentsAtThreshold, ContiguousCoordinates, contiguousFragments, ContiguousFragmentsBySize | Model/IdxMem, Model/MergeSize, Model/Node, Model/Rng |
| node/collapse.go | Node.Collapsible | Model/Node |
| node/contig.go | IsContiguous, Neighbours | Model/Node, Model/Pointers |
| node/node.go | CreateNode, Node.Segment, Node.SegmentPoints | Model/Conc, Model/Node, Model/Race |
| node/nodes.go | NodePtrs.Less, Nodes.Less, Clear | Model/Node, Model/PieceMem |
| node/queue.go | NewQueue, Queue.Append, Queue.AppendLeft, Queue.Pop, Queue.PopLeft, Queue.Clear, Queue.Size, Queue.First, Queue.Last | Model/Queue |
| offset/dp.go | maxOffset | Model/Offset |
| offset/sed.go | maxSEDOffset, direction, squareHypot, hypot | Model/Offset |
| parser.go | parseLinearArray, parsePointArray, parseFloat | Model/Io |
| relate/dir.go | IsDirRelateValid | Model/Relate |
| relate/dist.go | IsDistRelateValid | Model/Relate |
| relate/geom.go | IsGeomRelateValid | Model/Relate |
| relate/sidedness.go | Homotopy | Model/Relate |
| rng/array.go | Rng.AsSlice | Model/Rng |
| rng/contig.go | Rng.Contiguous | Model/Rng |
| rng/rng.go | Rng.Equals, Rng.Size | Model/Rng |
| rng/split.go | Rng.Split | Model/Rng |
| simplify.go | simplifyInstances, simplifyFeatureClass, setSimpleCoords | Model/Io, Model/Pipeline, Model/Race |
| split/split.go | AtScoreSelection, AtIndex | Model/IdxMem, Model/Node |
| state/state.go | State.MarkClean, State.MarkDirty | Model/ConstDP |
| util.go | encode64, decode64 | Model/Text |

### Not modelled

Outside the model although reached by the program: the conversion of coordinate arrays to geometry values (external). `World.constraints` is a parameter of `main`; Model/Constraints gives its value for this program (`readInputConstraints`), used in `C62_program_partial`. `box.MBRToPolygon` (called by knn/knn.go) only enters through the parameter `boxDistance`. Other cited code that is a parameter: the float arithmetic of the index heuristics (`Num`: area, margin, tolerance, logarithm), `Less` of lnr/vertices.go (inside the sort parameter), the sine and cosine of offset/sed.go (`Arith`). In `World` the simplification is a parameter too; Model/Pipeline instantiates it.

Only used by tests, by nothing, or for printing: common/common.go LinearCoords, common/common.go CreateHulls, common/common.go nodeFromPolyline, constdp/simple_1.go deformNodes_, constdp/simple_1.go streamDeformNodes, constdp/simple_1.go processDeformNodes, ctx/ctx.go ContextGeometry.String, hdb/kobj.go KObj.String, hdb/load.go Hdb.loadBoxes, hdb/remove.go Hdb.removeMBR, io.go readTomlConstraints, io.go writeTomlCoords, node/node.go Node.String, opts/opts.go Opts.String, rng/rng.go Rng.String. Demonstration programs: constdp/app, dp/example, example.

Without a citation of their own (accessors, constructors, `Len`/`Swap` and small helpers written into the definitions of their callers where these need them, or unused): constdp/common.go PointIndexCmp, constdp/simple_0.go chunkInstances, ctx/ctx.go New, ctx/ctx.go ContextGeometry.Geometry, ctx/ctx.go ContextGeometry.BBox, ctx/ctx.go ContextGeometry.Bounds, ctx/ctx.go ContextGeometry.AsLinear, ctx/ctx.go ContextGeometry.Intersects, ctx/ctx.go ContextGeometry.Intersection, ctx/ctx.go ContextGeometry.Distance, ctx/ctx.go ContextGeometry.Type, ctx/ctx.go ContextGeometry.WKT, ctx/ctx.go ContextGeometry.AsSelf, ctx/ctx.go ContextGeometry.IsSelf, ctx/ctx.go ContextGeometry.AsPlanarSegment, ctx/ctx.go ContextGeometry.IsPlanarSegment, ctx/ctx.go ContextGeometry.AsLinearSimple, ctx/ctx.go ContextGeometry.IsLinearSimple, ctx/ctx.go ContextGeometry.AsContextGeometries, ctx/ctx.go ContextGeometry.AsContextNeighbour, ctx/ctx.go ContextGeometry.IsContextNeighbour, ctx/ctxs.go NewContexts, ctx/ctxs.go NewContextsFromObjects, ctx/ctxs.go ContextGeometries.Len, ctx/ctxs.go ContextGeometries.Swap, ctx/ctxs.go ContextGeometries.Less, ctx/ctxs.go ContextGeometries.Push, ctx/ctxs.go ContextGeometries.Extend, ctx/ctxs.go ContextGeometries.Sort, ctx/ctxs.go ContextGeometries.DataView, ctx/ctxs.go ContextGeometries.SetData, deform/common.go isSame, dp/dp.go New, dp/dp.go DouglasPeucker.Id, dp/dp.go DouglasPeucker.State, geometry/geojson.go ReadInputPolylines, geometry/geojson_geom.go pointsFromFeature, geometry/geojson_geom.go lineStringFromFeature, geometry/geojson_geom.go polygonFromFeature, geometry/jsontype.go JSONType.isFeatureType, geometry/jsontype.go JSONType.isFeatureCollectionType, geometry/pln.go Polyline.Segment, geometry/pln.go Polyline.SubPolyline, geometry/pln.go Polyline.Len, geometry/polygon.go Polygon.Geometry, geometry/pt.go Point.Geometry, geometry/utils.go checkError, hdb/clear.go Hdb.IsEmpty, hdb/core.go popInt, hdb/core.go appendInts, hdb/dbnode.go createDBNode, hdb/dbnode.go dbNode.BBox, hdb/knn.go predicate, hdb/kobj.go KObj.GetNode, hdb/nodepath.go nodePath.Len, hdb/nodepath.go nodePath.Swap, hdb/nodepath.go xNodePath.Less, hdb/nodepath.go yNodePath.Less, hdb/remove.go nodeAtIndex, hdb/remove.go popNode, hdb/remove.go popIndex, hdb/util.go min, hdb/util.go max, hdb/util.go minInt, hdb/util.go maxInt, homotopy/deform.go contextDB, lnr/fc.go NewFC, lnr/self.go segmentDB, lnr/vertices.go vertices.Len, lnr/vertices.go vertices.Swap, lnr/vertices.go vertices.Sort, node/node.go Node.BBox, node/node.go Node.Bounds, node/node.go Node.Geometry, node/node.go Node.Coordinates, node/node.go Node.First, node/node.go Node.Last, node/node.go Node.SegmentAsPolyline, node/nodes.go NodePtrs.Len, node/nodes.go NodePtrs.Swap, node/nodes.go Nodes.Len, node/nodes.go Nodes.Swap, node/nodes.go Nodes.AsPointSet, node/nodes.go Pop, offset/dp.go MaxOffset, offset/dp.go SquareMaxOffset, offset/sed.go MaxSEDOffset, offset/sed.go SqureMaxSEDOffset, rng/array.go Rng.AsArray, rng/rng.go Range, rng/stride.go Rng.Stride, rng/stride.go Rng.ExclusiveStride, state/state.go State.IsClean, state/state.go State.IsDirty, util.go usageHelp.

## Assumptions about code outside /repo

Parameters or stated hypotheses of the model, not proved:

* `iter.Igen.Next` hands out successive integers atomically (`C39_unique` rests on it; a non-atomic source is not modelled).
* `geom`: `Coords.Slice/Pt/Len/Clone/Points` are slices of indices into a shared point list; `Equals2D`, `Intersects`, `Intersection`, `Distance`, `ConvexHull`,
  `Bounds`, `PointCompletelyInRing` are arbitrary functions constrained only by the named hypotheses.
* `sset.SSet`, `SortedIntsSet`: sorted without duplicates; `SortedSearchInts`: binary search; `deque`: returns nil when empty; `heap`: `Heap.Legal near`, it hands out an entry that
  `near` allows before every other one; `near` is a parameter, `≤` for a queue in order, looser for the comparison of the code, whose tolerance can add up along a path of the heap.
* Two runs (C55): the geometry functions, the score and the sorting of the self-intersection search are the same functions in both; heuristics of the index, queue, map orders and the
  order of the constraints in their index vary.
* `mbr.ExpandIncludeMBR`, `Intersects`, `Contains` on boxes: the coordinate formulas of Model/Box.
* `sort.Sort` permutes into an order, `sort.SliceStable` is stable. External `rtree.Search`, `index.Search`: box filter.
* IEEE rules for NaN in comparisons, `min`/`max`. `unicode.IsSpace`, `unicode.ToLower`, base64, `strconv.Atoi` clamping: Model/Text.
* `go.geojson`: shape of decoded documents (Model/Io `Doc`), nil geometry dereference panics. JSON marshalling: round trip of the written document. Files hold valid UTF-8.
* `encoding/json` for the configuration: JSON syntax and number literals are a parameter (`World.config`, `parse` in C119); which member sets which field, folding of keys, null and type errors are in Model/Cfg.
* `sync.RWMutex`: mutual exclusion; a panicking holder never releases. Channels and `WaitGroup`: Go semantics as the step relation of Model/Conc.
* Happens-before (C97): the edges of the Go memory model used are those of `Edge` in Lemmas/Race; a call of `Simplify` writes only memory of its own instance, the workers of `processConstSimplification` write no shared memory, and the geometry library does no caching in shared objects.

## Trusted base

* The Lean kernel and the axioms `propext`, `Classical.choice`, `Quot.sound`. No own axioms, no `sorry`, no `native_decide`/`bv_decide`;
  concrete runs are evaluated by the kernel (`decide +kernel`).
* The correspondence between the Go text and the model definitions (by reading; line references in the comments).
* The assumptions about external packages above.

## Tests against wrong programs

A copy of the project outside /verif is edited definition by definition (wrong boundary, dropped update, swapped argument, missing case) and rebuilt.
`seeded/LOG.jsonl` has one line per attempt. A build stops at the first module that fails, so the log separates theorems that failed from modules
that were not reached. A failed helper lemma shows that the edit is noticed; it does not by itself show that the property theorem is false of the edited
program. Some edits that keep the claim true also break a helper lemma.

### Axioms per theorem

Output of `#print axioms` for every theorem named in `MANIFEST.json`.

* `Classical.choice`, `Quot.sound`, `propext`: `C01_split_cover`, `C01_split_empty`, `C02_contiguous_iff`, `C02_merge_union`, `C02_merge_mem`, `C04_decompose_cover`, `C05_decompose_terminates`, `C05_maxOffset_terminates`, `C06_negative_threshold_diverges`, `C07_piece_tolerance`, `C07_real_tolerance`, `C07_real_tolerance_square`, `C07_simplify_tolerance`, `C08_simple`, `Hdb.C16_contents`, `Hdb.C22_codeHeur_legal`, `Hdb.C17_search`, `Hdb.C18_knn_partial`, `Hdb.C18_knn_tolerant_partial`, `Hdb.C18_knn_band`, `Axis.C18_refuted`, `Hdb.C19_remove`, `Hdb.C20_structure`, `Hdb.C21_collides`, `Sel.C22_selectBox`, `Sel.C22_selectBox_window`, `Sel.C22_multiSelect`, `Sel.C22_partition_partial`, `Sel.C22_refuted`, `C29_terminates`, `C29_accept_sound`, `C29_reject_stuck`, `C29_piece`, `C32_relations`, `C32_validate`, `C32_validate_tolerant`, `C32_negative_accepts`, `C23_planar_partial`, `C23_last_never_reported`, `C23_refuted`, `C24_junctions_partial`, `C24_feature_partial`, `C24_last_never_reported`, `C25_nonplanar`, `C25_ends`, `C09_subsequence`, `KeptIndices.sublist`, `C10_terminates`, `C10_never_panics`, `C12_survive`, `C12_coincident`, `C30_context_partial`, `C30_feature_class_partial`, `Axis.C30_refuted`, `C48_coords`, `C48_merged`, `C31_refuted`, `C33_crossing_partial`, `C33_refuted`, `C34_step_partial`, `C34_pass`, `C34_refuted`, `C35_tolerance_partial`, `C35_refuted`, `C49_no_panic`, `C49_cacheKey`, `C51_refuted`, `C56_contiguous`, `C56_symmetric`, `C57_only_neighbours`, `C57_noncontiguous`, `C11_refuted`, `C11_unconstrained_partial`, `C11_usable_partial`, `C13_survive`, `C13_shared`, `C14_not_mixed`, `C15_terminates`, `C15_never_panics`, `Conc.C36_never_crashes`, `Conc.C36_no_deadlock`, `Conc.C36_returns`, `Conc.C36_completes`, `Conc.C36_exactly_once`, `Conc.C36_at_most_once`, `Conc.C36_independent`, `Conc.C37_never_crashes`, `Conc.C37_no_deadlock`, `Conc.C37_returns`, `Conc.C37_completes`, `Conc.C37_results`, `Conc.C37_schedule`, `Conc.C39_unique`, `Conc.C39_streams`, `Text.C40_round_trip`, `Text.C40_injective`, `Io.C41_features_partial`, `Io.C41_ordered_partial`, `Io.C41_crash`, `Io.C41_gap_crash`, `Io.C41_refuted`, `Text.C44_refuted`, `Text.C44_readWKT_refuted`, `Io.C46_exit13`, `Io.C46_saved`, `Io.C59_refuted`, `C47_completes_partial`, `Io.C60_program`, `Sel.C58_groups_partial`, `C50_merge_by_size`, `Axis.fiveRun_case`, `C61_no_mergeable_pair`, `C62_indexed`, `C55_schedules`, `C55_shapes_partial`, `Axis.C55_shape_refuted`, `C63_decompose_recursive`, `C63_recursive_total`, `C64_nested`, `C64_nested_square`, `C65_idempotent`, `C65_idempotent_sed`, `C66_within_partial`, `C66_refuted_threshold`, `C66_refuted_twice`, `C67_accept_partial`, `Hdb.C68_limit`, `Hdb.C68_nearest`, `C69_simplify`, `C69_featureClass`, `C70_distance`, `C70_zero_iff`, `Hdb.Mem.C72_memory_tree`, `Hdb.Mem.C72_memory_reads`, `Planar.C73_sidedness`, `Planar.C74_deformation`, `Planar.C74_feature_class`, `Planar.C75_whole_line`, `Planar.C75_each_segment`, `Planar.C76_meets_itself`, `Planar.C76_shared`, `Planar.C77_no_new_crossing`, `Planar.chords_meet`, `Planar.Exact.crossLaws`, `C78_crossing_partial`, `Planar.C78_no_new_crossing_partial`, `Plane.C78_refuted`, `C79_simplify`, `C79_constrained`, `C80_simplify`, `C80_constrained`, `C81_sed`, `C81_sed_constrained`, `C81_simplify_partial`, `C81_constrained_partial`, `C81_refuted`, `C82_closed`, `C82_extent`, `Io.C83_round_trip`, `Io.C83_cut`, `Io.C83_failed`, `Idx.C85_reads`, `Idx.C85_unwritten`, `Idx.C85_no_panic`, `Idx.C85_apart`, `C86_simplify`, `C86_feature_class`, `C86_forward`, `C86_feature_class_forward`, `C86_factor`, `C86_back`, `C87_simplify`, `C87_feature_class`, `C88_score`, `C88_simplify`, `C88_constrained`, `C88_feature_class`, `C89_simplify`, `C89_constrained`, `C89_feature_class`, `C89_unconstrained`, `C89_forward`, `Piece.C90_stored`, `Piece.C90_index`, `Piece.C90_slices`, `Piece.C90_line`, `Piece.C90_gathered`, `Piece.C90_joint`, `Hdb.C91_choose_partial`, `Hdb.C91_plane_partial`, `Hdb.C91_contained_passed_over`, `Hdb.C91_tie_not_smallest`, `Hdb.C92_least_overlap`, `Hdb.C92_tie_partial`, `Hdb.C92_tie_first`, `Hdb.C92_tie_not_smallest`, `Hdb.C93_total_margin`, `Hdb.C93_axis`, `Hdb.C93_axis_partial`, `Hdb.C93_remeasured`, `Io.C94_program_tolerance`, `Io.C95_program_constraints`, `Io.C96_program_motion`, `Conc.C97_instances`, `Conc.C97_search`, `Io.C98_saves`, `Io.C98_panics`, `Io.C98_hangs`, `C99_schedules_free`, `C99_schedules_partial`, `C99_shapes_partial`, `Plane.C99_refuted`, `C100_identifiers`, `Engine.C100_run_partial`, `Io.C100_file_partial`, `Io.C100_file`, `codeHeur_blind`, `Plane.C100_refuted`, `C101_identifiers`, `C101_rounds`, `C101_class_identifiers`, `C101_class_rounds`, `C102_pass_partial`, `C102_run_partial`, `C102_plane_partial`, `C102_plain_partial`, `C102_refuted`, `C103_loop`, `C103_run`, `C104_constraints_partial`, `C104_relations_partial`, `C104_refuted_merge`, `C104_refuted_side`, `C105_alone`, `C105_others`, `C105_no_junctions`, `C105_recursive`, `Plane.C105_option_needed`, `C106_thresholds_partial`, `C106_refuted_fixed`, `ConstrainedDP.nested`, `C107_run`, `C107_alike`, `SimplifySpec.unique`, `Planar.C108_similar_partial`, `Planar.C108_shift`, `Planar.C108_exact`, `C108_refuted`, `Planar.ExactRun.fixed`, `Planar.ExactRun.verdict`, `Planar.Moved.verdict`, `Planar.Moved.score`, `Homotopy.homotopy_pair`, `Planar.C109_reversal_partial`, `Planar.C109_exact`, `C109_refuted`, `C109_refuted_merge`, `C109_refuted_direction`, `ConstrainedDP.mirror`, `Planar.Reversed.verdict`, `Planar.Reversed.score`, `Planar.Reversed.crossed`, `Planar.Reversed.revisited`, `Planar.C110_again_partial`, `Planar.C110_concrete`, `C110_refuted`, `ConstrainedDP.select`, `Planar.Through.scores`, `Planar.Through.fits`, `Planar.ExactRun.rejected`, `MergeSpec.again`, `Planar.noSpikes_of_increasing`, `C111_line_partial`, `C111_tolerant_partial`, `C111_class_partial`, `Engine.C111_run_partial`, `Planar.C111_plane_partial`, `Axis.C111_refuted`, `Axis.C111_case`, `verdicts_reach`, `validate_unmistakable`, `Planar.C112_line`, `Planar.C112_feature_class`, `Engine.respects_rough`, `Io.C112_program`, `Planar.RoughSetting.judged`, `Hdb.contextNeighbours_rough`, `C32_validate_rough`, `Planar.C113_line`, `Planar.C113_feature_class`, `Engine.respects_blurred`, `Io.C113_program`, `Planar.BlurredSetting.judged`, `Planar.C114_polygon`, `Planar.Drawn.blurred`, `Planar.C114_line`, `Planar.C114_feature_class`, `Io.C114_program`, `Planar.box_real`, `Io.C115_program`, `C115_split_inside`, `Engine.synchronised_rounds`, `Arith.Signs.hypot`, `sed_finite`, `Planar.C116_line`, `Planar.C116_feature_class`, `Io.C116_program`, `Planar.hull_near_line`, `Planar.Blunt.hull_shape`, `Planar.BluntSetting.flat`, `Planar.Blurred.blunt`, `Io.C117_program`, `Io.C117_program_class_partial`, `Engine.meetings`, `Engine.class_meetings`, `Planar.met_itself`, `Io.program_parts`, `Planar.C118_kept_partial`, `Planar.C118_class_partial`, `Io.C118_program_partial`, `Io.C118_program_class_partial`, `Plane.C118_refuted`, `Plane.C118_off_refuted`, `Io.C119_settings`, `Io.C119_rejected`, `Io.C119_order`, `Io.C119_others`, `Io.C119_round_trip`, `Io.C119_reads`, `Io.C119_program`, `Planar.C120_run`, `Io.C120_program`, `Io.C120_function`, `Planar.Procedure.unique`, `Homotopy.homotopy_pull`, `Io.C121_program`, `Io.C121_moved`, `Io.C121_reach`, `Io.C121_order`, `Planar.C122_run`, `Io.C122_program`, `Planar.Follows.procedure`, `Planar.C123_run`, `Io.C123_program`, `Io.C123_sed`, `Planar.ProcedureBy.unique`, `Planar.procedureBy_offsetOf`, `Io.C124_program`, `Io.C124_drifting`, `Io.C124_clock`, `Io.C124_drift`, `Io.C124_reach`, `Io.C124_order`, `Io.SedProgram.prescribed`, `Io.C125_program`, `Planar.C125_run`, `C125_computed`, `Engine.roundedMotion`, `Planar.C126_run`, `Planar.C126_motion`, `Engine.roundedSelf`, `Engine.roundedMotionSelf`, `Io.C126_program`, `Io.C126_sed`, `Planar.C127_procedure`, `Planar.C127_motionProcedure`, `Io.C127_prescribed`, `Io.C127_prescribedStops`, `Io.C127_program`, `Io.C127_sed`, `Planar.C128_procedure`, `Planar.C128_motionProcedure`, `Planar.drawing_line`, `Planar.drawing_hull`, `Io.C128_prescribed`, `Io.C128_prescribedStops`, `Io.C128_program`, `Io.C128_sed`, `Planar.C129_procedure`, `Io.C129_prescribed`, `Io.C129_program`, `Io.C130_program`, `Io.C130_sed`, `Planar.C131_general`, `Io.C131_prescribed`, `Io.C131_prescribedStops`, `Io.C131_program`, `Io.C131_sed`, `C132_unmerged`, `Axis.fiveRun3_case`
* no axioms: `C02_contiguous_comm`, `C02_contiguous_degenerate`, `Text.C44_never_success`, `Text.C44_readWKT`, `Io.C53_meaning`
* `Quot.sound`, `propext`: `C02_equals_iff`, `C03_maxOffset`, `C03_maxOffset_none`, `C03_maxOffset_short`, `C04_decompose_short`, `C26_geom_iff`, `C27_dist_iff`, `C28_keeps_distance_partial`, `C51_selected_partial`, `C57_blocked`, `C57_contiguous`, `Conc.C36_terminates`, `Conc.C37_terminates`, `Conc.C38_chunks`, `Io.C41_parse`, `Io.C41_null_geometry`, `Io.C42_dimension`, `Text.C43_lines`, `Text.C43_last_newline`, `Text.C44_terminated_partial`, `Text.C44_delivered`, `Text.C44_geometries`, `Queue.C45_deque_partial`, `Queue.C45_locked`, `Io.C52_parsed`, `Io.C52_rejected`, `Io.C52_bad_entry`, `Text.C54_round_trip`, `Text.C54_accepted`, `Io.C54_file_or_base64`, `Io.C54_text`, `C47_never_completes`, `C47_refuted`, `Io.C62_read_partial`, `Io.C62_shapes_partial`, `Io.C62_program_partial`, `Io.C62_panics_iff`, `Io.C62_null_geometry`, `C67_refuted`, `C71_dp`, `C71_simplify`, `C71_featureClass`, `Io.C83_survives`, `Io.C84_geometries`, `Io.C84_rejected`, `Io.C84_order`, `Io.C84_input`, `Io.C84_input_order`, `Conc.C97_no_workers`, `Io.C98_exit1`, `MergeSpec.fixed_stays`, `Hdb.WF.bbox_le_iff`
* `propext`: `Hdb.C17_intersects_iff`, `C28_refuted`, `C24_refuted`, `C57_segments`, `Io.C42_coords`, `Queue.C45_refuted`, `Queue.C45_reader_refuted`, `Io.C53_options`, `Sel.C58_refuted`, `Io.C62_collection_dropped`, `ConstrainedDP.nested_free`, `MergeSpec.unique`, `MergeSpec.ends`, `MergeSpec.nothing`
