{
 "claims": [
  {
   "property": "C01",
   "status": "proved",
   "theorems": [
    "Verif.C01_split_cover",
    "Verif.C01_split_empty"
   ],
   "note": ""
  },
  {
   "property": "C02",
   "status": "proved",
   "theorems": [
    "Verif.C02_contiguous_iff",
    "Verif.C02_contiguous_comm",
    "Verif.C02_merge_union",
    "Verif.C02_merge_mem",
    "Verif.C02_equals_iff",
    "Verif.C02_contiguous_degenerate"
   ],
   "note": ""
  },
  {
   "property": "C03",
   "status": "proved",
   "theorems": [
    "Verif.C03_maxOffset",
    "Verif.C03_maxOffset_none",
    "Verif.C03_maxOffset_short"
   ],
   "note": ""
  },
  {
   "property": "C04",
   "status": "proved",
   "theorems": [
    "Verif.C04_decompose_cover",
    "Verif.C04_decompose_short"
   ],
   "note": ""
  },
  {
   "property": "C05",
   "status": "proved",
   "theorems": [
    "Verif.C05_decompose_terminates",
    "Verif.C05_maxOffset_terminates"
   ],
   "note": ""
  },
  {
   "property": "C06",
   "status": "partial",
   "theorems": [
    "Verif.C06_negative_threshold_diverges"
   ],
   "note": "refuted: the decomposition diverges for every polyline when the threshold is negative or NaN"
  },
  {
   "property": "C07",
   "status": "proved",
   "theorems": [
    "Verif.C07_piece_tolerance",
    "Verif.C07_real_tolerance",
    "Verif.C07_real_tolerance_square",
    "Verif.C07_simplify_tolerance"
   ],
   "note": ""
  },
  {
   "property": "C08",
   "status": "proved",
   "theorems": [
    "Verif.C08_simple"
   ],
   "note": ""
  },
  {
   "property": "C16",
   "status": "proved",
   "theorems": [
    "Verif.Hdb.C16_contents",
    "Verif.Hdb.C22_codeHeur_legal"
   ],
   "note": "for every history and every legal heuristics; C22_codeHeur_legal shows the heuristics in the code are legal"
  },
  {
   "property": "C17",
   "status": "proved",
   "theorems": [
    "Verif.Hdb.C17_search",
    "Verif.Hdb.C17_intersects_iff"
   ],
   "note": ""
  },
  {
   "property": "C18",
   "status": "partial",
   "theorems": [
    "Verif.Hdb.C18_knn_partial",
    "Verif.Hdb.C18_knn_tolerant_partial",
    "Verif.Hdb.C18_knn_band",
    "Verif.Axis.C18_refuted"
   ],
   "note": "exact for a queue popping a minimum, C18_knn_partial; the code compares distances with a tolerance, for which C18_refuted shows a search that misses an item within the bound and C18_knn_tolerant_partial says which items can be missed and C18_knn_band that none is when no stored item lies in the band of the tolerance"
  },
  {
   "property": "C19",
   "status": "proved",
   "theorems": [
    "Verif.Hdb.C19_remove"
   ],
   "note": ""
  },
  {
   "property": "C20",
   "status": "proved",
   "theorems": [
    "Verif.Hdb.C20_structure"
   ],
   "note": ""
  },
  {
   "property": "C21",
   "status": "proved",
   "theorems": [
    "Verif.Hdb.C21_collides"
   ],
   "note": ""
  },
  {
   "property": "C22",
   "status": "partial",
   "theorems": [
    "Verif.Sel.C22_selectBox",
    "Verif.Sel.C22_selectBox_window",
    "Verif.Sel.C22_multiSelect",
    "Verif.Hdb.C22_codeHeur_legal",
    "Verif.Sel.C22_partition_partial",
    "Verif.Sel.C22_refuted"
   ],
   "note": "rearrangement, termination, no index outside the slice: for all inputs, also with the sampling window of the code over the reals; partition: proved for ranges of at most 600, refuted above that (the window is computed from the bounds of the call, not of the round)"
  },
  {
   "property": "C26",
   "status": "proved",
   "theorems": [
    "Verif.C26_geom_iff"
   ],
   "note": ""
  },
  {
   "property": "C27",
   "status": "proved",
   "theorems": [
    "Verif.C27_dist_iff"
   ],
   "note": ""
  },
  {
   "property": "C28",
   "status": "partial",
   "theorems": [
    "Verif.C28_refuted",
    "Verif.C28_keeps_distance_partial"
   ],
   "note": "refuted: when the original piece already is nearer than the minimum distance the relation accepts any simplification; C28_keeps_distance_partial is the part that holds"
  },
  {
   "property": "C29",
   "status": "proved",
   "theorems": [
    "Verif.C29_terminates",
    "Verif.C29_accept_sound",
    "Verif.C29_reject_stuck",
    "Verif.C29_piece"
   ],
   "note": ""
  },
  {
   "property": "C32",
   "status": "proved",
   "theorems": [
    "Verif.C32_relations",
    "Verif.C32_validate",
    "Verif.C32_validate_tolerant",
    "Verif.C32_negative_accepts"
   ],
   "note": "the statement is about the constraints within the minimum distance, C32_relations; C32_validate and C32_validate_tolerant are about the constraints found by the search, with a queue that pops a minimum and with a queue that compares with a tolerance"
  },
  {
   "property": "C23",
   "status": "partial",
   "theorems": [
    "Verif.C23_planar_partial",
    "Verif.C23_last_never_reported",
    "Verif.C23_refuted"
   ],
   "note": "refuted: the last group of coincident vertices in sort order is never reported; C23_planar_partial is exact for all other groups"
  },
  {
   "property": "C24",
   "status": "partial",
   "theorems": [
    "Verif.C24_junctions_partial",
    "Verif.C24_feature_partial",
    "Verif.C24_last_never_reported",
    "Verif.C24_refuted"
   ],
   "note": "refuted: the last group of coincident vertices in sort order is never reported; C24_junctions_partial is exact for all other groups"
  },
  {
   "property": "C25",
   "status": "proved",
   "theorems": [
    "Verif.C25_nonplanar",
    "Verif.C25_ends"
   ],
   "note": ""
  },
  {
   "property": "C09",
   "status": "proved",
   "theorems": [
    "Verif.C09_subsequence",
    "Verif.KeptIndices.sublist"
   ],
   "note": ""
  },
  {
   "property": "C10",
   "status": "proved",
   "theorems": [
    "Verif.C10_terminates",
    "Verif.C10_never_panics"
   ],
   "note": "termination for all inputs whose geometric predicates meet EnvOK/InstOK (score function splits inside the range, see C11 for the exception)"
  },
  {
   "property": "C12",
   "status": "proved",
   "theorems": [
    "Verif.C12_survive",
    "Verif.C12_coincident"
   ],
   "note": "assumes that the tolerance of the priority queue is smaller than EpsilonDist; vertices of reported self-intersections; which ones are reported is C23/C25"
  },
  {
   "property": "C30",
   "status": "partial",
   "theorems": [
    "Verif.C30_context_partial",
    "Verif.C30_feature_class_partial",
    "Verif.Axis.C30_refuted"
   ],
   "note": "proved for a minimum distance that exceeds the tolerance of the priority queue, with distances up to that tolerance, which is nothing for a queue that pops a minimum; refuted for a smaller minimum distance, C30_refuted: the search passes over a constraint"
  },
  {
   "property": "C48",
   "status": "proved",
   "theorems": [
    "Verif.C48_coords",
    "Verif.C48_merged"
   ],
   "note": ""
  },
  {
   "property": "C31",
   "status": "partial",
   "theorems": [
    "Verif.C31_refuted",
    "Verif.C30_context_partial"
   ],
   "note": "refuted: pieces whose hull is a segment are never checked against the constraints; C30_context_partial is what holds for the other pieces"
  },
  {
   "property": "C33",
   "status": "partial",
   "theorems": [
    "Verif.C33_crossing_partial",
    "Verif.C33_refuted"
   ],
   "note": "holds between output segments that replace more than one segment and have a hull of more than two corners; refuted in general by a spike whose parts are single segments, which are not examined"
  },
  {
   "property": "C34",
   "status": "partial",
   "theorems": [
    "Verif.C34_step_partial",
    "Verif.C34_pass",
    "Verif.C34_refuted"
   ],
   "note": "refuted for the constraint checks of a merge (the rejected successor is missing from the index); the union, range and contents parts hold"
  },
  {
   "property": "C35",
   "status": "partial",
   "theorems": [
    "Verif.C35_tolerance_partial",
    "Verif.C35_refuted"
   ],
   "note": "refuted: pieces split because of a constraint are accepted whatever their score; holds when all constraint switches are off"
  },
  {
   "property": "C49",
   "status": "proved",
   "theorems": [
    "Verif.C49_no_panic",
    "Verif.C49_cacheKey"
   ],
   "note": ""
  },
  {
   "property": "C51",
   "status": "partial",
   "theorems": [
    "Verif.C51_selected_partial",
    "Verif.C51_refuted"
   ],
   "note": "refuted: the selection is keyed by index range only, so pieces of different features with equal ranges overwrite each other"
  },
  {
   "property": "C56",
   "status": "proved",
   "theorems": [
    "Verif.C56_contiguous",
    "Verif.C56_symmetric"
   ],
   "note": ""
  },
  {
   "property": "C57",
   "status": "proved",
   "theorems": [
    "Verif.C57_only_neighbours",
    "Verif.C57_segments",
    "Verif.C57_blocked",
    "Verif.C57_contiguous",
    "Verif.C57_noncontiguous"
   ],
   "note": ""
  },
  {
   "property": "C11",
   "status": "partial",
   "theorems": [
    "Verif.C11_refuted",
    "Verif.C11_unconstrained_partial",
    "Verif.C11_usable_partial"
   ],
   "note": "refuted: with no usable times the split of a piece is the piece itself and a single vertex, so a violated constraint is never resolved; holds without constraints and for distances that are numbers"
  },
  {
   "property": "C13",
   "status": "proved",
   "theorems": [
    "Verif.C13_survive",
    "Verif.C13_shared"
   ],
   "note": "assumes that the tolerance of the priority queue is smaller than EpsilonDist"
  },
  {
   "property": "C14",
   "status": "proved",
   "theorems": [
    "Verif.C14_not_mixed"
   ],
   "note": ""
  },
  {
   "property": "C15",
   "status": "proved",
   "theorems": [
    "Verif.C15_terminates",
    "Verif.C15_never_panics"
   ],
   "note": ""
  },
  {
   "property": "C36",
   "status": "proved",
   "theorems": [
    "Verif.Conc.C36_never_crashes",
    "Verif.Conc.C36_no_deadlock",
    "Verif.Conc.C36_terminates",
    "Verif.Conc.C36_returns",
    "Verif.Conc.C36_completes",
    "Verif.Conc.C36_exactly_once",
    "Verif.Conc.C36_at_most_once",
    "Verif.Conc.C36_independent"
   ],
   "note": "state machine with one step per goroutine transition; a job takes finitely many identifiers (C10)"
  },
  {
   "property": "C37",
   "status": "proved",
   "theorems": [
    "Verif.Conc.C37_never_crashes",
    "Verif.Conc.C37_no_deadlock",
    "Verif.Conc.C37_terminates",
    "Verif.Conc.C37_returns",
    "Verif.Conc.C37_completes",
    "Verif.Conc.C37_results",
    "Verif.Conc.C37_schedule"
   ],
   "note": ""
  },
  {
   "property": "C38",
   "status": "proved",
   "theorems": [
    "Verif.Conc.C38_chunks"
   ],
   "note": ""
  },
  {
   "property": "C39",
   "status": "proved",
   "theorems": [
    "Verif.Conc.C39_unique",
    "Verif.Conc.C39_streams"
   ],
   "note": "the identifier source itself (external iter.Igen) is assumed to hand out successive values atomically"
  },
  {
   "property": "C40",
   "status": "proved",
   "theorems": [
    "Verif.Text.C40_round_trip",
    "Verif.Text.C40_injective"
   ],
   "note": ""
  },
  {
   "property": "C41",
   "status": "partial",
   "theorems": [
    "Verif.Io.C41_features_partial",
    "Verif.Io.C41_ordered_partial",
    "Verif.Io.C41_crash",
    "Verif.Io.C41_gap_crash",
    "Verif.Io.C41_parse",
    "Verif.Io.C41_null_geometry",
    "Verif.Io.C41_refuted"
   ],
   "note": "refuted: a document without line geometry before one with line geometry makes the writer panic, a null geometry makes the reader panic; proved when every document has line geometry"
  },
  {
   "property": "C42",
   "status": "proved",
   "theorems": [
    "Verif.Io.C42_coords",
    "Verif.Io.C42_dimension"
   ],
   "note": ""
  },
  {
   "property": "C43",
   "status": "proved",
   "theorems": [
    "Verif.Text.C43_lines",
    "Verif.Text.C43_last_newline"
   ],
   "note": ""
  },
  {
   "property": "C44",
   "status": "partial",
   "theorems": [
    "Verif.Text.C44_terminated_partial",
    "Verif.Text.C44_delivered",
    "Verif.Text.C44_refuted",
    "Verif.Text.C44_never_success",
    "Verif.Text.C44_readWKT",
    "Verif.Text.C44_readWKT_refuted",
    "Verif.Text.C44_geometries"
   ],
   "note": "refuted: a last line without newline is dropped and the reader always returns an error; proved for terminated last lines"
  },
  {
   "property": "C45",
   "status": "partial",
   "theorems": [
    "Verif.Queue.C45_deque_partial",
    "Verif.Queue.C45_locked",
    "Verif.Queue.C45_refuted",
    "Verif.Queue.C45_reader_refuted"
   ],
   "note": "refuted: Pop, PopLeft, First and Last on an empty queue panic while holding the lock; proved for all sequences that never take from an empty queue"
  },
  {
   "property": "C46",
   "status": "proved",
   "theorems": [
    "Verif.Io.C46_exit13",
    "Verif.Io.C46_saved"
   ],
   "note": ""
  },
  {
   "property": "C52",
   "status": "proved",
   "theorems": [
    "Verif.Io.C52_parsed",
    "Verif.Io.C52_rejected",
    "Verif.Io.C52_bad_entry"
   ],
   "note": ""
  },
  {
   "property": "C53",
   "status": "proved",
   "theorems": [
    "Verif.Io.C53_options",
    "Verif.Io.C53_meaning"
   ],
   "note": ""
  },
  {
   "property": "C54",
   "status": "proved",
   "theorems": [
    "Verif.Text.C54_round_trip",
    "Verif.Text.C54_accepted",
    "Verif.Io.C54_file_or_base64",
    "Verif.Io.C54_text"
   ],
   "note": ""
  },
  {
   "property": "C59",
   "status": "partial",
   "theorems": [
    "Verif.Io.C59_refuted",
    "Verif.Io.C41_features_partial"
   ],
   "note": "refuted for feature collections: the features of one document are merged into one output feature with the properties of the first; proved (C41_features_partial) for documents holding one feature"
  },
  {
   "property": "C47",
   "status": "partial",
   "theorems": [
    "Verif.C47_never_completes",
    "Verif.C47_refuted",
    "Verif.C47_completes_partial"
   ],
   "note": "refuted: such a run never completes, it panics; proved that runs of usable lines complete"
  },
  {
   "property": "C60",
   "status": "proved",
   "theorems": [
    "Verif.Io.C60_program"
   ],
   "note": "with the assumptions about libraries and lines collected in Engine.OK; concrete case Axis.prog_case"
  },
  {
   "property": "C58",
   "status": "partial",
   "theorems": [
    "Verif.Sel.C58_groups_partial",
    "Verif.Sel.C58_refuted"
   ],
   "note": "holds on ranges of at most 600 except for a last group of one item, which is never separated; refuted by five items in groups of two"
  },
  {
   "property": "C50",
   "status": "proved",
   "theorems": [
    "Verif.C50_merge_by_size",
    "Verif.Axis.fiveRun_case"
   ],
   "note": "index and list hold the same pieces of one polyline"
  },
  {
   "property": "C61",
   "status": "proved",
   "theorems": [
    "Verif.C61_no_mergeable_pair"
   ],
   "note": "index and list hold the same pieces of one polyline"
  },
  {
   "property": "C62",
   "status": "partial",
   "theorems": [
    "Verif.Io.C62_read_partial",
    "Verif.Io.C62_shapes_partial",
    "Verif.Io.C62_program_partial",
    "Verif.C62_indexed",
    "Verif.Io.C62_panics_iff",
    "Verif.Io.C62_null_geometry",
    "Verif.Io.C62_collection_dropped"
   ],
   "note": "refuted: a feature with null geometry makes the reader panic, and geometry collections are dropped; proved for files in which every feature has a geometry, where collections count as having no shapes. The conversion of coordinate arrays to geometry values is outside /repo"
  },
  {
   "property": "C55",
   "status": "partial",
   "theorems": [
    "Verif.C55_schedules",
    "Verif.C55_shapes_partial",
    "Verif.Axis.C55_shape_refuted"
   ],
   "note": "schedules and map iteration orders: proved for every queue, C55_schedules; shape of the index: proved for a queue that pops a minimum, C55_shapes_partial; refuted for a queue that compares with a tolerance like hdb/kobj.go, C55_shape_refuted"
  },
  {
   "property": "C63",
   "status": "proved",
   "theorems": [
    "Verif.C63_decompose_recursive",
    "Verif.C63_recursive_total"
   ],
   "note": "the recursive procedure is Spec/Recursive RecDP"
  },
  {
   "property": "C64",
   "status": "proved",
   "theorems": [
    "Verif.C64_nested",
    "Verif.C64_nested_square"
   ],
   "note": "dp.Simplify; for ConstDP.Simplify see C66"
  },
  {
   "property": "C65",
   "status": "proved",
   "theorems": [
    "Verif.C65_idempotent",
    "Verif.C65_idempotent_sed"
   ],
   "note": "dp.Simplify; for ConstDP.Simplify see C66"
  },
  {
   "property": "C66",
   "status": "partial",
   "theorems": [
    "Verif.C66_within_partial",
    "Verif.C66_refuted_threshold",
    "Verif.C66_refuted_twice"
   ],
   "note": "proved: only vertices kept by dp.Simplify at the same or a smaller threshold; refuted: the merge pass makes a larger threshold keep more vertices on one line, and a second run remove vertices on another"
  },
  {
   "property": "C67",
   "status": "partial",
   "theorems": [
    "Verif.C67_accept_partial",
    "Verif.C67_refuted"
   ],
   "note": "proved when no disjoint geometry meets any triangle of three vertices in order; refuted by a Z-shaped sub-line between two points, where a vertex has to be inserted"
  },
  {
   "property": "C68",
   "status": "proved",
   "theorems": [
    "Verif.Hdb.C68_limit",
    "Verif.Hdb.C68_nearest"
   ],
   "note": "a queue that compares with a tolerance may return others, see C18"
  },
  {
   "property": "C69",
   "status": "proved",
   "theorems": [
    "Verif.C69_simplify",
    "Verif.C69_featureClass"
   ],
   "note": "model of addresses: Model/Pointers.lean; the functional model compares identifiers"
  },
  {
   "property": "C70",
   "status": "proved",
   "theorems": [
    "Verif.C70_distance",
    "Verif.C70_zero_iff"
   ],
   "note": "arithmetic of the real numbers (Arith.Exact); equal times: C11"
  },
  {
   "property": "C71",
   "status": "proved",
   "theorems": [
    "Verif.C71_dp",
    "Verif.C71_simplify",
    "Verif.C71_featureClass"
   ],
   "note": "hypothesis Squares, proved for both distances of the code over the reals: squares_segDist, squares_sed; it fails for negative thresholds, C71_negative"
  },
  {
   "property": "C72",
   "status": "proved",
   "theorems": [
    "Verif.Hdb.Mem.C72_memory_tree",
    "Verif.Hdb.Mem.C72_memory_reads"
   ],
   "note": "the heuristics (choice of child, order after sorting, split position, order of bulk loading) are those of C16, given by boxes; the growth of append is a parameter; the neighbour search is not repeated at this level"
  },
  {
   "property": "C73",
   "status": "proved",
   "theorems": [
    "Verif.Planar.C73_sidedness"
   ],
   "note": "hypothesis Planar.Exact (exact library), met by Demo/Exact.lean exactLib; deformation = continuous map of the square, Spec/Planar.lean Deforms; the converse fails, C67"
  },
  {
   "property": "C74",
   "status": "proved",
   "theorems": [
    "Verif.Planar.C74_deformation",
    "Verif.Planar.C74_feature_class"
   ],
   "note": "hypotheses Planar.Setting: exact library, queue tolerance τ ≤ minimum distance m, index holds the constraints (C62); without τ ≤ m refuted by C30_refuted"
  },
  {
   "property": "C75",
   "status": "proved",
   "theorems": [
    "Verif.Planar.C75_whole_line",
    "Verif.Planar.C75_each_segment",
    "Verif.Planar.C74_feature_class"
   ],
   "note": "hypotheses as for C74; vertices on one straight line: the segment may be shorter than the part it replaces, so it may miss a constraint that part meets"
  },
  {
   "property": "C76",
   "status": "proved",
   "theorems": [
    "Verif.Planar.C76_meets_itself",
    "Verif.Planar.C76_shared"
   ],
   "note": "hypotheses Planar.Exact, Planar.ExactLnr, queue tolerance at most EpsilonDist; the exception at the place that sorts last is a defect of the code, C23, C24"
  },
  {
   "property": "C77",
   "status": "proved",
   "theorems": [
    "Verif.Planar.C77_no_new_crossing",
    "Verif.Planar.chords_meet",
    "Verif.Planar.Exact.crossLaws"
   ],
   "note": "hypotheses Planar.Exact, EpsilonDist not negative; the excepted case does occur, C33_refuted"
  },
  {
   "property": "C78",
   "status": "partial",
   "theorems": [
    "Verif.C78_crossing_partial",
    "Verif.Planar.C78_no_new_crossing_partial",
    "Verif.Plane.C78_refuted"
   ],
   "note": "false as stated: deform/cls.go keeps the selections of one search in a map keyed by the index range only, so of two conflicting pieces of different features with equal ranges one is lost (C78_refuted, four features, all geometric laws hold); proved when no piece has, among its neighbours and itself, pieces of different features with equal ranges (RangesApart)"
  },
  {
   "property": "C79",
   "status": "proved",
   "theorems": [
    "Verif.C79_simplify",
    "Verif.C79_constrained"
   ],
   "note": "distance = infDist to the segment in a real normed space (segDist, segDistSq of C07); with a constraint switched on the tolerance itself fails, C35"
  },
  {
   "property": "C80",
   "status": "proved",
   "theorems": [
    "Verif.C80_simplify",
    "Verif.C80_constrained"
   ],
   "note": "motion = line in the plane and time (Spec/Motion.lean); Arith.Exact as in C70; times that do not increase: C11"
  },
  {
   "property": "C81",
   "status": "partial",
   "theorems": [
    "Verif.C81_sed",
    "Verif.C81_sed_constrained",
    "Verif.C81_simplify_partial",
    "Verif.C81_constrained_partial",
    "Verif.C81_refuted"
   ],
   "note": "holds for the synchronised score; false for the distance to the chord: the line 0, D, 0, D lies on its chord, is replaced by one segment and is at Fréchet distance at least D/2 (C81_refuted, any tolerance, any bound); proved when no replaced part turns back with respect to its segment (Onward)"
  },
  {
   "property": "C82",
   "status": "proved",
   "theorems": [
    "Verif.C82_closed",
    "Verif.C82_extent"
   ],
   "note": "exact distances as in C79; a ring may so become two equal vertices"
  },
  {
   "property": "C83",
   "status": "proved",
   "theorems": [
    "Verif.Io.C83_round_trip",
    "Verif.Io.C83_cut",
    "Verif.Io.C83_failed",
    "Verif.Io.C83_survives"
   ],
   "note": "hypothesis Codec on the text of a line (WKT text of the geometry library); characters stand for bytes; the error of the reader is never nil, C44"
  },
  {
   "property": "C84",
   "status": "proved",
   "theorems": [
    "Verif.Io.C84_geometries",
    "Verif.Io.C84_rejected",
    "Verif.Io.C84_order",
    "Verif.Io.C84_input",
    "Verif.Io.C84_input_order"
   ],
   "note": "decoding TOML and the constructors of the geometry library are parameters; these functions are not called by main.go"
  },
  {
   "property": "C85",
   "status": "proved",
   "theorems": [
    "Verif.Idx.C85_reads",
    "Verif.Idx.C85_unwritten",
    "Verif.Idx.C85_no_panic",
    "Verif.Idx.C85_apart"
   ],
   "note": "library functions called with coordinates are taken not to write to Idxs; Coords.Slice is taken to share the array with its capacity (the worst case)"
  },
  {
   "property": "C86",
   "status": "proved",
   "theorems": [
    "Verif.C86_simplify",
    "Verif.C86_feature_class",
    "Verif.C86_forward",
    "Verif.C86_feature_class_forward",
    "Verif.C86_factor",
    "Verif.C86_back"
   ],
   "note": "exact distances as in C79; every piece lies in a range that was accepted by the score"
  },
  {
   "property": "C87",
   "status": "proved",
   "theorems": [
    "Verif.C87_simplify",
    "Verif.C87_feature_class"
   ],
   "note": "exact arithmetic as in C80"
  },
  {
   "property": "C88",
   "status": "proved",
   "theorems": [
    "Verif.C88_score",
    "Verif.C88_simplify",
    "Verif.C88_constrained",
    "Verif.C88_feature_class"
   ],
   "note": "Arith.Rounds is the standard model of rounding with underflow below and overflow above limits; that Go's float64 and math library satisfy it (with k a few units in the last place) is an assumption; exact arithmetic is the case k = n = 0"
  },
  {
   "property": "C89",
   "status": "proved",
   "theorems": [
    "Verif.C89_simplify",
    "Verif.C89_constrained",
    "Verif.C89_feature_class",
    "Verif.C89_unconstrained",
    "Verif.C89_forward"
   ],
   "note": "hypothesis ErrorLe on the distance functions of the library (external); exact distances are d = 0"
  },
  {
   "property": "C90",
   "status": "proved",
   "theorems": [
    "Verif.Piece.C90_stored",
    "Verif.Piece.C90_index",
    "Verif.Piece.C90_slices",
    "Verif.Piece.C90_line",
    "Verif.Piece.C90_gathered",
    "Verif.Piece.C90_joint"
   ],
   "note": "which pieces are computed and removed is left open (every choice is a step); values of pieces are opaque"
  },
  {
   "property": "C91",
   "status": "partial",
   "theorems": [
    "Verif.Hdb.C91_choose_partial",
    "Verif.Hdb.C91_plane_partial",
    "Verif.Hdb.C91_contained_passed_over",
    "Verif.Hdb.C91_tie_not_smallest"
   ],
   "note": "false: hdb/insert.go:103-105 compares the areas of the enlarged boxes without subtracting the areas before, so an item inside one child is put into another that must grow (C91_contained_passed_over); the tie rule compares with the area of a child dropped before (C91_tie_not_smallest); proved: least enlarged area up to the tolerance, and what follows for growth and for ties"
  },
  {
   "property": "C92",
   "status": "partial",
   "theorems": [
    "Verif.Hdb.C92_least_overlap",
    "Verif.Hdb.C92_tie_partial",
    "Verif.Hdb.C92_tie_first",
    "Verif.Hdb.C92_tie_not_smallest"
   ],
   "note": "least overlap proved (areas as Lebesgue measures); the tie rule is false: minArea may still hold the area of a position with more overlap (C92_tie_not_smallest, bucket size 9); proved except for that case (C92_tie_partial)"
  },
  {
   "property": "C93",
   "status": "partial",
   "theorems": [
    "Verif.Hdb.C93_total_margin",
    "Verif.Hdb.C93_axis",
    "Verif.Hdb.C93_axis_partial",
    "Verif.Hdb.C93_remeasured"
   ],
   "note": "sums and axis proved; the last part is false when entries have equal lower x sides, because they are sorted along x again out of the order along y (C93_remeasured); proved for distinct lower sides (C93_axis_partial)"
  },
  {
   "property": "C94",
   "status": "proved",
   "theorems": [
    "Verif.Io.C94_program_tolerance"
   ],
   "note": "the error of the computed distances is a parameter (C89)"
  },
  {
   "property": "C95",
   "status": "proved",
   "theorems": [
    "Verif.Io.C95_program_constraints"
   ],
   "note": "exact predicates are an assumption (Planar.Exact)"
  },
  {
   "property": "C96",
   "status": "proved",
   "theorems": [
    "Verif.Io.C96_program_motion"
   ],
   "note": "exact arithmetic; with rounding see C88"
  },
  {
   "property": "C97",
   "status": "proved",
   "theorems": [
    "Verif.Conc.C97_instances",
    "Verif.Conc.C97_no_workers",
    "Verif.Conc.C97_search"
   ],
   "note": "what a worker touches is an assumption of the model: its own instance, and common memory read-only (Model/Race)"
  },
  {
   "property": "C98",
   "status": "proved",
   "theorems": [
    "Verif.Io.C98_saves",
    "Verif.Io.C98_panics",
    "Verif.Io.C98_hangs",
    "Verif.Io.C98_exit1"
   ],
   "note": "libraries as in Engine.Sane (both scores of the form of maxOffset with usable distances); exit code 13 is C46"
  },
  {
   "property": "C99",
   "status": "partial",
   "theorems": [
    "Verif.C99_schedules_free",
    "Verif.C99_schedules_partial",
    "Verif.C99_shapes_partial",
    "Verif.Plane.C99_refuted"
   ],
   "note": "violated when new self-intersections are to be avoided: the selection is keyed by the index range alone, so the order of the index, which comes from an earlier map order, decides which of two conflicting pieces of different features is split (C99_refuted).  Proved: without that option for all map orders and schedules; with it when no piece has neighbours of different features with the same index range; with an exact queue also for all index shapes and identifiers"
  },
  {
   "property": "C100",
   "status": "partial",
   "theorems": [
    "Verif.C100_identifiers",
    "Verif.Engine.C100_run_partial",
    "Verif.Io.C100_file_partial",
    "Verif.Io.C100_file",
    "Verif.codeHeur_blind",
    "Verif.Plane.C100_refuted"
   ],
   "note": "violated for feature classes when new self-intersections are to be avoided (C100_refuted, two runs of the whole program that differ in map order only).  Proved in full for lines simplified one by one, and for feature classes without that option (C100_file); for all feature classes when no piece has neighbours of different features with the same index range (C100_file_partial).  C100_identifiers: one polyline, all identifier sequences, with the code's own index heuristics (codeHeur_blind)"
  },
  {
   "property": "C101",
   "status": "proved",
   "theorems": [
    "Verif.C101_identifiers",
    "Verif.C101_rounds",
    "Verif.C101_class_identifiers",
    "Verif.C101_class_rounds"
   ],
   "note": "the identifier bound is stated as: the result depends on that many first identifiers of the source alone.  The rounds are counted by a relation (Rounds) that reads the loop as written; the number is unique"
  },
  {
   "property": "C102",
   "status": "partial",
   "theorems": [
    "Verif.C102_pass_partial",
    "Verif.C102_run_partial",
    "Verif.C102_plane_partial",
    "Verif.C102_plain_partial",
    "Verif.C102_refuted"
   ],
   "note": "holds when the later of the two pieces is the single segment, or the earlier one is and the later one was there before the pass; fails when the later piece was made by the pass itself (C102_refuted): the earlier fragment had its turn and is not visited again.  Assumption: pieces sharing a vertex have boxes that intersect and a distance within EpsilonDist (Touching); derived for exact plane geometry"
  },
  {
   "property": "C103",
   "status": "proved",
   "theorems": [
    "Verif.C103_loop",
    "Verif.C103_run"
   ],
   "note": "the option to avoid new self-intersections is off; where self-intersections are kept, the pieces around fixed vertices are assumed to be found (Splittable, derived in C12 from assumptions on the hulls).  The recursive procedure is a function (ConstrainedDP.unique)"
  },
  {
   "property": "C104",
   "status": "partial",
   "theorems": [
    "Verif.C104_constraints_partial",
    "Verif.C104_relations_partial",
    "Verif.C104_refuted_merge",
    "Verif.C104_refuted_side"
   ],
   "note": "holds for the pieces before the merge pass, and for the result when no single segments are left for the merge pass: without the sidedness relation for more constraints (queue that pops in order), with all relations for more switches.  Fails in the merge pass (C104_refuted_merge), and with the sidedness relation a further constraint can make the verdict positive (C104_refuted_side).  The option to avoid new self-intersections is off in the partial theorems"
  },
  {
   "property": "C105",
   "status": "proved",
   "theorems": [
    "Verif.C105_alone",
    "Verif.C105_others",
    "Verif.C105_no_junctions",
    "Verif.C105_recursive",
    "Verif.Plane.C105_option_needed"
   ],
   "note": "the option to avoid new self-intersections is off for all features; with it the statement fails, as it should (Plane.C105_option_needed).  C105_recursive assumes Splittable as C103 does"
  },
  {
   "property": "C106",
   "status": "partial",
   "theorems": [
    "Verif.C106_thresholds_partial",
    "Verif.C106_refuted_fixed",
    "Verif.ConstrainedDP.nested",
    "Verif.ConstrainedDP.nested_free"
   ],
   "note": "holds before the merge pass without the option to avoid new self-intersections, if nothing is rejected or Douglas–Peucker keeps the fixed vertices anyway, and in the result if the merge pass finds no single segments; false with fixed vertices and rejected pieces (C106_refuted_fixed) and because of the merge pass (C66_refuted_threshold)"
  },
  {
   "property": "C107",
   "status": "proved",
   "theorems": [
    "Verif.C107_run",
    "Verif.C107_alike",
    "Verif.SimplifySpec.unique",
    "Verif.MergeSpec.unique",
    "Verif.MergeSpec.ends",
    "Verif.MergeSpec.fixed_stays"
   ],
   "note": "C107_run: the pieces of the result are the segments of SimplifySpec. C107_alike: lines judged alike keep the same vertices. Assumes that pieces sharing a vertex touch (Touching, proved for exact plane geometry in C102) and, with planarSelf, that fixed vertices lie near their own pieces (Splittable)."
  },
  {
   "property": "C108",
   "status": "partial",
   "theorems": [
    "Verif.Planar.C108_similar_partial",
    "Verif.Planar.C108_shift",
    "Verif.Planar.C108_exact",
    "Verif.C108_refuted",
    "Verif.Planar.ExactRun.fixed",
    "Verif.Planar.ExactRun.verdict",
    "Verif.Planar.Moved.verdict",
    "Verif.Planar.Moved.score",
    "Verif.Homotopy.homotopy_pair"
   ],
   "note": "Refuted: with planar self-intersections preserved, the repeated place that sorts last (greatest x, then y) is not found, so a half turn changes the kept vertices (C108_refuted). Proved: for all similarities when the repeated places found are the same, in particular without preserved self-intersections (C108_exact) and for shifts and positive scalings with any switches (C108_shift)."
  },
  {
   "property": "C109",
   "status": "partial",
   "theorems": [
    "Verif.Planar.C109_reversal_partial",
    "Verif.Planar.C109_exact",
    "Verif.C109_refuted",
    "Verif.C109_refuted_merge",
    "Verif.C109_refuted_direction",
    "Verif.ConstrainedDP.mirror",
    "Verif.Planar.Reversed.verdict",
    "Verif.Planar.Reversed.score",
    "Verif.Planar.Reversed.crossed",
    "Verif.Planar.Reversed.revisited",
    "Verif.MergeSpec.nothing"
   ],
   "note": "Refuted three times: of equally far vertices the last one is taken (C109_refuted); the merge pass of single segments goes from left to right (C109_refuted_merge, without ties); the sidedness test removes vertices in the order of the line (C109_refuted_direction). Proved without the direction relation and without ties: both runs keep only vertices of the same sequence of segments, and the same vertices when no single segment can be joined."
  },
  {
   "property": "C110",
   "status": "partial",
   "theorems": [
    "Verif.Planar.C110_again_partial",
    "Verif.Planar.C110_concrete",
    "Verif.C110_refuted",
    "Verif.ConstrainedDP.select",
    "Verif.Planar.Through.scores",
    "Verif.Planar.Through.fits",
    "Verif.Planar.ExactRun.rejected",
    "Verif.MergeSpec.again",
    "Verif.Planar.noSpikes_of_increasing"
   ],
   "note": "Refuted: in the second run every segment is single, so the merge pass tries pairs the first run did not (C110_refuted; without constraints C66). Proved in exact plane geometry, without the direction relation, for lines that do not run straight back, the same fixed vertices and a first run without merges: the second run changes something if and only if a single vertex of the simplified line can be taken out. Missing: first runs with merges."
  },
  {
   "property": "C111",
   "status": "partial",
   "theorems": [
    "Verif.C111_line_partial",
    "Verif.C111_tolerant_partial",
    "Verif.C111_class_partial",
    "Verif.Engine.C111_run_partial",
    "Verif.Planar.C111_plane_partial",
    "Verif.Axis.C111_refuted",
    "Verif.Axis.C111_case",
    "Verif.verdicts_reach",
    "Verif.validate_unmistakable"
   ],
   "note": "Refuted for the queue of the code, which compares distances with a tolerance: a constraint just out of reach can come out of the queue first and end the search (Axis.C111_refuted). Proved for a queue that pops in order (one line, a class, the simplification step of the program), and for the queue of the code when no constraint lies within the tolerance beyond the minimum distance. Assumed of the library: a box is never farther than a geometry inside it (proved for the exact plane). For a class also that no index ranges clash, see C99."
  },
  {
   "property": "C112",
   "status": "proved",
   "theorems": [
    "Verif.Planar.C112_line",
    "Verif.Planar.C112_feature_class",
    "Verif.Engine.respects_rough",
    "Verif.Io.C112_program",
    "Verif.Planar.RoughSetting.judged",
    "Verif.Hdb.contextNeighbours_rough",
    "Verif.C32_validate_rough"
   ],
   "note": "Distances may be wrong by up to e; Intersects, convex hulls, boxes and Equals2D are taken to be exact. With e = 0 this is C74/C75/C95."
  },
  {
   "property": "C113",
   "status": "proved",
   "theorems": [
    "Verif.Planar.C113_line",
    "Verif.Planar.C113_feature_class",
    "Verif.Engine.respects_blurred",
    "Verif.Io.C113_program",
    "Verif.Planar.BlurredSetting.judged"
   ],
   "note": "Convex hulls, boxes and Equals2D are still taken to be exact. With inner = outer = constraint and r = 0 this is C112."
  },
  {
   "property": "C114",
   "status": "proved",
   "theorems": [
    "Verif.Planar.C114_polygon",
    "Verif.Planar.Drawn.blurred",
    "Verif.Planar.C114_line",
    "Verif.Planar.C114_feature_class",
    "Verif.Io.C114_program",
    "Verif.Planar.box_real",
    "Verif.Hdb.WF.bbox_le_iff"
   ],
   "note": "Point literals {x, y} are a parameter of the model; polygons are filled, as geom.Polygon is."
  },
  {
   "property": "C115",
   "status": "proved",
   "theorems": [
    "Verif.Io.C115_program",
    "Verif.C115_split_inside",
    "Verif.Engine.synchronised_rounds",
    "Verif.Arith.Signs.hypot",
    "Verif.sed_finite"
   ],
   "note": "Rounding is a parameter: any arithmetic with relative error κ ≤ 1/64, absolute error η ≤ 1/64 below a limit Ω; the numbers for double precision are an example in C88."
  },
  {
   "property": "C116",
   "status": "proved",
   "theorems": [
    "Verif.Planar.C116_line",
    "Verif.Planar.C116_feature_class",
    "Verif.Io.C116_program",
    "Verif.Planar.hull_near_line",
    "Verif.Planar.Blunt.hull_shape",
    "Verif.Planar.BluntSetting.flat",
    "Verif.Planar.Blurred.blunt"
   ],
   "note": "C113 is the case σ = 0 (`Blurred.blunt`)."
  },
  {
   "property": "C117",
   "status": "partial",
   "theorems": [
    "Verif.Io.C117_program",
    "Verif.Io.C117_program_class_partial",
    "Verif.Engine.meetings",
    "Verif.Engine.class_meetings",
    "Verif.Planar.met_itself",
    "Verif.Io.program_parts"
   ],
   "note": "The kept vertices and the lines treated one by one are proved in full for the exact plane (`C117_program`). Crossings between lines of a feature class are proved when no sub-line is near sub-lines of two lines with the same index range (`HullsApart`, a condition on the input alone); without it the claim is false (`C78_refuted`)."
  },
  {
   "property": "C118",
   "status": "partial",
   "theorems": [
    "Verif.Planar.C118_kept_partial",
    "Verif.Planar.C118_class_partial",
    "Verif.Io.C118_program_partial",
    "Verif.Io.C118_program_class_partial",
    "Verif.Plane.C118_refuted",
    "Verif.Plane.C118_off_refuted"
   ],
   "note": "Proved for parts that are not straight, for a class under the condition of C117. The code does not examine single segments again: after a split because of a constraint a crossing can be lost, `C118_refuted`. The displacement is ignored unless `avoid_new_self_intersects` is on, whatever `non_planar_self` says, `C118_off_refuted`."
  },
  {
   "property": "C119",
   "status": "proved",
   "theorems": [
    "Verif.Io.C119_settings",
    "Verif.Io.C119_rejected",
    "Verif.Io.C119_order",
    "Verif.Io.C119_others",
    "Verif.Io.C119_round_trip",
    "Verif.Io.C119_reads",
    "Verif.Io.C119_program"
   ],
   "note": "The model begins with the members of the parsed text. Syntax, text escapes and number literals are those of `encoding/json` and not modelled."
  },
  {
   "property": "C120",
   "status": "proved",
   "theorems": [
    "Verif.Planar.C120_run",
    "Verif.Io.C120_program",
    "Verif.Io.C120_function",
    "Verif.Planar.Procedure.unique",
    "Verif.Homotopy.homotopy_pull"
   ],
   "note": "For simplification type dp, exact geometry and AvoidNewSelfIntersects off. The specification mentions no function of the model except the list operations `between` and `verticesAt`. Junctions and repeated places are those the code finds, that is, not at the place that sorts last (deviations C23, C24)."
  },
  {
   "property": "C121",
   "status": "proved",
   "theorems": [
    "Verif.Io.C121_program",
    "Verif.Io.C121_moved",
    "Verif.Io.C121_reach",
    "Verif.Io.C121_order"
   ],
   "note": "The condition on the order of places is necessary when self-intersections are kept, see `C108_refuted`."
  },
  {
   "property": "C122",
   "status": "proved",
   "theorems": [
    "Verif.Planar.C122_run",
    "Verif.Io.C122_program",
    "Verif.Planar.Follows.procedure"
   ],
   "note": "For simplification type dp without keeping self-intersections and with AvoidNewSelfIntersects off. The hulls are those of the exact geometry; the errors concern intersection tests, distances, boxes and offsets."
  },
  {
   "property": "C123",
   "status": "proved",
   "theorems": [
    "Verif.Planar.C123_run",
    "Verif.Io.C123_program",
    "Verif.Io.C123_sed",
    "Verif.Planar.ProcedureBy.unique",
    "Verif.Planar.procedureBy_offsetOf"
   ],
   "note": "For AvoidNewSelfIntersects off and strictly increasing times (with equal times the score is NaN or wrong, see C70). The specification differs from that of C120 in the offsets only (`procedureBy_offsetOf`)."
  },
  {
   "property": "C124",
   "status": "proved",
   "theorems": [
    "Verif.Io.C124_program",
    "Verif.Io.C124_drifting",
    "Verif.Io.C124_clock",
    "Verif.Io.C124_drift",
    "Verif.Io.C124_reach",
    "Verif.Io.C124_order",
    "Verif.Io.SedProgram.prescribed"
   ],
   "note": "For AvoidNewSelfIntersects off. The drift is only claimed without constraints: constraints do not drift, and the places visited twice are others."
  },
  {
   "property": "C125",
   "status": "proved",
   "theorems": [
    "Verif.Io.C125_program",
    "Verif.Planar.C125_run",
    "Verif.C125_computed",
    "Verif.Engine.roundedMotion"
   ],
   "note": "For self-intersections neither kept nor avoided. C125_computed is the step from the float operations of offset/sed.go to an error bound on each score; IEEE double with round to nearest meets the assumptions with κ about 1.2e-16 (C88)."
  },
  {
   "property": "C126",
   "status": "proved",
   "theorems": [
    "Verif.Planar.C126_run",
    "Verif.Planar.C126_motion",
    "Verif.Engine.roundedSelf",
    "Verif.Engine.roundedMotionSelf",
    "Verif.Io.C126_program",
    "Verif.Io.C126_sed"
   ],
   "note": "The places where segments meet are assumed to be computed exactly (ExactLnr); distances, relations and scores may have errors."
  },
  {
   "property": "C127",
   "status": "proved",
   "theorems": [
    "Verif.Planar.C127_procedure",
    "Verif.Planar.C127_motionProcedure",
    "Verif.Io.C127_prescribed",
    "Verif.Io.C127_prescribedStops",
    "Verif.Io.C127_program",
    "Verif.Io.C127_sed"
   ],
   "note": "Stated for exact libraries; together with C126 (whose programs save what Io.prescribed says) it also covers libraries with rounding errors. That the same vertices must be kept is a hypothesis: a place visited twice is lost under any error."
  },
  {
   "property": "C128",
   "status": "proved",
   "theorems": [
    "Verif.Planar.C128_procedure",
    "Verif.Planar.C128_motionProcedure",
    "Verif.Planar.drawing_line",
    "Verif.Planar.drawing_hull",
    "Verif.Io.C128_prescribed",
    "Verif.Io.C128_prescribedStops",
    "Verif.Io.C128_program",
    "Verif.Io.C128_sed"
   ],
   "note": "Polygons with holes or concave polygons are covered only through a rule of drawing for which the movement is bounded by that of the vertices (Drawing)."
  },
  {
   "property": "C129",
   "status": "proved",
   "theorems": [
    "Verif.Planar.C129_procedure",
    "Verif.Io.C129_prescribed",
    "Verif.Io.C129_program"
   ],
   "note": ""
  },
  {
   "property": "C130",
   "status": "proved",
   "theorems": [
    "Verif.Io.C130_program",
    "Verif.Io.C130_sed"
   ],
   "note": ""
  },
  {
   "property": "C131",
   "status": "proved",
   "theorems": [
    "Verif.Planar.C131_general",
    "Verif.Io.C131_prescribed",
    "Verif.Io.C131_prescribedStops",
    "Verif.Io.C131_program",
    "Verif.Io.C131_sed"
   ],
   "note": "Times are fixed and constraints are fixed; explicit bounds with moving times and constraints are in C128 and C129."
  },
  {
   "property": "C132",
   "status": "proved",
   "theorems": [
    "Verif.C132_unmerged",
    "Verif.Axis.fiveRun3_case"
   ],
   "note": "The record given by the caller is taken to be empty. A fragment all of whose neighbours were merged before its turn is not recorded by the code; the theorem does not ask for it."
  }
 ]
}