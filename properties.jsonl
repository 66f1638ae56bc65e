{"id": "C01", "title": "Splitting an index range loses and repeats nothing", "statement": "For every range [I,J] and every list of requested indices (unsorted, repeated, out of range allowed), Split returns the consecutive sub-ranges cut exactly at the requested indices that lie strictly between I and J: the first piece starts at I, the last ends at J, neighbours share one index, every piece has I<J, and if no requested index is interior the result is empty.", "quantifier": "all integer ranges and all integer lists", "why_tests_cant": "The input space (range x list of cut indices with duplicates and out-of-range values) is infinite; a table test fixes a few lists.", "anchors": ["rng/split.go:Rng.Split", "rng/rng.go:Range"]}
{"id": "C02", "title": "Contiguity and merging of ranges agree", "statement": "Two proper ranges are reported contiguous exactly when the end index of one is the start index of the other; contiguity is symmetric; and the merged range of two contiguous ranges is exactly their union: it starts where the first starts, ends where the second ends, and its size is the sum of the sizes.", "quantifier": "all pairs of ranges", "why_tests_cant": "Needs all pairs of integers, including degenerate ranges where the stated equivalence has side conditions.", "anchors": ["rng/contig.go:Rng.Contiguous", "merge/merge.go:Range", "rng/rng.go:Rng.Size"]}
{"id": "C03", "title": "The offset score names a farthest interior vertex", "statement": "For every coordinate list with at least three vertices and every distance function whose values are not NaN and not negative, the offset score returns an index strictly between the first and the last vertex whose distance to the anchor segment is maximal among the interior vertices, and returns that distance; with two or fewer vertices it returns the last index and zero.", "quantifier": "all coordinate lists and all distance functions (ties, infinities, NaN included in the model)", "why_tests_cant": "Ties, NaN and infinities combine with arbitrary lengths; tests sample a handful of lines.", "anchors": ["offset/dp.go:MaxOffset", "offset/dp.go:SquareMaxOffset", "offset/dp.go:maxOffset"]}
{"id": "C04", "title": "Decomposition covers the polyline exactly once", "statement": "Whenever the Douglas-Peucker decomposition of a polyline returns, its pieces taken in order start at the first vertex, end at the last vertex, and each piece starts at the vertex where the previous one ends; no piece is empty, and each piece carries exactly the coordinates of its index range.", "quantifier": "all polylines, all score functions that pick an interior vertex, all acceptance relations", "why_tests_cant": "Property of an unbounded worklist loop over arbitrary inputs.", "anchors": ["decompose/decompose.go:DouglasPeucker", "geometry/pln.go:Polyline.SubCoordinates", "geometry/pln.go:Polyline.Range"]}
{"id": "C05", "title": "Decomposition terminates for every non-negative threshold", "statement": "For every polyline with at least two vertices and every threshold that accepts offset zero, the decomposition loop finishes, whatever the distances are (NaN and infinite distances included).", "quantifier": "all polylines, all thresholds accepting zero, all distance values", "why_tests_cant": "Termination cannot be observed by a finite test run.", "anchors": ["decompose/decompose.go:DouglasPeucker", "offset/dp.go:maxOffset", "dp/dp.go:DouglasPeucker.ScoreRelation"]}
{"id": "C06", "title": "A threshold below zero is handled, not looped on", "statement": "Simplifying any polyline with a threshold that rejects offset zero (a negative or NaN threshold) terminates or reports an error.", "quantifier": "all polylines with at least two vertices, all negative or NaN thresholds", "why_tests_cant": "A non-terminating run is not a test result; the claim is about every input with such a threshold.", "anchors": ["decompose/decompose.go:DouglasPeucker", "dp/dp.go:DouglasPeucker.ScoreRelation", "main.go:main"]}
{"id": "C07", "title": "Unconstrained simplification respects the tolerance", "statement": "After unconstrained Douglas-Peucker simplification with tolerance t >= 0, every dropped vertex lies within t of the simplified segment that replaces it, for the plain and for the squared score; hence every original vertex is within t of the simplified line.", "quantifier": "all polylines, all thresholds >= 0", "why_tests_cant": "A metric guarantee over all real polylines; sampling cannot establish a universal bound.", "anchors": ["dp/dp.go:DouglasPeucker.Decompose", "dp/dp.go:DouglasPeucker.Simplify", "offset/dp.go:MaxOffset", "offset/dp.go:SquareMaxOffset"]}
{"id": "C08", "title": "Unconstrained output is a strictly increasing index list with both ends", "statement": "The indices reported after an unconstrained simplification are strictly increasing, are indices of the input polyline, and contain its first and last vertex.", "quantifier": "all polylines, all accepted thresholds, any previous content of the result set", "why_tests_cant": "Universal over inputs and over earlier runs of the same object.", "anchors": ["dp/dp.go:DouglasPeucker.Simple", "dp/dp.go:DouglasPeucker.Simplify"]}
{"id": "C09", "title": "Constrained output is a sub-sequence of the input with both ends", "statement": "For every option combination, every set of constraint geometries and every behaviour of the geometry predicates, the vertices kept by the constrained simplification of one polyline are a strictly increasing list of its own indices containing the first and the last; i.e. no vertex is invented, moved, repeated or reordered.", "quantifier": "all polylines, options, constraints, predicate behaviours, spatial index heuristics, goroutine schedules and map iteration orders", "why_tests_cant": "The interaction of splitting, index maintenance and merging over all option and constraint combinations is far beyond enumeration.", "anchors": ["constdp/simplify.go:ConstDP.Simplify", "constdp/node_aggregates.go:ConstDP.AggregateSimpleSegments", "constrain/toself.go:ToSelfIntersects", "simplify.go:setSimpleCoords"]}
{"id": "C10", "title": "Constrained simplification of one polyline terminates", "statement": "If the score function picks an interior vertex for every piece with at least three vertices, the constrained simplification of a polyline terminates for every option combination, constraint set and predicate behaviour.", "quantifier": "all inputs, all predicate behaviours, all schedules", "why_tests_cant": "Termination of a deform-and-retry loop driven by arbitrary geometry predicates.", "anchors": ["constdp/simplify.go:ConstDP.Simplify", "constdp/simple_0.go:findDeformableNodes", "constdp/simple_1.go:deformNodes", "split/split.go:AtScoreSelection"]}
{"id": "C11", "title": "SED simplification of data without usable time stamps terminates", "statement": "Simplification type SED terminates on lines whose vertices carry no (or equal) time stamps, also when a constraint forces pieces to be split.", "quantifier": "all lines whose synchronised distances are NaN, all constraint sets", "why_tests_cant": "Non-termination is not observable by a test; the input condition (NaN scores) is never exercised by the unit tests.", "anchors": ["offset/sed.go:maxSEDOffset", "split/split.go:AtScoreSelection", "constdp/simplify.go:ConstDP.Simplify"]}
{"id": "C12", "title": "Self-intersection vertices survive simplification", "statement": "With planar_self on, every vertex that the library itself reports as a planar (or non-planar) self-intersection of the polyline, and every vertex passed in as a fixed vertex, is present in the simplified output.", "quantifier": "all polylines, options, constraints, fixed vertex lists, predicate behaviours", "why_tests_cant": "Requires the vertex to survive an arbitrary number of splits and merges.", "anchors": ["constrain/toself.go:ToSelfIntersects", "constrain/split.go:splitAtSelfIntersects", "constdp/simplify.go:ConstDP.Simplify", "constdp/node_aggregates.go:ConstDP.AggregateSimpleSegments"]}
{"id": "C13", "title": "Junction vertices of a feature class survive", "statement": "With is_feature_class and planar_self on, every vertex reported by the feature class junction search is present in the simplified output of its feature, after the joint deformation stage as well.", "quantifier": "all feature classes, options, constraints, schedules", "why_tests_cant": "Same unbounded pipeline, over all feature sets and interleavings.", "anchors": ["constdp/fc_simplify.go:SimplifyFeatureClass", "lnr/fc.go:FCPlanarSelfIntersection", "constdp/fc_group.go:groupHullsByFC"]}
{"id": "C14", "title": "Features are never mixed up", "statement": "After a feature class simplification each feature's output consists only of its own vertices, in order, with its own first and last vertex, whatever the other features are.", "quantifier": "all feature classes, options, constraints, schedules, index heuristics", "why_tests_cant": "Cross-feature data flow through one shared spatial index under concurrency.", "anchors": ["constdp/fc_simplify.go:SimplifyFeatureClass", "constdp/fc_group.go:groupHullsByFC", "simplify.go:simplifyFeatureClass"]}
{"id": "C15", "title": "Feature class simplification terminates", "statement": "If the score function picks an interior vertex for every piece with at least three vertices, the joint deformation loop of a feature class terminates for all options, constraints and predicate behaviours.", "quantifier": "all feature classes and predicate behaviours", "why_tests_cant": "Termination of an unbounded loop.", "anchors": ["constdp/fc_simplify.go:SimplifyFeatureClass", "constdp/simple_1.go:deformNodes"]}
{"id": "C16", "title": "The spatial index holds exactly what was put in and not taken out", "statement": "After any sequence of Load (any batch sizes), Remove and Clear, listing the index returns exactly the loaded and not removed items, each as often as it was loaded.", "quantifier": "all histories, all bucket sizes, all box heuristics", "why_tests_cant": "Histories of node splits, root growth, subtree grafting and condensation are unbounded.", "anchors": ["hdb/load.go:Hdb.Load", "hdb/remove.go:Hdb.Remove", "hdb/search.go:Hdb.All", "hdb/insert.go:Hdb.insert", "hdb/insert.go:Hdb.insertNode", "hdb/build.go:Hdb.buildTree"]}
{"id": "C17", "title": "Range search is exact", "statement": "After any history, Search(query) returns exactly the stored items whose bounding box intersects the query box (touching counts), each once per stored copy.", "quantifier": "all histories, all query boxes", "why_tests_cant": "Depends on every stored bounding box being correct after any history.", "anchors": ["hdb/search.go:Hdb.Search", "hdb/search.go:all", "hdb/insert.go:intersects", "hdb/insert.go:contains"]}
{"id": "C18", "title": "Nearest-neighbour search returns exactly the items within the distance, nearest first", "statement": "After any history, the neighbour search with distance bound d returns exactly the stored items whose distance to the query is at most d, in non-decreasing order of distance, provided the distance to a bounding box never exceeds the distance to anything inside it.", "quantifier": "all histories, queries and bounds; all heap tie-breaking orders", "why_tests_cant": "Best-first search correctness depends on the whole tree and on queue order.", "anchors": ["hdb/knn.go:Hdb.Knn", "knn/knn.go:find", "knn/knn.go:PredicateFn", "knn/neighbours.go:ContextNeighbours"]}
{"id": "C19", "title": "Removing an item removes that item and nothing else", "statement": "After any history in which stored identifiers are distinct, Remove(item) deletes the item with that identifier if it is stored with that box, leaves every other item, is a no-op for an item that was never stored, and always terminates.", "quantifier": "all histories, all items", "why_tests_cant": "The iterative up/down traversal with path condensation has unboundedly many paths.", "anchors": ["hdb/remove.go:Hdb.Remove", "hdb/remove.go:Hdb.removeItem", "hdb/remove.go:Hdb.condense"]}
{"id": "C20", "title": "The spatial index stays balanced and its boxes stay exact", "statement": "After any history of Load, Remove and Clear: all items are at the same depth, every node's recorded height is its true height, no inner node is empty, no node has more than the bucket size of children, and every inner node's box contains all boxes below it.", "quantifier": "all histories, all bucket sizes >= 4, all heuristics", "why_tests_cant": "Structural invariant over unbounded histories.", "anchors": ["hdb/insert.go:Hdb.splitOnOverflow", "hdb/split.go:Hdb.split", "hdb/split.go:Hdb.splitRoot", "hdb/mbr.go:calcBBox", "hdb/build.go:Hdb.buildTree"]}
{"id": "C21", "title": "Collision test is exact", "statement": "Collides(query) is true exactly when some stored item's box intersects the query box.", "quantifier": "all histories, all query boxes", "why_tests_cant": "Same unbounded state space as C17.", "anchors": ["hdb/collides.go:Hdb.Collides"]}
{"id": "C22", "title": "Bulk loading rearranges but never loses items", "statement": "The in-place selection used by bulk loading terminates, never indexes outside the slice, only permutes the items, and puts the k smallest keys before the others.", "quantifier": "all item lists, all keys (ties included), all valid positions", "why_tests_cant": "Quickselect correctness for all permutations and ties.", "anchors": ["hdb/select.go:multiSelect", "hdb/select.go:selectBox"]}
{"id": "C23", "title": "Every repeated vertex of a polyline is reported", "statement": "The planar self-intersection search reports every location visited by two or more vertices of the polyline, with all indices visiting it, and nothing else.", "quantifier": "all polylines", "why_tests_cant": "Depends on the position of the repeated location in sort order; the existing tests never repeat the greatest location.", "anchors": ["lnr/self.go:planarIntersects", "lnr/vertices.go:vertices.Less"]}
{"id": "C24", "title": "Every shared vertex of a feature class is reported", "statement": "The feature class junction search reports, for every location visited by two or more vertices of the class, each visiting vertex under its own feature identifier, and nothing else.", "quantifier": "all feature classes", "why_tests_cant": "As C23, over all sets of lines.", "anchors": ["lnr/fc.go:FCPlanarSelfIntersection", "lnr/vertices.go:appendVertices"]}
{"id": "C25", "title": "Every crossing of two segments is examined once", "statement": "The non-planar self-intersection search examines every unordered pair of distinct segments whose boxes meet exactly once, and reports exactly those intersection points that are not a shared end vertex, each with the four end indices of the two segments.", "quantifier": "all polylines, all neighbour orders", "why_tests_cant": "Symmetric-pair cache over all polylines.", "anchors": ["lnr/self.go:nonPlanarIntersection", "lnr/self.go:cacheKey", "geometry/pln.go:Polyline.SegmentBounds"]}
{"id": "C26", "title": "The geometric relation test is exact", "statement": "A piece passes the geometric relation test exactly when, for every context geometry, its chord intersects the geometry if and only if the original sub-line does.", "quantifier": "all pieces, all context lists, all intersection predicates", "why_tests_cant": "Loop with early exit over arbitrary lists.", "anchors": ["relate/geom.go:IsGeomRelateValid", "constrain/bygeom.go:ByGeometricRelation"]}
{"id": "C27", "title": "The distance relation test is exact", "statement": "A piece passes the distance relation test exactly when, for every context geometry, the chord keeps at least the minimum distance or the original sub-line was already closer than the minimum distance.", "quantifier": "all pieces, contexts, distances (NaN included)", "why_tests_cant": "Loop with early exit and IEEE comparisons over arbitrary lists.", "anchors": ["relate/dist.go:IsDistRelateValid", "constrain/bymindist.go:ByMinDistRelation"]}
{"id": "C28", "title": "Simplification never brings a line closer than documented", "statement": "As documented, when an input line is already closer to a constraint than the minimum distance, its simplification is accepted only if it is not closer than the input was.", "quantifier": "all pieces and contexts", "why_tests_cant": "Needs all pairs of distances.", "anchors": ["relate/dist.go:IsDistRelateValid", "readme.md"]}
{"id": "C29", "title": "The sidedness test accepts only deformations that sweep over no constraint", "statement": "When the sidedness (homotopy) test accepts a piece, every context geometry is met by both chord and sub-line or by neither, and the sub-line can be reduced to its chord by removing one vertex at a time such that no removed triangle meets any of the geometries disjoint from both.", "quantifier": "all pieces, context lists and intersection predicates", "why_tests_cant": "Soundness of an iterative pointer-manipulating deformation over all inputs.", "anchors": ["homotopy/homotopy.go:Homotopy", "homotopy/homotopy.go:filterContext", "homotopy/deform.go:chainDeformation", "homotopy/chain.go:NewChain", "relate/dir.go:IsDirRelateValid"]}
{"id": "C30", "title": "Every output segment satisfies the requested context relations", "statement": "With context relations requested, every piece behind an output segment is a single original segment, or has collinear vertices, or passes all requested relation tests against all constraint geometries in range.", "quantifier": "all polylines, options, constraints, predicate behaviours, schedules", "why_tests_cant": "Invariant of the whole pipeline over unbounded executions.", "anchors": ["constdp/validate.go:ConstDP.ValidateContextRelation", "constdp/validate.go:ConstDP.ValidateMerge", "constdp/simplify.go:ConstDP.Simplify", "constdp/simple_0.go:processConstSimplification"]}
{"id": "C31", "title": "Collinear pieces also satisfy the context relations", "statement": "With the geometric relation requested, every piece behind an output segment keeps its intersect/disjoint relation to every constraint, collinear pieces included.", "quantifier": "all polylines and constraints", "why_tests_cant": "The exempted class (back-tracking collinear lines) is not in the tests.", "anchors": ["constdp/simple_0.go:processConstSimplification"]}
{"id": "C32", "title": "Restricting to neighbours within the minimum distance loses no violation", "statement": "For a minimum distance >= 0, testing a piece against only the constraints within the minimum distance of its hull gives the same verdict as testing it against all constraints, for each of the three relations.", "quantifier": "all pieces, constraint sets, minimum distances", "why_tests_cant": "Needs monotonicity arguments over all geometry configurations.", "anchors": ["constdp/validate.go:ConstDP.ValidateContextRelation", "knn/neighbours.go:ContextNeighbours"]}
{"id": "C33", "title": "No new self-intersection is introduced", "statement": "With avoid_new_self_intersects on, no two output segments cross unless the corresponding parts of the input line meet.", "quantifier": "all polylines", "why_tests_cant": "Global property of all pairs of output segments.", "anchors": ["constrain/bycls.go:ByFeatureClassIntersection", "constrain/byself.go:BySelfIntersection", "deform/cls.go:SelectFeatureClass", "deform/ln.go:Select", "deform/noncontig.go:nonContiguousCandidates"]}
{"id": "C34", "title": "Merging fragments respects tolerance and constraints", "statement": "A merged piece is only kept if its offset score satisfies the acceptance relation and it passes the merge validation against the index without its two parts; otherwise both parts are back in the index unchanged.", "quantifier": "all index contents, fixed vertices, validators and scores", "why_tests_cant": "Stateful loop over arbitrary index contents.", "anchors": ["constdp/node_aggregates.go:ConstDP.AggregateSimpleSegments", "merge/merge.go:ContiguousFragmentsAtThreshold", "constdp/validate.go:ConstDP.ValidateMerge"]}
{"id": "C35", "title": "The tolerance also holds for constrained output", "statement": "Every vertex dropped by the constrained simplification lies within the threshold of the output segment replacing it.", "quantifier": "all polylines, options and constraints", "why_tests_cant": "Universal metric bound over the whole pipeline.", "anchors": ["constdp/simplify.go:ConstDP.Simplify", "split/split.go:AtScoreSelection", "split/split.go:AtIndex"]}
{"id": "C36", "title": "Every polyline is simplified exactly once and the call returns", "statement": "In every interleaving of the worker goroutines, the concurrent simplification processes each polyline exactly once, never sends on a closed channel, never deadlocks, and returns only after all polylines are done.", "quantifier": "all interleavings, all numbers of polylines and workers", "why_tests_cant": "Schedules cannot be enumerated by tests.", "anchors": ["constdp/fc_simplify.go:SimplifyInstances"]}
{"id": "C37", "title": "The set of pieces to deform does not depend on the schedule", "statement": "In every interleaving, the concurrent search for deformable pieces returns exactly the union of what the individual pieces select, never deadlocks, and closes its channel once, after all workers finished.", "quantifier": "all interleavings, all piece lists and concurrency levels", "why_tests_cant": "Schedules and buffer states cannot be enumerated by tests.", "anchors": ["constdp/simple_0.go:processConstSimplification", "constdp/simple_0.go:findDeformableNodes"]}
{"id": "C38", "title": "Work is partitioned completely", "statement": "Splitting a task list into chunks yields non-empty chunks whose concatenation is the list; there are fewer than twice as many chunks as requested workers.", "quantifier": "all lists, all concurrency levels >= 1", "why_tests_cant": "All sizes and all levels.", "anchors": ["constdp/simple_0.go:chunkTasks", "constdp/simple_0.go:chunkInstances"]}
{"id": "C39", "title": "Piece identifiers are unique under concurrency", "statement": "All pieces created by concurrently running simplifications that share one identifier source get distinct identifiers.", "quantifier": "all interleavings", "why_tests_cant": "Race conditions are schedule dependent.", "anchors": ["node/node.go:CreateNode", "constdp/fc_simplify.go:SimplifyInstances"]}
{"id": "C40", "title": "Feature identifiers round-trip", "statement": "Encoding (input line number, part number) into a polyline identifier and decoding it again returns the same two numbers, for all non-negative numbers.", "quantifier": "all pairs of natural numbers", "why_tests_cant": "Infinite domain of decimal strings.", "anchors": ["geometry/geojson.go:composeId", "encode.go:indexPos"]}
{"id": "C41", "title": "One output feature per input line, in order, none lost", "statement": "The output contains, for every input line that carries line geometry, exactly one feature with that line's parts in part order, in input order; no part is lost and the program does not crash.", "quantifier": "all sets of input lines", "why_tests_cant": "Depends on which input lines yield no geometry; the unit tests use contiguous numbering only.", "anchors": ["encode.go:groupPlnsAsGeoJSONS", "encode.go:groupById", "encode.go:indices", "encode.go:createGeoJSONString"]}
{"id": "C42", "title": "Output coordinates are 2-D or 3-D consistently", "statement": "All coordinates of an output line have the same dimension: three if any kept vertex has a non-zero third ordinate, otherwise two; the first two ordinates are unchanged and the number and order of vertices is unchanged.", "quantifier": "all coordinate lists", "why_tests_cant": "All lists and all float values.", "anchors": ["encode.go:extractCoords", "encode.go:isCoords3D"]}
{"id": "C43", "title": "Input file lines are read completely", "statement": "Reading an input file yields exactly its non-blank lines, trimmed, in order, whether or not the last line ends with a newline.", "quantifier": "all file contents", "why_tests_cant": "All strings.", "anchors": ["geometry/geojson.go:readJsonFile"]}
{"id": "C44", "title": "The line reader delivers every non-blank line", "statement": "The line-by-line reader calls its callback for every non-blank line of the input, including a last line without newline, and reports success at the end of input.", "quantifier": "all file contents", "why_tests_cant": "All strings; the failing case is the unterminated last line.", "anchors": ["io.go:readlinesFromReader", "io.go:readWKTInput", "io.go:readConstraints"]}
{"id": "C45", "title": "The piece queue is a double-ended queue that never blocks", "statement": "Every sequence of queue operations behaves like a double-ended queue, and no operation leaves the queue locked.", "quantifier": "all operation sequences", "why_tests_cant": "All histories, in particular those that pop an empty queue.", "anchors": ["node/queue.go:Queue.Append", "node/queue.go:Queue.AppendLeft", "node/queue.go:Queue.Pop", "node/queue.go:Queue.PopLeft", "node/queue.go:Queue.First", "node/queue.go:Queue.Last", "node/queue.go:Queue.Size"]}
{"id": "C46", "title": "Command line is accepted exactly when one configuration source is given", "statement": "The program proceeds past argument checking exactly when exactly one of -b and -f is given, and past type checking exactly when the trimmed, lower-cased simplification type is dp or sed; otherwise it exits with code 13 and writes nothing.", "quantifier": "all argument and configuration strings", "why_tests_cant": "All strings.", "anchors": ["main.go:main", "offset.go:offsetDictionary"]}
{"id": "C47", "title": "Degenerate lines do not crash the run", "statement": "A run whose input contains a line with fewer than two coordinates completes.", "quantifier": "all inputs containing such a line", "why_tests_cant": "The degenerate case is absent from the tests and the claim covers all options.", "anchors": ["geometry/pln.go:CreatePolyline", "decompose/decompose.go:DouglasPeucker", "simplify.go:setSimpleCoords", "constdp/fc_simplify.go:SimplifyFeatureClass"]}
{"id": "C48", "title": "A piece always carries the coordinates of its index range", "statement": "Throughout decomposition, splitting at indices, splitting at the score and merging, every piece's coordinate list is exactly the input vertices from its first to its last index.", "quantifier": "all polylines, options, constraints, executions", "why_tests_cant": "Invariant over unbounded executions.", "anchors": ["node/node.go:CreateNode", "split/split.go:AtIndex", "split/split.go:AtScoreSelection", "merge/merge.go:ContiguousCoordinates"]}
{"id": "C49", "title": "The merge pass never panics and never skips a fresh pair", "statement": "For pieces that cover a polyline, the merge pass never hits its non-contiguous panic or an index out of range, and its memo key never identifies two different pairs of adjacent pieces of one polyline.", "quantifier": "all covers, fixed vertices, validators, scores", "why_tests_cant": "Requires the cover invariant through an unbounded loop; key collisions need all integer tuples.", "anchors": ["constdp/node_aggregates.go:ConstDP.AggregateSimpleSegments", "constdp/common.go:CacheKey", "merge/merge.go:ContiguousCoordinates", "node/contig.go:Neighbours"]}
{"id": "C50", "title": "Merging by fragment size keeps the cover", "statement": "Merging fragments of a given size returns pieces that, together with the untouched ones, still cover exactly the same indices: each merge replaces two adjacent pieces by their union and every removed piece is part of exactly one merged piece.", "quantifier": "all covers, vertex sets, fragment sizes, scores", "why_tests_cant": "Stateful loop with three dictionaries over arbitrary covers.", "anchors": ["merge/merge.go:ContiguousFragmentsBySize"]}
{"id": "C51", "title": "Cross-feature conflicts select every conflicting piece", "statement": "When a piece conflicts with pieces of other features, every piece that has to be deformed is selected.", "quantifier": "all feature classes", "why_tests_cant": "Needs two features with pieces of equal index range, over all configurations.", "anchors": ["deform/cls.go:SelectFeatureClass"]}
{"id": "C52", "title": "Coordinate arrays are parsed completely or rejected", "statement": "Parsing a nested array of numbers returns all numbers in order; any non-numeric entry makes the parser panic rather than being dropped.", "quantifier": "all nested arrays", "why_tests_cant": "All dynamic values.", "anchors": ["parser.go:parseLinearArray", "parser.go:parsePointArray", "parser.go:parseFloat"]}
{"id": "C53", "title": "Every configured option reaches the simplifier", "statement": "Each option of the configuration is handed to the simplifier under its own meaning: two configurations give the same simplifier options exactly when they agree on all nine simplifier settings.", "quantifier": "all configurations", "why_tests_cant": "All values of all fields.", "anchors": ["cfg.go:optsFromCfg"]}
{"id": "C54", "title": "A configuration file and its base64 form are equivalent", "statement": "Passing a configuration by file and passing its base64 encoding on the command line give the same configuration text, for all texts.", "quantifier": "all texts", "why_tests_cant": "All byte strings of all lengths and paddings.", "anchors": ["util.go:encode64", "util.go:decode64", "main.go:main"]}
{"id": "C55", "title": "The result does not depend on scheduling or hashing", "statement": "Two runs of the constrained simplification on the same polyline, options and constraints keep the same vertices, whatever the goroutine schedule, the map iteration order and the internal shape of the spatial index were.", "quantifier": "all pairs of executions", "why_tests_cant": "Nondeterminism cannot be exhausted by re-running tests.", "anchors": ["constdp/simplify.go:ConstDP.Simplify", "constdp/simple_1.go:deformNodes", "constdp/simple_2.go:cleanUpDB"]}
{"id": "C56", "title": "Contiguity of two pieces is symmetric and needs a shared end point", "statement": "Two pieces are reported contiguous only if they share an end vertex and their hulls intersect; the answer does not depend on the order of the two pieces when the predicates are symmetric.", "quantifier": "all pairs of pieces and predicate behaviours", "why_tests_cant": "All pairs of pieces.", "anchors": ["node/contig.go:IsContiguous", "node/contig.go:Neighbours"]}
{"id": "C57", "title": "Deformation candidates always come from the two pieces compared", "statement": "The conflict search selects only the piece itself or one of its stored neighbours, single segments are never considered unable to collapse, and a piece selected for deformation against a contiguous neighbour has the neighbour's far end strictly inside its hull.", "quantifier": "all pieces, index contents, predicate behaviours", "why_tests_cant": "All geometric configurations.", "anchors": ["deform/contig.go:contiguousCandidates", "node/collapse.go:Node.Collapsible", "deform/cls.go:SelectFeatureClass", "deform/ln.go:Select"]}
{"id": "C58", "title": "Bulk selection sorts the groups between each other", "statement": "After the bulk-load selection has been run with group size n, every element of an earlier group of n is not greater than every element of a later group, for all item lists, group sizes and comparisons by a key.", "quantifier": "all item lists, group sizes and keys", "why_tests_cant": "All list lengths and key orders; the 600-element window of the selection makes the behaviour length dependent.", "anchors": ["hdb/select.go:multiSelect", "hdb/select.go:selectBox"]}
{"id": "C59", "title": "Every input feature keeps its own properties in the output", "statement": "In the output each simplified line carries the properties of the input feature it was read from, for all input documents.", "quantifier": "all input documents", "why_tests_cant": "All nestings of features and feature collections.", "anchors": ["geometry/geojson.go:parseInputLinearFeatures", "encode.go:groupPlnsAsGeoJSONS"]}
{"id": "C60", "title": "The program writes one sub-line per input line", "statement": "When the configuration, input and constraints can be read, every input document holds line geometry and every line is usable, the program terminates and the saved text has one feature per input document, in order, whose parts are the document's lines, each reduced to a sub-sequence of its points with the same first and last point; this holds for single lines and feature classes, all options and all constraints.", "quantifier": "all inputs, configurations, constraints, schedules, library behaviours", "why_tests_cant": "Composes reading, simplification of all lines and writing for all inputs.", "anchors": ["main.go:main", "simplify.go:simplifyInstances", "simplify.go:simplifyFeatureClass", "simplify.go:setSimpleCoords", "encode.go:groupPlnsAsGeoJSONS"]}
{"id": "C61", "title": "Merging by fragment size leaves no mergeable pair behind", "statement": "After fragments of a given size have been merged, no untouched fragment of that size has an untouched index neighbour it could have been merged with: they meet at a protected vertex, do not meet, or the score of their union is not accepted.", "quantifier": "all covers of a polyline, vertex sets, fragment sizes and score functions", "why_tests_cant": "Depends on the order of visits and the growing set of merged ranges for every cover.", "anchors": ["merge/merge.go:ContiguousFragmentsBySize"]}
{"id": "C62", "title": "Every shape of the constraint file constrains every polyline", "statement": "Reading a constraint file gives exactly one constraint for each point, line and polygon in it (parts of multi geometries counted singly), in file order, of the same kind and with the same coordinates, identified by line and part number; the constraint index of every polyline holds exactly one entry for each constraint.", "quantifier": "all constraint files, all index heuristics", "why_tests_cant": "Files nest collections, features and multi geometries to any size.", "anchors": ["geometry/geojson.go:parseConstraintFeatures", "geometry/geojson.go:createIGeom", "geometry/geojson_geom.go:geoJsonPolygons", "constdp/constructor.go:BuildContextDB"]}
{"id": "C63", "title": "The stack decomposition is the recursive Douglas-Peucker procedure", "statement": "For every polyline, score function and acceptance test, the pieces produced by the decomposition with an explicit stack are, in order, exactly the pieces produced by the textbook recursive procedure (keep the range when its score is accepted, otherwise split at the farthest vertex and treat both halves); that result is unique.", "quantifier": "all polylines, score functions and acceptance tests", "why_tests_cant": "Equivalence of two algorithms over all inputs and stack histories.", "anchors": ["decompose/decompose.go:DouglasPeucker"]}
{"id": "C64", "title": "A larger threshold keeps a subset of the vertices", "statement": "For dp.Simplify, any score function and any two thresholds, every vertex kept at the larger threshold is kept at the smaller one.", "quantifier": "all polylines, score functions and pairs of thresholds", "why_tests_cant": "A relation between two runs, over all polylines and thresholds.", "anchors": ["dp/dp.go:DouglasPeucker.Simplify", "decompose/decompose.go:DouglasPeucker"]}
{"id": "C65", "title": "Unconstrained simplification is idempotent", "statement": "Applying dp.Simplify, with the maximum-offset score and a non-negative threshold, to the polyline formed by the kept vertices keeps every vertex.", "quantifier": "all polylines, distance functions and non-negative thresholds", "why_tests_cant": "A relation between two runs, the second on the output of the first.", "anchors": ["dp/dp.go:DouglasPeucker.Simplify", "offset/dp.go:MaxOffset"]}
{"id": "C66", "title": "With all constraints off the constrained simplification is the plain one", "statement": "With all constraints switched off ConstDP.Simplify keeps only vertices that dp.Simplify keeps; a larger threshold keeps a subset of the vertices; and a second run on the output changes nothing.", "quantifier": "all polylines and thresholds", "why_tests_cant": "The merge pass interacts with the decomposition in ways that depend on the whole polyline.", "anchors": ["constdp/simplify.go:ConstDP.Simplify", "merge/merge.go:ContiguousFragmentsAtThreshold"]}
{"id": "C67", "title": "The sidedness test accepts every deformable sub-line", "statement": "If a sub-line can be deformed into its chord by moves that sweep over no constraint, and constraints meet the chord exactly when they meet the sub-line, then the sidedness test accepts.", "quantifier": "all sub-lines and constraint sets", "why_tests_cant": "All sequences of deformation moves.", "anchors": ["homotopy/homotopy.go:Homotopy", "homotopy/deform.go:chainDeformation"]}
{"id": "C68", "title": "Limited nearest-neighbour search returns the nearest ones", "statement": "Knn with a positive limit k returns the first k results of the unlimited search, for every queue, score and predicate; with a queue that pops a minimum these are the k nearest items within the distance, nearest first, fewer only when fewer are within the distance.", "quantifier": "all index histories, limits, distances, scores and predicates", "why_tests_cant": "All index shapes and queue behaviours.", "anchors": ["hdb/knn.go:Hdb.Knn"]}
{"id": "C69", "title": "Comparing pieces by pointer is comparing them by identifier", "statement": "A run of ConstDP.Simplify or of SimplifyFeatureClass in which every comparison of pieces is made on pointers (addresses assigned when a slice is loaded into the index, copies getting none) has at every step the same outcome as the run that compares identifiers.", "quantifier": "all instances and feature classes, all options, fuels and identifier streams without repetition", "why_tests_cant": "Whether a pointer still denotes the piece in the index depends on the whole history of splits, reloads and merges.", "anchors": ["constdp/simplify.go:ConstDP.Simplify", "constdp/node_aggregates.go:ConstDP.AggregateSimpleSegments", "node/contig.go:Neighbours", "deform/cls.go:SelectFeatureClass"]}
{"id": "C70", "title": "The synchronised score is the distance to the position at the same time", "statement": "With exact arithmetic and different times at the first and last vertex, the SED score of a vertex is its Euclidean distance to the point where something moving uniformly from the first to the last vertex is at the time of the vertex, and the squared SED score is the square of that distance; it is zero exactly for vertices on that motion.", "quantifier": "all real coordinates and times", "why_tests_cant": "A statement about all real numbers, all directions (the code goes through an angle, cosine and sine) and all quadrants.", "anchors": ["offset/sed.go:maxSEDOffset", "offset/sed.go:direction", "offset/sed.go:hypot", "offset/sed.go:squareHypot"]}
{"id": "C71", "title": "Squared scores give the same simplification as plain ones", "statement": "dp.Simplify, ConstDP.Simplify and SimplifyFeatureClass have the same outcome with the squared score function and the squared threshold as with the plain ones, for exact distances and thresholds that are not negative.", "quantifier": "all lines, constraint sets, options, non-negative thresholds, fuels", "why_tests_cant": "A relation between two runs with different score functions, over all inputs.", "anchors": ["dp/dp.go:DouglasPeucker.SquareScoreRelation", "constdp/node_aggregates.go:ConstDP.AggregateSimpleSegments", "constdp/simple_1.go:deformNodes", "offset/dp.go:SquareMaxOffset"]}
{"id": "C72", "title": "The stored index holds the tree the algorithms build", "statement": "With the index stored as the code stores it (nodes by value in slices with spare capacity, pointers into those slices, in-place append, split, shift and zeroing), every history of Load, Remove and Clear ends without reading outside an array; the tree found by following the slices is the tree of the value-level model; All returns exactly the items loaded and not removed, Search exactly those whose box meets the query, Collides whether there is one.", "quantifier": "all histories, bucket sizes, growth policies of append and legal heuristics", "why_tests_cant": "Aliasing between slices that share an array shows only for particular lengths and capacities, which depend on the run time.", "anchors": ["hdb/insert.go:Hdb.insertNode", "hdb/insert.go:Hdb.splitOnOverflow", "hdb/split.go:Hdb.split", "hdb/util.go:splitAtIndex", "hdb/remove.go:removeNode", "hdb/remove.go:Hdb.condense", "hdb/load.go:Hdb.Load"]}
{"id": "C73", "title": "The sidedness test certifies a deformation in the plane", "statement": "With an exact geometry library and constraints that are arbitrary non-empty sets of points: when homotopy.Homotopy accepts a sub-line, its chord and the sub-line meet the same constraints, and there is a continuous deformation of the sub-line into the chord, ends fixed, that never touches a constraint the sub-line does not meet.", "quantifier": "all sub-lines with at least two vertices, all finite families of constraints of any shape", "why_tests_cant": "A statement about the existence of a continuous deformation around arbitrary sets.", "anchors": ["homotopy/homotopy.go:Homotopy", "homotopy/deform.go:chainDeformation", "relate/sidedness.go:Homotopy"]}
{"id": "C74", "title": "The simplified line is a deformation of the input line", "statement": "With an exact geometry library and DirRelation on, the polyline through the kept vertices arises from the input polyline by a continuous deformation with fixed ends that never touches a constraint the input line does not meet, for ConstDP.Simplify and for every line of SimplifyFeatureClass, provided the minimum distance is not below the tolerance of the priority queue.", "quantifier": "all lines, constraint sets, options with DirRelation, index shapes, queues with the tolerance, map orders, runs", "why_tests_cant": "A global topological statement about the whole run, over all inputs.", "anchors": ["constdp/simplify.go:ConstDP.Simplify", "constdp/fc_simplify.go:SimplifyFeatureClass", "constdp/validate.go:ConstDP.ValidateMerge"]}
{"id": "C75", "title": "The simplified line keeps off what the input line keeps off", "statement": "With an exact geometry library: with GeomRelation on the simplified line meets no constraint that the input line does not meet; with DistRelation on every constraint at least the minimum distance from the input line is at least that distance, less the tolerance of the queue, from the simplified line; and each segment of the simplified line is a segment of the input, or replaces vertices on one straight line, or is in the requested relations to the part it replaces.", "quantifier": "all lines, constraints, options, index shapes, queues with the tolerance, runs", "why_tests_cant": "Distances and intersections of whole curves with arbitrary sets, over all runs.", "anchors": ["constdp/simplify.go:ConstDP.Simplify", "relate/dist.go:IsDistRelateValid", "relate/geom.go:IsGeomRelateValid"]}
{"id": "C76", "title": "Places where a line meets itself are kept", "statement": "With an exact geometry library and PlanarSelf on, the simplified line keeps every vertex whose place occurs again on the line, except at the place that sorts last, and all fixed vertices; with NonPlanarSelf on as well it keeps the four ends of any two segments that meet at a point which is not an end of both; and in a feature class vertices of different lines at the same place are kept, except at the place that sorts last among all vertices.", "quantifier": "all lines and feature classes, all options with these switches, queues with a tolerance up to EpsilonDist, runs", "why_tests_cant": "All configurations of crossings, overlaps and coincidences.", "anchors": ["lnr/self.go:planarIntersects", "lnr/self.go:nonPlanarIntersection", "constrain/toself.go:ToSelfIntersects", "lnr/fc.go:FCPlanarSelfIntersection"]}
{"id": "C77", "title": "A crossing is new only between a straight and a bent part", "statement": "With an exact geometry library and avoid_new_self_intersects on: if two segments of the simplified line have a common point, then the parts of the input line they replace have a common point, unless one of the parts has all its vertices on one straight line and the other has not.", "quantifier": "all lines, constraints, options with the switch, index shapes, map orders, runs", "why_tests_cant": "Rests on the parity of crossings of closed curves (winding numbers) and on an invariant of the whole run.", "anchors": ["constdp/simplify.go:ConstDP.Simplify", "deform/ln.go:Select", "deform/noncontig.go:nonContiguousCandidates", "constdp/validate.go:ConstDP.ValidateMerge"]}
{"id": "C78", "title": "Avoiding new crossings works across the features of a class", "statement": "With avoid_new_self_intersects on in SimplifyFeatureClass: if two segments of the simplified features, of one feature or of two, have a common point, then the parts of the input lines they replace have a common point (parts with all vertices on a straight line excepted).", "quantifier": "all feature classes, options with the switch, constraints, index shapes, map orders, previous states, runs", "why_tests_cant": "The pieces of several features interact over several rounds of the joint stage; a lost selection shows only in particular configurations of at least three features.", "anchors": ["constdp/fc_simplify.go:SimplifyFeatureClass", "deform/cls.go:SelectFeatureClass", "deform/cls.go:optimizeNeighbours", "constdp/simple_0.go:findDeformableNodes"]}
{"id": "C79", "title": "The tolerance holds for all points of both lines", "statement": "With exact distances (plane or any normed space, plain or squared score) and tolerance e, every point of the input line has a point of the simplified line within e and every point of the simplified line has a point of the input line within e (Hausdorff distance at most e), part by part and for the whole line: for dp.Simplify, and for ConstDP.Simplify with the constraint switches off.", "quantifier": "all lines of at least two vertices, all tolerances, both score functions, all runs", "why_tests_cant": "A statement about all points of two curves; the code looks at vertices only, and at one direction only.", "anchors": ["dp/dp.go:DouglasPeucker.Simplify", "decompose/decompose.go:DouglasPeucker", "offset/dp.go:MaxOffset", "constdp/simplify.go:ConstDP.Simplify", "constdp/node_aggregates.go:ConstDP.AggregateSimpleSegments"]}
{"id": "C80", "title": "With the synchronised score the tolerance holds at every time", "statement": "With exact arithmetic, strictly increasing times and the synchronised score (plain or squared) with tolerance e, the simplified motion and the input motion are defined at the same times and are within e of each other at every time, not only at the times of the vertices: for dp.Simplify, and for ConstDP.Simplify with the constraint switches off.", "quantifier": "all motions with at least two vertices, all times, all tolerances, both score functions, all runs", "why_tests_cant": "A statement about all instants of a continuous motion.", "anchors": ["offset/sed.go:maxSEDOffset", "dp/dp.go:DouglasPeucker.Simplify", "constdp/simplify.go:ConstDP.Simplify"]}
{"id": "C81", "title": "One can walk along both lines within the tolerance", "statement": "With exact distances and tolerance e there are continuous walks along the input line and along the simplified line, neither turning back, that are within e of each other at every moment (Fréchet distance at most e).", "quantifier": "all lines, all tolerances, both kinds of score, all runs", "why_tests_cant": "Existence of continuous reparametrisations; the violation needs a line that turns back along its chord.", "anchors": ["offset/dp.go:MaxOffset", "offset/sed.go:maxSEDOffset", "dp/dp.go:DouglasPeucker.Simplify", "constdp/simplify.go:ConstDP.Simplify"]}
{"id": "C82", "title": "When a line shrinks to a point", "statement": "With exact distances and tolerance e, dp.Simplify of a closed line returns a line without extent exactly if the whole input lies within e of its first vertex, and then it returns the first and last vertex only; for any line, a result without extent says that the whole input lies within e of one point.", "quantifier": "all lines of at least two vertices in any normed space, all tolerances, both score functions, all runs", "why_tests_cant": "An equivalence over all closed lines.", "anchors": ["dp/dp.go:DouglasPeucker.Simplify", "dp/dp.go:DouglasPeucker.Simple", "offset/dp.go:MaxOffset"]}
{"id": "C83", "title": "Geometry files are read back as they were written", "statement": "If the text of every line is one non-blank line of text that the reader turns back into the line, then a file written by writeCoords without error is read back as exactly the lines written; if a write fails, an error is returned, and what is in the file is read back as a first part of the lines: all lines written before the failure, no line altered or shortened; the same holds for a file cut off at any character.", "quantifier": "all lists of lines, all texts with these properties, all failures of writes, all cut-off positions", "why_tests_cant": "All positions at which a write can fail, for all contents.", "anchors": ["io.go:writeCoords", "io.go:readlinesFromReader", "io.go:readWKTInput"]}
{"id": "C84", "title": "Lines and constraints from TOML documents", "statement": "ConstToml.Geometries returns one geometry for each entry, first the points, then the lines, then the polygons, exactly if every entry is an array nested as its table asks and holding numbers only; otherwise it panics; readTomlInput gives every key the coordinates of its own value under the same condition; the order in which Go iterates the maps changes only the order within a table.", "quantifier": "all documents, all iteration orders, all constructors of the geometry library", "why_tests_cant": "All nestings of values of all types and all iteration orders.", "anchors": ["io.go:ConstToml.Geometries", "io.go:ConstToml.parsePoints", "io.go:ConstToml.parsePolylines", "io.go:ConstToml.parsePolygons", "io.go:readTomlInput", "parser.go:parseLinearArray"]}
{"id": "C85", "title": "Pieces that share an index array do not disturb each other", "statement": "The index lists of the pieces are slices over shared arrays (splitting makes slices of the parent's array, merging appends to a slice of one of the pieces). In every run, with the goroutines in any order and any growth of slices by append, every finished index list reads at every later time as the list of the model of values, no step writes to an array a finished list uses, two goroutines never fill the same array, and no slicing panics that does not panic on values.", "quantifier": "all histories of SubCoordinates, Coords.Slice and ContiguousCoordinates, all interleavings of goroutines, all growth policies of append", "why_tests_cant": "An overwritten index shows only for particular capacities and only in a piece other than the one being made.", "anchors": ["merge/merge.go:ContiguousCoordinates", "split/split.go:AtScoreSelection", "split/split.go:AtIndex", "common/common.go:SubCoordinates", "geometry/pln.go:Polyline.SubCoordinates"]}
{"id": "C86", "title": "With constraints the tolerance is kept up to a factor of two", "statement": "With exact distances and tolerance e, and with any constraints switched on, every point of a segment returned by Simplify (one line or a feature class) is within 2e of the part of the input line between the ends of this segment; if no two edges of the line point more than a right angle apart, the Fréchet distance of input and output is at most 2e. The factor is needed, and so is the condition for the other direction.", "quantifier": "all lines of at least two vertices in any normed space (inner product space for the Fréchet distance), all tolerances, all constraints and options, plain and squared score, all runs of Simplify and SimplifyFeatureClass", "why_tests_cant": "Constraints split pieces that are not measured again; a statement about the infinitely many points of the output for every history of splits and merges.", "anchors": ["constdp/simplify.go:ConstDP.Simplify", "constdp/fc_simplify.go:SimplifyFeatureClass", "split/split.go:AtScoreSelection", "constdp/node_aggregates.go:AggregateSimpleSegments", "offset/dp.go:MaxOffset"]}
{"id": "C87", "title": "With constraints and the synchronised score the motion is kept within twice the tolerance at every time", "statement": "With exact arithmetic, strictly increasing times, the synchronised score and tolerance e, and with any constraints switched on, the motion returned by Simplify (one line or a feature class) is within 2e of the input motion at every time, and the Fréchet distance of the two lines in the plane is at most 2e.", "quantifier": "all motions, all tolerances, all constraints and options, plain and squared score, all runs of Simplify and SimplifyFeatureClass", "why_tests_cant": "A statement about all instants of a continuous motion for every history of splits and merges.", "anchors": ["constdp/simplify.go:ConstDP.Simplify", "constdp/fc_simplify.go:SimplifyFeatureClass", "offset/sed.go:maxSEDOffset"]}
{"id": "C88", "title": "With rounding the synchronised tolerance is kept up to an explicit error", "statement": "If every operation rounds with relative error at most k (and absolute error n for multiplication, division and length, sine and cosine within k), the synchronised score of a vertex is finite and within 115kR + 14n(1+R+D) of the exact distance (coordinates up to R, move of duration D, no overflow); so the motion returned by dp.Simplify is within e + 2ke + 2 sqrt n + 115kR + 14n(1+R+T) of the input motion at every time, and with any constraints (one line or a feature class) within twice that.", "quantifier": "all arithmetics with such errors, all motions with coordinates up to R, span T and bounded speed, all tolerances, plain and squared score (with the rounded square as threshold), all constraints and runs", "why_tests_cant": "Rounding errors differ at every operation; no test set covers all values between which the decision to drop a vertex may flip.", "anchors": ["offset/sed.go:maxSEDOffset", "offset/sed.go:hypot", "offset/sed.go:squareHypot", "offset/sed.go:direction", "dp/dp.go:DouglasPeucker.Simplify", "constdp/simplify.go:ConstDP.Simplify", "constdp/fc_simplify.go:SimplifyFeatureClass"]}
{"id": "C89", "title": "With inexact chord distances the tolerance is kept up to their error", "statement": "If the computed distances of vertices to chords (or their squares, with the squared score) are numbers within d of the true ones, then input and output of dp.Simplify, and of Simplify without constraints, are within T + d of each other in both directions, part by part and as a whole, where T is the number the code compares with (root of T + d for the squared score); with any constraints every point of a segment of the output is within twice that of the part it replaces, and for lines that do not turn back the Fréchet distance is at most twice that.", "quantifier": "all lines in any normed space, all distance functions with error at most d on the points of the line, all limits, plain and squared score, all constraints and runs (one line or a feature class)", "why_tests_cant": "The distances of the library are rounded; near the tolerance the verdicts differ from exact ones in ways no test set enumerates.", "anchors": ["offset/dp.go:maxOffset", "dp/dp.go:DouglasPeucker.Simplify", "constdp/simplify.go:ConstDP.Simplify", "constdp/fc_simplify.go:SimplifyFeatureClass"]}
{"id": "C90", "title": "Pieces the index points to are never overwritten", "statement": "The index stores addresses of elements of slices of pieces, while the field Hulls of an instance is cleared and refilled in its old array. In every run, with the lines simplified by goroutines in any order and any growth of slices by append, every piece ever loaded into an index is at every later time still at its address; when a line is done its Hulls holds exactly the pieces of its index, what the joint stage of a feature class loads are the pieces of all lines, and at its end the Hulls of every instance holds exactly its pieces of the joint index.", "quantifier": "all interleavings, all numbers of lines, pieces, rounds and merges, all choices of computed pieces and removals, all growth policies of append, all orders of the index and of the map of groups", "why_tests_cant": "Whether an append overwrites a piece that is still referenced depends on capacities and on the order of clearing, loading and refilling; the damage shows in another line or much later.", "anchors": ["constdp/simplify.go:ConstDP.Simplify", "constdp/fc_simplify.go:SimplifyFeatureClass", "constdp/fc_group.go:groupHullsByFC", "node/nodes.go:Clear", "hdb/load.go:Hdb.Load", "constdp/simple_1.go:deformNodes", "constdp/node_aggregates.go:AggregateSimpleSegments"]}
{"id": "C91", "title": "An insertion descends into the child that needs the least enlargement", "statement": "Of the children of a node, insertion into the index picks one whose box grows least in area to take in the new item (up to the comparison tolerance), and among children with equal growth one with the least area.", "quantifier": "all boxes with finite sides, all lists of children, all tolerances", "why_tests_cant": "The rule is about all lists of boxes; a wrong choice still gives a correct index, only its searches visit more nodes.", "anchors": ["hdb/insert.go:chooseSubtree"]}
{"id": "C92", "title": "An overflowing node is split where the groups overlap least", "statement": "The position at which an overflowing node is split leaves at least the minimum number of entries on both sides; no such position has groups whose boxes share less area; among the positions that share least it has the least sum of areas.", "quantifier": "all lists of boxes with finite sides, all bucket sizes", "why_tests_cant": "A wrong position still gives a correct index; the tie rule fails only for particular sequences of overlaps and areas.", "anchors": ["hdb/split.go:Hdb.chooseSplitIndex", "hdb/insert.go:intersectionArea"]}
{"id": "C93", "title": "An overflowing node is split along the axis with the smaller total margin", "statement": "The running sums of allDistMargin are the margins of both groups summed over all allowed splits; before an overflowing node is split its entries are left sorted along the axis whose sum is smaller, along y when they are equal, and the arrangement left is one whose sum is no larger than that of the two measured.", "quantifier": "all lists of entries, all bucket sizes, any sort that rearranges into order", "why_tests_cant": "The arrangement left differs from the one measured only when entries have equal lower sides; the index stays correct.", "anchors": ["hdb/split.go:Hdb.chooseSplitAxis", "hdb/mbr.go:Hdb.allDistMargin"]}
{"id": "C94", "title": "The lines in the saved file keep the tolerance", "statement": "When everything can be read, the program terminates and every line in the saved file consists of points of the line read, from the first to the last; each of its segments is within twice the tolerance (plus twice the error of the distances) of the part it replaces; the Fréchet distance of the two lines has the same limit if the line read does not turn back; with no check requested, the lines are within the tolerance (plus the error) of each other.", "quantifier": "all input files, configurations, constraints, geometry libraries, index heuristics, map orders; single lines and feature classes; all tolerances and errors", "why_tests_cant": "Joins reading, configuration, simplification and writing; a confusion of lines, options or score functions anywhere between them shows only in the saved file, for particular inputs.", "anchors": ["main.go:main", "simplify.go:simplifyInstances", "simplify.go:simplifyFeatureClass", "simplify.go:setSimpleCoords", "cfg.go:optsFromCfg", "encode.go:groupPlnsAsGeoJSONS"]}
{"id": "C95", "title": "The lines in the saved file respect the constraints that were read", "statement": "With an exact geometry library, every line in the saved file: with the side relation requested it arises from the line read by a continuous deformation with fixed ends that touches no constraint the line read does not meet; with the geometric or side relation it meets no such constraint; with the distance relation a constraint at least the minimum distance away stays at least that far away, up to the tolerance of the queue.", "quantifier": "all input files, configurations and constraint files, constraints of any shape; single lines and feature classes", "why_tests_cant": "Statement about sets of points and homotopies for the output of the whole program.", "anchors": ["main.go:main", "simplify.go:simplifyInstances", "simplify.go:simplifyFeatureClass", "constdp/constructor.go:NewConstDP", "constdp/constructor.go:BuildContextDB"]}
{"id": "C96", "title": "The motions in the saved file follow the motions read", "statement": "With the synchronised score, exact arithmetic and increasing times, every motion in the saved file is within twice the tolerance of the motion read at every time, and within the tolerance when no check is requested.", "quantifier": "all input files, configurations and constraints; all times; single lines and feature classes", "why_tests_cant": "Quantifies over all times and over whole program runs.", "anchors": ["main.go:main", "offset.go:offsetDictionary", "simplify.go:simplifyInstances", "simplify.go:simplifyFeatureClass"]}
{"id": "C97", "title": "No data races between the goroutines", "statement": "In every execution of SimplifyInstances with at least one worker and pairwise distinct instances, and in every execution of processConstSimplification, two accesses to the same memory of which one is a write are ordered by happens-before (program order, go statements, closing of channels, WaitGroup), including the accesses of the caller before and after the call. With no worker SimplifyInstances returns while the feeder still reads, and there is a race.", "quantifier": "all interleavings, numbers of instances and workers, channel capacities, all accesses of the callers", "why_tests_cant": "A race detector sees the executions it is given; the claim is about all schedules and the happens-before relation of the memory model.", "anchors": ["constdp/fc_simplify.go:SimplifyInstances", "constdp/fc_simplify.go:SimplifyFeatureClass", "constdp/simple_0.go:processConstSimplification"]}
{"id": "C98", "title": "How a run of the program ends, exactly", "statement": "With well-behaved libraries, the program writes its output if and only if everything can be read and saved, every feature has a geometry, every line has at least two points, the threshold accepts zero (or there is no line), the input lines with line geometry precede those without, and the properties of the first part of each input line can be read back; then every sufficiently long run writes the same output, otherwise none does. When only the last two conditions fail it panics; when only the threshold fails it never ends; it ends with code 1 exactly when the configuration text can be decoded but is no configuration.", "quantifier": "all flags, files, configurations, documents, constraints; single lines and feature classes; all durations", "why_tests_cant": "An equivalence over all inputs, with divergence on one side; a test can only show runs that end.", "anchors": ["main.go:main", "cfg.go:parseInput", "simplify.go:simplifyInstances", "simplify.go:simplifyFeatureClass", "encode.go:groupPlnsAsGeoJSONS", "encode.go:getMeta", "geometry/geojson.go:parseInputLinearFeatures"]}
{"id": "C99", "title": "The result for a feature class does not depend on the run", "statement": "For a feature class, all runs keep the same vertices of every feature, whatever the iteration orders of the maps, the schedules of the goroutines, the shapes of the indices and the identifiers of the pieces are.", "quantifier": "all feature classes, options, constraints, geometry predicates, legal index heuristics, map orders, schedules, identifier sequences, previous states", "why_tests_cant": "A test sees one schedule and one map order per run; the statement compares all pairs of runs.", "anchors": ["constdp/fc_simplify.go:SimplifyFeatureClass", "constdp/fc_simplify.go:SimplifyInstances", "deform/cls.go:SelectFeatureClass", "deform/cls.go:optimizeNeighbours", "constdp/simple_0.go:findDeformableNodes", "constdp/simple_1.go:deformNodes"]}
{"id": "C100", "title": "The program saves the same file in every run", "statement": "For one input, all runs of the program that end save the same file: it does not depend on the iteration orders of the maps, on the schedules of the goroutines, or on the identifiers drawn from the counter that all goroutines share.", "quantifier": "all input files, configurations, constraints, geometry predicates, index heuristics that do not look at identifiers (proved of the code's), map orders, schedules, identifier sequences", "why_tests_cant": "A test sees one schedule, one map order and one sequence of identifiers per run; the statement compares all pairs of runs of the whole program.", "anchors": ["main.go:22-103", "simplify.go:simplifyInstances", "simplify.go:simplifyFeatureClass", "encode.go:groupPlnsAsGeoJSONS", "encode.go:indices", "constdp/fc_simplify.go:SimplifyInstances", "constdp/fc_simplify.go:SimplifyFeatureClass", "hdb/knn.go:Knn", "hdb/select.go", "hdb/split.go"]}
{"id": "C101", "title": "The work of a run is bounded by the number of segments", "statement": "The run on a line of n vertices creates at most 4(n-1) pieces (and draws as many identifiers) and goes through the body of the deformation loop at most n-1 times, whatever the geometric predicates answer.  On a feature class it creates at most 4(n-1) pieces for each line, then in the joint stage at most twice as many as there are segments beyond one for each line, and the joint loop runs at most once more than that number of segments.", "quantifier": "all lines, options, constraints, answers of the predicates, index heuristics, map orders, identifier sources, states", "why_tests_cant": "That a loop driven by geometric predicates ends within a bound is a statement about all inputs and all answers; a test only shows that chosen inputs end.", "anchors": ["constdp/simplify.go:Simplify", "constdp/fc_simplify.go:SimplifyFeatureClass", "constdp/simple_1.go:deformNodes", "constdp/simple_0.go:findDeformableNodes", "constdp/node_aggregates.go:AggregateSimpleSegments", "split/split.go:AtScoreSelection", "split/split.go:AtIndex", "decompose/decompose.go:DouglasPeucker"]}
{"id": "C102", "title": "A single segment left over could not be merged", "statement": "When the merge pass has ended, at every vertex that is not fixed and lies next to a piece of a single segment, the two pieces meeting there cannot be made one: the offset score of their union is not acceptable, or the union conflicts with other pieces of the line or with the constraints.", "quantifier": "all lines, options, constraints, fixed vertices, answers of the predicates, index heuristics, identifiers", "why_tests_cant": "That nothing mergeable is left is a statement about every pair of neighbours in every result; a test only compares chosen results, and the code tries pairs in an order that makes a missed pair rare.", "anchors": ["constdp/node_aggregates.go:AggregateSimpleSegments", "merge/merge.go:ContiguousFragmentsAtThreshold", "node/contig.go:Neighbours", "constdp/common.go:CacheKey", "constdp/validate.go:ValidateMerge", "constdp/simplify.go:Simplify"]}
{"id": "C103", "title": "The constrained simplification is a recursive procedure", "statement": "When new self-intersections need not be avoided, the pieces before the merge pass are exactly the segments of a recursive procedure: Douglas-Peucker on the whole line, its parts cut at all fixed vertices, and every part cut at its farthest vertex as long as it has more than one segment, its hull is not a line and the context validation rejects it. The result keeps only ends of these segments, and if none of them is a single segment of the line the result consists of exactly these segments.", "quantifier": "all lines, thresholds, constraints, relations, fixed vertices, answers of the predicates, index heuristics, map orders, identifiers", "why_tests_cant": "The code works on a queue in rounds with maps, worker pools and an R-tree; that all this computes one function of the line, whatever the orders, cannot be seen from chosen runs.", "anchors": ["constdp/simplify.go:Simplify", "constdp/simple_0.go:findDeformableNodes", "constdp/simple_1.go:deformNodes", "constdp/simple_2.go:cleanUpDB", "split/split.go:AtScoreSelection", "constrain/toself.go:ToSelfIntersects", "constrain/split.go:splitAtSelfIntersects", "decompose/decompose.go:DouglasPeucker"]}
{"id": "C104", "title": "More constraints keep more vertices", "statement": "Adding constraint geometries, or switching on a further context relation, never drops a vertex that was kept before.", "quantifier": "all lines, thresholds, constraint sets and supersets, relations, fixed vertices, index heuristics, map orders, identifiers", "why_tests_cant": "A statement about pairs of runs; the violations need a particular position of the constraints.", "anchors": ["constdp/validate.go:ValidateContextRelation", "constdp/simplify.go:Simplify", "constdp/node_aggregates.go:AggregateSimpleSegments", "homotopy/deform.go:chainDeformation", "relate/geom.go:IsGeomRelateValid", "relate/dist.go:IsDistRelateValid"]}
{"id": "C105", "title": "Features of a class matter to each other only through junctions", "statement": "When new self-intersections need not be avoided, every feature of a class gets the pieces and the kept vertices of its own simplification with its junctions fixed; so a feature keeps the same vertices in two classes in which it has the same junctions, and without junctions the other features do not matter at all. The recursive description of C103 holds for every feature.", "quantifier": "all feature classes with distinct identifiers, options, constraints, answers of the predicates, index heuristics, map orders, dirty flags", "why_tests_cant": "A statement about all pairs of classes; the joint stage shares one index and one queue among all features.", "anchors": ["constdp/fc_simplify.go:SimplifyFeatureClass", "constdp/fc_simplify.go:SimplifyInstances", "constdp/simple_0.go:findDeformableNodes", "deform/cls.go:SelectFeatureClass"]}
{"id": "C106", "title": "A larger threshold keeps a subset of the vertices, with constraints", "statement": "Of two runs of ConstDP.Simplify on one line with the same constraints, the one with the larger threshold keeps no vertex that the other one drops.", "quantifier": "all polylines, constraints, pairs of thresholds, answers of the predicates, index heuristics, map orders", "why_tests_cant": "Compares all pairs of runs; which vertices are cut because of a constraint depends on which were cut because of the threshold.", "anchors": ["constdp/simplify.go:Simplify", "decompose/decompose.go:DouglasPeucker", "split/split.go:AtScoreSelection"]}
{"id": "C107", "title": "Simplification of one line is a fixed procedure on scores, fixed vertices and verdicts", "statement": "When AvoidNewSelfIntersects is off, the pieces a run of Simplify returns are exactly the segments of the following procedure, and the kept vertices are their ends: recursive Douglas-Peucker on the whole line; its parts are cut at all fixed vertices; every part is cut at its farthest vertex as long as the context validation rejects it; then one pass from left to right joins each single segment of the line with the segment after it, otherwise with the one before it, if the vertex between is not fixed, the score of the union is acceptable and the validation accepts the union. Hence two lines that are judged alike on every sub-line (same vertex named by the score, same acceptance, same verdicts, same fixed vertices) keep the same vertices, whatever the coordinates, the geometry library, the hash map orders, the shape of the index and the identifiers.", "quantifier": "all lines, constraints, fixed vertices, options with AvoidNewSelfIntersects off, legal index heuristics, queues and map orders, identifiers; pairs of such runs over different geometry libraries", "why_tests_cant": "A test compares the result with an expected result for one line; that the interplay of four stages, hash maps, index and queues always computes one and the same function of the judgements on sub-lines is a statement about all runs.", "anchors": ["constdp/simplify.go:Simplify", "decompose/decompose.go:DouglasPeucker", "constrain/toself.go:ToSelfIntersects", "constdp/simple_1.go:deformNodes", "constdp/node_aggregates.go:AggregateSimpleSegments", "constdp/validate.go:ValidateContextRelation"]}
{"id": "C108", "title": "Moving, turning, mirroring or scaling everything keeps the same vertices", "statement": "When a line and its constraints are mapped together by a similarity of the plane (shift, rotation, reflection, uniform scaling), threshold and minimum distance are scaled by the same factor and the switches stay the same, the simplified line has the same vertex numbers.", "quantifier": "all lines, all constraints (any non-empty sets of points), all similarities, all options with AvoidNewSelfIntersects off, exact arithmetic, legal index heuristics, queues and map orders", "why_tests_cant": "Independence of position, orientation and scale is a statement about pairs of runs for infinitely many maps; index order, vertex sorting and queue order all depend on the coordinates, and a test tries a few maps on a few lines.", "anchors": ["constdp/simplify.go:Simplify", "offset/dp.go:maxOffset", "lnr/self.go:planarIntersects", "constdp/validate.go:ValidateContextRelation", "relate/geom.go:IsGeomRelateValid", "relate/dist.go:IsDistRelateValid", "homotopy/deform.go:chainDeformation", "constrain/toself.go:ToSelfIntersects"]}
{"id": "C109", "title": "The direction in which a line is given does not matter", "statement": "A line given in the other direction, with the same constraints, options and constraint vertices, is simplified to the same vertices (vertex v of the one result is vertex n-1-v of the other).", "quantifier": "all lines, all constraints (any non-empty sets of points), all options with AvoidNewSelfIntersects off, exact arithmetic, legal index heuristics, queues and map orders", "why_tests_cant": "Every stage walks the line from its first vertex to its last; that the results of the two directions coincide is a statement about pairs of runs, and a test compares a few lines which rarely have ties or leftover single segments.", "anchors": ["constdp/simplify.go:Simplify", "offset/dp.go:maxOffset", "decompose/decompose.go:DouglasPeucker", "constdp/node_aggregates.go:AggregateSimpleSegments", "homotopy/deform.go:chainDeformation", "constdp/validate.go:ValidateContextRelation"]}
{"id": "C110", "title": "Simplifying a simplified line again changes nothing", "statement": "The line through the kept vertices, simplified again with the same constraints and options, keeps all its vertices.", "quantifier": "all lines, all constraints (any non-empty sets of points), all options with AvoidNewSelfIntersects off, exact arithmetic, legal index heuristics, queues and map orders", "why_tests_cant": "The second run sees other vertex numbers, other sub-lines and other hulls; that every rejection of the first run is a rejection again follows from unions over all pieces, which no test of a few lines establishes.", "anchors": ["constdp/simplify.go:Simplify", "offset/dp.go:maxOffset", "decompose/decompose.go:DouglasPeucker", "constdp/node_aggregates.go:AggregateSimpleSegments", "constdp/validate.go:ValidateContextRelation", "relate/geom.go:IsGeomRelateValid", "relate/dist.go:IsDistRelateValid"]}
{"id": "C111", "title": "Constraints out of reach of a line do not matter", "statement": "Constraints farther than the minimum distance from the hull of every sub-line of a line can be added or taken away without any effect on the vertices that are kept.", "quantifier": "all lines, all feature classes, all lists of constraints, all options, all legal index heuristics, map orders, orders of constraints and streams of identifiers", "why_tests_cant": "An added constraint changes the shape of the constraint index and the order in which the search sees its entries; that this never reaches a verdict is a statement about all indexes, all queues and all runs.", "anchors": ["constdp/validate.go:ValidateContextRelation", "constdp/simplify.go:Simplify", "constdp/fc_simplify.go:SimplifyFeatureClass", "constdp/constructor.go:BuildContextDB", "hdb/knn.go:Knn", "hdb/kobj.go:kobjCmp"]}
{"id": "C112", "title": "With inexact distances the constraints are still respected, up to the error of the distances", "statement": "Suppose distances between geometries and to boxes are computed with an error of at most e, and the queue of the search has tolerance t, with t + 3e not above the minimum distance m. Then the simplified line still meets no constraint that the input line does not meet, is still a deformation of the input line around those constraints, and a constraint at least m + e away from the input line is at least m - t - 3e away from the simplified line.", "quantifier": "all lines, all feature classes, all constraints (non-empty sets of points), all options, all errors within the bound (different for each pair of operands), all legal queues and index heuristics, the whole program up to the saved file", "why_tests_cant": "The error of a distance can differ for each pair of operands and can hide a constraint from the search behind a box whose distance is too large; no set of inputs shows that the errors of all boxes on a path and of the constraint itself never add up to more than the stated bound.", "anchors": ["constdp/validate.go:ValidateContextRelation", "relate/dist.go:IsDistRelateValid", "hdb/knn.go:Knn", "hdb/kobj.go:kobjCmp", "constdp/simplify.go:Simplify", "constdp/fc_simplify.go:SimplifyFeatureClass"]}
{"id": "C113", "title": "Inexact tests for common points: constraints are respected up to the part of them the test can be trusted on", "statement": "Suppose distances are wrong by at most e, and the test whether a geometry meets a constraint never overlooks the inner part of the constraint and reports nothing outside an outer part that lies within r of the constraint; in between it may answer at will. If the tolerance t of the queue satisfies t + 3e + r <= m (m the minimum distance), then the simplified line does not meet the inner part of a constraint whose outer part the input line does not meet, it arises from the input line by a continuous deformation that never touches those inner parts, and a constraint at least m + e away from the input line is at least m - t - 3e away from the simplified line.", "quantifier": "all lines, all feature classes, all constraints (non-empty sets of points) with all inner and outer parts, all options, all errors within the bounds, all legal queues and index heuristics, the whole program up to the saved file", "why_tests_cant": "A test for common points in floating point fails only for geometries that nearly touch, differently for each pair; whether wrong answers of several tests on the way can add up to a constraint being crossed cannot be seen from inputs on which the tests happen to be right.", "anchors": ["relate/geom.go:IsGeomRelateValid", "relate/dist.go:IsDistRelateValid", "homotopy/deform.go:chainDeformation", "constdp/validate.go:ValidateContextRelation", "constdp/simplify.go:Simplify", "constdp/fc_simplify.go:SimplifyFeatureClass", "hdb/knn.go:Knn"]}
{"id": "C114", "title": "Distances to boxes of the index, measured to the polygons of their corners, are good enough", "statement": "The polygon MBRToPolygon draws for a box with real sides covers exactly the points of the box. For bounded constraints the search of the constraint index measures distances only to such boxes, and the guarantees of C113 (constraints neither crossed nor approached) hold when the distance to a box is the distance to its polygon, without any assumption of its own about distances to boxes.", "quantifier": "all boxes with real sides, all bounded non-empty constraints, all lines, feature classes, options, errors within the bounds of C113, all legal queues and index heuristics, the whole program up to the saved file", "why_tests_cant": "The search prunes by distances to boxes of inner nodes of the index, which depend on how the index happened to group the constraints; a polygon that misses part of its box shows only for groupings and query positions in which the missing part is the nearest one.", "anchors": ["box/box.go:MBRToPolygon", "knn/knn.go:ScoreFn", "hdb/knn.go:Knn", "constdp/validate.go:ValidateContextRelation", "constdp/simplify.go:Simplify", "constdp/fc_simplify.go:SimplifyFeatureClass"]}
{"id": "C115", "title": "With rounding, the motions in the saved file follow the motions read up to an explicit error", "statement": "When the configuration names the score function sed, and arithmetic rounds with a small relative and absolute error, every motion of bounded coordinates and duration read from the input is saved as a motion that is within twice the tolerance plus an explicit rounding error of it at every time, within once that when no check is requested; the same bound holds for the Fréchet distance of the two lines. Under the same bounds every computed score is a finite number that is not negative, and the vertex it names lies strictly between the ends of the piece, so the run returns.", "quantifier": "all arithmetics with the stated error bounds and correct signs, all motions within the stated limits, all options, constraints, geometry libraries, index heuristics and queues, the whole program up to the saved file", "why_tests_cant": "Rounding errors differ with magnitude and duration of the data; a test compares a few files with a tolerance of its own, it does not bound the error over all motions and does not see where cancellation near the limits makes a score negative or not a number.", "anchors": ["offset/sed.go:maxSEDOffset", "offset/sed.go:hypot", "constdp/simplify.go:Simplify", "constdp/fc_simplify.go:SimplifyFeatureClass", "decompose/decompose.go:DouglasPeucker"]}
{"id": "C116", "title": "Convex hulls that leave out small corners are good enough", "statement": "When the convex hulls of the geometry library leave out corners that stand out by at most σ (so that thin pieces can be taken for segments, which are not examined at all), distances have errors up to ε and the test for common points errs only between an inner and an outer part of each constraint that are 2σ apart, the simplified line still does not meet the inner part of a constraint whose outer part the line does not meet, is a deformation of the line that avoids such inner parts, and a constraint at least m + ε away stays at least m - τ - 2σ - 3ε away.", "quantifier": "all libraries with the stated errors, all lines, feature classes, options and constraints, all legal queues and index heuristics, minimum distance at least τ + σ + 3ε + ρ, the whole program up to the saved file", "why_tests_cant": "The hull decides both which constraints are looked at and whether a piece is examined at all; with floating point a nearly straight piece is or is not a segment depending on the last bits. A test sees one outcome per input and cannot show that a missed corner never hides a constraint.", "anchors": ["constdp/simple_0.go:findDeformableNodes", "constdp/validate.go:ValidateContextRelation", "relate/geom.go:IsGeomRelateValid", "relate/dist.go:IsDistRelateValid", "constdp/simplify.go:Simplify", "constdp/fc_simplify.go:SimplifyFeatureClass"]}
{"id": "C117", "title": "Where the saved lines meet themselves and each other", "statement": "With an exact geometry library, whatever lines are read and however the program is configured: each line in the saved file consists of points of the line read at increasing indices; if planar self-intersections are to be kept, among them are the vertices at which the line returns to a place it has already been, with non-planar ones also the ends of the segments that cross, and in a feature class the vertices it shares with other lines; if new self-intersections are to be avoided, two segments of a line treated on its own have a common point only if the parts of the line they replace have one, and for a feature class in which no sub-line is near sub-lines of two lines with the same index range, so do two segments of any two lines; except where one of the two parts is straight and the other is not.", "quantifier": "all configurations, all documents with any number of parts, all exact libraries with any legal queue, index heuristics and ordering of map keys, all segment arrangements in the plane, the whole program from the arguments to the saved file", "why_tests_cant": "The relation is between the points in the output file and the geometry of the input file over all lines at once. A test compares particular files; a vertex lost between two lines, or a crossing that appears after the second line of a class is simplified, needs the right pair of lines.", "anchors": ["constdp/simplify.go:Simplify", "constdp/fc_simplify.go:SimplifyFeatureClass", "constdp/fc_simplify.go:SimplifyInstances", "constrain/toself.go:ToSelfIntersects", "constrain/split.go:splitAtSelfIntersects", "deform/ln.go:Select", "deform/cls.go:SelectFeatureClass"]}
{"id": "C118", "title": "Crossings that exist are kept and hardly move", "statement": "With an exact geometry library and new self-intersections to be avoided: if two parts of lines meet, of one line or in a feature class of two, then the segments that replace them meet; and if they meet at single points only and, within one line, have no common end, then every common point of the segments is within the non-planar displacement of every common point of the parts.", "quantifier": "all configurations, all documents with any number of parts, all exact libraries whose intersection reports common points (all of them where there are finitely many), any displacement, any legal queue, index heuristics and ordering of map keys, all pairs of output segments, the whole program from the arguments to the saved file", "why_tests_cant": "The displacement is checked in a loop that selects, splits and checks again until nothing is left; whether a pair that was accepted is still within the bound at the end depends on all later splits. A test looks at one crossing of one line.", "anchors": ["deform/noncontig.go:nonContiguousCandidates", "deform/ln.go:Select", "deform/cls.go:SelectFeatureClass", "constdp/simple_1.go:deformNodes", "constdp/simplify.go:Simplify", "constdp/fc_simplify.go:SimplifyFeatureClass"]}
{"id": "C119", "title": "The keys of the configuration", "statement": "Every setting is taken from the last member of the configuration text that stands under its key of the readme, in upper or lower case, and is not null; a setting nobody gives is the empty text, zero or no; other keys, and the order of keys that occur once, do not matter; a value of the wrong type ends the program with code 1, a missing type of simplification with code 13, a missing input with a panic; what the configuration prints is read back as itself.", "quantifier": "all lists of members with any keys and values, all configurations, all arguments, files and parsers of the JSON syntax, the whole program", "why_tests_cant": "Fourteen keys in any order, repeated, in any mixture of cases, with any value: a table test of a few samples does not rule out that two tags are confused or that a repeated or missing key is handled otherwise.", "anchors": ["cfg.go:ArgObj", "cfg.go:String", "cfg.go:parseInput", "main.go:main"]}
{"id": "C120", "title": "The saved file is what a procedure of plane geometry prescribes", "statement": "Every saved line consists of exactly the vertices that a procedure written down in terms of distances, segments, triangles and obstacle sets of the plane prescribes: thin the line at the farthest vertices, keep junctions, places visited twice and ends of crossing segments, cut what the relations do not allow, join single segments again where that is near and allowed. So one fixed function of the request and the places of the lines describes all runs.", "quantifier": "all files, configurations (type dp, new self-intersections allowed), constraints (any non-empty sets), one by one and as feature class, all representations of points and constraints with exact geometry, all queues, index heuristics, map orders and identifiers", "why_tests_cant": "The complete input-output relation of the program, for infinitely many files: a test compares a few outputs with expected ones.", "anchors": ["main.go:main", "constdp/simplify.go:Simplify", "constdp/fc_simplify.go:SimplifyFeatureClass", "constdp/node_aggregates.go:AggregateSimpleSegments", "decompose/decompose.go:DouglasPeucker", "homotopy/deform.go:chainDeformation"]}
{"id": "C121", "title": "Moving the files moves the saved file", "statement": "When lines, constraints, tolerance and minimum distance are moved, turned, mirrored or scaled together, the lines of the file are put in another order and constraints out of reach of a line are added or removed, the program saves the line with the same vertex numbers. If self-intersections are kept, the map has to keep the order of the places.", "quantifier": "all pairs of runs of the program on files related in this way, all similarities of the plane, exact geometry, type dp, new self-intersections allowed, one by one and as feature class", "why_tests_cant": "A statement about pairs of runs for infinitely many maps and files; index, queues and sorting depend on the coordinates.", "anchors": ["main.go:main", "constdp/simplify.go:Simplify", "constdp/fc_simplify.go:SimplifyFeatureClass", "constdp/validate.go:ValidateContextRelation"]}
{"id": "C122", "title": "Rounding errors smaller than the margins do not change the saved file", "statement": "Intersection tests that report near misses, distances and boxes that are wrong by a bounded amount and offsets that are wrong by a bounded amount leave the saved vertices exactly as the procedure of plane geometry prescribes them, as long as the input keeps a margin: no sub-line has an offset within that bound of the tolerance, one vertex of each sub-line to be cut lies farther out than the others by twice the bound, chords meet constraints or stay clear of them, and distances to constraints differ from the minimum distance by the bound.", "quantifier": "all files, configurations (type dp, new self-intersections allowed, crossings of a line with itself not kept), constraints, bounds for each kind of error, inputs with margins above these bounds, all queues, heuristics and identifiers", "why_tests_cant": "Quantifies over all ways of rounding within the bounds and all inputs with margins; a test sees one arithmetic and few inputs.", "anchors": ["main.go:main", "constdp/simplify.go:Simplify", "constdp/validate.go:ValidateContextRelation", "offset/dp.go:maxOffset", "hdb/knn.go:Knn"]}
{"id": "C123", "title": "The saved motions are what a procedure of plane geometry and time prescribes", "statement": "With simplification type sed every saved line whose times increase consists of exactly the stops that a written-down procedure prescribes: thin the motion at the stops that are farthest from where a uniform motion would be at their time, keep junctions, places visited twice and ends of crossing segments, cut what the relations do not allow, join single segments again where that is near in this sense and allowed.", "quantifier": "all files, configurations (type sed, new self-intersections allowed), constraints (any non-empty sets), one by one and as feature class, all motions with increasing times, exact geometry and exact arithmetic in offset/sed.go, all queues, heuristics and identifiers", "why_tests_cant": "The complete input-output relation of the program for infinitely many motions: a test compares a few outputs with expected ones.", "anchors": ["main.go:main", "constdp/simplify.go:Simplify", "constdp/fc_simplify.go:SimplifyFeatureClass", "offset/sed.go:maxSEDOffset", "decompose/decompose.go:DouglasPeucker", "constdp/node_aggregates.go:AggregateSimpleSegments"]}
{"id": "C124", "title": "What is saved for a motion does not depend on the clock, the place, constraints out of reach or a common drift", "statement": "With simplification type sed, two runs save the same stop numbers for a motion and for the same motion shifted, turned, mirrored or scaled together with the constraints and the lengths of the configuration, with times read from a clock with another start and another unit, with the lines in another order and with constraints added or removed that are out of reach of the line. If nothing but the tolerance is asked for, they also save the same stop numbers when a uniform drift (a constant velocity) is added to the motion.", "quantifier": "all pairs of files, configurations (type sed, new self-intersections allowed), constraints (any non-empty sets), one by one and as feature class, all motions with increasing times, all similarities of the plane (keeping the order of places if self-intersections are kept), all clocks, all velocities; exact geometry and exact arithmetic in offset/sed.go", "why_tests_cant": "Relates pairs of executions on all inputs and all transformations; a test compares a few pairs.", "anchors": ["main.go:main", "constdp/simplify.go:Simplify", "constdp/fc_simplify.go:SimplifyFeatureClass", "offset/sed.go:maxSEDOffset", "decompose/decompose.go:DouglasPeucker", "constdp/node_aggregates.go:AggregateSimpleSegments"]}
{"id": "C125", "title": "Rounding errors smaller than the margins do not change which stops of a motion are saved", "statement": "With simplification type sed the program saves of every motion exactly the stops that the exact procedure of geometry and time (C123) prescribes, although floating-point arithmetic rounds, if on this motion all decisions are made with room to spare: with coordinates up to R and a duration up to T the error of a synchronised offset in offset/sed.go is at most sedError = 115 κ R + 14 η (1 + R + T), no sub-motion has its largest offset within that error of the tolerance, where a sub-motion is cut the farthest stop is more than twice that error farther than the others, and the relations to the constraints do not hinge on the errors of the geometry library.", "quantifier": "all files, configurations (type sed; self-intersections neither kept nor avoided), constraints (any non-empty sets), one by one and as feature class; all arithmetics with relative error κ ≤ 1/64 and absolute error η within the stated limits, all geometry libraries with distance error ε and border error ρ, all queues off by at most τ; all motions within the limits whose decisions have these margins", "why_tests_cant": "Quantifies over all roundings, all libraries with errors and all motions with margins; a test runs one arithmetic on some motions.", "anchors": ["main.go:main", "offset/sed.go:maxSEDOffset", "offset/sed.go:hypot", "constdp/simplify.go:Simplify", "decompose/decompose.go:DouglasPeucker", "constdp/validate.go:ValidateContextRelation", "constdp/node_aggregates.go:AggregateSimpleSegments"]}
{"id": "C126", "title": "Rounding errors below the margins change nothing, also where self-intersections and junctions are kept", "statement": "Let the relations, the searches and the scores of the external library be computed with bounded errors (as in C122 and C125), let self-intersections and junctions of a feature class be asked for, and let the places where lines meet be found exactly. If the distance from a point to a box has an error of at most ε and EpsilonDist is at least τ+3ε, then every line on which all decisions are made with room to spare is saved with exactly the vertices that the exact procedure prescribes, for the type dp as for the type sed. The vertices that must be kept are the junctions, the places visited twice and the ends of crossing segments, stated in terms of the places alone.", "quantifier": "for all libraries with errors below the bounds, all configurations without AvoidNewSelfIntersects, all lines, feature classes and constraints, and every order of the schedule and the index", "why_tests_cant": "Tests run one library with one set of rounding errors. That no error below the bounds changes which piece around a crossing is found, split and kept needs an argument over all errors and all shapes of the search tree.", "anchors": ["constrain/split.go:splitAtSelfIntersects", "constrain/toself.go:ToSelfIntersects", "hdb/knn.go:Knn", "constdp/simplify.go:Simplify", "constdp/fc_simplify.go:SimplifyFeatureClass"]}
{"id": "C127", "title": "Places known up to an error: the same vertices are saved where decisions have room to spare", "statement": "Take two runs of the program with the same request, whose files differ in that every place of the second is within η of the corresponding place of the first (times unchanged). Let every decision on a line of the first file be made with room to spare: segments and triangles meet the constraints firmly or stay more than η off them, distances are not within η of the minimum distance, sub-lines that are not allowed are not nearly straight, offsets are not within 2η of the threshold, and where a sub-line is cut one vertex is farther out than the others by more than 4η. If the same vertices must be kept in both (junctions, places visited twice, crossings), the near line of the second file is saved with the same vertex numbers. This holds for the type dp and the type sed.", "quantifier": "for all lines and motions, all errors η ≥ 0, all constraints, thresholds and relations, all exact programs without AvoidNewSelfIntersects, and every order of the schedule", "why_tests_cant": "Tests move places by a few chosen errors. That no movement below η changes the result is a statement about a continuum of inputs and about every decision of the run, including decisions on sub-lines that a given test never reaches.", "anchors": ["main.go:main", "constdp/simplify.go:Simplify", "decompose/decompose.go:DouglasPeucker", "offset/dp.go:maxOffset", "offset/sed.go:maxSEDOffset", "constdp/validate.go:ValidateContextRelation", "constdp/node_aggregates.go:AggregateSimpleSegments"]}
{"id": "C128", "title": "Lines and constraints known up to an error: the same vertices are saved where decisions have room to spare", "statement": "Take two runs of the program with the same request, whose files and constraints differ in that every place of a line and every vertex of a constraint of the second run is within η of the corresponding one of the first. A constraint is drawn from its vertices by any rule under which the drawing moves no farther than the vertices, for instance as a line or as a convex polygon. If every decision on a line is made with room to spare for both errors (margins of 2η for meeting and for distances, 2η for offsets) and the same vertices must be kept, the near line of the second file is saved with the same vertex numbers. This holds for the type dp and the type sed.", "quantifier": "for all lines, motions and constraints, all errors η ≥ 0, all thresholds and relations, all exact programs without AvoidNewSelfIntersects, and every order of the schedule", "why_tests_cant": "Tests move lines and constraints by a few chosen errors. That no joint movement below η changes the result is a statement about a continuum of pairs of inputs.", "anchors": ["main.go:main", "constdp/simplify.go:Simplify", "constdp/validate.go:ValidateContextRelation", "relate/geom.go:IsGeomRelateValid", "relate/dist.go:IsDistRelateValid", "homotopy/homotopy.go:Homotopy"]}
{"id": "C129", "title": "Motions known up to errors in place and time: the same stops are saved where decisions have room to spare", "statement": "Take two runs of the program of type sed with the same request. Every place of the second file is within η and every time within θ of the corresponding one of the first file, and every vertex of a constraint is within η. The true motion is slower than V between successive stops. If every decision on the true motion is made with room to spare for these errors (2η + 2Vθ for the synchronized offsets, 2η for meeting and distances) and the same vertices must be kept, the measured motion of the second file is saved with the same vertex numbers.", "quantifier": "for all motions with increasing times, all errors η, θ ≥ 0 and speed bounds V, all constraints, thresholds and relations, all exact programs without AvoidNewSelfIntersects, and every order of the schedule", "why_tests_cant": "Tests move clocks by a few chosen errors. The bound 2η + 2Vθ on the change of a synchronized offset holds for a continuum of motions and errors.", "anchors": ["main.go:main", "offset/sed.go:maxSEDOffset", "constdp/simplify.go:Simplify", "decompose/decompose.go:DouglasPeucker"]}
{"id": "C130", "title": "Rounded computation on measured data saves what the exact procedure prescribes for the true data", "statement": "The library computes distances, meeting and scores with errors (as in C126) and the file and the constraints hold places known up to η and times known up to θ (as in C128 and C129). If decisions on the measured line have room to spare for the errors of the library, decisions on the true line have room to spare for the errors of measurement, and the same vertices must be kept, the program saves the measured line with exactly the vertex numbers the exact procedure of C120 prescribes for the true line among the true constraints. This holds for the type dp and the type sed.", "quantifier": "for all true lines, motions and constraints, all measured ones near them, all rounded libraries and floating-point operations within the stated errors, all requests without AvoidNewSelfIntersects, and every order of the schedule", "why_tests_cant": "Neither the true data nor the exact arithmetic is available to a test: it sees one measured file and one rounding.", "anchors": ["main.go:main", "offset/sed.go:maxSEDOffset", "constdp/simplify.go:Simplify", "constdp/validate.go:ValidateContextRelation"]}
{"id": "C131", "title": "Where no decision is on the edge, all near enough lines are saved with the same vertex numbers", "statement": "For every line on which no decision is on the edge there is a positive distance such that every line or motion within it is saved with the vertex numbers prescribed for the given one, in all runs with the same request, if the same vertices must be kept. On the edge means: a segment or triangle of vertices that meets a constraint but not after arbitrarily small moves (or the other way round), a distance equal to the minimum distance, a straight sub-line that is not allowed, a largest offset equal to the tolerance, or two farthest vertices where the sub-line is cut. For a line in general position all tolerances but finitely many and all minimum distances but finitely many put no decision on the edge.", "quantifier": "for all lines and motions, all finite sets of non-empty constraints, all thresholds and relations, all exact programs without AvoidNewSelfIntersects, and every order of the schedule", "why_tests_cant": "That the saved file is locally constant is a statement about all lines in a neighbourhood; a test can move a line only finitely often.", "anchors": ["main.go:main", "constdp/simplify.go:Simplify", "constdp/validate.go:ValidateContextRelation", "relate/geom.go:IsGeomRelateValid", "relate/dist.go:IsDistRelateValid", "offset/dp.go:maxOffset"]}
{"id": "C132", "title": "The record of unmerged fragments is right", "statement": "After merging by fragment size, started with an empty record of unmerged fragments, every piece in the record is a given fragment of the asked size that was not removed by a merge and that has a neighbour; and every given fragment of the asked size that was not removed and has a neighbour that was not removed is in the record. In particular a fragment recorded first and merged later, from its own turn or as the neighbour of another one, does not stay in the record.", "quantifier": "all covers of a line, vertex sets, fragment sizes, scores, indexes holding the cover, and distances for which being within the tolerance does not depend on the order of the arguments", "why_tests_cant": "The record is written, struck off and read across the rounds of a loop with three dictionaries over arbitrary covers; that no stale entry is left depends on nearness and mergeability being symmetric.", "anchors": ["merge/merge.go:ContiguousFragmentsBySize", "knn/neighbours.go:NodeNeighbours"]}
