{"id": "C01", "title": "Output points are the input points in call order", "statement": "Whatever chain of Builder calls is made (polygon, holes, single and bulk Steiner points, in any order), `Triangles::points()` of the finished triangulation is exactly the concatenation of the points passed in, in call order, and nothing else; in particular the two artificial points never show.", "quantifier": "all builder call chains, all coordinates, all sizes", "why_tests_cant": "a test fixes one chain; the claim is about every interleaving of builder calls and every length", "anchors": ["src/cdt.rs: Builder::new, add_hole(s), add_steiner_point(s), build, Triangles::points", "src/points.rs: PointsBuilder, Points::new, points_without_fake"]}
{"id": "C02", "title": "User data stays aligned with the points", "statement": "If every source passed to the builder carries as many data items as points, then `Triangles::data()` has exactly as many items as `points()` and item i is the data that was passed with point i.", "quantifier": "all data types, all builder call chains whose sources are individually aligned", "why_tests_cant": "alignment is a relation between two growing vectors over arbitrary call histories", "anchors": ["src/cdt.rs: Builder, Triangles::data", "src/lib.rs: PointDataSource"]}
{"id": "C03", "title": "The builder panics exactly on a repeated neighbouring point", "statement": "Adding a polygon or hole panics if and only if two cyclically consecutive points of that polyline are equal (a one-point polyline counts as equal to itself); Steiner calls never panic; the limit of two edges per point never triggers.", "quantifier": "all polylines of any length and all builder states reachable by the API", "why_tests_cant": "the absence of a panic over unbounded polylines cannot be sampled", "anchors": ["src/cdt.rs: parse_polyline", "src/shape.rs: Edge::new", "src/points.rs: PointEdges::push"]}
{"id": "C04", "title": "Exactly the polyline edges become constraints", "statement": "During a successful triangulation the observer's `edge_event` is called exactly once for every edge of the polygon and of each hole (closing edge included) and for no other pair; each call has the higher endpoint (y, then x) as q.", "quantifier": "all builder call chains whose triangulation succeeds", "why_tests_cant": "a multiset equality between input edges and callbacks for all inputs", "anchors": ["src/cdt.rs: parse_polyline", "src/points.rs: iter_point_by_y", "src/sweeper.rs: sweep_points"]}
{"id": "C05", "title": "Sweep order and observer protocol", "statement": "In a successful run `enter_point_event`/`exit_point_event` are called exactly once, properly paired, for every input point except the lowest one, in increasing (y, x) order; the edge events of a point follow directly its exit; then one `sweep_done` and one `finalized`, in that order; legalization callbacks only occur nested in point or edge events.", "quantifier": "all inputs whose triangulation succeeds, all points", "why_tests_cant": "it is a property of whole callback traces of unbounded length", "anchors": ["src/sweeper.rs: sweep_points", "src/points.rs: Points::new", "src/cdt.rs: Observer, triangulate_with_observer"]}
{"id": "C06", "title": "Reported vertex indices are valid", "statement": "Every index returned by `triangle_list_indices` is a valid index of a point known to the run (input points or the two artificial points), and the three indices of one triangle are pairwise different.", "quantifier": "all inputs, all runs that do not take the defective branch sweeper.rs:698 (see C33)", "why_tests_cant": "must hold for every triangle of every output", "anchors": ["src/cdt.rs: triangle_list_indices", "src/sweeper.rs: point_event, fill_one, rotate_triangle_pair"]}
{"id": "C07", "title": "Iterator and index list agree", "statement": "Iterating `Triangles` yields as many items as there are result triangles, the i-th item being the three points whose indices are entries 3i, 3i+1, 3i+2 of `triangle_list_indices`; after that `next` returns None for ever.", "quantifier": "all results of triangulate", "why_tests_cant": "agreement of two traversals for arbitrary result lengths", "anchors": ["src/cdt.rs: Iterator for Triangles, triangle_list_indices"]}
{"id": "C08", "title": "No triangle is reported twice", "statement": "The result never contains the same triangle twice: neither the same mesh triangle nor, in runs that do not take the defective branch sweeper.rs:698, two triangles with the same vertex cycle. In such runs at every callback every directed edge belongs to at most one triangle, degenerate triangles included.", "quantifier": "all inputs whose triangulation succeeds", "why_tests_cant": "needs an invariant of the flood fill over arbitrary meshes", "anchors": ["src/sweeper.rs: clean_mesh, finalize_polygon"]}
{"id": "C09", "title": "The result is exactly one constraint-bounded region", "statement": "The reported triangles are exactly the triangles reachable from the start triangle by crossing edges that are not constrained: every reported triangle is reachable, and across an unconstrained edge of a reported triangle there is either no triangle or another reported triangle.", "quantifier": "all meshes and all inputs whose triangulation succeeds", "why_tests_cant": "reachability over arbitrary graphs", "anchors": ["src/sweeper.rs: clean_mesh"]}
{"id": "C10", "title": "Adjacency is consistent at every observer callback", "statement": "Whenever an observer is called after a point or edge event, the triangle mesh it can inspect is consistent: neighbour links are symmetric, linked triangles share the edge with opposite directions, all ids are in range.", "quantifier": "all inputs, all callbacks of runs that do not take the defective branch sweeper.rs:698", "why_tests_cant": "an invariant over all interleavings of insertions, fills and flips", "anchors": ["src/triangles.rs: mark_neighbor_for_two_mut", "src/sweeper.rs: point_event, fill_one, legalize, rotate_triangle_pair, flip_edge_event"]}
{"id": "C11", "title": "No triangle is inverted", "statement": "With exact predicates, every triangle of the mesh, hence every reported triangle, has its three vertices in counter-clockwise order (degenerate collinear fills excepted, and these are never reversed).", "quantifier": "all inputs (also self-intersecting polygons and arbitrary Steiner points) in runs that do not take the defective branch sweeper.rs:698", "why_tests_cant": "geometric invariant over all point sets", "anchors": ["src/sweeper.rs: point_event, fill_one, should_fill, fill_basin_req, fill_left_*, fill_right_*, legalize, flip_edge_event"]}
{"id": "C12", "title": "Constrained Delaunay property", "statement": "After every point event and every edge event, and in the final mesh, every edge that is not marked constrained is locally Delaunay: the opposite vertex is not strictly inside the circumcircle. With symmetric constraint marks this is `verify_triangles() == true`.", "quantifier": "all inputs, all callbacks of runs that do not take the defective branch sweeper.rs:698", "why_tests_cant": "it is about all edges of all meshes and the order in which flips are done", "anchors": ["src/sweeper.rs: legalize, is_legalize, verify_triangles", "src/utils.rs: in_circle"]}
{"id": "C13", "title": "The advancing front is an x-monotone chain that bounds the mesh", "statement": "At every observer callback after an event the front runs from the left artificial point to the right one with strictly increasing (x, y) keys, every front node refers to the triangle lying under the front edge to its right, and the mesh has no other open edge than the front edges and the bottom edge.", "quantifier": "all inputs, all callbacks of runs that do not take the defective branch sweeper.rs:698", "why_tests_cant": "invariant across all insertions and deletions", "anchors": ["src/advancing_front/vec_backed.rs", "src/sweeper.rs: map_triangle_to_nodes, fill_one, point_event"]}
{"id": "C14", "title": "Triangle count law", "statement": "After n points have been swept, (number of mesh triangles) + (number of front nodes) = 2n + 2 (n counts the initial lowest point), whatever was filled or flipped.", "quantifier": "all inputs, after every event", "why_tests_cant": "conservation law over all runs", "anchors": ["src/sweeper.rs: point_event, fill_one"]}
{"id": "C15", "title": "Legalization terminates", "statement": "From every consistent mesh without inverted triangles the legalization of any of its triangles finishes: it performs finitely many flips, whatever the point set (cocircular and collinear points included), and leaves a mesh that is again consistent and without inverted triangles.", "quantifier": "all consistent meshes without inverted triangles over all point sets, any start triangle", "why_tests_cant": "termination on all inputs cannot be tested", "anchors": ["src/sweeper.rs: legalize"]}
{"id": "C16", "title": "The result is a function of the input", "statement": "A successful result does not depend on the recursion bound of the model: with any larger bound the run returns the same triangles and the same callbacks, so `triangulate` is deterministic.", "quantifier": "all inputs and all bounds", "why_tests_cant": "quantifies over all bounds", "anchors": ["src/cdt.rs: triangulate_with_observer"]}
{"id": "C17", "title": "Constraints are never flipped away by legalization or filling", "statement": "Once an edge is marked constrained on both sides, no later point event, fill or legalization removes the edge or the mark.", "quantifier": "all consistent meshes with symmetric marks, all point events and fills", "why_tests_cant": "temporal property over all suffixes of all runs", "anchors": ["src/sweeper.rs: legalize, fill_one, point_event", "src/triangles.rs: mark_neighbor_for_two_mut"]}
{"id": "C18", "title": "An edge event inserts its edge", "statement": "When the observer's `edge_event(p, q)` is called, the mesh contains the edge pq and it is marked constrained.", "quantifier": "all inputs, all edge events of runs that take neither the defective branch sweeper.rs:698 nor the collinear branches", "why_tests_cant": "partial correctness of a mutually recursive flip procedure for all meshes", "anchors": ["src/sweeper.rs: edge_event, edge_event_process, flip_edge_event, flip_scan_edge_event"]}
{"id": "C19", "title": "Triangles do not overlap", "statement": "At every callback no point of the plane is in the interior of two mesh triangles; hence two different reported triangles do not overlap.", "quantifier": "all inputs, all points of the plane, runs that do not take the defective branch sweeper.rs:698", "why_tests_cant": "quantifies over all pairs of triangles and all points of the plane", "anchors": ["src/sweeper.rs"]}
{"id": "C20", "title": "The mesh covers exactly the region under the front", "statement": "At every callback the areas of the mesh triangles add up to the area between the bottom line and the front, every point strictly below the front and above the bottom line is in a non-degenerate triangle or on its border, and every interior point of a triangle is below the front and above the bottom line.", "quantifier": "all inputs, all callbacks, all points of the plane, runs that do not take the defective branch sweeper.rs:698", "why_tests_cant": "global geometric identity", "anchors": ["src/sweeper.rs"]}
{"id": "C21", "title": "Memory safety of the unchecked accesses", "statement": "In runs that do not take the defective branch sweeper.rs:698, the only unchecked access that can go wrong is the read of a missing neighbour in the edge flip; points, triangles and front nodes are always read in bounds and the six mutable references of a flip never alias.", "quantifier": "all inputs", "why_tests_cant": "undefined behaviour must be excluded for every input", "anchors": ["src/triangles.rs: get_unchecked, get_mut_six", "src/points.rs: get_point_uncheck", "src/advancing_front/vec_backed.rs: locate_node"]}
{"id": "C22", "title": "Panics are limited to edge insertion", "statement": "For inputs with different points and a non-degenerate bounding box, a triangulation can panic only inside edge events; point events, filling, legalization and finalization never panic.", "quantifier": "all inputs, runs that do not take the defective branch sweeper.rs:698", "why_tests_cant": "absence of panics for every input", "anchors": ["src/sweeper.rs", "src/advancing_front/vec_backed.rs"]}
{"id": "C23", "title": "Degenerate inputs fail loudly", "statement": "Triangulating without points panics; if all points have the same x the run panics as soon as a second point is swept.", "quantifier": "all inputs with no point / with all x equal", "why_tests_cant": "all sizes", "anchors": ["src/cdt.rs: triangulate_with_observer", "src/points.rs: Points::new"]}
{"id": "C24", "title": "Artificial points enclose the input from below", "statement": "With exact arithmetic and a non-degenerate bounding box the two artificial points lie strictly left, respectively strictly right, and strictly below of all input points, at the same height. With f64 arithmetic (rounding, underflow, saturating overflow) they still enclose all finite f64 points, not necessarily strictly.", "quantifier": "all non-empty point sets with xmin < xmax and ymin < ymax", "why_tests_cant": "all point sets", "anchors": ["src/points.rs: Points::new"]}
{"id": "C25", "title": "Front look-ups do not depend on the cache or on index hints", "statement": "Looking a node up through the access cache or through a stale index hint gives the same answer as a plain search by key, after any sequence of front operations.", "quantifier": "all sequences of front operations, all keys between the ends of the front", "why_tests_cant": "all histories of cache states", "anchors": ["src/advancing_front/vec_backed.rs: search_by_key_with_cache, resolve_index_for_id, locate_node, locate_next_node, locate_prev_node"]}
{"id": "C26", "title": "Files load to the builder calls they describe", "statement": "Writing a polygon, holes and Steiner points in the documented format and loading the file gives the same builder as calling `Builder::new(polygon).add_holes(holes).add_steiner_points(steiner)`.", "quantifier": "all polygons, hole lists and Steiner lists, every number printer that the float parser inverts", "why_tests_cant": "round trip for all files", "anchors": ["src/loader.rs"]}
{"id": "C27", "title": "The loader panics exactly on malformed lines", "statement": "Loading skips empty lines, and it panics iff some other line that is not a keyword has fewer than two numbers or tokens that are not numbers (or the resulting polylines are rejected by the builder); trailing tokens are ignored.", "quantifier": "all file contents", "why_tests_cant": "all strings", "anchors": ["src/loader.rs: parse_point"]}
{"id": "C28", "title": "Constraint and Delaunay marks of the three edges of a triangle are independent", "statement": "Setting or clearing one mark of one edge changes neither the other mark of that edge nor any mark of the two other edges, nor vertices or neighbours.", "quantifier": "all triangles, all 256 flag bytes, all edges", "why_tests_cant": "all states of the flag byte", "anchors": ["src/shape.rs: EdgeAttr, InnerTriangle"]}
{"id": "C29", "title": "Adjacency detection is exact", "statement": "For two triangles with different vertices in the same orientation, the shared edge is found iff they have an edge in common traversed in opposite directions, and the two positions reported are those of that edge.", "quantifier": "all pairs of triangles with pairwise different vertices that are not mirror images", "why_tests_cant": "all label assignments", "anchors": ["src/shape.rs: common_edge_index, edge_index"]}
{"id": "C30", "title": "Every input point is a vertex of the mesh", "statement": "After the sweep every input point is a vertex of some mesh triangle, and no vertex is anything else than an input point or an artificial point.", "quantifier": "all inputs whose triangulation succeeds", "why_tests_cant": "all points of all inputs", "anchors": ["src/sweeper.rs: point_event, rotate_triangle_pair"]}
{"id": "C31", "title": "Geometric predicates obey their symmetry laws", "statement": "`orient_2d` is invariant under cyclic rotation, antisymmetric under swaps and translation invariant; `in_circle` gives the same verdict from both sides of an edge and after a flip of an illegal edge the new edge is legal.", "quantifier": "all points", "why_tests_cant": "algebraic laws over all coordinates", "anchors": ["src/utils.rs: orient_2d, in_circle"]}
{"id": "C32", "title": "Flips happen only in convex quadrilaterals and keep the area", "statement": "Every flip done by legalization, or by edge insertion when the sign tests are right, replaces the common edge of two neighbouring triangles by the other diagonal of their quadrilateral, whose corners at the ends of the old edge are strictly convex: both new triangles are strictly counter-clockwise, all other triangles keep their corners, the mesh stays consistent and the total area is the same. Legalization never flips an edge that the triangle marks constrained and leaves a new edge that is Delaunay. Every triangle_rotated callback is followed by the legalize_step callback that sees exactly this flip.", "quantifier": "all consistent meshes without inverted triangles, all flips; all callbacks of all runs", "why_tests_cant": "all quadrilaterals incl. those with degenerate triangles", "anchors": ["src/sweeper.rs: legalize, flip_edge_event", "src/utils.rs: in_circle, in_scan_area"]}
{"id": "C33", "title": "Simple polygons are triangulated without panic (refuted)", "statement": "A user expects a simple polygon with integer coordinates to be triangulated without panic and without inverted triangles. The code violates this: sweeper.rs:698 passes the wrong node, and there is a simple 8-gon on which the run panics and a simple polygon for which an inverted triangle is reported.", "quantifier": "negated: there is a simple polygon", "why_tests_cant": "the defect needs a particular front configuration (about 1 in 1000 random 14-gons)", "anchors": ["src/sweeper.rs:698 fill_right_convex_edge_event"]}
{"id": "C34", "title": "Safe calls never cause undefined behaviour (refuted)", "statement": "A user expects that the safe API cannot cause undefined behaviour. The code violates this: with a Steiner point on a polygon edge the edge flip reads `triangles[usize::MAX]` unchecked.", "quantifier": "negated: there is an input", "why_tests_cant": "rare configuration", "anchors": ["src/sweeper.rs: flip_edge_event", "src/triangles.rs: get_unchecked"]}
{"id": "C35", "title": "No corner inside a triangle", "statement": "At every callback no corner of a mesh triangle lies in the interior of a mesh triangle: points that have been inserted stay corners of the triangulation around them.", "quantifier": "all inputs, all callbacks, all pairs of triangles, runs that do not take the defective branch sweeper.rs:698", "why_tests_cant": "quantifies over all meshes a run can reach, degenerate triangles included", "anchors": ["src/sweeper.rs"]}
{"id": "C36", "title": "The mesh is a plane graph", "statement": "At every callback no two edges of the mesh cross in a point inside both.", "quantifier": "all inputs, all callbacks, all pairs of edges, runs that do not take the defective branch sweeper.rs:698", "why_tests_cant": "quantifies over all pairs of edges of all reachable meshes", "anchors": ["src/sweeper.rs"]}
{"id": "C37", "title": "The reported triangles are the polygon minus its holes", "statement": "If the input edges are edges of the final mesh and exactly the edges marked as constrained, polygon and holes have three or more corners, all corners of holes lie strictly inside the polygon, and the result is not empty, then a point is inside a reported triangle only if it is inside the polygon and outside all holes (even-odd rule), and every such point is in a non-degenerate reported triangle or on its border.", "quantifier": "all inputs (polygon, holes, Steiner points), all points of the plane, runs that do not take the defective branch sweeper.rs:698", "why_tests_cant": "quantifies over all points of the plane for all inputs; tests can only sample points of sample polygons", "anchors": ["src/sweeper.rs: finalize_polygon, clean_mesh", "src/triangles.rs"]}
{"id": "C38", "title": "Constraints are honoured", "statement": "If no input point lies inside an edge of the polygon or of a hole and no two of these edges cross (points on a line, axis-parallel edges and aligned Steiner points are allowed), then after a successful triangulation every edge of the polygon and of the holes is an edge of the mesh, these edges are marked as constrained on all their sides, and no other edge is marked. Consequently the reported triangles are the polygon minus its holes whenever the holes are strictly inside.", "quantifier": "all polygons, holes and Steiner points with non-crossing edges and no point inside an edge, runs that do not take the defective branch sweeper.rs:698", "why_tests_cant": "the edge insertion is a mutual recursion of three routines whose depth and flips depend on the whole mesh; tests can only try sample polygons", "anchors": ["src/sweeper.rs: edge_event, edge_event_process, flip_edge_event, flip_scan_edge_event", "src/utils.rs: in_scan_area"]}
{"id": "C39", "title": "No panics and no undefined behaviour for non-crossing inputs", "statement": "If no input point lies inside an edge of the polygon or of a hole and no two of these edges cross (points on a line, axis-parallel edges and aligned Steiner points are allowed), then triangulating never panics and never makes an unchecked access out of bounds, unless the run takes the defective branch sweeper.rs:698: every run returns a triangulation or is still running.", "quantifier": "all polygons, holes and Steiner points with non-crossing edges and no point inside an edge, all points in time of the run", "why_tests_cant": "absence of panics in the mutual recursion of edge insertion for every input; each of the unwraps depends on the shape of the whole mesh and front", "anchors": ["src/sweeper.rs: edge_event, fill_edge_event, fill_right_above_edge_event, fill_right_below_edge_event, fill_right_convex_edge_event, fill_right_concave_edge_event, fill_left_*, edge_event_process, flip_edge_event, flip_scan_edge_event, next_flip_point"]}
{"id": "C40", "title": "Every run comes to an end", "statement": "If no input point lies inside an edge of the polygon or of a hole and no two of these edges cross (points on a line, axis-parallel edges and aligned Steiner points are allowed), then triangulating terminates with a triangulation, unless the run takes the defective branch sweeper.rs:698. If there are only points and no edges, it always terminates with a triangulation, whether or not points are on a line.", "quantifier": "all polygons, holes and Steiner points with non-crossing edges and no point inside an edge; all sets of points without edges", "why_tests_cant": "termination of the edge insertion, a mutual recursion of three routines that flips back and forth and inserts auxiliary edges first, has to be shown for every mesh; a test can only show that one run ends", "anchors": ["src/sweeper.rs: Sweeper::triangulate, point_event, fill_advancing_front, fill_basin_req, legalize, edge_event, fill_edge_event, fill_right_*, fill_left_*, edge_event_process, flip_edge_event, flip_scan_edge_event"]}
{"id": "C41", "title": "Inputs without dips are triangulated unconditionally", "statement": "If no input point lies inside an edge, no two edges of the polygon and the holes cross, and under no edge that descends to the right do the points that are not covered by an edge bend down (a condition on the input alone), then triangulating terminates, does not panic and returns a triangulation that contains every edge of the polygon and of the holes as a constraint edge. In particular every strictly convex polygon is triangulated.", "quantifier": "all polygons, holes and Steiner points with non-crossing edges, no point inside an edge and without such a dip; all strictly convex polygons with any number of corners", "why_tests_cant": "it rules out panics, endless loops and lost edges for every input of the class, of any size; a test shows it for one input", "anchors": ["src/sweeper.rs: Sweeper::triangulate, fill_edge_event, fill_right_above_edge_event, fill_right_below_edge_event, fill_right_concave_edge_event, fill_right_convex_edge_event, edge_event_process"]}
{"id": "C42", "title": "Total correctness", "statement": "If no input point lies inside an edge, no two edges cross, all hole corners and Steiner points are strictly inside the polygon and there is no dip under an edge (C41), then triangulating terminates without panic and the reported triangles are a triangulation of the polygon minus its holes: they are not empty, have positive area, use only input points as corners, do not overlap, contain only points of the polygon outside the holes, and cover all of these; every input edge is a constraint edge and the mesh is constrained Delaunay. Strictly convex polygons satisfy the conditions about crossings and dips.", "quantifier": "all polygons with any number of corners, holes and Steiner points that satisfy the conditions", "why_tests_cant": "it is the full correctness statement for an infinite class of inputs; a test shows it for one input, and comparing regions of the plane point by point is not something a test does", "anchors": ["src/cdt.rs: CDT::triangulate, Triangles", "src/sweeper.rs: Sweeper, finalize_polygon, clean_mesh, edge_event"]}
{"id": "C43", "title": "The area adds up", "statement": "If the input edges are edges of the final mesh and exactly those are marked, all hole corners are strictly inside the polygon, no corner of a hole is inside or on another hole and something is reported, then the areas of the reported triangles add up exactly to the area of the polygon minus the areas of the holes (shoelace formula), whatever the orientation in which the corners are given.", "quantifier": "all polygons, holes and Steiner points and all successful runs with the edges in place; unconditionally for the inputs of C42", "why_tests_cant": "an exact equation between the output and the input for every input; a test compares floating-point sums for one input", "anchors": ["src/cdt.rs: CDT::triangulate, Triangles", "src/sweeper.rs: finalize_polygon, clean_mesh"]}
{"id": "C44", "title": "The number of triangles is determined by the input", "statement": "Under the conditions of C43, and if no Steiner point is on an edge, the number of reported triangles is: corners of the polygon, plus corners of the holes, plus twice the number of holes, plus twice the number of Steiner points that are in the polygon and in no hole, minus 2. In particular a polygon with k corners gives k-2 triangles.", "quantifier": "all polygons with any number of corners, holes and Steiner points and all successful runs with the edges in place; unconditionally for the inputs of C42", "why_tests_cant": "Euler's formula for meshes of every size; a test counts the triangles of one mesh", "anchors": ["src/cdt.rs: CDT::triangulate, Triangles", "src/sweeper.rs: finalize_polygon, clean_mesh"]}
{"id": "C45", "title": "Simple polygons are triangulated in finite time (refuted)", "statement": "The expectation that triangulate() returns for every simple polygon is false: there is a simple polygon with seven integer corners, no three of them on a line, on which triangulate() never returns (fill_right_below_edge_event calls itself with unchanged arguments, so the program overflows its stack). The input meets every hypothesis of the total-correctness theorem C40, so C40's second alternative (a dip under an edge) cannot be dropped.", "quantifier": "Existence of one input; non-termination is claimed for every recursion bound.", "why_tests_cant": "A test can only observe that a run has not ended yet; that it never ends is a statement about all bounds.", "anchors": ["src/sweeper.rs: fill_right_below_edge_event, fill_right_convex_edge_event, fill_right_concave_edge_event"]}
{"id": "C46", "title": "Globally constrained Delaunay", "statement": "Every reported triangle satisfies the constrained Delaunay criterion in its global form: whatever point one stands on inside the triangle, no input point that can be seen from there (the edges of the polygon and of the holes being opaque) is strictly inside the circumcircle of the triangle. C12 says this only for the corner across each unmarked edge.", "quantifier": "all inputs with non-crossing edges and no point inside an edge, all reported triangles, all inner points, all input points", "why_tests_cant": "a test can check the circumcircles of one mesh; that the local criterion enforced by the flips implies the global one needs a walk through arbitrarily many triangles", "anchors": ["src/sweeper.rs: legalize, verify_triangles, clean_mesh", "src/utils.rs: in_circle"]}
{"id": "C47", "title": "The result depends only on the geometry", "statement": "If no input point lies inside an edge and no four input points are on a circle, the reported triangles (as triangles in the plane) are determined by the polygon, the holes and the Steiner points as point sets: two chains of builder calls that describe the same polygon, holes and Steiner points - in another order, grouped into other calls, polylines starting at another corner or running in the other direction - report the same triangles, and so do two number formats that evaluate the predicates correctly.", "quantifier": "all pairs of descriptions of the same input", "why_tests_cant": "the sweep order, the flips and the point numbers differ between the descriptions; equality for all of them is a uniqueness theorem", "anchors": ["src/sweeper.rs: SweeperBuilder, Sweeper::triangulate", "src/points.rs: PointsBuilder::build"]}
{"id": "C48", "title": "Correct with real f64 arithmetic", "statement": "With f64 arithmetic, for every polygon with holes and Steiner points whose coordinates are integers of absolute value at most 2^20 (or 2^e times such integers, -20 <= e <= 220), no point inside an edge (and either no two points on a line with a lower corner of the bounding box enlarged by 30 percent, or width and height of the box multiples of ten, so that these corners are on the grid: this covers squares, aligned holes and grids of Steiner points), edges not crossing, no dip under an edge, holes and Steiner points strictly inside: triangulating terminates without panic and reports a constrained Delaunay triangulation of the polygon minus the holes, with all edges in place and the right area and number of triangles. The same holds for arbitrary f64 coordinates whose triangles all have more than a tiny fraction of the squared coordinate range as area.", "quantifier": "all inputs with such coordinates, all rounding errors of f64 including underflow, every behaviour on overflow", "why_tests_cant": "the angle, the scan area and the artificial points are computed in plain float arithmetic; whether a rounding error can flip a decision is a question about all coordinates", "anchors": ["src/utils.rs: in_scan_area, Angle::new", "src/points.rs: Points::new", "src/sweeper.rs: point_event (EPSILON)"]}
{"id": "C49", "title": "Rounding does not influence the result", "statement": "On the inputs of C48, if moreover no four points are on a circle, the f64 program reports the same triangles as the program run with exact arithmetic (exact constant 0.3 included).", "quantifier": "all such inputs", "why_tests_cant": "equality of two programs on all inputs; exact arithmetic is not available in the code", "anchors": ["src/utils.rs: in_scan_area, Angle::new", "src/points.rs: Points::new"]}
{"id": "C50", "title": "The float angle test never inverts a triangle (refuted)", "statement": "The expectation that with f64 arithmetic every triangle of the mesh is counter-clockwise for every simple polygon is false: for the right triangle (0,0), (3,0), (3,1) the finished mesh, as the observer sees it, contains a clockwise triangle at an artificial corner (two corners of the polygon are on a line with a corner of the enlarged bounding box, and the float angle test takes the wrong side). So the hypothesis of C11 about float signs cannot be dropped.", "quantifier": "Existence of one input, every sufficient recursion bound.", "why_tests_cant": "A test cannot show that the mesh is the same for every sufficient stack size; the exact sign of the area is not computed by the code.", "anchors": ["src/utils.rs: Angle::new", "src/sweeper.rs: fill_one, fill_advancing_front", "src/points.rs: Points::new"]}
{"id": "C51", "title": "The result does not depend on the sorting and searching algorithms of the standard library", "statement": "For pairwise different points the comparator of the sweep order is a total order (for two equal points it answers Greater both ways), so every sort that keeps the contract of sort_by gives the same sweep order; the start of the front is sorted the same way by every sort. During every run with any arithmetic the front has strictly increasing keys at every callback, so every search that keeps the contract of binary_search_by_key, in particular the two algorithms the standard library has used, gives one and the same answer on the front and on every part of it.", "quantifier": "All point lists, all arithmetics, all polygons and runs, all sort and search algorithms that keep their contract, all search keys.", "why_tests_cant": "A test runs with one version of the standard library and one input; the claim is about all algorithms and all inputs.", "anchors": ["src/points.rs: Points::new", "src/advancing_front/vec_backed.rs: AdvancingFrontVec::new, search_by_key, search_by_key_with_cache, locate_node, insert"]}
{"id": "C52", "title": "Moving, rotating, scaling or mirroring the input does the same to the triangles", "statement": "Let an input and the image of it under a similarity of the plane be given, the image by any calls in any order, polylines starting anywhere and in either direction, perhaps in another number format. If no four points are on a circle and both inputs are admissible (C42: no crossing edges, no input point inside an edge, no dip, exact signs), both runs terminate without panic and the second reports exactly the images of the triangles that the first reports, although the sweep visits the points in a different order. Whether a point off the edges is inside the region does not depend on the similarity either.", "quantifier": "All similarities (translations, rotations, scalings, reflections and their combinations) with rational coefficients, all admissible pairs of inputs, all number formats, all steps.", "why_tests_cant": "The sweep is from bottom to top, so every direction gives another run with other events; a test compares a few directions of a few polygons.", "anchors": ["src/sweeper.rs: Sweeper::triangulate, edge_event, legalize, finalize_polygon", "src/points.rs: Points::new (sweep order)"]}
{"id": "C53", "title": "Debug builds: the crate's debug assertions never fire and do not change the result", "statement": "Whatever the input, if a debug build (with the crate's debug_assert!s compiled in: different points in every orient_2d, a common edge in every neighbour link, the right entry in every front update, verify_triangles() after every point) returns, the release build returns the same mesh, triangles and callbacks. For fine inputs whose edges do not cross and with no input point inside an edge no assertion fires in a run that does not take the branch at sweeper.rs:698, and if there is no dip under an edge either, the debug build terminates without panic with the result of the release build.", "quantifier": "All inputs, number formats, recursion bounds (first part); all inputs satisfying the stated conditions, all runs, every evaluation of every assertion (second part).", "why_tests_cant": "Tests run the debug build on a few inputs; an assertion is evaluated in every flip, link and predicate of every run, and verify_triangles inspects the whole mesh after each point.", "anchors": ["src/utils.rs: orient_2d", "src/triangles.rs: mark_neighbor_for_two_mut, get_unchecked", "src/advancing_front/vec_backed.rs: insert, update_and_delete_by_index", "src/sweeper.rs: sweep_points (line 57), verify_triangles"]}
{"id": "C54", "title": "An observer sees a sound mesh at every callback", "statement": "On an input whose edges do not cross, with no input point inside an edge and no dip under an edge, the program as it is returns, and at every callback, also in the middle of a legalization, the mesh an observer reads is sound: ids in range, links symmetric, no triangle inverted, no overlap, no crossing edges, no corner inside a triangle, the triangles cover exactly the area under the front, constraint marks symmetric; between events all unmarked edges are locally Delaunay, verify_triangles() returns true, and after an edge event the edge is in the mesh. For f64 inputs on a binary grid without any assumption on the arithmetic.", "quantifier": "All such inputs, all number formats (or f64 with any overflow behaviour), every callback of the run.", "why_tests_cant": "An observer can look at any of the thousands of intermediate states of any run.", "anchors": ["src/cdt.rs: Observer, triangulate_with_observer", "src/sweeper.rs: Sweeper::triangulate, sweep_points, legalize, edge_event"]}
{"id": "C55", "title": "A Steiner point on an edge splits the edge (refuted)", "statement": "A user expects that with a Steiner point on an edge of the polygon the reported triangles are still those of the polygon. The code violates this: for a triangle with integer coordinates and one Steiner point on an edge the run returns and reports triangles outside of the polygon, with a corner that is none of the input points.", "quantifier": "negated: there is an input", "why_tests_cant": "rare configuration: the result looks like a success", "anchors": ["src/sweeper.rs: edge_event_process (collinear branches), finalize_polygon"]}
{"id": "C56", "title": "The f32 feature is totally correct on ordinary inputs", "statement": "With the cargo feature f32, on a plain input (different points, none inside an edge, no crossing edges, no dip, holes and Steiner points inside) whose coordinates are multiples of 2^e by integers up to 1024, the lower corners of the bounding box enlarged by 30 percent being not too close to a line through two points (on a grid up to 64: not on such a line) or on the grid themselves, triangulating returns without panic a constrained Delaunay triangulation of the polygon minus its holes with all edges in place, the right area and the right number of triangles. The same for f32 points anywhere if the triangles they form are not too flat.", "quantifier": "All such inputs, IEEE single precision with any overflow behaviour.", "why_tests_cant": "Single precision leaves few bits for products of coordinates: which inputs are safe follows from an error analysis only.", "anchors": ["src/lib.rs: Float (feature f32)", "src/points.rs: Points::new", "src/utils.rs: in_scan_area, Angle", "src/sweeper.rs: Sweeper::triangulate"]}
{"id": "C57", "title": "The f32 and the f64 build return the same triangles", "statement": "On inputs as in C56, if no four points are on a circle, the program built with f32, the program built with f64 and the program run with exact arithmetic all return, and the sets of reported triangles are the same.", "quantifier": "All such inputs, all overflow behaviours of both formats.", "why_tests_cant": "The intermediate meshes of the two builds differ (the artificial points are not the same), only the results agree.", "anchors": ["src/lib.rs: Float", "src/sweeper.rs: SweeperBuilder::build, Sweeper::triangulate", "src/points.rs: Points::new"]}
{"id": "C58", "title": "A Steiner point outside the polygon can empty the result (the documentation says it has no effect)", "statement": "The documentation of add_steiner_point claims that a point outside the polygon has no effect on the final result. This is refuted: there are a simple quadrilateral and a point to the left of it such that triangulate returns two triangles without the point, and returns normally an empty result with it.", "quantifier": "Existence of a counterexample to a claim about all inputs; for every sufficiently large recursion bound.", "why_tests_cant": "The documented claim quantifies over all polygons and all outside points; the tests add no outside point.", "anchors": ["src/cdt.rs: Builder::add_steiner_point", "src/sweeper.rs: Sweeper::finalize_polygon"]}
{"id": "C59", "title": "Steiner points outside the polygon or in a hole: no effect, or an empty result", "statement": "Let two inputs have the same polygon, the same holes and the same Steiner points inside the polygon and outside the holes, all other Steiner points being arbitrary. If no four points of one of them are on a circle then both runs terminate without panic, and either one of the results is empty or both report the same triangles. If one input has no Steiner point outside the polygon its result is not empty.", "quantifier": "All pairs of such inputs satisfying the conditions of total correctness (on a binary grid: geometric conditions only, any rounding).", "why_tests_cant": "The extra points change the sweep, the intermediate meshes and the triangle numbers; that the reported triangles stay the same needs the uniqueness of the constrained Delaunay triangulation.", "anchors": ["src/cdt.rs: Builder::add_steiner_point", "src/sweeper.rs: Sweeper::finalize_polygon", "src/sweeper.rs: Sweeper::triangulate"]}
{"id": "C60", "title": "Exactly when the result is empty; otherwise outside Steiner points have no effect", "statement": "Let the edges of an input not cross, no point be on an edge, no dip be under an edge and the holes be inside the polygon; the Steiner points can be anywhere off the edges. Then triangulate terminates without panic, and it reports no triangle if and only if the leftmost input point (the uppermost one if there are several) is a Steiner point. Otherwise it reports a triangulation of the polygon minus the holes, and two such inputs that differ only in Steiner points outside the region give the same triangles (no four points on a circle).", "quantifier": "All such inputs on a binary grid without two points on a line with a lower corner of the enlarged bounding box, all roundings; in general all inputs on which the crate's float tests are right. The same for the f32 feature on a grid of integers up to 1024.", "why_tests_cant": "It is an equivalence over all inputs; it needs an invariant of the sweep (a leftmost point is never removed from the advancing front).", "anchors": ["src/cdt.rs: Builder::add_steiner_point", "src/sweeper.rs: Sweeper::finalize_polygon", "src/sweeper.rs: Sweeper::fill_advancing_front, should_fill", "src/sweeper.rs: Sweeper::point_event"]}
{"id": "C61", "title": "One wrong argument is the only cause of failures on valid input", "statement": "Change one argument of one recursive call (sweeper.rs:698 passes the node itself where the mirrored call at sweeper.rs:778 passes the neighbour). The changed crate returns, on every input with edges that do not cross, no point inside an edge, and holes and Steiner points inside the polygon, a correct result: a constrained Delaunay triangulation of the polygon minus the holes with all edges in place and the right area and number of triangles; every callback sees a sound mesh; the triangles do not depend on how the input is described; with Steiner points elsewhere, it still terminates, and its result is empty only if the leftmost point is a Steiner point. On every input whatsoever it does exactly what the crate does, unless the crate executes that call. On the simple polygons of C33 and C45 the crate fails and the changed crate does not.", "quantifier": "All valid inputs (no condition on dips, unlike C41 and C42), all recursion bounds; f64 and f32 on a binary grid with all roundings; the comparison with the crate: all inputs.", "why_tests_cant": "That a repair is complete is a statement about all polygons; fuzzing can only fail to find a counterexample.", "anchors": ["src/sweeper.rs: Sweeper::fill_right_convex_edge_event", "src/sweeper.rs: Sweeper::fill_left_convex_edge_event", "src/sweeper.rs: Sweeper::fill_right_concave_edge_event"]}
{"id": "C62", "title": "Edges that cross do no harm", "statement": "If no input point is inside an edge, then, however the edges of the polygon and of the holes cross themselves or each other, and wherever holes and Steiner points are: triangulate terminates and does not panic, unless it takes the branch at sweeper.rs:698, which needs a dip under an edge; the repaired crate of C61 always terminates. The reported triangles are not inverted and do not overlap; every edge that no other edge crosses is a constraint edge of the mesh; all other edges are locally Delaunay or marked; neighbour links and marks are consistent and verify_triangles answers true; every callback sees a sound mesh and front. Only the edges that cross others may get lost, and with them the border of the polygon: for a bow tie triangles with artificial corners are reported, for a five-pointed star nothing.", "quantifier": "All inputs with different points, none of them inside an edge, and at least three corners per loop; all recursion bounds; f64 and f32 on a binary grid or with well separated points and all roundings.", "why_tests_cant": "Crossing edges are outside the documented input, so no test covers them; which edges the later ones destroy depends on the whole history of flips.", "anchors": ["src/sweeper.rs: Sweeper::flip_edge_event", "src/sweeper.rs: Sweeper::next_flip_point", "src/sweeper.rs: Sweeper::flip_scan_edge_event", "src/sweeper.rs: Sweeper::edge_event_process", "src/cdt.rs: CDT::triangulate"]}
{"id": "C63", "title": "An uncrossed border does not leak", "statement": "If no input point is inside an edge, then for the polygon and for each hole whose edges no edge crosses, the triangles that triangulate reports are either all inside it or all outside it, however the other edges cross each other (for instance holes that overlap). A hole that is crossed may get lost: an example reports triangles inside and outside of it. Which side of the polygon it is, is not certain: for an uncrossed polygon with two overlapping holes strictly inside it, the crate reports a single triangle, outside the polygon.", "quantifier": "All inputs with different points, none of them inside an edge, and at least three corners per loop; every loop of the input that is not crossed; all points of the plane; f64 and f32 on a binary grid.", "why_tests_cant": "The search for the interior passes through any unmarked edge; that none of the flips caused by overlapping holes opens a gap in an uncrossed border is a statement about all histories.", "anchors": ["src/sweeper.rs: Sweeper::finalize_polygon", "src/sweeper.rs: Sweeper::flip_edge_event", "src/sweeper.rs: Sweeper::clean_mesh", "src/sweeper.rs: Sweeper::try_mark_edge_for_triangle"]}
{"id": "C64", "title": "Crossing edges: when something is reported, and debug builds", "statement": "If no input point is inside an edge and the leftmost input point (the uppermost of them, if there are several) is the end of an edge that no other edge crosses, then triangulate reports at least one triangle, however the other edges cross each other. Crossing edges trigger none of the crate's debug assertions: without a dip under an edge the debug build terminates, too, and returns what the release build returns.", "quantifier": "All inputs with different points, none of them inside an edge, and at least three corners per loop; all recursion bounds; f64 on a binary grid with all roundings. The same for the f32 feature on a grid of integers up to 1024.", "why_tests_cant": "Which edges survive crossing others depends on the whole history; that the search for the interior always finds a mark at the leftmost point is a statement about all final meshes.", "anchors": ["src/sweeper.rs: Sweeper::finalize_polygon", "src/sweeper.rs: Sweeper::clean_mesh", "src/cdt.rs: CDT::triangulate"]}
{"id": "C65", "title": "A convex outline is respected, whatever the holes do", "statement": "Let the polygon be strictly convex, in either direction, with all holes and Steiner points strictly inside, and let no input point be inside an edge; the holes may overlap each other or cross themselves. Then triangulate reports at least one triangle, and every reported triangle is inside the polygon. The same holds for a polygon that is not convex, if no edge crosses it and the first edge of the upper hull of all input points is one of its edges. (Without this condition it is false, see C63.)", "quantifier": "All inputs with different points and at least three corners per loop satisfying these conditions; all recursion bounds; f64 on a binary grid with all roundings. The released crate may instead stop at the inputs with a dip under an edge (C33); the repaired program never does. The same for the f32 feature on a grid of integers up to 1024.", "why_tests_cant": "Marks of crossing edges get lost or move to other edges during the sweep; that the search for the interior still starts on the inner side is a statement about all final meshes.", "anchors": ["src/sweeper.rs: Sweeper::finalize_polygon", "src/sweeper.rs: Sweeper::clean_mesh", "src/cdt.rs: CDT::triangulate"]}
{"id": "C66", "title": "Which region is reported, for any arrangement of outlines that do not cross", "statement": "Let the edges of the polygon and the holes not cross and no input point be inside an edge; holes may be nested in holes, beside the polygon or around it, and Steiner points anywhere. Then triangulate reports nothing if the leftmost input point (the uppermost one if there are several) is a Steiner point; otherwise the reported triangles are exactly the points inside the outline that contains the leftmost input point (the polygon or a hole) and outside all other outlines. In particular: if the polygon has the leftmost point, the result is the polygon minus the union of the holes, wherever the holes are (an island in a hole is not reported); a hole to the left of the polygon is reported instead of the polygon.", "quantifier": "All inputs with different points and at least three corners per outline satisfying these conditions; all recursion bounds; f64 on a binary grid with all roundings. The released crate may instead stop at the inputs with a dip under an edge (C33); the repaired program never does. The same for the f32 feature on a grid of integers up to 1024.", "why_tests_cant": "The region depends on which triangle the search for the interior starts in, and this on the whole final mesh and front; the number of arrangements of outlines is unbounded.", "anchors": ["src/sweeper.rs: Sweeper::finalize_polygon", "src/sweeper.rs: Sweeper::clean_mesh", "src/cdt.rs: CDTBuilder::add_hole", "src/cdt.rs: CDT::triangulate"]}
{"id": "C67", "title": "Which input points are corners of the reported triangles", "statement": "In the setting of C66 (edges that do not cross, no input point inside an edge, any arrangement of the outlines): the corners of the reported triangles are exactly the input points that are a corner of, or inside, the outline with the leftmost input point and inside no other outline of which they are not a corner. For an ordinary input (the polygon has the leftmost point, the holes' corners are inside the polygon and inside no other hole): every corner of the polygon and of every hole is a corner of a reported triangle, the Steiner points that are used are exactly those inside the polygon and in no hole, and no artificial point is used.", "quantifier": "All inputs with different points and at least three corners per outline satisfying these conditions; all recursion bounds; f64 and f32 on a binary grid with all roundings.", "why_tests_cant": "Whether a point is skipped depends on the whole order of insertions, flips and fills; a dropped vertex at one place leaves the region and even most triangle counts of small samples plausible.", "anchors": ["src/cdt.rs: CDT::triangulate", "src/sweeper.rs: Sweeper::sweep_points", "src/sweeper.rs: Sweeper::finalize_polygon", "src/sweeper.rs: Sweeper::clean_mesh"]}
{"id": "C68", "title": "From the bytes of a file to the triangles", "statement": "Loading a file: a path that cannot be opened gives Err(Io), the only error value; a file that can be opened but not read, or that is not UTF-8, makes the loader panic; a text makes it panic exactly if some line is neither empty nor a keyword nor begins with two numbers (decimal numerals with optional sign, fraction and exponent, or the names of infinities and NaN), or if the polygon or a hole has two equal neighbouring points after rounding; a numeral is read as the float nearest to its exact value. Writing polygon, holes and Steiner points as numerals that round to the coordinates, then loading, building and triangulating the file has the same outcome as the builder calls; such numerals exist for every float. Any text whose rounded coordinates form a simple polygon with holes and Steiner points without dips on a binary grid is triangulated without panic, and the result is the constrained Delaunay triangulation of the polygon minus the holes.", "quantifier": "All files: absent, unreadable, any bytes; all texts with any comments, blank lines, LF or CR LF, order of groups; all formatters whose numerals round to the coordinates; all recursion bounds beyond some number.", "why_tests_cant": "The space of byte strings, texts and numeral forms is unbounded, and correctness of the result is over all polygons the file can hold.", "anchors": ["src/loader.rs: PlainFileLoader::load", "src/loader.rs: parse_point", "src/loader.rs: LoaderError", "src/cdt.rs: CDT::triangulate", "examples/draw.rs: main"]}
{"id": "C69", "title": "Nesting of the legalization callbacks, and validity of the triangle ids", "statement": "In every finished run each `will_legalize` is followed by one or more `legalize_step` and `triangle_rotated` callbacks and then by `legalized` with the same triangle; legalizations are never one inside another, and no step or rotation happens outside one; each rotation is of two different triangles and is followed by the step of the first. Every point event contains at least one legalization, after one triangle has been added. The number of triangles never decreases from callback to callback, stays the same during a legalization and starts at one; so every triangle id a callback gets is that of a triangle then, at all later callbacks and in the finished triangulation (the store's `get` reads unchecked).", "quantifier": "all builder programs, with no assumption on the geometry, whose triangulation finishes; all callbacks", "why_tests_cant": "callback traces are unbounded, and an id is used unchecked at any later time", "anchors": ["src/cdt.rs: Observer", "src/sweeper.rs: legalize", "src/sweeper.rs: point_event", "src/sweeper.rs: edge_event", "src/triangles.rs: TriangleStore::get"]}
{"id": "C70", "title": "Flips of legalization move the lifted mesh down; a flipped edge does not come back; bound on the number of flips", "statement": "Lift every point to the height x^2+y^2. From callback to callback, as long as no edge insertion makes flips, the lifted mesh never rises: wherever a triangle of positive area is, one is later, at most as high. `triangle_rotated` is called only for an edge that is not marked as constrained and is not locally Delaunay (strictly), and once it is flipped no later triangle of positive area lies on the same side of that edge, until an edge insertion flips again. Hence between two such places there are at most N(N-1) callbacks `triangle_rotated` (N points, the two artificial ones included; half of that if no three of them are on a line), and in the whole run at most N(N-1) times one more than the number of such places.", "quantifier": "all builder programs whose points are different and have no wrong float signs (always in exact arithmetic), all finished runs, all pairs of callbacks", "why_tests_cant": "termination and cost of legalization: a test shows one sequence of flips; the claim is about every sequence of every input", "anchors": ["src/sweeper.rs: Sweeper::legalize", "src/utils.rs: in_circle", "src/triangles.rs: rotate_triangle_pair", "src/cdt.rs: Observer"]}
