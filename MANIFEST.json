{"claims": [
{"property": "C01", "status": "proved", "theorems": ["P2T.C01_points_in_call_order", "P2T.C01_built_points"], "note": "at most 2^32 points"},
{"property": "C02", "status": "proved", "theorems": ["P2T.C02_data_aligned"], "note": "at most 2^32 points"},
{"property": "C03", "status": "proved", "theorems": ["P2T.C03_panics_iff_repeat", "P2T.noRepeat_iff"], "note": "at most 2^32 points"},
{"property": "C04", "status": "proved", "theorems": ["P2T.C04_edge_events"], "note": "at most 2^32-2 points, all different"},
{"property": "C05", "status": "proved", "theorems": ["P2T.C05_protocol", "P2T.C05_protocol_general"], "note": "at most 2^32-2 points, all different"},
{"property": "C06", "status": "proved", "theorems": ["P2T.C06_indices_valid", "P2T.C06_indices_different"], "note": "validity: all runs of different points; pairwise different: runs on FineInput (different points, artificial points enclose, float signs not wrong; holds always in exact arithmetic, decidable and checked by evaluation for f64 inputs) that do not take the defective branch sweeper.rs:698"},
{"property": "C07", "status": "proved", "theorems": ["P2T.C07_iterator_agrees", "P2T.C07_iterator_fused", "P2T.C07_starts_at_zero", "P2T.C07_run"], "note": ""},
{"property": "C08", "status": "proved", "theorems": ["P2T.C08_result_nodup", "P2T.C08_distinct_cycles", "P2T.C08_directed_edges"], "note": "C08_result_nodup holds for every successful run of the code; the other two for runs that do not take the branch sweeper.rs:698 on fine inputs, degenerate triangles included (by a perturbation argument)"},
{"property": "C09", "status": "proved", "theorems": ["P2T.C09_result_is_region", "P2T.C09_result_closed"], "note": ""},
{"property": "C10", "status": "proved", "theorems": ["P2T.C10_adjacency_consistent", "P2T.fine_exact", "P2T.ex_fine", "P2T.ex_run"], "note": "runs on FineInput (different points, artificial points enclose, float signs not wrong; holds always in exact arithmetic, decidable and checked by evaluation for f64 inputs) that do not take the defective branch sweeper.rs:698"},
{"property": "C11", "status": "proved", "theorems": ["P2T.C11_no_inverted"], "note": "runs on FineInput (different points, artificial points enclose, float signs not wrong; holds always in exact arithmetic, decidable and checked by evaluation for f64 inputs) that do not take the defective branch sweeper.rs:698"},
{"property": "C12", "status": "proved", "theorems": ["P2T.C12_locally_delaunay", "P2T.C12_symmetric_marks", "P2T.C12_verify_exact", "P2T.C12_verify_true"], "note": "runs on FineInput (different points, artificial points enclose, float signs not wrong; holds always in exact arithmetic, decidable and checked by evaluation for f64 inputs) that do not take the defective branch sweeper.rs:698; symmetric marks and verify_triangles = true: runs that in addition take none of the two collinear branches of the edge insertion"},
{"property": "C13", "status": "proved", "theorems": ["P2T.C13_front"], "note": "runs on FineInput (different points, artificial points enclose, float signs not wrong; holds always in exact arithmetic, decidable and checked by evaluation for f64 inputs) that do not take the defective branch sweeper.rs:698"},
{"property": "C14", "status": "proved", "theorems": ["P2T.C14_count"], "note": "at most 2^32-2 points, all different"},
{"property": "C15", "status": "proved", "theorems": ["P2T.C15_legalization_terminates"], "note": "For every consistent mesh without inverted triangles over any point set, with degenerate triangles allowed, and any queue: some number of rounds empties the queue. By a lifting potential (paraboloid) that every flip strictly decreases, scaled to a natural number."},
{"property": "C16", "status": "proved", "theorems": ["P2T.C16_result_independent_of_bound", "P2T.C16_failure_independent_of_bound", "P2T.C16_deterministic", "P2T.C16_triangulate"], "note": ""},
{"property": "C17", "status": "proved", "theorems": ["P2T.C17_constraints_survive", "P2T.C17_point_event"], "note": "runs on FineInput that do not take the defective branch sweeper.rs:698"},
{"property": "C18", "status": "proved", "theorems": ["P2T.C18_edge_inserted"], "note": "runs on FineInput (different points, artificial points enclose, float signs not wrong; holds always in exact arithmetic, decidable and checked by evaluation for f64 inputs) that do not take the defective branch sweeper.rs:698 and none of the two collinear branches"},
{"property": "C19", "status": "proved", "theorems": ["P2T.C19_no_overlap", "P2T.C19_result", "P2T.static_no_overlap"], "note": "static_no_overlap holds for every consistent, non-inverted mesh bounded by a front; the other two for all callbacks and the result of runs that do not take the branch sweeper.rs:698 on fine inputs"},
{"property": "C20", "status": "proved", "theorems": ["P2T.C20_covered", "P2T.C20_nothing_else", "P2T.C20_area"], "note": "proved from the boundary of the mesh by counting crossings"},
{"property": "C21", "status": "proved", "theorems": ["P2T.C21_only_missing_neighbour", "P2T.ex_ub"], "note": "runs on FineInput (different points, artificial points enclose, float signs not wrong; holds always in exact arithmetic, decidable and checked by evaluation for f64 inputs) that do not take the defective branch sweeper.rs:698"},
{"property": "C22", "status": "proved", "theorems": ["P2T.C22_fails_in_edge_event", "P2T.C22_no_edges_no_failure", "P2T.ex_panic", "P2T.ex_steiner"], "note": "runs on FineInput (different points, artificial points enclose, float signs not wrong; holds always in exact arithmetic, decidable and checked by evaluation for f64 inputs) that do not take the defective branch sweeper.rs:698"},
{"property": "C23", "status": "proved", "theorems": ["P2T.C23_no_points", "P2T.C23_vertical"], "note": ""},
{"property": "C24", "status": "proved", "theorems": ["P2T.C24_enclose", "P2T.C24_enclose_rounded"], "note": ""},
{"property": "C25", "status": "proved", "theorems": ["P2T.C25_cache", "P2T.C25_get_node", "P2T.C25_hint", "P2T.C25_neighbours", "P2T.C25_locate"], "note": ""},
{"property": "C26", "status": "proved", "theorems": ["P2T.Loader.C26_load_written"], "note": ""},
{"property": "C27", "status": "proved", "theorems": ["P2T.Loader.C27_panics_iff", "P2T.Loader.C27_lines_and_words", "P2T.Loader.load_means"], "note": "at most 2^32 lines"},
{"property": "C28", "status": "proved", "theorems": ["P2T.C28_set_constrained", "P2T.C28_set_delaunay", "P2T.C28_new"], "note": ""},
{"property": "C29", "status": "proved", "theorems": ["P2T.C29_common_edge_exact", "P2T.C29_common_edge_sound", "P2T.C29_edge_index_exact"], "note": ""},
{"property": "C30", "status": "proved", "theorems": ["P2T.C30_all_points_used"], "note": "runs on FineInput (different points, artificial points enclose, float signs not wrong; holds always in exact arithmetic, decidable and checked by evaluation for f64 inputs) that do not take the defective branch sweeper.rs:698"},
{"property": "C31", "status": "proved", "theorems": ["P2T.C31_orient_rotate", "P2T.C31_orient_swap", "P2T.C31_translate", "P2T.C31_orient_degenerate", "P2T.C31_in_circle_sides", "P2T.C31_in_circle_rotate", "P2T.C31_flip_is_legal", "P2T.C31_in_circle_meaning", "P2T.C31_angle"], "note": ""},
{"property": "C32", "status": "proved", "theorems": ["P2T.C32_legalize_flip", "P2T.C32_edge_flip", "P2T.C32_observed_flips"], "note": "the first two hold for every consistent, non-inverted mesh (not only reachable ones) and show that the flip succeeds; the edge-insertion flips are the ones that pass in_scan_area, the only guard under which the code flips there. Flips during edge insertion are not observable by a callback."},
{"property": "C33", "status": "proved", "theorems": ["P2T.C33_simple_polygon_panics", "P2T.C33_simple_polygon_inverted"], "note": "refutation: the expected property fails for the code"},
{"property": "C34", "status": "proved", "theorems": ["P2T.C34_undefined_behaviour"], "note": "refutation: the expected property fails for the code"},
{"property": "C35", "status": "proved", "theorems": ["P2T.C35_no_corner_inside"], "note": ""},
{"property": "C36", "status": "proved", "theorems": ["P2T.C36_planar"], "note": ""},
{"property": "C37", "status": "proved", "theorems": ["P2T.C37_region", "P2T.C38_region"], "note": "C37_region takes the constraints being in place as a hypothesis about the final mesh; C38_region derives it for inputs without crossing edges and without points inside edges"},
{"property": "C38", "status": "proved", "theorems": ["P2T.C38_constraints_honoured", "P2T.C38_region", "P2T.programG_noCol"], "note": "Hypotheses: NoTouch (no input point inside an input edge; three points on a line are allowed), EdgesApart, ScanComplete (the float scan test recognizes points strictly inside an angle; decidable), EpsUp; the collinear branches are proved unreachable there"},
{"property": "C39", "status": "proved", "theorems": ["P2T.C39_no_panic", "P2T.C39_program"], "note": "Hypotheses: FineInput, NoTouch, ScanComplete, EdgesApart (as C38) and EpsUp (adding EPSILON does not decrease an abscissa). Error fuel = still running; the ghost trap 698 marks the defective branch (C33 shows that it does panic there). The branch 698 can be reached only if the input HasDip (C41)."},
{"property": "C40", "status": "proved", "theorems": ["P2T.C40_total", "P2T.C40_program", "P2T.C40_points"], "note": "NoTouch, non-crossing edges: for all large recursion bounds one and the same triangulation, or the run reaches sweeper.rs:698 (a known defect); without edges: always a triangulation, also with collinear points. The branch 698 can be reached only if the input HasDip (C41)."},
{"property": "C41", "status": "proved", "theorems": ["P2T.C41_total", "P2T.C41_convex", "P2T.convex_fine"], "note": "C41_total: hypotheses on the input only (FineInput, NoTouch, ScanComplete, EpsUp, EdgesApart, no dip; all decidable): the real program returns one and the same triangulation for all large recursion bounds, with all constraint edges in place. C41_convex: strictly convex polygons have no dips, no crossings and no touching points"},
{"property": "C42", "status": "proved", "theorems": ["P2T.C42_correct", "P2T.C42_region", "P2T.C42_convex", "P2T.C42_nonempty", "P2T.sq_correct"], "note": "C42_correct: all hypotheses are decidable conditions on the input (FineInput, NoTouch, ScanComplete, EpsUp, EdgesApart, no dip, extra points strictly inside); conclusion about the real program. C42_region: partial correctness without the dip condition. sq_correct: axis-parallel square with square holes and points on a line."},
{"property": "C43", "status": "proved", "theorems": ["P2T.C43_area", "P2T.C44_total", "P2T.gp_measure"], "note": "Exact equation; hypotheses as in C37 (edges in place) plus holes apart; C44_total has no hypothesis about the run, only the input conditions of C42."},
{"property": "C44", "status": "proved", "theorems": ["P2T.C44_count", "P2T.C44_polygon", "P2T.C44_total", "P2T.gp_measure"], "note": "Count formula from Euler's formula for closed polylines along the mesh (Proofs/Euler.lean); hypotheses as in C43 plus Steiner points off the edges. C44_polygon: k-2 triangles for a polygon with k corners."},
{"property": "C45", "status": "proved", "theorems": ["P2T.C45_endless", "P2T.C45_hypotheses"], "note": "A refuted expectation: a concrete simple heptagon in general position on which every recursion bound runs out (proved for all bounds: the loop state is found by the kernel, and loopsAt_div shows by induction that it repeats itself)."},
{"property": "C46", "status": "proved", "theorems": ["P2T.C46_delaunay", "P2T.C46_total", "P2T.gp_delaunay", "P2T.sq_correct"], "note": "NoTouch; edges in place (C38); examples gp_delaunay, sq_correct"},
{"property": "C47", "status": "proved", "theorems": ["P2T.C47_unique", "P2T.C47_total", "P2T.cdt_unique", "P2T.gp_unique"], "note": "NoTouch, no four cocircular points; example gp_unique with reversed polygon and reordered calls"},
{"property": "C48", "status": "proved", "theorems": ["P2T.C48_correct", "P2T.C48_admissible", "P2T.C48_separated", "P2T.C24_enclose_f64", "P2T.C23_vertical_f64", "P2T.sq_correct"], "note": "Error analysis of the modelled IEEE rounding (relative error, monotonicity, exactness, snapping of 0.3*w are proved about roundTo, not assumed). Hypotheses mention exact coordinates only; points on a line are allowed. Exponent range is unbounded in the model; for the grid version no operation over- or underflows."},
{"property": "C49", "status": "proved", "theorems": ["P2T.C49_rounding", "P2T.C49_separated"], "note": "Via uniqueness (C47) for f64 and for exact arithmetic (realNum)."},
{"property": "C50", "status": "proved", "theorems": ["P2T.C50_inverted", "P2T.C50_fine"], "note": "A refuted expectation: concrete right triangle, kernel evaluation of the f64 model, lifted to every recursion bound by C16."},
{"property": "C51", "status": "proved", "theorems": ["P2T.C51_comparator", "P2T.C51_comparator_equal", "P2T.C51_sort", "P2T.C51_front", "P2T.C51_contract", "P2T.C51_std", "P2T.C51_std_old", "P2T.C51_search", "P2T.C51_run"], "note": "sweep order and front searches independent of the library's algorithms; front strictly sorted at every callback of every run, no hypothesis on the arithmetic. Points must be pairwise different."},
{"property": "C52", "status": "proved", "theorems": ["P2T.C52_similar", "P2T.C52_total", "P2T.C52_region"], "note": "all similarities with rational coefficients; no four cocircular points, both inputs admissible (admissibility itself, e.g. HasDip, is not invariant under rotation)."},
{"property": "C53", "status": "proved", "theorems": ["P2T.C53_same_result", "P2T.C53_no_assertion", "P2T.C53_general", "P2T.C53_total"], "note": "all debug_assert!s of the crate; first part for all inputs, second for fine inputs without crossing edges, points inside edges (and dips)."},
{"property": "C54", "status": "proved", "theorems": ["P2T.C54_every_callback", "P2T.C54_f64"], "note": "unconditional form (for the untrapped program) of C10-C13, C18-C20, C35, C36."},
{"property": "C55", "status": "proved", "theorems": ["P2T.C55_leak"], "note": "refutation: the expected property fails for the code"},
{"property": "C56", "status": "proved", "theorems": ["P2T.C56_admissible", "P2T.C56_separated", "P2T.C56_correct"], "note": "C23 and C24 hold for f32, too (C23_vertical_f32, C24_enclose_f32)."},
{"property": "C57", "status": "proved", "theorems": ["P2T.C57_builds_agree", "P2T.C57_rounding"], "note": ""},
{"property": "C58", "status": "proved", "theorems": ["P2T.C58_outside_steiner"], "note": ""},
{"property": "C59", "status": "proved", "theorems": ["P2T.C59_no_effect_or_empty", "P2T.C59_same_or_empty", "P2T.C59_admissible"], "note": ""},
{"property": "C60", "status": "proved", "theorems": ["P2T.C60_empty_iff", "P2T.C60_empty_iff_f64", "P2T.C60_correct", "P2T.C60_no_effect", "P2T.C60_empty_iff_f32"], "note": ""},
{"property": "C61", "status": "proved", "theorems": ["P2T.C61_correct", "P2T.C61_correct_f64", "P2T.C61_correct_separated", "P2T.C61_correct_f32", "P2T.C61_unchanged", "P2T.C61_same", "P2T.C61_every_callback", "P2T.C61_unique", "P2T.C61_outline", "P2T.C61_crate_fails", "P2T.C61_repaired"], "note": ""},
{"property": "C62", "status": "proved", "theorems": ["P2T.C62_crate", "P2T.C62_no_dip", "P2T.C62_repaired", "P2T.C62_f64", "P2T.C62_separated", "P2T.C62_f32", "P2T.C62_star", "P2T.C62_leak", "P2T.C62_nothing"], "note": ""},
{"property": "C63", "status": "proved", "theorems": ["P2T.C63_one_side", "P2T.C63_crate", "P2T.C63_f64", "P2T.C63_f32", "P2T.C63_crossed_lost", "P2T.C63_outside"], "note": ""},
{"property": "C64", "status": "proved", "theorems": ["P2T.C64_nonempty", "P2T.C64_crate", "P2T.C64_f64", "P2T.C64_debug", "P2T.C64_bowtie", "P2T.C64_f32"], "note": ""},
{"property": "C65", "status": "proved", "theorems": ["P2T.C65_inside", "P2T.C65_crate", "P2T.C65_f64", "P2T.C65_convex", "P2T.C65_crossed", "P2T.C65_convex_f32"], "note": ""},
{"property": "C66", "status": "proved", "theorems": ["P2T.C66_region", "P2T.C66_crate", "P2T.C66_f64", "P2T.C66_polygon", "P2T.C66_island", "P2T.C66_beside", "P2T.C66_around", "P2T.C66_f32"], "note": ""},
{"property": "C67", "status": "proved", "theorems": ["P2T.C67_used", "P2T.C67_crate", "P2T.C67_f64", "P2T.C67_f32", "P2T.C67_ordinary", "P2T.C67_island", "P2T.C67_plain"], "note": ""},
{"property": "C68", "status": "proved", "theorems": ["P2T.Loader.C68_numbers", "P2T.Loader.C68_outcomes", "P2T.Loader.C68_round_trip", "P2T.Loader.C68_writable", "P2T.Loader.C68_correct_f64", "P2T.Loader.C68_example"], "note": ""},
{"property": "C69", "status": "proved", "theorems": ["P2T.C69_calls", "P2T.C69_brackets", "P2T.C69_ids", "P2T.C69_grow", "P2T.C69_example"], "note": ""},
{"property": "C70", "status": "proved", "theorems": ["P2T.C70_never_rises", "P2T.C70_flip_illegal", "P2T.C70_no_return", "P2T.C70_flip_count", "P2T.C70_flip_count_general", "P2T.C70_total_flips", "P2T.C70_example", "P2T.C70_example_general"], "note": "between flips of edge insertions (C17's AfterEdgeFlips); FineInput as in C19"}
]}
