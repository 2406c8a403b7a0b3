# Formal model of poly2tri-rs in Lean 4

## What is modelled

`lean/Verif/Model/` follows `/repo/src` function by function; every definition cites file and lines.

| module | Rust source | content |
|---|---|---|
| `Num` | `utils.rs`, key order of `vec_backed.rs` | coordinates, predicates, angles |
| `Shape` | `shape.rs` | `Edge`, `EdgeAttr` (8-bit flags), `InnerTriangle` and all its methods |
| `Store` | `triangles.rs`, `rotate_triangle_pair`, `try_mark_edge_for_triangle` | triangle store, unchecked accesses, `get_mut_six` aliasing rule |
| `Points` | `points.rs`, `parse_polyline` | builder, `Points::new`, sweep order, artificial points |
| `Front` | `advancing_front/` | sorted vector, access cache, index hints |
| `Sweep` | `sweeper.rs` | point events, filling, basins, edge events, legalization, finalization |
| `Cdt` | `cdt.rs`, `PointDataSource` | `Builder`, `triangulate(_with_observer)`, `Triangles`, `verify_triangles` |
| `Loader` | `loader.rs` | line parser and state machine |
| `File` | `loader.rs`, `examples/draw.rs` (load, build, triangulate) | file, UTF-8, numerals |
| `Library` | `std` | the halving searches and the sort contracts behind `binary_search` and `sort_by` (C51) |
| `Debug` | all `debug_assert!`s | the functions above with the assertions compiled in (C53) |
| `F64` | IEEE-754 | the f64 instance of `Num`: round to nearest even of normal numbers, used to evaluate examples |

Everything is a total computable function into `Except Err`.  `Err.panic` is a Rust panic, `Err.ub` is an
unchecked access out of bounds or aliased `&mut`, `Err.fuel` means that the recursion bound given to the
model ran out.  `Err.trapped` exists only when a ghost switch (`Trap`) is on; the code is the model with
`Trap.off`.

### Modelling decisions (simplifications)

* **Floats.**  A coordinate is a rational number (every finite float is one).  Comparisons are exact, as in
  IEEE.  Each arithmetic operation of the crate is the exact result followed by `Num.rnd`, an *arbitrary*
  function `Rat → Rat`; `EPSILON`, `MIN`, `MAX` and the literal `0.3` are arbitrary parameters too.  So
  theorems without hypotheses on `Num` hold for f64, f32 and exact arithmetic.  The concrete instance `f64With ov` (`Model/F64`) is IEEE double precision
  rounding to nearest even with subnormal numbers; a result beyond `f64::MAX`, where IEEE has an infinity, is `ov q` for an arbitrary function `ov`
  (`f64` saturates).  C48 and C49 hold for every `ov`, so no overflow takes part in them.  NaN, infinities as values and signed zero are not modelled
  (no operation of the crate yields a NaN from finite operands without an overflow first, and `-0 == 0` in all comparisons used).
* **`robust` crate.**  `orient2d` and `incircle` are modelled by the exact sign of the determinant (their
  documented contract, which excludes overflow and underflow: the ranges of the coordinates in C48, at most 2^240 and multiples of 2^-200, exclude these).
* **Sorting** (`sort_by`, `sort_unstable_by_key`) by a stable insertion sort; **`binary_search`** by its
  contract on sorted slices.  That the algorithms of the standard library give the same is C51.
* `debug_assert!` is off (release build) in all theorems but C53 and C64, which are about the debug build (`Model/Debug`).  Test-only counters are not modelled.
* Ids: `PointId` is its `u32` value as `Nat` (the `as u32` truncation is modelled), `TriangleId` an index,
  `INVALID` is `none`.
* Observers are modelled by the log of callbacks, each with a snapshot of the sweeper's readable state.
  An observer cannot change the sweeper (`&Sweeper`), a panicking observer is not modelled.
* The loader of C26 and C27 gets the file content, with `str::parse::<f64>` and `char::is_whitespace` as parameters.  `Model/File` (C68) puts in the file, UTF-8 decoding (Lean's
  `utf8Decode?`) and the standard library's float parser by its documented grammar and its contract of correct rounding; what `inf` and `nan` are read as is an arbitrary function, since the model has no such values.

### Not modelled

`examples/`, `benches/`, `Cargo` features other than the float type being a parameter, `Debug` output,
capacity of vectors, allocation failure.

## Trusted base

Lean 4.33 kernel; the axioms `propext`, `Classical.choice`, `Quot.sound` (checked by `#print axioms`, see
below); the reading of the Rust source into the model; the contracts of `robust`, of the standard library
sorts and searches; the IEEE rule that comparisons are exact.  No axioms are added, nothing uses compiled
evaluation; concrete runs in examples are reduced by the kernel (`decide +kernel`).

The model was compared with expectation by running it (compiled, outside `/verif`) on some ten thousand
random polygons with and without Steiner points, checking orientation, area, Delaunay property and
presence of constraints of the output.  This found the defects listed below.

## Layout

* `lean/Verif/Model` — the model (table above).
* `lean/Verif/Spec` — the vocabulary of the statements, independent of the proofs: `Input` (chains of builder calls, pieces),
  `Polygon` (segments, simple polylines), `Protocol` (order of callbacks), `FileFormat`, `Fine` (`FineInput`), `Mesh` (adjacency,
  orientation, local Delaunay property, front), `Safety`, `Flip`, `Region` (points of triangles, area, crossing), `Interior`
  (even-odd rule, `ConstraintsInPlace`).
* `lean/Verif/Proofs` — invariants and lemmas.  Main lines: `Mesh … SweepInv, Run, RunInv, Final` (the invariant `SInv` through all
  functions of the sweep), `Potential` (termination), `Boundary, Crossing, Perturb, PlaneMesh` (the mesh as a set of points),
  `Winding, Jump, Flow, Stokes, CyclicEdges, Labels, Component, Interior` (flood fill = even-odd rule), `Mono` (recursion bound).
* `lean/Verif/Props` — the property theorems with their examples.

## Coverage per property

For each: what is modelled for it and how it is proved.  Exact theorem names are in `MANIFEST.json`.

* **C01, C02, C03** builder (`cdt.rs`, `points.rs`): induction over the builder call chain; the polyline loop keeps "vertex i has as
  many pushed edges as of its two neighbouring edges are already processed and have it as upper end".
* **C04, C05** the trace of a complete run, filtered to protocol events, is computed exactly.
* **C06, C30** vertices of the mesh: preserved by flips, extended by events.
* **C07** the iterator: induction on the remaining result.
* **C08, C09** loop invariant of the flood fill (interior marks = result, closure up to the stack).
* **C10, C11, C13, C14, C21, C22** one invariant `SInv` (mesh consistency, weak orientation, front, boundary edges) proved for every
  function of the sweep by induction on the recursion bound, in the form "the result is ok and satisfies the invariant, or the error is
  in an explicit list".
* **C12** "every unmarked edge is legal unless one of its triangles is queued"; Delaunay marks are sound.
* **C15** potential: the lifted volume `Σ orient · Σ|p|²` strictly decreases with each flip of a non-degenerate pair (with a second
  component for degenerate ones), and there are finitely many triangle lists over the given points.
* **C16** monotonicity in the recursion bound of every function.
* **C17, C18** marks survive flips of unmarked edges; partial correctness of the mutual recursion of the edge events.
* **C19, C20, C35, C36** signed crossing numbers: interior edges cancel, what remains is the front, which is x-monotone, so each point
  is covered exactly once under the front and nowhere else; perturbation of the query point for points on edges.
* **C23, C24** direct.
* **C25** the cache always points to a node with the cached key; search results are unique in sorted lists.
* **C26, C27** induction over lines / tokens.
* **C28, C29, C31, C32** case analysis, bit-vector extensionality, polynomial identities (C31 includes the angle tests of `utils.rs`, for exact arithmetic).
* **C33, C34** refutations: concrete witnesses evaluated by the kernel.
* **C37** the even-odd label is constant across unmarked edges and changes across marked ones; flood fill connectivity.
* **C38** geometry of the flip scan: a chain of triangles crossed by the segment, nested scans stay inside the wedge of the outer level, so
  no marked edge is flipped and nothing but the inserted edge gets a mark (`ScanGeom`, `ScanChain`, `ScanLevel`, `ScanRun`, `MarkRun`).
* **C39** the front is strictly x-monotone and above every mesh vertex (`FrontLine`), so the fill routines always find the neighbour they unwrap
  and leave no front node below the edge (`FillClear`); then no open edge crosses the segment, so the flip scan never leaves the mesh
  (`ScanRun.flip_main` with the condition `Clr`).
* **C40** termination.  Filling: the front gets shorter or the position on it moves on (`Halt`, `FillHalt`).  Legalization: C15.  Edge
  insertion (`FlipHalt`): lexicographic order of (top level or nested, number of triangles crossed by the segment, number of points in the
  angle of the current triangle); the scan moves strictly away from its start along the segment; the search for the first triangle turns
  in one direction.  `Hal f` says that from some bound on `f` does not depend on its recursion bounds and did not run out of them;
  `RunHalt` composes this along the sweep.
* **C41** no dip: `fill_right_convex_edge_event` (the branch at line 698) is called only at a right turn of the front under the edge; the front lies above
  all points swept so far and no front point is below an edge already in place (`FrontLine.cov_of`, `edge_cov`), so the three front points form a `Dip`,
  a condition on the input alone (`FillClear.DipC`, `Fx.dip`).  Without one the
  trapped alternative of C39/C40 disappears.  Strictly convex polygons have no dip (`ConvexEdges.no_dip`).
* **C42** total correctness: C41 (termination, edges in place), C37 (region), C19 (no overlap), C12 (Delaunay) and that the result is not empty: the
  second node of the front is a corner of the polygon (the other points are strictly inside, points of the front are not); the triangles around a node
  of the front form one fan (`Fan.PlaneMesh.fan`: turning counter-clockwise for ever would lead over the vertical, above the front), so the search from the
  front passes every edge at this corner and meets a polygon edge.  Corners: a triangle at an artificial point would stick out of the polygon.
* **C43** area: the labels of a closed polyline along the mesh take one non-zero value, 1 or -1 (Jordan curve theorem for the mesh, `Proofs/Jordan.lean`: a function of
  the triangles that changes only across the polyline is a multiple of the label); Stokes' theorem with `x₁y₂ - x₂y₁` gives the shoelace formula; holes with corners
  strictly inside the polygon and outside each other are nested and disjoint as sets of triangles (`Proofs/Nested.lean`, `Proofs/LabelAt.lean`).
* **C44** count: Euler's formula for the inside of a closed polyline along the mesh (`Proofs/Euler.lean`), by induction over the number of triangles inside: take the triangle
  inside at the first edge; if its third corner is on the polyline, cut the polyline in two, otherwise add the corner to it.
- **C45** (refuted expectation) A concrete heptagon; `Proofs/Diverge` follows the run with a Boolean check to a state in which
  `fill_right_below_edge_event` calls itself with unchanged arguments, and proves by induction on the bound that every bound runs out.
* **C46** walk along the line of sight: from triangle to triangle the power of the visible point does not grow (`Proofs/Walk`), the number of half-edges still to be
  crossed falls; the starting point is first moved off all lines through two corners (`Proofs/Generic`).  Across an unmarked edge of a reported triangle there is another
  reported triangle (labels, C37), locally Delaunay by C12.
* **C47** uniqueness: take a point inside a triangle of each triangulation; all corners of both are visible from it, so by C46 none is strictly inside the other's
  circumcircle; the difference of the powers is affine, hence the circles are equal, and with no four cocircular points so are the triangles (`Proofs/Unique`).
  `SameInput` compares the inputs as geometry: rotated and reversed polylines, reordered and regrouped calls.
* **C48** `f64`: `Proofs/Round` proves of the model's rounding function that it has relative error at most 2⁻⁵³ plus half the smallest
  subnormal number, is monotone and keeps exactly representable numbers; the answer on overflow is an arbitrary function.
  `Proofs/FloatSign` bounds the error of the rounded determinant (`in_scan_area`, `Angle`) and of the rounded artificial points; `Proofs/GridInput` shows that a
  non-zero determinant of grid points and exact enlarged corners is at least a tenth of a grid cell, which exceeds all errors for 20-bit coordinates
  (for input triples everything is exact).  So `FineInput`, `ScanComplete`, `EpsUp` follow from conditions without float operations (`PlainInput`, `OnGrid`;
  or `WellSeparated` for arbitrary `f64` coordinates).
  If the enlarged corners are on the grid themselves, `0.3 * w` is rounded to the exact value (`roundTo_snap`) and *all* determinants are exact
  (`OnGrid.fine_round`); the box is not flat because of `NoTouch` (`not_flat`).
* **C49** the same analysis holds for exact arithmetic (`realNum`); with C47 both programs give the same triangles.
* **C50** (refuted expectation) concrete witness evaluated by the kernel (`Props/Square`); the same file has an example of C42/C46 with many collinear points.
* **C51** the comparator and two versions of the library's binary search are modelled as written (`Model/Library`), the contracts of sort and search are in `Spec/Library`; uniqueness of sorted permutations, induction over the search loops, and the front is sorted at every callback because operations only take sublists or insert in place (`Proofs/FrontRun`).
* **C52** the even–odd rule does not depend on the direction of the ray: the crossings of a closed polyline have the parity of the number of triangles over a generic base point that contain the point (`Proofs/Similar`), and containment in a triangle is a matter of signs of determinants, which a similarity multiplies by one factor; so the image of a constrained Delaunay triangulation is one of the image (clockwise triangles turned round for reflections), and C47's uniqueness applies.
* **C53** `Model/Debug` repeats every function below which there is a `debug_assert!`, with the assertion as a panicking check. Debug ok ⇒ release ok with the same result is a simulation through all functions (`Proofs/Debug`). The converse follows the invariants of the release run: the mesh invariant gives the common edges (`DebugMark`), the order of the front the different points in the filling (`DebugFill`, `DebugEdge`), the scan test those in the flips (`DebugFlip`), and `verify_triangles` is true after each point by C12 (`DebugRun`).
* **C54** C10–C13, C18–C20, C35, C36 put together (`Spec/Observed`: `SoundCallback`) for `program` itself, the defective branches being excluded by C41 and `programG_noCol`; for `f64` by C48.
* **C55** refuted; concrete triangle with a Steiner point on an edge, evaluated by the kernel and lifted to every recursion bound by C16.
* **C56** as C48, with the error analysis for 24 significant bits (`Spec/Float32`, `Proofs/Float32Sign`, `Float32Input`, `Grid32`).  The `f32` constant `0.3` is larger than 3/10 by more than half a unit in the last place of most multiples, so that three tenths of the width are exact only for some widths (`ExactTenth`).
* **C57** from C47, since inputs as in C56 are admissible for both formats.
* **C58** evaluation of two complete runs, as C33.
* **C59** from uniqueness (C47, generalised to inputs with the same outline) and a geometric lemma: a corner of a reported triangle is a corner of the polygon or a hole, or a Steiner point of the region.  Non-emptiness of the second result is not claimed: C58 refutes it.
* **C60** an invariant of the sweep: once a leftmost point is in the front, some leftmost point stays in it (the filling to the left stops there by the angle test, edge events touch only what is under the edge), so it is the second node at the end; it is the uppermost one since no point of the mesh is above the front.  Then the start triangle exists iff that node is the end of a marked edge.  `LeftOpen` is derived for `F64Like` arithmetic on a grid by bounding the rounding errors of the scalar product.
* **C61** the switch `Trap.fix` of the model changes the argument at line 698.  All invariants of the sweep are proved for every `Trap` that excludes or repairs the branch (`Trap.Tame`), so every theorem about `programG no698` is also one about the repaired program (`Spec/Repair`); the trapped alternative, which needed `HasDip`, is gone.  That nothing else changes is the comparison of runs with different switches (`runG_ap`).
* **C62** the invariants of the edge events no longer assume that the edges are apart.  While an edge is inserted, the flips may destroy marked edges, but only edges that it crosses: each flip puts a diagonal in place of an edge that the new edge crosses (`Step.mark`), so the edges in `freeEdges` stay (`LooseD`), and so does everything that depended on the mesh only.  `NoTouch` alone excludes the collinear branches.  The defects (the border leaks) are shown by evaluating the model.
* **C63** the edges of an uncrossed loop are marked in every triangle that has them (C62, `marked_all`), so the winding number around the loop does not change from one reported triangle to the next (`Planar` of C37 needs no marks).  On which side they are is open indeed: flips may carry marks of crossed edges elsewhere, even out of the polygon, and the search starts at the first mark at the leftmost point (`C63_outside`, found by fuzzing the compiled model).
* **C64** `final_left` of C60 holds for crossing edges as well: the search starts at the leftmost point.  Walking around it one meets every triangle there (`PlaneMesh.fan`), hence the marked edge.  The debug build follows from C53.
* **C65** the search starts at the leftmost point `b` (C60, C64).  The edge from `b` along the upper hull is uncrossed, hence in the mesh and marked; no front edge at `b` can be below it (`PlaneMesh.top_edge`), so it is the front edge, the search ends at once in its triangle, and the label of this triangle (C63) says inside.  The right artificial point is below the upper hull by the 30 percent rule (`OnGrid.tailBelow`).
* **C66** the argument of C37 does not need the holes to be inside the polygon: the walk around the second node of the front (the leftmost input point, C60) stops at a marked edge of the polyline with this point, on its inner side, and outside all others (`Labelled.start_at_loop`); the labels of all polylines are constant on what can be reached, and everything with the same labels can be reached (`Labelled.region`).  `C66_beside` and `C66_around` show the crate's behaviour for a hole beside the polygon and around it.  The `f32` versions of C60, C64, C65 and C66 are in `Props/Left32`.
* **C67** every input point is a corner of the final mesh (C30); around a point off a polyline the label of that polyline is constant (`Labelled.at_point`), around a corner of a polyline both sides occur (`Labelled.touch_out`, `used_iff`), so the point is a corner of a reported triangle exactly if the labels around it allow it.  `C67_ordinary` is the familiar form for a polygon with holes; `C67_island` and `C67_plain` are its instances.
* **C68** `Model/File` adds what `Model/Loader` leaves as parameters: the file (absent, unreadable, bytes), UTF-8 decoding, `char::is_whitespace`, and `str::parse::<Float>` (a reader of numerals, rounding by `Num.rnd`).  `Spec/Numeral` is the grammar with the value of each form; `readNumeral_iff` says that the reader reads exactly the numerals.  With C26, C27 and C48/C61 this gives the statements about whole files.
* **C69** `Spec/Bracket` gives the callbacks, each with the number of triangles the observer finds, as a grammar that refines that of C05: `LegalSteps`, `LegalBlocks`, `EdgeBlocks`, `SweepBlocks`.  `Evolve` (what every step between two events does,
  proved for every function of the sweep with no assumption on the mesh) carries that its callbacks are complete legalizations; the bracket is that of `legalize`.  From the grammar: nesting from both ends, growth, validity of ids.
* **C70** the textbook argument: the in-circle determinant divided by the area is the height of the plane through the lifted corners above the paraboloid. `Proofs/Lift`: polynomial identities give that a flip of an illegal edge of a
  convex quadrilateral lowers the lifted mesh, strictly on the flipped edge. `NoRise` is carried by the same invariant as C17 (`Ext`, `StepLog`) through filling, point events and legalization. A returning edge would have a triangle above
  the mesh of its own callback, against C19. The count is an injection from flips to directed edges (in general position to undirected ones). Flips of edge insertion, which are not of this kind, end such a part of the log.

## Hypotheses of the theorems about whole runs

* `FineInput n pts`: all points different, at most 2³²−2 of them, the artificial points enclose the input (C24 gives this for exact
  arithmetic), and the crate's own float formulas (`in_scan_area`, sign of `Angle`, the `EPSILON` comparison of `point_event`) give
  no *wrong* sign on the points at hand.  It is decidable; it holds always in exact arithmetic when different x-coordinates are
  more than EPSILON apart (`fine_exact`), is derived from the exact coordinates for f64 in C48, and is evaluated in the kernel for the
  f64 examples (`ex_fine`).
* `NoTouch poly ops`: no input point lies strictly between the ends of an input edge.  General position (no three points on a line) is *not* assumed: flat
  triangles (three corners on a line) can arise only along the outer boundary during the sweep; `Proofs/Flat` shows that they are gone where it matters, that an edge
  insertion never meets a point on its segment, and that reported triangles have positive area (`result_pos`).
* `EdgesApart`: input edges do not cross; `ScanComplete`, `EpsUp`: the float scan test sees points strictly inside an angle, adding `EPSILON` does not decrease an
  abscissa; `HasDip` is the condition under which the defective branch 698 can be reached.
* Ghost switches (`Trap`, all off in the code): `programG ⟨true,_,false⟩` is the code made to stop with `Err.trapped` where it would take the defective branch
  `sweeper.rs:698`; `noCol` also stops it at the collinear branches of the edge flip.  A successful `programG` run *is* a run of the code
  (proved: `runG` with a trap on and success equals `run`).  The third switch, `fix`, is not a trap: it replaces the argument at line 698 by the right one
  (used in C61 only).  The observer theorems speak about the trace of successful runs.
* Where a theorem needs neither, it is stated for `Trap.off`, i.e. for every run of the code.

## Defects found in the code

1. `sweeper.rs:698` passes `node_id` where the mirrored left version (and the C++ original) passes the next
   node: a convex node is filled, giving an inverted triangle, wrong adjacency and panics.  C33; C61 proves that
   passing the next node repairs it and that nothing else goes wrong on valid input.
2. `Angle::exceeds_90_degree` answers false for exactly 180°, so collinear front nodes are filled with
   degenerate (zero-area) triangles.
3. The absolute `EPSILON` in `point_event` fills convex nodes for inputs at tiny scale.
4. The collinear branches of `edge_event_process` mark only one side of the edge, so the flood fill can leak
   out of the polygon (artificial vertices get reported).  C55.
5. Undefined behaviour through the safe API for a Steiner point on an edge.  C34.
6. The float angle test can take the wrong side of a line through an artificial point: clockwise triangles in the mesh (not among the reported ones).  C50.
7. Endless recursion in `fill_right_below_edge_event` on a simple heptagon.  C45.
8. The comparator of the sweep order answers `Greater` both ways for equal points, which `sort_by` forbids (unspecified order, a panic in recent versions of Rust).  C51.
9. The documentation of `add_steiner_point` says that a point outside the polygon has no effect; if it is left of all corners the result is empty, since `finalize_polygon` starts at the second node of the front.  C58, C59; C60 gives the exact condition.
10. A polygon that crosses itself is accepted without complaint and the result may contain the artificial points, i.e. indices of points that are not part of the input (`C62_leak`).  C62 says what still holds.
11. Overlapping holes inside a polygon can make the result a triangle outside the polygon (`C63_outside`), since a flip moves the mark of a crossed edge to its diagonal.  C63 says what still holds.
12. A hole to the left of the polygon is filled and reported instead of the polygon (`C66_beside`); nothing checks that holes are inside.  C66.
13. The loader returns an error value only if the file cannot be opened; a directory, bytes that are not UTF-8, a line of blanks, a malformed number and a repeated point make it panic, although its result type has errors for these.  C27, C68.
