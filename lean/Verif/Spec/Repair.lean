import Verif.Spec.Steiner
import Verif.Spec.Measure
import Verif.Spec.Interior

/-!
# Specification: the repaired program

The crate with one argument changed: `src/sweeper.rs:698` passes the next node to the recursive call, as the mirrored call at `src/sweeper.rs:778` does.
-/

namespace P2T

/-- Everything in one run: the builder calls and `triangulate`, with line 698 repaired. -/
abbrev repairedProgram {D} (n : Num) (fuel : Nat) (poly : Source D) (ops : List (BuildOp D)) : Except Err (Triangles D × St) :=
  programG .repaired n fuel poly ops

/-- What a user expects of the result `t`: the reported triangles triangulate the polygon minus the holes, they are constrained Delaunay, all edges of the polygon and of the holes are constraint
edges, and if the holes are apart from each other, the area and the number of triangles are the right ones. -/
structure CorrectResult {D} (n : Num) (poly : Source D) (ops : List (BuildOp D)) (t : Triangles D) : Prop where
  region : TriangulatesRegion poly ops (withArtificial n (allPoints (piecesOf poly ops))) t.triangles t.result
  delaunay : ConstrainedDelaunay poly ops (withArtificial n (allPoints (piecesOf poly ops))) t.triangles t.result
  edges : ConstraintsInPlace (inputEdges poly ops) t.triangles
  area : HolesApart ops → resultArea2 (withArtificial n (allPoints (piecesOf poly ops))) t.triangles t.result = |shoelace2 poly.points| - ((holesOf ops).map fun H => |shoelace2 H|).sum
  count : HolesApart ops → t.result.length + 2 = poly.points.length + ((holesOf ops).map fun H => H.length + 2).sum +
    2 * (steinersOf ops).countP fun p => decide (InRegion poly ops p)

end P2T
