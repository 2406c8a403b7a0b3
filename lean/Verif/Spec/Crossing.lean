import Verif.Spec.Float
import Verif.Spec.Observed
import Verif.Spec.Repair
import Verif.Spec.Steiner

/-!
# Specification: inputs whose edges may cross each other
-/

namespace P2T

/-- The conditions on an input whose edges may cross: different points, none of them inside an edge, at least three corners each.  Nothing else is said about the edges:
the polygon may cross itself, holes may cross the polygon or each other or be outside, and so may the Steiner points. -/
structure CrossingInput {D} (poly : Source D) (ops : List (BuildOp D)) : Prop where
  size : (allPoints (piecesOf poly ops)).length + 2 ≤ 2 ^ 32
  distinct : (allPoints (piecesOf poly ops)).Nodup
  noTouch : NoTouch poly ops
  three : 3 ≤ poly.points.length
  three' : ∀ H ∈ holesOf ops, 3 ≤ H.length

/-- The same together with the conditions on the arithmetic. -/
structure LooseInput {D} (n : Num) (poly : Source D) (ops : List (BuildOp D)) : Prop where
  fine : FineInput n (allPoints (piecesOf poly ops))
  noTouch : NoTouch poly ops
  scan : ScanComplete n (withArtificial n (allPoints (piecesOf poly ops)))
  up : EpsUp n (allPoints (piecesOf poly ops))
  ok : ∀ p ∈ piecesOf poly ops, p.Ok

/-- What is left of a correct result `t` (with the events `s`) if edges cross: the reported triangles are not inverted (and not flat, if no three points are on a line) and do not overlap, every edge
that no other edge crosses is a constraint edge of the final mesh, all other edges are locally Delaunay or marked, the neighbour links and the marks are consistent, and at every callback the mesh
and the front are sound. -/
structure SafeResult {D} (n : Num) (poly : Source D) (ops : List (BuildOp D)) (t : Triangles D) (s : St) : Prop where
  proper : ∀ i ∈ t.result, ∃ T, t.triangles[i]? = some T ∧
    NotReversed (ptOf (withArtificial n (allPoints (piecesOf poly ops))) T.points.a) (ptOf (withArtificial n (allPoints (piecesOf poly ops))) T.points.b)
      (ptOf (withArtificial n (allPoints (piecesOf poly ops))) T.points.c) ∧
    (GeneralPosition (withArtificial n (allPoints (piecesOf poly ops))) → 0 < area2 (withArtificial n (allPoints (piecesOf poly ops))) T)
  disjoint : t.result.Pairwise fun i j => ∀ T T', t.triangles[i]? = some T → t.triangles[j]? = some T' → ∀ q,
    ¬ (T.Inside (withArtificial n (allPoints (piecesOf poly ops))) q ∧ T'.Inside (withArtificial n (allPoints (piecesOf poly ops))) q)
  edges : ∀ e ∈ freeEdges poly ops, ConstrainedEdge t.triangles e.1 e.2
  delaunay : LocallyDelaunay (withArtificial n (allPoints (piecesOf poly ops))) t.triangles
  marks : SymmetricMarks t.triangles
  verify : verifyTriangles t.points t.triangles = .ok true
  callbacks : ∀ ev sn, (ev, sn) ∈ s.trace → SoundCallback (withArtificial n (allPoints (piecesOf poly ops)))
    (allPoints (piecesOf poly ops)).length ((allPoints (piecesOf poly ops)).length + 1) ev sn

/-- No edge of the input crosses an edge of this closed polyline. -/
def Uncrossed {D} (poly : Source D) (ops : List (BuildOp D)) (L : List Point) : Prop := ∀ x ∈ cyclicPairs L, ∀ y ∈ inputSegs poly ops, ¬ ProperCross x.1 x.2 y.1 y.2

/-- The reported triangles are all inside the closed polyline or all outside. -/
def OneSide {D} (all : List Point) (t : Triangles D) (L : List Point) : Prop :=
  (∀ i ∈ t.result, ∀ T, t.triangles[i]? = some T → ∀ q, T.Inside all q → InsidePolyline L q) ∨
  (∀ i ∈ t.result, ∀ T, t.triangles[i]? = some T → ∀ q, T.Inside all q → ¬ InsidePolyline L q)

/-- Each of the polygon and the holes that no edge crosses is respected. -/
def RespectsLoops {D} (n : Num) (poly : Source D) (ops : List (BuildOp D)) (t : Triangles D) : Prop :=
  ∀ L ∈ poly.points :: holesOf ops, Uncrossed poly ops L → OneSide (withArtificial n (allPoints (piecesOf poly ops))) t L

instance {D} (poly : Source D) (ops : List (BuildOp D)) (L : List Point) : Decidable (Uncrossed poly ops L) := by unfold Uncrossed; infer_instance

/-- The leftmost input point is the end of an uncrossed edge. -/
def LeftAnchored {D} (poly : Source D) (ops : List (BuildOp D)) : Prop := ∃ e ∈ freeEdges poly ops,
  TopLeft (allPoints (piecesOf poly ops)) (ptOf (allPoints (piecesOf poly ops)) e.1) ∨ TopLeft (allPoints (piecesOf poly ops)) (ptOf (allPoints (piecesOf poly ops)) e.2)

instance {D} (poly : Source D) (ops : List (BuildOp D)) : Decidable (LeftAnchored poly ops) := by unfold LeftAnchored; infer_instance

/-- `z` is the leftmost of the points (the uppermost of them) and all other points are strictly below the ray from `z` through `w`: `z w` is the first edge of the upper hull. -/
def FirstHullEdge (pts : List Point) (z w : Point) : Prop := TopLeft pts z ∧ ∀ v ∈ pts, v ≠ z → v ≠ w → 0 < det2 z v w

instance (pts : List Point) (z w : Point) : Decidable (FirstHullEdge pts z w) := by unfold FirstHullEdge; infer_instance

/-- The first edge of the upper hull of the input is an edge of the polygon. -/
def HullAnchored {D} (poly : Source D) (ops : List (BuildOp D)) : Prop := ∃ x ∈ cyclicPairs poly.points,
  FirstHullEdge (allPoints (piecesOf poly ops)) x.1 x.2 ∨ FirstHullEdge (allPoints (piecesOf poly ops)) x.2 x.1

instance {D} (poly : Source D) (ops : List (BuildOp D)) : Decidable (HullAnchored poly ops) := by unfold HullAnchored; infer_instance

/-- The right artificial point is below the ray from `z` through `w`. -/
def TailBelow (n : Num) (pts : List Point) : Prop := ∀ z ∈ pts, ∀ w ∈ pts, FirstHullEdge pts z w → 0 < det2 z (artRight n pts) w

instance (n : Num) (pts : List Point) : Decidable (TailBelow n pts) := by unfold TailBelow; infer_instance

/-- The polygon is strictly convex, in either direction, and all other input points are strictly inside: each edge has all other points strictly on the same side. -/
def ConvexOutline {D} (poly : Source D) (ops : List (BuildOp D)) : Prop :=
  (∀ x ∈ cyclicPairs poly.points, ∀ v ∈ allPoints (piecesOf poly ops), v ≠ x.1 → v ≠ x.2 → 0 < det2 x.1 x.2 v) ∨
  (∀ x ∈ cyclicPairs poly.points, ∀ v ∈ allPoints (piecesOf poly ops), v ≠ x.1 → v ≠ x.2 → 0 < det2 x.2 x.1 v)

instance {D} (poly : Source D) (ops : List (BuildOp D)) : Decidable (ConvexOutline poly ops) := by unfold ConvexOutline; infer_instance

/-- All reported triangles are inside the closed polyline. -/
def InsideOnly {D} (all : List Point) (t : Triangles D) (L : List Point) : Prop := ∀ i ∈ t.result, ∀ T, t.triangles[i]? = some T → ∀ q, T.Inside all q → InsidePolyline L q

end P2T
