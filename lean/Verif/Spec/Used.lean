import Verif.Spec.Nesting

/-!
# Specification for C67: which input points are corners of reported triangles
-/

namespace P2T

/-- `p` is a corner of a reported triangle.  `all` are the input points followed by the artificial points. -/
def ReportedCorner {D} (all : List Point) (t : Triangles D) (p : Point) : Prop :=
  ∃ i ∈ t.result, ∃ T, t.triangles[i]? = some T ∧ ∃ k, ptOf all (T.points.get k) = p

/-- The point is a corner of the closed polyline `L` or inside it, and it is inside no other closed polyline of the input (its own one, if it is a corner of another one, does not count). -/
def OfLoopRegion {D} (poly : Source D) (ops : List (BuildOp D)) (L : List Point) (p : Point) : Prop :=
  (p ∈ L ∨ InsidePolyline L p) ∧ ∀ H ∈ poly.points :: holesOf ops, H ≠ L → p ∉ H → ¬ InsidePolyline H p

instance {D} (poly : Source D) (ops : List (BuildOp D)) (L : List Point) (p : Point) : Decidable (OfLoopRegion poly ops L p) := by unfold OfLoopRegion; infer_instance

/-- The corners of the reported triangles are exactly the input points that belong to the region of the polyline with the leftmost input point. -/
def UsesPoints {D} (n : Num) (poly : Source D) (ops : List (BuildOp D)) (t : Triangles D) : Prop :=
  ∀ L ∈ poly.points :: holesOf ops, ∀ z ∈ L, TopLeft (allPoints (piecesOf poly ops)) z →
    ∀ p, ReportedCorner (withArtificial n (allPoints (piecesOf poly ops))) t p ↔ p ∈ allPoints (piecesOf poly ops) ∧ OfLoopRegion poly ops L p

end P2T
