import Verif.Spec.Crossing
import Verif.Spec.Steiner

/-!
# Specification for C66: polylines that may be nested or beside each other
-/

namespace P2T

/-- The point is inside the closed polyline `L` and not inside any other closed polyline of the input. -/
def LoopRegion {D} (poly : Source D) (ops : List (BuildOp D)) (L : List Point) (q : Point) : Prop :=
  InsidePolyline L q ∧ ∀ H ∈ poly.points :: holesOf ops, H ≠ L → ¬ InsidePolyline H q

instance {D} (poly : Source D) (ops : List (BuildOp D)) (L : List Point) (q : Point) : Decidable (LoopRegion poly ops L q) := by unfold LoopRegion; infer_instance

/-- The reported triangles are the region: every interior point of a reported triangle is in it, and every point of it is in a reported triangle of positive area or on its border. -/
structure ReportsRegion {D} (all : List Point) (t : Triangles D) (R : Point → Prop) : Prop where
  sound : ∀ i ∈ t.result, ∀ T, t.triangles[i]? = some T → ∀ q, T.Inside all q → R q
  complete : ∀ q, R q → ∃ i ∈ t.result, ∃ T, t.triangles[i]? = some T ∧ 0 < area2 all T ∧ T.InClosed all q

/-- What is reported: nothing, if the leftmost input point is a Steiner point, and otherwise the region inside the polyline with the leftmost input point
(the polygon or one of the holes) and outside all others. -/
structure LeftmostLoop {D} (n : Num) (poly : Source D) (ops : List (BuildOp D)) (t : Triangles D) : Prop where
  steiner : ∀ z ∈ steinersOf ops, TopLeft (allPoints (piecesOf poly ops)) z → t.result = []
  loop : ∀ L ∈ poly.points :: holesOf ops, ∀ z ∈ L, TopLeft (allPoints (piecesOf poly ops)) z →
    t.result ≠ [] ∧ ReportsRegion (withArtificial n (allPoints (piecesOf poly ops))) t (LoopRegion poly ops L)

end P2T
