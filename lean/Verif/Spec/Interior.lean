import Verif.Spec.Region
import Verif.Spec.Input
import Verif.Spec.Polygon

/-!
# Specification: inside a closed polyline, and the polygon minus its holes

Even–odd rule: a point is inside a closed polyline if the ray upwards from it crosses the polyline an odd number of
times.  (The left end of an edge counts as hit by the ray, the right end does not; the ray does not contain its start.)
-/

namespace P2T

/-- The ray upwards from `q` crosses the edge between `u` and `v`. -/
def EdgeOver (q u v : Point) : Prop :=
  (u.x ≤ q.x ∧ q.x < v.x ∧ det2 u v q < 0) ∨ (v.x ≤ q.x ∧ q.x < u.x ∧ det2 v u q < 0)

instance (q u v : Point) : Decidable (EdgeOver q u v) := by unfold EdgeOver; infer_instance

/-- How often the ray upwards from `q` crosses the closed polyline. -/
def crossings (ps : List Point) (q : Point) : Nat := (cyclicPairs ps).countP fun x => decide (EdgeOver q x.1 x.2)

/-- `q` is inside the closed polyline (even–odd rule). -/
def InsidePolyline (ps : List Point) (q : Point) : Prop := crossings ps q % 2 = 1

instance (ps : List Point) (q : Point) : Decidable (InsidePolyline ps q) := by unfold InsidePolyline; infer_instance

/-- `q` is inside the closed polyline and not on it. -/
def StrictlyInside (ps : List Point) (q : Point) : Prop := InsidePolyline ps q ∧ ∀ x ∈ cyclicPairs ps, ¬ OnSeg x.1 x.2 q

/-- The holes of a chain of builder calls. -/
def BuildOp.holePts {D} : BuildOp D → List (List Point)
  | .hole s => [s.points]
  | .holes ss => ss.map (·.points)
  | _ => []

def holesOf {D} (ops : List (BuildOp D)) : List (List Point) := ops.flatMap BuildOp.holePts

/-- The points of the holes and the Steiner points. -/
def extraPoints {D} (ops : List (BuildOp D)) : List Point := allPoints (ops.flatMap BuildOp.pieces)

/-- `q` is inside the polygon and inside no hole. -/
def InRegion {D} (poly : Source D) (ops : List (BuildOp D)) (q : Point) : Prop :=
  InsidePolyline poly.points q ∧ ∀ H ∈ holesOf ops, ¬ InsidePolyline H q

/-- The numbers of the points of the input edges, as pairs. -/
def inputEdges {D} (poly : Source D) (ops : List (BuildOp D)) : List (Nat × Nat) := pieceEdges 0 (piecesOf poly ops)

/-- All the edges `E` are edges of the mesh, and they are the edges marked as constrained. -/
structure ConstraintsInPlace (E : List (Nat × Nat)) (M : Store) : Prop where
  present : ∀ e ∈ E, MeshEdge M e.1 e.2
  marked : ∀ T ∈ M, ∀ i : Fin 3, T.isConstrained i = true ↔ (T.from i, T.to i) ∈ E ∨ (T.to i, T.from i) ∈ E

/-- The triangles of `M` listed in `result` triangulate the polygon minus its holes.  `all` are the input points followed by auxiliary points. -/
structure TriangulatesRegion {D} (poly : Source D) (ops : List (BuildOp D)) (all : List Point) (M : Store) (result : List Nat) : Prop where
  /-- every listed triangle exists, is counter-clockwise with positive area, and its corners are input points -/
  proper : ∀ i ∈ result, ∃ T, M[i]? = some T ∧ 0 < area2 all T ∧ ∀ k, T.points.get k < (allPoints (piecesOf poly ops)).length
  /-- different listed triangles do not overlap -/
  apart : result.Pairwise fun i j => ∀ T T', M[i]? = some T → M[j]? = some T' → ∀ q, ¬ (T.Inside all q ∧ T'.Inside all q)
  /-- every inner point of a listed triangle is inside the polygon and outside all holes -/
  inside : ∀ i ∈ result, ∀ T, M[i]? = some T → ∀ q, T.Inside all q → InRegion poly ops q
  /-- every point inside the polygon and outside all holes is in a listed triangle -/
  covers : ∀ q, InRegion poly ops q → ∃ i ∈ result, ∃ T, M[i]? = some T ∧ T.InClosed all q

end P2T
