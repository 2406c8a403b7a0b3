import Verif.Spec.Interior
import Verif.Spec.Flip

/-!
# Specification: areas, and holes that do not overlap
-/

namespace P2T

/-- Twice the signed area of a closed polyline (shoelace formula). -/
def shoelace2 (ps : List Point) : Rat := ((cyclicPairs ps).map fun e => e.1.x * e.2.y - e.2.x * e.1.y).sum

/-- Twice the area of the triangles listed in `result`. -/
def resultArea2 (all : List Point) (M : Store) (result : List Nat) : Rat :=
  (result.map fun i => match M[i]? with | some T => area2 all T | none => 0).sum

/-- `q` is outside the closed polyline and not on it. -/
def StrictlyOutside (ps : List Point) (q : Point) : Prop := ¬ InsidePolyline ps q ∧ ∀ x ∈ cyclicPairs ps, ¬ OnSeg x.1 x.2 q

/-- The corners of every hole are strictly outside all the other holes. -/
def HolesApart {D} (ops : List (BuildOp D)) : Prop :=
  (holesOf ops).Pairwise fun H H' => (∀ p ∈ H', StrictlyOutside H p) ∧ ∀ p ∈ H, StrictlyOutside H' p

/-- The Steiner points of a chain of builder calls. -/
def BuildOp.steinerPts {D} : BuildOp D → List Point
  | .steinerPoint p _ => [p]
  | .steinerPoints s => s.points
  | _ => []

def steinersOf {D} (ops : List (BuildOp D)) : List Point := ops.flatMap BuildOp.steinerPts

/-- No Steiner point is on an edge of the polygon or of a hole. -/
def SteinersOff {D} (poly : Source D) (ops : List (BuildOp D)) : Prop :=
  ∀ ps ∈ poly.points :: holesOf ops, ∀ p ∈ steinersOf ops, ∀ x ∈ cyclicPairs ps, ¬ OnSeg x.1 x.2 p

instance {D} (poly : Source D) (ops : List (BuildOp D)) (q : Point) : Decidable (InRegion poly ops q) := by unfold InRegion; infer_instance

end P2T
