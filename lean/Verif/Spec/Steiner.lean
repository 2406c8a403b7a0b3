import Verif.Spec.Float

/-!
# Specification: Steiner points outside the region

Two inputs with the same polygon and the same holes, which differ only in Steiner points that are outside the polygon or in a hole.
-/

namespace P2T

/-- The same polygon and the same holes, in whatever order and by whatever calls they are given.  Nothing about Steiner points. -/
structure SameOutline {D D'} (poly : Source D) (ops : List (BuildOp D)) (poly' : Source D') (ops' : List (BuildOp D')) : Prop where
  polygon : SameClosed poly.points poly'.points
  holes : ∀ H ∈ holesOf ops, ∃ H' ∈ holesOf ops', SameClosed H H'
  holes' : ∀ H' ∈ holesOf ops', ∃ H ∈ holesOf ops, SameClosed H H'

/-- The same polygon, the same holes, and the same Steiner points among those that are inside the polygon and in no hole.  The Steiner points
outside the polygon and in the holes can be different. -/
structure SameInside {D D'} (poly : Source D) (ops : List (BuildOp D)) (poly' : Source D') (ops' : List (BuildOp D')) : Prop extends
    SameOutline poly ops poly' ops' where
  steiner : ∀ p, InRegion poly ops p → (p ∈ steinersOf ops ↔ p ∈ steinersOf ops')

/-- `SoundInput` without any condition on where the Steiner points are (`SoundInput` wants them inside the polygon; that they are on no edge
follows from `noTouch`). -/
structure SoundOutline {D} (n : Num) (poly : Source D) (ops : List (BuildOp D)) : Prop where
  fine : FineInput n (allPoints (piecesOf poly ops))
  noTouch : NoTouch poly ops
  scan : ScanComplete n (withArtificial n (allPoints (piecesOf poly ops)))
  up : EpsUp n (allPoints (piecesOf poly ops))
  apart : EdgesApart poly ops
  ok : ∀ p ∈ piecesOf poly ops, p.Ok
  three : 3 ≤ poly.points.length
  three' : ∀ H ∈ holesOf ops, 3 ≤ H.length
  holes : ∀ H ∈ holesOf ops, ∀ p ∈ H, StrictlyInside poly.points p

/-- `Admissible` without any condition on where the Steiner points are. -/
structure AdmissibleOutline {D} (n : Num) (poly : Source D) (ops : List (BuildOp D)) : Prop extends SoundOutline n poly ops where
  noDip : ¬ HasDip poly ops

/-- `SimpleInput` (geometric conditions in terms of the exact coordinates) without any condition on where the Steiner points are, except that none is on an edge (`noTouch`). -/
structure SimpleOutline {D} (poly : Source D) (ops : List (BuildOp D)) : Prop where
  size : (allPoints (piecesOf poly ops)).length + 2 ≤ 2 ^ 32
  distinct : (allPoints (piecesOf poly ops)).Nodup
  noTouch : NoTouch poly ops
  apart : EdgesApart poly ops
  three : 3 ≤ poly.points.length
  three' : ∀ H ∈ holesOf ops, 3 ≤ H.length
  holes : ∀ H ∈ holesOf ops, ∀ p ∈ H, StrictlyInside poly.points p

/-- `PlainInput` without any condition on where the Steiner points are, except that none is on an edge. -/
structure PlainOutline {D} (poly : Source D) (ops : List (BuildOp D)) : Prop extends SimpleOutline poly ops where
  noDip : ¬ HasDip poly ops

/-- `z` is the leftmost of the points, the uppermost one if there are several. -/
def TopLeft (pts : List Point) (z : Point) : Prop := z ∈ pts ∧ ∀ p ∈ pts, z.x < p.x ∨ (z.x = p.x ∧ p.y ≤ z.y)

instance (pts : List Point) (z : Point) : Decidable (TopLeft pts z) := by unfold TopLeft; infer_instance

/-- Seen from a leftmost point, the crate's angle test finds the angle between any other input point (or the right artificial point) and the left artificial point
negative or more than 90 degrees.  In exact arithmetic it is so unless two input points are on a line with the left artificial point. -/
def LeftOpen (n : Num) (pts : List Point) : Prop := ∀ o ∈ pts, (∀ z ∈ pts, o.x ≤ z.x) → ∀ a ∈ pts ++ [artRight n pts], a ≠ o →
  (Angle.new n o a (artLeft n pts)).isNegative = true ∨ (Angle.new n o a (artLeft n pts)).exceeds90 = true

instance (n : Num) (pts : List Point) : Decidable (LeftOpen n pts) := by unfold LeftOpen; infer_instance

end P2T
