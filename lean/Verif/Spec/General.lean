import Verif.Spec.Fine
import Verif.Spec.Interior

/-!
# Specification: inputs in general position whose edges do not cross
-/

namespace P2T

/-- No three of the points are on a line. -/
def GeneralPosition (all : List Point) : Prop := ∀ a ∈ all, ∀ b ∈ all, ∀ c ∈ all, a ≠ b → b ≠ c → a ≠ c → det2 a b c ≠ 0

/-- `z` is strictly between `u` and `v`, on the segment. -/
def Between (u v z : Point) : Prop := det2 u v z = 0 ∧ (u.x - z.x) * (v.x - z.x) + (u.y - z.y) * (v.y - z.y) < 0

instance (u v z : Point) : Decidable (Between u v z) := by unfold Between; infer_instance

/-- No input point (corner of the polygon, corner of a hole, or Steiner point) lies on an edge of the polygon or of a hole, except as an end of the edge. -/
def NoTouch {D} (poly : Source D) (ops : List (BuildOp D)) : Prop :=
  ∀ e ∈ inputEdges poly ops, ∀ z ∈ allPoints (piecesOf poly ops),
    ¬ Between (ptOf (allPoints (piecesOf poly ops)) e.1) (ptOf (allPoints (piecesOf poly ops)) e.2) z

instance {D} (poly : Source D) (ops : List (BuildOp D)) : Decidable (NoTouch poly ops) := by unfold NoTouch; infer_instance

/-- The scan-area test of the edge flips (plain float arithmetic) recognizes every point that really is strictly inside the angle:
the converse of `Faithful.scanNeg` and `Faithful.scanPos`. -/
def ScanComplete (n : Num) (all : List Point) : Prop := ∀ a ∈ all, ∀ b ∈ all, ∀ d ∈ all,
  (det2 a d b < 0 → scanDet n a b d < -n.eps) ∧ (0 < det2 a d b → n.eps < scanDet n a b d)

/-- Adding `eps` to an abscissa (in float arithmetic) does not make it smaller. -/
def EpsUp (n : Num) (all : List Point) : Prop := ∀ p ∈ all, p.x ≤ n.rnd (p.x + n.eps)

instance (n : Num) (all : List Point) : Decidable (EpsUp n all) := by unfold EpsUp; infer_instance
instance (all : List Point) : Decidable (GeneralPosition all) := by unfold GeneralPosition; infer_instance
instance (n : Num) (all : List Point) : Decidable (ScanComplete n all) := by unfold ScanComplete; infer_instance

/-- No two edges of the polygon and the holes cross. -/
def EdgesApart {D} (poly : Source D) (ops : List (BuildOp D)) : Prop :=
  ∀ e ∈ inputEdges poly ops, ∀ f ∈ inputEdges poly ops,
    ¬ ProperCross (ptOf (allPoints (piecesOf poly ops)) e.1) (ptOf (allPoints (piecesOf poly ops)) e.2)
      (ptOf (allPoints (piecesOf poly ops)) f.1) (ptOf (allPoints (piecesOf poly ops)) f.2)

instance (u v x y : Point) : Decidable (ProperCross u v x y) := by unfold ProperCross; infer_instance
instance {D} (poly : Source D) (ops : List (BuildOp D)) : Decidable (EdgesApart poly ops) := by unfold EdgesApart; infer_instance

/-- `z` is vertically below the segment `u v`, whose left end is `u`. -/
def Under (u v z : Point) : Prop := u.x ≤ z.x ∧ z.x ≤ v.x ∧ det2 u v z < 0

instance (u v z : Point) : Decidable (Under u v z) := by unfold Under; infer_instance

/-- `z` is vertically below an edge whose ends the sweep meets before the point `q`. -/
def Covered (edges : List (Point × Point)) (q z : Point) : Prop := ∃ e ∈ edges, Below e.1 q ∧ Below e.2 q ∧ (Under e.1 e.2 z ∨ Under e.2 e.1 z)

instance (edges : List (Point × Point)) (q z : Point) : Decidable (Covered edges q z) := by unfold Covered; infer_instance

/-- No point that the sweep meets before `q` is vertically above the segment `a b`, whose left end is `a`. -/
def OnTop (all : List Point) (q a b : Point) : Prop := ∀ z ∈ all, Below z q → a.x ≤ z.x → z.x ≤ b.x → det2 a b z ≤ 0

instance (all : List Point) (q a b : Point) : Decidable (OnTop all q a b) := by unfold OnTop; infer_instance

/-- A dip under the edge from `q` (the upper end, on the left) down to `p`: among the points that the sweep has met when it comes to `q` there are
`a`, `b`, `d` from left to right in the vertical strip of the edge, `a` not below the line of the edge and `b`, `d` below it, the path from `a` over `b` to `d`
not turning left, no point met so far above this path, and none of the three below an edge met so far. -/
def Dip (all : List Point) (edges : List (Point × Point)) (p q : Point) : Prop := q.x < p.x ∧
  ∃ a ∈ all, ∃ b ∈ all, ∃ d ∈ all, (a = q ∨ Below a q) ∧ Below b q ∧ Below d q ∧ q.x ≤ a.x ∧ a.x < b.x ∧ b.x < d.x ∧ d.x < p.x ∧
    0 ≤ det2 q p a ∧ det2 q p b < 0 ∧ det2 q p d < 0 ∧ det2 a b d ≤ 0 ∧
    OnTop all q a b ∧ OnTop all q b d ∧
    ¬ Covered edges q a ∧ ¬ Covered edges q b ∧ ¬ Covered edges q d

instance (all : List Point) (edges : List (Point × Point)) (p q : Point) : Decidable (Dip all edges p q) := by unfold Dip; infer_instance

/-- The edges of the polygon and of the holes as segments: the lower end, the upper end. -/
def inputSegs {D} (poly : Source D) (ops : List (BuildOp D)) : List (Point × Point) :=
  (inputEdges poly ops).map fun e => (ptOf (allPoints (piecesOf poly ops)) e.1, ptOf (allPoints (piecesOf poly ops)) e.2)

/-- Some edge of the polygon or of a hole has a dip under it. -/
def HasDip {D} (poly : Source D) (ops : List (BuildOp D)) : Prop :=
  ∃ e ∈ inputSegs poly ops, Dip (allPoints (piecesOf poly ops)) (inputSegs poly ops) e.1 e.2

instance {D} (poly : Source D) (ops : List (BuildOp D)) : Decidable (HasDip poly ops) := by unfold HasDip; infer_instance

/-- No edge of the polygon or of a hole crosses this one. -/
def CrossFree {D} (poly : Source D) (ops : List (BuildOp D)) (e : Nat × Nat) : Prop := ∀ f ∈ inputEdges poly ops,
  ¬ ProperCross (ptOf (allPoints (piecesOf poly ops)) e.1) (ptOf (allPoints (piecesOf poly ops)) e.2)
    (ptOf (allPoints (piecesOf poly ops)) f.1) (ptOf (allPoints (piecesOf poly ops)) f.2)

instance {D} (poly : Source D) (ops : List (BuildOp D)) (e : Nat × Nat) : Decidable (CrossFree poly ops e) := by unfold CrossFree; infer_instance

/-- The edges that are not crossed by another edge. -/
def freeEdges {D} (poly : Source D) (ops : List (BuildOp D)) : List (Nat × Nat) := (inputEdges poly ops).filter fun e => decide (CrossFree poly ops e)

/-- Some edge has a dip under it; points below an edge that crosses another one count as well. -/
def HasFreeDip {D} (poly : Source D) (ops : List (BuildOp D)) : Prop :=
  ∃ e ∈ inputSegs poly ops, Dip (allPoints (piecesOf poly ops))
    ((freeEdges poly ops).map fun e => (ptOf (allPoints (piecesOf poly ops)) e.1, ptOf (allPoints (piecesOf poly ops)) e.2)) e.1 e.2

instance {D} (poly : Source D) (ops : List (BuildOp D)) : Decidable (HasFreeDip poly ops) := by unfold HasFreeDip; infer_instance

/-- If no edges cross at all, it is the same. -/
theorem EdgesApart.dip {D} {poly : Source D} {ops : List (BuildOp D)} (h : EdgesApart poly ops) (k : HasFreeDip poly ops) : HasDip poly ops := by
  have : freeEdges poly ops = inputEdges poly ops := List.filter_eq_self.2 fun e he => decide_eq_true (h e he)
  unfold HasFreeDip at k
  rw [this] at k
  exact k

/-- A strictly convex closed polyline: all the other corners are on the same side of every edge (the left side of all edges, or the right side of all edges). -/
def StrictlyConvex (ps : List Point) : Prop :=
  (∀ e ∈ cyclicPairs ps, ∀ z ∈ ps, z ≠ e.1 → z ≠ e.2 → 0 < det2 e.1 e.2 z) ∨ (∀ e ∈ cyclicPairs ps, ∀ z ∈ ps, z ≠ e.1 → z ≠ e.2 → det2 e.1 e.2 z < 0)

instance (ps : List Point) : Decidable (StrictlyConvex ps) := by unfold StrictlyConvex; infer_instance

end P2T
