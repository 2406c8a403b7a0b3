import Verif.Spec.Measure
import Verif.Spec.General

/-!
# Specification: constrained Delaunay triangulations

The global form: from inside a triangle one sees no input point that is strictly inside its circumcircle, the edges of the polygon and
of the holes being opaque.
-/

namespace P2T

/-- `q` is strictly between `u` and `v`. -/
def StrictlyBetween (u v q : Point) : Prop :=
  ∃ t : Rat, 0 < t ∧ t < 1 ∧ q.x = u.x + t * (v.x - u.x) ∧ q.y = u.y + t * (v.y - u.y)

/-- Looking from `X`, the point `p` is not hidden: strictly between them there is no point of an edge of the polygon or of a hole. -/
def Visible {D} (poly : Source D) (ops : List (BuildOp D)) (X p : Point) : Prop :=
  ∀ ps ∈ poly.points :: holesOf ops, ∀ e ∈ cyclicPairs ps, ∀ q, StrictlyBetween X p q → ¬ OnSeg e.1 e.2 q

/-- No input point that can be seen from an inner point of a listed triangle is strictly inside the circumcircle of the triangle. -/
def ConstrainedDelaunay {D} (poly : Source D) (ops : List (BuildOp D)) (all : List Point) (M : Store) (result : List Nat) : Prop :=
  ∀ i ∈ result, ∀ T, M[i]? = some T → ∀ X, T.Inside all X → ∀ p ∈ allPoints (piecesOf poly ops), Visible poly ops X p →
    inCircleDet (ptOf all (T.points.get 0)) (ptOf all (T.points.get 1)) (ptOf all (T.points.get 2)) p ≤ 0

/-! ## The same input, given in another way -/

/-- The same closed polyline, perhaps starting at another corner, perhaps in the other direction. -/
def SameClosed (ps qs : List Point) : Prop := ∃ a b, ps = a ++ b ∧ (qs = b ++ a ∨ qs = (b ++ a).reverse)

/-- The same polygon, the same holes and the same Steiner points, in whatever order and by whatever calls they are given. -/
structure SameInput {D D'} (poly : Source D) (ops : List (BuildOp D)) (poly' : Source D') (ops' : List (BuildOp D')) : Prop where
  polygon : SameClosed poly.points poly'.points
  holes : ∀ H ∈ holesOf ops, ∃ H' ∈ holesOf ops', SameClosed H H'
  holes' : ∀ H' ∈ holesOf ops', ∃ H ∈ holesOf ops, SameClosed H H'
  steiner : ∀ p, p ∈ steinersOf ops ↔ p ∈ steinersOf ops'

/-- No four of the points are on a circle. -/
def NoFourCocircular (all : List Point) : Prop :=
  ∀ a ∈ all, ∀ b ∈ all, ∀ c ∈ all, ∀ d ∈ all, det2 a b c ≠ 0 → d ≠ a → d ≠ b → d ≠ c → inCircleDet a b c d ≠ 0

instance (all : List Point) : Decidable (NoFourCocircular all) := by unfold NoFourCocircular; infer_instance

/-- Every triangle listed in `result` is, as a triangle in the plane, also listed in `result'`. -/
def TrianglesAmong (all : List Point) (M : Store) (result : List Nat) (all' : List Point) (M' : Store) (result' : List Nat) : Prop :=
  ∀ i ∈ result, ∀ T, M[i]? = some T → ∃ i' ∈ result', ∃ T', M'[i']? = some T' ∧
    ∃ k : Fin 3, ∀ j : Fin 3, ptOf all (T.points.get j) = ptOf all' (T'.points.get (j + k))

/-- Predicates evaluated without error, edges do not cross, no input point inside an edge, holes and Steiner points inside the polygon. -/
structure SoundInput {D} (n : Num) (poly : Source D) (ops : List (BuildOp D)) : Prop where
  fine : FineInput n (allPoints (piecesOf poly ops))
  noTouch : NoTouch poly ops
  scan : ScanComplete n (withArtificial n (allPoints (piecesOf poly ops)))
  up : EpsUp n (allPoints (piecesOf poly ops))
  apart : EdgesApart poly ops
  ok : ∀ p ∈ piecesOf poly ops, p.Ok
  three : 3 ≤ poly.points.length
  three' : ∀ H ∈ holesOf ops, 3 ≤ H.length
  inside : ∀ p ∈ extraPoints ops, StrictlyInside poly.points p

/-- The inputs of the theorem on total correctness: in addition no dip under an edge. -/
structure Admissible {D} (n : Num) (poly : Source D) (ops : List (BuildOp D)) : Prop extends SoundInput n poly ops where
  noDip : ¬ HasDip poly ops

end P2T
