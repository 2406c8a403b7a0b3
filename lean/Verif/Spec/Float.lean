import Verif.Spec.General
import Verif.Spec.Delaunay
import Verif.Model.F64
import Mathlib.Algebra.Order.Group.Abs
import Mathlib.Algebra.Order.Ring.Rat

/-!
# Specification: inputs on which `f64` arithmetic is harmless

The theorems about whole runs ask that the plain float computations of the crate (angles, scan area, artificial points) give no wrong sign
(`FineInput`, `ScanComplete`, `EpsUp`).  The conditions of this file mention only the exact coordinates: no float operation occurs in them.
-/

namespace P2T

/-- The value of a finite `f64`, normal or subnormal. -/
def IsF64 (x : Rat) : Prop := ∃ m k : Int, x = m * 2 ^ k ∧ |m| < 2 ^ 53 ∧ -1074 ≤ k ∧ k ≤ 971

/-- Float arithmetic with 53 significant bits: rounding to nearest, or more exact.  Nothing is said about results that are close to overflow.
Instances: IEEE `f64` as modelled, whatever happens on overflow (`f64With ov`, in particular `f64`), exact arithmetic with the
constants of `f64` (`exactNum`), exact arithmetic with an exact `0.3` (`realNum`). -/
class F64Like (n : Num) : Prop where
  err : ∀ x, |x| ≤ 2 ^ 1000 → |n.rnd x - x| ≤ 1 / 2 ^ 53 * |x| + 1 / 2 ^ 1000
  mono : ∀ x y, |x| ≤ 2 ^ 1000 → |y| ≤ 2 ^ 1000 → x ≤ y → n.rnd x ≤ n.rnd y
  fix : ∀ x, IsF64 x → n.rnd x = x
  eps : n.eps = 1 / 2 ^ 52
  k03 : |n.k03 - 3 / 10| ≤ 1 / 2 ^ 56
  hi : 2 ^ 500 ≤ n.hi
  lo : n.lo ≤ -2 ^ 500

/-- Exact arithmetic: nothing is rounded, not even the constant `0.3`. -/
def realNum : Num := { f64 with rnd := id, k03 := 3 / 10 }

/-- Taking three tenths of a multiple of ten is exact. -/
class Tenths (n : Num) : Prop where
  ten : ∀ e j : Int, -20 ≤ e → e ≤ 220 → 0 ≤ j → j ≤ 2 ^ 20 → n.rnd (10 * j * 2 ^ e * n.k03) = 3 * j * 2 ^ e

/-- The smallest axis-parallel box around the points. -/
structure BoundingBox (pts : List Point) (x0 x1 y0 y1 : Rat) : Prop where
  inside : ∀ p ∈ pts, x0 ≤ p.x ∧ p.x ≤ x1 ∧ y0 ≤ p.y ∧ p.y ≤ y1
  left : ∃ p ∈ pts, p.x = x0
  right : ∃ p ∈ pts, p.x = x1
  bottom : ∃ p ∈ pts, p.y = y0
  top : ∃ p ∈ pts, p.y = y1

/-- The lower left corner of the box enlarged by 30 percent (exact). -/
def cornerLeft (x0 x1 y0 y1 : Rat) : Point := ⟨x0 - 3 / 10 * (x1 - x0), y0 - 3 / 10 * (y1 - y0)⟩
/-- The lower right corner of the box enlarged by 30 percent (exact). -/
def cornerRight (x0 x1 y0 y1 : Rat) : Point := ⟨x1 + 3 / 10 * (x1 - x0), y0 - 3 / 10 * (y1 - y0)⟩

/-- No two of the points are on a line with one of the two lower corners of the enlarged box. -/
def ClearOfCorners (pts : List Point) : Prop := ∀ x0 x1 y0 y1, BoundingBox pts x0 x1 y0 y1 → ∀ a ∈ pts, ∀ b ∈ pts, a ≠ b →
  det2 (cornerLeft x0 x1 y0 y1) a b ≠ 0 ∧ det2 (cornerRight x0 x1 y0 y1) a b ≠ 0

/-- All coordinates are multiples of `2 ^ e` by an integer of absolute value at most `2 ^ 20`. -/
def OnGrid (e : Int) (pts : List Point) : Prop :=
  ∀ p ∈ pts, (∃ m : Int, p.x = m * 2 ^ e ∧ |m| ≤ 2 ^ 20) ∧ ∃ m : Int, p.y = m * 2 ^ e ∧ |m| ≤ 2 ^ 20

/-- The two lower corners of the enlarged bounding box are on the grid, too. -/
def CornersOnGrid (e : Int) (pts : List Point) : Prop := ∀ x0 x1 y0 y1, BoundingBox pts x0 x1 y0 y1 →
  OnGrid e [cornerLeft x0 x1 y0 y1, cornerRight x0 x1 y0 y1]

/-- The points are `f64` points with coordinates of absolute value at most `B`, every triangle with corners among them and the two lower corners of
the enlarged box has more than a certain (very small) area, and different abscissae are not too close.  `range` and `coarse` keep the exact predicates of the
`robust` crate, which evaluate products of four coordinates, away from overflow and underflow. -/
structure WellSeparated (B : Rat) (pts : List Point) : Prop where
  float : ∀ p ∈ pts, IsF64 p.x ∧ IsF64 p.y
  bounded : ∀ p ∈ pts, |p.x| ≤ B ∧ |p.y| ≤ B
  range : 1 / 2 ^ 20 ≤ B ∧ B ≤ 2 ^ 240
  coarse : ∀ p ∈ pts, (∃ m : Int, p.x = m * 2 ^ (-200 : Int)) ∧ ∃ m : Int, p.y = m * 2 ^ (-200 : Int)
  apart : ∀ p ∈ pts, ∀ q ∈ pts, q.x < p.x → q.x + B / 2 ^ 52 + 1 / 2 ^ 51 < p.x
  wide : ∀ x0 x1 y0 y1, BoundingBox pts x0 x1 y0 y1 → ∀ a ∈ pts ++ [cornerLeft x0 x1 y0 y1, cornerRight x0 x1 y0 y1],
    ∀ b ∈ pts ++ [cornerLeft x0 x1 y0 y1, cornerRight x0 x1 y0 y1], ∀ c ∈ pts ++ [cornerLeft x0 x1 y0 y1, cornerRight x0 x1 y0 y1],
    a ≠ b → b ≠ c → a ≠ c → B ^ 2 / 2 ^ 44 + 1 / 2 ^ 50 ≤ |det2 a b c|

/-- The geometric conditions on an input, all in terms of the exact coordinates: different points, none of them inside an edge, edges that do not cross,
at least three corners each, holes and Steiner points strictly inside. -/
structure SimpleInput {D} (poly : Source D) (ops : List (BuildOp D)) : Prop where
  size : (allPoints (piecesOf poly ops)).length + 2 ≤ 2 ^ 32
  distinct : (allPoints (piecesOf poly ops)).Nodup
  noTouch : NoTouch poly ops
  apart : EdgesApart poly ops
  three : 3 ≤ poly.points.length
  three' : ∀ H ∈ holesOf ops, 3 ≤ H.length
  inside : ∀ p ∈ extraPoints ops, StrictlyInside poly.points p

/-- In addition no dip under an edge. -/
structure PlainInput {D} (poly : Source D) (ops : List (BuildOp D)) : Prop extends SimpleInput poly ops where
  noDip : ¬ HasDip poly ops

end P2T
