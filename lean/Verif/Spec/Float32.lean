import Verif.Spec.Float

/-!
# Specification: inputs on which `f32` arithmetic is harmless

The crate has a feature `f32` (`/repo/src/lib.rs:17-21`): coordinates and the plain float computations have 24 significant bits, the predicates of the `robust`
crate convert their arguments to `f64`.  As in `Spec/Float`, the conditions of this file mention only the exact coordinates.
-/

namespace P2T

/-- The value of a finite `f32`, normal or subnormal. -/
def IsF32 (x : Rat) : Prop := ∃ m k : Int, x = m * 2 ^ k ∧ |m| < 2 ^ 24 ∧ -149 ≤ k ∧ k ≤ 104

/-- Float arithmetic with 24 significant bits: rounding to nearest, or more exact.  Nothing is said about results that are close to overflow.
Instances: IEEE `f32` as modelled, whatever happens on overflow (`f32With ov`), and exact arithmetic with the `EPSILON` of `f32` (`realNum32`). -/
class F32Like (n : Num) : Prop where
  err : ∀ x, |x| ≤ 2 ^ 120 → |n.rnd x - x| ≤ 1 / 2 ^ 24 * |x| + 1 / 2 ^ 140
  mono : ∀ x y, |x| ≤ 2 ^ 120 → |y| ≤ 2 ^ 120 → x ≤ y → n.rnd x ≤ n.rnd y
  fix : ∀ x, IsF32 x → n.rnd x = x
  eps : n.eps = 1 / 2 ^ 23
  k03 : |n.k03 - 3 / 10| ≤ 1 / 2 ^ 26
  hi : 2 ^ 100 ≤ n.hi
  lo : n.lo ≤ -2 ^ 100

/-- Exact arithmetic, with the `EPSILON` of `f32`. -/
def realNum32 : Num := { f32 with rnd := id, k03 := 3 / 10 }

/-- Widths of which three tenths are computed without error: `10 j 2 ^ k` where the significand of `3 j` is at most `1.5`.
(The `f32` constant `0.3` is a little larger than `3 / 10`.) -/
def ExactTenth (w : Rat) : Prop := ∃ j k : Int, ∃ i : Nat, w = 10 * j * 2 ^ k ∧ 2 ^ i ≤ 3 * j ∧ 2 * (3 * j) ≤ 3 * 2 ^ i ∧ i ≤ 22

/-- Taking three tenths of such a width is exact. -/
class Tenths32 (n : Num) : Prop where
  ten : ∀ w, ExactTenth w → 1 / 2 ^ 20 ≤ w → w ≤ 2 ^ 50 → n.rnd (w * n.k03) = 3 / 10 * w

/-- All coordinates are multiples of `2 ^ e` by an integer of absolute value at most `M`. -/
def OnGridUpTo (M : Int) (e : Int) (pts : List Point) : Prop :=
  ∀ p ∈ pts, (∃ m : Int, p.x = m * 2 ^ e ∧ |m| ≤ M) ∧ ∃ m : Int, p.y = m * 2 ^ e ∧ |m| ≤ M

/-- Every triangle with at least one corner at a lower corner of the enlarged bounding box, and the other corners there or among the points, is not too flat. -/
def FarFromCorners (B : Rat) (pts : List Point) : Prop := ∀ x0 x1 y0 y1, BoundingBox pts x0 x1 y0 y1 →
  (∀ a ∈ pts, ∀ b ∈ pts, a ≠ b → B ^ 2 / 2 ^ 16 + 1 / 2 ^ 21 ≤ |det2 (cornerLeft x0 x1 y0 y1) a b| ∧ B ^ 2 / 2 ^ 16 + 1 / 2 ^ 21 ≤ |det2 (cornerRight x0 x1 y0 y1) a b|) ∧
  ∀ a ∈ pts, B ^ 2 / 2 ^ 16 + 1 / 2 ^ 21 ≤ |det2 (cornerLeft x0 x1 y0 y1) (cornerRight x0 x1 y0 y1) a|

/-- The points are `f32` points with coordinates of absolute value at most `B`, triangles with corners among them and the two lower corners of
the enlarged box are not too flat, and different abscissae are not too close. -/
structure WellSeparated32 (B : Rat) (pts : List Point) : Prop where
  float : ∀ p ∈ pts, IsF32 p.x ∧ IsF32 p.y
  bounded : ∀ p ∈ pts, |p.x| ≤ B ∧ |p.y| ≤ B
  range : 1 / 2 ^ 20 ≤ B ∧ B ≤ 2 ^ 48
  apart : ∀ p ∈ pts, ∀ q ∈ pts, q.x < p.x → q.x + B / 2 ^ 23 + 1 / 2 ^ 22 < p.x
  wide : ∀ a ∈ pts, ∀ b ∈ pts, ∀ c ∈ pts, a ≠ b → b ≠ c → a ≠ c → B ^ 2 / 2 ^ 16 + 1 / 2 ^ 21 ≤ |det2 a b c|
  far : FarFromCorners B pts

/-- The two lower corners of the enlarged bounding box are on the grid, too, and computed without error. -/
structure CornersOnGrid32 (e : Int) (pts : List Point) : Prop where
  grid : ∀ x0 x1 y0 y1, BoundingBox pts x0 x1 y0 y1 → OnGridUpTo (2 ^ 10) e [cornerLeft x0 x1 y0 y1, cornerRight x0 x1 y0 y1]
  tenth : ∀ x0 x1 y0 y1, BoundingBox pts x0 x1 y0 y1 → ExactTenth (x1 - x0) ∧ ExactTenth (y1 - y0)

end P2T
