import Verif.Proofs.Geom
import Verif.Model.F64

/-!
# C31: laws of the geometric predicates
-/

namespace P2T

/-- The reversed orientation. -/
def Orientation.rev : Orientation → Orientation
  | .cw => .ccw
  | .ccw => .cw
  | .collinear => .collinear

/-- A point moved by `(u, v)`. -/
def Point.shift (p : Point) (u v : Rat) : Point := ⟨p.x + u, p.y + v⟩

/-- **C31** `orient_2d` does not change under cyclic rotation of its arguments. -/
theorem C31_orient_rotate (a b c : Point) : orient2d b c a = orient2d a b c := by
  simp [orient2d, det2_rot]

/-- **C31** `orient_2d` is reversed by swapping two arguments. -/
theorem C31_orient_swap (a b c : Point) : orient2d b a c = (orient2d a b c).rev := by
  unfold orient2d
  rw [det2_swap a b c]
  dsimp only
  by_cases h1 : det2 a b c > 0
  · have : ¬ (-det2 a b c > 0) := by linarith
    have h2 : -det2 a b c < 0 := by linarith
    rw [if_neg this, if_pos h2, if_pos h1]; rfl
  · by_cases h2 : det2 a b c < 0
    · have : -det2 a b c > 0 := by linarith
      rw [if_pos this, if_neg h1, if_pos h2]; rfl
    · have h3 : ¬ (-det2 a b c > 0) := by linarith
      have h4 : ¬ (-det2 a b c < 0) := by linarith
      rw [if_neg h3, if_neg h4, if_neg h1, if_neg h2]; rfl

/-- **C31** `orient_2d` and `in_circle` do not change when all points are translated. -/
theorem C31_translate (a b c d : Point) (u v : Rat) :
    orient2d (a.shift u v) (b.shift u v) (c.shift u v) = orient2d a b c ∧
    inCircle (a.shift u v) (b.shift u v) (c.shift u v) (d.shift u v) = inCircle a b c d := by
  have h1 : det2 (a.shift u v) (b.shift u v) (c.shift u v) = det2 a b c := by
    unfold det2 Point.shift; ring
  have h2 : inCircleDet (a.shift u v) (b.shift u v) (c.shift u v) (d.shift u v) = inCircleDet a b c d := by
    unfold inCircleDet Point.shift; ring
  simp [orient2d, inCircle, h1, h2]

/-- **C31** A degenerate triple is collinear. -/
theorem C31_orient_degenerate (a b : Point) : orient2d a a b = .collinear := by
  rw [orient_collinear]; unfold det2; ring

/-- **C31** `in_circle` gives the same verdict from both sides of the edge `a b`. -/
theorem C31_in_circle_sides (p a b d : Point) : inCircle d b a p = inCircle p a b d := by
  simp [inCircle, incircle_sym]

/-- **C31** … and whichever corner of the triangle is named first. -/
theorem C31_in_circle_rotate (p a b d : Point) : inCircle a b p d = inCircle p a b d := by
  simp [inCircle, incircle_rot]

/-- **C31** After flipping an illegal edge `a b` of the quadrilateral `p a d b` the new edge `p d` is legal,
seen from both sides. -/
theorem C31_flip_is_legal (p a b d : Point) (h : inCircle p a b d = true) :
    inCircle b p d a = false ∧ inCircle a d p b = false := by
  simp only [inCircle, decide_eq_true_eq, decide_eq_false_iff_not] at *
  rw [incircle_flip p a b d, incircle_flip' p a b d]
  constructor <;> linarith

/-- **C31** `in_circle` for a counter-clockwise triangle: the squared distance of the circumcentre `o` to `d`
is smaller than the squared radius.  The determinant test is the geometric one. -/
theorem C31_in_circle_meaning (a b c d o : Point) (r2 : Rat) (h : orient2d a b c = .ccw)
    (ha : (a.x - o.x) ^ 2 + (a.y - o.y) ^ 2 = r2) (hb : (b.x - o.x) ^ 2 + (b.y - o.y) ^ 2 = r2)
    (hc : (c.x - o.x) ^ 2 + (c.y - o.y) ^ 2 = r2) :
    inCircle a b c d = true ↔ (d.x - o.x) ^ 2 + (d.y - o.y) ^ 2 < r2 := by
  rw [orient_ccw] at h
  have key : inCircleDet a b c d = (r2 - ((d.x - o.x) ^ 2 + (d.y - o.y) ^ 2)) * det2 a b c := by
    have e : inCircleDet a b c d =
        ((a.x - o.x) ^ 2 + (a.y - o.y) ^ 2 - ((d.x - o.x) ^ 2 + (d.y - o.y) ^ 2)) * det2 b c d +
        ((b.x - o.x) ^ 2 + (b.y - o.y) ^ 2 - ((d.x - o.x) ^ 2 + (d.y - o.y) ^ 2)) * det2 c a d +
        ((c.x - o.x) ^ 2 + (c.y - o.y) ^ 2 - ((d.x - o.x) ^ 2 + (d.y - o.y) ^ 2)) * det2 a b d := by
      unfold inCircleDet det2; ring
    rw [e, ha, hb, hc]
    unfold det2; ring
  simp only [inCircle, decide_eq_true_eq, key]
  constructor
  · intro k
    have := pos_of_mul_pos_left k (le_of_lt h)
    linarith
  · intro k
    exact mul_pos (by linarith) h

/-- Hypotheses of the last theorem are met by a unit circle. -/
example : orient2d ⟨1, 0⟩ ⟨0, 1⟩ ⟨-1, 0⟩ = .ccw ∧ inCircle ⟨1, 0⟩ ⟨0, 1⟩ ⟨-1, 0⟩ ⟨0, 0⟩ = true ∧
    inCircle ⟨1, 0⟩ ⟨0, 1⟩ ⟨-1, 0⟩ ⟨0, -1⟩ = false := by decide +kernel

/-- **C31** The angle tests that steer the filling of the front.  Write the direction from `o` to `b` as `u` times the direction from `o` to `a` plus `v` times that direction
turned by 90 degrees counter-clockwise.  Then, with exact arithmetic, the angle from `a` to `b` is found to be between 0 and 90 degrees exactly if `u` and `v` are positive, to exceed 90 degrees
exactly if `u` is negative and `v` positive (so it is less than 180 degrees), and to be negative exactly if `v` is negative. -/
theorem C31_angle (n : Num) (hn : ∀ x, n.rnd x = x) {o a b : Point} (hne : a ≠ o) {u v : Rat}
    (hx : b.x - o.x = u * (a.x - o.x) - v * (a.y - o.y)) (hy : b.y - o.y = u * (a.y - o.y) + v * (a.x - o.x)) (hb : b ≠ o) :
    ((Angle.new n o a b).between0To90 = true ↔ 0 < u ∧ 0 < v) ∧ ((Angle.new n o a b).exceeds90 = true ↔ u < 0 ∧ 0 < v) ∧
    ((Angle.new n o a b).isNegative = true ↔ v < 0) := by
  have e1 : (Angle.new n o a b).dx = u * ((a.x - o.x) ^ 2 + (a.y - o.y) ^ 2) := by simp only [Angle.new, hn, hx, hy]; ring
  have e2 : (Angle.new n o a b).dy = v * ((a.x - o.x) ^ 2 + (a.y - o.y) ^ 2) := by simp only [Angle.new, hn, hx, hy]; ring
  have hr : 0 < (a.x - o.x) ^ 2 + (a.y - o.y) ^ 2 := by
    by_contra c
    have k1 : a.x - o.x = 0 := by nlinarith [sq_nonneg (a.x - o.x), sq_nonneg (a.y - o.y)]
    have k2 : a.y - o.y = 0 := by nlinarith [sq_nonneg (a.x - o.x), sq_nonneg (a.y - o.y)]
    apply hne; cases a; cases o; simp_all; exact ⟨by linarith, by linarith⟩
  have hz : ¬ (u = 0 ∧ v = 0) := by
    rintro ⟨rfl, rfl⟩
    apply hb; cases b; cases o; simp_all; exact ⟨by linarith, by linarith⟩
  generalize (a.x - o.x) ^ 2 + (a.y - o.y) ^ 2 = r at *
  have z : ∀ w : Rat, w * r = 0 ↔ w = 0 := fun w => by simp [hr.ne']
  have p : ∀ w : Rat, 0 < w * r ↔ 0 < w := fun w => mul_pos_iff_of_pos_right hr
  have q : ∀ w : Rat, w * r < 0 ↔ w < 0 := fun w => by
    constructor
    · intro h; by_contra c; nlinarith [mul_nonneg (not_lt.1 c) hr.le]
    · intro h; nlinarith
  unfold Angle.between0To90 Angle.exceeds90 Angle.isNegative
  rw [e1, e2]
  simp only [gt_iff_lt, ge_iff_le, z, p, q, hz, if_false]
  refine ⟨?_, ?_, ?_⟩
  · grind
  · have : ¬ (0 ≤ u * r) ↔ u < 0 := by rw [not_le, q]
    grind
  · grind

example : ((Angle.new exactNum ⟨0, 0⟩ ⟨2, 1⟩ ⟨1, 3⟩).between0To90 = true ↔ (0 : Rat) < 1 ∧ (0 : Rat) < 1) ∧
    ((Angle.new exactNum ⟨0, 0⟩ ⟨2, 1⟩ ⟨1, 3⟩).exceeds90 = true ↔ (1 : Rat) < 0 ∧ (0 : Rat) < 1) ∧
    ((Angle.new exactNum ⟨0, 0⟩ ⟨2, 1⟩ ⟨1, 3⟩).isNegative = true ↔ (1 : Rat) < 0) :=
  C31_angle exactNum (fun _ => rfl) (by decide) (by norm_num) (by norm_num) (by decide)
end P2T
