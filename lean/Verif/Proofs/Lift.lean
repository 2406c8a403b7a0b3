import Verif.Spec.Polygon
import Mathlib.Tactic.Linarith

/-!
# The lifted surface

Every triangle is lifted to the paraboloid `z = x² + y²`.  A flip of legalization moves the lifted mesh nowhere up, and strictly down in the
middle of the flipped edge; so that edge cannot come back.

`inCircleDet a b d x / det2 a b d` is the height of the plane through the lifted corners over `x`, above the paraboloid.
-/

namespace P2T

/-- The lifted proper triangle `a b d` is at `x` at most `h` above the paraboloid. -/
def LiftLe (a b d x : Point) (h : Rat) : Prop :=
  0 < det2 a b d ∧ 0 ≤ det2 a b x ∧ 0 ≤ det2 b d x ∧ 0 ≤ det2 d a x ∧ inCircleDet a b d x ≤ h * det2 a b d

theorem liftLe_rot {a b d x h} (k : LiftLe a b d x h) : LiftLe b d a x h := by
  obtain ⟨k1, k2, k3, k4, k5⟩ := k
  have e1 : det2 b d a = det2 a b d := by unfold det2; ring
  have e2 : inCircleDet b d a x = inCircleDet a b d x := by unfold inCircleDet; ring
  exact ⟨by rw [e1]; exact k1, k3, k4, k2, by rw [e1, e2]; exact k5⟩

/-- A flip does not move the surface up. -/
theorem liftLe_flip {p a b q x h} (k : LiftLe p a b x h) (c1 : 0 < det2 p q b) (c2 : 0 < det2 p a q) (h2 : 0 ≤ det2 q b a)
    (hi : 0 < inCircleDet p a b q) : LiftLe p a q x h ∨ LiftLe p q b x h := by
  obtain ⟨k1, k2, k3, k4, k5⟩ := k
  rcases le_total 0 (det2 q p x) with hs | hs
  · left
    refine ⟨c2, k2, ?_, hs, ?_⟩
    · have e : det2 p a b * det2 a q x = det2 p a q * det2 a b x + det2 q b a * det2 p a x := by unfold det2; ring
      have : 0 ≤ det2 p a b * det2 a q x := by rw [e]; exact add_nonneg (mul_nonneg c2.le k3) (mul_nonneg h2 k2)
      exact nonneg_of_mul_nonneg_right this k1
    · have e : inCircleDet p a b x * det2 p a q - inCircleDet p a q x * det2 p a b = inCircleDet p a b q * det2 p a x := by
        unfold det2 inCircleDet; ring
      have h1 : inCircleDet p a b x * det2 p a q ≤ h * det2 p a b * det2 p a q := mul_le_mul_of_nonneg_right k5 c2.le
      have h3 : 0 ≤ inCircleDet p a b q * det2 p a x := mul_nonneg hi.le k2
      have : inCircleDet p a q x * det2 p a b ≤ h * det2 p a q * det2 p a b := by linarith
      exact le_of_mul_le_mul_right this k1
  · right
    refine ⟨c1, ?_, ?_, k4, ?_⟩
    · have : det2 p q x = - det2 q p x := by unfold det2; ring
      linarith
    · have e : det2 p a b * det2 q b x = det2 p q b * det2 a b x + det2 q b a * det2 b p x := by unfold det2; ring
      have : 0 ≤ det2 p a b * det2 q b x := by rw [e]; exact add_nonneg (mul_nonneg c1.le k3) (mul_nonneg h2 k4)
      exact nonneg_of_mul_nonneg_right this k1
    · have e : inCircleDet p a b x * det2 p q b - inCircleDet p q b x * det2 p a b = inCircleDet p a b q * det2 b p x := by
        unfold det2 inCircleDet; ring
      have h1 : inCircleDet p a b x * det2 p q b ≤ h * det2 p a b * det2 p q b := mul_le_mul_of_nonneg_right k5 c1.le
      have h3 : 0 ≤ inCircleDet p a b q * det2 b p x := mul_nonneg hi.le k4
      have : inCircleDet p q b x * det2 p a b ≤ h * det2 p q b * det2 p a b := by linarith
      exact le_of_mul_le_mul_right this k1

/-- Between two points. -/
def mixPt (e : Rat) (s d : Point) : Point := ⟨(1 - e) * s.x + e * d.x, (1 - e) * s.y + e * d.y⟩

theorem det2_mixPt (e : Rat) (u v s d : Point) : det2 u v (mixPt e s d) = (1 - e) * det2 u v s + e * det2 u v d := by
  unfold det2 mixPt; ring

/-- Near its start a positive affine function is positive. -/
theorem near_start {c : Rat} (d : Rat) (h : 0 < c) : ∃ e0 : Rat, 0 < e0 ∧ e0 < 1 ∧ ∀ e, 0 < e → e ≤ e0 → 0 < (1 - e) * c + e * d := by
  have ha : 0 ≤ |d| := abs_nonneg d
  have hd : -|d| ≤ d := neg_abs_le d
  have hp : 0 < 2 * (c + |d|) := by linarith
  refine ⟨c / (2 * (c + |d|)), div_pos h hp, (div_lt_iff₀ hp).2 (by linarith), fun e h1 h2 => ?_⟩
  rw [le_div_iff₀ hp] at h2
  nlinarith

/-- The difference of two lifted planes is affine. -/
theorem lift_mix (e : Rat) (a b d u v w s t : Point) :
    inCircleDet a b d (mixPt e s t) * det2 u v w - inCircleDet u v w (mixPt e s t) * det2 a b d =
      (1 - e) * (inCircleDet a b d s * det2 u v w - inCircleDet u v w s * det2 a b d) +
      e * (inCircleDet a b d t * det2 u v w - inCircleDet u v w t * det2 a b d) := by
  unfold inCircleDet det2 mixPt; ring

theorem near_nonneg {c d : Rat} (h : 0 < c ∨ c = 0 ∧ 0 < d) : ∃ e0 : Rat, 0 < e0 ∧ e0 < 1 ∧ ∀ e, 0 < e → e ≤ e0 → 0 ≤ (1 - e) * c + e * d := by
  rcases h with h | ⟨rfl, h⟩
  · obtain ⟨e0, h1, h2, h3⟩ := near_start d h
    exact ⟨e0, h1, h2, fun e k1 k2 => (h3 e k1 k2).le⟩
  · exact ⟨1 / 2, by norm_num, by norm_num, fun e k1 _ => by rw [mul_zero, zero_add]; exact (mul_pos k1 h).le⟩

/-- Where the flipped edge `a b` crosses the new edge `p q`. -/
def crossPt (p a b q : Point) : Point :=
  ⟨(det2 p q b * a.x + det2 p a q * b.x) / (det2 p q b + det2 p a q), (det2 p q b * a.y + det2 p a q * b.y) / (det2 p q b + det2 p a q)⟩

theorem crossPt_mix {p a b q : Point} (c1 : 0 < det2 p q b) (c2 : 0 < det2 p a q) :
    crossPt p a b q = mixPt (det2 p a q / (det2 p q b + det2 p a q)) a b ∧
      1 - det2 p a q / (det2 p q b + det2 p a q) = det2 p q b / (det2 p q b + det2 p a q) := by
  have hs : 0 < det2 p q b + det2 p a q := add_pos c1 c2
  have : 1 - det2 p a q / (det2 p q b + det2 p a q) = det2 p q b / (det2 p q b + det2 p a q) := by
    rw [eq_div_iff hs.ne', sub_mul, div_mul_cancel₀ _ hs.ne']; ring
  refine ⟨?_, this⟩
  unfold crossPt mixPt
  rw [this]
  congr 1 <;> ring

theorem det2_cross {p a b q : Point} (c1 : 0 < det2 p q b) (c2 : 0 < det2 p a q) (u v : Point) :
    det2 u v (crossPt p a b q) = (det2 p q b * det2 u v a + det2 p a q * det2 u v b) / (det2 p q b + det2 p a q) := by
  rw [(crossPt_mix c1 c2).1, det2_mixPt, (crossPt_mix c1 c2).2]; ring

theorem lift_cross {p a b q : Point} (c1 : 0 < det2 p q b) (c2 : 0 < det2 p a q) (a' b' d u v w : Point) :
    inCircleDet a' b' d (crossPt p a b q) * det2 u v w - inCircleDet u v w (crossPt p a b q) * det2 a' b' d =
      (det2 p q b * (inCircleDet a' b' d a * det2 u v w - inCircleDet u v w a * det2 a' b' d) +
       det2 p a q * (inCircleDet a' b' d b * det2 u v w - inCircleDet u v w b * det2 a' b' d)) / (det2 p q b + det2 p a q) := by
  rw [(crossPt_mix c1 c2).1, lift_mix, (crossPt_mix c1 c2).2]; ring

/-- A flip moves the surface strictly down near the middle of the flipped edge, on the side of a proper triangle.  Whatever proper triangle `a b d`
lies on that side of the same edge, is higher there. -/
theorem flip_down {p a b q d : Point} (k : 0 < det2 p a b) (c1 : 0 < det2 p q b) (c2 : 0 < det2 p a q) (h2 : 0 ≤ det2 q b a)
    (hi : 0 < inCircleDet p a b q) (hd : 0 < det2 a b d) :
    ∃ x h, (LiftLe p a q x h ∨ LiftLe p q b x h) ∧ 0 < det2 a b x ∧ 0 < det2 b d x ∧ 0 < det2 d a x ∧ h * det2 a b d < inCircleDet a b d x := by
  have hs : 0 < det2 p q b + det2 p a q := add_pos c1 c2
  have inside : ∃ e0 : Rat, 0 < e0 ∧ e0 < 1 ∧ ∀ e, 0 < e → e ≤ e0 → 0 < det2 a b (mixPt e (crossPt p a b q) d) ∧
      0 < det2 b d (mixPt e (crossPt p a b q) d) ∧ 0 < det2 d a (mixPt e (crossPt p a b q) d) := by
    refine ⟨1 / 2, by norm_num, by norm_num, fun e e1 e2 => ?_⟩
    have e3 : 0 < 1 - e := by linarith
    refine ⟨?_, ?_, ?_⟩ <;> rw [det2_mixPt, det2_cross c1 c2]
    · have z1 : det2 a b a = 0 := by unfold det2; ring
      have z2 : det2 a b b = 0 := by unfold det2; ring
      rw [z1, z2, mul_zero, mul_zero, add_zero, zero_div, mul_zero, zero_add]
      exact mul_pos e1 hd
    · have z1 : det2 b d a = det2 a b d := by unfold det2; ring
      have z2 : det2 b d b = 0 := by unfold det2; ring
      have z3 : det2 b d d = 0 := by unfold det2; ring
      rw [z1, z2, z3, mul_zero, mul_zero, add_zero, add_zero]
      exact mul_pos e3 (div_pos (mul_pos c1 hd) hs)
    · have z1 : det2 d a a = 0 := by unfold det2; ring
      have z2 : det2 d a b = det2 a b d := by unfold det2; ring
      have z3 : det2 d a d = 0 := by unfold det2; ring
      rw [z1, z2, z3, mul_zero, mul_zero, add_zero, zero_add]
      exact mul_pos e3 (div_pos (mul_pos c2 hd) hs)
  obtain ⟨e1, p1, l1, f1⟩ := inside
  rcases le_total 0 (det2 q p d) with hside | hside
  · have g2 : ∃ e0 : Rat, 0 < e0 ∧ e0 < 1 ∧ ∀ e, 0 < e → e ≤ e0 → 0 ≤ det2 a q (mixPt e (crossPt p a b q) d) := by
      have : 0 < det2 a q (crossPt p a b q) ∨ det2 a q (crossPt p a b q) = 0 ∧ 0 < det2 a q d := by
        rw [det2_cross c1 c2]
        have z1 : det2 a q a = 0 := by unfold det2; ring
        have z2 : det2 a q b = det2 q b a := by unfold det2; ring
        rw [z1, z2, mul_zero, zero_add]
        rcases h2.lt_or_eq with h2 | h2
        · exact .inl (div_pos (mul_pos c2 h2) hs)
        · right
          rw [← h2, mul_zero, zero_div]
          refine ⟨rfl, ?_⟩
          have e : det2 p a b * det2 a q d = det2 p a q * det2 a b d - det2 q b a * det2 a p d := by unfold det2; ring
          rw [← h2, zero_mul, sub_zero] at e
          exact pos_of_mul_pos_right (by rw [e]; exact mul_pos c2 hd) k.le
      obtain ⟨e0, q1, q2, q3⟩ := near_nonneg this
      exact ⟨e0, q1, q2, fun e h h' => by rw [det2_mixPt]; exact q3 e h h'⟩
    obtain ⟨e2, p2, l2, f2⟩ := g2
    obtain ⟨e3, p3, l3, f3⟩ : ∃ e0 : Rat, 0 < e0 ∧ e0 < 1 ∧ ∀ e, 0 < e → e ≤ e0 → 0 < det2 p a (mixPt e (crossPt p a b q) d) := by
      have : 0 < det2 p a (crossPt p a b q) := by
        rw [det2_cross c1 c2]
        have z1 : det2 p a a = 0 := by unfold det2; ring
        rw [z1, mul_zero, zero_add]
        exact div_pos (mul_pos c2 k) hs
      obtain ⟨e0, q1, q2, q3⟩ := near_start (det2 p a d) this
      exact ⟨e0, q1, q2, fun e h h' => by rw [det2_mixPt]; exact q3 e h h'⟩
    obtain ⟨e4, p4, l4, f4⟩ : ∃ e0 : Rat, 0 < e0 ∧ e0 < 1 ∧ ∀ e, 0 < e → e ≤ e0 →
        0 < inCircleDet a b d (mixPt e (crossPt p a b q) d) * det2 p a q - inCircleDet p a q (mixPt e (crossPt p a b q) d) * det2 a b d := by
      have : 0 < inCircleDet a b d (crossPt p a b q) * det2 p a q - inCircleDet p a q (crossPt p a b q) * det2 a b d := by
        rw [lift_cross c1 c2]
        have z1 : inCircleDet a b d a = 0 := by unfold inCircleDet; ring
        have z2 : inCircleDet p a q a = 0 := by unfold inCircleDet; ring
        have z3 : inCircleDet a b d b = 0 := by unfold inCircleDet; ring
        have z4 : inCircleDet p a q b = - inCircleDet p a b q := by unfold inCircleDet; ring
        rw [z1, z2, z3, z4]
        have := mul_pos c2 (mul_pos hi hd)
        refine div_pos ?_ hs
        linarith
      obtain ⟨e0, q1, q2, q3⟩ := near_start (inCircleDet a b d d * det2 p a q - inCircleDet p a q d * det2 a b d) this
      exact ⟨e0, q1, q2, fun e h h' => by rw [lift_mix]; exact q3 e h h'⟩
    obtain ⟨e, he, h1, h2', h3, h4⟩ : ∃ e : Rat, 0 < e ∧ e ≤ e1 ∧ e ≤ e2 ∧ e ≤ e3 ∧ e ≤ e4 :=
      ⟨min (min e1 e2) (min e3 e4), lt_min (lt_min p1 p2) (lt_min p3 p4), (min_le_left _ _).trans (min_le_left _ _),
        (min_le_left _ _).trans (min_le_right _ _), (min_le_right _ _).trans (min_le_left _ _), (min_le_right _ _).trans (min_le_right _ _)⟩
    refine ⟨mixPt e (crossPt p a b q) d, inCircleDet p a q (mixPt e (crossPt p a b q) d) / det2 p a q, .inl ⟨c2, (f3 e he h3).le, f2 e he h2', ?_, ?_⟩,
      (f1 e he h1).1, (f1 e he h1).2.1, (f1 e he h1).2.2, ?_⟩
    · rw [det2_mixPt, det2_cross c1 c2]
      have : det2 p q b * det2 q p a + det2 p a q * det2 q p b = 0 := by unfold det2; ring
      rw [this, zero_div, mul_zero, zero_add]
      exact mul_nonneg he.le hside
    · rw [div_mul_cancel₀ _ c2.ne']
    · rw [div_mul_eq_mul_div, div_lt_iff₀ c2]
      have := f4 e he h4
      linarith
  · have hside' : 0 ≤ det2 p q d := by
      have : det2 p q d = - det2 q p d := by unfold det2; ring
      linarith
    have g2 : ∃ e0 : Rat, 0 < e0 ∧ e0 < 1 ∧ ∀ e, 0 < e → e ≤ e0 → 0 ≤ det2 q b (mixPt e (crossPt p a b q) d) := by
      have : 0 < det2 q b (crossPt p a b q) ∨ det2 q b (crossPt p a b q) = 0 ∧ 0 < det2 q b d := by
        rw [det2_cross c1 c2]
        have z1 : det2 q b b = 0 := by unfold det2; ring
        rw [z1, mul_zero, add_zero]
        rcases h2.lt_or_eq with h2 | h2
        · exact .inl (div_pos (mul_pos c1 h2) hs)
        · right
          rw [← h2, mul_zero, zero_div]
          refine ⟨rfl, ?_⟩
          have e : det2 p a b * det2 q b d = det2 p q b * det2 a b d - det2 q b a * det2 p b d := by unfold det2; ring
          rw [← h2, zero_mul, sub_zero] at e
          exact pos_of_mul_pos_right (by rw [e]; exact mul_pos c1 hd) k.le
      obtain ⟨e0, q1, q2, q3⟩ := near_nonneg this
      exact ⟨e0, q1, q2, fun e h h' => by rw [det2_mixPt]; exact q3 e h h'⟩
    obtain ⟨e2, p2, l2, f2⟩ := g2
    obtain ⟨e3, p3, l3, f3⟩ : ∃ e0 : Rat, 0 < e0 ∧ e0 < 1 ∧ ∀ e, 0 < e → e ≤ e0 → 0 < det2 b p (mixPt e (crossPt p a b q) d) := by
      have : 0 < det2 b p (crossPt p a b q) := by
        rw [det2_cross c1 c2]
        have z1 : det2 b p b = 0 := by unfold det2; ring
        have z2 : det2 b p a = det2 p a b := by unfold det2; ring
        rw [z1, z2, mul_zero, add_zero]
        exact div_pos (mul_pos c1 k) hs
      obtain ⟨e0, q1, q2, q3⟩ := near_start (det2 b p d) this
      exact ⟨e0, q1, q2, fun e h h' => by rw [det2_mixPt]; exact q3 e h h'⟩
    obtain ⟨e4, p4, l4, f4⟩ : ∃ e0 : Rat, 0 < e0 ∧ e0 < 1 ∧ ∀ e, 0 < e → e ≤ e0 →
        0 < inCircleDet a b d (mixPt e (crossPt p a b q) d) * det2 p q b - inCircleDet p q b (mixPt e (crossPt p a b q) d) * det2 a b d := by
      have : 0 < inCircleDet a b d (crossPt p a b q) * det2 p q b - inCircleDet p q b (crossPt p a b q) * det2 a b d := by
        rw [lift_cross c1 c2]
        have z1 : inCircleDet a b d a = 0 := by unfold inCircleDet; ring
        have z2 : inCircleDet p q b b = 0 := by unfold inCircleDet; ring
        have z3 : inCircleDet a b d b = 0 := by unfold inCircleDet; ring
        have z4 : inCircleDet p q b a = - inCircleDet p a b q := by unfold inCircleDet; ring
        rw [z1, z2, z3, z4]
        have := mul_pos c1 (mul_pos hi hd)
        refine div_pos ?_ hs
        linarith
      obtain ⟨e0, q1, q2, q3⟩ := near_start (inCircleDet a b d d * det2 p q b - inCircleDet p q b d * det2 a b d) this
      exact ⟨e0, q1, q2, fun e h h' => by rw [lift_mix]; exact q3 e h h'⟩
    obtain ⟨e, he, h1, h2', h3, h4⟩ : ∃ e : Rat, 0 < e ∧ e ≤ e1 ∧ e ≤ e2 ∧ e ≤ e3 ∧ e ≤ e4 :=
      ⟨min (min e1 e2) (min e3 e4), lt_min (lt_min p1 p2) (lt_min p3 p4), (min_le_left _ _).trans (min_le_left _ _),
        (min_le_left _ _).trans (min_le_right _ _), (min_le_right _ _).trans (min_le_left _ _), (min_le_right _ _).trans (min_le_right _ _)⟩
    refine ⟨mixPt e (crossPt p a b q) d, inCircleDet p q b (mixPt e (crossPt p a b q) d) / det2 p q b, .inr ⟨c1, ?_, f2 e he h2', (f3 e he h3).le, ?_⟩,
      (f1 e he h1).1, (f1 e he h1).2.1, (f1 e he h1).2.2, ?_⟩
    · rw [det2_mixPt, det2_cross c1 c2]
      have : det2 p q b * det2 p q a + det2 p a q * det2 p q b = 0 := by unfold det2; ring
      rw [this, zero_div, mul_zero, zero_add]
      exact mul_nonneg he.le hside'
    · rw [div_mul_cancel₀ _ c1.ne']
    · rw [div_mul_eq_mul_div, div_lt_iff₀ c1]
      have := f4 e he h4
      linarith

/-- Two proper triangles, one containing `x` and the other one having it inside, overlap. -/
theorem inside_both {a b d u v w x : Point} (h : 0 < det2 u v w) (k1 : 0 ≤ det2 u v x) (k2 : 0 ≤ det2 v w x) (k3 : 0 ≤ det2 w u x)
    (q1 : 0 < det2 a b x) (q2 : 0 < det2 b d x) (q3 : 0 < det2 d a x) :
    ∃ y, (0 < det2 u v y ∧ 0 < det2 v w y ∧ 0 < det2 w u y) ∧ 0 < det2 a b y ∧ 0 < det2 b d y ∧ 0 < det2 d a y := by
  let g : Point := ⟨(u.x + v.x + w.x) / 3, (u.y + v.y + w.y) / 3⟩
  have g1 : det2 u v g = det2 u v w / 3 := by simp only [g, det2]; ring
  have g2 : det2 v w g = det2 u v w / 3 := by simp only [g, det2]; ring
  have g3 : det2 w u g = det2 u v w / 3 := by simp only [g, det2]; ring
  obtain ⟨e1, p1, l1, f1⟩ := near_start (det2 a b g) q1
  obtain ⟨e2, p2, l2, f2⟩ := near_start (det2 b d g) q2
  obtain ⟨e3, p3, l3, f3⟩ := near_start (det2 d a g) q3
  obtain ⟨e, he, h1, h2, h3⟩ : ∃ e : Rat, 0 < e ∧ e ≤ e1 ∧ e ≤ e2 ∧ e ≤ e3 :=
    ⟨min (min e1 e2) e3, lt_min (lt_min p1 p2) p3, (min_le_left _ _).trans (min_le_left _ _), (min_le_left _ _).trans (min_le_right _ _), min_le_right _ _⟩
  have he1 : 0 ≤ 1 - e := by linarith
  have hg : 0 < e * (det2 u v w / 3) := mul_pos he (by linarith)
  refine ⟨mixPt e x g, ⟨?_, ?_, ?_⟩, ?_, ?_, ?_⟩ <;> rw [det2_mixPt]
  · rw [g1]; have := mul_nonneg he1 k1; linarith
  · rw [g2]; have := mul_nonneg he1 k2; linarith
  · rw [g3]; have := mul_nonneg he1 k3; linarith
  · exact f1 e he h1
  · exact f2 e he h2
  · exact f3 e he h3

end P2T
