import Verif.Proofs.PlaneMesh

/-!
# Winding numbers of closed polylines

The winding number of a closed polyline around a point is counted along the vertical ray upwards.  Moving the point along a segment
that meets no edge does not change it; moving it across one edge changes it by the flow over this edge.
-/

namespace P2T

/-- The two segments have a point in common. -/
def Meet (q q' u v : Point) : Prop := ∃ a b : Rat, 0 ≤ a ∧ a ≤ 1 ∧ 0 ≤ b ∧ b ≤ 1 ∧
  q.x + a * (q'.x - q.x) = u.x + b * (v.x - u.x) ∧ q.y + a * (q'.y - q.y) = u.y + b * (v.y - u.y)

theorem not_meet {q q' u v : Point} (h : ¬ Meet q q' u v) : (det2 u v q = 0 ∧ det2 u v q' = 0) ∨
    0 < det2 u v q * det2 u v q' ∨ 0 < det2 q q' u * det2 q q' v := by
  by_contra hno
  push Not at hno
  obtain ⟨h0, h1, h2⟩ := hno
  apply h
  have hs : det2 u v q - det2 u v q' = det2 q q' v - det2 q q' u := by unfold det2; ring
  have hne : det2 u v q - det2 u v q' ≠ 0 := by
    intro e
    have e' : det2 u v q' = det2 u v q := by linarith
    rw [e'] at h1
    have : det2 u v q = 0 := by nlinarith [sq_nonneg (det2 u v q)]
    exact h0 this (by rw [e', this])
  generalize hD : det2 u v q - det2 u v q' = D at *
  have frac : ∀ x y : Rat, x * y ≤ 0 → x - y ≠ 0 → 0 ≤ x / (x - y) ∧ x / (x - y) ≤ 1 := by
    intro x y hxy hn
    rcases lt_or_gt_of_ne hn with k | k
    · have hx : x ≤ 0 := by nlinarith [sq_nonneg x, sq_nonneg y]
      have hy : 0 ≤ y := by nlinarith [sq_nonneg x, sq_nonneg y]
      exact ⟨div_nonneg_of_nonpos hx k.le, by rw [div_le_one_of_neg k]; linarith⟩
    · have hx : 0 ≤ x := by nlinarith [sq_nonneg x, sq_nonneg y]
      have hy : y ≤ 0 := by nlinarith [sq_nonneg x, sq_nonneg y]
      exact ⟨div_nonneg hx k.le, by rw [div_le_one k]; linarith⟩
  have f1 := frac _ _ h1 (by rw [hD]; exact hne)
  have f2 := frac _ _ (show (-det2 q q' u) * (-det2 q q' v) ≤ 0 by linarith) (by rw [show -det2 q q' u - -det2 q q' v = det2 q q' v - det2 q q' u by ring, ← hs]; exact hne)
  rw [hD] at f1
  rw [show -det2 q q' u - -det2 q q' v = det2 q q' v - det2 q q' u by ring, ← hs] at f2
  refine ⟨_, _, f1.1, f1.2, f2.1, f2.2, ?_, ?_⟩
  · field_simp
    rw [← hD]; unfold det2; ring
  · field_simp
    rw [← hD]; unfold det2; ring

/-- `1` if `x` is over the segment from `q` to `q'` (with `q` on the left). -/
def over (q q' x : Point) : Rat := if q.x < x.x ∧ x.x ≤ q'.x ∧ 0 < det2 q q' x then 1 else 0

theorem line_id (q q' u v : Point) : (q'.x - q.x) * det2 u v q = -((v.x - q.x) * det2 q q' u + (q.x - u.x) * det2 q q' v) := by
  unfold det2; ring

theorem line_id' (q q' u v : Point) : (q'.x - q.x) * det2 u v q' = -((v.x - q'.x) * det2 q q' u + (q'.x - u.x) * det2 q q' v) := by
  unfold det2; ring

theorem cross_neg {q u v : Point} (h : det2 u v q < 0) : cross q u v = if u.x ≤ q.x ∧ q.x < v.x then -1 else 0 := by
  unfold cross
  have : ¬ (v.x ≤ q.x ∧ q.x < u.x ∧ det2 v u q < 0) := by
    rintro ⟨-, -, k⟩
    rw [det2_swap] at k; linarith
  rw [if_neg this]
  simp [h]

theorem cross_pos {q u v : Point} (h : 0 < det2 u v q) : cross q u v = if v.x ≤ q.x ∧ q.x < u.x then 1 else 0 := by
  rw [← neg_neg (cross q u v), ← cross_swap, cross_neg (by rw [det2_swap]; linarith)]
  split_ifs <;> norm_num

theorem cross_zero {q u v : Point} (h : det2 u v q = 0) : cross q u v = 0 := by
  unfold cross
  rw [if_neg (by rintro ⟨-, -, k⟩; linarith), if_neg (by rintro ⟨-, -, k⟩; rw [det2_swap] at k; linarith)]

theorem cross_out {q u v : Point} (h : ¬ (u.x ≤ q.x ∧ q.x < v.x)) (h' : ¬ (v.x ≤ q.x ∧ q.x < u.x)) : cross q u v = 0 := by
  unfold cross
  rw [if_neg (fun k => h ⟨k.1, k.2.1⟩), if_neg (fun k => h' ⟨k.1, k.2.1⟩)]

/-- Nothing is crossed. -/
theorem flux {q q' u v : Point} (hl : q.x ≤ q'.x) (h : ¬ Meet q q' u v) :
    cross q u v - cross q' u v = over q q' u - over q q' v := by
  have i1 := line_id q q' u v
  have i2 := line_id' q q' u v
  have j1 := line_id u v q q'
  have j2 := line_id' u v q q'
  rcases not_meet h with ⟨h1, h2⟩ | h1 | h1
  · rw [cross_zero h1, cross_zero h2]
    -- both ends are on the line, or the points are
    have hs : det2 u v q - det2 u v q' = det2 q q' v - det2 q q' u := by unfold det2; ring
    have e : det2 q q' v = det2 q q' u := by linarith
    rw [h1, h2] at j1 j2
    rw [h1, e] at i1
    rw [h2, e] at i2
    have z : det2 q q' u = 0 ∨ u.x = v.x := by
      have : (v.x - u.x) * det2 q q' u = 0 := by linarith
      rcases mul_eq_zero.1 this with k | k
      · right; linarith
      · left; exact k
    rcases z with z | z
    · unfold over
      rw [e, z]; simp
    · unfold over
      rw [e, z]; simp
  · rcases pos_and_pos_or_neg_and_neg_of_mul_pos h1 with ⟨p1, p2⟩ | ⟨p1, p2⟩
    · rw [cross_pos p1, cross_pos p2]
      -- `u` to the right of `v`: the points are below
      have g : ∀ x : Point, (v.x - u.x) * det2 q q' x = -((q'.x - x.x) * det2 u v q + (x.x - q.x) * det2 u v q') →
          over q q' x = if v.x < u.x ∧ q.x < x.x ∧ x.x ≤ q'.x then 1 else 0 := by
        intro x hx
        unfold over
        by_cases k : q.x < x.x ∧ x.x ≤ q'.x
        · have : (v.x - u.x) * det2 q q' x < 0 := by
            rw [hx]
            have := mul_nonneg (sub_nonneg.2 k.2) p1.le
            have := mul_pos (sub_pos.2 k.1) p2
            linarith
          rcases mul_neg_iff.1 this with ⟨k1, k2⟩ | ⟨k1, k2⟩
          · rw [if_neg (fun z => by linarith [z.2.2]), if_neg (fun z => by linarith [z.1])]
          · rw [if_pos ⟨k.1, k.2, k2⟩, if_pos ⟨by linarith, k⟩]
        · rw [if_neg (fun z => k ⟨z.1, z.2.1⟩), if_neg (fun z => k z.2)]
      rw [g u j1, g v j2]
      have a := le_total u.x v.x
      split_ifs <;> grind
    · rw [cross_neg p1, cross_neg p2]
      have g : ∀ x : Point, (v.x - u.x) * det2 q q' x = -((q'.x - x.x) * det2 u v q + (x.x - q.x) * det2 u v q') →
          over q q' x = if u.x < v.x ∧ q.x < x.x ∧ x.x ≤ q'.x then 1 else 0 := by
        intro x hx
        unfold over
        by_cases k : q.x < x.x ∧ x.x ≤ q'.x
        · have : 0 < (v.x - u.x) * det2 q q' x := by
            rw [hx]
            have := mul_nonpos_of_nonneg_of_nonpos (sub_nonneg.2 k.2) p1.le
            have := mul_neg_of_pos_of_neg (sub_pos.2 k.1) p2
            linarith
          rcases pos_and_pos_or_neg_and_neg_of_mul_pos this with ⟨k1, k2⟩ | ⟨k1, k2⟩
          · rw [if_pos ⟨k.1, k.2, k2⟩, if_pos ⟨by linarith, k⟩]
          · rw [if_neg (fun z => by linarith [z.2.2]), if_neg (fun z => by linarith [z.1])]
        · rw [if_neg (fun z => k ⟨z.1, z.2.1⟩), if_neg (fun z => k z.2)]
      rw [g u j1, g v j2]
      split_ifs <;> grind
  · rcases eq_or_lt_of_le hl with hl | hl
    · -- vertical
      have : ∀ x : Point, over q q' x = 0 := by
        intro x; unfold over; rw [if_neg]; rintro ⟨k1, k2, -⟩; linarith
      rw [this, this, sub_self]
      rw [hl, sub_self, zero_mul] at i1 i2
      have o : ∀ {r : Rat}, 0 = -((v.x - r) * det2 q q' u + (r - u.x) * det2 q q' v) → ¬ (u.x ≤ r ∧ r < v.x) ∧ ¬ (v.x ≤ r ∧ r < u.x) := by
        intro r hr
        rcases pos_and_pos_or_neg_and_neg_of_mul_pos h1 with ⟨p1, p2⟩ | ⟨p1, p2⟩ <;> constructor <;> rintro ⟨k1, k2⟩
        · have := mul_pos (sub_pos.2 k2) p1; have := mul_nonneg (sub_nonneg.2 k1) p2.le; linarith
        · have := mul_nonpos_of_nonpos_of_nonneg (sub_nonpos.2 k1) p1.le; have := mul_neg_of_neg_of_pos (sub_neg.2 k2) p2; linarith
        · have := mul_neg_of_pos_of_neg (sub_pos.2 k2) p1; have := mul_nonpos_of_nonneg_of_nonpos (sub_nonneg.2 k1) p2.le; linarith
        · have := mul_nonneg_of_nonpos_of_nonpos (sub_nonpos.2 k1) p1.le; have := mul_pos_of_neg_of_neg (sub_neg.2 k2) p2; linarith
      have o1 := o i1
      have o2 := o i2
      rw [cross_out (by rw [hl]; exact o1.1) (by rw [hl]; exact o1.2), cross_out o2.1 o2.2, sub_self]
    · have L : 0 < q'.x - q.x := sub_pos.2 hl
      rcases pos_and_pos_or_neg_and_neg_of_mul_pos h1 with ⟨p1, p2⟩ | ⟨p1, p2⟩
      · -- above
        have c : ∀ {r : Point}, (q'.x - q.x) * det2 u v r = -((v.x - r.x) * det2 q q' u + (r.x - u.x) * det2 q q' v) →
            cross r u v = (if v.x ≤ r.x then 1 else 0) - (if u.x ≤ r.x then 1 else 0) := by
          intro r hr
          by_cases k : u.x ≤ r.x ∧ r.x < v.x
          · have : (q'.x - q.x) * det2 u v r < 0 := by
              rw [hr]; have := mul_pos (sub_pos.2 k.2) p1; have := mul_nonneg (sub_nonneg.2 k.1) p2.le; linarith
            rw [cross_neg (by by_contra z; have := mul_nonneg L.le (not_lt.1 z); linarith), if_pos k, if_neg (not_le.2 k.2), if_pos k.1]; norm_num
          · by_cases k' : v.x ≤ r.x ∧ r.x < u.x
            · have : 0 < (q'.x - q.x) * det2 u v r := by
                rw [hr]; have := mul_nonpos_of_nonpos_of_nonneg (sub_nonpos.2 k'.1) p1.le; have := mul_neg_of_neg_of_pos (sub_neg.2 k'.2) p2; linarith
              rw [cross_pos ((mul_pos_iff_of_pos_left L).1 this), if_pos k', if_pos k'.1, if_neg (not_le.2 k'.2)]; norm_num
            · rw [cross_out k k']
              split_ifs <;> grind
        rw [c i1, c i2]
        unfold over
        simp only [p1, p2, and_true]
        split_ifs <;> grind
      · have c : ∀ {r : Point}, (q'.x - q.x) * det2 u v r = -((v.x - r.x) * det2 q q' u + (r.x - u.x) * det2 q q' v) →
            cross r u v = 0 := by
          intro r hr
          by_cases k : u.x ≤ r.x ∧ r.x < v.x
          · have : 0 < (q'.x - q.x) * det2 u v r := by
              rw [hr]; have := mul_neg_of_pos_of_neg (sub_pos.2 k.2) p1; have := mul_nonpos_of_nonneg_of_nonpos (sub_nonneg.2 k.1) p2.le; linarith
            rw [cross_pos ((mul_pos_iff_of_pos_left L).1 this), if_neg]
            rintro ⟨z1, z2⟩; linarith [k.1, k.2]
          · by_cases k' : v.x ≤ r.x ∧ r.x < u.x
            · have : (q'.x - q.x) * det2 u v r < 0 := by
                rw [hr]; have := mul_nonneg_of_nonpos_of_nonpos (sub_nonpos.2 k'.1) p1.le; have := mul_pos_of_neg_of_neg (sub_neg.2 k'.2) p2; linarith
              rw [cross_neg (by by_contra z; have := mul_nonneg L.le (not_lt.1 z); linarith), if_neg]
              rintro ⟨z1, z2⟩; linarith [k'.1, k'.2]
            · exact cross_out k k'
        rw [c i1, c i2]
        unfold over
        rw [if_neg (fun z => by linarith [z.2.2]), if_neg (fun z => by linarith [z.2.2])]

/-- One edge is crossed, from its left side to its right side. -/
theorem flux_cross {q q' u v : Point} (hl : q.x ≤ q'.x) (h1 : 0 < det2 u v q) (h2 : det2 u v q' < 0) (h3 : det2 q q' u < 0)
    (h4 : 0 < det2 q q' v) : cross q u v - cross q' u v = over q q' u - over q q' v + 1 := by
  have i1 := line_id q q' u v
  have i2 := line_id' q q' u v
  rw [cross_pos h1, cross_neg h2]
  have e1 : over q q' u = 0 := by unfold over; rw [if_neg]; rintro ⟨-, -, k⟩; linarith
  have e2 : over q q' v = if q.x < v.x ∧ v.x ≤ q'.x then 1 else 0 := by unfold over; simp [h4]
  rw [e1, e2]
  have L : 0 ≤ q'.x - q.x := sub_nonneg.2 hl
  have a1 : v.x ≤ q.x → q.x < u.x := by
    intro k
    by_contra z
    have := mul_nonneg_of_nonpos_of_nonpos (sub_nonpos.2 k) h3.le
    have := mul_nonneg (sub_nonneg.2 (not_lt.1 z)) h4.le
    have := mul_nonneg L h1.le
    have e : q'.x - q.x = 0 := by
      have : (q'.x - q.x) * det2 u v q = 0 := by linarith
      exact (mul_eq_zero.1 this).resolve_right h1.ne'
    -- vertical segment
    have z' := not_lt.1 z
    have y1 : (v.x - q.x) * det2 q q' u = 0 := by rw [e, zero_mul] at i1; linarith
    have y2 : (q.x - u.x) * det2 q q' v = 0 := by rw [e, zero_mul] at i1; linarith
    have y3 : v.x = q.x := by have := (mul_eq_zero.1 y1).resolve_right h3.ne; linarith
    have y4 : u.x = q.x := by have := (mul_eq_zero.1 y2).resolve_right h4.ne'; linarith
    have : det2 q q' u = 0 := by unfold det2; rw [y4, show q'.x = q.x by linarith]; ring
    linarith
  have a2 : q'.x < v.x → u.x ≤ q'.x := by
    intro k
    by_contra z
    have := mul_neg_of_pos_of_neg (sub_pos.2 k) h3
    have := mul_neg_of_neg_of_pos (sub_neg.2 (not_le.1 z)) h4
    have := mul_nonpos_of_nonneg_of_nonpos L h2.le
    linarith
  have b1 := le_or_gt v.x q.x
  have b2 := le_or_gt v.x q'.x
  split_ifs <;> grind

end P2T
