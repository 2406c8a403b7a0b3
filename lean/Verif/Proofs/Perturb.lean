import Verif.Proofs.Crossing
import Mathlib.Tactic.FieldSimp

/-!
# Perturbation

Moving the points a little makes all triangles of a mesh strictly counter-clockwise, without moving a point across a line.
-/

namespace P2T

theorem small : ∀ {l : List (Rat × Rat)}, (∀ x ∈ l, 0 < x.1 ∨ (x.1 = 0 ∧ 0 < x.2)) →
    ∃ δ0 : Rat, 0 < δ0 ∧ ∀ δ, 0 < δ → δ ≤ δ0 → ∀ x ∈ l, 0 < x.1 + δ * x.2
  | [], _ => ⟨1, one_pos, by simp⟩
  | x :: l, h => by
    obtain ⟨δ0, k0, k1⟩ := small (l := l) fun y hy => h y (List.mem_cons_of_mem _ hy)
    have : ∃ δ1 : Rat, 0 < δ1 ∧ ∀ δ, 0 < δ → δ ≤ δ1 → 0 < x.1 + δ * x.2 := by
      rcases h x (by simp) with hx | ⟨hx, hx'⟩
      · refine ⟨x.1 / (1 + |x.2|), by positivity, fun δ h1 h2 => ?_⟩
        have p : 0 < 1 + |x.2| := by positivity
        rw [le_div_iff₀ p] at h2
        have q : - |x.2| ≤ x.2 := neg_abs_le _
        have : δ * (-|x.2|) ≤ δ * x.2 := mul_le_mul_of_nonneg_left q h1.le
        nlinarith
      · refine ⟨1, one_pos, fun δ h1 _ => ?_⟩
        rw [hx, zero_add]; exact mul_pos h1 hx'
    obtain ⟨δ1, k2, k3⟩ := this
    refine ⟨min δ0 δ1, lt_min k0 k2, fun δ h1 h2 y hy => ?_⟩
    rcases List.mem_cons.1 hy with rfl | hy
    · exact k3 δ h1 (h2.trans (min_le_right _ _))
    · exact k1 δ h1 (h2.trans (min_le_left _ _)) y hy

theorem small' {l : List (Rat × Rat)} (h : ∀ x ∈ l, 0 < x.1 ∨ (x.1 = 0 ∧ 0 < x.2)) :
    ∃ δ : Rat, 0 < δ ∧ ∀ x ∈ l, 0 < x.1 + δ * x.2 := by
  obtain ⟨δ, h1, h2⟩ := small h
  exact ⟨δ, h1, h2 δ h1 le_rfl⟩

/-- Finitely many points can be moved such that their key order becomes the order of the abscissas and all weakly
counter-clockwise triples become strictly counter-clockwise. -/
theorem exists_strict (P : Nat → Point) (size : Nat) : ∃ P' : Nat → Point,
    (∀ i j, i < size → j < size → keyLt (P i) (P j) → (P' i).x < (P' j).x) ∧
    (∀ i j k, i < size → j < size → k < size → WO (P i) (P j) (P k) → 0 < det2 (P' i) (P' j) (P' k)) := by
  classical
  obtain ⟨δ, d0, d1⟩ := small' (l := (((List.range size).product (List.range size)).filter fun x => decide (keyLt (P x.1) (P x.2))).map
      fun x => ((P x.2).x - (P x.1).x, (P x.2).y - (P x.1).y)) (by
    intro y hy
    simp only [List.mem_map, List.mem_filter, decide_eq_true_eq] at hy
    obtain ⟨x, ⟨-, hx⟩, rfl⟩ := hy
    rcases hx with hx | ⟨hx, hx'⟩
    · left; simpa using hx
    · right; exact ⟨by simp [hx], by simpa using hx'⟩)
  let X : Nat → Rat := fun i => (P i).x + δ * (P i).y
  have hX : ∀ i j, i < size → j < size → keyLt (P i) (P j) → X i < X j := by
    intro i j hi hj h
    have := d1 ((P j).x - (P i).x, (P j).y - (P i).y) (List.mem_map.2 ⟨(i, j), by
      simp only [List.mem_filter, decide_eq_true_eq]
      exact ⟨List.pair_mem_product.2 ⟨List.mem_range.2 hi, List.mem_range.2 hj⟩, h⟩, rfl⟩)
    simp only [X]
    linarith
  let V : Nat → Nat → Nat → Rat := fun i j k => (X j - X i) * (X k - X i) * (X k - X j)
  obtain ⟨ε, e0, e1⟩ := small' (l := (((List.range size).product ((List.range size).product (List.range size))).filter
      fun x => decide (WO (P x.1) (P x.2.1) (P x.2.2))).map
      fun x => (det2 (P x.1) (P x.2.1) (P x.2.2), V x.1 x.2.1 x.2.2)) (by
    intro y hy
    simp only [List.mem_map, List.mem_filter, decide_eq_true_eq] at hy
    obtain ⟨⟨i, j, k⟩, ⟨hm, hx⟩, rfl⟩ := hy
    obtain ⟨hi, hm⟩ := List.pair_mem_product.1 hm
    obtain ⟨hj, hk⟩ := List.pair_mem_product.1 hm
    rw [List.mem_range] at hi hj hk
    simp only at hx ⊢
    rcases hx with hx | ⟨hx, hx'⟩
    · exact .inl hx
    · refine .inr ⟨hx, ?_⟩
      simp only [V]
      rcases hx' with ⟨a, b⟩ | ⟨a, b⟩ | ⟨a, b⟩
      · have a1 := hX _ _ hi hj a; have b1 := hX _ _ hj hk b
        exact mul_pos (mul_pos (by linarith) (by linarith)) (by linarith)
      · have a1 := hX _ _ hj hk a; have b1 := hX _ _ hk hi b
        exact mul_pos (mul_pos_of_neg_of_neg (by linarith) (by linarith)) (by linarith)
      · have a1 := hX _ _ hk hi a; have b1 := hX _ _ hi hj b
        exact mul_pos_of_neg_of_neg (mul_neg_of_pos_of_neg (by linarith) (by linarith)) (by linarith))
  refine ⟨fun i => ⟨X i, (P i).y + ε * (X i) ^ 2⟩, hX, ?_⟩
  intro i j k hi hj hk h
  have := e1 (det2 (P i) (P j) (P k), V i j k) (List.mem_map.2 ⟨(i, j, k), by
    simp only [List.mem_filter, decide_eq_true_eq]
    exact ⟨List.pair_mem_product.2 ⟨List.mem_range.2 hi, List.pair_mem_product.2 ⟨List.mem_range.2 hj, List.mem_range.2 hk⟩⟩, h⟩, rfl⟩)
  have e : det2 ⟨X i, (P i).y + ε * (X i) ^ 2⟩ ⟨X j, (P j).y + ε * (X j) ^ 2⟩ ⟨X k, (P k).y + ε * (X k) ^ 2⟩ =
      det2 (P i) (P j) (P k) + ε * V i j k := by
    simp only [det2, V, X]; ring
  rw [e]; exact this

/-- Two strictly counter-clockwise triangles on the same side of an edge overlap. -/
theorem common_point {u v w w' : Point} (h : 0 < det2 u v w) (h' : 0 < det2 u v w') : ∃ q, Inside u v w q ∧ Inside u v w' q := by
  let m : Point := ⟨(u.x + v.x) / 2, (u.y + v.y) / 2⟩
  let q : Rat → Point := fun s => ⟨m.x + s * (u.y - v.y), m.y + s * (v.x - u.x)⟩
  have d0 : 0 < (v.x - u.x) ^ 2 + (v.y - u.y) ^ 2 := by
    by_contra k
    have k1 : (v.x - u.x) ^ 2 = 0 := by nlinarith [sq_nonneg (v.x - u.x), sq_nonneg (v.y - u.y)]
    have k2 : (v.y - u.y) ^ 2 = 0 := by nlinarith [sq_nonneg (v.x - u.x), sq_nonneg (v.y - u.y)]
    have k3 : v.x = u.x := by have := pow_eq_zero_iff (two_ne_zero) |>.1 k1; linarith
    have k4 : v.y = u.y := by have := pow_eq_zero_iff (two_ne_zero) |>.1 k2; linarith
    unfold det2 at h
    rw [k3, k4] at h
    have : (u.x - w.x) * (u.y - w.y) - (u.y - w.y) * (u.x - w.x) = 0 := by ring
    linarith
  let κ : Point → Point → Rat := fun a b => (a.x - b.x) * (u.x - v.x) + (a.y - b.y) * (u.y - v.y)
  have e1 : ∀ s, det2 u v (q s) = s * ((v.x - u.x) ^ 2 + (v.y - u.y) ^ 2) := by
    intro s; simp only [det2, q, m]; ring
  have e2 : ∀ w s, det2 v w (q s) = det2 u v w / 2 + s * κ v w := by
    intro w s; simp only [det2, q, m, κ]; ring
  have e3 : ∀ w s, det2 w u (q s) = det2 u v w / 2 + s * κ w u := by
    intro w s; simp only [det2, q, m, κ]; ring
  obtain ⟨s, s0, s1⟩ := small' (l := [(det2 u v w / 2, κ v w), (det2 u v w / 2, κ w u), (det2 u v w' / 2, κ v w'), (det2 u v w' / 2, κ w' u)])
    (by intro x hx; simp only [List.mem_cons, List.not_mem_nil, or_false] at hx; left; rcases hx with rfl | rfl | rfl | rfl <;> simpa)
  simp only [List.mem_cons, List.not_mem_nil, or_false, forall_eq_or_imp, forall_eq] at s1
  obtain ⟨t1, t2, t3, t4⟩ := s1
  refine ⟨q s, ⟨?_, ?_, ?_⟩, ⟨?_, ?_, ?_⟩⟩
  · rw [e1]; exact mul_pos s0 d0
  · rw [e2]; exact t1
  · rw [e3]; exact t2
  · rw [e1]; exact mul_pos s0 d0
  · rw [e2]; exact t3
  · rw [e3]; exact t4

/-- A triangle with a corner inside another one overlaps it. -/
theorem corner_overlap {a b c u v w : Point} (h : Inside a b c u) (h' : 0 < det2 u v w) : ∃ q, Inside a b c q ∧ Inside u v w q := by
  let q : Rat → Point := fun s => ⟨u.x + s * (v.x + w.x - 2 * u.x), u.y + s * (v.y + w.y - 2 * u.y)⟩
  let κ : Point → Point → Rat := fun a b => (b.x - a.x) * (v.y + w.y - 2 * u.y) - (b.y - a.y) * (v.x + w.x - 2 * u.x)
  have e1 : ∀ a b s, det2 a b (q s) = det2 a b u + s * κ a b := by
    intro a b s; simp only [det2, q, κ]; ring
  obtain ⟨s, s0, s1⟩ := small' (l := [(det2 a b u, κ a b), (det2 b c u, κ b c), (det2 c a u, κ c a), (1, -2)])
    (by intro x hx; simp only [List.mem_cons, List.not_mem_nil, or_false] at hx; left; rcases hx with rfl | rfl | rfl | rfl
        · exact h.1
        · exact h.2.1
        · exact h.2.2
        · exact one_pos)
  simp only [List.mem_cons, List.not_mem_nil, or_false, forall_eq_or_imp, forall_eq] at s1
  obtain ⟨t1, t2, t3, t4⟩ := s1
  have s2 : 0 < 1 - 2 * s := by linarith
  refine ⟨q s, ⟨?_, ?_, ?_⟩, ?_, ?_, ?_⟩
  · rw [e1]; exact t1
  · rw [e1]; exact t2
  · rw [e1]; exact t3
  · have : det2 u v (q s) = s * det2 u v w := by simp only [det2, q]; ring
    rw [this]; exact mul_pos s0 h'
  · have : det2 v w (q s) = (1 - 2 * s) * det2 u v w := by simp only [det2, q]; ring
    rw [this]; exact mul_pos s2 h'
  · have : det2 w u (q s) = s * det2 u v w := by simp only [det2, q]; ring
    rw [this]; exact mul_pos s0 h'

/-- Triangles at two crossing edges overlap. -/
theorem crossing_overlap {u v w x y z : Point} (h : 0 < det2 u v w) (h' : 0 < det2 x y z) (h1 : det2 u v x < 0) (h2 : 0 < det2 u v y)
    (h3 : 0 < det2 x y u) (h4 : det2 x y v < 0) : ∃ q, Inside u v w q ∧ Inside x y z q := by
  -- the crossing point, from both sides
  have hs : det2 u v y - det2 u v x = det2 x y u - det2 x y v := by unfold det2; ring
  have n0 : 0 < det2 u v y - det2 u v x := by linarith
  let τ := det2 x y u / (det2 u v y - det2 u v x)
  let σ := - det2 u v x / (det2 u v y - det2 u v x)
  have τ0 : 0 < τ := div_pos h3 n0
  have σ0 : 0 < σ := div_pos (by linarith) n0
  have τ1 : 0 < 1 - τ := by
    have : τ < 1 := (div_lt_one n0).2 (by linarith)
    linarith
  have σ1 : 0 < 1 - σ := by
    have : σ < 1 := (div_lt_one n0).2 (by linarith)
    linarith
  have eτ : τ * (det2 u v y - det2 u v x) = det2 x y u := div_mul_cancel₀ _ n0.ne'
  have eσ : σ * (det2 u v y - det2 u v x) = - det2 u v x := div_mul_cancel₀ _ n0.ne'
  have px : u.x + τ * (v.x - u.x) = x.x + σ * (y.x - x.x) := by
    have : (u.x + τ * (v.x - u.x) - (x.x + σ * (y.x - x.x))) * (det2 u v y - det2 u v x) = 0 := by
      have : (u.x + τ * (v.x - u.x) - (x.x + σ * (y.x - x.x))) * (det2 u v y - det2 u v x) =
        (u.x - x.x) * (det2 u v y - det2 u v x) + (τ * (det2 u v y - det2 u v x)) * (v.x - u.x) -
          (σ * (det2 u v y - det2 u v x)) * (y.x - x.x) := by ring
      rw [this, eτ, eσ]; unfold det2; ring
    have := (mul_eq_zero.1 this).resolve_right n0.ne'
    linarith
  have py : u.y + τ * (v.y - u.y) = x.y + σ * (y.y - x.y) := by
    have : (u.y + τ * (v.y - u.y) - (x.y + σ * (y.y - x.y))) * (det2 u v y - det2 u v x) = 0 := by
      have : (u.y + τ * (v.y - u.y) - (x.y + σ * (y.y - x.y))) * (det2 u v y - det2 u v x) =
        (u.y - x.y) * (det2 u v y - det2 u v x) + (τ * (det2 u v y - det2 u v x)) * (v.y - u.y) -
          (σ * (det2 u v y - det2 u v x)) * (y.y - x.y) := by ring
      rw [this, eτ, eσ]; unfold det2; ring
    have := (mul_eq_zero.1 this).resolve_right n0.ne'
    linarith
  let p : Point := ⟨u.x + τ * (v.x - u.x), u.y + τ * (v.y - u.y)⟩
  have ep : p = ⟨x.x + σ * (y.x - x.x), x.y + σ * (y.y - x.y)⟩ := by simp only [p]; rw [px, py]
  let q : Rat → Point := fun s => ⟨p.x + s * (y.x + u.x - 2 * p.x), p.y + s * (y.y + u.y - 2 * p.y)⟩
  let κ : Point → Point → Rat := fun a b => (b.x - a.x) * (y.y + u.y - 2 * p.y) - (b.y - a.y) * (y.x + u.x - 2 * p.x)
  have e1 : ∀ a b s, det2 a b (q s) = det2 a b p + s * κ a b := by
    intro a b s; simp only [det2, q, κ]; ring
  have f1 : det2 u v p = 0 := by simp only [det2, p]; ring
  have f2 : det2 v w p = (1 - τ) * det2 u v w := by simp only [det2, p]; ring
  have f3 : det2 w u p = τ * det2 u v w := by simp only [det2, p]; ring
  have g1 : det2 x y p = 0 := by rw [ep]; simp only [det2]; ring
  have g2 : det2 y z p = (1 - σ) * det2 x y z := by rw [ep]; simp only [det2]; ring
  have g3 : det2 z x p = σ * det2 x y z := by rw [ep]; simp only [det2]; ring
  have k1 : κ u v = det2 u v y + det2 u v u - 2 * det2 u v p := by simp only [κ, det2]; ring
  have k2 : κ x y = det2 x y y + det2 x y u - 2 * det2 x y p := by simp only [κ, det2]; ring
  have z1 : det2 u v u = 0 := by unfold det2; ring
  have z2 : det2 x y y = 0 := by unfold det2; ring
  obtain ⟨s, s0, s1⟩ := small' (l := [(det2 v w p, κ v w), (det2 w u p, κ w u), (det2 y z p, κ y z), (det2 z x p, κ z x)])
    (by intro x hx; simp only [List.mem_cons, List.not_mem_nil, or_false] at hx; left; rcases hx with rfl | rfl | rfl | rfl
        · simp only [f2]; exact mul_pos τ1 h
        · simp only [f3]; exact mul_pos τ0 h
        · simp only [g2]; exact mul_pos σ1 h'
        · simp only [g3]; exact mul_pos σ0 h')
  simp only [List.mem_cons, List.not_mem_nil, or_false, forall_eq_or_imp, forall_eq] at s1
  obtain ⟨t1, t2, t3, t4⟩ := s1
  refine ⟨q s, ⟨?_, ?_, ?_⟩, ?_, ?_, ?_⟩
  · rw [e1, f1, k1, f1, z1]; have := mul_pos s0 h2; linarith
  · rw [e1]; exact t1
  · rw [e1]; exact t2
  · rw [e1, g1, k2, g1, z2]; have := mul_pos s0 h3; linarith
  · rw [e1]; exact t3
  · rw [e1]; exact t4

end P2T
