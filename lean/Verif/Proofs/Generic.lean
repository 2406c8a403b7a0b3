import Verif.Proofs.Walk

/-!
# Points in general position near a given point
-/

namespace P2T

/-- Affine functions on the plane. -/
def IsAffine (f : Point → Rat) : Prop := ∀ s u v, f (mix s u v) = (1 - s) * f u + s * f v

theorem IsAffine.neg {f} (h : IsAffine f) : IsAffine fun X => - f X := by intro s u v; simp only [h s u v]; ring
theorem IsAffine.add {f g} (h : IsAffine f) (h' : IsAffine g) : IsAffine fun X => f X + g X := by intro s u v; simp only [h s u v, h' s u v]; ring
theorem IsAffine.const (c : Rat) : IsAffine fun _ => c := by intro s u v; ring
theorem IsAffine.mul {f} (h : IsAffine f) (c : Rat) : IsAffine fun X => c * f X := by intro s u v; simp only [h s u v]; ring
theorem isAffine_det (a b : Point) : IsAffine fun X => det2 a b X := fun s u v => det2_mix a b u v s
theorem isAffine_det' (a b : Point) : IsAffine fun X => det2 X a b := by
  have e : (fun X => det2 X a b) = fun X => det2 a b X := by funext X; rw [← det2_rot]
  rw [e]; exact isAffine_det a b

/-- A point where finitely many affine functions are positive can be moved such that, moreover, finitely many others do not vanish. -/
theorem generic_point : ∀ (Bs As : List (Point → Rat)) (X : Point), (∀ f ∈ As, IsAffine f ∧ 0 < f X) → (∀ f ∈ Bs, IsAffine f ∧ ∃ Y, f Y ≠ 0) →
    ∃ X', (∀ f ∈ As, 0 < f X') ∧ ∀ f ∈ Bs, f X' ≠ 0
  | [], As, X, hA, _ => ⟨X, fun f hf => (hA f hf).2, by simp⟩
  | f :: Bs, As, X, hA, hB => by
    obtain ⟨fa, Y, hY⟩ := hB f (by simp)
    -- a point with `f ≠ 0`
    obtain ⟨X1, h1, h2⟩ : ∃ X1, (∀ g ∈ As, 0 < g X1) ∧ f X1 ≠ 0 := by
      by_cases hf : f X = 0
      · obtain ⟨δ, δ0, hδ⟩ := small' (l := As.map fun g => (g X, g Y - g X)) (by
          intro x hx
          obtain ⟨g, hg, rfl⟩ := List.mem_map.1 hx
          exact .inl (hA g hg).2)
        refine ⟨mix δ X Y, fun g hg => ?_, ?_⟩
        · have := hδ _ (List.mem_map.2 ⟨g, hg, rfl⟩)
          rw [(hA g hg).1]; simp only at this; linarith
        · rw [fa, hf]
          simpa using ⟨δ0.ne', hY⟩
      · exact ⟨X, fun g hg => (hA g hg).2, hf⟩
    rcases lt_or_gt_of_ne h2 with k | k
    · obtain ⟨X', k1, k2⟩ := generic_point Bs ((fun X => - f X) :: As) X1 (by
        intro g hg
        rcases List.mem_cons.1 hg with rfl | hg
        · exact ⟨fa.neg, by simpa using k⟩
        · exact ⟨(hA g hg).1, h1 g hg⟩) (fun g hg => hB g (by simp [hg]))
      refine ⟨X', fun g hg => k1 g (by simp [hg]), fun g hg => ?_⟩
      rcases List.mem_cons.1 hg with rfl | hg
      · have := k1 (fun X => - g X) (by simp); intro z; linarith
      · exact k2 g hg
    · obtain ⟨X', k1, k2⟩ := generic_point Bs (f :: As) X1 (by
        intro g hg
        rcases List.mem_cons.1 hg with rfl | hg
        · exact ⟨fa, k⟩
        · exact ⟨(hA g hg).1, h1 g hg⟩) (fun g hg => hB g (by simp [hg]))
      refine ⟨X', fun g hg => k1 g (by simp [hg]), fun g hg => ?_⟩
      rcases List.mem_cons.1 hg with rfl | hg
      · have := k1 g (by simp); intro z; linarith
      · exact k2 g hg

/-- If an edge does not hide `z` from `X`, then some affine conditions at `X` show that it does not cross the line of sight. -/
theorem sight_conditions {a b z X : Point} (gen : det2 a b z ≠ 0) (hX : ∀ s : Rat, 0 ≤ s → s ≤ 1 → X ≠ mix s a b)
    (hv : ∀ r : Rat, 0 < r → r < 1 → ∀ s : Rat, 0 ≤ s → s ≤ 1 → mix r X z ≠ mix s a b) :
    ∃ As : List (Point → Rat), (∀ f ∈ As, IsAffine f ∧ 0 < f X) ∧ ∀ X', (∀ f ∈ As, 0 < f X') → ¬ ProperCross a b X' z := by
  -- enough: one of two conditions
  have fin : 0 < det2 a b X * det2 a b z ∨ 0 < det2 X z a * det2 X z b →
      ∃ As : List (Point → Rat), (∀ f ∈ As, IsAffine f ∧ 0 < f X) ∧ ∀ X', (∀ f ∈ As, 0 < f X') → ¬ ProperCross a b X' z := by
    rintro (k | k)
    · refine ⟨[fun X => det2 a b z * det2 a b X], ?_, ?_⟩
      · simp only [List.mem_singleton, forall_eq]
        exact ⟨(isAffine_det a b).mul _, by rw [mul_comm]; exact k⟩
      · intro X' h hc
        simp only [List.mem_singleton, forall_eq] at h
        have := hc.1
        rw [mul_comm] at this
        exact lt_asymm h this
    · rcases pos_and_pos_or_neg_and_neg_of_mul_pos k with ⟨k1, k2⟩ | ⟨k1, k2⟩
      · refine ⟨[fun X => det2 X z a, fun X => det2 X z b], ?_, ?_⟩
        · simp only [List.mem_cons, List.not_mem_nil, or_false, forall_eq_or_imp, forall_eq]
          exact ⟨⟨isAffine_det' z a, k1⟩, isAffine_det' z b, k2⟩
        · intro X' h hc
          simp only [List.mem_cons, List.not_mem_nil, or_false, forall_eq_or_imp, forall_eq] at h
          exact lt_asymm (mul_pos h.1 h.2) hc.2
      · refine ⟨[fun X => - det2 X z a, fun X => - det2 X z b], ?_, ?_⟩
        · simp only [List.mem_cons, List.not_mem_nil, or_false, forall_eq_or_imp, forall_eq]
          exact ⟨⟨(isAffine_det' z a).neg, by linarith⟩, (isAffine_det' z b).neg, by linarith⟩
        · intro X' h hc
          simp only [List.mem_cons, List.not_mem_nil, or_false, forall_eq_or_imp, forall_eq] at h
          exact lt_asymm (mul_pos_of_neg_of_neg (by linarith [h.1]) (by linarith [h.2])) hc.2
  apply fin
  rcases lt_trichotomy (det2 a b X * det2 a b z) 0 with k | k | k
  · right
    -- a point of the segment where the line of sight meets the line of the edge
    have n0 : det2 a b X - det2 a b z ≠ 0 := by
      intro e
      have : det2 a b X = det2 a b z := by linarith
      rw [this] at k
      nlinarith [mul_self_nonneg (det2 a b z)]
    obtain ⟨r0, r1⟩ : 0 < det2 a b X / (det2 a b X - det2 a b z) ∧ det2 a b X / (det2 a b X - det2 a b z) < 1 := by
      rcases mul_neg_iff.1 k with ⟨ha, hb⟩ | ⟨ha, hb⟩
      · have : 0 < det2 a b X - det2 a b z := by linarith
        exact ⟨div_pos ha this, (div_lt_one this).2 (by linarith)⟩
      · have : det2 a b X - det2 a b z < 0 := by linarith
        exact ⟨div_pos_of_neg_of_neg ha this, (div_lt_one_of_neg this).2 (by linarith)⟩
    generalize hr : det2 a b X / (det2 a b X - det2 a b z) = r at r0 r1
    have er : r * (det2 a b X - det2 a b z) = det2 a b X := by rw [← hr]; exact div_mul_cancel₀ _ n0
    have hq : det2 a b (mix r X z) = 0 := by rw [det2_mix]; linarith
    -- it is on the edge unless `a`, `b` are on the same side
    by_contra hc
    rcases (not_lt.1 hc).lt_or_eq with kk | kk
    · obtain ⟨Y, ⟨s, s0, s1, e1⟩, r', r0', r1', e2⟩ := (show ProperCross a b X z from ⟨k, kk⟩).point
      exact hv r' r0' r1' s s0.le s1.le (by rw [← e2, ← e1])
    · have hN : det2 X z a - det2 X z b = det2 a b z - det2 a b X := by unfold det2; ring
      rcases mul_eq_zero.1 kk with q | q
      · refine hv r r0 r1 0 le_rfl zero_le_one ?_
        have x1 : (r * (z.x - X.x) + X.x - a.x) * (det2 a b X - det2 a b z) = 0 := by
          have : (r * (z.x - X.x) + X.x - a.x) * (det2 a b X - det2 a b z) = (r * (det2 a b X - det2 a b z)) * (z.x - X.x) + (X.x - a.x) * (det2 a b X - det2 a b z) := by ring
          rw [this, er]
          have : det2 a b X * (z.x - X.x) + (X.x - a.x) * (det2 a b X - det2 a b z) = det2 X z a * (a.x - b.x) := by unfold det2; ring
          rw [this, q, zero_mul]
        have y1 : (r * (z.y - X.y) + X.y - a.y) * (det2 a b X - det2 a b z) = 0 := by
          have : (r * (z.y - X.y) + X.y - a.y) * (det2 a b X - det2 a b z) = (r * (det2 a b X - det2 a b z)) * (z.y - X.y) + (X.y - a.y) * (det2 a b X - det2 a b z) := by ring
          rw [this, er]
          have : det2 a b X * (z.y - X.y) + (X.y - a.y) * (det2 a b X - det2 a b z) = det2 X z a * (a.y - b.y) := by unfold det2; ring
          rw [this, q, zero_mul]
        have x2 := (mul_eq_zero.1 x1).resolve_right n0
        have y2 := (mul_eq_zero.1 y1).resolve_right n0
        simp only [mix, Point.mk.injEq]; constructor <;> linarith
      · refine hv r r0 r1 1 zero_le_one le_rfl ?_
        have x1 : (r * (z.x - X.x) + X.x - b.x) * (det2 a b X - det2 a b z) = 0 := by
          have : (r * (z.x - X.x) + X.x - b.x) * (det2 a b X - det2 a b z) = (r * (det2 a b X - det2 a b z)) * (z.x - X.x) + (X.x - b.x) * (det2 a b X - det2 a b z) := by ring
          rw [this, er]
          have : det2 a b X * (z.x - X.x) + (X.x - b.x) * (det2 a b X - det2 a b z) = det2 X z b * (a.x - b.x) := by unfold det2; ring
          rw [this, q, zero_mul]
        have y1 : (r * (z.y - X.y) + X.y - b.y) * (det2 a b X - det2 a b z) = 0 := by
          have : (r * (z.y - X.y) + X.y - b.y) * (det2 a b X - det2 a b z) = (r * (det2 a b X - det2 a b z)) * (z.y - X.y) + (X.y - b.y) * (det2 a b X - det2 a b z) := by ring
          rw [this, er]
          have : det2 a b X * (z.y - X.y) + (X.y - b.y) * (det2 a b X - det2 a b z) = det2 X z b * (a.y - b.y) := by unfold det2; ring
          rw [this, q, zero_mul]
        have x2 := (mul_eq_zero.1 x1).resolve_right n0
        have y2 := (mul_eq_zero.1 y1).resolve_right n0
        simp only [mix, Point.mk.injEq]; constructor <;> linarith
  · -- `X` is on the line of the edge
    right
    have hl := (mul_eq_zero.1 k).resolve_right gen
    obtain ⟨t, rfl⟩ : ∃ t, X = mix t a b := by
      have ab : a.x ≠ b.x ∨ a.y ≠ b.y := by
        by_contra hc
        push Not at hc
        apply gen
        unfold det2; rw [hc.1, hc.2]; ring
      rcases ab with ab | ab
      · have d : b.x - a.x ≠ 0 := by intro e; apply ab; linarith
        refine ⟨(X.x - a.x) / (b.x - a.x), ?_⟩
        have e1 : (X.x - a.x) / (b.x - a.x) * (b.x - a.x) = X.x - a.x := div_mul_cancel₀ _ d
        have e2 : (X.x - a.x) / (b.x - a.x) * (b.y - a.y) = X.y - a.y := by
          rw [div_mul_eq_mul_div, div_eq_iff d]
          unfold det2 at hl; linarith
        obtain ⟨x, y⟩ := X
        simp only [mix, Point.mk.injEq] at *
        constructor <;> linarith
      · have d : b.y - a.y ≠ 0 := by intro e; apply ab; linarith
        refine ⟨(X.y - a.y) / (b.y - a.y), ?_⟩
        have e1 : (X.y - a.y) / (b.y - a.y) * (b.y - a.y) = X.y - a.y := div_mul_cancel₀ _ d
        have e2 : (X.y - a.y) / (b.y - a.y) * (b.x - a.x) = X.x - a.x := by
          rw [div_mul_eq_mul_div, div_eq_iff d]
          unfold det2 at hl; linarith
        obtain ⟨x, y⟩ := X
        simp only [mix, Point.mk.injEq] at *
        constructor <;> linarith
    have e1 : det2 (mix t a b) z a = t * det2 a b z := by simp only [det2, mix]; ring
    have e2 : det2 (mix t a b) z b = - (1 - t) * det2 a b z := by simp only [det2, mix]; ring
    rw [e1, e2]
    have hD : 0 < det2 a b z * det2 a b z := mul_self_pos.2 gen
    have ht : 0 < - (t * (1 - t)) := by
      by_contra hc
      have t0 : 0 ≤ t := by
        by_contra q
        have := mul_pos_of_neg_of_neg (not_le.1 q) (show -(1 - t) < 0 by linarith)
        linarith
      have t1 : t ≤ 1 := by
        by_contra q
        have := mul_pos (show 0 < t by linarith) (show 0 < -(1 - t) by linarith)
        linarith
      exact hX t t0 t1 rfl
    have : t * det2 a b z * (- (1 - t) * det2 a b z) = - (t * (1 - t)) * (det2 a b z * det2 a b z) := by ring
    rw [this]; exact mul_pos ht hD
  · exact .inl k

end P2T
