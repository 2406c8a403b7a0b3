import Verif.Proofs.Grid32
import Verif.Spec.Steiner

/-!
# The angle test at the leftmost points, for `f32`
-/

namespace P2T.F32

section
variable (n : Num) [F32Like n]

theorem rnd_up {x : Rat} {k : Nat} (hk : k ≤ 119) (h : |x| ≤ 2 ^ k) : |n.rnd x| ≤ 2 ^ (k + 1) := by
  have hz : (2 : Rat) ^ k ≤ 2 ^ 120 := pow_le_pow_right₀ (by norm_num) (by omega)
  have e := f32_err n (le_trans h hz)
  have h1 : (1 : Rat) ≤ 2 ^ k := one_le_pow₀ (by norm_num)
  have h2 : (1 : Rat) / 2 ^ 140 ≤ 1 / 2 := one_div_le_one_div_of_le (by norm_num) (le_self_pow₀ (by norm_num) (by norm_num))
  rw [pow_succ]
  generalize (2 : Rat) ^ k = K at *
  generalize (1 : Rat) / 2 ^ 140 = η at *
  have h3 : |n.rnd x| ≤ |x| + |n.rnd x - x| := by
    calc |n.rnd x| = |x + (n.rnd x - x)| := by ring_nf
      _ ≤ _ := abs_add_le _ _
  norm_num at e
  linarith

theorem rnd_half_neg {x : Rat} (hx : x ≤ -(1 / 2 ^ 50)) (hz : |x| ≤ 2 ^ 120) : n.rnd x ≤ x / 2 := by
  have e := f32_err n hz
  have h2 : (1 : Rat) / 2 ^ 140 ≤ 1 / 2 ^ 60 := one_div_le_one_div_of_le (by norm_num) (pow_le_pow_right₀ (by norm_num) (by norm_num))
  generalize (1 : Rat) / 2 ^ 140 = η at *
  rw [abs_of_nonpos (le_trans hx (by norm_num)), abs_le] at e
  norm_num at *
  linarith

theorem rnd_half_pos {x : Rat} (hx : 1 / 2 ^ 50 ≤ x) (hz : |x| ≤ 2 ^ 120) : x / 2 ≤ n.rnd x := by
  have e := f32_err n hz
  have h2 : (1 : Rat) / 2 ^ 140 ≤ 1 / 2 ^ 60 := one_div_le_one_div_of_le (by norm_num) (pow_le_pow_right₀ (by norm_num) (by norm_num))
  generalize (1 : Rat) / 2 ^ 140 = η at *
  rw [abs_of_nonneg (le_trans (by norm_num) hx), abs_le] at e
  norm_num at *
  linarith

theorem rnd_nonpos {x : Rat} (hz : |x| ≤ 2 ^ 120) (h : x ≤ 0) : n.rnd x ≤ 0 := by
  have := f32_mono n hz (by simp) h
  rwa [f32_zero n] at this

theorem rnd_nonneg {x : Rat} (hz : |x| ≤ 2 ^ 120) (h : 0 ≤ x) : 0 ≤ n.rnd x := by
  have := f32_mono n (by simp) hz h
  rwa [f32_zero n] at this

/-- A point to the right and above, another one to the left and below: the float scalar product is negative. -/
theorem dot_neg {o a b : Point} (hb : ∀ p ∈ [o, a, b], |p.x| ≤ 2 ^ 49 ∧ |p.y| ≤ 2 ^ 49) (h1 : o.x ≤ a.x) (h2 : b.x ≤ o.x)
    (h3 : o.y + 1 / 2 ^ 11 ≤ a.y) (h4 : b.y + 1 / 2 ^ 14 ≤ o.y) : (Angle.new n o a b).dx < 0 := by
  have bd : ∀ {u v : Rat}, |u| ≤ 2 ^ 49 → |v| ≤ 2 ^ 49 → |u - v| ≤ 2 ^ 50 := by
    intro u v hu hv
    rw [pow_succ (2 : Rat) 49]
    generalize (2 : Rat) ^ 49 = K at *
    rw [abs_le] at *
    constructor <;> linarith
  have lift : ∀ {x : Rat} {k : Nat}, k ≤ 120 → |x| ≤ 2 ^ k → |x| ≤ 2 ^ 120 := fun hk h => le_trans h (pow_le_pow_right₀ (by norm_num) hk)
  have pr : ∀ {u v : Rat}, |u| ≤ 2 ^ 51 → |v| ≤ 2 ^ 51 → |u * v| ≤ 2 ^ 102 := by
    intro u v hu hv
    rw [abs_mul, show (2 : Rat) ^ 102 = 2 ^ 51 * 2 ^ 51 by rw [← pow_add]]
    exact mul_le_mul hu hv (abs_nonneg _) (pow_nonneg (by norm_num) _)
  obtain ⟨o1, o2⟩ := hb o (by simp)
  obtain ⟨a1, a2⟩ := hb a (by simp)
  obtain ⟨b1, b2⟩ := hb b (by simp)
  have c1 := bd a1 o1
  have c2 := bd b1 o1
  have c3 := bd a2 o2
  have c4 := bd b2 o2
  have d1 := rnd_up n (by norm_num) c1
  have d2 := rnd_up n (by norm_num) c2
  have d3 := rnd_up n (by norm_num) c3
  have d4 := rnd_up n (by norm_num) c4
  have p1 := pr d1 d2
  have p2 := pr d3 d4
  have q1 := rnd_up n (by norm_num) p1
  have q2 := rnd_up n (by norm_num) p2
  have s1 : n.rnd (n.rnd (a.x - o.x) * n.rnd (b.x - o.x)) ≤ 0 :=
    rnd_nonpos n (lift (by norm_num) p1) (mul_nonpos_of_nonneg_of_nonpos (rnd_nonneg n (lift (by norm_num) c1) (by linarith)) (rnd_nonpos n (lift (by norm_num) c2) (by linarith)))
  have t1 : 1 / 2 ^ 12 ≤ n.rnd (a.y - o.y) := by
    have := rnd_half_pos n (x := a.y - o.y) (by norm_num at *; linarith) (lift (by norm_num) c3)
    norm_num at *; linarith
  have t2 : n.rnd (b.y - o.y) ≤ -(1 / 2 ^ 15) := by
    have := rnd_half_neg n (x := b.y - o.y) (by norm_num at *; linarith) (lift (by norm_num) c4)
    norm_num at *; linarith
  have t3 : n.rnd (a.y - o.y) * n.rnd (b.y - o.y) ≤ -(1 / 2 ^ 27) := by
    have := mul_le_mul t1 (le_neg.1 t2) (by norm_num) (le_trans (by norm_num) t1)
    norm_num at *; linarith
  have s2 : n.rnd (n.rnd (a.y - o.y) * n.rnd (b.y - o.y)) ≤ -(1 / 2 ^ 28) := by
    have := rnd_half_neg n (le_trans t3 (by norm_num)) (lift (by norm_num) p2)
    norm_num at *; linarith
  show n.rnd (n.rnd (n.rnd (a.x - o.x) * n.rnd (b.x - o.x)) + n.rnd (n.rnd (a.y - o.y) * n.rnd (b.y - o.y))) < 0
  have s3 : |n.rnd (n.rnd (a.x - o.x) * n.rnd (b.x - o.x)) + n.rnd (n.rnd (a.y - o.y) * n.rnd (b.y - o.y))| ≤ 2 ^ 120 := by
    refine lift (k := 104) (by norm_num) (le_trans (abs_add_le _ _) (le_trans (add_le_add q1 q2) (le_of_eq ?_)))
    rw [pow_succ (2 : Rat) 103, mul_two]
  have := rnd_half_neg n (x := n.rnd (n.rnd (a.x - o.x) * n.rnd (b.x - o.x)) + n.rnd (n.rnd (a.y - o.y) * n.rnd (b.y - o.y))) (by norm_num at *; linarith) s3
  norm_num at *; linarith

/-- Points on a binary grid: the angle test at the leftmost points is right, if none of them is on a line with the left artificial point and another input point. -/
theorem GridFacts.leftOpen {e : Int} {s B : Rat} {pts : List Point} (g : GridFacts e s B pts) (hf : FineInput n pts) (hsc : ScanComplete n (withArtificial n pts))
    (hc : ∀ o ∈ pts, (∀ z ∈ pts, o.x ≤ z.x) → ∀ a ∈ pts, a ≠ o → det2 (artLeft n pts) o a ≠ 0) : LeftOpen n pts := by
  have hne : pts ≠ [] := hf.nonempty
  obtain ⟨head, tail, x0, x1, y0, y1, hall, hL, hR, box, nl, nr, np⟩ := run_near n hne g.bnd g.hB
  intro o ho hmin a ha hao
  have eo := hf.enclosed o ho
  have mo : o ∈ withArtificial n pts := by rw [hall]; simp [ho]
  have mh : artLeft n pts ∈ withArtificial n pts := by rw [hall, hL]; simp
  have ma : a ∈ withArtificial n pts := by
    rw [hall]
    rcases List.mem_append.1 ha with k | k
    · simp [k]
    · rw [hR] at k; simp only [List.mem_singleton] at k; simp [k]
  have neg : det2 o a (artLeft n pts) < 0 → (Angle.new n o a (artLeft n pts)).isNegative = true := by
    intro hd
    have := hf.faithful.angle o mo a ma _ mh hd
    unfold Angle.isNegative
    have k : ¬ ((Angle.new n o a (artLeft n pts)).dx = 0 ∧ (Angle.new n o a (artLeft n pts)).dy = 0) := fun k => by linarith [k.2]
    rw [if_neg k]
    split <;> simpa using this
  rcases List.mem_append.1 ha with k | k
  · have hd0 := hc o ho hmin a k hao
    rw [← det2_rotA] at hd0
    rcases lt_or_gt_of_ne hd0 with hd | hd
    · exact .inl (neg hd)
    · right
      have dy : 0 < (Angle.new n o a (artLeft n pts)).dy := by
        have := (hsc a ma o mo _ mh).2 (by rw [det2_rotA o a (artLeft n pts)]; exact hd)
        rw [scanDet_fl n] at this
        rw [angle_fl n]
        exact lt_trans (f32_eps_pos n) this
      -- `a` is above `o`
      have hax := hmin a k
      have hay : o.y < a.y := by
        by_contra c
        have e1 : det2 o a (artLeft n pts) = (a.x - o.x) * ((artLeft n pts).y - o.y) - (a.y - o.y) * ((artLeft n pts).x - o.x) := by unfold det2; ring
        have p1 : (a.x - o.x) * ((artLeft n pts).y - o.y) ≤ 0 := mul_nonpos_of_nonneg_of_nonpos (by linarith) (by linarith [eo.2.2])
        have p2 : 0 ≤ (a.y - o.y) * ((artLeft n pts).x - o.x) := mul_nonneg_of_nonpos_of_nonpos (by linarith [not_lt.1 c]) (by linarith [eo.1])
        linarith
      obtain ⟨hs, s0, slow, mul, -, -, -, bnd, hB, -, -⟩ := g
      have gap := ((mul a k).2.sub (mul o ho).2).ge s0 (by linarith)
      rw [abs_of_pos (by linarith)] at gap
      have io := box.inside o ho
      have ia := box.inside a k
      have hy := abs_le.1 nl.my
      have bl : |(artLeft n pts).x| ≤ 2 ^ 49 ∧ |(artLeft n pts).y| ≤ 2 ^ 49 := by
        rw [hL, show (2 : Rat) ^ 49 = 2 ^ 48 * 2 by rw [pow_succ]]
        have b1 := nl.bx; have b2 := nl.by'; have b3 := nl.mx; have b4 := nl.my
        have hB2 := hB.2
        generalize (2 : Rat) ^ 48 = K at *
        rw [abs_le] at b1 b2 b3 b4
        rw [abs_le, abs_le]
        norm_num at b1 b2 b3 b4
        refine ⟨⟨?_, ?_⟩, ?_, ?_⟩ <;> norm_num at hB2 ⊢ <;> linarith
      have up : ∀ {x : Rat}, |x| ≤ 2 ^ 10 * s → |x| ≤ 2 ^ 49 := fun hx => le_trans hx (le_trans hB.2 (pow_le_pow_right₀ (by norm_num) (by norm_num)))
      have dx := dot_neg n (o := o) (a := a) (b := artLeft n pts) (by
        intro p hp
        simp only [List.mem_cons, List.not_mem_nil, or_false] at hp
        rcases hp with rfl | rfl | rfl
        · exact ⟨up (bnd p ho).1, up (bnd p ho).2⟩
        · exact ⟨up (bnd p k).1, up (bnd p k).2⟩
        · exact bl) hax eo.1.le (by norm_num at *; linarith) (by
        rw [hL]
        simp only [cornerLeft] at hy
        norm_num at *
        linarith)
      unfold Angle.exceeds90
      rw [if_neg (fun k => by linarith [k.2]), if_neg (by linarith)]
      simpa using dy
  · left
    apply neg
    rw [hR] at k
    simp only [List.mem_singleton] at k
    rw [k]
    have et : (artRight n pts).x = tail.x := by rw [hR]
    have flat : tail.y = head.y := by
      obtain ⟨head', tail', x1, x0, y1, y0, g1, g2, g3, -⟩ := ctx_points n pts []
      have : pts ++ [head, tail] = pts ++ [head', tail'] := by
        rw [← hall, withArtificial, g1, List.append_assoc]; rfl
      rw [List.append_cancel_left_eq, List.cons.injEq, List.cons.injEq] at this
      rw [this.1, this.2.1, g2, g3]
    have e1 : det2 o tail (artLeft n pts) = (tail.x - o.x) * (head.y - o.y) - (tail.y - o.y) * (head.x - o.x) := by rw [hL]; unfold det2; ring
    rw [e1, flat]
    rw [hL] at eo
    have p1 : (tail.x - o.x) * (head.y - o.y) < 0 := mul_neg_of_pos_of_neg (by linarith [eo.2.1]) (by linarith [eo.2.2])
    have p2 : 0 < (head.y - o.y) * (head.x - o.x) := mul_pos_of_neg_of_neg (by linarith [eo.2.2]) (by linarith [eo.1])
    linarith

/-- The corners of the enlarged box are far from all lines: the angle test at the leftmost points is right. -/
theorem GridFacts.leftOpen_far {e : Int} {s B : Rat} {pts : List Point} (g : GridFacts e s B pts) (far : FarFromCorners B pts)
    (hnd : pts.Nodup) (h2 : 2 ≤ pts.length) (hsz : pts.length + 2 ≤ 2 ^ 32) : LeftOpen n pts := by
  obtain ⟨f1, f2, -⟩ := g.fine n far hnd h2 hsz
  have hne : pts ≠ [] := f1.nonempty
  have hB : 1 / 2 ^ 20 ≤ B ∧ B ≤ 2 ^ 48 := ⟨le_trans (by have := g.slow; norm_num at this ⊢; linarith) g.sB, le_trans g.Bs g.hB.2⟩
  obtain ⟨head, tail, x0, x1, y0, y1, hall, hL, hR, box, nl, nr, np⟩ := run_near n hne g.bndB hB
  refine g.leftOpen n f1 f2 fun o ho _ a ha hao => ?_
  rw [hL]
  have := (agree_of_near n hB.2 nl (np o ho) (np a ha) ((far _ _ _ _ box).1 o ho a ha hao.symm).1).2
  exact abs_pos.1 (lt_trans (f32_eps_pos n) this)

end

end P2T.F32
