import Verif.Proofs.Float32Input
import Verif.Proofs.GridInput

/-!
# Points on a binary grid: all `f32` computations are harmless
-/

namespace P2T

/-- A multiple of a power of two that is not too large is an `f32`. -/
theorem Mul.float32 {e : Int} {x : Rat} (h : Mul ((2 : Rat) ^ e) x) (hx : |x| ≤ 2 ^ 23 * 2 ^ e) (he : -149 ≤ e) (he' : e ≤ 104) : IsF32 x := by
  obtain ⟨m, rfl⟩ := h
  refine ⟨m, e, rfl, ?_, he, he'⟩
  have pe : (0 : Rat) < 2 ^ e := zpow_pos (by norm_num) e
  rw [abs_mul, abs_of_pos pe] at hx
  have : |(m : Rat)| ≤ 2 ^ 23 := le_of_mul_le_mul_right hx pe
  have : |m| ≤ 2 ^ 23 := by exact_mod_cast this
  omega

end P2T

namespace P2T.F32

section
variable (n : Num) [F32Like n]

/-- Three grid points: the float evaluation is exact. -/
theorem grid_exact {e : Int} (he : -11 ≤ e) (he' : e ≤ 38) {p q r : Point} (hp : Mul ((2 : Rat) ^ e) p.x ∧ Mul ((2 : Rat) ^ e) p.y) (hq : Mul ((2 : Rat) ^ e) q.x ∧ Mul ((2 : Rat) ^ e) q.y)
    (hr : Mul ((2 : Rat) ^ e) r.x ∧ Mul ((2 : Rat) ^ e) r.y) (bp : |p.x| ≤ 2 ^ 10 * 2 ^ e ∧ |p.y| ≤ 2 ^ 10 * 2 ^ e)
    (bq : |q.x| ≤ 2 ^ 10 * 2 ^ e ∧ |q.y| ≤ 2 ^ 10 * 2 ^ e) (br : |r.x| ≤ 2 ^ 10 * 2 ^ e ∧ |r.y| ≤ 2 ^ 10 * 2 ^ e) : flDet n p q r = det2 p q r := by
  have pe : (0 : Rat) < 2 ^ e := zpow_pos (by norm_num) e
  have two : (2 : Rat) ≠ 0 := by norm_num
  have dif : ∀ a b : Rat, |a| ≤ 2 ^ 10 * 2 ^ e → |b| ≤ 2 ^ 10 * 2 ^ e → |a - b| ≤ 2 ^ 11 * 2 ^ e := by
    intro a b h1 h2
    rw [abs_le] at *
    norm_num at *
    constructor <;> linarith
  have fix : ∀ a b : Rat, Mul ((2 : Rat) ^ e) a → Mul ((2 : Rat) ^ e) b → |a| ≤ 2 ^ 10 * 2 ^ e → |b| ≤ 2 ^ 10 * 2 ^ e → n.rnd (a - b) = a - b := by
    intro a b h1 h2 h3 h4
    refine f32_fix n ((h1.sub h2).float32 (le_trans (dif a b h3 h4) ?_) (by omega) (by omega))
    exact mul_le_mul_of_nonneg_right (by norm_num) pe.le
  have e2 : (2 : Rat) ^ e * 2 ^ e = 2 ^ (e + e) := (zpow_add₀ two _ _).symm
  have pe2 : (0 : Rat) < 2 ^ (e + e) := zpow_pos (by norm_num) _
  have bprod : ∀ a b : Rat, |a| ≤ 2 ^ 11 * 2 ^ e → |b| ≤ 2 ^ 11 * 2 ^ e → |a * b| ≤ 2 ^ 22 * 2 ^ (e + e) := by
    intro a b h1 h2
    rw [abs_mul]
    have := mul_le_mul h1 h2 (abs_nonneg _) (by positivity)
    have k : (2 : Rat) ^ 11 * 2 ^ e * (2 ^ 11 * 2 ^ e) = 2 ^ 22 * 2 ^ (e + e) := by rw [← e2]; ring
    rwa [k] at this
  have a1 := dif _ _ bp.1 br.1
  have a2 := dif _ _ bq.2 br.2
  have a3 := dif _ _ bp.2 br.2
  have a4 := dif _ _ bq.1 br.1
  have m1 : Mul ((2 : Rat) ^ (e + e)) ((p.x - r.x) * (q.y - r.y)) := by rw [← e2]; exact (hp.1.sub hr.1).mul (hq.2.sub hr.2)
  have m2 : Mul ((2 : Rat) ^ (e + e)) ((p.y - r.y) * (q.x - r.x)) := by rw [← e2]; exact (hp.2.sub hr.2).mul (hq.1.sub hr.1)
  have k1 := bprod _ _ a1 a2
  have k2 := bprod _ _ a3 a4
  unfold flDet
  rw [fix _ _ hp.1 hr.1 bp.1 br.1, fix _ _ hq.2 hr.2 bq.2 br.2, fix _ _ hp.2 hr.2 bp.2 br.2, fix _ _ hq.1 hr.1 bq.1 br.1]
  rw [f32_fix n (m1.float32 (le_trans k1 (mul_le_mul_of_nonneg_right (by norm_num) pe2.le)) (by omega) (by omega)), f32_fix n (m2.float32 (le_trans k2 (mul_le_mul_of_nonneg_right (by norm_num) pe2.le)) (by omega) (by omega))]
  rw [f32_fix n ((m1.sub m2).float32 ?_ (by omega) (by omega))]
  · rfl
  · rw [abs_le] at k1 k2 ⊢
    norm_num at k1 k2 ⊢
    constructor <;> linarith

/-- What the grid gives for the single coordinates. -/
structure GridFacts (e : Int) (s B : Rat) (pts : List Point) : Prop where
  hs : s = 2 ^ e
  s0 : 0 < s
  slow : 1 / 2 ^ 11 ≤ s
  mul : ∀ p ∈ pts, Mul s p.x ∧ Mul s p.y
  bndB : ∀ p ∈ pts, |p.x| ≤ B ∧ |p.y| ≤ B
  sB : s ≤ B
  Bs : B ≤ 2 ^ 10 * s
  bnd : ∀ p ∈ pts, |p.x| ≤ 2 ^ 10 * s ∧ |p.y| ≤ 2 ^ 10 * s
  hB : 1 / 2 ^ 20 ≤ 2 ^ 10 * s ∧ 2 ^ 10 * s ≤ 2 ^ 48
  he : -11 ≤ e
  he' : e ≤ 38

theorem grid_facts {M e : Int} {pts : List Point} (h : OnGridUpTo M e pts) (hM : 1 ≤ M) (hM' : M ≤ 2 ^ 10) (he : -11 ≤ e) (he' : e ≤ 38) :
    GridFacts e (2 ^ e) (M * 2 ^ e) pts := by
  obtain ⟨s, hs⟩ : ∃ s : Rat, s = 2 ^ e := ⟨_, rfl⟩
  have s0 : 0 < s := by rw [hs]; exact zpow_pos (by norm_num) e
  have slow : 1 / 2 ^ 11 ≤ s := by
    rw [hs]
    have : (2 : Rat) ^ (-11 : Int) ≤ 2 ^ e := zpow_le_zpow_right₀ (by norm_num) he
    rwa [zpow_neg, ← one_div, zpow_ofNat] at this
  have m1 : (1 : Rat) ≤ M := by exact_mod_cast hM
  have m2 : (M : Rat) ≤ 2 ^ 10 := by exact_mod_cast hM'
  have bnd : ∀ p ∈ pts, |p.x| ≤ M * s ∧ |p.y| ≤ M * s := fun p hp => by
    obtain ⟨⟨m, h1, h1'⟩, k, h2, h2'⟩ := h p hp
    have c1 : |(m : Rat)| ≤ M := by exact_mod_cast h1'
    have c2 : |(k : Rat)| ≤ M := by exact_mod_cast h2'
    rw [h1, h2, ← hs, abs_mul, abs_mul, abs_of_pos s0]
    exact ⟨mul_le_mul_of_nonneg_right c1 s0.le, mul_le_mul_of_nonneg_right c2 s0.le⟩
  have hB : 2 ^ 10 * s ≤ 2 ^ 48 := by
    have : (2 : Rat) ^ e ≤ 2 ^ (38 : Int) := zpow_le_zpow_right₀ (by norm_num) he'
    rw [hs]
    norm_num at this ⊢
    linarith
  have Bs : M * s ≤ 2 ^ 10 * s := mul_le_mul_of_nonneg_right m2 s0.le
  rw [← hs]
  refine ⟨hs, s0, slow, ?_, bnd, le_mul_of_one_le_left s0.le m1, Bs, fun p hp => ⟨le_trans (bnd p hp).1 Bs, le_trans (bnd p hp).2 Bs⟩, ⟨?_, hB⟩, he, he'⟩
  · intro p hp
    obtain ⟨⟨m, h1, -⟩, k, h2, -⟩ := h p hp
    rw [hs]; exact ⟨⟨m, h1⟩, k, h2⟩
  · norm_num at slow ⊢; linarith

/-- Triangles with corners on the grid are computed without error. -/
theorem GridFacts.inp {e : Int} {s B : Rat} {pts : List Point} (g : GridFacts e s B pts) : ∀ p ∈ pts, ∀ q ∈ pts, ∀ r ∈ pts, Agree n p q r := by
  obtain ⟨hs, s0, slow, mul, -, -, -, bnd, hB, he, he'⟩ := g
  have inp : ∀ p ∈ pts, ∀ q ∈ pts, ∀ r ∈ pts, Agree n p q r ∧ (det2 p q r ≠ 0 → n.eps < |det2 p q r|) := by
    intro p hp q hq r hr
    have ex := grid_exact n (e := e) he he' (by rw [← hs]; exact mul p hp) (by rw [← hs]; exact mul q hq) (by rw [← hs]; exact mul r hr)
      (by rw [← hs]; exact bnd p hp) (by rw [← hs]; exact bnd q hq) (by rw [← hs]; exact bnd r hr)
    have md : Mul (s * s) (det2 p q r) :=
      (((mul p hp).1.sub (mul r hr).1).mul ((mul q hq).2.sub (mul r hr).2)).sub (((mul p hp).2.sub (mul r hr).2).mul ((mul q hq).1.sub (mul r hr).1))
    have big : n.eps < s * s := by
      have : 1 / 2 ^ 11 * (1 / 2 ^ 11) ≤ s * s := mul_le_mul slow slow (by norm_num) s0.le
      rw [f32_eps n]; norm_num at this ⊢; linarith
    refine ⟨?_, fun hd => lt_of_lt_of_le big (md.ge (by positivity) hd)⟩
    unfold Agree
    rw [ex]
    rcases lt_trichotomy (det2 p q r) 0 with k | k | k
    · have := md.ge (by positivity) k.ne
      rw [abs_of_neg k] at this
      exact .inl ⟨k, by linarith⟩
    · exact .inr (.inr ⟨k, k⟩)
    · have := md.ge (by positivity) k.ne'
      rw [abs_of_pos k] at this
      exact .inr (.inl ⟨k, by linarith⟩)
  exact fun p hp q hq r hr => (inp p hp q hq r hr).1

/-- Different abscissae on the grid stay in order when `EPSILON` is added. -/
theorem GridFacts.apart_eps {e : Int} {s B : Rat} {pts : List Point} (g : GridFacts e s B pts) :
    ∀ p ∈ pts, ∀ q ∈ pts, q.x < p.x → n.rnd (q.x + n.eps) < p.x := by
  have two : (2 : Rat) ≠ 0 := by norm_num
  obtain ⟨hs, s0, slow, mul, -, -, -, bnd, hB, he, he'⟩ := g
  intro p hp q hq hlt
  obtain ⟨m, hm⟩ := (mul q hq).1
  have gap := ((mul p hp).1.sub (mul q hq).1).ge s0 (by linarith)
  rw [abs_of_pos (by linarith)] at gap
  have half : Mul ((2 : Rat) ^ (e - 1)) (q.x + s / 2) := ⟨2 * m + 1, by
    rw [hm, hs, zpow_sub₀ two]; push_cast; field_simp⟩
  have bq := (bnd q hq).1
  have fl : IsF32 (q.x + s / 2) := half.float32 (by
    rw [zpow_sub₀ two, ← hs]
    refine le_trans (abs_add_le _ _) ?_
    rw [abs_of_pos (by positivity : 0 < s / 2)]
    norm_num at bq ⊢
    linarith) (by omega) (by omega)
  have ep : n.eps ≤ s / 2 := by rw [f32_eps n]; norm_num at slow ⊢; linarith
  have := f32_mono n (x := q.x + n.eps) (y := q.x + s / 2) (far_eps n (le_trans bq hB.2)) (by
    have e1 : (2 : Rat) ^ 48 + 2 ^ 48 ≤ 2 ^ 49 := by norm_num
    refine le_trans (abs_add_le _ _) (le_trans (le_trans (add_le_add (le_trans bq hB.2) ?_) e1) (pow_le_pow_right₀ (by norm_num) (by norm_num)))
    rw [abs_of_pos (by positivity : 0 < s / 2)]
    refine le_trans ?_ hB.2
    norm_num; linarith) (by linarith)
  rw [f32_fix n fl] at this
  linarith

theorem GridFacts.float {e : Int} {s B : Rat} {pts : List Point} (g : GridFacts e s B pts) : ∀ p ∈ pts, IsF32 p.x := fun p hp => by
  obtain ⟨hs, s0, slow, mul, -, -, -, bnd, hB, he, he'⟩ := g
  have k := (mul p hp).1
  rw [hs] at k
  refine k.float32 (le_trans (bnd p hp).1 ?_) (by omega) (by omega)
  rw [← hs]; exact mul_le_mul_of_nonneg_right (by norm_num) s0.le

/-- Points on a binary grid, the corners far enough from all lines. -/
theorem GridFacts.fine {e : Int} {s B : Rat} {pts : List Point} (g : GridFacts e s B pts) (far : FarFromCorners B pts)
    (hnd : pts.Nodup) (h2 : 2 ≤ pts.length) (hsz : pts.length + 2 ≤ 2 ^ 32) :
    FineInput n pts ∧ ScanComplete n (withArtificial n pts) ∧ EpsUp n pts :=
  far_fine n far g.bndB ⟨le_trans (by have := g.slow; norm_num at this ⊢; linarith) g.sB, le_trans g.Bs g.hB.2⟩ g.float (g.apart_eps n)
    (fun p hp q hq r hr _ _ _ => g.inp n p hp q hq r hr) hnd h2 hsz

/-- On a small grid the corners are far from all lines that do not go through them. -/
theorem small_far {M e : Int} {pts : List Point} (h : OnGridUpTo M e pts) (hM : 1 ≤ M) (hM' : M ≤ 2 ^ 6) (he : -8 ≤ e) (he' : e ≤ 38)
    (hc : ClearOfCorners pts) (hnd : pts.Nodup) (h2 : 2 ≤ pts.length) : FarFromCorners (M * 2 ^ e) pts := by
  intro x0 x1 y0 y1 box
  obtain ⟨ox, oy⟩ := box_open box (ne_pair hnd h2) hc
  have g := grid_facts h hM (le_trans hM' (by norm_num)) (by omega) he'
  have slow' : 1 / 2 ^ 8 ≤ (2 : Rat) ^ e := by
    have : (2 : Rat) ^ (-8 : Int) ≤ 2 ^ e := zpow_le_zpow_right₀ (by norm_num) he
    rwa [zpow_neg, ← one_div, zpow_ofNat] at this
  have m2 : (M : Rat) ≤ 2 ^ 6 := by exact_mod_cast hM'
  have m1 : (1 : Rat) ≤ M := by exact_mod_cast hM
  obtain ⟨hs, s0, slow, mul, -, -, -, bnd, hB, -, -⟩ := g
  generalize (2 : Rat) ^ e = s at *
  clear hs
  have C := hc _ _ _ _ box
  have mx0 : Mul s x0 := by obtain ⟨q, m, f⟩ := box.left; rw [← f]; exact (mul q m).1
  have mx1 : Mul s x1 := by obtain ⟨q, m, f⟩ := box.right; rw [← f]; exact (mul q m).1
  have my0 : Mul s y0 := by obtain ⟨q, m, f⟩ := box.bottom; rw [← f]; exact (mul q m).2
  have my1 : Mul s y1 := by obtain ⟨q, m, f⟩ := box.top; rw [← f]; exact (mul q m).2
  have ww : s ≤ x1 - x0 := by have := (mx1.sub mx0).ge s0 (by linarith); rwa [abs_of_pos (by linarith)] at this
  have hh : s ≤ y1 - y0 := by have := (my1.sub my0).ge s0 (by linarith); rwa [abs_of_pos (by linarith)] at this
  have marg : (M * s) ^ 2 / 2 ^ 16 + 1 / 2 ^ 21 ≤ s * s / 10 := by
    have k1 : 1 / 2 ^ 8 * (1 / 2 ^ 8) ≤ s * s := mul_le_mul slow' slow' (by norm_num) s0.le
    have k2 : (M : Rat) * M ≤ 2 ^ 6 * 2 ^ 6 := mul_le_mul m2 m2 (by linarith) (by norm_num)
    have k3 : (M : Rat) * M * (s * s) ≤ 2 ^ 6 * 2 ^ 6 * (s * s) := mul_le_mul_of_nonneg_right k2 (by positivity)
    have e1 : (M * s) ^ 2 = M * M * (s * s) := by ring
    rw [e1]
    norm_num at k1 k3 ⊢
    linarith
  -- a corner and two input points
  have two_in : ∀ c : Point, Mul (s / 10) c.x → Mul (s / 10) c.y → ∀ a ∈ pts, ∀ b ∈ pts, det2 c a b ≠ 0 → s * s / 10 ≤ |det2 c a b| := by
    intro c c1 c2 a ha b hb hd
    have m1 := (mul a ha).1.sub (mul b hb).1
    have m2 := (mul a ha).2.sub (mul b hb).2
    have m3 := c1.sub (mul b hb).1.tenth
    have m4 := c2.sub (mul b hb).2.tenth
    have : Mul (s * (s / 10)) (det2 c a b) := by
      have e1 : det2 c a b = (a.y - b.y) * (c.x - b.x) - (a.x - b.x) * (c.y - b.y) := by unfold det2; ring
      rw [e1]; exact (m2.mul m3).sub (m1.mul m4)
    have := this.ge (by positivity) hd
    have e2 : s * (s / 10) = s * s / 10 := by ring
    rwa [e2] at this
  have cL : ∀ a ∈ pts, ∀ b ∈ pts, a ≠ b → s * s / 10 ≤ |det2 (cornerLeft x0 x1 y0 y1) a b| := fun a ha b hb hab =>
    two_in _ (mx0.tenth.sub (mx1.sub mx0).three) (my0.tenth.sub (my1.sub my0).three) a ha b hb (C a ha b hb hab).1
  have cR : ∀ a ∈ pts, ∀ b ∈ pts, a ≠ b → s * s / 10 ≤ |det2 (cornerRight x0 x1 y0 y1) a b| := fun a ha b hb hab =>
    two_in _ (mx1.tenth.add (mx1.sub mx0).three) (my0.tenth.sub (my1.sub my0).three) a ha b hb (C a ha b hb hab).2
  have cLR : ∀ a ∈ pts, s * s / 10 ≤ |det2 (cornerLeft x0 x1 y0 y1) (cornerRight x0 x1 y0 y1) a| := fun a ha => by
    have ia := box.inside a ha
    have e : det2 (cornerLeft x0 x1 y0 y1) (cornerRight x0 x1 y0 y1) a = 8 / 5 * ((x1 - x0) * (a.y - y0 + 3 / 10 * (y1 - y0))) := by
      simp only [det2, cornerLeft, cornerRight]; ring
    have k : s * (3 / 10 * s) ≤ (x1 - x0) * (a.y - y0 + 3 / 10 * (y1 - y0)) := mul_le_mul ww (by linarith) (by positivity) (by linarith)
    rw [e]
    refine le_trans ?_ (le_abs_self _)
    have : 0 < s * s := by positivity
    linarith
  exact ⟨fun a ha b hb hab => ⟨le_trans marg (cL a ha b hb hab), le_trans marg (cR a ha b hb hab)⟩, fun a ha => le_trans marg (cLR a ha)⟩

/-- The artificial points are the exact corners. -/
theorem run_exact [Tenths32 n] {e : Int} {s B : Rat} {pts : List Point} (g : GridFacts e s B pts) (hne : pts ≠ []) (hc : CornersOnGrid32 e pts)
    (hopen : ∀ x0 x1 y0 y1, BoundingBox pts x0 x1 y0 y1 → x0 < x1 ∧ y0 < y1) :
    ∃ x0 x1 y0 y1, withArtificial n pts = pts ++ [cornerLeft x0 x1 y0 y1, cornerRight x0 x1 y0 y1] ∧ BoundingBox pts x0 x1 y0 y1 ∧
      (∀ p ∈ pts ++ [cornerLeft x0 x1 y0 y1, cornerRight x0 x1 y0 y1], (Mul s p.x ∧ Mul s p.y) ∧ |p.x| ≤ 2 ^ 10 * s ∧ |p.y| ≤ 2 ^ 10 * s) := by
  obtain ⟨head, tail, x1, x0, y1, y0, h1, h2, h3, h4, h5⟩ := ctx_points n pts []
  obtain ⟨⟨a, ha, ea⟩, ⟨b, hb', eb⟩, ⟨c, hc', ec⟩, ⟨d, hd, ed⟩⟩ := h5 hne (fun p hp => by
    have := g.bnd p hp
    have hB : 2 ^ 10 * s ≤ 2 ^ 100 := le_trans g.hB.2 (by norm_num)
    have hi : 2 ^ 10 * s ≤ n.hi := le_trans hB F32Like.hi
    have lo : n.lo ≤ -(2 ^ 10 * s) := le_trans F32Like.lo (neg_le_neg hB)
    rw [abs_le, abs_le] at this
    exact ⟨⟨by linarith, by linarith⟩, by linarith, by linarith⟩)
  have box : BoundingBox pts x0 x1 y0 y1 := ⟨h4, ⟨b, hb', eb.symm⟩, ⟨a, ha, ea.symm⟩, ⟨d, hd, ed.symm⟩, ⟨c, hc', ec.symm⟩⟩
  obtain ⟨ox, oy⟩ := hopen _ _ _ _ box
  have G := hc.grid _ _ _ _ box
  obtain ⟨t1, t2⟩ := hc.tenth _ _ _ _ box
  have gg := grid_facts G (by norm_num) (le_refl _) g.he g.he'
  have hs := g.hs
  rw [← hs] at gg
  have s0 := g.s0
  have slow := g.slow
  have hB := g.hB
  have fix : ∀ z : Rat, Mul s z → |z| ≤ 2 ^ 11 * s → n.rnd z = z := fun z m b => by
    rw [hs] at m b
    refine f32_fix n (m.float32 (le_trans b (mul_le_mul_of_nonneg_right (by norm_num) (by rw [← hs]; exact s0.le))) ?_ ?_)
    · have := g.he; omega
    · have := g.he'; omega
  have ten : ∀ u v : Rat, Mul s u → Mul s v → |u| ≤ 2 ^ 10 * s → |v| ≤ 2 ^ 10 * s → u < v → ExactTenth (v - u) → n.rnd (n.rnd (v - u) * n.k03) = 3 / 10 * (v - u) := by
    intro u v mu mv bu bv huv ht
    have w := (mv.sub mu).ge s0 (by linarith)
    rw [abs_of_pos (by linarith)] at w
    rw [abs_le] at bu bv
    have w' : v - u ≤ 2 ^ 11 * s := by norm_num at bu bv ⊢; linarith
    rw [fix _ (mv.sub mu) (by rw [abs_of_pos (by linarith)]; exact w')]
    exact Tenths32.ten _ ht (le_trans (by norm_num at slow ⊢; linarith) w) (by have := hB.2; norm_num at this w' ⊢; linarith)
  have ma := g.mul a ha
  have mb := g.mul b hb'
  have mc := g.mul c hc'
  have md := g.mul d hd
  have ba := g.bnd a ha
  have bb := g.bnd b hb'
  have bc := g.bnd c hc'
  have bd := g.bnd d hd
  rw [← ea] at ma ba; rw [← eb] at mb bb; rw [← ec] at mc bc; rw [← ed] at md bd
  have tx := ten x0 x1 mb.1 ma.1 bb.1 ba.1 ox t1
  have ty := ten y0 y1 md.2 mc.2 bd.2 bc.2 oy t2
  have up : (2 : Rat) ^ 10 * s ≤ 2 ^ 11 * s := mul_le_mul_of_nonneg_right (by norm_num) s0.le
  have gl := gg.mul (cornerLeft x0 x1 y0 y1) (by simp)
  have gr := gg.mul (cornerRight x0 x1 y0 y1) (by simp)
  have kl := gg.bnd (cornerLeft x0 x1 y0 y1) (by simp)
  have kr := gg.bnd (cornerRight x0 x1 y0 y1) (by simp)
  have e1 : head = cornerLeft x0 x1 y0 y1 := by
    rw [h2, tx, ty]
    exact congrArg₂ Point.mk (fix _ gl.1 (le_trans kl.1 up)) (fix _ gl.2 (le_trans kl.2 up))
  have e2 : tail = cornerRight x0 x1 y0 y1 := by
    rw [h3, tx, ty]
    exact congrArg₂ Point.mk (fix _ gr.1 (le_trans kr.1 up)) (fix _ gr.2 (le_trans kr.2 up))
  refine ⟨x0, x1, y0, y1, by rw [withArtificial, h1, List.append_assoc, e1, e2]; rfl, box, ?_⟩
  intro p hp
  rcases List.mem_append.1 hp with k | k
  · exact ⟨g.mul p k, g.bnd p k⟩
  · exact ⟨gg.mul p k, gg.bnd p k⟩

/-- Points on a grid that contains the corners of the enlarged box satisfy all numeric hypotheses. -/
theorem GridFacts.fine_round [Tenths32 n] {e : Int} {s B : Rat} {pts : List Point} (g : GridFacts e s B pts) (hc : CornersOnGrid32 e pts)
    (hopen : ∀ x0 x1 y0 y1, BoundingBox pts x0 x1 y0 y1 → x0 < x1 ∧ y0 < y1)
    (hnd : pts.Nodup) (h2 : 2 ≤ pts.length) (hsz : pts.length + 2 ≤ 2 ^ 32) :
    FineInput n pts ∧ ScanComplete n (withArtificial n pts) ∧ EpsUp n pts := by
  have hne : pts ≠ [] := by rintro rfl; simp at h2
  obtain ⟨head, tail, x0, x1, y0, y1, hall, hL, hR, box, nl, nr, np⟩ := run_near n hne g.bnd g.hB
  obtain ⟨x0', x1', y0', y1', hall', box', all⟩ := run_exact n g hne hc hopen
  obtain ⟨rfl, rfl, rfl, rfl⟩ := box.unique box'
  have eq := hall.symm.trans hall'
  rw [List.append_cancel_left_eq, List.cons.injEq, List.cons.injEq] at eq
  obtain ⟨rfl, rfl, -⟩ := eq
  obtain ⟨ox, oy⟩ := hopen _ _ _ _ box
  have ge : GridFacts e s (2 ^ 10 * s) (pts ++ [cornerLeft x0 x1 y0 y1, cornerRight x0 x1 y0 y1]) :=
    ⟨g.hs, g.s0, g.slow, fun p hp => (all p hp).1, fun p hp => (all p hp).2, le_mul_of_one_le_left g.s0.le (by norm_num), le_refl _, fun p hp => (all p hp).2,
      g.hB, g.he, g.he'⟩
  have s0 := g.s0
  have mul := g.mul
  have ww : s ≤ x1 - x0 := by
    have mx0 : Mul s x0 := by obtain ⟨q, m, f⟩ := box.left; rw [← f]; exact (mul q m).1
    have mx1 : Mul s x1 := by obtain ⟨q, m, f⟩ := box.right; rw [← f]; exact (mul q m).1
    have := (mx1.sub mx0).ge s0 (by linarith); rwa [abs_of_pos (by linarith)] at this
  have hh : s ≤ y1 - y0 := by
    have my0 : Mul s y0 := by obtain ⟨q, m, f⟩ := box.bottom; rw [← f]; exact (mul q m).2
    have my1 : Mul s y1 := by obtain ⟨q, m, f⟩ := box.top; rw [← f]; exact (mul q m).2
    have := (my1.sub my0).ge s0 (by linarith); rwa [abs_of_pos (by linarith)] at this
  exact fine_of_agree n hne hnd hsz hall hL hR box nl nr
    (by norm_num; linarith) (by norm_num; linarith) g.float (fun p hp => le_trans (g.bnd p hp).1 g.hB.2) (g.apart_eps n) (fun p hp q hq r hr => ge.inp n p hp q hq r hr)

end

end P2T.F32
