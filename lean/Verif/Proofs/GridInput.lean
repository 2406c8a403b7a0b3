import Verif.Proofs.FloatInput
import Mathlib.Tactic.Zify

/-!
# Points on a binary grid: all `f64` computations are harmless
-/

namespace P2T

/-- `x` is an integer multiple of `s`. -/
def Mul (s x : Rat) : Prop := ∃ m : Int, x = m * s

theorem Mul.sub {s x y : Rat} : Mul s x → Mul s y → Mul s (x - y) := fun ⟨m, h⟩ ⟨k, h'⟩ => ⟨m - k, by rw [h, h']; push_cast; ring⟩
theorem Mul.add {s x y : Rat} : Mul s x → Mul s y → Mul s (x + y) := fun ⟨m, h⟩ ⟨k, h'⟩ => ⟨m + k, by rw [h, h']; push_cast; ring⟩
theorem Mul.mul {s t x y : Rat} : Mul s x → Mul t y → Mul (s * t) (x * y) := fun ⟨m, h⟩ ⟨k, h'⟩ => ⟨m * k, by rw [h, h']; push_cast; ring⟩
theorem Mul.tenth {s x : Rat} : Mul s x → Mul (s / 10) x := fun ⟨m, h⟩ => ⟨10 * m, by rw [h]; push_cast; ring⟩
theorem Mul.three {s x : Rat} : Mul s x → Mul (s / 10) (3 / 10 * x) := fun ⟨m, h⟩ => ⟨3 * m, by rw [h]; push_cast; ring⟩
theorem Mul.ge {s x : Rat} (h : Mul s x) (hs : 0 < s) (hx : x ≠ 0) : s ≤ |x| := by
  obtain ⟨m, rfl⟩ := h
  have m0 : m ≠ 0 := by rintro rfl; simp at hx
  have : (1 : Int) ≤ |m| := Int.one_le_abs m0
  have : (1 : Rat) ≤ |(m : Rat)| := by exact_mod_cast this
  rw [abs_mul, abs_of_pos hs]; nlinarith

/-- A multiple of a power of two that is not too large is an `f64`. -/
theorem Mul.float {e : Int} {x : Rat} (h : Mul ((2 : Rat) ^ e) x) (hx : |x| ≤ 2 ^ 52 * 2 ^ e) (he : -1074 ≤ e) (he' : e ≤ 971) : IsF64 x := by
  obtain ⟨m, rfl⟩ := h
  refine ⟨m, e, rfl, ?_, he, he'⟩
  have pe : (0 : Rat) < 2 ^ e := zpow_pos (by norm_num) e
  rw [abs_mul, abs_of_pos pe] at hx
  have : |(m : Rat)| ≤ 2 ^ 52 := le_of_mul_le_mul_right hx pe
  have : |m| ≤ 2 ^ 52 := by exact_mod_cast this
  omega

section
variable (n : Num) [F64Like n]

/-- Three grid points: the float evaluation is exact. -/
theorem grid_exact {e : Int} (he : -20 ≤ e) (he' : e ≤ 220) {p q r : Point} (hp : Mul ((2 : Rat) ^ e) p.x ∧ Mul ((2 : Rat) ^ e) p.y) (hq : Mul ((2 : Rat) ^ e) q.x ∧ Mul ((2 : Rat) ^ e) q.y)
    (hr : Mul ((2 : Rat) ^ e) r.x ∧ Mul ((2 : Rat) ^ e) r.y) (bp : |p.x| ≤ 2 ^ 20 * 2 ^ e ∧ |p.y| ≤ 2 ^ 20 * 2 ^ e)
    (bq : |q.x| ≤ 2 ^ 20 * 2 ^ e ∧ |q.y| ≤ 2 ^ 20 * 2 ^ e) (br : |r.x| ≤ 2 ^ 20 * 2 ^ e ∧ |r.y| ≤ 2 ^ 20 * 2 ^ e) : flDet n p q r = det2 p q r := by
  have pe : (0 : Rat) < 2 ^ e := zpow_pos (by norm_num) e
  have two : (2 : Rat) ≠ 0 := by norm_num
  have dif : ∀ a b : Rat, |a| ≤ 2 ^ 20 * 2 ^ e → |b| ≤ 2 ^ 20 * 2 ^ e → |a - b| ≤ 2 ^ 21 * 2 ^ e := by
    intro a b h1 h2
    rw [abs_le] at *
    norm_num at *
    constructor <;> linarith
  have fix : ∀ a b : Rat, Mul ((2 : Rat) ^ e) a → Mul ((2 : Rat) ^ e) b → |a| ≤ 2 ^ 20 * 2 ^ e → |b| ≤ 2 ^ 20 * 2 ^ e → n.rnd (a - b) = a - b := by
    intro a b h1 h2 h3 h4
    refine f64_fix n ((h1.sub h2).float (le_trans (dif a b h3 h4) ?_) (by omega) (by omega))
    exact mul_le_mul_of_nonneg_right (by norm_num) pe.le
  have e2 : (2 : Rat) ^ e * 2 ^ e = 2 ^ (e + e) := (zpow_add₀ two _ _).symm
  have pe2 : (0 : Rat) < 2 ^ (e + e) := zpow_pos (by norm_num) _
  have bprod : ∀ a b : Rat, |a| ≤ 2 ^ 21 * 2 ^ e → |b| ≤ 2 ^ 21 * 2 ^ e → |a * b| ≤ 2 ^ 42 * 2 ^ (e + e) := by
    intro a b h1 h2
    rw [abs_mul]
    have := mul_le_mul h1 h2 (abs_nonneg _) (by positivity)
    have k : (2 : Rat) ^ 21 * 2 ^ e * (2 ^ 21 * 2 ^ e) = 2 ^ 42 * 2 ^ (e + e) := by rw [← e2]; ring
    rwa [k] at this
  have a1 := dif _ _ bp.1 br.1
  have a2 := dif _ _ bq.2 br.2
  have a3 := dif _ _ bp.2 br.2
  have a4 := dif _ _ bq.1 br.1
  have m1 : Mul ((2 : Rat) ^ (e + e)) ((p.x - r.x) * (q.y - r.y)) := by rw [← e2]; exact (hp.1.sub hr.1).mul (hq.2.sub hr.2)
  have m2 : Mul ((2 : Rat) ^ (e + e)) ((p.y - r.y) * (q.x - r.x)) := by rw [← e2]; exact (hp.2.sub hr.2).mul (hq.1.sub hr.1)
  have k1 := bprod _ _ a1 a2
  have k2 := bprod _ _ a3 a4
  unfold flDet
  rw [fix _ _ hp.1 hr.1 bp.1 br.1, fix _ _ hq.2 hr.2 bq.2 br.2, fix _ _ hp.2 hr.2 bp.2 br.2, fix _ _ hq.1 hr.1 bq.1 br.1]
  rw [f64_fix n (m1.float (le_trans k1 (mul_le_mul_of_nonneg_right (by norm_num) pe2.le)) (by omega) (by omega)), f64_fix n (m2.float (le_trans k2 (mul_le_mul_of_nonneg_right (by norm_num) pe2.le)) (by omega) (by omega))]
  rw [f64_fix n ((m1.sub m2).float ?_ (by omega) (by omega))]
  · rfl
  · rw [abs_le] at k1 k2 ⊢
    norm_num at k1 k2 ⊢
    constructor <;> linarith

/-- What the grid gives for the single coordinates. -/
structure GridFacts (e : Int) (s : Rat) (pts : List Point) : Prop where
  hs : s = 2 ^ e
  s0 : 0 < s
  slow : 1 / 2 ^ 20 ≤ s
  mul : ∀ p ∈ pts, Mul s p.x ∧ Mul s p.y
  bnd : ∀ p ∈ pts, |p.x| ≤ 2 ^ 20 * s ∧ |p.y| ≤ 2 ^ 20 * s
  hB : 1 / 2 ^ 20 ≤ 2 ^ 20 * s ∧ 2 ^ 20 * s ≤ 2 ^ 240
  he : -20 ≤ e
  he' : e ≤ 220

theorem OnGrid.facts {e : Int} {pts : List Point} (h : OnGrid e pts) (he : -20 ≤ e) (he' : e ≤ 220) : ∃ s, GridFacts e s pts := by
  have two : (2 : Rat) ≠ 0 := by norm_num
  obtain ⟨s, hs⟩ : ∃ s : Rat, s = 2 ^ e := ⟨_, rfl⟩
  have s0 : 0 < s := by rw [hs]; exact zpow_pos (by norm_num) e
  have slow : 1 / 2 ^ 20 ≤ s := by
    rw [hs]
    have : (2 : Rat) ^ (-20 : Int) ≤ 2 ^ e := zpow_le_zpow_right₀ (by norm_num) he
    rwa [zpow_neg, ← one_div, zpow_ofNat] at this
  have mul : ∀ p ∈ pts, Mul s p.x ∧ Mul s p.y := fun p hp => by
    obtain ⟨⟨m, h1, -⟩, k, h2, -⟩ := h p hp
    rw [hs]; exact ⟨⟨m, h1⟩, k, h2⟩
  have bnd : ∀ p ∈ pts, |p.x| ≤ 2 ^ 20 * s ∧ |p.y| ≤ 2 ^ 20 * s := fun p hp => by
    obtain ⟨⟨m, h1, h1'⟩, k, h2, h2'⟩ := h p hp
    have c1 : |(m : Rat)| ≤ 2 ^ 20 := by exact_mod_cast h1'
    have c2 : |(k : Rat)| ≤ 2 ^ 20 := by exact_mod_cast h2'
    rw [h1, h2, ← hs, abs_mul, abs_mul, abs_of_pos s0]
    exact ⟨mul_le_mul_of_nonneg_right c1 s0.le, mul_le_mul_of_nonneg_right c2 s0.le⟩
  have hB : 2 ^ 20 * s ≤ 2 ^ 240 := by
    rw [hs]
    have : (2 : Rat) ^ (20 : Nat) * 2 ^ e ≤ 2 ^ (20 : Nat) * 2 ^ (220 : Int) := mul_le_mul_of_nonneg_left (zpow_le_zpow_right₀ (by norm_num) he') (by norm_num)
    refine le_trans this (le_of_eq ?_)
    rw [zpow_ofNat, ← pow_add]
  exact ⟨s, hs, s0, slow, mul, bnd, ⟨by norm_num at slow ⊢; linarith, hB⟩, he, he'⟩

theorem GridFacts.wide {e : Int} {s : Rat} {pts : List Point} (g : GridFacts e s pts) {x0 x1 y0 y1 : Rat} (box : BoundingBox pts x0 x1 y0 y1)
    (ox : x0 < x1) (oy : y0 < y1) : s ≤ x1 - x0 ∧ s ≤ y1 - y0 := by
  obtain ⟨hs, s0, slow, mul, bnd, hB, he, he'⟩ := g
  have mx0 : Mul s x0 := by obtain ⟨q, m, f⟩ := box.left; rw [← f]; exact (mul q m).1
  have mx1 : Mul s x1 := by obtain ⟨q, m, f⟩ := box.right; rw [← f]; exact (mul q m).1
  have my0 : Mul s y0 := by obtain ⟨q, m, f⟩ := box.bottom; rw [← f]; exact (mul q m).2
  have my1 : Mul s y1 := by obtain ⟨q, m, f⟩ := box.top; rw [← f]; exact (mul q m).2
  have ww : s ≤ x1 - x0 := by have := (mx1.sub mx0).ge s0 (by linarith); rwa [abs_of_pos (by linarith)] at this
  have hh : s ≤ y1 - y0 := by have := (my1.sub my0).ge s0 (by linarith); rwa [abs_of_pos (by linarith)] at this
  exact ⟨ww, hh⟩

/-- Triangles with an artificial corner are not too flat. -/
theorem GridFacts.tri {e : Int} {s : Rat} {pts : List Point} (g : GridFacts e s pts) {x0 x1 y0 y1 : Rat} (box : BoundingBox pts x0 x1 y0 y1)
    (ox : x0 < x1) (oy : y0 < y1) (hc : ClearOfCorners pts) {head tail : Point}
    (nl : Near (2 ^ 20 * s) head (cornerLeft x0 x1 y0 y1)) (nr : Near (2 ^ 20 * s) tail (cornerRight x0 x1 y0 y1)) (np : ∀ p ∈ pts, Near (2 ^ 20 * s) p p) :
    ∀ p ∈ pts ++ [head, tail], ∀ q ∈ pts ++ [head, tail], ∀ r ∈ pts ++ [head, tail], p ≠ q → q ≠ r → p ≠ r →
      (p ∈ pts ∧ q ∈ pts ∧ r ∈ pts) ∨ Agree n p q r ∧ n.eps < |det2 p q r| := by
  obtain ⟨hs, s0, slow, mul, bnd, hB, he, he'⟩ := g
  have C := hc _ _ _ _ box
  have mx0 : Mul s x0 := by obtain ⟨q, m, f⟩ := box.left; rw [← f]; exact (mul q m).1
  have mx1 : Mul s x1 := by obtain ⟨q, m, f⟩ := box.right; rw [← f]; exact (mul q m).1
  have my0 : Mul s y0 := by obtain ⟨q, m, f⟩ := box.bottom; rw [← f]; exact (mul q m).2
  have my1 : Mul s y1 := by obtain ⟨q, m, f⟩ := box.top; rw [← f]; exact (mul q m).2
  have ww : s ≤ x1 - x0 := by have := (mx1.sub mx0).ge s0 (by linarith); rwa [abs_of_pos (by linarith)] at this
  have hh : s ≤ y1 - y0 := by have := (my1.sub my0).ge s0 (by linarith); rwa [abs_of_pos (by linarith)] at this
  have marg : (2 ^ 20 * s) ^ 2 / 2 ^ 44 + 1 / 2 ^ 50 ≤ s * s / 10 := by
    have : 1 / 2 ^ 20 * (1 / 2 ^ 20) ≤ s * s := mul_le_mul slow slow (by norm_num) s0.le
    have e1 : (2 ^ 20 * s) ^ 2 / 2 ^ 44 = s * s / 16 := by ring
    rw [e1]
    norm_num at this ⊢
    linarith
  -- a corner and two input points
  have two_in : ∀ c : Point, Mul (s / 10) c.x → Mul (s / 10) c.y → ∀ a ∈ pts, ∀ b ∈ pts, det2 c a b ≠ 0 → s * s / 10 ≤ |det2 c a b| := by
    intro c c1 c2 a ha b hb hd
    have m1 := (mul a ha).1.sub (mul b hb).1
    have m2 := (mul a ha).2.sub (mul b hb).2
    have m3 := c1.sub (mul b hb).1.tenth
    have m4 := c2.sub (mul b hb).2.tenth
    have : Mul (s * (s / 10)) (det2 c a b) := by
      have e1 : det2 c a b = (a.y - b.y) * (c.x - b.x) - (a.x - b.x) * (c.y - b.y) := by unfold det2; ring
      rw [e1]; exact (m2.mul m3).sub (m1.mul m4)
    have := this.ge (by positivity) hd
    have e2 : s * (s / 10) = s * s / 10 := by ring
    rwa [e2] at this
  have cL : ∀ a ∈ pts, ∀ b ∈ pts, a ≠ b → s * s / 10 ≤ |det2 (cornerLeft x0 x1 y0 y1) a b| := fun a ha b hb hab =>
    two_in _ (mx0.tenth.sub (mx1.sub mx0).three) (my0.tenth.sub (my1.sub my0).three) a ha b hb (C a ha b hb hab).1
  have cR : ∀ a ∈ pts, ∀ b ∈ pts, a ≠ b → s * s / 10 ≤ |det2 (cornerRight x0 x1 y0 y1) a b| := fun a ha b hb hab =>
    two_in _ (mx1.tenth.add (mx1.sub mx0).three) (my0.tenth.sub (my1.sub my0).three) a ha b hb (C a ha b hb hab).2
  have cLR : ∀ a ∈ pts, s * s / 10 ≤ |det2 (cornerLeft x0 x1 y0 y1) (cornerRight x0 x1 y0 y1) a| := fun a ha => by
    have ia := box.inside a ha
    have e : det2 (cornerLeft x0 x1 y0 y1) (cornerRight x0 x1 y0 y1) a = 8 / 5 * ((x1 - x0) * (a.y - y0 + 3 / 10 * (y1 - y0))) := by
      simp only [det2, cornerLeft, cornerRight]; ring
    have k : s * (3 / 10 * s) ≤ (x1 - x0) * (a.y - y0 + 3 / 10 * (y1 - y0)) := mul_le_mul ww (by linarith) (by positivity) (by linarith)
    rw [e]
    refine le_trans ?_ (le_abs_self _)
    have : 0 < s * s := by positivity
    linarith
  have rotA : ∀ a b c : Point, |det2 b c a| = |det2 a b c| := fun a b c => by rw [det2_rotA]
  have rotB : ∀ a b c : Point, |det2 c a b| = |det2 a b c| := fun a b c => by rw [det2_rotB]
  have swp : ∀ a b c : Point, |det2 b a c| = |det2 a b c| := fun a b c => by rw [det2_swap, abs_neg]
  have tri : ∀ p ∈ pts ++ [head, tail], ∀ q ∈ pts ++ [head, tail], ∀ r ∈ pts ++ [head, tail], p ≠ q → q ≠ r → p ≠ r →
      (p ∈ pts ∧ q ∈ pts ∧ r ∈ pts) ∨ Agree n p q r ∧ n.eps < |det2 p q r| := by
    intro p hp q hq r hr n1 n2 n3
    rcases mem_run nl nr np hp with ⟨k1, a1⟩ | ⟨k1, a1⟩ | ⟨k1, a1⟩ <;> rcases mem_run nl nr np hq with ⟨k2, a2⟩ | ⟨k2, a2⟩ | ⟨k2, a2⟩ <;>
      rcases mem_run nl nr np hr with ⟨k3, a3⟩ | ⟨k3, a3⟩ | ⟨k3, a3⟩
    · exact .inl ⟨k1, k2, k3⟩
    · exact .inr (agree_of_near n hB.2 a1 a2 a3 (le_trans marg (by rw [← rotB]; exact cL p k1 q k2 n1)))
    · exact .inr (agree_of_near n hB.2 a1 a2 a3 (le_trans marg (by rw [← rotB]; exact cR p k1 q k2 n1)))
    · exact .inr (agree_of_near n hB.2 a1 a2 a3 (le_trans marg (by rw [← rotA]; exact cL r k3 p k1 n3.symm)))
    · exact absurd (k2.trans k3.symm) n2
    · exact .inr (agree_of_near n hB.2 a1 a2 a3 (le_trans marg (by rw [← rotA]; exact cLR p k1)))
    · exact .inr (agree_of_near n hB.2 a1 a2 a3 (le_trans marg (by rw [← rotA]; exact cR r k3 p k1 n3.symm)))
    · exact .inr (agree_of_near n hB.2 a1 a2 a3 (le_trans marg (by rw [← rotA, swp]; exact cLR p k1)))
    · exact absurd (k2.trans k3.symm) n2
    · exact .inr (agree_of_near n hB.2 a1 a2 a3 (le_trans marg (cL q k2 r k3 n2)))
    · exact absurd (k1.trans k3.symm) n3
    · exact .inr (agree_of_near n hB.2 a1 a2 a3 (le_trans marg (by rw [swp, ← rotA]; exact cLR q k2)))
    · exact absurd (k1.trans k2.symm) n1
    · exact absurd (k1.trans k2.symm) n1
    · exact absurd (k1.trans k2.symm) n1
    · exact .inr (agree_of_near n hB.2 a1 a2 a3 (le_trans marg (cLR r k3)))
    · exact absurd (k1.trans k3.symm) n3
    · exact absurd (k2.trans k3.symm) n2
    · exact .inr (agree_of_near n hB.2 a1 a2 a3 (le_trans marg (cR q k2 r k3 n2)))
    · exact .inr (agree_of_near n hB.2 a1 a2 a3 (le_trans marg (by rw [← rotB]; exact cLR q k2)))
    · exact absurd (k1.trans k3.symm) n3
    · exact .inr (agree_of_near n hB.2 a1 a2 a3 (le_trans marg (by rw [swp]; exact cLR r k3)))
    · exact absurd (k2.trans k3.symm) n2
    · exact absurd (k1.trans k3.symm) n3
    · exact absurd (k1.trans k2.symm) n1
    · exact absurd (k1.trans k2.symm) n1
    · exact absurd (k1.trans k2.symm) n1
  exact tri

/-- Triangles with corners on the grid are computed without error. -/
theorem GridFacts.inp {e : Int} {s : Rat} {pts : List Point} (g : GridFacts e s pts) : ∀ p ∈ pts, ∀ q ∈ pts, ∀ r ∈ pts,
    Agree n p q r ∧ (det2 p q r ≠ 0 → n.eps < |det2 p q r|) := by
  obtain ⟨hs, s0, slow, mul, bnd, hB, he, he'⟩ := g
  have inp : ∀ p ∈ pts, ∀ q ∈ pts, ∀ r ∈ pts, Agree n p q r ∧ (det2 p q r ≠ 0 → n.eps < |det2 p q r|) := by
    intro p hp q hq r hr
    have ex := grid_exact n (e := e) he he' (by rw [← hs]; exact mul p hp) (by rw [← hs]; exact mul q hq) (by rw [← hs]; exact mul r hr)
      (by rw [← hs]; exact bnd p hp) (by rw [← hs]; exact bnd q hq) (by rw [← hs]; exact bnd r hr)
    have md : Mul (s * s) (det2 p q r) :=
      (((mul p hp).1.sub (mul r hr).1).mul ((mul q hq).2.sub (mul r hr).2)).sub (((mul p hp).2.sub (mul r hr).2).mul ((mul q hq).1.sub (mul r hr).1))
    have big : n.eps < s * s := by
      have : 1 / 2 ^ 20 * (1 / 2 ^ 20) ≤ s * s := mul_le_mul slow slow (by norm_num) s0.le
      rw [f64_eps n]; norm_num at this ⊢; linarith
    refine ⟨?_, fun hd => lt_of_lt_of_le big (md.ge (by positivity) hd)⟩
    unfold Agree
    rw [ex]
    rcases lt_trichotomy (det2 p q r) 0 with k | k | k
    · have := md.ge (by positivity) k.ne
      rw [abs_of_neg k] at this
      exact .inl ⟨k, by linarith⟩
    · exact .inr (.inr ⟨k, k⟩)
    · have := md.ge (by positivity) k.ne'
      rw [abs_of_pos k] at this
      exact .inr (.inl ⟨k, by linarith⟩)
  exact inp

/-- Different abscissae on the grid stay in order when `EPSILON` is added. -/
theorem OnGrid.apart_eps {e : Int} {pts : List Point} (h : OnGrid e pts) (he : -20 ≤ e) (he' : e ≤ 220) :
    ∀ p ∈ pts, ∀ q ∈ pts, q.x < p.x → n.rnd (q.x + n.eps) < p.x := by
  have two : (2 : Rat) ≠ 0 := by norm_num
  obtain ⟨s, hs, s0, slow, mul, bnd, hB, -, -⟩ := h.facts he he'
  intro p hp q hq hlt
  obtain ⟨m, hm⟩ := (mul q hq).1
  have gap := ((mul p hp).1.sub (mul q hq).1).ge s0 (by linarith)
  rw [abs_of_pos (by linarith)] at gap
  have half : Mul ((2 : Rat) ^ (e - 1)) (q.x + s / 2) := ⟨2 * m + 1, by
    rw [hm, hs, zpow_sub₀ two]; push_cast; field_simp⟩
  have bq := (bnd q hq).1
  have fl : IsF64 (q.x + s / 2) := half.float (by
    rw [zpow_sub₀ two, ← hs]
    refine le_trans (abs_add_le _ _) ?_
    rw [abs_of_pos (by positivity : 0 < s / 2)]
    norm_num at bq ⊢
    linarith) (by omega) (by omega)
  have ep : n.eps ≤ s / 2 := by rw [f64_eps n]; norm_num at slow ⊢; linarith
  have := f64_mono n (x := q.x + n.eps) (y := q.x + s / 2) (far_eps n (le_trans bq hB.2)) (by
    have e1 : (2 : Rat) ^ 240 + 2 ^ 240 ≤ 2 ^ 241 := by norm_num
    refine le_trans (abs_add_le _ _) (le_trans (le_trans (add_le_add (le_trans bq hB.2) ?_) e1) (pow_le_pow_right₀ (by norm_num) (by norm_num)))
    rw [abs_of_pos (by positivity : 0 < s / 2)]
    refine le_trans ?_ hB.2
    norm_num; linarith) (by linarith)
  rw [f64_fix n fl] at this
  linarith

/-- Points on a binary grid satisfy all numeric hypotheses. -/
theorem OnGrid.fine {e : Int} {pts : List Point} (h : OnGrid e pts) (he : -20 ≤ e) (he' : e ≤ 220) (hc : ClearOfCorners pts)
    (hnd : pts.Nodup) (h2 : 2 ≤ pts.length) (hsz : pts.length + 2 ≤ 2 ^ 32) :
    FineInput n pts ∧ ScanComplete n (withArtificial n pts) ∧ EpsUp n pts ∧ (GeneralPosition pts → GeneralPosition (withArtificial n pts)) := by
  have hne : pts ≠ [] := by rintro rfl; simp at h2
  have two : (2 : Rat) ≠ 0 := by norm_num
  obtain ⟨s, g⟩ := h.facts he he'
  obtain ⟨head, tail, x0, x1, y0, y1, hall, hL, hR, box, nl, nr, np⟩ := run_near n hne g.bnd g.hB
  obtain ⟨ox, oy⟩ := box_open box (ne_pair hnd h2) hc
  have tri := g.tri n box ox oy hc nl nr np
  have inp := g.inp n
  obtain ⟨ww, hh⟩ := g.wide box ox oy
  have hap := h.apart_eps n he he'
  obtain ⟨hs, s0, slow, mul, bnd, hB, he, he'⟩ := g
  obtain ⟨f1, f2, f3⟩ := fine_of_agree n hne hnd hsz hall hL hR box nl nr
    (by norm_num; linarith) (by norm_num; linarith)
    (fun p hp => by
      have k := (mul p hp).1
      rw [hs] at k
      refine k.float (le_trans (bnd p hp).1 ?_) (by omega) (by omega)
      rw [← hs]; exact mul_le_mul_of_nonneg_right (by norm_num) s0.le)
    (fun p hp => le_trans (bnd p hp).1 hB.2)
    hap
    (by
      intro p hp q hq r hr
      by_cases n1 : p = q
      · exact agree_eq n (.inl n1)
      · by_cases n2 : q = r
        · exact agree_eq n (.inr (.inl n2))
        · by_cases n3 : p = r
          · exact agree_eq n (.inr (.inr n3))
          · rcases tri p hp q hq r hr n1 n2 n3 with k | k
            · exact (inp p k.1 q k.2.1 r k.2.2).1
            · exact k.1)
  refine ⟨f1, f2, f3, fun hg => ?_⟩
  rw [hall]
  intro p hp q hq r hr n1 n2 n3
  rcases tri p hp q hq r hr n1 n2 n3 with k | k
  · exact hg p k.1 q k.2.1 r k.2.2 n1 n2 n3
  · exact abs_pos.1 (lt_trans (f64_eps_pos n) k.2)

theorem OnGrid.mul {e : Int} {pts : List Point} (h : OnGrid e pts) {p : Point} (hp : p ∈ pts) :
    (Mul ((2 : Rat) ^ e) p.x ∧ Mul ((2 : Rat) ^ e) p.y) ∧ |p.x| ≤ 2 ^ 20 * 2 ^ e ∧ |p.y| ≤ 2 ^ 20 * 2 ^ e := by
  have pe : (0 : Rat) < 2 ^ e := zpow_pos (by norm_num) e
  obtain ⟨⟨m, h1, h1'⟩, k, h2, h2'⟩ := h p hp
  have c1 : |(m : Rat)| ≤ 2 ^ 20 := by exact_mod_cast h1'
  have c2 : |(k : Rat)| ≤ 2 ^ 20 := by exact_mod_cast h2'
  refine ⟨⟨⟨m, h1⟩, k, h2⟩, ?_⟩
  rw [h1, h2, abs_mul, abs_mul, abs_of_pos pe]
  exact ⟨mul_le_mul_of_nonneg_right c1 pe.le, mul_le_mul_of_nonneg_right c2 pe.le⟩

/-- Three tenths of the width, exact. -/
theorem tenth_exact [Tenths n] {e : Int} (he : -20 ≤ e) (he' : e ≤ 220) {a b : Rat} (ha : Mul ((2 : Rat) ^ e) a) (hb : Mul ((2 : Rat) ^ e) b) (ba : |a| ≤ 2 ^ 20 * 2 ^ e) (bb : |b| ≤ 2 ^ 20 * 2 ^ e)
    (hab : a ≤ b) (hc : Mul ((2 : Rat) ^ e) (a - 3 / 10 * (b - a))) : n.rnd (n.rnd (b - a) * n.k03) = 3 / 10 * (b - a) := by
  have pe : (0 : Rat) < 2 ^ e := zpow_pos (by norm_num) e
  rw [abs_le] at ba bb
  have hw : |b - a| ≤ 2 ^ 52 * 2 ^ e := by rw [abs_le]; norm_num at *; constructor <;> linarith
  rw [f64_fix n ((hb.sub ha).float hw (by omega) (by omega))]
  obtain ⟨c, hc⟩ := ha.sub hc
  obtain ⟨w, hw'⟩ := hb.sub ha
  have e1 : (3 * w : Rat) = 10 * c := by
    have : (3 / 10 * w - c) * (2 : Rat) ^ e = 0 := by rw [hw'] at hc; linarith
    rcases mul_eq_zero.1 this with k | k
    · linarith
    · exact absurd k pe.ne'
  have e2 : 3 * w = 10 * c := by exact_mod_cast e1
  obtain ⟨j, rfl⟩ : ∃ j : Int, w = 10 * j := ⟨w / 10, by omega⟩
  have w0 : 0 ≤ j := by
    by_contra k
    have : ((10 * j : Int) : Rat) < 0 := by exact_mod_cast (show 10 * j < 0 by omega)
    have := mul_neg_of_neg_of_pos this pe
    linarith
  have w1 : j ≤ 2 ^ 20 := by
    by_contra k
    have : (2 ^ 21 : Rat) < ((10 * j : Int) : Rat) := by exact_mod_cast (show 2 ^ 21 < 10 * j by omega)
    have := mul_lt_mul_of_pos_right this pe
    norm_num at *
    linarith
  have := Tenths.ten (n := n) e j he he' w0 w1
  rw [hw']
  push_cast
  rw [this]; ring

theorem run_exact [Tenths n] {e : Int} {pts : List Point} (h : OnGrid e pts) (he : -20 ≤ e) (he' : e ≤ 220) (hne : pts ≠ []) (hc : CornersOnGrid e pts) :
    ∃ x0 x1 y0 y1, withArtificial n pts = pts ++ [cornerLeft x0 x1 y0 y1, cornerRight x0 x1 y0 y1] ∧ BoundingBox pts x0 x1 y0 y1 := by
  obtain ⟨s, g⟩ := h.facts he he'
  obtain ⟨head, tail, x1, x0, y1, y0, h1, h2, h3, h4, h5⟩ := ctx_points n pts []
  obtain ⟨⟨a, ha, ea⟩, ⟨b, hb', eb⟩, ⟨c, hc', ec⟩, ⟨d, hd, ed⟩⟩ := h5 hne (fun p hp => by
    have := g.bnd p hp
    have hB : 2 ^ 20 * s ≤ 2 ^ 500 := le_trans g.hB.2 (pow_le_pow_right₀ (by norm_num) (by norm_num))
    have hi : 2 ^ 20 * s ≤ n.hi := le_trans hB F64Like.hi
    have lo : n.lo ≤ -(2 ^ 20 * s) := le_trans F64Like.lo (neg_le_neg hB)
    rw [abs_le, abs_le] at this
    exact ⟨⟨by linarith, by linarith⟩, by linarith, by linarith⟩)
  have box : BoundingBox pts x0 x1 y0 y1 := ⟨h4, ⟨b, hb', eb.symm⟩, ⟨a, ha, ea.symm⟩, ⟨d, hd, ed.symm⟩, ⟨c, hc', ec.symm⟩⟩
  have G := hc _ _ _ _ box
  have gl := G.mul (p := cornerLeft x0 x1 y0 y1) (by simp)
  have gr := G.mul (p := cornerRight x0 x1 y0 y1) (by simp)
  have ga := h.mul ha
  have gb := h.mul hb'
  have gc := h.mul hc'
  have gd := h.mul hd
  rw [← ea] at ga; rw [← eb] at gb; rw [← ec] at gc; rw [← ed] at gd
  have pe : (0 : Rat) < 2 ^ e := zpow_pos (by norm_num) e
  have tx := tenth_exact n he he' gb.1.1 ga.1.1 gb.2.1 ga.2.1 (by have := h4 a ha; linarith) gl.1.1
  have ty := tenth_exact n he he' gd.1.2 gc.1.2 gd.2.2 gc.2.2 (by have := h4 a ha; linarith) gl.1.2
  have fix : ∀ z : Rat, Mul ((2 : Rat) ^ e) z → |z| ≤ 2 ^ 20 * 2 ^ e → n.rnd z = z := fun z m b =>
    f64_fix n (m.float (le_trans b (mul_le_mul_of_nonneg_right (by norm_num) pe.le)) (by omega) (by omega))
  have e1 : head = cornerLeft x0 x1 y0 y1 := by
    rw [h2, tx, ty]
    exact congrArg₂ Point.mk (fix _ gl.1.1 gl.2.1) (fix _ gl.1.2 gl.2.2)
  have e2 : tail = cornerRight x0 x1 y0 y1 := by
    rw [h3, tx, ty]
    exact congrArg₂ Point.mk (fix _ gr.1.1 gr.2.1) (fix _ gr.1.2 gr.2.2)
  exact ⟨x0, x1, y0, y1, by rw [withArtificial, h1, List.append_assoc, e1, e2]; rfl, box⟩

theorem BoundingBox.unique {pts : List Point} {x0 x1 y0 y1 x0' x1' y0' y1' : Rat} (h : BoundingBox pts x0 x1 y0 y1) (h' : BoundingBox pts x0' x1' y0' y1') :
    x0 = x0' ∧ x1 = x1' ∧ y0 = y0' ∧ y1 = y1' := by
  obtain ⟨i, ⟨a, ma, ea⟩, ⟨b, mb, eb⟩, ⟨c, mc, ec⟩, ⟨d, md, ed⟩⟩ := h
  obtain ⟨i', ⟨a', ma', ea'⟩, ⟨b', mb', eb'⟩, ⟨c', mc', ec'⟩, ⟨d', md', ed'⟩⟩ := h'
  refine ⟨le_antisymm ?_ ?_, le_antisymm ?_ ?_, le_antisymm ?_ ?_, le_antisymm ?_ ?_⟩
  · rw [← ea']; exact (i _ ma').1
  · rw [← ea]; exact (i' _ ma).1
  · rw [← eb]; exact (i' _ mb).2.1
  · rw [← eb']; exact (i _ mb').2.1
  · rw [← ec']; exact (i _ mc').2.2.1
  · rw [← ec]; exact (i' _ mc).2.2.1
  · rw [← ed]; exact (i' _ md).2.2.2
  · rw [← ed']; exact (i _ md').2.2.2

/-- Points on a grid that contains the corners of the enlarged box satisfy all numeric hypotheses. -/
theorem OnGrid.fine_round [Tenths n] {e : Int} {pts : List Point} (h : OnGrid e pts) (he : -20 ≤ e) (he' : e ≤ 220) (hc : CornersOnGrid e pts)
    (hopen : ∀ x0 x1 y0 y1, BoundingBox pts x0 x1 y0 y1 → x0 < x1 ∧ y0 < y1)
    (hnd : pts.Nodup) (h2 : 2 ≤ pts.length) (hsz : pts.length + 2 ≤ 2 ^ 32) :
    FineInput n pts ∧ ScanComplete n (withArtificial n pts) ∧ EpsUp n pts := by
  have hne : pts ≠ [] := by rintro rfl; simp at h2
  obtain ⟨s, g⟩ := h.facts he he'
  obtain ⟨head, tail, x0, x1, y0, y1, hall, hL, hR, box, nl, nr, np⟩ := run_near n hne g.bnd g.hB
  obtain ⟨x0', x1', y0', y1', hall', box'⟩ := run_exact n h he he' hne hc
  obtain ⟨rfl, rfl, rfl, rfl⟩ := box.unique box'
  have eq := hall.symm.trans hall'
  rw [List.append_cancel_left_eq, List.cons.injEq, List.cons.injEq] at eq
  obtain ⟨rfl, rfl, -⟩ := eq
  obtain ⟨ox, oy⟩ := hopen _ _ _ _ box
  have all : OnGrid e (pts ++ [cornerLeft x0 x1 y0 y1, cornerRight x0 x1 y0 y1]) := by
    intro p hp
    rcases List.mem_append.1 hp with k | k
    · exact h p k
    · exact hc _ _ _ _ box p k
  obtain ⟨s', g'⟩ := all.facts he he'
  have inp := g'.inp n
  obtain ⟨ww, hh⟩ := g.wide box ox oy
  have hap := h.apart_eps n he he'
  obtain ⟨hs, s0, slow, mul, bnd, hB, he, he'⟩ := g
  exact fine_of_agree n hne hnd hsz hall hL hR box nl nr
    (by norm_num; linarith) (by norm_num; linarith)
    (fun p hp => by
      have k := (mul p hp).1
      rw [hs] at k
      refine k.float (le_trans (bnd p hp).1 ?_) (by omega) (by omega)
      rw [← hs]; exact mul_le_mul_of_nonneg_right (by norm_num) s0.le)
    (fun p hp => le_trans (bnd p hp).1 hB.2)
    hap (fun p hp q hq r hr => (inp p hp q hq r hr).1)

end

end P2T
