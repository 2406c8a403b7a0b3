import Verif.Proofs.FloatSign
import Verif.Spec.Float32

/-!
# Error analysis of the plain float computations of the crate, `f32`

The development follows `Proofs/FloatSign`, with the constants of `f32`.
-/

namespace P2T.F32

theorem f32Max_ge : (2 : Rat) ^ 120 ≤ f32Max := by unfold f32Max; rw [pow2_eq, pow2_eq]; norm_num

theorem f32Max_nonneg : 0 ≤ f32Max := le_trans (by norm_num) f32Max_ge

theorem f32_hi : (2 : Rat) ^ 100 ≤ f32Max := le_trans (by norm_num) f32Max_ge

theorem f32_k03_eq (ov : Rat → Rat) : (f32With ov).k03 = 10066330 / 2 ^ 25 := by show mkRat 10066330 (2 ^ 25) = _; rw [Rat.mkRat_eq_div]; norm_num

/-- Far from overflow. -/
theorem f32_in (ov : Rat → Rat) {x : Rat} (h : |x| ≤ 2 ^ 120) : (f32With ov).rnd x = roundGradual 24 (-149) x := by
  have e : roundGradual 24 (-149) ((2 : Rat) ^ 120) = 2 ^ 120 :=
    roundGradual_exact (by norm_num) (m := 1) (k := 120) (by rw [zpow_ofNat]; simp) (by norm_num) (by norm_num)
  rw [abs_le] at h
  have a := roundGradual_mono (bits := 24) (by norm_num) (-149) h.2
  have b := roundGradual_mono (bits := 24) (by norm_num) (-149) h.1
  rw [roundGradual_neg] at b
  rw [e] at a b
  exact roundIEEE_in ⟨le_trans (neg_le_neg f32Max_ge) b, le_trans a f32Max_ge⟩

/-- The numbers of the format are not too large. -/
theorem IsF32.le_max {x : Rat} (h : IsF32 x) : |x| ≤ f32Max := by
  obtain ⟨m, k, rfl, hm, -, hk⟩ := h
  have pk : (0 : Rat) < 2 ^ k := zpow_pos (by norm_num) k
  have e : f32Max = (2 ^ 24 - 1) * 2 ^ (104 : Int) := by
    unfold f32Max
    rw [pow2_eq, pow2_eq]; norm_num
  have hm' : |(m : Rat)| ≤ 2 ^ 24 - 1 := by
    have : |m| ≤ 2 ^ 24 - 1 := by omega
    exact_mod_cast this
  rw [e, abs_mul, abs_of_pos pk]
  exact mul_le_mul hm' (zpow_le_zpow_right₀ (by norm_num) hk) pk.le (by norm_num)

theorem IsF32.gradual {x : Rat} (h : IsF32 x) : roundGradual 24 (-149) x = x := by
  obtain ⟨m, k, h1, h2, h3, -⟩ := h
  exact roundGradual_exact (by norm_num) h1 h2.le h3

instance f32Like_f32With (ov : Rat → Rat) : F32Like (f32With ov) where
  err x hx := by
    rw [f32_in ov hx]
    have := roundGradual_err (bits := 24) (by norm_num) (-149) x
    have e : (2 : Rat) ^ (-((24 : Nat) : Int)) = 1 / 2 ^ 24 := by rw [zpow_neg, zpow_natCast]; norm_num
    rw [e] at this
    have e2 : (2 : Rat) ^ (-149 : Int) ≤ 1 / 2 ^ 140 := by norm_num
    have e3 : (0 : Rat) < 2 ^ (-149 : Int) := zpow_pos (by norm_num) _
    generalize (2 : Rat) ^ (-149 : Int) = z at *
    generalize (1 : Rat) / 2 ^ 140 = y at *
    linarith
  mono x y hx hy h := by
    rw [f32_in ov hx, f32_in ov hy]
    exact roundGradual_mono (by norm_num) _ h
  fix x h := by
    have e := IsF32.gradual h
    have k := abs_le.1 (IsF32.le_max h)
    show roundIEEE 24 (-149) f32Max ov x = x
    rw [roundIEEE_in (by rw [e]; exact k), e]
  eps := by show pow2 (-23) = _; rw [pow2_eq]; norm_num
  k03 := by rw [f32_k03_eq, abs_le]; norm_num
  hi := f32_hi
  lo := neg_le_neg f32_hi

instance : F32Like f32 := f32Like_f32With _

theorem realNum32_k03_eq : realNum32.k03 = 3 / 10 := rfl

instance : F32Like realNum32 where
  err x _ := by
    show |x - x| ≤ _
    rw [sub_self, abs_zero]; positivity
  mono x y _ _ h := h
  fix x _ := rfl
  eps := F32Like.eps (n := f32)
  k03 := by rw [realNum32_k03_eq, sub_self, abs_zero]; positivity
  hi := F32Like.hi (n := f32)
  lo := F32Like.lo (n := f32)

instance : Tenths32 realNum32 where
  ten w _ _ _ := by rw [realNum32_k03_eq]; show w * (3 / 10) = _; ring

/-- Rounding down to an even integer, ties included. -/
theorem roundEven_down {N : Nat} (hN : N % 2 = 0) {x : Rat} (h1 : N ≤ x) (h2 : x ≤ N + 1 / 2) : roundEven x = N := by
  have n0 : (0 : Rat) ≤ N := by positivity
  obtain ⟨f, r, hr, hq, he⟩ := roundEven_spec (le_trans n0 h1)
  have hd : (0 : Rat) < x.den := by exact_mod_cast x.den_pos
  generalize hx : (r : Rat) / x.den = y at hq
  have hx0 : (r : Rat) = y * x.den := by rw [← hx]; field_simp
  have y0 : 0 ≤ y := by rw [← hx]; positivity
  have y1 : y < 1 := by
    have : (r : Rat) < x.den := by exact_mod_cast hr
    rw [hx0] at this; nlinarith
  have a1 : (f : Rat) < N + 1 := by linarith
  have a2 : (N : Rat) < f + 1 := by linarith
  have b1 : f < N + 1 := by exact_mod_cast a1
  have b2 : N < f + 1 := by exact_mod_cast a2
  have e : f = N := by omega
  subst e
  have hy : y ≤ 1 / 2 := by linarith
  have : 2 * (r : Rat) ≤ x.den := by rw [hx0]; nlinarith
  have : 2 * r ≤ x.den := by exact_mod_cast this
  rw [he]
  split
  · rfl
  · rw [if_neg (by omega)]
    try simp [hN]

instance tenths_f32With (ov : Rat → Rat) : Tenths32 (f32With ov) where
  ten w hw hlo hup := by
    obtain ⟨j, k, i, rfl, h1, h2, h3⟩ := hw
    have two : (2 : Rat) ≠ 0 := by norm_num
    have pos : ∀ z : Int, (0 : Rat) < 2 ^ z := fun z => zpow_pos (by norm_num) z
    have i0 : (0 : Int) < 2 ^ i := by positivity
    have j0 : 0 < j := by omega
    have q1 : (2 : Rat) ^ i ≤ 3 * j := by exact_mod_cast h1
    have q2 : 2 * (3 * (j : Rat)) ≤ 3 * 2 ^ i := by exact_mod_cast h2
    have ip : (0 : Rat) < 2 ^ i := by positivity
    rw [f32_k03_eq]
    have y0 : (0 : Rat) < j * 2 ^ k := mul_pos (by exact_mod_cast j0) (pos k)
    have qpos : 0 < 10 * (j : Rat) * 2 ^ k * (10066330 / 2 ^ 25) := by positivity
    have big : 10 * (j : Rat) * 2 ^ k * (10066330 / 2 ^ 25) ≤ 2 ^ 120 := by norm_num at hup ⊢; linarith
    have lo : (2 : Rat) ^ ((-149 : Int) + (24 : Nat) - 1) ≤ 10 * (j : Rat) * 2 ^ k * (10066330 / 2 ^ 25) := by
      have : (2 : Rat) ^ ((-149 : Int) + (24 : Nat) - 1) ≤ 1 / 2 ^ 30 := by norm_num
      norm_num at hlo this ⊢; linarith
    rw [f32_in ov (by rw [abs_of_pos qpos]; exact big), roundGradual_large (by rw [abs_of_pos qpos]; exact lo)]
    obtain ⟨E, e1, e2, e3⟩ := roundTo_pos (bits := 24) (by norm_num) qpos
    have q_eq : 10 * (j : Rat) * 2 ^ k * (10066330 / 2 ^ 25) = (1 + 1 / 25165824) * (3 * j * 2 ^ k) := by norm_num; ring
    rw [q_eq] at e1 e2 e3 ⊢
    have ik : (2 : Rat) ^ i * 2 ^ k = 2 ^ ((i : Int) + k) := by rw [zpow_add₀ two, zpow_natCast]
    have l1 : (2 : Rat) ^ ((i : Int) + k) ≤ 3 * j * 2 ^ k := by rw [← ik]; exact mul_le_mul_of_nonneg_right q1 (pos k).le
    have l2 : 2 * (3 * j * 2 ^ k) ≤ 3 * (2 : Rat) ^ ((i : Int) + k) := by
      rw [← ik]; have := mul_le_mul_of_nonneg_right q2 (pos k).le; linarith
    have pik := pos (i + k)
    have hE : E = i + k - 23 := by
      have c1 : (2 : Rat) ^ (23 + E) < 2 ^ ((i : Int) + k + 1) := by
        rw [zpow_add₀ two _ 1, zpow_one]
        norm_num at e1
        have : (2 : Rat) ^ (23 + E) ≤ 25165825 / 25165824 * (3 * j * 2 ^ k) := by convert e1 using 2
        linarith
      have c2 : (2 : Rat) ^ ((i : Int) + k) < 2 ^ (24 + E) := by
        norm_num at e2
        linarith
      have d1 := (zpow_lt_zpow_iff_right₀ (by norm_num : (1 : Rat) < 2)).1 c1
      have d2 := (zpow_lt_zpow_iff_right₀ (by norm_num : (1 : Rat) < 2)).1 c2
      omega
    obtain ⟨J, hJ⟩ := Int.eq_ofNat_of_zero_le j0.le
    obtain ⟨d, hd⟩ : ∃ d, 23 - i = d + 1 := ⟨22 - i, by omega⟩
    have kE : (2 : Rat) ^ k * 2 ^ (-E) = 2 * 2 ^ d := by
      rw [← zpow_add₀ two, show k + -E = ((d + 1 : Nat) : Int) by omega, zpow_natCast, pow_succ]; ring
    have id : (2 : Rat) ^ i * (2 * 2 ^ d) = 2 ^ 23 := by
      rw [show (2 : Rat) * 2 ^ d = 2 ^ (d + 1) by rw [pow_succ]; ring, ← pow_add]; congr 1; omega
    have xe : (1 + 1 / 25165824) * (3 * (j : Rat) * 2 ^ k) * 2 ^ (-E) = (1 + 1 / 25165824) * ((2 * (3 * J * 2 ^ d) : Nat) : Rat) := by
      rw [mul_assoc _ (3 * (j : Rat) * 2 ^ k), mul_assoc (3 * (j : Rat)), kE, hJ]; push_cast; ring
    have Nb : ((2 * (3 * J * 2 ^ d) : Nat) : Rat) ≤ 12582912 := by
      have := mul_le_mul_of_nonneg_right q2 (show (0 : Rat) ≤ 2 * 2 ^ d by positivity)
      rw [mul_assoc 3, id, hJ] at this
      push_cast at this ⊢
      norm_num at this
      linarith
    rw [e3, xe, roundEven_down (N := 2 * (3 * J * 2 ^ d)) (by omega)]
    · have : (2 : Rat) ^ k = 2 * 2 ^ d * 2 ^ E := by
        rw [← kE, mul_assoc, ← zpow_add₀ two]; simp
      rw [this, hJ]; push_cast; ring
    · have : (0 : Rat) ≤ ((2 * (3 * J * 2 ^ d) : Nat) : Rat) := by positivity
      linarith
    · linarith

instance : Tenths32 f32 := tenths_f32With _

section
variable (n : Num) [F32Like n]

theorem f32_err {x : Rat} (h : |x| ≤ 2 ^ 120) : |n.rnd x - x| ≤ 1 / 2 ^ 24 * |x| + 1 / 2 ^ 140 := F32Like.err x h
theorem f32_mono {x y : Rat} (hx : |x| ≤ 2 ^ 120) (hy : |y| ≤ 2 ^ 120) (h : x ≤ y) : n.rnd x ≤ n.rnd y := F32Like.mono x y hx hy h
theorem f32_fix {x : Rat} (h : IsF32 x) : n.rnd x = x := F32Like.fix x h
theorem f32_zero : n.rnd 0 = 0 := f32_fix n ⟨0, 0, by simp, by norm_num, by norm_num, by norm_num⟩
theorem f32_eps : n.eps = 1 / 2 ^ 23 := F32Like.eps
theorem f32_k03 : |n.k03 - 3 / 10| ≤ 1 / 2 ^ 26 := F32Like.k03

omit [F32Like n] in
/-- The magnitudes that occur: `D` for the coordinates, `δ` and `η` for underflow, `Z` for overflow. -/
theorem magnitudes : ∃ δ : Rat, 0 < δ ∧ (1 : Rat) / 2 ^ 140 ≤ 1 / 2 ^ 24 * δ ∧ δ * 2 ^ 50 ≤ 1 / 2 ^ 60 ∧ δ ≤ 1 / 2 ^ 60 ∧ (1 : Rat) / 2 ^ 140 ≤ 1 / 2 ^ 60 ∧
    8 * ((2 : Rat) ^ 50) ^ 2 ≤ 2 ^ 120 ∧ (2 : Rat) ^ 40 ≤ 2 ^ 50 ∧ 16 * (2 : Rat) ^ 50 ≤ 2 ^ 120 := by
  exact ⟨1 / 2 ^ 116, by norm_num, by norm_num, by norm_num, by norm_num, by norm_num, by norm_num, by norm_num, by norm_num⟩

/-- Two rounded factors, rounded product. -/
theorem prod_err {a b D : Rat} (ha : |a| ≤ D) (hb : |b| ≤ D) (hD : D ≤ 2 ^ 50) : |n.rnd (n.rnd a * n.rnd b) - a * b| ≤ 4 / 2 ^ 24 * D ^ 2 + 1 / 2 ^ 55 := by
  have D0 : 0 ≤ D := le_trans (abs_nonneg _) ha
  obtain ⟨δ, δ0, m1, m2, m3, m4, m5, m6, m7⟩ := magnitudes
  have DZ : D ≤ 2 ^ 120 := le_trans hD (pow_le_pow_right₀ (by norm_num) (by norm_num))
  have ea := f32_err n (le_trans ha DZ)
  have eb := f32_err n (le_trans hb DZ)
  have ep := f32_err n (x := n.rnd a * n.rnd b)
  have g2 : δ * D ≤ 1 / 2 ^ 60 := le_trans (mul_le_mul_of_nonneg_left hD δ0.le) m2
  generalize n.rnd (n.rnd a * n.rnd b) = p at *
  generalize n.rnd a = a' at *
  generalize n.rnd b = b' at *
  generalize hη : (1 : Rat) / 2 ^ 140 = η at *
  generalize (2 : Rat) ^ 120 = Z at *
  generalize (2 : Rat) ^ 50 = W at *
  clear hη
  set u : Rat := 1 / 2 ^ 24 with hu
  have u0 : 0 < u := by rw [hu]; norm_num
  have u1 : 3 * u + u ^ 2 ≤ 1 := by rw [hu]; norm_num
  obtain ⟨E, hE⟩ : ∃ E, E = D + δ := ⟨_, rfl⟩
  have E0 : 0 ≤ E := by linarith
  have DE : D ≤ E := by linarith
  have W1 : (1 : Rat) ≤ W := le_trans (by norm_num) m6
  have EW : E ≤ 5 / 4 * W := by norm_num at m3; linarith
  have da : |a' - a| ≤ u * E := by
    have := mul_le_mul_of_nonneg_left ha u0.le
    rw [hE, mul_add]; linarith
  have db : |b' - b| ≤ u * E := by
    have := mul_le_mul_of_nonneg_left hb u0.le
    rw [hE, mul_add]; linarith
  replace ha : |a| ≤ E := le_trans ha DE
  replace hb : |b| ≤ E := le_trans hb DE
  have last : 4 * u * E ^ 2 + η ≤ 4 * u * D ^ 2 + 1 / 2 ^ 55 := by
    have e1 : E ^ 2 = D ^ 2 + (2 * (δ * D) + δ * δ) := by rw [hE]; ring
    have e2 : δ * δ ≤ 1 / 2 ^ 60 := le_trans (mul_le_mul m3 m3 δ0.le (by norm_num)) (by norm_num)
    have e3 : 2 * (δ * D) + δ * δ ≤ 3 / 2 ^ 60 := by linarith
    have e4 := mul_le_mul_of_nonneg_left e3 (by linarith : 0 ≤ 4 * u)
    rw [e1, mul_add (4 * u)]
    have e5 : 4 * u * (3 / 2 ^ 60) ≤ 1 / 2 ^ 60 := by rw [hu]; norm_num
    norm_num at e5 m4 ⊢
    linarith
  have e4' : (4 : Rat) / 2 ^ 24 = 4 * u := by rw [hu]; norm_num
  rw [e4']
  refine le_trans ?_ last
  have up2 : ((1 + u) * E) * ((1 + u) * E) ≤ Z := by
    have k1 : (1 + u) * E ≤ 2 * W := by
      have : (1 + u) * E ≤ (1 + u) * (5 / 4 * W) := mul_le_mul_of_nonneg_left EW (by linarith)
      have : u ≤ 1 / 10 := by rw [hu]; norm_num
      nlinarith
    have := mul_le_mul k1 k1 (by positivity) (by linarith)
    nlinarith
  clear hE last m1 m2 m3 m4 m5 m6 m7 g2 hD DZ
  generalize D = D₀ at *
  clear DE D0 D₀
  rename' E => D, E0 => D0
  have na : |a'| ≤ (1 + u) * D := by
    calc |a'| = |a + (a' - a)| := by ring_nf
      _ ≤ |a| + |a' - a| := abs_add_le _ _
      _ ≤ _ := by linarith
  have nb : |b'| ≤ (1 + u) * D := by
    calc |b'| = |b + (b' - b)| := by ring_nf
      _ ≤ |b| + |b' - b| := abs_add_le _ _
      _ ≤ _ := by linarith
  have n1 : |a' * b'| ≤ ((1 + u) * D) * ((1 + u) * D) := by
    rw [abs_mul]; exact mul_le_mul na nb (abs_nonneg _) (by positivity)
  have n2 : |a' * b' - a * b| ≤ (u * D) * ((1 + u) * D) + D * (u * D) := by
    calc |a' * b' - a * b| = |(a' - a) * b' + a * (b' - b)| := by ring_nf
      _ ≤ |(a' - a) * b'| + |a * (b' - b)| := abs_add_le _ _
      _ = |a' - a| * |b'| + |a| * |b' - b| := by rw [abs_mul, abs_mul]
      _ ≤ _ := add_le_add (mul_le_mul da nb (abs_nonneg _) (by positivity)) (mul_le_mul ha db (abs_nonneg _) D0)
  have n3 : |p - a' * b'| ≤ u * (((1 + u) * D) * ((1 + u) * D)) + η := le_trans (ep (le_trans n1 up2)) (by have := mul_le_mul_of_nonneg_left n1 u0.le; linarith)
  have fin : u * (((1 + u) * D) * ((1 + u) * D)) + ((u * D) * ((1 + u) * D) + D * (u * D)) ≤ 4 * u * D ^ 2 := by
    have : u * (((1 + u) * D) * ((1 + u) * D)) + ((u * D) * ((1 + u) * D) + D * (u * D)) = (3 * u + u ^ 2 + 3) * (u * D ^ 2) - 0 := by ring
    rw [this]
    have : 0 ≤ u * D ^ 2 := by positivity
    nlinarith
  calc |p - a * b| = |(p - a' * b') + (a' * b' - a * b)| := by ring_nf
    _ ≤ |p - a' * b'| + |a' * b' - a * b| := abs_add_le _ _
    _ ≤ _ := by linarith

/-- A determinant that is large enough gets the right sign. -/
theorem fl_big {p q r : Point} {D : Rat} (h1 : |p.x - r.x| ≤ D) (h2 : |q.y - r.y| ≤ D) (h3 : |p.y - r.y| ≤ D) (h4 : |q.x - r.x| ≤ D) (hD : D ≤ 2 ^ 50) :
    (8 / 2 ^ 24 * D ^ 2 + 1 / 2 ^ 22 ≤ det2 p q r → n.eps < flDet n p q r) ∧ (det2 p q r ≤ -(8 / 2 ^ 24 * D ^ 2 + 1 / 2 ^ 22) → flDet n p q r < -n.eps) := by
  have e1 := prod_err n h1 h2 hD
  have e2 := prod_err n h3 h4 hD
  have e3 := f32_err n (x := n.rnd (n.rnd (p.x - r.x) * n.rnd (q.y - r.y)) - n.rnd (n.rnd (p.y - r.y) * n.rnd (q.x - r.x)))
  have D0 : 0 ≤ D := le_trans (abs_nonneg _) h1
  have p1 : |(p.x - r.x) * (q.y - r.y)| ≤ D ^ 2 := by rw [abs_mul, pow_two]; exact mul_le_mul h1 h2 (abs_nonneg _) D0
  have p2 : |(p.y - r.y) * (q.x - r.x)| ≤ D ^ 2 := by rw [abs_mul, pow_two]; exact mul_le_mul h3 h4 (abs_nonneg _) D0
  obtain ⟨δ, δ0, m1, m2, m3, m4, m5, m6, m7⟩ := magnitudes
  have m8 : D ^ 2 ≤ (2 ^ 50) ^ 2 := pow_le_pow_left₀ D0 hD 2
  have m9 : (1 : Rat) ≤ (2 ^ 50) ^ 2 := one_le_pow₀ (one_le_pow₀ (by norm_num))
  unfold flDet det2
  rw [f32_eps n]
  generalize n.rnd (n.rnd (n.rnd (p.x - r.x) * n.rnd (q.y - r.y)) - n.rnd (n.rnd (p.y - r.y) * n.rnd (q.x - r.x))) = E at *
  generalize n.rnd (n.rnd (p.x - r.x) * n.rnd (q.y - r.y)) = A at *
  generalize n.rnd (n.rnd (p.y - r.y) * n.rnd (q.x - r.x)) = C at *
  generalize (p.x - r.x) * (q.y - r.y) = a at *
  generalize (p.y - r.y) * (q.x - r.x) = c at *
  have S0 : 0 ≤ D ^ 2 := by positivity
  generalize D ^ 2 = S at *
  generalize (1 : Rat) / 2 ^ 140 = η at *
  generalize (2 : Rat) ^ 120 = Z at *
  generalize ((2 : Rat) ^ 50) ^ 2 = W at *
  clear m1 m2 m3 m6 m7
  rw [abs_le] at e1 e2 p1 p2
  have sz : |A - C| ≤ Z := by
    rw [abs_le]
    norm_num at e1 e2
    constructor <;> linarith
  replace e3 := e3 sz
  rw [abs_le] at e3
  norm_num at m4
  constructor
  · intro h
    have k : 1 / 2 ^ 22 - 1 / 2 ^ 54 ≤ A - C := by norm_num at *; linarith
    have k0 : 0 ≤ A - C := le_trans (by norm_num) k
    rw [abs_of_nonneg k0] at e3
    norm_num at k e3 ⊢
    linarith
  · intro h
    have k : A - C ≤ -(1 / 2 ^ 22 - 1 / 2 ^ 54) := by norm_num at *; linarith
    have k0 : A - C ≤ 0 := le_trans k (by norm_num)
    rw [abs_of_nonpos k0] at e3
    norm_num at k e3 ⊢
    linarith

/-- A rounded coordinate of an artificial point, against the exact one (`s` is the sign of the shift). -/
theorem art_err {c w B s : Rat} (hB : 1 / 2 ^ 20 ≤ B ∧ B ≤ 2 ^ 48) (hc : |c| ≤ B) (hw : 0 ≤ w) (hw' : w ≤ 2 * B) (hs : s = 1 ∨ s = -1) :
    |n.rnd (c + s * n.rnd (n.rnd w * n.k03)) - (c + s * (3 / 10 * w))| ≤ B / 2 ^ 22 := by
  have e1 := f32_err n (x := w)
  have e2 := f32_err n (x := n.rnd w * n.k03)
  have e3 := f32_err n (x := c + s * n.rnd (n.rnd w * n.k03))
  have ek := f32_k03 n
  obtain ⟨δ, δ0, m1, m2, m3, m4, m5, m6, m7⟩ := magnitudes
  have BZ : 16 * B ≤ 2 ^ 120 := by
    have : (2 : Rat) ^ 48 ≤ 2 ^ 50 := pow_le_pow_right₀ (by norm_num) (by norm_num)
    have := hB.2
    generalize (2 : Rat) ^ 120 = Z at *
    generalize (2 : Rat) ^ 50 = W at *
    generalize (2 : Rat) ^ 48 = V at *
    linarith
  have B1 := hB.1
  have w10 : 0 ≤ n.rnd w := by
    have := f32_mono n (x := 0) (y := w) (by simp) (by rw [abs_of_nonneg hw]; exact le_trans hw' (le_trans (mul_le_mul_of_nonneg_right (by norm_num) (le_trans (by norm_num) B1)) BZ)) hw
    rwa [f32_zero n] at this
  clear hB m1 m2 m3 m5 m6 m7
  generalize (1 : Rat) / 2 ^ 140 = η at *
  generalize (2 : Rat) ^ 120 = Z at *
  norm_num at m4 B1
  generalize n.k03 = κ at *
  generalize n.rnd w = w1 at *
  generalize n.rnd (w1 * κ) = w2 at *
  generalize n.rnd (c + s * w2) = z at *
  rw [abs_of_nonneg hw] at e1
  replace e1 := abs_le.1 (e1 (by linarith))
  norm_num at e1
  have w1b : w1 ≤ 201 / 100 * B := by linarith
  rw [abs_le] at ek
  norm_num at ek
  have κ0 : 0 ≤ κ := by linarith
  have p0 : 0 ≤ w1 * κ := mul_nonneg w10 κ0
  have pl : w1 * (3 / 10 - 1 / 67108864) ≤ w1 * κ := mul_le_mul_of_nonneg_left (by linarith) w10
  have pu : w1 * κ ≤ w1 * (3 / 10 + 1 / 67108864) := mul_le_mul_of_nonneg_left (by linarith) w10
  rw [abs_of_nonneg p0] at e2
  replace e2 := abs_le.1 (e2 (by linarith))
  norm_num at e2
  have key : |w2 - 3 / 10 * w| ≤ 230 / 100 / 2 ^ 24 * B := by
    rw [abs_le]; norm_num; constructor <;> linarith
  rw [abs_le] at key hc
  norm_num at key
  have big : |c + s * w2| ≤ 161 / 100 * B := by
    rw [abs_le]
    rcases hs with rfl | rfl <;> constructor <;> linarith
  have e3' := le_trans (e3 (by linarith)) (add_le_add_left (mul_le_mul_of_nonneg_left big (by norm_num)) η)
  rw [abs_le] at e3' ⊢
  norm_num at e3' ⊢
  rcases hs with rfl | rfl <;> constructor <;> linarith

end

end P2T.F32
