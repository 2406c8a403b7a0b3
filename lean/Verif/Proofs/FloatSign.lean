import Verif.Proofs.Round
import Verif.Proofs.Bbox
import Verif.Spec.Float
import Mathlib.Algebra.Order.Field.Basic

/-!
# Error analysis of the plain float computations of the crate
-/

namespace P2T

theorem f64Max_ge : (2 : Rat) ^ 1000 ≤ f64Max := by
  unfold f64Max
  rw [pow2_eq, pow2_eq]
  have a1 : (2 : Rat) ^ (971 : Nat) ≤ 2 ^ (1000 : Nat) := pow_le_pow_right₀ (by norm_num) (by norm_num)
  have a2 : (2 : Rat) ^ (1001 : Nat) ≤ 2 ^ (1024 : Nat) := pow_le_pow_right₀ (by norm_num) (by norm_num)
  have a3 : (2 : Rat) ^ (1001 : Nat) = 2 ^ (1000 : Nat) * 2 := pow_succ _ _
  have b1 : (2 : Rat) ^ (1024 : Int) = 2 ^ (1024 : Nat) := zpow_ofNat _ _
  have b2 : (2 : Rat) ^ (971 : Int) = 2 ^ (971 : Nat) := zpow_ofNat _ _
  rw [a3] at a2
  rw [b1, b2]
  clear b1 b2 a3
  generalize (2 : Rat) ^ (1000 : Nat) = c1 at *
  generalize (2 : Rat) ^ (971 : Nat) = c2 at *
  generalize (2 : Rat) ^ (1024 : Nat) = c3 at *
  linarith

theorem f64Max_nonneg : 0 ≤ f64Max := le_trans (pow_nonneg (by norm_num) 1000) f64Max_ge

theorem f64_hi : (2 : Rat) ^ 500 ≤ f64Max := le_trans (pow_le_pow_right₀ (by norm_num) (by norm_num)) f64Max_ge

theorem f64_k03_eq (ov : Rat → Rat) : (f64With ov).k03 = 5404319552844595 / 2 ^ 54 := by show mkRat 5404319552844595 (2 ^ 54) = _; rw [Rat.mkRat_eq_div]; norm_num

theorem realNum_k03_eq : realNum.k03 = 3 / 10 := rfl

/-- Far from overflow. -/
theorem f64_in (ov : Rat → Rat) {x : Rat} (h : |x| ≤ 2 ^ 1000) : (f64With ov).rnd x = roundGradual 53 (-1074) x := by
  have e : roundGradual 53 (-1074) ((2 : Rat) ^ 1000) = 2 ^ 1000 :=
    roundGradual_exact (by norm_num) (m := 1) (k := 1000) (by rw [zpow_ofNat]; simp) (by norm_num) (by norm_num)
  rw [abs_le] at h
  have a := roundGradual_mono (bits := 53) (by norm_num) (-1074) h.2
  have b := roundGradual_mono (bits := 53) (by norm_num) (-1074) h.1
  rw [roundGradual_neg] at b
  rw [e] at a b
  exact roundIEEE_in ⟨le_trans (neg_le_neg f64Max_ge) b, le_trans a f64Max_ge⟩

/-- The numbers of the format are not too large. -/
theorem IsF64.le_max {x : Rat} (h : IsF64 x) : |x| ≤ f64Max := by
  obtain ⟨m, k, rfl, hm, -, hk⟩ := h
  have two : (2 : Rat) ≠ 0 := by norm_num
  have pk : (0 : Rat) < 2 ^ k := zpow_pos (by norm_num) k
  have e : f64Max = (2 ^ 53 - 1) * 2 ^ (971 : Int) := by
    unfold f64Max
    rw [pow2_eq, pow2_eq, show (1024 : Int) = 53 + 971 by norm_num, zpow_add₀ two]
    generalize (2 : Rat) ^ (971 : Int) = z
    rw [zpow_ofNat]; ring
  have hm' : |(m : Rat)| ≤ 2 ^ 53 - 1 := by
    have : |m| ≤ 2 ^ 53 - 1 := by omega
    exact_mod_cast this
  rw [e, abs_mul, abs_of_pos pk]
  exact mul_le_mul hm' (zpow_le_zpow_right₀ (by norm_num) hk) pk.le (by norm_num)

theorem IsF64.gradual {x : Rat} (h : IsF64 x) : roundGradual 53 (-1074) x = x := by
  obtain ⟨m, k, h1, h2, h3, -⟩ := h
  exact roundGradual_exact (by norm_num) h1 h2.le h3

instance f64Like_f64With (ov : Rat → Rat) : F64Like (f64With ov) where
  err x hx := by
    rw [f64_in ov hx]
    have := roundGradual_err (bits := 53) (by norm_num) (-1074) x
    have e : (2 : Rat) ^ (-((53 : Nat) : Int)) = 1 / 2 ^ 53 := by rw [zpow_neg, zpow_natCast]; norm_num
    rw [e] at this
    have e2 : (2 : Rat) ^ (-1074 : Int) ≤ 1 / 2 ^ 1000 := by
      have e3 : (1 : Rat) / 2 ^ 1000 = 2 ^ (-1000 : Int) := by rw [zpow_neg, zpow_ofNat, one_div]
      rw [e3]
      exact zpow_le_zpow_right₀ (by norm_num) (by norm_num)
    have e3 : (0 : Rat) < 2 ^ (-1074 : Int) := zpow_pos (by norm_num) _
    generalize (2 : Rat) ^ (-1074 : Int) = z at *
    generalize (1 : Rat) / 2 ^ 1000 = y at *
    linarith
  mono x y hx hy h := by
    rw [f64_in ov hx, f64_in ov hy]
    exact roundGradual_mono (by norm_num) _ h
  fix x h := by
    have e := h.gradual
    have k := abs_le.1 h.le_max
    show roundIEEE 53 (-1074) f64Max ov x = x
    rw [roundIEEE_in (by rw [e]; exact k), e]
  eps := by show pow2 (-52) = _; rw [pow2_eq]; norm_num
  k03 := by rw [f64_k03_eq, abs_le]; norm_num
  hi := f64_hi
  lo := neg_le_neg f64_hi

instance : F64Like f64 := f64Like_f64With _

instance : F64Like exactNum where
  err x _ := by
    show |x - x| ≤ _
    rw [sub_self, abs_zero]; positivity
  mono x y _ _ h := h
  fix x _ := rfl
  eps := F64Like.eps (n := f64)
  k03 := F64Like.k03 (n := f64)
  hi := F64Like.hi (n := f64)
  lo := F64Like.lo (n := f64)

instance : F64Like realNum where
  err x _ := by
    show |x - x| ≤ _
    rw [sub_self, abs_zero]; positivity
  mono x y _ _ h := h
  fix x _ := rfl
  eps := F64Like.eps (n := f64)
  k03 := by rw [realNum_k03_eq, sub_self, abs_zero]; positivity
  hi := F64Like.hi (n := f64)
  lo := F64Like.lo (n := f64)

instance : Tenths realNum where
  ten e j _ _ _ _ := by rw [realNum_k03_eq]; show 10 * (j : Rat) * 2 ^ e * (3 / 10) = _; ring

instance tenths_f64With (ov : Rat → Rat) : Tenths (f64With ov) where
  ten e j he he' h h' := by
    rcases eq_or_lt_of_le h with rfl | h
    · simp only [Int.cast_zero, mul_zero, zero_mul]
      exact F64Like.fix _ ⟨0, 0, by simp, by norm_num, by norm_num, by norm_num⟩
    · have pe : (0 : Rat) < 2 ^ e := zpow_pos (by norm_num) e
      have j0 : (0 : Rat) < j := by exact_mod_cast h
      have j1 : (j : Rat) ≤ 2 ^ 20 := by exact_mod_cast h'
      have j2 : (1 : Rat) ≤ j := by exact_mod_cast h
      have y0 : (0 : Rat) < j * 2 ^ e := mul_pos j0 pe
      have e1 : (2 : Rat) ^ e ≤ 2 ^ (220 : Int) := zpow_le_zpow_right₀ (by norm_num) he'
      have e2 : (2 : Rat) ^ (-20 : Int) ≤ 2 ^ e := zpow_le_zpow_right₀ (by norm_num) he
      rw [f64_k03_eq]
      have pos : 0 < 10 * (j : Rat) * 2 ^ e * (5404319552844595 / 2 ^ 54) := by positivity
      have up : 10 * (j : Rat) * 2 ^ e * (5404319552844595 / 2 ^ 54) ≤ 2 ^ 1000 := by
        have a1 : (j : Rat) * 2 ^ e ≤ 2 ^ 20 * 2 ^ (220 : Int) := mul_le_mul j1 e1 pe.le (by norm_num)
        have a2 : 10 * (j : Rat) * 2 ^ e * (5404319552844595 / 2 ^ 54) ≤ 2 ^ 3 * (j * 2 ^ e) := by norm_num; linarith
        refine le_trans a2 (le_trans (mul_le_mul_of_nonneg_left a1 (by norm_num)) ?_)
        rw [zpow_ofNat, ← pow_add, ← pow_add]
        exact pow_le_pow_right₀ (by norm_num) (by norm_num)
      have lo : (2 : Rat) ^ ((-1074 : Int) + (53 : Nat) - 1) ≤ 10 * (j : Rat) * 2 ^ e * (5404319552844595 / 2 ^ 54) := by
        have a0 : (2 : Rat) ^ ((-1074 : Int) + (53 : Nat) - 1) ≤ 2 ^ (-20 : Int) := zpow_le_zpow_right₀ (by norm_num) (by norm_num)
        have a1 : (2 : Rat) ^ e ≤ j * 2 ^ e := le_mul_of_one_le_left pe.le j2
        have a2 : j * 2 ^ e ≤ 10 * (j : Rat) * 2 ^ e * (5404319552844595 / 2 ^ 54) := by norm_num; linarith
        exact le_trans a0 (le_trans e2 (le_trans a1 a2))
      rw [f64_in ov (by rw [abs_of_pos pos]; exact up), roundGradual_large (by rw [abs_of_pos pos]; exact lo)]
      have := roundTo_snap (bits := 53) (by norm_num) (q := 10 * j * 2 ^ e * (5404319552844595 / 2 ^ 54)) (m := 3 * j) (k := e) (by omega) (by omega)
        (by push_cast; norm_num; linarith) (by push_cast; norm_num; linarith)
      push_cast at this
      exact this

instance : Tenths f64 := tenths_f64With _

section
variable (n : Num) [F64Like n]

theorem f64_err {x : Rat} (h : |x| ≤ 2 ^ 1000) : |n.rnd x - x| ≤ 1 / 2 ^ 53 * |x| + 1 / 2 ^ 1000 := F64Like.err x h
theorem f64_mono {x y : Rat} (hx : |x| ≤ 2 ^ 1000) (hy : |y| ≤ 2 ^ 1000) (h : x ≤ y) : n.rnd x ≤ n.rnd y := F64Like.mono x y hx hy h
theorem f64_fix {x : Rat} (h : IsF64 x) : n.rnd x = x := F64Like.fix x h
theorem f64_zero : n.rnd 0 = 0 := f64_fix n ⟨0, 0, by simp, by norm_num, by norm_num, by norm_num⟩
theorem f64_eps : n.eps = 1 / 2 ^ 52 := F64Like.eps
theorem f64_k03 : |n.k03 - 3 / 10| ≤ 1 / 2 ^ 56 := F64Like.k03

omit [F64Like n] in
/-- The magnitudes that occur: `D` for the coordinates, `δ` and `η` for underflow, `Z` for overflow. -/
theorem magnitudes : ∃ δ : Rat, 0 < δ ∧ (1 : Rat) / 2 ^ 1000 ≤ 1 / 2 ^ 53 * δ ∧ δ * 2 ^ 300 ≤ 1 / 2 ^ 200 ∧ δ ≤ 1 / 2 ^ 200 ∧ (1 : Rat) / 2 ^ 1000 ≤ 1 / 2 ^ 200 ∧
    8 * ((2 : Rat) ^ 300) ^ 2 ≤ 2 ^ 1000 ∧ (2 : Rat) ^ 200 ≤ 2 ^ 300 ∧ 16 * (2 : Rat) ^ 300 ≤ 2 ^ 1000 := by
  have le : ∀ a b : Nat, a ≤ b → (2 : Rat) ^ a ≤ 2 ^ b := fun a b h => pow_le_pow_right₀ (by norm_num) h
  have inv : ∀ a b : Nat, a ≤ b → (1 : Rat) / 2 ^ b ≤ 1 / 2 ^ a := fun a b h => one_div_le_one_div_of_le (by positivity) (le a b h)
  refine ⟨1 / 2 ^ 600, by positivity, ?_, ?_, inv _ _ (by norm_num), inv _ _ (by norm_num), ?_, le _ _ (by norm_num), ?_⟩
  · rw [div_mul_div_comm, one_mul, ← pow_add]; exact inv _ _ (by norm_num)
  · have : (1 : Rat) / 2 ^ 600 * 2 ^ 300 = 1 / 2 ^ 300 := by
      rw [show (600 : Nat) = 300 + 300 from rfl, pow_add]
      have : (2 : Rat) ^ 300 ≠ 0 := by positivity
      field_simp
    rw [this]; exact inv _ _ (by norm_num)
  · rw [← pow_mul, show (8 : Rat) = 2 ^ 3 by norm_num, ← pow_add]; exact le _ _ (by norm_num)
  · rw [show (16 : Rat) = 2 ^ 4 by norm_num, ← pow_add]; exact le _ _ (by norm_num)

/-- Two rounded factors, rounded product. -/
theorem prod_err {a b D : Rat} (ha : |a| ≤ D) (hb : |b| ≤ D) (hD : D ≤ 2 ^ 300) : |n.rnd (n.rnd a * n.rnd b) - a * b| ≤ 4 / 2 ^ 53 * D ^ 2 + 1 / 2 ^ 100 := by
  have D0 : 0 ≤ D := le_trans (abs_nonneg _) ha
  obtain ⟨δ, δ0, m1, m2, m3, m4, m5, m6, m7⟩ := magnitudes
  have DZ : D ≤ 2 ^ 1000 := le_trans hD (pow_le_pow_right₀ (by norm_num) (by norm_num))
  have ea := f64_err n (le_trans ha DZ)
  have eb := f64_err n (le_trans hb DZ)
  have ep := f64_err n (x := n.rnd a * n.rnd b)
  have g2 : δ * D ≤ 1 / 2 ^ 200 := le_trans (mul_le_mul_of_nonneg_left hD δ0.le) m2
  generalize n.rnd (n.rnd a * n.rnd b) = p at *
  generalize n.rnd a = a' at *
  generalize n.rnd b = b' at *
  generalize hη : (1 : Rat) / 2 ^ 1000 = η at *
  generalize (2 : Rat) ^ 1000 = Z at *
  generalize (2 : Rat) ^ 300 = W at *
  clear hη
  set u : Rat := 1 / 2 ^ 53 with hu
  have u0 : 0 < u := by rw [hu]; norm_num
  have u1 : 3 * u + u ^ 2 ≤ 1 := by rw [hu]; norm_num
  obtain ⟨E, hE⟩ : ∃ E, E = D + δ := ⟨_, rfl⟩
  have E0 : 0 ≤ E := by linarith
  have DE : D ≤ E := by linarith
  have W1 : (1 : Rat) ≤ W := le_trans (by norm_num) m6
  have EW : E ≤ 5 / 4 * W := by norm_num at m3; linarith
  have da : |a' - a| ≤ u * E := by
    have := mul_le_mul_of_nonneg_left ha u0.le
    rw [hE, mul_add]; linarith
  have db : |b' - b| ≤ u * E := by
    have := mul_le_mul_of_nonneg_left hb u0.le
    rw [hE, mul_add]; linarith
  replace ha : |a| ≤ E := le_trans ha DE
  replace hb : |b| ≤ E := le_trans hb DE
  have last : 4 * u * E ^ 2 + η ≤ 4 * u * D ^ 2 + 1 / 2 ^ 100 := by
    have e1 : E ^ 2 = D ^ 2 + (2 * (δ * D) + δ * δ) := by rw [hE]; ring
    have e2 : δ * δ ≤ 1 / 2 ^ 200 := le_trans (mul_le_mul m3 m3 δ0.le (by norm_num)) (by norm_num)
    have e3 : 2 * (δ * D) + δ * δ ≤ 3 / 2 ^ 200 := by linarith
    have e4 := mul_le_mul_of_nonneg_left e3 (by linarith : 0 ≤ 4 * u)
    rw [e1, mul_add (4 * u)]
    have e5 : 4 * u * (3 / 2 ^ 200) ≤ 1 / 2 ^ 150 := by rw [hu]; norm_num
    norm_num at e5 m4 ⊢
    linarith
  have e4' : (4 : Rat) / 2 ^ 53 = 4 * u := by rw [hu]; norm_num
  rw [e4']
  refine le_trans ?_ last
  have up2 : ((1 + u) * E) * ((1 + u) * E) ≤ Z := by
    have k1 : (1 + u) * E ≤ 2 * W := by
      have : (1 + u) * E ≤ (1 + u) * (5 / 4 * W) := mul_le_mul_of_nonneg_left EW (by linarith)
      have : u ≤ 1 / 10 := by rw [hu]; norm_num
      nlinarith
    have := mul_le_mul k1 k1 (by positivity) (by linarith)
    nlinarith
  clear hE last m1 m2 m3 m4 m5 m6 m7 g2 hD DZ
  generalize D = D₀ at *
  clear DE D0 D₀
  rename' E => D, E0 => D0
  have na : |a'| ≤ (1 + u) * D := by
    calc |a'| = |a + (a' - a)| := by ring_nf
      _ ≤ |a| + |a' - a| := abs_add_le _ _
      _ ≤ _ := by linarith
  have nb : |b'| ≤ (1 + u) * D := by
    calc |b'| = |b + (b' - b)| := by ring_nf
      _ ≤ |b| + |b' - b| := abs_add_le _ _
      _ ≤ _ := by linarith
  have n1 : |a' * b'| ≤ ((1 + u) * D) * ((1 + u) * D) := by
    rw [abs_mul]; exact mul_le_mul na nb (abs_nonneg _) (by positivity)
  have n2 : |a' * b' - a * b| ≤ (u * D) * ((1 + u) * D) + D * (u * D) := by
    calc |a' * b' - a * b| = |(a' - a) * b' + a * (b' - b)| := by ring_nf
      _ ≤ |(a' - a) * b'| + |a * (b' - b)| := abs_add_le _ _
      _ = |a' - a| * |b'| + |a| * |b' - b| := by rw [abs_mul, abs_mul]
      _ ≤ _ := add_le_add (mul_le_mul da nb (abs_nonneg _) (by positivity)) (mul_le_mul ha db (abs_nonneg _) D0)
  have n3 : |p - a' * b'| ≤ u * (((1 + u) * D) * ((1 + u) * D)) + η := le_trans (ep (le_trans n1 up2)) (by have := mul_le_mul_of_nonneg_left n1 u0.le; linarith)
  have fin : u * (((1 + u) * D) * ((1 + u) * D)) + ((u * D) * ((1 + u) * D) + D * (u * D)) ≤ 4 * u * D ^ 2 := by
    have : u * (((1 + u) * D) * ((1 + u) * D)) + ((u * D) * ((1 + u) * D) + D * (u * D)) = (3 * u + u ^ 2 + 3) * (u * D ^ 2) - 0 := by ring
    rw [this]
    have : 0 ≤ u * D ^ 2 := by positivity
    nlinarith
  calc |p - a * b| = |(p - a' * b') + (a' * b' - a * b)| := by ring_nf
    _ ≤ |p - a' * b'| + |a' * b' - a * b| := abs_add_le _ _
    _ ≤ _ := by linarith

/-- The float evaluation of an orientation determinant. -/
def flDet (n : Num) (p q r : Point) : Rat :=
  n.rnd (n.rnd (n.rnd (p.x - r.x) * n.rnd (q.y - r.y)) - n.rnd (n.rnd (p.y - r.y) * n.rnd (q.x - r.x)))

omit [F64Like n] in
theorem scanDet_fl (a b d : Point) : scanDet n a b d = flDet n a d b := by
  unfold scanDet flDet; rw [mul_comm (n.rnd (d.x - b.x))]
omit [F64Like n] in
theorem angle_fl (o a b : Point) : (Angle.new n o a b).dy = flDet n a b o := rfl

/-- A determinant that is large enough gets the right sign. -/
theorem fl_big {p q r : Point} {D : Rat} (h1 : |p.x - r.x| ≤ D) (h2 : |q.y - r.y| ≤ D) (h3 : |p.y - r.y| ≤ D) (h4 : |q.x - r.x| ≤ D) (hD : D ≤ 2 ^ 300) :
    (8 / 2 ^ 53 * D ^ 2 + 1 / 2 ^ 51 ≤ det2 p q r → n.eps < flDet n p q r) ∧ (det2 p q r ≤ -(8 / 2 ^ 53 * D ^ 2 + 1 / 2 ^ 51) → flDet n p q r < -n.eps) := by
  have e1 := prod_err n h1 h2 hD
  have e2 := prod_err n h3 h4 hD
  have e3 := f64_err n (x := n.rnd (n.rnd (p.x - r.x) * n.rnd (q.y - r.y)) - n.rnd (n.rnd (p.y - r.y) * n.rnd (q.x - r.x)))
  have D0 : 0 ≤ D := le_trans (abs_nonneg _) h1
  have p1 : |(p.x - r.x) * (q.y - r.y)| ≤ D ^ 2 := by rw [abs_mul, pow_two]; exact mul_le_mul h1 h2 (abs_nonneg _) D0
  have p2 : |(p.y - r.y) * (q.x - r.x)| ≤ D ^ 2 := by rw [abs_mul, pow_two]; exact mul_le_mul h3 h4 (abs_nonneg _) D0
  obtain ⟨δ, δ0, m1, m2, m3, m4, m5, m6, m7⟩ := magnitudes
  have m8 : D ^ 2 ≤ (2 ^ 300) ^ 2 := pow_le_pow_left₀ D0 hD 2
  have m9 : (1 : Rat) ≤ (2 ^ 300) ^ 2 := one_le_pow₀ (one_le_pow₀ (by norm_num))
  unfold flDet det2
  rw [f64_eps n]
  generalize n.rnd (n.rnd (n.rnd (p.x - r.x) * n.rnd (q.y - r.y)) - n.rnd (n.rnd (p.y - r.y) * n.rnd (q.x - r.x))) = E at *
  generalize n.rnd (n.rnd (p.x - r.x) * n.rnd (q.y - r.y)) = A at *
  generalize n.rnd (n.rnd (p.y - r.y) * n.rnd (q.x - r.x)) = C at *
  generalize (p.x - r.x) * (q.y - r.y) = a at *
  generalize (p.y - r.y) * (q.x - r.x) = c at *
  have S0 : 0 ≤ D ^ 2 := by positivity
  generalize D ^ 2 = S at *
  generalize (1 : Rat) / 2 ^ 1000 = η at *
  generalize (2 : Rat) ^ 1000 = Z at *
  generalize ((2 : Rat) ^ 300) ^ 2 = W at *
  clear m1 m2 m3 m6 m7
  rw [abs_le] at e1 e2 p1 p2
  have sz : |A - C| ≤ Z := by
    rw [abs_le]
    norm_num at e1 e2
    constructor <;> linarith
  replace e3 := e3 sz
  rw [abs_le] at e3
  norm_num at m4
  constructor
  · intro h
    have k : 1 / 2 ^ 51 - 1 / 2 ^ 99 ≤ A - C := by norm_num at *; linarith
    have k0 : 0 ≤ A - C := le_trans (by norm_num) k
    rw [abs_of_nonneg k0] at e3
    norm_num at k e3 ⊢
    linarith
  · intro h
    have k : A - C ≤ -(1 / 2 ^ 51 - 1 / 2 ^ 99) := by norm_num at *; linarith
    have k0 : A - C ≤ 0 := le_trans k (by norm_num)
    rw [abs_of_nonpos k0] at e3
    norm_num at k e3 ⊢
    linarith

omit [F64Like n] in
/-- Moving the points a little moves the determinant a little. -/
theorem det_move {p q r p' q' r' : Point} {C δ : Rat} (hp : |p'.x| ≤ C ∧ |p'.y| ≤ C) (hq : |q'.x| ≤ C ∧ |q'.y| ≤ C) (hr : |r'.x| ≤ C ∧ |r'.y| ≤ C)
    (mp : |p.x - p'.x| ≤ δ ∧ |p.y - p'.y| ≤ δ) (mq : |q.x - q'.x| ≤ δ ∧ |q.y - q'.y| ≤ δ) (mr : |r.x - r'.x| ≤ δ ∧ |r.y - r'.y| ≤ δ) :
    |det2 p q r - det2 p' q' r'| ≤ 16 * C * δ + 8 * δ ^ 2 := by
  have d0 : 0 ≤ δ := le_trans (abs_nonneg _) mp.1
  have C0 : 0 ≤ C := le_trans (abs_nonneg _) hp.1
  have pr : ∀ a b a' b' : Rat, |a'| ≤ 2 * C → |b'| ≤ 2 * C → |a - a'| ≤ 2 * δ → |b - b'| ≤ 2 * δ → |a * b - a' * b'| ≤ 8 * C * δ + 4 * δ ^ 2 := by
    intro a b a' b' h1 h2 h3 h4
    calc |a * b - a' * b'| = |(a - a') * b' + a' * (b - b') + (a - a') * (b - b')| := by ring_nf
      _ ≤ |(a - a') * b'| + |a' * (b - b')| + |(a - a') * (b - b')| := abs_add_three _ _ _
      _ = |a - a'| * |b'| + |a'| * |b - b'| + |a - a'| * |b - b'| := by rw [abs_mul, abs_mul, abs_mul]
      _ ≤ (2 * δ) * (2 * C) + (2 * C) * (2 * δ) + (2 * δ) * (2 * δ) :=
        add_le_add (add_le_add (mul_le_mul h3 h2 (abs_nonneg _) (by positivity)) (mul_le_mul h1 h4 (abs_nonneg _) (by positivity)))
          (mul_le_mul h3 h4 (abs_nonneg _) (by positivity))
      _ = _ := by ring
  have sub : ∀ a b a' b' : Rat, |a'| ≤ C → |b'| ≤ C → |a - a'| ≤ δ → |b - b'| ≤ δ → |a' - b'| ≤ 2 * C ∧ |(a - b) - (a' - b')| ≤ 2 * δ := by
    intro a b a' b' h1 h2 h3 h4
    rw [abs_le] at *
    rw [abs_le]
    exact ⟨⟨by linarith, by linarith⟩, by linarith, by linarith⟩
  obtain ⟨a1, a2⟩ := sub p.x r.x p'.x r'.x hp.1 hr.1 mp.1 mr.1
  obtain ⟨b1, b2⟩ := sub q.y r.y q'.y r'.y hq.2 hr.2 mq.2 mr.2
  obtain ⟨c1, c2⟩ := sub p.y r.y p'.y r'.y hp.2 hr.2 mp.2 mr.2
  obtain ⟨d1, d2⟩ := sub q.x r.x q'.x r'.x hq.1 hr.1 mq.1 mr.1
  have x1 := pr _ _ _ _ a1 b1 a2 b2
  have x2 := pr _ _ _ _ c1 d1 c2 d2
  unfold det2
  rw [abs_le] at x1 x2 ⊢
  constructor <;> linarith

/-- A rounded coordinate of an artificial point, against the exact one (`s` is the sign of the shift). -/
theorem art_err {c w B s : Rat} (hB : 1 / 2 ^ 20 ≤ B ∧ B ≤ 2 ^ 240) (hc : |c| ≤ B) (hw : 0 ≤ w) (hw' : w ≤ 2 * B) (hs : s = 1 ∨ s = -1) :
    |n.rnd (c + s * n.rnd (n.rnd w * n.k03)) - (c + s * (3 / 10 * w))| ≤ B / 2 ^ 51 := by
  have e1 := f64_err n (x := w)
  have e2 := f64_err n (x := n.rnd w * n.k03)
  have e3 := f64_err n (x := c + s * n.rnd (n.rnd w * n.k03))
  have ek := f64_k03 n
  obtain ⟨δ, δ0, m1, m2, m3, m4, m5, m6, m7⟩ := magnitudes
  have BZ : 16 * B ≤ 2 ^ 1000 := by
    have : (2 : Rat) ^ 240 ≤ 2 ^ 300 := pow_le_pow_right₀ (by norm_num) (by norm_num)
    have := hB.2
    generalize (2 : Rat) ^ 1000 = Z at *
    generalize (2 : Rat) ^ 300 = W at *
    generalize (2 : Rat) ^ 240 = V at *
    linarith
  have B1 := hB.1
  have w10 : 0 ≤ n.rnd w := by
    have := f64_mono n (x := 0) (y := w) (by simp) (by rw [abs_of_nonneg hw]; exact le_trans hw' (le_trans (mul_le_mul_of_nonneg_right (by norm_num) (le_trans (by norm_num) B1)) BZ)) hw
    rwa [f64_zero n] at this
  clear hB m1 m2 m3 m5 m6 m7
  generalize (1 : Rat) / 2 ^ 1000 = η at *
  generalize (2 : Rat) ^ 1000 = Z at *
  norm_num at m4 B1
  generalize n.k03 = κ at *
  generalize n.rnd w = w1 at *
  generalize n.rnd (w1 * κ) = w2 at *
  generalize n.rnd (c + s * w2) = z at *
  rw [abs_of_nonneg hw] at e1
  replace e1 := abs_le.1 (e1 (by linarith))
  norm_num at e1
  have w1b : w1 ≤ 201 / 100 * B := by linarith
  rw [abs_le] at ek
  norm_num at ek
  have κ0 : 0 ≤ κ := by linarith
  have p0 : 0 ≤ w1 * κ := mul_nonneg w10 κ0
  have pl : w1 * (3 / 10 - 1 / 72057594037927936) ≤ w1 * κ := mul_le_mul_of_nonneg_left (by linarith) w10
  have pu : w1 * κ ≤ w1 * (3 / 10 + 1 / 72057594037927936) := mul_le_mul_of_nonneg_left (by linarith) w10
  rw [abs_of_nonneg p0] at e2
  replace e2 := abs_le.1 (e2 (by linarith))
  norm_num at e2
  have key : |w2 - 3 / 10 * w| ≤ 230 / 100 / 2 ^ 53 * B := by
    rw [abs_le]; norm_num; constructor <;> linarith
  rw [abs_le] at key hc
  norm_num at key
  have big : |c + s * w2| ≤ 161 / 100 * B := by
    rw [abs_le]
    rcases hs with rfl | rfl <;> constructor <;> linarith
  have e3' := le_trans (e3 (by linarith)) (add_le_add_left (mul_le_mul_of_nonneg_left big (by norm_num)) η)
  rw [abs_le] at e3' ⊢
  norm_num at e3' ⊢
  rcases hs with rfl | rfl <;> constructor <;> linarith

end

end P2T
