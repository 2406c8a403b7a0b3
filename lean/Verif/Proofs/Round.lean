import Verif.Model.F64
import Mathlib.Data.Rat.Floor
import Mathlib.Data.Nat.Log
import Mathlib.Algebra.Order.Field.Power
import Mathlib.Tactic.Linarith
import Mathlib.Tactic.Ring
import Mathlib.Tactic.Positivity
import Mathlib.Tactic.FieldSimp
import Mathlib.Tactic.NormNum

/-!
# The rounding function of the model is IEEE rounding

Relative error, exactness on representable numbers and monotonicity of `roundTo`.
-/

namespace P2T

theorem pow2_eq (e : Int) : pow2 e = (2 : Rat) ^ e := by
  cases e with
  | ofNat n => simp [pow2]
  | negSucc n => rw [zpow_negSucc]; simp only [pow2, Rat.mkRat_eq_div]; push_cast; ring

/-- The nearest integer. -/
theorem roundEven_spec {q : Rat} (h : 0 ≤ q) : ∃ f r : Nat, r < q.den ∧ q = f + (r : Rat) / q.den ∧
    roundEven q = if 2 * r < q.den then f else if q.den < 2 * r then f + 1 else if f % 2 = 0 then f else f + 1 := by
  have hn : 0 ≤ q.num := Rat.num_nonneg.2 h
  obtain ⟨k, hk⟩ := Int.eq_ofNat_of_zero_le hn
  have hd : (0 : Rat) < q.den := by exact_mod_cast q.den_pos
  refine ⟨k / q.den, k % q.den, Nat.mod_lt _ q.den_pos, ?_, ?_⟩
  · have h1 : q = (k : Rat) / q.den := by
      conv_lhs => rw [← Rat.num_div_den q, hk]
      simp
    have h2 : (k : Rat) = q.den * ((k / q.den : Nat) : Rat) + ((k % q.den : Nat) : Rat) := by
      exact_mod_cast (Nat.div_add_mod k q.den).symm
    conv_lhs => rw [h1, h2]
    field_simp
  · simp [roundEven, hk]

theorem roundEven_err {q : Rat} (h : 0 ≤ q) : |(roundEven q : Rat) - q| ≤ 1 / 2 := by
  obtain ⟨f, r, hr, hq, he⟩ := roundEven_spec h
  have hd : (0 : Rat) < q.den := by exact_mod_cast q.den_pos
  generalize hx : (r : Rat) / q.den = x at hq
  have hx0 : (r : Rat) = x * q.den := by rw [← hx]; field_simp
  have x0 : 0 ≤ x := by rw [← hx]; positivity
  have x1 : x < 1 := by
    have : (r : Rat) < q.den := by exact_mod_cast hr
    rw [hx0] at this; nlinarith
  rw [abs_le]
  have lo : 2 * r ≤ q.den → x ≤ 1 / 2 := fun k => by
    have : 2 * (r : Rat) ≤ q.den := by exact_mod_cast k
    rw [hx0] at this; nlinarith
  have hi : q.den ≤ 2 * r → 1 / 2 ≤ x := fun k => by
    have : (q.den : Rat) ≤ 2 * (r : Rat) := by exact_mod_cast k
    rw [hx0] at this; nlinarith
  rw [he]
  split
  · have := lo (by omega); constructor <;> linarith
  · split
    · have := hi (by omega); push_cast; constructor <;> linarith
    · split
      · have := lo (by omega); constructor <;> linarith
      · have := hi (by omega); push_cast; constructor <;> linarith

theorem roundEven_nat (k : Nat) : roundEven (k : Rat) = k := by
  simp [roundEven, Nat.mod_one]

theorem roundEven_mono {p q : Rat} (h : 0 ≤ p) (hpq : p ≤ q) : roundEven p ≤ roundEven q := by
  obtain ⟨f, r, hr, hp, he⟩ := roundEven_spec h
  obtain ⟨f', r', hr', hq, he'⟩ := roundEven_spec (le_trans h hpq)
  have hd : (0 : Rat) < p.den := by exact_mod_cast p.den_pos
  have hd' : (0 : Rat) < q.den := by exact_mod_cast q.den_pos
  generalize hx : (r : Rat) / p.den = x at hp
  generalize hx' : (r' : Rat) / q.den = x' at hq
  have hx0 : (r : Rat) = x * p.den := by rw [← hx]; field_simp
  have hx0' : (r' : Rat) = x' * q.den := by rw [← hx']; field_simp
  have x0 : 0 ≤ x := by rw [← hx]; positivity
  have x0' : 0 ≤ x' := by rw [← hx']; positivity
  have x1 : x < 1 := by
    have : (r : Rat) < p.den := by exact_mod_cast hr
    rw [hx0] at this; nlinarith
  have x1' : x' < 1 := by
    have : (r' : Rat) < q.den := by exact_mod_cast hr'
    rw [hx0'] at this; nlinarith
  have c : 2 * r < p.den ↔ x < 1 / 2 := by
    constructor
    · intro k
      have : 2 * (r : Rat) < p.den := by exact_mod_cast k
      rw [hx0] at this; nlinarith
    · intro k
      have : 2 * (r : Rat) < p.den := by rw [hx0]; nlinarith
      exact_mod_cast this
  have d : p.den < 2 * r ↔ 1 / 2 < x := by
    constructor
    · intro k
      have : (p.den : Rat) < 2 * (r : Rat) := by exact_mod_cast k
      rw [hx0] at this; nlinarith
    · intro k
      have : (p.den : Rat) < 2 * (r : Rat) := by rw [hx0]; nlinarith
      exact_mod_cast this
  have c' : 2 * r' < q.den ↔ x' < 1 / 2 := by
    constructor
    · intro k
      have : 2 * (r' : Rat) < q.den := by exact_mod_cast k
      rw [hx0'] at this; nlinarith
    · intro k
      have : 2 * (r' : Rat) < q.den := by rw [hx0']; nlinarith
      exact_mod_cast this
  have d' : q.den < 2 * r' ↔ 1 / 2 < x' := by
    constructor
    · intro k
      have : (q.den : Rat) < 2 * (r' : Rat) := by exact_mod_cast k
      rw [hx0'] at this; nlinarith
    · intro k
      have : (q.den : Rat) < 2 * (r' : Rat) := by rw [hx0']; nlinarith
      exact_mod_cast this
  have ff : f ≤ f' := by
    by_contra k
    have : (f' : Rat) + 1 ≤ f := by exact_mod_cast (not_le.1 k)
    linarith
  rw [he, he']
  simp only [c, d, c', d']
  rcases Nat.lt_or_eq_of_le ff with k | k
  · repeat' split
    all_goals omega
  · subst k
    have : x ≤ x' := by linarith
    repeat' split
    all_goals first | omega | (exfalso; linarith)

/-- The binade of a positive number and its rounding. -/
theorem roundTo_pos {bits : Nat} (hb : 1 ≤ bits) {q : Rat} (h : 0 < q) : ∃ e : Int,
    (2 : Rat) ^ ((bits : Int) - 1 + e) ≤ q ∧ q < (2 : Rat) ^ ((bits : Int) + e) ∧
    roundTo bits q = (roundEven (q * 2 ^ (-e)) : Rat) * 2 ^ e := by
  have hn : 0 < q.num := Rat.num_pos.2 h
  obtain ⟨k, hk⟩ := Int.eq_ofNat_of_zero_le hn.le
  have k0 : k ≠ 0 := by rintro rfl; rw [hk] at hn; simp at hn
  have d0 : q.den ≠ 0 := q.den_nz
  have hd : (0 : Rat) < q.den := by exact_mod_cast q.den_pos
  have h1 : q = (k : Rat) / q.den := by
    conv_lhs => rw [← Rat.num_div_den q, hk]
    simp
  have a1 : (2 : Rat) ^ ((Nat.log2 k : Nat) : Int) ≤ k := by
    rw [zpow_natCast]; exact_mod_cast Nat.log2_self_le k0
  have a2 : (k : Rat) < 2 ^ (((Nat.log2 k : Nat) : Int) + 1) := by
    have := @Nat.lt_log2_self k
    have h2 : (((Nat.log2 k : Nat) : Int) + 1) = ((Nat.log2 k + 1 : Nat) : Int) := by push_cast; ring
    rw [h2, zpow_natCast]; exact_mod_cast this
  have b1 : (2 : Rat) ^ ((Nat.log2 q.den : Nat) : Int) ≤ q.den := by
    rw [zpow_natCast]; exact_mod_cast Nat.log2_self_le d0
  have b2 : (q.den : Rat) < 2 ^ (((Nat.log2 q.den : Nat) : Int) + 1) := by
    have := @Nat.lt_log2_self q.den
    have h2 : (((Nat.log2 q.den : Nat) : Int) + 1) = ((Nat.log2 q.den + 1 : Nat) : Int) := by push_cast; ring
    rw [h2, zpow_natCast]; exact_mod_cast this
  generalize hA : ((Nat.log2 k : Nat) : Int) = A at a1 a2
  generalize hB : ((Nat.log2 q.den : Nat) : Int) = B at b1 b2
  have two : (2 : Rat) ≠ 0 := by norm_num
  have pos : ∀ z : Int, (0 : Rat) < 2 ^ z := fun z => zpow_pos (by norm_num) z
  have lower : (2 : Rat) ^ (A - B - 1) < q := by
    rw [h1, lt_div_iff₀ hd]
    calc (2 : Rat) ^ (A - B - 1) * q.den < 2 ^ (A - B - 1) * 2 ^ (B + 1) := by
          exact mul_lt_mul_of_pos_left b2 (pos _)
      _ = 2 ^ A := by rw [← zpow_add₀ two]; congr 1; ring
      _ ≤ k := a1
  have upper : q < (2 : Rat) ^ (A - B + 1) := by
    rw [h1, div_lt_iff₀ hd]
    calc (k : Rat) < 2 ^ (A + 1) := a2
      _ = 2 ^ (A - B + 1) * 2 ^ B := by rw [← zpow_add₀ two]; congr 1; ring
      _ ≤ 2 ^ (A - B + 1) * q.den := mul_le_mul_of_nonneg_left b1 (pos _).le
  have bcast : ((2 ^ (bits - 1) : Nat) : Rat) = (2 : Rat) ^ ((bits : Int) - 1) := by
    have : ((bits : Int) - 1) = ((bits - 1 : Nat) : Int) := by omega
    rw [this, zpow_natCast]; push_cast; rfl
  have hlog : Nat.log2 q.num.toNat = Nat.log2 k := by rw [hk]; rfl
  have unfold1 : roundTo bits q =
      (roundEven (q * 2 ^ (-(if q * 2 ^ (-(A - B - ((bits : Int) - 1))) < (2 : Rat) ^ ((bits : Int) - 1) then A - B - ((bits : Int) - 1) - 1 else A - B - ((bits : Int) - 1)))) : Rat)
        * 2 ^ (if q * 2 ^ (-(A - B - ((bits : Int) - 1))) < (2 : Rat) ^ ((bits : Int) - 1) then A - B - ((bits : Int) - 1) - 1 else A - B - ((bits : Int) - 1)) := by
    unfold roundTo
    rw [if_neg h.ne']
    simp only [if_neg (not_lt.2 h.le), hlog, hA, hB, bcast, pow2_eq]
  rw [unfold1]
  generalize hE : A - B - ((bits : Int) - 1) = E
  by_cases c : q * 2 ^ (-E) < (2 : Rat) ^ ((bits : Int) - 1)
  · rw [if_pos c]
    refine ⟨E - 1, ?_, ?_, rfl⟩
    · have : (bits : Int) - 1 + (E - 1) = A - B - 1 := by rw [← hE]; ring
      rw [this]; exact lower.le
    · have : (bits : Int) + (E - 1) = ((bits : Int) - 1) + E := by ring
      rw [this, zpow_add₀ two]
      rwa [zpow_neg, ← div_eq_mul_inv, div_lt_iff₀ (pos _)] at c
  · rw [if_neg c]
    refine ⟨E, ?_, ?_, rfl⟩
    · rw [zpow_add₀ two]
      rwa [not_lt, zpow_neg, ← div_eq_mul_inv, le_div_iff₀ (pos _)] at c
    · have : (bits : Int) + E = A - B + 1 := by rw [← hE]; ring
      rw [this]; exact upper

theorem roundTo_zero (bits : Nat) : roundTo bits 0 = 0 := by simp [roundTo]

theorem roundTo_neg (bits : Nat) (q : Rat) : roundTo bits (-q) = -roundTo bits q := by
  unfold roundTo
  by_cases h : q = 0
  · simp [h]
  · have h' : -q ≠ 0 := neg_ne_zero.2 h
    rcases lt_or_gt_of_ne h with k | k
    · have : ¬ (-q < 0) := by linarith
      simp only [if_neg h, if_neg h', if_pos k, if_neg this, neg_neg]
    · have k' : -q < 0 := by linarith
      have : ¬ (q < 0) := by linarith
      simp only [if_neg h, if_neg h', if_pos k', if_neg this, neg_neg]

theorem roundTo_nonneg {bits : Nat} (hb : 1 ≤ bits) {q : Rat} (h : 0 ≤ q) : 0 ≤ roundTo bits q := by
  rcases h.eq_or_lt with rfl | h
  · rw [roundTo_zero]
  · obtain ⟨e, -, -, k⟩ := roundTo_pos hb h
    rw [k]; positivity

/-- The relative error of rounding to nearest is at most half a unit in the last place. -/
theorem roundTo_err {bits : Nat} (hb : 1 ≤ bits) (q : Rat) : |roundTo bits q - q| ≤ (2 : Rat) ^ (-(bits : Int)) * |q| := by
  have main : ∀ q : Rat, 0 < q → |roundTo bits q - q| ≤ (2 : Rat) ^ (-(bits : Int)) * |q| := by
    intro q h
    obtain ⟨e, h1, -, h3⟩ := roundTo_pos hb h
    have two : (2 : Rat) ≠ 0 := by norm_num
    have pe : (0 : Rat) < 2 ^ e := zpow_pos (by norm_num) e
    have s0 : 0 ≤ q * 2 ^ (-e) := mul_nonneg h.le (zpow_pos (by norm_num) _).le
    have er := roundEven_err s0
    have e1 : roundTo bits q - q = ((roundEven (q * 2 ^ (-e)) : Rat) - q * 2 ^ (-e)) * 2 ^ e := by
      rw [h3, sub_mul, mul_assoc, ← zpow_add₀ two]; simp
    rw [e1, abs_mul, abs_of_pos pe, abs_of_pos h]
    calc |(roundEven (q * 2 ^ (-e)) : Rat) - q * 2 ^ (-e)| * 2 ^ e ≤ 1 / 2 * 2 ^ e := mul_le_mul_of_nonneg_right er pe.le
      _ = 2 ^ (-(bits : Int)) * 2 ^ ((bits : Int) - 1 + e) := by
          rw [← zpow_add₀ two]
          have : -(bits : Int) + ((bits : Int) - 1 + e) = -1 + e := by ring
          rw [this, zpow_add₀ two]; norm_num
      _ ≤ 2 ^ (-(bits : Int)) * q := mul_le_mul_of_nonneg_left h1 (zpow_pos (by norm_num) _).le
  rcases lt_trichotomy q 0 with h | h | h
  · have := main (-q) (by linarith)
    rw [roundTo_neg, abs_neg] at this
    rw [← abs_neg]
    have e : -(roundTo bits q - q) = -roundTo bits q - -q := by ring
    rw [e]; exact this
  · subst h; simp [roundTo_zero]
  · exact main q h

/-- A number with at most `bits` significant bits is not changed. -/
theorem roundTo_exact {bits : Nat} (hb : 1 ≤ bits) {q : Rat} {m k : Int} (hq : q = m * 2 ^ k) (hm : |m| ≤ 2 ^ bits) : roundTo bits q = q := by
  have two : (2 : Rat) ≠ 0 := by norm_num
  have main : ∀ (m k : Int) (q : Rat), 0 < q → q = m * 2 ^ k → |m| < 2 ^ bits → roundTo bits q = q := by
    intro m k q h hq hm
    obtain ⟨e, h1, -, h3⟩ := roundTo_pos hb h
    have pk : (0 : Rat) < 2 ^ k := zpow_pos (by norm_num) k
    have m0 : 0 < m := by
      rw [hq] at h
      have : (0 : Rat) < m := by by_contra c; nlinarith
      exact_mod_cast this
    have hm' : (m : Rat) < 2 ^ (bits : Int) := by
      rw [abs_of_pos m0] at hm
      rw [zpow_natCast]; exact_mod_cast hm
    have ek : e ≤ k := by
      have : (2 : Rat) ^ ((bits : Int) - 1 + e) < 2 ^ ((bits : Int) + k) := by
        calc (2 : Rat) ^ ((bits : Int) - 1 + e) ≤ q := h1
          _ = m * 2 ^ k := hq
          _ < 2 ^ (bits : Int) * 2 ^ k := mul_lt_mul_of_pos_right hm' pk
          _ = _ := by rw [zpow_add₀ two]
      have := (zpow_lt_zpow_iff_right₀ (by norm_num : (1 : Rat) < 2)).1 this
      omega
    obtain ⟨d, hd⟩ := Int.eq_ofNat_of_zero_le (sub_nonneg.2 ek)
    obtain ⟨M, hM⟩ := Int.eq_ofNat_of_zero_le m0.le
    have es : q * 2 ^ (-e) = ((M * 2 ^ d : Nat) : Rat) := by
      rw [hq, mul_assoc, ← zpow_add₀ two]
      have : k + -e = (d : Int) := by omega
      rw [this, hM, zpow_natCast]; push_cast; rfl
    rw [h3, es, roundEven_nat, ← es, mul_assoc, ← zpow_add₀ two]; simp
  have main2 : ∀ (m k : Int) (q : Rat), 0 < q → q = m * 2 ^ k → |m| ≤ 2 ^ bits → roundTo bits q = q := by
    intro m k q h hq hm
    rcases hm.lt_or_eq with c | c
    · exact main m k q h hq c
    · have pk : (0 : Rat) < 2 ^ k := zpow_pos (by norm_num) k
      have m0 : 0 < m := by
        rw [hq] at h
        have : (0 : Rat) < m := by by_contra c; nlinarith
        exact_mod_cast this
      rw [abs_of_pos m0] at c
      refine main 1 (bits + k) q h ?_ ?_
      · rw [hq, c, zpow_add₀ two, zpow_natCast]; push_cast; ring
      · rw [abs_one]; exact one_lt_pow₀ (by norm_num) (by omega)
  rcases lt_trichotomy q 0 with h | h | h
  · have := main2 (-m) k (-q) (by linarith) (by rw [hq]; push_cast; ring) (by rwa [abs_neg])
    rw [roundTo_neg] at this; linarith
  · subst h; exact roundTo_zero _
  · exact main2 m k q h hq hm

/-- Rounding is monotone. -/
theorem roundTo_mono {bits : Nat} (hb : 1 ≤ bits) {p q : Rat} (h : p ≤ q) : roundTo bits p ≤ roundTo bits q := by
  have two : (2 : Rat) ≠ 0 := by norm_num
  have main : ∀ p q : Rat, 0 < p → p ≤ q → roundTo bits p ≤ roundTo bits q := by
    intro p q hp h
    have hq := lt_of_lt_of_le hp h
    obtain ⟨e, h1, h2, h3⟩ := roundTo_pos hb hp
    obtain ⟨e', h1', h2', h3'⟩ := roundTo_pos hb hq
    have pe : (0 : Rat) < 2 ^ e := zpow_pos (by norm_num) e
    have pe' : (0 : Rat) < 2 ^ e' := zpow_pos (by norm_num) e'
    have ee : e ≤ e' := by
      have : (2 : Rat) ^ ((bits : Int) - 1 + e) < 2 ^ ((bits : Int) + e') := lt_of_le_of_lt h1 (lt_of_le_of_lt h h2')
      have := (zpow_lt_zpow_iff_right₀ (by norm_num : (1 : Rat) < 2)).1 this
      omega
    have s0 : 0 ≤ p * 2 ^ (-e) := mul_nonneg hp.le (zpow_pos (by norm_num) _).le
    rcases ee.lt_or_eq with c | c
    · have up : roundEven (p * 2 ^ (-e)) ≤ 2 ^ bits := by
        have : p * 2 ^ (-e) ≤ ((2 ^ bits : Nat) : Rat) := by
          rw [zpow_neg, ← div_eq_mul_inv, div_le_iff₀ pe]
          push_cast; rw [← zpow_natCast, ← zpow_add₀ two]; exact h2.le
        have := roundEven_mono s0 this
        rwa [roundEven_nat] at this
      have lo : 2 ^ (bits - 1) ≤ roundEven (q * 2 ^ (-e')) := by
        have : ((2 ^ (bits - 1) : Nat) : Rat) ≤ q * 2 ^ (-e') := by
          rw [zpow_neg, ← div_eq_mul_inv, le_div_iff₀ pe']
          push_cast; rw [← zpow_natCast, ← zpow_add₀ two]
          have e1 : ((bits - 1 : Nat) : Int) + e' = (bits : Int) - 1 + e' := by omega
          rw [e1]; exact h1'
        have := roundEven_mono (by positivity) this
        rwa [roundEven_nat] at this
      rw [h3, h3']
      have up' : (roundEven (p * 2 ^ (-e)) : Rat) ≤ 2 ^ (bits : Int) := by rw [zpow_natCast]; exact_mod_cast up
      have lo' : (2 : Rat) ^ ((bits : Int) - 1) ≤ roundEven (q * 2 ^ (-e')) := by
        have e1 : (bits : Int) - 1 = ((bits - 1 : Nat) : Int) := by omega
        rw [e1, zpow_natCast]; exact_mod_cast lo
      calc (roundEven (p * 2 ^ (-e)) : Rat) * 2 ^ e ≤ 2 ^ (bits : Int) * 2 ^ e := mul_le_mul_of_nonneg_right up' pe.le
        _ = 2 ^ ((bits : Int) + e) := by rw [zpow_add₀ two]
        _ ≤ 2 ^ ((bits : Int) - 1 + e') := zpow_le_zpow_right₀ (by norm_num) (by omega)
        _ = 2 ^ ((bits : Int) - 1) * 2 ^ e' := by rw [zpow_add₀ two]
        _ ≤ _ := mul_le_mul_of_nonneg_right lo' pe'.le
    · subst c
      rw [h3, h3']
      refine mul_le_mul_of_nonneg_right ?_ pe.le
      exact_mod_cast roundEven_mono s0 (mul_le_mul_of_nonneg_right h (zpow_pos (by norm_num) _).le)
  rcases lt_or_ge 0 p with hp | hp
  · exact main p q hp h
  · rcases le_or_gt 0 q with hq | hq
    · have a := roundTo_nonneg hb hq
      have b := roundTo_nonneg hb (neg_nonneg.2 hp)
      rw [roundTo_neg] at b; linarith
    · have := main (-q) (-p) (by linarith) (by linarith)
      rw [roundTo_neg, roundTo_neg] at this; linarith

/-- A number close to a short dyadic number is rounded to it. -/
theorem roundTo_snap {bits : Nat} (hb : 1 ≤ bits) {q : Rat} {m k : Int} (m0 : 0 < m) (hm : m < 2 ^ (bits - 1)) (h1 : (1 - 2 / 3 / 2 ^ (bits + 1)) * (m * 2 ^ k) ≤ q) (h2 : q ≤ m * 2 ^ k) :
    roundTo bits q = m * 2 ^ k := by
  have two : (2 : Rat) ≠ 0 := by norm_num
  have pos : ∀ z : Int, (0 : Rat) < 2 ^ z := fun z => zpow_pos (by norm_num) z
  have bp : (2 : Rat) ^ (bits + 1) = 2 * 2 ^ bits := by rw [pow_succ]; ring
  have b2 : (2 : Rat) ≤ 2 ^ bits := by
    have : (2 : Rat) ^ 1 ≤ 2 ^ bits := pow_le_pow_right₀ (by norm_num) hb
    simpa using this
  generalize hβ : (2 : Rat) ^ bits = β at *
  have mq : (0 : Rat) < m := by exact_mod_cast m0
  have y0 : (0 : Rat) < m * 2 ^ k := mul_pos mq (pos k)
  rw [bp] at h1
  have δ : 2 / 3 / (2 * β) = 1 / 3 / β := by field_simp
  rw [δ] at h1
  have δ1 : 1 / 3 / β ≤ 1 / 6 := by
    rw [div_le_iff₀ (by linarith)]; linarith
  have q0 : 0 < q := lt_of_lt_of_le (mul_pos (by linarith) y0) h1
  obtain ⟨E, e1, e2, e3⟩ := roundTo_pos hb q0
  have mb : (m : Rat) < 2 ^ ((bits : Int) - 1) := by
    have : ((bits : Int) - 1) = ((bits - 1 : Nat) : Int) := by omega
    rw [this, zpow_natCast]; exact_mod_cast hm
  have kE : E < k := by
    have : (2 : Rat) ^ ((bits : Int) - 1 + E) < 2 ^ ((bits : Int) - 1) * 2 ^ k := lt_of_le_of_lt (le_trans e1 h2) (mul_lt_mul_of_pos_right mb (pos k))
    rw [← zpow_add₀ two] at this
    have := (zpow_lt_zpow_iff_right₀ (by norm_num : (1 : Rat) < 2)).1 this
    omega
  obtain ⟨d, hd⟩ := Int.eq_ofNat_of_zero_le (show 0 ≤ k - E by omega)
  have hk : (2 : Rat) ^ k = 2 ^ d * 2 ^ E := by
    have : k = d + E := by omega
    rw [this, zpow_add₀ two, zpow_natCast]
  obtain ⟨M, hM⟩ := Int.eq_ofNat_of_zero_le m0.le
  have hN : (m : Rat) * 2 ^ k = ((M * 2 ^ d : Nat) : Rat) * 2 ^ E := by
    rw [hk, hM]; push_cast; ring
  rw [hN] at h1 h2 ⊢
  rw [e3]
  generalize M * 2 ^ d = N at *
  have eb : (2 : Rat) ^ ((bits : Int) + E) = β * 2 ^ E := by rw [zpow_add₀ two, zpow_natCast, hβ]
  rw [eb] at e2
  have pe := pos E
  have hx : q = q * 2 ^ (-E) * 2 ^ E := by rw [zpow_neg]; field_simp
  generalize hz : q * 2 ^ (-E) = x at *
  rw [hx] at h1 h2 e2 q0
  generalize (2 : Rat) ^ E = s at *
  have k1 : (1 - 1 / 3 / β) * N ≤ x := by
    have : (1 - 1 / 3 / β) * N * s ≤ x * s := by linarith
    exact le_of_mul_le_mul_right this pe
  have k2 : x ≤ N := le_of_mul_le_mul_right h2 pe
  have k3 : x < β := lt_of_mul_lt_mul_right e2 pe.le
  have x0 : 0 < x := pos_of_mul_pos_left q0 pe.le
  have g : (1 / 3 / β) * N < 1 / 2 := by
    have : (1 - 1 / 3 / β) * N < β := by linarith
    have n0 : (0 : Rat) ≤ N := by positivity
    have : 5 / 6 * (N : Rat) < β := by nlinarith
    have bpos : 0 < β := by linarith
    have e : 1 / 3 / β * N = N / (3 * β) := by field_simp
    rw [e, div_lt_iff₀ (by linarith)]
    linarith
  have er := abs_le.1 (roundEven_err x0.le)
  have a1 : (N : Rat) < roundEven x + 1 := by linarith
  have a2 : (roundEven x : Rat) < N + 1 := by linarith
  have c1 : N < roundEven x + 1 := by exact_mod_cast a1
  have c2 : roundEven x < N + 1 := by exact_mod_cast a2
  have : roundEven x = N := by omega
  rw [this]

/-! ## Gradual underflow and overflow -/

theorem roundAt_neg (e : Int) (q : Rat) : roundAt e (-q) = -roundAt e q := by
  unfold roundAt
  rcases lt_trichotomy q 0 with h | h | h
  · rw [if_neg (by linarith), if_pos h, neg_neg]
  · subst h; simp [roundEven]
  · rw [if_pos (by linarith), if_neg (by linarith), neg_neg]

theorem roundAt_of_nonneg (e : Int) {q : Rat} (h : 0 ≤ q) : roundAt e q = (roundEven (q * 2 ^ (-e)) : Rat) * 2 ^ e := by
  unfold roundAt
  rw [if_neg (not_lt.2 h), pow2_eq, pow2_eq]

theorem roundAt_err (e : Int) (q : Rat) : |roundAt e q - q| ≤ 1 / 2 * 2 ^ e := by
  have two : (2 : Rat) ≠ 0 := by norm_num
  have main : ∀ q : Rat, 0 ≤ q → |roundAt e q - q| ≤ 1 / 2 * 2 ^ e := by
    intro q h
    have pe : (0 : Rat) < 2 ^ e := zpow_pos (by norm_num) e
    have s0 : 0 ≤ q * 2 ^ (-e) := mul_nonneg h (zpow_pos (by norm_num) _).le
    have er := roundEven_err s0
    have e1 : roundAt e q - q = ((roundEven (q * 2 ^ (-e)) : Rat) - q * 2 ^ (-e)) * 2 ^ e := by
      rw [roundAt_of_nonneg e h, sub_mul, mul_assoc q, ← zpow_add₀ two]; simp
    rw [e1, abs_mul, abs_of_pos pe]
    exact mul_le_mul_of_nonneg_right er pe.le
  rcases le_total 0 q with h | h
  · exact main q h
  · have := main (-q) (by linarith)
    rw [roundAt_neg] at this
    rw [← abs_neg]
    have e : -(roundAt e q - q) = -roundAt e q - -q := by ring
    rw [e]; exact this

theorem roundAt_exact {e : Int} {q : Rat} {m : Int} (hq : q = m * 2 ^ e) : roundAt e q = q := by
  have two : (2 : Rat) ≠ 0 := by norm_num
  have main : ∀ (m : Int) (q : Rat), 0 ≤ q → q = m * 2 ^ e → roundAt e q = q := by
    intro m q h hq
    have pe : (0 : Rat) < 2 ^ e := zpow_pos (by norm_num) e
    have m0 : 0 ≤ m := by
      rw [hq] at h
      have : (0 : Rat) ≤ m := nonneg_of_mul_nonneg_left h pe
      exact_mod_cast this
    obtain ⟨M, hM⟩ := Int.eq_ofNat_of_zero_le m0
    have es : q * 2 ^ (-e) = (M : Rat) := by
      rw [hq, mul_assoc, ← zpow_add₀ two, hM]; simp
    rw [roundAt_of_nonneg e h, es, roundEven_nat, hq, hM]; simp
  rcases le_total 0 q with h | h
  · exact main m q h hq
  · have := main (-m) (-q) (by linarith) (by rw [hq]; push_cast; ring)
    rw [roundAt_neg] at this; linarith

theorem roundAt_nonneg (e : Int) {q : Rat} (h : 0 ≤ q) : 0 ≤ roundAt e q := by
  rw [roundAt_of_nonneg e h]; positivity

theorem roundAt_mono (e : Int) {p q : Rat} (h : p ≤ q) : roundAt e p ≤ roundAt e q := by
  have main : ∀ p q : Rat, 0 ≤ p → p ≤ q → roundAt e p ≤ roundAt e q := by
    intro p q hp h
    rw [roundAt_of_nonneg e hp, roundAt_of_nonneg e (le_trans hp h)]
    have pe : (0 : Rat) < 2 ^ (-e) := zpow_pos (by norm_num) _
    refine mul_le_mul_of_nonneg_right ?_ (zpow_pos (by norm_num) e).le
    exact_mod_cast roundEven_mono (mul_nonneg hp pe.le) (mul_le_mul_of_nonneg_right h pe.le)
  rcases le_total 0 p with hp | hp
  · exact main p q hp h
  · rcases le_total 0 q with hq | hq
    · have a := roundAt_nonneg e hq
      have b := roundAt_nonneg e (neg_nonneg.2 hp)
      rw [roundAt_neg] at b; linarith
    · have := main (-q) (-p) (by linarith) (by linarith)
      rw [roundAt_neg, roundAt_neg] at this; linarith

theorem ite_abs (q : Rat) : (if q < 0 then -q else q) = |q| := by
  split
  · rw [abs_of_neg ‹_›]
  · rw [abs_of_nonneg (not_lt.1 ‹_›)]

theorem roundGradual_small {bits : Nat} {emin : Int} {q : Rat} (h : |q| < (2 : Rat) ^ (emin + bits - 1)) : roundGradual bits emin q = roundAt emin q := by
  unfold roundGradual; rw [ite_abs, pow2_eq, if_pos h]

theorem roundGradual_large {bits : Nat} {emin : Int} {q : Rat} (h : (2 : Rat) ^ (emin + bits - 1) ≤ |q|) : roundGradual bits emin q = roundTo bits q := by
  unfold roundGradual; rw [ite_abs, pow2_eq, if_neg (not_lt.2 h)]

theorem roundGradual_neg (bits : Nat) (emin : Int) (q : Rat) : roundGradual bits emin (-q) = -roundGradual bits emin q := by
  rcases lt_or_ge |q| ((2 : Rat) ^ (emin + bits - 1)) with h | h
  · rw [roundGradual_small h, roundGradual_small (by rwa [abs_neg]), roundAt_neg]
  · rw [roundGradual_large h, roundGradual_large (by rwa [abs_neg]), roundTo_neg]

theorem roundGradual_err {bits : Nat} (hb : 1 ≤ bits) (emin : Int) (q : Rat) :
    |roundGradual bits emin q - q| ≤ (2 : Rat) ^ (-(bits : Int)) * |q| + 1 / 2 * 2 ^ emin := by
  have pe : (0 : Rat) < 2 ^ emin := zpow_pos (by norm_num) _
  have pb : (0 : Rat) < 2 ^ (-(bits : Int)) := zpow_pos (by norm_num) _
  rcases lt_or_ge |q| ((2 : Rat) ^ (emin + bits - 1)) with h | h
  · rw [roundGradual_small h]
    have := roundAt_err emin q
    have := mul_nonneg pb.le (abs_nonneg q)
    linarith
  · rw [roundGradual_large h]
    have := roundTo_err hb q
    linarith

/-- The numbers of the format are not changed. -/
theorem roundGradual_exact {bits : Nat} (hb : 1 ≤ bits) {emin : Int} {q : Rat} {m k : Int} (hq : q = m * 2 ^ k) (hm : |m| ≤ 2 ^ bits) (hk : emin ≤ k) :
    roundGradual bits emin q = q := by
  rcases lt_or_ge |q| ((2 : Rat) ^ (emin + bits - 1)) with h | h
  · rw [roundGradual_small h]
    obtain ⟨d, hd⟩ := Int.eq_ofNat_of_zero_le (sub_nonneg.2 hk)
    refine roundAt_exact (m := m * 2 ^ d) ?_
    have : k = d + emin := by omega
    rw [hq, this, zpow_add₀ (by norm_num : (2 : Rat) ≠ 0), zpow_natCast]; push_cast; ring
  · rw [roundGradual_large h]
    exact roundTo_exact hb hq hm

theorem roundGradual_mono {bits : Nat} (hb : 1 ≤ bits) (emin : Int) {p q : Rat} (h : p ≤ q) : roundGradual bits emin p ≤ roundGradual bits emin q := by
  have two : (2 : Rat) ≠ 0 := by norm_num
  have nn : ∀ q : Rat, 0 ≤ q → 0 ≤ roundGradual bits emin q := by
    intro q h
    rcases lt_or_ge |q| ((2 : Rat) ^ (emin + bits - 1)) with k | k
    · rw [roundGradual_small k]; exact roundAt_nonneg _ h
    · rw [roundGradual_large k]; exact roundTo_nonneg hb h
  have main : ∀ p q : Rat, 0 ≤ p → p ≤ q → roundGradual bits emin p ≤ roundGradual bits emin q := by
    intro p q hp h
    have ap : |p| = p := abs_of_nonneg hp
    have aq : |q| = q := abs_of_nonneg (le_trans hp h)
    rcases lt_or_ge |p| ((2 : Rat) ^ (emin + bits - 1)) with k | k <;> rcases lt_or_ge |q| ((2 : Rat) ^ (emin + bits - 1)) with k' | k'
    · rw [roundGradual_small k, roundGradual_small k']; exact roundAt_mono _ h
    · rw [roundGradual_small k, roundGradual_large k']
      rw [ap] at k; rw [aq] at k'
      obtain ⟨d, hd⟩ : ∃ d : Nat, (bits : Int) - 1 = d := ⟨bits - 1, by omega⟩
      have e1 : (2 : Rat) ^ (emin + bits - 1) = ((2 ^ d : Int) : Rat) * 2 ^ emin := by
        have : emin + bits - 1 = d + emin := by omega
        rw [this, zpow_add₀ two, zpow_natCast]; push_cast; rfl
      have a1 := roundAt_mono emin k.le
      rw [roundAt_exact e1] at a1
      have a2 := roundTo_mono hb k'
      rw [roundTo_exact hb e1 (by rw [abs_of_nonneg (by positivity)]; exact pow_le_pow_right₀ (by norm_num) (by omega))] at a2
      exact le_trans a1 a2
    · linarith
    · rw [roundGradual_large k, roundGradual_large k']; exact roundTo_mono hb h
  rcases le_total 0 p with hp | hp
  · exact main p q hp h
  · rcases le_total 0 q with hq | hq
    · have a := nn q hq
      have b := nn (-p) (by linarith)
      rw [roundGradual_neg] at b; linarith
    · have := main (-q) (-p) (by linarith) (by linarith)
      rw [roundGradual_neg, roundGradual_neg] at this; linarith

theorem roundIEEE_in {bits : Nat} {emin : Int} {hi : Rat} {ov : Rat → Rat} {q : Rat} (h : -hi ≤ roundGradual bits emin q ∧ roundGradual bits emin q ≤ hi) :
    roundIEEE bits emin hi ov q = roundGradual bits emin q := if_pos h

/-- Saturating arithmetic is monotone. -/
theorem roundIEEE_sat_mono {bits : Nat} (hb : 1 ≤ bits) {emin : Int} {hi : Rat} (h0 : 0 ≤ hi) {p q : Rat} (h : p ≤ q) :
    roundIEEE bits emin hi (saturate hi) p ≤ roundIEEE bits emin hi (saturate hi) q := by
  have m := roundGradual_mono hb emin h
  have z : ∀ q : Rat, (0 ≤ q → 0 ≤ roundGradual bits emin q) ∧ (q ≤ 0 → roundGradual bits emin q ≤ 0) := by
    intro q
    have e0 : roundGradual bits emin 0 = 0 := roundGradual_exact hb (m := 0) (k := emin) (by simp) (by simp) le_rfl
    constructor
    · intro k; have := roundGradual_mono hb emin k; rwa [e0] at this
    · intro k; have := roundGradual_mono hb emin k; rwa [e0] at this
  have zp := z p
  have zq := z q
  unfold roundIEEE saturate
  simp only
  generalize roundGradual bits emin p = P at *
  generalize roundGradual bits emin q = Q at *
  by_cases cP : -hi ≤ P ∧ P ≤ hi
  · rw [if_pos cP]
    by_cases cQ : -hi ≤ Q ∧ Q ≤ hi
    · rw [if_pos cQ]; exact m
    · rw [if_neg cQ]
      split
      · have := zq.2 (by linarith)
        exact absurd ⟨by linarith [cP.1], by linarith⟩ cQ
      · exact cP.2
  · rw [if_neg cP]
    by_cases cQ : -hi ≤ Q ∧ Q ≤ hi
    · rw [if_pos cQ]
      split
      · exact cQ.1
      · have := zp.1 (by linarith)
        exact absurd ⟨by linarith, by linarith [cQ.2]⟩ cP
    · rw [if_neg cQ]
      by_cases c1 : p < 0
      · rw [if_pos c1]; split <;> linarith
      · rw [if_neg c1, if_neg (by linarith)]

end P2T
