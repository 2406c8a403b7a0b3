import Verif.Proofs.FloatSign
import Verif.Proofs.FineInput
import Verif.Proofs.Unique
import Mathlib.Tactic.IntervalCases

/-!
# Inputs on which the numeric hypotheses hold for `f64`
-/

namespace P2T

section
variable (n : Num) [F64Like n]

/-- The float evaluation of the orientation of the three points is right, with a margin. -/
def Agree (n : Num) (p q r : Point) : Prop :=
  (det2 p q r < 0 ∧ flDet n p q r < -n.eps) ∨ (0 < det2 p q r ∧ n.eps < flDet n p q r) ∨ (det2 p q r = 0 ∧ flDet n p q r = 0)

theorem f64_eps_pos : 0 < n.eps := by rw [f64_eps n]; norm_num

theorem agree_eq {p q r : Point} (h : p = q ∨ q = r ∨ p = r) : Agree n p q r := by
  refine .inr (.inr ?_)
  rcases h with rfl | rfl | rfl
  · constructor
    · unfold det2; ring
    · unfold flDet; rw [mul_comm (n.rnd (p.y - r.y)), sub_self, f64_zero n]
  · constructor
    · unfold det2; ring
    · unfold flDet; simp [f64_zero n]
  · constructor
    · unfold det2; ring
    · unfold flDet; simp [f64_zero n]

theorem faithful_of {all : List Point} (h : ∀ p ∈ all, ∀ q ∈ all, ∀ r ∈ all, Agree n p q r) : Faithful n all ∧ ScanComplete n all := by
  have e0 := f64_eps_pos n
  refine ⟨⟨?_, ?_, ?_⟩, ?_⟩
  · intro o ho a ha b hb hd
    rw [angle_fl n]
    rw [← det2_rotA o a b] at hd
    rcases h a ha b hb o ho with k | k | k
    · linarith [k.2]
    · linarith [k.1]
    · linarith [k.1]
  · intro a ha b hb d hd hs
    rw [scanDet_fl n] at hs
    rcases h a ha d hd b hb with k | k | k
    · exact k.1
    · linarith [k.2]
    · linarith [k.2]
  · intro a ha b hb d hd hs
    rw [scanDet_fl n] at hs
    rcases h a ha d hd b hb with k | k | k
    · linarith [k.2]
    · exact k.1
    · linarith [k.2]
  · intro a ha b hb d hd
    rw [scanDet_fl n]
    rcases h a ha d hd b hb with k | k | k
    · exact ⟨fun _ => k.2, fun c => absurd k.1 (by linarith)⟩
    · exact ⟨fun c => absurd k.1 (by linarith), fun _ => k.2⟩
    · exact ⟨fun c => absurd k.1 (by linarith), fun c => absurd k.1 (by linarith)⟩

/-- A point of the run and the exact point it stands for. -/
structure Near (B : Rat) (p p' : Point) : Prop where
  bx : |p'.x| ≤ 8 / 5 * B
  by' : |p'.y| ≤ 8 / 5 * B
  mx : |p.x - p'.x| ≤ B / 2 ^ 51
  my : |p.y - p'.y| ≤ B / 2 ^ 51

theorem agree_of_near {B : Rat} {p q r p' q' r' : Point} (hB : B ≤ 2 ^ 240) (hp : Near B p p') (hq : Near B q q') (hr : Near B r r')
    (h : B ^ 2 / 2 ^ 44 + 1 / 2 ^ 50 ≤ |det2 p' q' r'|) : Agree n p q r ∧ n.eps < |det2 p q r| := by
  have B0 : 0 ≤ B := by have := le_trans (abs_nonneg _) hp.bx; linarith
  have mv := det_move ⟨hp.bx, hp.by'⟩ ⟨hq.bx, hq.by'⟩ ⟨hr.bx, hr.by'⟩ ⟨hp.mx, hp.my⟩ ⟨hq.mx, hq.my⟩ ⟨hr.mx, hr.my⟩
  have e : 16 * (8 / 5 * B) * (B / 2 ^ 51) + 8 * (B / 2 ^ 51) ^ 2 ≤ B ^ 2 / 2 ^ 46 := by
    have : 0 ≤ B ^ 2 := by positivity
    have e : 16 * (8 / 5 * B) * (B / 2 ^ 51) + 8 * (B / 2 ^ 51) ^ 2 = (16 * (8 / 5) / 2 ^ 51 + 8 / 2 ^ 102) * B ^ 2 := by ring
    rw [e]; norm_num; linarith
  have mv' := le_trans mv e
  have df : ∀ a b a' b' : Rat, |a'| ≤ 8 / 5 * B → |b'| ≤ 8 / 5 * B → |a - a'| ≤ B / 2 ^ 51 → |b - b'| ≤ B / 2 ^ 51 → |a - b| ≤ 4 * B := by
    intro a b a' b' h1 h2 h3 h4
    rw [abs_le] at *
    norm_num at h3 h4
    constructor <;> linarith
  have big := fl_big n (df p.x r.x _ _ hp.bx hr.bx hp.mx hr.mx) (df q.y r.y _ _ hq.by' hr.by' hq.my hr.my)
    (df p.y r.y _ _ hp.by' hr.by' hp.my hr.my) (df q.x r.x _ _ hq.bx hr.bx hq.mx hr.mx) (by
      refine le_trans (mul_le_mul_of_nonneg_left hB (by norm_num)) ?_
      rw [show (4 : Rat) = 2 ^ 2 by norm_num, ← pow_add]
      exact pow_le_pow_right₀ (by norm_num) (by norm_num))
  have e2 : 8 / 2 ^ 53 * (4 * B) ^ 2 + 1 / 2 ^ 51 = B ^ 2 / 2 ^ 46 + 1 / 2 ^ 51 := by ring
  rw [e2] at big
  have sq : 0 ≤ B ^ 2 := by positivity
  generalize B ^ 2 = S at *
  rw [abs_le] at mv'
  norm_num at mv' h big
  rcases le_or_gt 0 (det2 p' q' r') with k | k
  · rw [abs_of_nonneg k] at h
    have hb : S / 70368744177664 + 1 / 2251799813685248 ≤ det2 p q r := by linarith
    have pos : 0 < det2 p q r := by linarith
    exact ⟨.inr (.inl ⟨pos, big.1 hb⟩), by rw [abs_of_pos pos, f64_eps n]; norm_num; linarith⟩
  · rw [abs_of_neg k] at h
    have hb : det2 p q r + S / 70368744177664 ≤ -(1 / 2251799813685248) := by linarith
    have neg : det2 p q r < 0 := by linarith
    exact ⟨.inl ⟨neg, big.2 hb⟩, by rw [abs_of_neg neg, f64_eps n]; norm_num; linarith⟩

/-- The points of the run. -/
theorem run_near {pts : List Point} {B : Rat} (hne : pts ≠ []) (hb : ∀ p ∈ pts, |p.x| ≤ B ∧ |p.y| ≤ B) (hB' : 1 / 2 ^ 20 ≤ B ∧ B ≤ 2 ^ 240) :
    ∃ head tail x0 x1 y0 y1, withArtificial n pts = pts ++ [head, tail] ∧ artLeft n pts = head ∧ artRight n pts = tail ∧
      BoundingBox pts x0 x1 y0 y1 ∧ Near B head (cornerLeft x0 x1 y0 y1) ∧ Near B tail (cornerRight x0 x1 y0 y1) ∧ (∀ p ∈ pts, Near B p p) := by
  obtain ⟨head, tail, x1, x0, y1, y0, h1, h2, h3, h4, h5⟩ := ctx_points n pts []
  have hB : B ≤ 2 ^ 500 := le_trans hB'.2 (pow_le_pow_right₀ (by norm_num) (by norm_num))
  have hi : B ≤ n.hi := le_trans hB F64Like.hi
  have lo : n.lo ≤ -B := le_trans F64Like.lo (neg_le_neg hB)
  obtain ⟨⟨a, ha, ea⟩, ⟨b, hb', eb⟩, ⟨c, hc, ec⟩, ⟨d, hd, ed⟩⟩ := h5 hne (fun p hp => by
    have := hb p hp
    rw [abs_le, abs_le] at this
    exact ⟨⟨by linarith, by linarith⟩, by linarith, by linarith⟩)
  have e1 : withArtificial n pts = pts ++ [head, tail] := by rw [withArtificial, h1, List.append_assoc]; rfl
  refine ⟨head, tail, x0, x1, y0, y1, e1, ?_, ?_, ⟨h4, ⟨b, hb', eb.symm⟩, ⟨a, ha, ea.symm⟩, ⟨d, hd, ed.symm⟩, ⟨c, hc, ec.symm⟩⟩, ?_, ?_, ?_⟩
  · simp [artLeft, e1, List.getD]
  · simp [artRight, e1, List.getD]
  all_goals
    have kx1 : |x1| ≤ B := by rw [ea]; exact (hb a ha).1
    have kx0 : |x0| ≤ B := by rw [eb]; exact (hb b hb').1
    have ky1 : |y1| ≤ B := by rw [ec]; exact (hb c hc).2
    have ky0 : |y0| ≤ B := by rw [ed]; exact (hb d hd).2
    have wx : x0 ≤ x1 := by have := h4 a ha; linarith
    have wy : y0 ≤ y1 := by have := h4 a ha; linarith
    have kx1' := abs_le.1 kx1
    have kx0' := abs_le.1 kx0
    have ky1' := abs_le.1 ky1
    have ky0' := abs_le.1 ky0
  · have m1 := art_err n (s := -1) hB' kx0 (w := x1 - x0) (by linarith) (by linarith) (.inr rfl)
    have m2 := art_err n (s := -1) hB' ky0 (w := y1 - y0) (by linarith) (by linarith) (.inr rfl)
    simp only [neg_mul, one_mul, ← sub_eq_add_neg] at m1 m2
    rw [h2]
    exact ⟨by simp only [cornerLeft]; rw [abs_le]; constructor <;> linarith, by simp only [cornerLeft]; rw [abs_le]; constructor <;> linarith, m1, m2⟩
  · have m1 := art_err n (s := 1) hB' kx1 (w := x1 - x0) (by linarith) (by linarith) (.inl rfl)
    have m2 := art_err n (s := -1) hB' ky0 (w := y1 - y0) (by linarith) (by linarith) (.inr rfl)
    simp only [neg_mul, one_mul, ← sub_eq_add_neg] at m1 m2
    rw [h3]
    exact ⟨by simp only [cornerRight]; rw [abs_le]; constructor <;> linarith, by simp only [cornerRight]; rw [abs_le]; constructor <;> linarith, m1, m2⟩
  · intro p hp
    have := hb p hp
    have B0 : 0 ≤ B := le_trans (abs_nonneg _) this.1
    refine ⟨by linarith, by linarith, ?_, ?_⟩ <;> (rw [sub_self, abs_zero]; positivity)

/-- The box is not flat. -/
theorem box_open {pts : List Point} {x0 x1 y0 y1 : Rat} (hb : BoundingBox pts x0 x1 y0 y1) (h : ∃ a ∈ pts, ∃ b ∈ pts, a ≠ b)
    (hc : ClearOfCorners pts) : x0 < x1 ∧ y0 < y1 := by
  obtain ⟨a, ha, b, hb', hab⟩ := h
  have ia := hb.inside a ha
  have ib := hb.inside b hb'
  have k := (hc _ _ _ _ hb a ha b hb' hab).1
  constructor
  · by_contra c
    apply k
    have e1 : a.x = x0 := by linarith
    have e2 : b.x = x0 := by linarith
    have e3 : x1 = x0 := by linarith
    simp only [det2, cornerLeft, e1, e2, e3]; ring
  · by_contra c
    apply k
    have e1 : a.y = y0 := by linarith
    have e2 : b.y = y0 := by linarith
    have e3 : y1 = y0 := by linarith
    simp only [det2, cornerLeft, e1, e2, e3]; ring

theorem mem_run {pts : List Point} {B : Rat} {head tail l r : Point} (hl : Near B head l) (hr : Near B tail r) (hp : ∀ p ∈ pts, Near B p p)
    {p : Point} (h : p ∈ pts ++ [head, tail]) : (p ∈ pts ∧ Near B p p) ∨ (p = head ∧ Near B p l) ∨ (p = tail ∧ Near B p r) := by
  simp only [List.mem_append, List.mem_cons, List.not_mem_nil, or_false] at h
  rcases h with h | rfl | rfl
  · exact .inl ⟨h, hp _ h⟩
  · exact .inr (.inl ⟨rfl, hl⟩)
  · exact .inr (.inr ⟨rfl, hr⟩)

omit [F64Like n] in
theorem far_in {x : Rat} (h : |x| ≤ 2 ^ 240) : |x| ≤ 2 ^ 1000 := le_trans h (pow_le_pow_right₀ (by norm_num) (by norm_num))

theorem far_eps {x : Rat} (h : |x| ≤ 2 ^ 240) : |x + n.eps| ≤ 2 ^ 1000 := by
  have e : (2 : Rat) ^ 240 + 1 ≤ 2 ^ 241 := by norm_num
  refine le_trans (abs_add_le _ _) (le_trans ?_ (le_trans e (pow_le_pow_right₀ (by norm_num) (by norm_num))))
  refine add_le_add h ?_
  rw [f64_eps n, abs_of_pos (by norm_num)]; norm_num

theorem fine_of_agree {pts : List Point} {B : Rat} {head tail : Point} {x0 x1 y0 y1 : Rat} (hne : pts ≠ []) (hnd : pts.Nodup) (hsz : pts.length + 2 ≤ 2 ^ 32)
    (hall : withArtificial n pts = pts ++ [head, tail]) (hL : artLeft n pts = head) (hR : artRight n pts = tail)
    (box : BoundingBox pts x0 x1 y0 y1) (nl : Near B head (cornerLeft x0 x1 y0 y1)) (nr : Near B tail (cornerRight x0 x1 y0 y1))
    (wx : B / 2 ^ 51 < 3 / 10 * (x1 - x0)) (wy : B / 2 ^ 51 < 3 / 10 * (y1 - y0)) (hfl : ∀ p ∈ pts, IsF64 p.x)
    (hbd : ∀ p ∈ pts, |p.x| ≤ 2 ^ 240)
    (hap : ∀ p ∈ pts, ∀ q ∈ pts, q.x < p.x → n.rnd (q.x + n.eps) < p.x)
    (hag : ∀ p ∈ pts ++ [head, tail], ∀ q ∈ pts ++ [head, tail], ∀ r ∈ pts ++ [head, tail], Agree n p q r) :
    FineInput n pts ∧ ScanComplete n (withArtificial n pts) ∧ EpsUp n pts := by
  obtain ⟨f1, f2⟩ := faithful_of n hag
  refine ⟨⟨hne, hsz, hnd, ?_, ?_, by rw [hall]; exact f1⟩, by rw [hall]; exact f2, ?_⟩
  · intro p hp
    have ip := box.inside p hp
    rw [hL, hR]
    have a := abs_le.1 nl.mx
    have b := abs_le.1 nl.my
    have c := abs_le.1 nr.mx
    simp only [cornerLeft, cornerRight] at a b c
    exact ⟨by linarith, by linarith, by linarith⟩
  · intro p hp q hq h
    by_contra c
    have := hap p hp q hq (not_le.1 c)
    linarith
  · intro p hp
    have := f64_mono n (x := p.x) (y := p.x + n.eps) (far_in (hbd p hp)) (far_eps n (hbd p hp)) (by have := f64_eps_pos n; linarith)
    rwa [f64_fix n (hfl p hp)] at this

theorem ne_pair {pts : List Point} (hnd : pts.Nodup) (h2 : 2 ≤ pts.length) : ∃ a ∈ pts, ∃ b ∈ pts, a ≠ b := by
  match pts, hnd, h2 with
  | a :: b :: l, hnd, _ =>
    refine ⟨a, by simp, b, by simp, ?_⟩
    rintro rfl
    simp at hnd

/-- The enlarged corners are not input points, and differ. -/
theorem corners_ne {pts : List Point} {x0 x1 y0 y1 : Rat} (hb : BoundingBox pts x0 x1 y0 y1) (hx : x0 < x1) :
    (∀ p ∈ pts, p ≠ cornerLeft x0 x1 y0 y1 ∧ p ≠ cornerRight x0 x1 y0 y1) ∧ cornerLeft x0 x1 y0 y1 ≠ cornerRight x0 x1 y0 y1 := by
  refine ⟨fun p hp => ⟨?_, ?_⟩, ?_⟩
  · intro e; have := (hb.inside p hp).1; rw [e] at this; simp only [cornerLeft] at this; linarith
  · intro e; have := (hb.inside p hp).2.1; rw [e] at this; simp only [cornerRight] at this; linarith
  · intro e
    have := congrArg Point.x e
    simp only [cornerLeft, cornerRight] at this; linarith

/-- Well separated points satisfy all numeric hypotheses. -/
theorem WellSeparated.fine {B : Rat} {pts : List Point} (h : WellSeparated B pts) (hnd : pts.Nodup) (h2 : 2 ≤ pts.length) (hsz : pts.length + 2 ≤ 2 ^ 32) :
    FineInput n pts ∧ ScanComplete n (withArtificial n pts) ∧ EpsUp n pts ∧ GeneralPosition (withArtificial n pts) := by
  have hne : pts ≠ [] := by rintro rfl; simp at h2
  obtain ⟨head, tail, x0, x1, y0, y1, hall, hL, hR, box, nl, nr, np⟩ := run_near n hne h.bounded h.range
  have W := h.wide _ _ _ _ box
  have mem : ∀ p ∈ pts, p ∈ pts ++ [cornerLeft x0 x1 y0 y1, cornerRight x0 x1 y0 y1] := fun p hp => by simp [hp]
  have mL : cornerLeft x0 x1 y0 y1 ∈ pts ++ [cornerLeft x0 x1 y0 y1, cornerRight x0 x1 y0 y1] := by simp
  have mR : cornerRight x0 x1 y0 y1 ∈ pts ++ [cornerLeft x0 x1 y0 y1, cornerRight x0 x1 y0 y1] := by simp
  obtain ⟨a, ha, b, hb, hab⟩ := ne_pair hnd h2
  have B0 : 0 ≤ B := le_trans (abs_nonneg _) (h.bounded a ha).1
  have marg : 0 < B ^ 2 / 2 ^ 44 + 1 / 2 ^ 50 := by positivity
  have hopen : x0 < x1 ∧ y0 < y1 := by
    have ia := box.inside a ha
    have ib := box.inside b hb
    by_contra c
    have pos : 0 < |det2 (cornerLeft x0 x1 y0 y1) a b| → False := by
      intro k
      rw [abs_pos] at k
      apply c
      constructor
      · by_contra c
        apply k
        have e1 : a.x = x0 := by linarith
        have e2 : b.x = x0 := by linarith
        have e3 : x1 = x0 := by linarith
        simp only [det2, cornerLeft, e1, e2, e3]; ring
      · by_contra c
        apply k
        have e1 : a.y = y0 := by linarith
        have e2 : b.y = y0 := by linarith
        have e3 : y1 = y0 := by linarith
        simp only [det2, cornerLeft, e1, e2, e3]; ring
    by_cases ca : cornerLeft x0 x1 y0 y1 = a
    · have e1 := congrArg Point.x ca
      have e2 := congrArg Point.y ca
      simp only [cornerLeft] at e1 e2
      apply hab
      have : a.x = b.x := by linarith
      have : a.y = b.y := by linarith
      cases a; cases b; simp_all
    · by_cases cb : cornerLeft x0 x1 y0 y1 = b
      · have e1 := congrArg Point.x cb
        have e2 := congrArg Point.y cb
        simp only [cornerLeft] at e1 e2
        apply hab
        have : a.x = b.x := by linarith
        have : a.y = b.y := by linarith
        cases a; cases b; simp_all
      · exact pos (lt_of_lt_of_le marg (W _ mL a (mem a ha) b (mem b hb) ca hab cb))
  obtain ⟨cp, clr⟩ := corners_ne box hopen.1
  have wid : B / 2 ^ 51 < 3 / 10 * (x1 - x0) ∧ B / 2 ^ 51 < 3 / 10 * (y1 - y0) := by
    have k := W _ mL _ mR a (mem a ha) clr (cp a ha).2.symm (cp a ha).1.symm
    have ia := box.inside a ha
    have e : det2 (cornerLeft x0 x1 y0 y1) (cornerRight x0 x1 y0 y1) a = 8 / 5 * (x1 - x0) * (a.y - y0 + 3 / 10 * (y1 - y0)) := by
      simp only [det2, cornerLeft, cornerRight]; ring
    have nn : 0 ≤ 8 / 5 * (x1 - x0) * (a.y - y0 + 3 / 10 * (y1 - y0)) := by
      have : 0 < x1 - x0 := by linarith [hopen.1]
      have : 0 < y1 - y0 := by linarith [hopen.2]
      have : 0 ≤ a.y - y0 := by linarith
      positivity
    rw [e, abs_of_nonneg nn] at k
    obtain ⟨q1, m1, f1⟩ := box.left
    obtain ⟨q2, m2, f2⟩ := box.right
    obtain ⟨q3, m3, f3⟩ := box.bottom
    obtain ⟨q4, m4, f4⟩ := box.top
    have g1 := abs_le.1 (h.bounded q1 m1).1
    have g2 := abs_le.1 (h.bounded q2 m2).1
    have g3 := abs_le.1 (h.bounded q3 m3).2
    have g4 := abs_le.1 (h.bounded q4 m4).2
    rw [f1] at g1; rw [f2] at g2; rw [f3] at g3; rw [f4] at g4
    have w2 : x1 - x0 ≤ 2 * B := by linarith
    have h2 : y1 - y0 ≤ 2 * B := by linarith
    have w0 : 0 < x1 - x0 := by linarith [hopen.1]
    have h0 : 0 < y1 - y0 := by linarith [hopen.2]
    generalize x1 - x0 = w at *
    generalize hh : y1 - y0 = v at *
    have k2 : B ^ 2 / 2 ^ 44 + 1 / 2 ^ 50 ≤ 8 / 5 * w * (13 / 10 * v) := by
      refine le_trans k (mul_le_mul_of_nonneg_left ?_ (by positivity))
      linarith
    norm_num at k2 ⊢
    constructor
    · have : w * v ≤ w * (2 * B) := mul_le_mul_of_nonneg_left h2 w0.le
      by_contra c
      have c' : w ≤ 10 / 3 * (B / 2251799813685248) := by linarith
      have : w * (2 * B) ≤ 10 / 3 * (B / 2251799813685248) * (2 * B) := mul_le_mul_of_nonneg_right c' (by linarith)
      have q : 10 / 3 * (B / 2251799813685248) * (2 * B) = B ^ 2 * (20 / 3 / 2251799813685248) := by ring
      have sq : 0 ≤ B ^ 2 := by positivity
      rw [q] at this
      linarith
    · have : w * v ≤ (2 * B) * v := mul_le_mul_of_nonneg_right w2 h0.le
      by_contra c
      have c' : v ≤ 10 / 3 * (B / 2251799813685248) := by linarith
      have : (2 * B) * v ≤ (2 * B) * (10 / 3 * (B / 2251799813685248)) := mul_le_mul_of_nonneg_left c' (by linarith)
      have q : (2 * B) * (10 / 3 * (B / 2251799813685248)) = B ^ 2 * (20 / 3 / 2251799813685248) := by ring
      have sq : 0 ≤ B ^ 2 := by positivity
      rw [q] at this
      linarith
  -- the exact point of a run point
  have ex : ∀ p ∈ pts ++ [head, tail], ∃ p', p' ∈ pts ++ [cornerLeft x0 x1 y0 y1, cornerRight x0 x1 y0 y1] ∧ Near B p p' ∧
      ((p ∈ pts ∧ p' = p) ∨ (p = head ∧ p' = cornerLeft x0 x1 y0 y1) ∨ (p = tail ∧ p' = cornerRight x0 x1 y0 y1)) := by
    intro p hp
    rcases mem_run nl nr np hp with ⟨k1, k2⟩ | ⟨k1, k2⟩ | ⟨k1, k2⟩
    · exact ⟨p, mem p k1, k2, .inl ⟨k1, rfl⟩⟩
    · exact ⟨_, mL, k2, .inr (.inl ⟨k1, rfl⟩)⟩
    · exact ⟨_, mR, k2, .inr (.inr ⟨k1, rfl⟩)⟩
  have inj : ∀ {p q p' q' : Point}, ((p ∈ pts ∧ p' = p) ∨ (p = head ∧ p' = cornerLeft x0 x1 y0 y1) ∨ (p = tail ∧ p' = cornerRight x0 x1 y0 y1)) →
      ((q ∈ pts ∧ q' = q) ∨ (q = head ∧ q' = cornerLeft x0 x1 y0 y1) ∨ (q = tail ∧ q' = cornerRight x0 x1 y0 y1)) → p ≠ q → p' ≠ q' := by
    intro p q p' q' h1 h2 hn
    rcases h1 with ⟨m, rfl⟩ | ⟨rfl, rfl⟩ | ⟨rfl, rfl⟩ <;> rcases h2 with ⟨m', rfl⟩ | ⟨rfl, rfl⟩ | ⟨rfl, rfl⟩
    · exact hn
    · exact (cp _ m).1
    · exact (cp _ m).2
    · exact (cp _ m').1.symm
    · exact absurd rfl hn
    · exact clr
    · exact (cp _ m').2.symm
    · exact clr.symm
    · exact absurd rfl hn
  have tri : ∀ p ∈ pts ++ [head, tail], ∀ q ∈ pts ++ [head, tail], ∀ r ∈ pts ++ [head, tail], p ≠ q → q ≠ r → p ≠ r → Agree n p q r ∧ n.eps < |det2 p q r| := by
    intro p hp q hq r hr n1 n2 n3
    obtain ⟨p', a1, a2, a3⟩ := ex p hp
    obtain ⟨q', b1, b2, b3⟩ := ex q hq
    obtain ⟨r', c1, c2, c3⟩ := ex r hr
    exact agree_of_near n h.range.2 a2 b2 c2 (W p' a1 q' b1 r' c1 (inj a3 b3 n1) (inj b3 c3 n2) (inj a3 c3 n3))
  obtain ⟨f1, f2, f3⟩ := fine_of_agree n hne hnd hsz hall hL hR box nl nr wid.1 wid.2 (fun p hp => (h.float p hp).1) (fun p hp => le_trans (h.bounded p hp).1 h.range.2) (by
    intro p hp q hq hlt
    have k := h.apart p hp q hq hlt
    have er := f64_err n (far_eps n (le_trans (h.bounded q hq).1 h.range.2))
    have hη : (1 : Rat) / 2 ^ 1000 ≤ 1 / 2 ^ 200 := by
      obtain ⟨δ, -, -, -, -, m, -⟩ := magnitudes
      exact m
    have bq := (h.bounded q hq).1
    have n1 : |q.x + n.eps| ≤ B + n.eps := by
      refine le_trans (abs_add_le _ _) ?_
      rw [abs_of_pos (f64_eps_pos n)]; linarith
    have er' := le_trans er (add_le_add (mul_le_mul_of_nonneg_left n1 (by norm_num)) hη)
    rw [f64_eps n] at *
    rw [abs_le] at er'
    norm_num at er' k ⊢
    linarith) (by
    intro p hp q hq r hr
    by_cases n1 : p = q
    · exact agree_eq n (.inl n1)
    · by_cases n2 : q = r
      · exact agree_eq n (.inr (.inl n2))
      · by_cases n3 : p = r
        · exact agree_eq n (.inr (.inr n3))
        · exact (tri p hp q hq r hr n1 n2 n3).1)
  refine ⟨f1, f2, f3, ?_⟩
  rw [hall]
  intro p hp q hq r hr n1 n2 n3
  exact abs_pos.1 (lt_trans (f64_eps_pos n) (tri p hp q hq r hr n1 n2 n3).2)

end

end P2T
