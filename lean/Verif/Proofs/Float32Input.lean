import Verif.Proofs.Float32Sign
import Verif.Proofs.GridInput

/-!
# Inputs on which the numeric hypotheses hold for `f32`

The development follows `Proofs/FloatInput`, with the constants of `f32`.
-/

namespace P2T.F32

section
variable (n : Num) [F32Like n]

theorem f32_eps_pos : 0 < n.eps := by rw [f32_eps n]; norm_num

theorem agree_eq {p q r : Point} (h : p = q ∨ q = r ∨ p = r) : Agree n p q r := by
  refine .inr (.inr ?_)
  rcases h with rfl | rfl | rfl
  · constructor
    · unfold det2; ring
    · unfold flDet; rw [mul_comm (n.rnd (p.y - r.y)), sub_self, f32_zero n]
  · constructor
    · unfold det2; ring
    · unfold flDet; simp [f32_zero n]
  · constructor
    · unfold det2; ring
    · unfold flDet; simp [f32_zero n]

theorem faithful_of {all : List Point} (h : ∀ p ∈ all, ∀ q ∈ all, ∀ r ∈ all, Agree n p q r) : Faithful n all ∧ ScanComplete n all := by
  have e0 := f32_eps_pos n
  refine ⟨⟨?_, ?_, ?_⟩, ?_⟩
  · intro o ho a ha b hb hd
    rw [angle_fl n]
    rw [← det2_rotA o a b] at hd
    rcases h a ha b hb o ho with k | k | k
    · linarith [k.2]
    · linarith [k.1]
    · linarith [k.1]
  · intro a ha b hb d hd hs
    rw [scanDet_fl n] at hs
    rcases h a ha d hd b hb with k | k | k
    · exact k.1
    · linarith [k.2]
    · linarith [k.2]
  · intro a ha b hb d hd hs
    rw [scanDet_fl n] at hs
    rcases h a ha d hd b hb with k | k | k
    · linarith [k.2]
    · exact k.1
    · linarith [k.2]
  · intro a ha b hb d hd
    rw [scanDet_fl n]
    rcases h a ha d hd b hb with k | k | k
    · exact ⟨fun _ => k.2, fun c => absurd k.1 (by linarith)⟩
    · exact ⟨fun c => absurd k.1 (by linarith), fun _ => k.2⟩
    · exact ⟨fun c => absurd k.1 (by linarith), fun c => absurd k.1 (by linarith)⟩

/-- A point of the run and the exact point it stands for. -/
structure Near (B : Rat) (p p' : Point) : Prop where
  bx : |p'.x| ≤ 8 / 5 * B
  by' : |p'.y| ≤ 8 / 5 * B
  mx : |p.x - p'.x| ≤ B / 2 ^ 22
  my : |p.y - p'.y| ≤ B / 2 ^ 22

theorem agree_of_near {B : Rat} {p q r p' q' r' : Point} (hB : B ≤ 2 ^ 48) (hp : Near B p p') (hq : Near B q q') (hr : Near B r r')
    (h : B ^ 2 / 2 ^ 16 + 1 / 2 ^ 21 ≤ |det2 p' q' r'|) : Agree n p q r ∧ n.eps < |det2 p q r| := by
  have B0 : 0 ≤ B := by have := le_trans (abs_nonneg _) hp.bx; linarith
  have mv := det_move ⟨hp.bx, hp.by'⟩ ⟨hq.bx, hq.by'⟩ ⟨hr.bx, hr.by'⟩ ⟨hp.mx, hp.my⟩ ⟨hq.mx, hq.my⟩ ⟨hr.mx, hr.my⟩
  have e : 16 * (8 / 5 * B) * (B / 2 ^ 22) + 8 * (B / 2 ^ 22) ^ 2 ≤ B ^ 2 / 2 ^ 17 := by
    have : 0 ≤ B ^ 2 := by positivity
    have e : 16 * (8 / 5 * B) * (B / 2 ^ 22) + 8 * (B / 2 ^ 22) ^ 2 = (16 * (8 / 5) / 2 ^ 22 + 8 / 2 ^ 44) * B ^ 2 := by ring
    rw [e]; norm_num; linarith
  have mv' := le_trans mv e
  have df : ∀ a b a' b' : Rat, |a'| ≤ 8 / 5 * B → |b'| ≤ 8 / 5 * B → |a - a'| ≤ B / 2 ^ 22 → |b - b'| ≤ B / 2 ^ 22 → |a - b| ≤ 4 * B := by
    intro a b a' b' h1 h2 h3 h4
    rw [abs_le] at *
    norm_num at h3 h4
    constructor <;> linarith
  have big := fl_big n (df p.x r.x _ _ hp.bx hr.bx hp.mx hr.mx) (df q.y r.y _ _ hq.by' hr.by' hq.my hr.my)
    (df p.y r.y _ _ hp.by' hr.by' hp.my hr.my) (df q.x r.x _ _ hq.bx hr.bx hq.mx hr.mx) (by
      refine le_trans (mul_le_mul_of_nonneg_left hB (by norm_num)) ?_
      norm_num)
  have e2 : 8 / 2 ^ 24 * (4 * B) ^ 2 + 1 / 2 ^ 22 = B ^ 2 / 2 ^ 17 + 1 / 2 ^ 22 := by ring
  rw [e2] at big
  have sq : 0 ≤ B ^ 2 := by positivity
  generalize B ^ 2 = S at *
  rw [abs_le] at mv'
  norm_num at mv' h big
  rcases le_or_gt 0 (det2 p' q' r') with k | k
  · rw [abs_of_nonneg k] at h
    have hb : S / 131072 + 1 / 4194304 ≤ det2 p q r := by linarith
    have pos : 0 < det2 p q r := by linarith
    exact ⟨.inr (.inl ⟨pos, big.1 hb⟩), by rw [abs_of_pos pos, f32_eps n]; norm_num; linarith⟩
  · rw [abs_of_neg k] at h
    have hb : det2 p q r + S / 131072 ≤ -(1 / 4194304) := by linarith
    have neg : det2 p q r < 0 := by linarith
    exact ⟨.inl ⟨neg, big.2 hb⟩, by rw [abs_of_neg neg, f32_eps n]; norm_num; linarith⟩

/-- The points of the run. -/
theorem run_near {pts : List Point} {B : Rat} (hne : pts ≠ []) (hb : ∀ p ∈ pts, |p.x| ≤ B ∧ |p.y| ≤ B) (hB' : 1 / 2 ^ 20 ≤ B ∧ B ≤ 2 ^ 48) :
    ∃ head tail x0 x1 y0 y1, withArtificial n pts = pts ++ [head, tail] ∧ artLeft n pts = head ∧ artRight n pts = tail ∧
      BoundingBox pts x0 x1 y0 y1 ∧ Near B head (cornerLeft x0 x1 y0 y1) ∧ Near B tail (cornerRight x0 x1 y0 y1) ∧ (∀ p ∈ pts, Near B p p) := by
  obtain ⟨head, tail, x1, x0, y1, y0, h1, h2, h3, h4, h5⟩ := ctx_points n pts []
  have hB : B ≤ 2 ^ 100 := le_trans hB'.2 (pow_le_pow_right₀ (by norm_num) (by norm_num))
  have hi : B ≤ n.hi := le_trans hB F32Like.hi
  have lo : n.lo ≤ -B := le_trans F32Like.lo (neg_le_neg hB)
  obtain ⟨⟨a, ha, ea⟩, ⟨b, hb', eb⟩, ⟨c, hc, ec⟩, ⟨d, hd, ed⟩⟩ := h5 hne (fun p hp => by
    have := hb p hp
    rw [abs_le, abs_le] at this
    exact ⟨⟨by linarith, by linarith⟩, by linarith, by linarith⟩)
  have e1 : withArtificial n pts = pts ++ [head, tail] := by rw [withArtificial, h1, List.append_assoc]; rfl
  refine ⟨head, tail, x0, x1, y0, y1, e1, ?_, ?_, ⟨h4, ⟨b, hb', eb.symm⟩, ⟨a, ha, ea.symm⟩, ⟨d, hd, ed.symm⟩, ⟨c, hc, ec.symm⟩⟩, ?_, ?_, ?_⟩
  · simp [artLeft, e1, List.getD]
  · simp [artRight, e1, List.getD]
  all_goals
    have kx1 : |x1| ≤ B := by rw [ea]; exact (hb a ha).1
    have kx0 : |x0| ≤ B := by rw [eb]; exact (hb b hb').1
    have ky1 : |y1| ≤ B := by rw [ec]; exact (hb c hc).2
    have ky0 : |y0| ≤ B := by rw [ed]; exact (hb d hd).2
    have wx : x0 ≤ x1 := by have := h4 a ha; linarith
    have wy : y0 ≤ y1 := by have := h4 a ha; linarith
    have kx1' := abs_le.1 kx1
    have kx0' := abs_le.1 kx0
    have ky1' := abs_le.1 ky1
    have ky0' := abs_le.1 ky0
  · have m1 := art_err n (s := -1) hB' kx0 (w := x1 - x0) (by linarith) (by linarith) (.inr rfl)
    have m2 := art_err n (s := -1) hB' ky0 (w := y1 - y0) (by linarith) (by linarith) (.inr rfl)
    simp only [neg_mul, one_mul, ← sub_eq_add_neg] at m1 m2
    rw [h2]
    exact ⟨by simp only [cornerLeft]; rw [abs_le]; constructor <;> linarith, by simp only [cornerLeft]; rw [abs_le]; constructor <;> linarith, m1, m2⟩
  · have m1 := art_err n (s := 1) hB' kx1 (w := x1 - x0) (by linarith) (by linarith) (.inl rfl)
    have m2 := art_err n (s := -1) hB' ky0 (w := y1 - y0) (by linarith) (by linarith) (.inr rfl)
    simp only [neg_mul, one_mul, ← sub_eq_add_neg] at m1 m2
    rw [h3]
    exact ⟨by simp only [cornerRight]; rw [abs_le]; constructor <;> linarith, by simp only [cornerRight]; rw [abs_le]; constructor <;> linarith, m1, m2⟩
  · intro p hp
    have := hb p hp
    have B0 : 0 ≤ B := le_trans (abs_nonneg _) this.1
    refine ⟨by linarith, by linarith, ?_, ?_⟩ <;> (rw [sub_self, abs_zero]; positivity)

theorem mem_run {pts : List Point} {B : Rat} {head tail l r : Point} (hl : Near B head l) (hr : Near B tail r) (hp : ∀ p ∈ pts, Near B p p)
    {p : Point} (h : p ∈ pts ++ [head, tail]) : (p ∈ pts ∧ Near B p p) ∨ (p = head ∧ Near B p l) ∨ (p = tail ∧ Near B p r) := by
  simp only [List.mem_append, List.mem_cons, List.not_mem_nil, or_false] at h
  rcases h with h | rfl | rfl
  · exact .inl ⟨h, hp _ h⟩
  · exact .inr (.inl ⟨rfl, hl⟩)
  · exact .inr (.inr ⟨rfl, hr⟩)

omit [F32Like n] in
theorem far_in {x : Rat} (h : |x| ≤ 2 ^ 48) : |x| ≤ 2 ^ 120 := le_trans h (pow_le_pow_right₀ (by norm_num) (by norm_num))

theorem far_eps {x : Rat} (h : |x| ≤ 2 ^ 48) : |x + n.eps| ≤ 2 ^ 120 := by
  have e : (2 : Rat) ^ 48 + 1 ≤ 2 ^ 49 := by norm_num
  refine le_trans (abs_add_le _ _) (le_trans ?_ (le_trans e (pow_le_pow_right₀ (by norm_num) (by norm_num))))
  refine add_le_add h ?_
  rw [f32_eps n, abs_of_pos (by norm_num)]; norm_num

theorem fine_of_agree {pts : List Point} {B : Rat} {head tail : Point} {x0 x1 y0 y1 : Rat} (hne : pts ≠ []) (hnd : pts.Nodup) (hsz : pts.length + 2 ≤ 2 ^ 32)
    (hall : withArtificial n pts = pts ++ [head, tail]) (hL : artLeft n pts = head) (hR : artRight n pts = tail)
    (box : BoundingBox pts x0 x1 y0 y1) (nl : Near B head (cornerLeft x0 x1 y0 y1)) (nr : Near B tail (cornerRight x0 x1 y0 y1))
    (wx : B / 2 ^ 22 < 3 / 10 * (x1 - x0)) (wy : B / 2 ^ 22 < 3 / 10 * (y1 - y0)) (hfl : ∀ p ∈ pts, IsF32 p.x)
    (hbd : ∀ p ∈ pts, |p.x| ≤ 2 ^ 48)
    (hap : ∀ p ∈ pts, ∀ q ∈ pts, q.x < p.x → n.rnd (q.x + n.eps) < p.x)
    (hag : ∀ p ∈ pts ++ [head, tail], ∀ q ∈ pts ++ [head, tail], ∀ r ∈ pts ++ [head, tail], Agree n p q r) :
    FineInput n pts ∧ ScanComplete n (withArtificial n pts) ∧ EpsUp n pts := by
  obtain ⟨f1, f2⟩ := faithful_of n hag
  refine ⟨⟨hne, hsz, hnd, ?_, ?_, by rw [hall]; exact f1⟩, by rw [hall]; exact f2, ?_⟩
  · intro p hp
    have ip := box.inside p hp
    rw [hL, hR]
    have a := abs_le.1 nl.mx
    have b := abs_le.1 nl.my
    have c := abs_le.1 nr.mx
    simp only [cornerLeft, cornerRight] at a b c
    exact ⟨by linarith, by linarith, by linarith⟩
  · intro p hp q hq h
    by_contra c
    have := hap p hp q hq (not_le.1 c)
    linarith
  · intro p hp
    have := f32_mono n (x := p.x) (y := p.x + n.eps) (far_in (hbd p hp)) (far_eps n (hbd p hp)) (by have := f32_eps_pos n; linarith)
    rwa [f32_fix n (hfl p hp)] at this

theorem far_clear {B : Rat} {pts : List Point} (h : FarFromCorners B pts) : ClearOfCorners pts := by
  intro x0 x1 y0 y1 box a ha b hb hab
  have k := (h _ _ _ _ box).1 a ha b hb hab
  have marg : 0 < B ^ 2 / 2 ^ 16 + 1 / 2 ^ 21 := by positivity
  exact ⟨abs_pos.1 (lt_of_lt_of_le marg k.1), abs_pos.1 (lt_of_lt_of_le marg k.2)⟩

/-- Triangles with an artificial corner need a margin, the other ones must be evaluated correctly. -/
theorem far_fine {B : Rat} {pts : List Point} (far : FarFromCorners B pts) (bounded : ∀ p ∈ pts, |p.x| ≤ B ∧ |p.y| ≤ B) (hB : 1 / 2 ^ 20 ≤ B ∧ B ≤ 2 ^ 48)
    (hfl : ∀ p ∈ pts, IsF32 p.x) (hap : ∀ p ∈ pts, ∀ q ∈ pts, q.x < p.x → n.rnd (q.x + n.eps) < p.x)
    (inp : ∀ p ∈ pts, ∀ q ∈ pts, ∀ r ∈ pts, p ≠ q → q ≠ r → p ≠ r → Agree n p q r)
    (hnd : pts.Nodup) (h2 : 2 ≤ pts.length) (hsz : pts.length + 2 ≤ 2 ^ 32) :
    FineInput n pts ∧ ScanComplete n (withArtificial n pts) ∧ EpsUp n pts := by
  have hne : pts ≠ [] := by rintro rfl; simp at h2
  obtain ⟨head, tail, x0, x1, y0, y1, hall, hL, hR, box, nl, nr, np⟩ := run_near n hne bounded hB
  have hopen := box_open box (ne_pair hnd h2) (far_clear far)
  obtain ⟨F1, cLR⟩ := far _ _ _ _ box
  have cL := fun a ha b hb hab => (F1 a ha b hb hab).1
  have cR := fun a ha b hb hab => (F1 a ha b hb hab).2
  obtain ⟨a, ha, b, hb, hab⟩ := ne_pair hnd h2
  have B0 : 0 ≤ B := le_trans (abs_nonneg _) (bounded a ha).1
  have wid : B / 2 ^ 22 < 3 / 10 * (x1 - x0) ∧ B / 2 ^ 22 < 3 / 10 * (y1 - y0) := by
    have k := cLR a ha
    have ia := box.inside a ha
    have e : det2 (cornerLeft x0 x1 y0 y1) (cornerRight x0 x1 y0 y1) a = 8 / 5 * (x1 - x0) * (a.y - y0 + 3 / 10 * (y1 - y0)) := by
      simp only [det2, cornerLeft, cornerRight]; ring
    have nn : 0 ≤ 8 / 5 * (x1 - x0) * (a.y - y0 + 3 / 10 * (y1 - y0)) := by
      have : 0 < x1 - x0 := by linarith [hopen.1]
      have : 0 < y1 - y0 := by linarith [hopen.2]
      have : 0 ≤ a.y - y0 := by linarith
      positivity
    rw [e, abs_of_nonneg nn] at k
    obtain ⟨q1, m1, f1⟩ := box.left
    obtain ⟨q2, m2, f2⟩ := box.right
    obtain ⟨q3, m3, f3⟩ := box.bottom
    obtain ⟨q4, m4, f4⟩ := box.top
    have g1 := abs_le.1 (bounded q1 m1).1
    have g2 := abs_le.1 (bounded q2 m2).1
    have g3 := abs_le.1 (bounded q3 m3).2
    have g4 := abs_le.1 (bounded q4 m4).2
    rw [f1] at g1; rw [f2] at g2; rw [f3] at g3; rw [f4] at g4
    have w2 : x1 - x0 ≤ 2 * B := by linarith
    have h2 : y1 - y0 ≤ 2 * B := by linarith
    have w0 : 0 < x1 - x0 := by linarith [hopen.1]
    have h0 : 0 < y1 - y0 := by linarith [hopen.2]
    generalize x1 - x0 = w at *
    generalize hh : y1 - y0 = v at *
    have k2 : B ^ 2 / 2 ^ 16 + 1 / 2 ^ 21 ≤ 8 / 5 * w * (13 / 10 * v) := by
      refine le_trans k (mul_le_mul_of_nonneg_left ?_ (by positivity))
      linarith
    norm_num at k2 ⊢
    constructor
    · have : w * v ≤ w * (2 * B) := mul_le_mul_of_nonneg_left h2 w0.le
      by_contra c
      have c' : w ≤ 10 / 3 * (B / 4194304) := by linarith
      have : w * (2 * B) ≤ 10 / 3 * (B / 4194304) * (2 * B) := mul_le_mul_of_nonneg_right c' (by linarith)
      have q : 10 / 3 * (B / 4194304) * (2 * B) = B ^ 2 * (20 / 3 / 4194304) := by ring
      have sq : 0 ≤ B ^ 2 := by positivity
      rw [q] at this
      linarith
    · have : w * v ≤ (2 * B) * v := mul_le_mul_of_nonneg_right w2 h0.le
      by_contra c
      have c' : v ≤ 10 / 3 * (B / 4194304) := by linarith
      have : (2 * B) * v ≤ (2 * B) * (10 / 3 * (B / 4194304)) := mul_le_mul_of_nonneg_left c' (by linarith)
      have q : (2 * B) * (10 / 3 * (B / 4194304)) = B ^ 2 * (20 / 3 / 4194304) := by ring
      have sq : 0 ≤ B ^ 2 := by positivity
      rw [q] at this
      linarith
  have rotA : ∀ a b c : Point, |det2 b c a| = |det2 a b c| := fun a b c => by rw [det2_rotA]
  have rotB : ∀ a b c : Point, |det2 c a b| = |det2 a b c| := fun a b c => by rw [det2_rotB]
  have swp : ∀ a b c : Point, |det2 b a c| = |det2 a b c| := fun a b c => by rw [det2_swap, abs_neg]
  have tri : ∀ p ∈ pts ++ [head, tail], ∀ q ∈ pts ++ [head, tail], ∀ r ∈ pts ++ [head, tail], p ≠ q → q ≠ r → p ≠ r →
      (p ∈ pts ∧ q ∈ pts ∧ r ∈ pts) ∨ Agree n p q r ∧ n.eps < |det2 p q r| := by
    intro p hp q hq r hr n1 n2 n3
    rcases mem_run nl nr np hp with ⟨k1, a1⟩ | ⟨k1, a1⟩ | ⟨k1, a1⟩ <;> rcases mem_run nl nr np hq with ⟨k2, a2⟩ | ⟨k2, a2⟩ | ⟨k2, a2⟩ <;>
      rcases mem_run nl nr np hr with ⟨k3, a3⟩ | ⟨k3, a3⟩ | ⟨k3, a3⟩
    · exact .inl ⟨k1, k2, k3⟩
    · exact .inr (agree_of_near n hB.2 a1 a2 a3 (id (by rw [← rotB]; exact cL p k1 q k2 n1)))
    · exact .inr (agree_of_near n hB.2 a1 a2 a3 (id (by rw [← rotB]; exact cR p k1 q k2 n1)))
    · exact .inr (agree_of_near n hB.2 a1 a2 a3 (id (by rw [← rotA]; exact cL r k3 p k1 n3.symm)))
    · exact absurd (k2.trans k3.symm) n2
    · exact .inr (agree_of_near n hB.2 a1 a2 a3 (id (by rw [← rotA]; exact cLR p k1)))
    · exact .inr (agree_of_near n hB.2 a1 a2 a3 (id (by rw [← rotA]; exact cR r k3 p k1 n3.symm)))
    · exact .inr (agree_of_near n hB.2 a1 a2 a3 (id (by rw [← rotA, swp]; exact cLR p k1)))
    · exact absurd (k2.trans k3.symm) n2
    · exact .inr (agree_of_near n hB.2 a1 a2 a3 (id (cL q k2 r k3 n2)))
    · exact absurd (k1.trans k3.symm) n3
    · exact .inr (agree_of_near n hB.2 a1 a2 a3 (id (by rw [swp, ← rotA]; exact cLR q k2)))
    · exact absurd (k1.trans k2.symm) n1
    · exact absurd (k1.trans k2.symm) n1
    · exact absurd (k1.trans k2.symm) n1
    · exact .inr (agree_of_near n hB.2 a1 a2 a3 (id (cLR r k3)))
    · exact absurd (k1.trans k3.symm) n3
    · exact absurd (k2.trans k3.symm) n2
    · exact .inr (agree_of_near n hB.2 a1 a2 a3 (id (cR q k2 r k3 n2)))
    · exact .inr (agree_of_near n hB.2 a1 a2 a3 (id (by rw [← rotB]; exact cLR q k2)))
    · exact absurd (k1.trans k3.symm) n3
    · exact .inr (agree_of_near n hB.2 a1 a2 a3 (id (by rw [swp]; exact cLR r k3)))
    · exact absurd (k2.trans k3.symm) n2
    · exact absurd (k1.trans k3.symm) n3
    · exact absurd (k1.trans k2.symm) n1
    · exact absurd (k1.trans k2.symm) n1
    · exact absurd (k1.trans k2.symm) n1
  exact fine_of_agree n hne hnd hsz hall hL hR box nl nr wid.1 wid.2 hfl (fun p hp => le_trans (bounded p hp).1 hB.2) hap (by
    intro p hp q hq r hr
    by_cases n1 : p = q
    · exact agree_eq n (.inl n1)
    · by_cases n2 : q = r
      · exact agree_eq n (.inr (.inl n2))
      · by_cases n3 : p = r
        · exact agree_eq n (.inr (.inr n3))
        · rcases tri p hp q hq r hr n1 n2 n3 with k | k
          · exact inp p k.1 q k.2.1 r k.2.2 n1 n2 n3
          · exact k.1)

/-- Well separated points satisfy all numeric hypotheses. -/
theorem WellSeparated32.fine {B : Rat} {pts : List Point} (h : WellSeparated32 B pts) (hnd : pts.Nodup) (h2 : 2 ≤ pts.length) (hsz : pts.length + 2 ≤ 2 ^ 32) :
    FineInput n pts ∧ ScanComplete n (withArtificial n pts) ∧ EpsUp n pts := by
  have self : ∀ p ∈ pts, Near B p p := fun p hp => by
    have := h.bounded p hp
    have B0 : 0 ≤ B := le_trans (abs_nonneg _) this.1
    refine ⟨by linarith, by linarith, ?_, ?_⟩ <;> (rw [sub_self, abs_zero]; positivity)
  refine far_fine n h.far h.bounded h.range (fun p hp => (h.float p hp).1) ?_ ?_ hnd h2 hsz
  · intro p hp q hq hlt
    have k := h.apart p hp q hq hlt
    have er := f32_err n (far_eps n (le_trans (h.bounded q hq).1 h.range.2))
    have bq := (h.bounded q hq).1
    have n1 : |q.x + n.eps| ≤ B + n.eps := by
      refine le_trans (abs_add_le _ _) ?_
      rw [abs_of_pos (f32_eps_pos n)]; linarith
    have er' := le_trans er (add_le_add (mul_le_mul_of_nonneg_left n1 (by norm_num)) (show (1 : Rat) / 2 ^ 140 ≤ 1 / 2 ^ 60 by norm_num))
    rw [f32_eps n] at *
    rw [abs_le] at er'
    norm_num at er' k ⊢
    linarith
  · intro p hp q hq r hr n1 n2 n3
    exact (agree_of_near n h.range.2 (self p hp) (self q hq) (self r hr) (h.wide p hp q hq r hr n1 n2 n3)).1

end

end P2T.F32
