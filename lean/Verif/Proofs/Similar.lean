import Verif.Spec.Similar
import Verif.Proofs.Unique

/-!
# Similarities

The even–odd rule does not depend on the direction of the ray; similarities preserve triangulations.
-/

namespace P2T

/-! ## Triangles and rays -/

/-- Strictly inside the triangle, whatever its orientation. -/
def InTri (a b c q : Point) : Prop :=
  (0 < det2 a b q ∧ 0 < det2 b c q ∧ 0 < det2 c a q) ∨ (det2 a b q < 0 ∧ det2 b c q < 0 ∧ det2 c a q < 0)

instance (a b c q : Point) : Decidable (InTri a b c q) := by unfold InTri; infer_instance

theorem onSeg_of_det {u v q : Point} (h : det2 u v q = 0) (h1 : u.x ≤ q.x) (h2 : q.x < v.x) : OnSeg u v q := by
  have d : 0 < v.x - u.x := by linarith
  refine ⟨(q.x - u.x) / (v.x - u.x), div_nonneg (by linarith) d.le, (div_le_one d).2 (by linarith), ?_, ?_⟩
  · field_simp; ring
  · field_simp
    unfold det2 at h
    linarith

/-- Barycentric coordinates of the abscissa. -/
theorem bary_x (a b c q : Point) : det2 b c q * (a.x - q.x) + det2 c a q * (b.x - q.x) + det2 a b q * (c.x - q.x) = 0 := by
  unfold det2; ring

theorem bary_sum (a b c q : Point) : det2 b c q + det2 c a q + det2 a b q = det2 a b c := by
  unfold det2; ring

/-- One corner on one side of the vertical through `q`, two on the other: the parity of the crossings. -/
theorem tri_split {a b c q : Point} (hab : ¬ OnSeg a b q) (hca : ¬ OnSeg a c q) (h1 : a.x ≤ q.x) (h2 : q.x < b.x) (h3 : q.x < c.x) :
    InTri a b c q ↔ ¬ (det2 a b q < 0 ↔ det2 a c q < 0) := by
  have n1 : det2 a b q ≠ 0 := fun h => hab (onSeg_of_det h h1 h2)
  have n2 : det2 a c q ≠ 0 := fun h => hca (onSeg_of_det h h1 h3)
  have e : det2 c a q = - det2 a c q := by unfold det2; ring
  have bx := bary_x a b c q
  unfold InTri
  rw [e] at *
  rcases lt_or_gt_of_ne n1 with k1 | k1 <;> rcases lt_or_gt_of_ne n2 with k2 | k2
  · constructor
    · rintro (h | h) <;> exfalso <;> linarith
    · intro h; exact absurd ⟨fun _ => k2, fun _ => k1⟩ h
  · constructor
    · intro _ h; exact absurd (h.1 k1) (by linarith)
    · intro _
      refine .inr ⟨k1, ?_, by linarith⟩
      by_contra hc
      have z1 := mul_nonneg (not_lt.1 hc) (show 0 ≤ q.x - a.x by linarith)
      have z2 := mul_pos k2 (show 0 < b.x - q.x by linarith)
      have z3 := mul_pos_of_neg_of_neg k1 (show q.x - c.x < 0 by linarith)
      nlinarith
  · constructor
    · intro _ h; exact absurd (h.2 k2) (by linarith)
    · intro _
      refine .inl ⟨k1, ?_, by linarith⟩
      by_contra hc
      have z1 := mul_nonneg (show 0 ≤ - det2 b c q by linarith) (show 0 ≤ q.x - a.x by linarith)
      have z2 := mul_pos (show 0 < - det2 a c q by linarith) (show 0 < b.x - q.x by linarith)
      have z3 := mul_pos k1 (show 0 < c.x - q.x by linarith)
      nlinarith
  · constructor
    · rintro (h | h) <;> exfalso <;> linarith
    · intro h; exact absurd ⟨fun z => by linarith, fun z => by linarith⟩ h

/-- Two corners on the left. -/
theorem tri_split' {a b c q : Point} (hab : ¬ OnSeg b a q) (hca : ¬ OnSeg c a q) (hbc : ¬ OnSeg b c q) (h1 : q.x < a.x) (h2 : b.x ≤ q.x) (h3 : c.x ≤ q.x) :
    InTri a b c q ↔ ¬ (det2 b a q < 0 ↔ det2 c a q < 0) := by
  have n1 : det2 b a q ≠ 0 := fun h => hab (onSeg_of_det h h2 h1)
  have n2 : det2 c a q ≠ 0 := fun h => hca (onSeg_of_det h h3 h1)
  have e : det2 a b q = - det2 b a q := by unfold det2; ring
  have bx := bary_x a b c q
  have da : 0 < a.x - q.x := by linarith
  -- both other corners on the vertical through `q`: then `q` is between them
  have vert : b.x = q.x → c.x = q.x → det2 b a q * det2 c a q < 0 → False := by
    intro x1 x2 hm
    have e1 : det2 b a q = (q.y - b.y) * (a.x - q.x) := by unfold det2; rw [x1]; ring
    have e2 : det2 c a q = (q.y - c.y) * (a.x - q.x) := by unfold det2; rw [x2]; ring
    have hm' : (q.y - b.y) * (q.y - c.y) < 0 := by
      by_contra hc
      have := mul_nonneg (not_lt.1 hc) (mul_self_nonneg (a.x - q.x))
      rw [e1, e2] at hm
      nlinarith
    have hd : c.y - b.y ≠ 0 := by
      intro h0
      have : c.y = b.y := by linarith
      rw [this] at hm'
      nlinarith [mul_self_nonneg (q.y - b.y)]
    refine hbc ⟨(q.y - b.y) / (c.y - b.y), ?_, ?_, by rw [x1, x2]; ring, by field_simp; ring⟩
    · rcases lt_or_gt_of_ne hd with k | k
      · exact div_nonneg_of_nonpos (by nlinarith) k.le
      · exact div_nonneg (by nlinarith) k.le
    · rcases lt_or_gt_of_ne hd with k | k
      · rw [div_le_one_of_neg k]; nlinarith
      · rw [div_le_one k]; nlinarith
  unfold InTri
  rw [e] at *
  rcases lt_or_gt_of_ne n1 with k1 | k1 <;> rcases lt_or_gt_of_ne n2 with k2 | k2
  · constructor
    · rintro (h | h) <;> exfalso <;> linarith
    · intro h; exact absurd ⟨fun _ => k2, fun _ => k1⟩ h
  · constructor
    · intro _ h; exact absurd (h.1 k1) (by linarith)
    · intro _
      refine .inl ⟨by linarith, ?_, k2⟩
      by_contra hc
      have z1 := mul_nonneg (show 0 ≤ - det2 b c q by linarith) da.le
      have z2 := mul_nonneg k2.le (show 0 ≤ q.x - b.x by linarith)
      have z3 := mul_nonneg (show 0 ≤ - det2 b a q by linarith) (show 0 ≤ q.x - c.x by linarith)
      have y2 : det2 c a q * (q.x - b.x) = 0 := by linarith
      have y3 : det2 b a q * (q.x - c.x) = 0 := by linarith
      have x1 : q.x - b.x = 0 := (mul_eq_zero.1 y2).resolve_left k2.ne'
      have x2 : q.x - c.x = 0 := (mul_eq_zero.1 y3).resolve_left k1.ne
      exact vert (by linarith) (by linarith) (mul_neg_of_neg_of_pos k1 k2)
  · constructor
    · intro _ h; exact absurd (h.2 k2) (by linarith)
    · intro _
      refine .inr ⟨by linarith, ?_, k2⟩
      by_contra hc
      have z1 := mul_nonneg (not_lt.1 hc) da.le
      have z2 := mul_nonneg (show 0 ≤ - det2 c a q by linarith) (show 0 ≤ q.x - b.x by linarith)
      have z3 := mul_nonneg k1.le (show 0 ≤ q.x - c.x by linarith)
      have y2 : det2 c a q * (q.x - b.x) = 0 := by linarith
      have y3 : det2 b a q * (q.x - c.x) = 0 := by linarith
      have x1 : q.x - b.x = 0 := (mul_eq_zero.1 y2).resolve_left k2.ne
      have x2 : q.x - c.x = 0 := (mul_eq_zero.1 y3).resolve_left k1.ne'
      exact vert (by linarith) (by linarith) (mul_neg_of_pos_of_neg k1 k2)
  · constructor
    · rintro (h | h) <;> exfalso <;> linarith
    · intro h; exact absurd ⟨fun z => by linarith, fun z => by linarith⟩ h

theorem inTri_rot (a b c q : Point) : InTri a b c q ↔ InTri b c a q := by
  unfold InTri; tauto

theorem inTri_left {a b c q : Point} (h1 : a.x ≤ q.x) (h2 : b.x ≤ q.x) (h3 : c.x ≤ q.x) : ¬ InTri a b c q := by
  have bx := bary_x a b c q
  have key : ∀ s : Rat, 0 < s * det2 a b q → 0 < s * det2 b c q → 0 < s * det2 c a q → False := by
    intro s k1 k2 k3
    have z1 := mul_nonneg k2.le (show 0 ≤ q.x - a.x by linarith)
    have z2 := mul_nonneg k3.le (show 0 ≤ q.x - b.x by linarith)
    have z3 := mul_nonneg k1.le (show 0 ≤ q.x - c.x by linarith)
    have e := congrArg (s * ·) bx
    simp only [mul_zero] at e
    have x1 : q.x - a.x = 0 := (mul_eq_zero.1 (show s * det2 b c q * (q.x - a.x) = 0 by linarith)).resolve_left k2.ne'
    have x2 : q.x - b.x = 0 := (mul_eq_zero.1 (show s * det2 c a q * (q.x - b.x) = 0 by linarith)).resolve_left k3.ne'
    have : det2 a b q = 0 := by
      unfold det2
      rw [show a.x = q.x by linarith, show b.x = q.x by linarith]; ring
    rw [this] at k1; simp at k1
  rintro (h | h)
  · exact key 1 (by linarith) (by linarith) (by linarith)
  · exact key (-1) (by linarith) (by linarith) (by linarith)

theorem inTri_right {a b c q : Point} (h1 : q.x < a.x) (h2 : q.x < b.x) (h3 : q.x < c.x) : ¬ InTri a b c q := by
  have bx := bary_x a b c q
  have key : ∀ s : Rat, 0 < s * det2 a b q → 0 < s * det2 b c q → 0 < s * det2 c a q → False := by
    intro s k1 k2 k3
    have z1 := mul_pos k2 (show 0 < a.x - q.x by linarith)
    have z2 := mul_pos k3 (show 0 < b.x - q.x by linarith)
    have z3 := mul_pos k1 (show 0 < c.x - q.x by linarith)
    have e := congrArg (s * ·) bx
    simp only [mul_zero] at e
    linarith
  rintro (h | h)
  · exact key 1 (by linarith) (by linarith) (by linarith)
  · exact key (-1) (by linarith) (by linarith) (by linarith)

/-- `0` or `1`. -/
def bit (p : Prop) [Decidable p] : Nat := if p then 1 else 0

theorem edgeOver_lr {q u v : Point} (h1 : u.x ≤ q.x) (h2 : q.x < v.x) : EdgeOver q u v ↔ det2 u v q < 0 := by
  unfold EdgeOver
  constructor
  · rintro (⟨-, -, h⟩ | ⟨h, -, -⟩)
    · exact h
    · linarith
  · exact fun h => .inl ⟨h1, h2, h⟩

theorem edgeOver_ll {q u v : Point} (h1 : u.x ≤ q.x) (h2 : v.x ≤ q.x) : ¬ EdgeOver q u v := by
  rintro (⟨-, h, -⟩ | ⟨-, h, -⟩) <;> linarith

theorem edgeOver_rr {q u v : Point} (h1 : q.x < u.x) (h2 : q.x < v.x) : ¬ EdgeOver q u v := by
  rintro (⟨h, -, -⟩ | ⟨h, -, -⟩) <;> linarith

theorem bit_xor {p q r : Prop} [Decidable p] [Decidable q] [Decidable r] (h : r ↔ ¬ (p ↔ q)) : (bit p + bit q) % 2 = bit r := by
  unfold bit
  by_cases hp : p <;> by_cases hq : q <;> simp_all

theorem bit_congr {p q : Prop} [Decidable p] [Decidable q] (h : p ↔ q) : bit p = bit q := by
  unfold bit
  by_cases hp : p <;> simp_all

theorem bit_false {p : Prop} [Decidable p] (h : ¬ p) : bit p = 0 := by simp [bit, h]

/-- A point on none of the edges of a triangle is inside it if and only if the ray upwards crosses an odd number of its edges. -/
theorem tri_parity {a b c q : Point} (hab : ¬ OnSeg a b q) (hbc : ¬ OnSeg b c q) (hca : ¬ OnSeg c a q) :
    (bit (EdgeOver q a b) + bit (EdgeOver q b c) + bit (EdgeOver q c a)) % 2 = bit (InTri a b c q) := by
  have hba : ¬ OnSeg b a q := fun h => hab (onSeg_swap h)
  have hcb : ¬ OnSeg c b q := fun h => hbc (onSeg_swap h)
  have hac : ¬ OnSeg a c q := fun h => hca (onSeg_swap h)
  -- one corner on the left
  have left : ∀ {a b c : Point}, ¬ OnSeg a b q → ¬ OnSeg a c q → a.x ≤ q.x → q.x < b.x → q.x < c.x →
      (bit (EdgeOver q a b) + bit (EdgeOver q c a)) % 2 = bit (InTri a b c q) ∧ bit (EdgeOver q b c) = 0 := by
    intro a b c h h' x1 x2 x3
    refine ⟨?_, bit_false (edgeOver_rr x2 x3)⟩
    rw [bit_congr (edgeOver_lr x1 x2), bit_congr ((edgeOver_swap q c a).trans (edgeOver_lr x1 x3))]
    exact bit_xor (tri_split h h' x1 x2 x3)
  have right : ∀ {a b c : Point}, ¬ OnSeg b a q → ¬ OnSeg c a q → ¬ OnSeg b c q → q.x < a.x → b.x ≤ q.x → c.x ≤ q.x →
      (bit (EdgeOver q a b) + bit (EdgeOver q c a)) % 2 = bit (InTri a b c q) ∧ bit (EdgeOver q b c) = 0 := by
    intro a b c h h' h'' x1 x2 x3
    refine ⟨?_, bit_false (edgeOver_ll x2 x3)⟩
    rw [bit_congr ((edgeOver_swap q a b).trans (edgeOver_lr x2 x1)), bit_congr (edgeOver_lr x3 x1)]
    exact bit_xor (tri_split' h h' h'' x1 x2 x3)
  have r1 := bit_congr (inTri_rot a b c q)
  have r2 := bit_congr (inTri_rot b c a q)
  rcases le_or_gt a.x q.x with xa | xa <;> rcases le_or_gt b.x q.x with xb | xb <;> rcases le_or_gt c.x q.x with xc | xc
  · rw [bit_false (edgeOver_ll xa xb), bit_false (edgeOver_ll xb xc), bit_false (edgeOver_ll xc xa), bit_false (inTri_left xa xb xc)]
  · obtain ⟨k1, k2⟩ := right hac hbc hab xc xa xb
    omega
  · obtain ⟨k1, k2⟩ := right hcb hab hca xb xc xa
    omega
  · obtain ⟨k1, k2⟩ := left hab hac xa xb xc
    omega
  · obtain ⟨k1, k2⟩ := right hba hca hbc xa xb xc
    omega
  · obtain ⟨k1, k2⟩ := left hbc hba xb xc xa
    omega
  · obtain ⟨k1, k2⟩ := left hca hcb xc xa xb
    omega
  · rw [bit_false (edgeOver_rr xa xb), bit_false (edgeOver_rr xb xc), bit_false (edgeOver_rr xc xa), bit_false (inTri_right xa xb xc)]

/-! ## Closed polylines -/

theorem countP_parity {α} (p q r t : α → Prop) [DecidablePred p] [DecidablePred q] [DecidablePred r] [DecidablePred t] :
    ∀ L : List α, (∀ x ∈ L, (bit (p x) + bit (q x) + bit (r x)) % 2 = bit (t x)) →
      (L.countP (fun x => decide (p x)) + L.countP (fun x => decide (q x)) + L.countP (fun x => decide (r x))) % 2 = L.countP (fun x => decide (t x)) % 2
  | [], _ => rfl
  | x :: L, h => by
    have ih := countP_parity p q r t L fun y hy => h y (by simp [hy])
    have hx := h x (by simp)
    simp only [List.countP_cons, decide_eq_true_eq]
    simp only [bit] at hx
    omega

theorem onSeg_left (u v : Point) : OnSeg u v u := ⟨0, le_rfl, zero_le_one, by ring, by ring⟩
theorem onSeg_right (u v : Point) : OnSeg u v v := ⟨1, zero_le_one, le_rfl, by ring, by ring⟩

theorem onSeg_det {u v q : Point} (h : OnSeg u v q) : det2 u v q = 0 := by
  obtain ⟨t, -, -, h1, h2⟩ := h
  unfold det2; rw [h1, h2]; ring

/-- The number of crossings has the parity of the number of triangles over a base point that contain the point. -/
theorem crossings_fan (ps : List Point) (O q : Point) (off : ∀ e ∈ cyclicPairs ps, ¬ OnSeg e.1 e.2 q) (hO : ∀ p ∈ ps, det2 q p O ≠ 0) :
    crossings ps q % 2 = (cyclicPairs ps).countP (fun e => decide (InTri O e.1 e.2 q)) % 2 := by
  have spoke : ∀ p ∈ ps, ¬ OnSeg O p q := fun p hp on => hO p hp (by have := onSeg_det on; unfold det2 at this ⊢; linarith)
  have fst : ∀ e ∈ cyclicPairs ps, e.1 ∈ ps := fun e he => by
    have := List.mem_map_of_mem (f := Prod.fst) he
    rwa [cyclic_fst] at this
  have snd : ∀ e ∈ cyclicPairs ps, e.2 ∈ ps := fun e he => by
    have := List.mem_map_of_mem (f := Prod.snd) he
    rwa [(cyclic_snd_perm ps).mem_iff] at this
  have key := countP_parity (fun e : Point × Point => EdgeOver q O e.1) (fun e => EdgeOver q e.1 e.2) (fun e => EdgeOver q e.2 O) (fun e => InTri O e.1 e.2 q)
    (cyclicPairs ps) fun e he => tri_parity (spoke _ (fst e he)) (off e he) fun h => spoke _ (snd e he) (onSeg_swap h)
  have e1 : (cyclicPairs ps).countP (fun e => decide (EdgeOver q O e.1)) = ps.countP fun p => decide (EdgeOver q O p) := by
    conv_rhs => rw [← cyclic_fst ps, List.countP_map]
    rfl
  have e2 : (cyclicPairs ps).countP (fun e => decide (EdgeOver q e.2 O)) = ps.countP fun p => decide (EdgeOver q O p) := by
    rw [← (cyclic_snd_perm ps).countP_eq, List.countP_map]
    refine List.countP_congr fun x _ => ?_
    simp only [Function.comp, decide_eq_true_eq]
    exact edgeOver_swap _ _ _
  rw [e1, e2] at key
  unfold crossings
  omega

/-! ## Similarities -/

namespace Similarity
variable (φ : Similarity)

/-- The factor for lengths, squared. -/
def scale : Rat := φ.a * φ.a + φ.b * φ.b

/-- The factor for areas. -/
def delta : Rat := if φ.mirror then - φ.scale else φ.scale

theorem scale_pos : 0 < φ.scale := by
  unfold scale
  rcases φ.ne with h | h
  · have := mul_self_pos.2 h; nlinarith [mul_self_nonneg φ.b]
  · have := mul_self_pos.2 h; nlinarith [mul_self_nonneg φ.a]

theorem delta_ne : φ.delta ≠ 0 := by
  have := φ.scale_pos
  unfold delta
  split
  · linarith
  · exact this.ne'

theorem det2_app (a b c : Point) : det2 (φ.app a) (φ.app b) (φ.app c) = φ.delta * det2 a b c := by
  unfold app delta scale
  split <;> (unfold det2; ring)

theorem inCircle_app (a b c d : Point) : inCircleDet (φ.app a) (φ.app b) (φ.app c) (φ.app d) = φ.delta * φ.scale * inCircleDet a b c d := by
  unfold app delta scale
  split <;> (simp only [inCircleDet]; ring)

theorem app_inj {p q : Point} (h : φ.app p = φ.app q) : p = q := by
  have s := φ.scale_pos
  have key : φ.a * (p.x - q.x) + φ.b * (p.y - q.y) = 0 ∧ φ.b * (p.x - q.x) - φ.a * (p.y - q.y) = 0 ∨
      φ.a * (p.x - q.x) - φ.b * (p.y - q.y) = 0 ∧ φ.b * (p.x - q.x) + φ.a * (p.y - q.y) = 0 := by
    unfold app at h
    split at h
    · left
      obtain ⟨h1, h2⟩ := Point.mk.injEq .. ▸ h
      constructor <;> linarith
    · right
      obtain ⟨h1, h2⟩ := Point.mk.injEq .. ▸ h
      constructor <;> linarith
  have e : φ.scale * (p.x - q.x) = 0 ∧ φ.scale * (p.y - q.y) = 0 := by
    unfold scale
    rcases key with ⟨h1, h2⟩ | ⟨h1, h2⟩
    · constructor
      · linear_combination φ.a * h1 + φ.b * h2
      · linear_combination φ.b * h1 - φ.a * h2
    · constructor
      · linear_combination φ.a * h1 + φ.b * h2
      · linear_combination φ.a * h2 - φ.b * h1
  have x := (mul_eq_zero.1 e.1).resolve_left s.ne'
  have y := (mul_eq_zero.1 e.2).resolve_left s.ne'
  obtain ⟨px, py⟩ := p
  obtain ⟨qx, qy⟩ := q
  simp only [Point.mk.injEq]
  simp only at x y
  constructor <;> linarith

theorem app_surj (q : Point) : ∃ p, φ.app p = q := by
  have s := φ.scale_pos.ne'
  obtain ⟨x, y⟩ := q
  unfold app
  split
  · refine ⟨⟨(φ.a * (x - φ.e) + φ.b * (y - φ.f)) / φ.scale, (φ.b * (x - φ.e) - φ.a * (y - φ.f)) / φ.scale⟩, ?_⟩
    simp only [Point.mk.injEq]
    constructor <;> (field_simp; unfold scale; ring)
  · refine ⟨⟨(φ.a * (x - φ.e) + φ.b * (y - φ.f)) / φ.scale, (φ.a * (y - φ.f) - φ.b * (x - φ.e)) / φ.scale⟩, ?_⟩
    simp only [Point.mk.injEq]
    constructor <;> (field_simp; unfold scale; ring)

theorem app_mix (t : Rat) (u v : Point) : φ.app (mix t u v) = mix t (φ.app u) (φ.app v) := by
  unfold app
  split <;> (simp only [mix, Point.mk.injEq]; constructor <;> ring)

theorem seg_iff {u v q : Point} : OnSeg u v q ↔ ∃ t : Rat, 0 ≤ t ∧ t ≤ 1 ∧ q = mix t u v := by
  unfold OnSeg
  constructor
  · rintro ⟨t, t0, t1, x, y⟩
    exact ⟨t, t0, t1, by obtain ⟨qx, qy⟩ := q; simp only [mix, Point.mk.injEq]; exact ⟨x, y⟩⟩
  · rintro ⟨t, t0, t1, rfl⟩
    exact ⟨t, t0, t1, rfl, rfl⟩

theorem onSeg_app {u v q : Point} : OnSeg (φ.app u) (φ.app v) (φ.app q) ↔ OnSeg u v q := by
  rw [seg_iff, seg_iff]
  constructor
  · rintro ⟨t, t0, t1, e⟩
    exact ⟨t, t0, t1, φ.app_inj (e.trans (φ.app_mix t u v).symm)⟩
  · rintro ⟨t, t0, t1, e⟩
    exact ⟨t, t0, t1, by rw [e, φ.app_mix]⟩

theorem between_iff {u v q : Point} : StrictlyBetween u v q ↔ ∃ t : Rat, 0 < t ∧ t < 1 ∧ q = mix t u v := by
  unfold StrictlyBetween
  constructor
  · rintro ⟨t, t0, t1, x, y⟩
    exact ⟨t, t0, t1, by obtain ⟨qx, qy⟩ := q; simp only [mix, Point.mk.injEq]; exact ⟨x, y⟩⟩
  · rintro ⟨t, t0, t1, rfl⟩
    exact ⟨t, t0, t1, rfl, rfl⟩

theorem between_app {u v q : Point} : StrictlyBetween (φ.app u) (φ.app v) (φ.app q) ↔ StrictlyBetween u v q := by
  rw [between_iff, between_iff]
  constructor
  · rintro ⟨t, t0, t1, e⟩
    exact ⟨t, t0, t1, φ.app_inj (e.trans (φ.app_mix t u v).symm)⟩
  · rintro ⟨t, t0, t1, e⟩
    exact ⟨t, t0, t1, by rw [e, φ.app_mix]⟩

theorem inTri_app {a b c q : Point} : InTri (φ.app a) (φ.app b) (φ.app c) (φ.app q) ↔ InTri a b c q := by
  unfold InTri
  simp only [φ.det2_app]
  rcases lt_or_gt_of_ne φ.delta_ne with h | h
  · simp only [mul_pos_iff_of_neg_left' h, mul_neg_iff_of_neg_left' h]; tauto
  · simp only [mul_pos_iff_of_pos_left h, mul_neg_iff_of_pos_left' h]
where
  mul_pos_iff_of_neg_left' {c : Rat} (h : c < 0) {x : Rat} : 0 < c * x ↔ x < 0 := ⟨fun k => by by_contra hc; have := mul_nonneg (neg_nonneg.2 h.le) (not_lt.1 hc); linarith, fun k => mul_pos_of_neg_of_neg h k⟩
  mul_neg_iff_of_neg_left' {c : Rat} (h : c < 0) {x : Rat} : c * x < 0 ↔ 0 < x := ⟨fun k => by by_contra hc; have := mul_nonneg (neg_nonneg.2 h.le) (neg_nonneg.2 (not_lt.1 hc)); linarith, fun k => mul_neg_of_neg_of_pos h k⟩
  mul_neg_iff_of_pos_left' {c : Rat} (h : 0 < c) {x : Rat} : c * x < 0 ↔ x < 0 := ⟨fun k => by by_contra hc; have := mul_nonneg h.le (not_lt.1 hc); linarith, fun k => mul_neg_of_pos_of_neg h k⟩

/-- Inside a closed polyline, off its edges: whatever the similarity. -/
theorem inside_app {ps : List Point} {q : Point} (off : ∀ e ∈ cyclicPairs ps, ¬ OnSeg e.1 e.2 q) : InsidePolyline (ps.map φ.app) (φ.app q) ↔ InsidePolyline ps q := by
  have neq : ∀ p ∈ ps, p ≠ q := by
    rintro p hp rfl
    rw [← cyclic_fst ps] at hp
    obtain ⟨e, he, rfl⟩ := List.mem_map.1 hp
    exact off e he (onSeg_left _ _)
  obtain ⟨O, -, hO⟩ := generic_point (ps.map fun p X => det2 q p X) [] q (by simp) (by
    intro f hf
    obtain ⟨p, hp, rfl⟩ := List.mem_map.1 hf
    refine ⟨isAffine_det _ _, ⟨q.x - (p.y - q.y), q.y + (p.x - q.x)⟩, ?_⟩
    intro h0
    have h0 : (p.x - q.x) * (p.x - q.x) + (p.y - q.y) * (p.y - q.y) = 0 := by unfold det2 at h0; linarith
    have x := mul_self_nonneg (p.x - q.x)
    have y := mul_self_nonneg (p.y - q.y)
    have x0 := mul_self_eq_zero.1 (show (p.x - q.x) * (p.x - q.x) = 0 by linarith)
    have y0 := mul_self_eq_zero.1 (show (p.y - q.y) * (p.y - q.y) = 0 by linarith)
    refine neq p hp ?_
    obtain ⟨px, py⟩ := p
    obtain ⟨qx, qy⟩ := q
    simp only [Point.mk.injEq]
    simp only at x0 y0
    constructor <;> linarith)
  have hO : ∀ p ∈ ps, det2 q p O ≠ 0 := fun p hp => hO _ (List.mem_map.2 ⟨p, hp, rfl⟩)
  have c1 := crossings_fan ps O q off hO
  have c2 := crossings_fan (ps.map φ.app) (φ.app O) (φ.app q) (by
      rw [cyclic_map]
      intro e he
      obtain ⟨x, hx, rfl⟩ := List.mem_map.1 he
      exact fun on => off x hx (φ.onSeg_app.1 on)) (by
      intro p hp
      obtain ⟨x, hx, rfl⟩ := List.mem_map.1 hp
      rw [φ.det2_app]
      exact mul_ne_zero φ.delta_ne (hO x hx))
  rw [cyclic_map, List.countP_map] at c2
  have e : (cyclicPairs ps).countP ((fun e => decide (InTri (φ.app O) e.1 e.2 (φ.app q))) ∘ fun x => (φ.app x.1, φ.app x.2)) = (cyclicPairs ps).countP fun e => decide (InTri O e.1 e.2 q) := by
    refine List.countP_congr fun x _ => ?_
    simp only [Function.comp, decide_eq_true_eq]
    exact φ.inTri_app
  unfold InsidePolyline
  rw [c1, c2, ← e]

/-! ## The image of an input -/

section
variable {D : Type} {poly : Source D} {ops : List (BuildOp D)}

theorem holes_map : holesOf (ops.map (·.mapPts φ)) = (holesOf ops).map (·.map φ.app) := by
  unfold holesOf
  rw [List.flatMap_map, List.map_flatMap]
  refine List.flatMap_congr fun o _ => ?_
  cases o <;> simp [BuildOp.mapPts, BuildOp.holePts, Source.mapPts]

theorem steiners_map : steinersOf (ops.map (·.mapPts φ)) = (steinersOf ops).map φ.app := by
  unfold steinersOf
  rw [List.flatMap_map, List.map_flatMap]
  refine List.flatMap_congr fun o _ => ?_
  cases o <;> simp [BuildOp.mapPts, BuildOp.steinerPts, Source.mapPts]

theorem polylines_map : (poly.mapPts φ).points :: holesOf (ops.map (·.mapPts φ)) = (poly.points :: holesOf ops).map (·.map φ.app) := by
  rw [holes_map]; rfl

theorem extra_map : extraPoints (ops.map (·.mapPts φ)) = (extraPoints ops).map φ.app := by
  unfold extraPoints allPoints
  rw [List.flatMap_map, List.flatMap_assoc, List.flatMap_assoc, List.map_flatMap]
  refine List.flatMap_congr fun o _ => ?_
  cases o with
  | steinerPoint p d => simp [BuildOp.mapPts, BuildOp.pieces, Piece.pts]
  | steinerPoints s => simp [BuildOp.mapPts, BuildOp.pieces, Source.mapPts, Piece.pts]
  | hole s => simp [BuildOp.mapPts, BuildOp.pieces, Source.mapPts, Piece.pts]
  | holes ss =>
    simp only [BuildOp.mapPts, BuildOp.pieces, List.map_map, List.flatMap_map, List.map_flatMap]
    rfl

theorem all_map : allPoints (piecesOf (poly.mapPts φ) (ops.map (·.mapPts φ))) = (allPoints (piecesOf poly ops)).map φ.app := by
  have e : ∀ (poly : Source D) (ops : List (BuildOp D)), allPoints (piecesOf poly ops) = poly.points ++ extraPoints ops := fun poly ops => by
    simp [allPoints, piecesOf, Piece.pts, extraPoints]
  rw [e, e, extra_map, List.map_append]; rfl

/-- On none of the edges of the input. -/
def Off (poly : Source D) (ops : List (BuildOp D)) (q : Point) : Prop := ∀ ps ∈ poly.points :: holesOf ops, ∀ e ∈ cyclicPairs ps, ¬ OnSeg e.1 e.2 q

theorem off_app {q : Point} : Off (poly.mapPts φ) (ops.map (·.mapPts φ)) (φ.app q) ↔ Off poly ops q := by
  unfold Off
  rw [polylines_map]
  constructor
  · intro h ps hps e he on
    refine h _ (List.mem_map.2 ⟨ps, hps, rfl⟩) (φ.app e.1, φ.app e.2) ?_ (φ.onSeg_app.2 on)
    rw [cyclic_map]
    exact List.mem_map.2 ⟨e, he, rfl⟩
  · intro h ps hps e he on
    obtain ⟨qs, hqs, rfl⟩ := List.mem_map.1 hps
    rw [cyclic_map] at he
    obtain ⟨x, hx, rfl⟩ := List.mem_map.1 he
    exact h qs hqs x hx (φ.onSeg_app.1 on)

theorem region_app {q : Point} (off : Off poly ops q) : InRegion (poly.mapPts φ) (ops.map (·.mapPts φ)) (φ.app q) ↔ InRegion poly ops q := by
  unfold InRegion
  rw [holes_map]
  refine and_congr (φ.inside_app (off _ (by simp))) ⟨fun h H hH hq => ?_, fun h H hH hq => ?_⟩
  · exact h _ (List.mem_map.2 ⟨H, hH, rfl⟩) ((φ.inside_app (off _ (by simp [hH]))).2 hq)
  · obtain ⟨H', hH', rfl⟩ := List.mem_map.1 hH
    exact h H' hH' ((φ.inside_app (off _ (by simp [hH']))).1 hq)

theorem visible_app {X p : Point} : Visible (poly.mapPts φ) (ops.map (·.mapPts φ)) (φ.app X) (φ.app p) ↔ Visible poly ops X p := by
  have e : ∀ (poly : Source D) (ops : List (BuildOp D)) (X p : Point), Visible poly ops X p ↔ ∀ q, StrictlyBetween X p q → Off poly ops q := fun poly ops X p =>
    ⟨fun h q hq ps hps e he => h ps hps e he q hq, fun h ps hps e he q hq => h q hq ps hps e he⟩
  rw [e, e]
  constructor
  · exact fun h q hq => φ.off_app.1 (h _ (φ.between_app.2 hq))
  · intro h q hq
    obtain ⟨q, rfl⟩ := φ.app_surj q
    exact φ.off_app.2 (h q (φ.between_app.1 hq))

/-- The image of a triangle, counter-clockwise again. -/
def tri (T : Tri) : Tri := if φ.mirror then { T with points := ⟨T.points.a, T.points.c, T.points.b⟩ } else T

theorem ptOf_map {all : List Point} {i : Nat} (h : i < all.length) : ptOf (all.map φ.app) i = φ.app (ptOf all i) := by
  simp [ptOf, h]

theorem tri_pts (T : Tri) : ((φ.tri T).points = T.points ∧ 0 < φ.delta) ∨ ((φ.tri T).points = ⟨T.points.a, T.points.c, T.points.b⟩ ∧ φ.delta < 0) := by
  have := φ.scale_pos
  unfold tri delta
  cases φ.mirror
  · exact .inl ⟨rfl, this⟩
  · exact .inr ⟨rfl, by simpa using this⟩

section
variable {all : List Point} {T : Tri} (hT : ∀ k, T.points.get k < all.length)
include hT

theorem area_tri : 0 < area2 (all.map φ.app) (φ.tri T) ↔ 0 < area2 all T := by
  unfold area2
  have k0 := φ.ptOf_map (hT 0)
  have k1 := φ.ptOf_map (hT 1)
  have k2 := φ.ptOf_map (hT 2)
  rcases φ.tri_pts T with ⟨e, h⟩ | ⟨e, h⟩
  · rw [e, k0, k1, k2, φ.det2_app]; exact mul_pos_iff_of_pos_left h
  · rw [e]
    show 0 < det2 (ptOf _ (T.points.get 0)) (ptOf _ (T.points.get 2)) (ptOf _ (T.points.get 1)) ↔ _
    rw [k0, k1, k2, φ.det2_app, det2_swap', mul_neg, ← neg_mul]; exact mul_pos_iff_of_pos_left (by linarith)

theorem inside_tri {q : Point} : (φ.tri T).Inside (all.map φ.app) (φ.app q) ↔ T.Inside all q := by
  unfold Tri.Inside P2T.Inside
  have k0 := φ.ptOf_map (hT 0)
  have k1 := φ.ptOf_map (hT 1)
  have k2 := φ.ptOf_map (hT 2)
  rcases φ.tri_pts T with ⟨e, h⟩ | ⟨e, h⟩
  · rw [e, k0, k1, k2]
    simp only [φ.det2_app, mul_pos_iff_of_pos_left h]
  · rw [e]
    show 0 < det2 (ptOf _ (T.points.get 0)) (ptOf _ (T.points.get 2)) _ ∧ 0 < det2 (ptOf _ (T.points.get 2)) (ptOf _ (T.points.get 1)) _ ∧
      0 < det2 (ptOf _ (T.points.get 1)) (ptOf _ (T.points.get 0)) _ ↔ _
    rw [k0, k1, k2]
    simp only [φ.det2_app]
    rw [det2_swap (ptOf all (T.points.get 2)) (ptOf all (T.points.get 0)), det2_swap (ptOf all (T.points.get 1)) (ptOf all (T.points.get 2)),
      det2_swap (ptOf all (T.points.get 0)) (ptOf all (T.points.get 1))]
    simp only [mul_neg, ← neg_mul, mul_pos_iff_of_pos_left (show 0 < - φ.delta by linarith)]
    tauto

theorem closed_tri {q : Point} : (φ.tri T).InClosed (all.map φ.app) (φ.app q) ↔ T.InClosed all q := by
  unfold Tri.InClosed P2T.InClosed
  have k0 := φ.ptOf_map (hT 0)
  have k1 := φ.ptOf_map (hT 1)
  have k2 := φ.ptOf_map (hT 2)
  rcases φ.tri_pts T with ⟨e, h⟩ | ⟨e, h⟩
  · rw [e, k0, k1, k2]
    simp only [φ.det2_app, mul_nonneg_iff_of_pos_left h]
  · rw [e]
    show 0 ≤ det2 (ptOf _ (T.points.get 0)) (ptOf _ (T.points.get 2)) _ ∧ 0 ≤ det2 (ptOf _ (T.points.get 2)) (ptOf _ (T.points.get 1)) _ ∧
      0 ≤ det2 (ptOf _ (T.points.get 1)) (ptOf _ (T.points.get 0)) _ ↔ _
    rw [k0, k1, k2]
    simp only [φ.det2_app]
    rw [det2_swap (ptOf all (T.points.get 2)) (ptOf all (T.points.get 0)), det2_swap (ptOf all (T.points.get 1)) (ptOf all (T.points.get 2)),
      det2_swap (ptOf all (T.points.get 0)) (ptOf all (T.points.get 1))]
    simp only [mul_neg, ← neg_mul, mul_nonneg_iff_of_pos_left (show 0 < - φ.delta by linarith)]
    tauto

theorem circle_tri {p : Point} :
    inCircleDet (ptOf (all.map φ.app) ((φ.tri T).points.get 0)) (ptOf (all.map φ.app) ((φ.tri T).points.get 1)) (ptOf (all.map φ.app) ((φ.tri T).points.get 2)) (φ.app p) ≤ 0 ↔
      inCircleDet (ptOf all (T.points.get 0)) (ptOf all (T.points.get 1)) (ptOf all (T.points.get 2)) p ≤ 0 := by
  have k0 := φ.ptOf_map (hT 0)
  have k1 := φ.ptOf_map (hT 1)
  have k2 := φ.ptOf_map (hT 2)
  have s := φ.scale_pos
  have np : ∀ {c x : Rat}, 0 < c → (c * x ≤ 0 ↔ x ≤ 0) := fun {c x} hc => ⟨fun k => by by_contra h; have := mul_pos hc (not_le.1 h); linarith, fun k => mul_nonpos_of_nonneg_of_nonpos hc.le k⟩
  rcases φ.tri_pts T with ⟨e, h⟩ | ⟨e, h⟩
  · rw [e, k0, k1, k2, φ.inCircle_app]
    exact np (mul_pos h s)
  · rw [e]
    show inCircleDet (ptOf _ (T.points.get 0)) (ptOf _ (T.points.get 2)) (ptOf _ (T.points.get 1)) _ ≤ 0 ↔ _
    rw [k0, k1, k2, φ.inCircle_app]
    have e : ∀ a b c d : Point, inCircleDet a c b d = - inCircleDet a b c d := by intro a b c d; simp only [inCircleDet]; ring
    rw [e, mul_neg, ← neg_mul, ← neg_mul]
    exact np (mul_pos (by linarith) s)

end

variable {all : List Point} {M : Store} {res : List Nat}

theorem store_map {i : Nat} {T' : Tri} (h : (M.map φ.tri)[i]? = some T') : ∃ T, M[i]? = some T ∧ T' = φ.tri T := by
  rw [List.getElem?_map] at h
  obtain ⟨T, hT, rfl⟩ := Option.map_eq_some_iff.1 h
  exact ⟨T, hT, rfl⟩

theorem get_tri (T : Tri) (k : Fin 3) : ∃ k', (φ.tri T).points.get k = T.points.get k' := by
  rcases φ.tri_pts T with ⟨e, -⟩ | ⟨e, -⟩
  · exact ⟨k, by rw [e]⟩
  · rw [e]
    match k with
    | 0 => exact ⟨0, rfl⟩
    | 1 => exact ⟨2, rfl⟩
    | 2 => exact ⟨1, rfl⟩

theorem get_tri' (T : Tri) (k : Fin 3) : ∃ k', (φ.tri T).points.get k' = T.points.get k := by
  rcases φ.tri_pts T with ⟨e, -⟩ | ⟨e, -⟩
  · exact ⟨k, by rw [e]⟩
  · rw [e]
    match k with
    | 0 => exact ⟨0, rfl⟩
    | 1 => exact ⟨2, rfl⟩
    | 2 => exact ⟨1, rfl⟩

/-- The image of a triangulation triangulates the image of the input. -/
theorem triangulates (hlen : (allPoints (piecesOf poly ops)).length ≤ all.length) (R : TriangulatesOff poly ops all M res) (E : EdgesClear poly ops all M res) :
    TriangulatesOff (poly.mapPts φ) (ops.map (·.mapPts φ)) (all.map φ.app) (M.map φ.tri) res := by
  have cor : ∀ i ∈ res, ∀ T, M[i]? = some T → ∀ k, T.points.get k < all.length := by
    intro i hi T hT k
    obtain ⟨_, e, -, h⟩ := R.proper i hi
    rw [hT] at e; cases e
    exact lt_of_lt_of_le (h k) hlen
  refine ⟨fun i hi => ?_, fun i hi T' hT' q hq => ?_, fun q hq off => ?_⟩
  · obtain ⟨T, hT, hpos, h⟩ := R.proper i hi
    refine ⟨φ.tri T, by rw [List.getElem?_map, hT]; rfl, (φ.area_tri (cor i hi T hT)).2 hpos, fun k => ?_⟩
    obtain ⟨k', e⟩ := φ.get_tri T k
    rw [e, all_map, List.length_map]
    exact h k'
  · obtain ⟨T, hT, rfl⟩ := φ.store_map hT'
    obtain ⟨q, rfl⟩ := φ.app_surj q
    have hq := (φ.inside_tri (cor i hi T hT)).1 hq
    exact (φ.region_app (E i hi T hT q hq)).2 (R.inside i hi T hT q hq)
  · obtain ⟨q, rfl⟩ := φ.app_surj q
    have off : Off poly ops q := φ.off_app.1 off
    obtain ⟨i, hi, T, hT, cl⟩ := R.covers q ((φ.region_app off).1 hq) off
    exact ⟨i, hi, φ.tri T, by rw [List.getElem?_map, hT]; rfl, (φ.closed_tri (cor i hi T hT)).2 cl⟩

theorem delaunay (hT : ∀ i ∈ res, ∀ T, M[i]? = some T → ∀ k, T.points.get k < all.length) (C : ConstrainedDelaunay poly ops all M res) :
    ConstrainedDelaunay (poly.mapPts φ) (ops.map (·.mapPts φ)) (all.map φ.app) (M.map φ.tri) res := by
  intro i hi T' hT' X hX p hp vis
  obtain ⟨T, h, rfl⟩ := φ.store_map hT'
  obtain ⟨X, rfl⟩ := φ.app_surj X
  rw [all_map] at hp
  obtain ⟨p', hp', rfl⟩ := List.mem_map.1 hp
  exact (φ.circle_tri (hT i hi T h)).2 (C i hi T h X ((φ.inside_tri (hT i hi T h)).1 hX) p' hp' (φ.visible_app.1 vis))

theorem clear (hT : ∀ i ∈ res, ∀ T, M[i]? = some T → ∀ k, T.points.get k < all.length) (E : EdgesClear poly ops all M res) :
    EdgesClear (poly.mapPts φ) (ops.map (·.mapPts φ)) (all.map φ.app) (M.map φ.tri) res := by
  intro i hi T' hT' q hq
  obtain ⟨T, h, rfl⟩ := φ.store_map hT'
  obtain ⟨q, rfl⟩ := φ.app_surj q
  exact φ.off_app.2 (E i hi T h q ((φ.inside_tri (hT i hi T h)).1 hq))

theorem cocircular {l : List Point} (h : NoFourCocircular l) : NoFourCocircular (l.map φ.app) := by
  intro a ha b hb c hc d hd h0 h1 h2 h3
  obtain ⟨a', ha', rfl⟩ := List.mem_map.1 ha
  obtain ⟨b', hb', rfl⟩ := List.mem_map.1 hb
  obtain ⟨c', hc', rfl⟩ := List.mem_map.1 hc
  obtain ⟨d', hd', rfl⟩ := List.mem_map.1 hd
  rw [φ.inCircle_app]
  refine mul_ne_zero (mul_ne_zero φ.delta_ne φ.scale_pos.ne') (h a' ha' b' hb' c' hc' d' hd' ?_ ?_ ?_ ?_)
  · intro k; exact h0 (by rw [φ.det2_app, k, mul_zero])
  · rintro rfl; exact h1 rfl
  · rintro rfl; exact h2 rfl
  · rintro rfl; exact h3 rfl

end

end Similarity

/-! ## The triangles of the image are the images of the triangles -/

section
variable {D D' : Type} {φ : Similarity} {poly : Source D} {ops : List (BuildOp D)} {poly' : Source D'} {ops' : List (BuildOp D')} {all all' : List Point} {M M' : Store}
    {res res' : List Nat}

theorem cdt_similar (h : SameInput (poly.mapPts φ) (ops.map (·.mapPts φ)) poly' ops') (hlen : (allPoints (piecesOf poly ops)).length ≤ all.length)
    (hall : ∀ i, i < (allPoints (piecesOf poly ops)).length → ptOf all i ∈ allPoints (piecesOf poly ops))
    (hall' : ∀ i, i < (allPoints (piecesOf poly' ops')).length → ptOf all' i ∈ allPoints (piecesOf poly' ops'))
    (R : TriangulatesOff poly ops all M res) (R' : TriangulatesOff poly' ops' all' M' res')
    (C : ConstrainedDelaunay poly ops all M res) (C' : ConstrainedDelaunay poly' ops' all' M' res')
    (E : EdgesClear poly ops all M res) (E' : EdgesClear poly' ops' all' M' res')
    (nc : NoFourCocircular (allPoints (piecesOf poly ops))) : ImagesAmong φ all M res all' M' res' ∧ AreImages φ all M res all' M' res' := by
  have cor : ∀ i ∈ res, ∀ T, M[i]? = some T → ∀ k, T.points.get k < all.length := by
    intro i hi T hT k
    obtain ⟨_, e, -, h⟩ := R.proper i hi
    rw [hT] at e; cases e
    exact lt_of_lt_of_le (h k) hlen
  have hallφ : ∀ i, i < (allPoints (piecesOf (poly.mapPts φ) (ops.map (·.mapPts φ)))).length → ptOf (all.map φ.app) i ∈ allPoints (piecesOf (poly.mapPts φ) (ops.map (·.mapPts φ))) := by
    intro i hi
    rw [Similarity.all_map, List.length_map] at hi
    rw [Similarity.all_map, φ.ptOf_map (by omega)]
    exact List.mem_map_of_mem (hall i hi)
  have Rφ := φ.triangulates hlen R E
  have Cφ := φ.delaunay cor C
  have Eφ := φ.clear cor E
  have ncφ : NoFourCocircular (allPoints (piecesOf (poly.mapPts φ) (ops.map (·.mapPts φ)))) := by rw [Similarity.all_map]; exact φ.cocircular nc
  have nc' : NoFourCocircular (allPoints (piecesOf poly' ops')) := fun a ha b hb c hc d hd =>
    ncφ a ((h.points a).2 ha) b ((h.points b).2 hb) c ((h.points c).2 hc) d ((h.points d).2 hd)
  have A := cdt_unique h hallφ hall' Rφ R' Cφ C' Eφ E' ncφ
  have A' := cdt_unique h.symm hall' hallφ R' Rφ C' Cφ E' Eφ nc'
  -- corners against corners
  have key : ∀ i ∈ res, ∀ T, M[i]? = some T → ∀ T' : Tri, (∀ j : Fin 3, ∃ j' : Fin 3, ptOf (all.map φ.app) ((φ.tri T).points.get j) = ptOf all' (T'.points.get j')) →
      (∀ j' : Fin 3, ∃ j : Fin 3, ptOf (all.map φ.app) ((φ.tri T).points.get j) = ptOf all' (T'.points.get j')) →
      (∀ j : Fin 3, ∃ j' : Fin 3, φ.app (ptOf all (T.points.get j)) = ptOf all' (T'.points.get j')) ∧
        ∀ j' : Fin 3, ∃ j : Fin 3, φ.app (ptOf all (T.points.get j)) = ptOf all' (T'.points.get j') := by
    intro i hi T hT T' h1 h2
    constructor
    · intro j
      obtain ⟨k, ek⟩ := φ.get_tri' T j
      obtain ⟨j', e⟩ := h1 k
      rw [ek, φ.ptOf_map (cor i hi T hT j)] at e
      exact ⟨j', e⟩
    · intro j'
      obtain ⟨k, e⟩ := h2 j'
      obtain ⟨j, ej⟩ := φ.get_tri T k
      rw [ej, φ.ptOf_map (cor i hi T hT j)] at e
      exact ⟨j, e⟩
  have can : ∀ j k : Fin 3, j - k + k = j := by decide
  constructor
  · intro i hi T hT
    obtain ⟨i', hi', T', hT', k, e⟩ := A i hi (φ.tri T) (by rw [List.getElem?_map, hT]; rfl)
    refine ⟨i', hi', T', hT', key i hi T hT T' (fun j => ⟨_, e j⟩) fun j' => ⟨j' - k, ?_⟩⟩
    rw [e, can]
  · intro i' hi' T' hT'
    obtain ⟨i, hi, T1, hT1, k, e⟩ := A' i' hi' T' hT'
    obtain ⟨T, hT, rfl⟩ := φ.store_map hT1
    refine ⟨i, hi, T, hT, key i hi T hT T' (fun j => ⟨j - k, ?_⟩) fun j' => ⟨_, (e j').symm⟩⟩
    rw [e, can]

end

end P2T
