import Verif.Proofs.PlaneMesh
import Verif.Proofs.EdgeFlip
import Mathlib.Tactic.LinearCombination

/-!
# Geometry of the scan for a flip

Plane facts about meshes in terms of half-edges, and the chain of edges that `flip_scan_edge_event` walks along.
-/

set_option linter.unusedSectionVars false

namespace P2T

/-! ## Determinants -/

theorem plucker (o a b c d : Point) : det2 o a b * det2 o c d - det2 o a c * det2 o b d + det2 o a d * det2 o b c = 0 := by
  unfold det2; ring

theorem det2_split (o p q r : Point) : det2 p q r = det2 o p q + det2 o q r + det2 o r p := by unfold det2; ring

theorem det2_same (a b : Point) : det2 a b a = 0 ∧ det2 a b b = 0 ∧ det2 a a b = 0 := by
  refine ⟨?_, ?_, ?_⟩ <;> (unfold det2; ring)

/-- The point at parameter `s` between `u` and `v`. -/
def mix (s : Rat) (u v : Point) : Point := ⟨u.x + s * (v.x - u.x), u.y + s * (v.y - u.y)⟩

theorem det2_mix (a b u v : Point) (s : Rat) : det2 a b (mix s u v) = (1 - s) * det2 a b u + s * det2 a b v := by
  simp only [det2, mix]; ring

/-- `X` is strictly between `u` and `v`. -/
def OnOpen (u v X : Point) : Prop := ∃ s : Rat, 0 < s ∧ s < 1 ∧ X = mix s u v

theorem OnOpen.symm {u v X : Point} (h : OnOpen u v X) : OnOpen v u X := by
  obtain ⟨s, h0, h1, rfl⟩ := h
  refine ⟨1 - s, by linarith, by linarith, ?_⟩
  simp only [mix, Point.mk.injEq]; constructor <;> ring

theorem OnOpen.line {u v X : Point} (h : OnOpen u v X) : det2 u v X = 0 := by
  obtain ⟨s, -, -, rfl⟩ := h
  rw [det2_mix, (det2_same u v).1, (det2_same u v).2.1]; ring

/-- Crossing segments have a common point. -/
theorem ProperCross.point {u v x y : Point} (h : ProperCross u v x y) : ∃ X, OnOpen u v X ∧ OnOpen x y X := by
  obtain ⟨h1, h2⟩ := h
  have hs : det2 u v y - det2 u v x = det2 x y u - det2 x y v := by unfold det2; ring
  have n0 : det2 u v y - det2 u v x ≠ 0 := by
    intro k
    have : det2 u v y = det2 u v x := by linarith
    rw [this] at h1
    nlinarith [mul_self_nonneg (det2 u v x)]
  let N := det2 u v y - det2 u v x
  let τ := det2 x y u / N
  let σ := - det2 u v x / N
  have eτ : τ * N = det2 x y u := div_mul_cancel₀ _ n0
  have eσ : σ * N = - det2 u v x := div_mul_cancel₀ _ n0
  have rng : ∀ a b : Rat, a * b < 0 → a - b ≠ 0 → 0 < a / (a - b) ∧ a / (a - b) < 1 := by
    intro a b hab hn
    rcases mul_neg_iff.1 hab with ⟨ha, hb⟩ | ⟨ha, hb⟩
    · have : 0 < a - b := by linarith
      exact ⟨div_pos ha this, (div_lt_one this).2 (by linarith)⟩
    · have : a - b < 0 := by linarith
      exact ⟨div_pos_of_neg_of_neg ha this, (div_lt_one_of_neg this).2 (by linarith)⟩
  have rτ := rng (det2 x y u) (det2 x y v) h2 (by rw [← hs]; exact n0)
  have rσ := rng (det2 u v x) (det2 u v y) h1 (by intro k; apply n0; linarith)
  have hN : N = det2 x y u - det2 x y v := hs
  have hσ : σ = det2 u v x / (det2 u v x - det2 u v y) := by
    simp only [σ, N]
    rw [div_eq_div_iff n0 (by intro k; apply n0; linarith)]; ring
  refine ⟨mix τ u v, ⟨τ, by simp only [τ, hN]; exact rτ.1, by simp only [τ, hN]; exact rτ.2, rfl⟩, σ, by rw [hσ]; exact rσ.1,
    by rw [hσ]; exact rσ.2, ?_⟩
  have px : (u.x + τ * (v.x - u.x) - (x.x + σ * (y.x - x.x))) * N = 0 := by
    have : (u.x + τ * (v.x - u.x) - (x.x + σ * (y.x - x.x))) * N =
      (u.x - x.x) * N + (τ * N) * (v.x - u.x) - (σ * N) * (y.x - x.x) := by ring
    rw [this, eτ, eσ]; simp only [N]; unfold det2; ring
  have py : (u.y + τ * (v.y - u.y) - (x.y + σ * (y.y - x.y))) * N = 0 := by
    have : (u.y + τ * (v.y - u.y) - (x.y + σ * (y.y - x.y))) * N =
      (u.y - x.y) * N + (τ * N) * (v.y - u.y) - (σ * N) * (y.y - x.y) := by ring
    rw [this, eτ, eσ]; simp only [N]; unfold det2; ring
  have px := (mul_eq_zero.1 px).resolve_right n0
  have py := (mul_eq_zero.1 py).resolve_right n0
  simp only [mix, Point.mk.injEq]
  constructor <;> linarith

theorem ProperCross.swap {u v x y : Point} (h : ProperCross u v x y) : ProperCross v u x y := by
  obtain ⟨h1, h2⟩ := h
  refine ⟨?_, by rw [mul_comm]; exact h2⟩
  rw [det2_swap u v x, det2_swap u v y, neg_mul_neg]; exact h1

theorem ProperCross.swap' {u v x y : Point} (h : ProperCross u v x y) : ProperCross u v y x := by
  obtain ⟨h1, h2⟩ := h
  refine ⟨by rw [mul_comm]; exact h1, ?_⟩
  rw [det2_swap x y u, det2_swap x y v, neg_mul_neg]; exact h2

/-- A point on the line through `o` and `a`, on the same side of `e` as `a`. -/
theorem ray_cases {o a x e : Point} (h0 : det2 o a x = 0) (ha : 0 < det2 o a e) (hx : 0 < det2 o x e) :
    OnOpen o a x ∨ x = a ∨ OnOpen o x a := by
  have px : (x.x - o.x) * det2 o a e = (a.x - o.x) * det2 o x e := by
    have : (x.x - o.x) * det2 o a e - (a.x - o.x) * det2 o x e = (e.x - o.x) * det2 o a x := by unfold det2; ring
    rw [h0] at this; linarith
  have py : (x.y - o.y) * det2 o a e = (a.y - o.y) * det2 o x e := by
    have : (x.y - o.y) * det2 o a e - (a.y - o.y) * det2 o x e = (e.y - o.y) * det2 o a x := by unfold det2; ring
    rw [h0] at this; linarith
  have key : ∀ {a x : Point}, 0 < det2 o a e → 0 < det2 o x e → (x.x - o.x) * det2 o a e = (a.x - o.x) * det2 o x e →
      (x.y - o.y) * det2 o a e = (a.y - o.y) * det2 o x e → det2 o x e < det2 o a e → OnOpen o a x := by
    intro a x ha hx px py k
    have e0 : det2 o x e / det2 o a e * det2 o a e = det2 o x e := div_mul_cancel₀ _ ha.ne'
    refine ⟨det2 o x e / det2 o a e, div_pos hx ha, (div_lt_one ha).2 k, ?_⟩
    have qx : x.x = o.x + det2 o x e / det2 o a e * (a.x - o.x) := by
      apply mul_right_cancel₀ ha.ne'
      linear_combination px - (a.x - o.x) * e0
    have qy : x.y = o.y + det2 o x e / det2 o a e * (a.y - o.y) := by
      apply mul_right_cancel₀ ha.ne'
      linear_combination py - (a.y - o.y) * e0
    cases x; simp only at qx qy; simp only [mix, Point.mk.injEq]; exact ⟨qx, qy⟩
  rcases lt_trichotomy (det2 o x e) (det2 o a e) with k | k | k
  · exact .inl (key ha hx px py k)
  · right; left
    rw [k] at px py
    have qx := mul_right_cancel₀ ha.ne' px
    have qy := mul_right_cancel₀ ha.ne' py
    cases x; cases a; simp only [Point.mk.injEq] at *; constructor <;> linarith
  · exact .inr (.inr (key hx ha px.symm py.symm k))

/-- A point on the line through two points. -/
theorem line_mix {u v x : Point} (hne : u ≠ v) (h : det2 u v x = 0) : ∃ r, x = mix r u v := by
  have d0 : 0 < (v.x - u.x) ^ 2 + (v.y - u.y) ^ 2 := by
    by_contra k
    have k1 : (v.x - u.x) ^ 2 = 0 := by nlinarith [sq_nonneg (v.x - u.x), sq_nonneg (v.y - u.y)]
    have k2 : (v.y - u.y) ^ 2 = 0 := by nlinarith [sq_nonneg (v.x - u.x), sq_nonneg (v.y - u.y)]
    have k3 : v.x = u.x := by have := pow_eq_zero_iff (two_ne_zero) |>.1 k1; linarith
    have k4 : v.y = u.y := by have := pow_eq_zero_iff (two_ne_zero) |>.1 k2; linarith
    cases u; cases v; simp only at k3 k4; subst k3 k4; exact hne rfl
  set D := (v.x - u.x) ^ 2 + (v.y - u.y) ^ 2 with hD
  set N := (x.x - u.x) * (v.x - u.x) + (x.y - u.y) * (v.y - u.y) with hN
  have e0 : N / D * D = N := div_mul_cancel₀ _ d0.ne'
  have hl : (v.x - u.x) * (x.y - u.y) = (v.y - u.y) * (x.x - u.x) := by unfold det2 at h; linarith
  refine ⟨N / D, ?_⟩
  have qx : x.x = u.x + N / D * (v.x - u.x) := by
    apply mul_right_cancel₀ d0.ne'
    have : (x.x - u.x) * D = N * (v.x - u.x) := by rw [hD, hN]; linear_combination (- (v.y - u.y)) * hl
    linear_combination this - (v.x - u.x) * e0
  have qy : x.y = u.y + N / D * (v.y - u.y) := by
    apply mul_right_cancel₀ d0.ne'
    have : (x.y - u.y) * D = N * (v.y - u.y) := by rw [hD, hN]; linear_combination (v.x - u.x) * hl
    linear_combination this - (v.y - u.y) * e0
  cases x; simp only at qx qy; simp only [mix, Point.mk.injEq]; exact ⟨qx, qy⟩

theorem mix_mix (u v : Point) (a b s : Rat) : mix s (mix a u v) (mix b u v) = mix (a + s * (b - a)) u v := by
  simp only [mix, Point.mk.injEq]; constructor <;> ring

theorem mix_zero (u v : Point) : mix 0 u v = u := by cases u; simp [mix]
theorem mix_one (u v : Point) : mix 1 u v = v := by cases u; cases v; simp [mix]

theorem mix_inj {u v : Point} (hne : u ≠ v) {a b : Rat} (h : mix a u v = mix b u v) : a = b := by
  simp only [mix, Point.mk.injEq] at h
  by_contra k
  apply hne
  have k' : a - b ≠ 0 := sub_ne_zero.2 k
  have h1 : (a - b) * (v.x - u.x) = 0 := by linarith [h.1]
  have h2 : (a - b) * (v.y - u.y) = 0 := by linarith [h.2]
  have h1 := (mul_eq_zero.1 h1).resolve_left k'
  have h2 := (mul_eq_zero.1 h2).resolve_left k'
  cases u; cases v; simp only [Point.mk.injEq]; constructor <;> simp only at h1 h2 <;> linarith

/-- Order on a line. -/
theorem open_mix {u v : Point} {a b s : Rat} (h1 : a < s) (h2 : s < b) : OnOpen (mix a u v) (mix b u v) (mix s u v) := by
  have h : 0 < b - a := by linarith
  refine ⟨(s - a) / (b - a), div_pos (by linarith) h, (div_lt_one h).2 (by linarith), ?_⟩
  rw [mix_mix, div_mul_cancel₀ _ h.ne']
  congr 1; ring

/-- Two overlapping segments on a line are the same or an end of one is inside the other. -/
theorem collinear_overlap {u v u' v' X : Point} (h : det2 u v u' = 0) (hX : OnOpen u v X) (hX' : OnOpen u' v' X) :
    OnOpen u v u' ∨ OnOpen u v v' ∨ OnOpen u' v' u ∨ OnOpen u' v' v ∨ (u = u' ∧ v = v') ∨ (u = v' ∧ v = u') := by
  obtain ⟨s, s0, s1, rfl⟩ := hX
  by_cases hne : u = v
  · subst hne
    have : mix s u u = u := by cases u; simp [mix]
    rw [this] at hX'
    exact .inr (.inr (.inl hX'))
  obtain ⟨a, rfl⟩ := line_mix hne h
  obtain ⟨r, r0, r1, e⟩ := hX'
  have : ∃ b, v' = mix b u v := by
    refine line_mix hne ?_
    have : r * det2 u v v' = 0 := by
      have e1 : det2 u v (mix s u v) = det2 u v (mix r (mix a u v) v') := by rw [← e]
      rw [det2_mix, det2_mix, h, (det2_same _ _).1, (det2_same _ _).2.1] at e1
      linarith
    exact (mul_eq_zero.1 this).resolve_left r0.ne'
  obtain ⟨b, rfl⟩ := this
  rw [mix_mix] at e
  have e := mix_inj hne e
  have z : u = mix 0 u v := (mix_zero _ _).symm
  have o : v = mix 1 u v := (mix_one _ _).symm
  have key : ∀ p : Rat, 0 < p → p < 1 → OnOpen u v (mix p u v) := fun p h1 h2 => ⟨p, h1, h2, rfl⟩
  by_cases a0 : 0 < a ∧ a < 1
  · exact .inl (key a a0.1 a0.2)
  by_cases b0 : 0 < b ∧ b < 1
  · exact .inr (.inl (key b b0.1 b0.2))
  right; right
  have bet : (a < s ∧ s < b) ∨ (b < s ∧ s < a) := by
    rcases lt_trichotomy a b with k | k | k
    · left; constructor <;> nlinarith
    · exfalso; apply a0; subst k; constructor <;> nlinarith
    · right; constructor <;> nlinarith
  have hz : ∀ {p q : Rat}, p < 0 → 0 < q → OnOpen (mix p u v) (mix q u v) u := fun h1 h2 => by
    have := open_mix (u := u) (v := v) h1 h2; rwa [mix_zero] at this
  have ho : ∀ {p q : Rat}, p < 1 → 1 < q → OnOpen (mix p u v) (mix q u v) v := fun h1 h2 => by
    have := open_mix (u := u) (v := v) h1 h2; rwa [mix_one] at this
  rcases bet with ⟨k1, k2⟩ | ⟨k1, k2⟩
  · have ha : a ≤ 0 := by by_contra k; exact a0 ⟨not_le.1 k, by linarith⟩
    have hb : 1 ≤ b := by by_contra k; exact b0 ⟨by linarith, not_le.1 k⟩
    rcases ha.lt_or_eq with ha | rfl
    · exact .inl (hz ha (by linarith))
    rcases hb.lt_or_eq with hb | rfl
    · exact .inr (.inl (ho (by linarith) hb))
    · right; right; left; rw [mix_zero, mix_one]; exact ⟨rfl, rfl⟩
  · have ha : 1 ≤ a := by by_contra k; exact a0 ⟨by linarith, not_le.1 k⟩
    have hb : b ≤ 0 := by by_contra k; exact b0 ⟨not_le.1 k, by linarith⟩
    rcases hb.lt_or_eq with hb | rfl
    · exact .inl (hz hb (by linarith)).symm
    rcases ha.lt_or_eq with ha | rfl
    · exact .inr (.inl (ho (by linarith) ha).symm)
    · right; right; right; rw [mix_zero, mix_one]; exact ⟨rfl, rfl⟩

/-! ## Meshes -/

/-- A half-edge of a triangle that is not flat. -/
structure Sp (P : Nat → Point) (ts : Store) (t w u v : Nat) (n : Option Nat) (e : EdgeAttr) : Prop where
  sl : Sl ts t w u v n e
  pos : 0 < det2 (P w) (P u) (P v)

/-- `z` is a corner of the mesh. -/
def Vtx (ts : Store) (z : Nat) : Prop := ∃ t u v n e, Sl ts t z u v n e

/-- `u v` is an edge of the mesh, in one direction or the other. -/
def EdgeOf (ts : Store) (u v : Nat) : Prop := ∃ t w n e, Sl ts t w u v n e ∨ Sl ts t w v u n e

/-- `u v` is an edge of a triangle that is not flat. -/
def PEdge (P : Nat → Point) (ts : Store) (u v : Nat) : Prop := ∃ t w n e, Sp P ts t w u v n e ∨ Sp P ts t w v u n e

/-- `x` is between `u` and `v` or one of them. -/
def OnSg (u v x : Point) : Prop := x = u ∨ x = v ∨ OnOpen u v x

/-- What the plane gives: triangles do not overlap, and no corner is inside an edge of a triangle that is not flat. -/
structure Pl (P : Nat → Point) (ts : Store) : Prop where
  ne : ∀ {t w u v n e}, Sl ts t w u v n e → w ≠ u ∧ u ≠ v ∧ w ≠ v
  nn : ∀ {t w u v n e}, Sl ts t w u v n e → 0 ≤ det2 (P w) (P u) (P v)
  inj : ∀ {i j}, Vtx ts i → Vtx ts j → P i = P j → i = j
  disj : ∀ {t w u v n e t' w' u' v' n' e' X}, Sl ts t w u v n e → Sl ts t' w' u' v' n' e' →
    Inside (P w) (P u) (P v) X → Inside (P w') (P u') (P v') X → t = t'
  full : ∀ {z}, Vtx ts z → ∃ t u v n e, Sp P ts t z u v n e
  noend' : ∀ {t w u v n e z}, Sp P ts t w u v n e → Vtx ts z → ¬ OnOpen (P u) (P v) (P z)
  cover : ∀ {t w u v n e X}, Sl ts t w u v n e → OnOpen (P u) (P v) X → (∃ z, Vtx ts z ∧ P z = X) ∨
    ∃ u' v', PEdge P ts u' v' ∧ OnOpen (P u') (P v') X ∧ OnSg (P u) (P v) (P u') ∧ OnSg (P u) (P v) (P v')

theorem EdgeOf.symm {ts u v} (h : EdgeOf ts u v) : EdgeOf ts v u := by
  obtain ⟨t, w, n, e, h | h⟩ := h
  · exact ⟨t, w, n, e, .inr h⟩
  · exact ⟨t, w, n, e, .inl h⟩

theorem PEdge.symm {P ts u v} (h : PEdge P ts u v) : PEdge P ts v u := by
  obtain ⟨t, w, n, e, h | h⟩ := h
  · exact ⟨t, w, n, e, .inr h⟩
  · exact ⟨t, w, n, e, .inl h⟩

theorem PEdge.edge {P ts u v} (h : PEdge P ts u v) : EdgeOf ts u v := by
  obtain ⟨t, w, n, e, h | h⟩ := h
  · exact ⟨t, w, n, e, .inl h.sl⟩
  · exact ⟨t, w, n, e, .inr h.sl⟩

theorem Sl.rot2 {ts : Store} {t w u v n e} (h : Sl ts t w u v n e) : ∃ n' e', Sl ts t v w u n' e' := by
  obtain ⟨_, _, h⟩ := h.rot
  exact h.rot

theorem Sp.rot {P} {ts : Store} {t w u v n e} (h : Sp P ts t w u v n e) : ∃ n' e', Sp P ts t u v w n' e' := by
  obtain ⟨n', e', k⟩ := h.sl.rot
  exact ⟨n', e', k, by have := h.pos; rwa [← det2_rot] at this⟩

theorem Sp.rot2 {P} {ts : Store} {t w u v n e} (h : Sp P ts t w u v n e) : ∃ n' e', Sp P ts t v w u n' e' := by
  obtain ⟨_, _, h⟩ := h.rot
  exact h.rot

theorem Sl.vtx {ts : Store} {t w u v n e} (h : Sl ts t w u v n e) : Vtx ts w ∧ Vtx ts u ∧ Vtx ts v := by
  obtain ⟨_, _, h1⟩ := h.rot
  obtain ⟨_, _, h2⟩ := h1.rot
  exact ⟨⟨_, _, _, _, _, h⟩, ⟨_, _, _, _, _, h1⟩, ⟨_, _, _, _, _, h2⟩⟩

theorem EdgeOf.vtx {ts u v} (h : EdgeOf ts u v) : Vtx ts u ∧ Vtx ts v := by
  obtain ⟨t, w, n, e, h | h⟩ := h
  · exact h.vtx.2
  · exact ⟨h.vtx.2.2, h.vtx.2.1⟩

namespace Pl
variable {P : Nat → Point} {ts : Store} (h : Pl P ts)
include h

theorem edge_ne {u v} (s : EdgeOf ts u v) : u ≠ v := by
  obtain ⟨t, w, n, e, k | k⟩ := s
  · exact (h.ne k).2.1
  · exact (h.ne k).2.1.symm

theorem pedge_ne {u v} (s : PEdge P ts u v) : P u ≠ P v := fun k =>
  h.edge_ne s.edge (h.inj s.edge.vtx.1 s.edge.vtx.2 k)

/-- One triangle: half-edges with the same apex are equal. -/
theorem at_apex {t w u v n e u' v' n' e'} (a : Sl ts t w u v n e) (b : Sl ts t w u' v' n' e') : u' = u ∧ v' = v ∧ n' = n ∧ e' = e := by
  obtain ⟨k1, k2, k3⟩ := h.ne a
  rcases sl_two a ⟨k1, k2, k3⟩ b with ⟨-, q⟩ | ⟨q, -⟩ | ⟨q, -⟩
  · exact q
  · exact (k1 q).elim
  · exact (k3 q).elim

theorem at_edge {t w u v n e w' n' e'} (a : Sl ts t w u v n e) (b : Sl ts t w' u v n' e') : w' = w ∧ n' = n ∧ e' = e := by
  obtain ⟨k1, k2, k3⟩ := h.ne a
  rcases sl_two a ⟨k1, k2, k3⟩ b with ⟨q, -, -, q'⟩ | ⟨-, q, -⟩ | ⟨-, q, -⟩
  · exact ⟨q, q'⟩
  · exact (k2 q).elim
  · exact (k1 q.symm).elim

/-- A directed edge belongs to one triangle. -/
theorem once {t w u v n e t' w' n' e'} (a : Sp P ts t w u v n e) (b : Sp P ts t' w' u v n' e') : t' = t ∧ w' = w := by
  have ha := a.pos
  have hb := b.pos
  rw [← det2_rot] at ha hb
  obtain ⟨q, q1, q2⟩ := common_point ha hb
  have := h.disj a.sl b.sl q1.rot.rot q2.rot.rot
  subst this
  exact ⟨rfl, (h.at_edge a.sl b.sl).1⟩

theorem nocorner {t w u v n e z} (a : Sl ts t w u v n e) (b : Vtx ts z) : ¬ Inside (P w) (P u) (P v) (P z) := by
  intro k
  obtain ⟨t', u', v', n', e', b, pb⟩ := h.full b
  obtain ⟨q, q1, q2⟩ := corner_overlap k pb
  have := h.disj a b q1 q2
  subst this
  obtain ⟨k1, k2, k3⟩ := h.ne a
  rcases sl_two a ⟨k1, k2, k3⟩ b with ⟨rfl, -⟩ | ⟨rfl, -⟩ | ⟨rfl, -⟩
  · have := k.1; rw [(det2_same _ _).1] at this; exact lt_irrefl _ this
  · have := k.1; rw [(det2_same _ _).2.1] at this; exact lt_irrefl _ this
  · have := k.2.1; rw [(det2_same _ _).2.1] at this; exact lt_irrefl _ this

/-- A point on an edge is in no triangle's interior. -/
theorem noedge {t w u v n e u' v' X} (a : Sl ts t w u v n e) (b : PEdge P ts u' v') (hX : OnOpen (P u') (P v') X) :
    ¬ Inside (P w) (P u) (P v) X := by
  have key : ∀ {t' w' u' v' n' e'}, Sp P ts t' w' u' v' n' e' → OnOpen (P u') (P v') X → ¬ Inside (P w) (P u) (P v) X := by
    rintro t' w' u' v' n' e' ⟨b, hb⟩ hX k
    have hl := hX.line
    obtain ⟨s, s0, s1, e⟩ := hX
    -- move towards the apex
    have e1 : ∀ a b r, det2 a b (mix r X (P w')) = det2 a b X + r * (det2 a b (P w') - det2 a b X) := by
      intro a b r; rw [det2_mix]; ring
    obtain ⟨r, r0, r1⟩ := small' (l := [(det2 (P w) (P u) X, det2 (P w) (P u) (P w') - det2 (P w) (P u) X),
      (det2 (P u) (P v) X, det2 (P u) (P v) (P w') - det2 (P u) (P v) X), (det2 (P v) (P w) X, det2 (P v) (P w) (P w') - det2 (P v) (P w) X), (1, -1)])
      (by intro x hx; simp only [List.mem_cons, List.not_mem_nil, or_false] at hx; left; rcases hx with rfl | rfl | rfl | rfl
          · exact k.1
          · exact k.2.1
          · exact k.2.2
          · exact one_pos)
    simp only [List.mem_cons, List.not_mem_nil, or_false, forall_eq_or_imp, forall_eq] at r1
    obtain ⟨t1, t2, t3, t4⟩ := r1
    have q1 : Inside (P w) (P u) (P v) (mix r X (P w')) := ⟨by rw [e1]; exact t1, by rw [e1]; exact t2, by rw [e1]; exact t3⟩
    have q2 : Inside (P w') (P u') (P v') (mix r X (P w')) := by
      have r1 : 0 < 1 - r := by linarith
      refine ⟨?_, ?_, ?_⟩
      · rw [det2_mix, (det2_same _ _).1, e, det2_mix, (det2_same _ _).2.1]
        have := mul_pos r1 (mul_pos s0 hb); linarith
      · rw [det2_mix, hl, det2_rot]
        have := mul_pos r0 hb; linarith
      · rw [det2_mix, (det2_same _ _).2.1, e, det2_mix, (det2_same _ _).1]
        have := mul_pos r1 (mul_pos (sub_pos.2 s1) hb)
        have e2 : det2 (P v') (P w') (P u') = det2 (P w') (P u') (P v') := by unfold det2; ring
        rw [e2]; linarith
    have := h.disj a b q1 q2
    subst this
    obtain ⟨k1, k2, k3⟩ := h.ne a
    rcases sl_two a ⟨k1, k2, k3⟩ b with ⟨-, rfl, rfl, -⟩ | ⟨-, rfl, rfl⟩ | ⟨-, rfl, rfl⟩
    · have := k.2.1; linarith
    · have := k.2.2; linarith
    · have := k.1; linarith
  obtain ⟨t', w', n', e', b | b⟩ := b
  · exact key b hX
  · exact key b hX.symm

theorem nocross {u v u' v'} (a : PEdge P ts u v) (b : PEdge P ts u' v') : ¬ ProperCross (P u) (P v) (P u') (P v') := by
  have sub : ∀ {t w u v n e t' w' u' v' n' e'}, Sp P ts t w u v n e → Sp P ts t' w' u' v' n' e' → det2 (P u) (P v) (P u') < 0 →
      0 < det2 (P u) (P v) (P v') → 0 < det2 (P u') (P v') (P u) → det2 (P u') (P v') (P v) < 0 → False := by
    rintro t w u v n e t' w' u' v' n' e' ⟨a, ha⟩ ⟨b, hb⟩ h1 h2 h3 h4
    rw [← det2_rot] at ha hb
    obtain ⟨q, q1, q2⟩ := crossing_overlap ha hb h1 h2 h3 h4
    have := h.disj a b q1.rot.rot q2.rot.rot
    subst this
    obtain ⟨k1, k2, k3⟩ := h.ne a
    rcases sl_two a ⟨k1, k2, k3⟩ b with ⟨-, rfl, rfl, -⟩ | ⟨-, rfl, rfl⟩ | ⟨-, rfl, rfl⟩
    · rw [(det2_same _ _).1] at h1; exact lt_irrefl _ h1
    · rw [(det2_same _ _).2.1] at h1; exact lt_irrefl _ h1
    · exact lt_asymm ha h1
  have key : ∀ {t w u v n e t' w' u' v' n' e'}, Sp P ts t w u v n e → Sp P ts t' w' u' v' n' e' → ¬ ProperCross (P u) (P v) (P u') (P v') := by
    rintro t w u v n e t' w' u' v' n' e' a b ⟨k1, k2⟩
    have hid : det2 (P u) (P v) (P v') - det2 (P u) (P v) (P u') = det2 (P u') (P v') (P u) - det2 (P u') (P v') (P v) := by unfold det2; ring
    rcases mul_neg_iff.1 k1 with ⟨x, y⟩ | ⟨x, y⟩ <;> rcases mul_neg_iff.1 k2 with ⟨x', y'⟩ | ⟨x', y'⟩
    · linarith
    · exact sub b a x' y' x y
    · exact sub a b x y x' y'
    · linarith
  obtain ⟨t, w, n, e, a | a⟩ := a <;> obtain ⟨t', w', n', e', b | b⟩ := b <;> intro k
  · exact key a b k
  · exact key a b k.swap'
  · exact key a b k.swap
  · exact key a b k.swap.swap'

/-- Triangles at a corner in the same direction. -/
theorem toward {t o a b n e t' a' b' n' e'} {X : Point} (s : Sp P ts t o a b n e) (s' : Sp P ts t' o a' b' n' e')
    (h1 : 0 < det2 (P o) (P a) X) (h2 : 0 < det2 (P o) X (P b)) (h3 : 0 < det2 (P o) (P a') X) (h4 : 0 < det2 (P o) X (P b')) :
    t' = t ∧ a' = a ∧ b' = b ∧ n' = n ∧ e' = e := by
  obtain ⟨s, p⟩ := s
  obtain ⟨s', p'⟩ := s'
  have e1 : ∀ a b r, det2 a b (mix r (P o) X) = det2 a b (P o) + r * (det2 a b X - det2 a b (P o)) := by
    intro a b r; rw [det2_mix]; ring
  obtain ⟨r, r0, r1⟩ := small' (l := [(det2 (P a) (P b) (P o), det2 (P a) (P b) X - det2 (P a) (P b) (P o)),
    (det2 (P a') (P b') (P o), det2 (P a') (P b') X - det2 (P a') (P b') (P o))])
    (by intro x hx; simp only [List.mem_cons, List.not_mem_nil, or_false] at hx; left; rcases hx with rfl | rfl
        · simp only [det2_rot (P o)]; exact p
        · simp only [det2_rot (P o)]; exact p')
  simp only [List.mem_cons, List.not_mem_nil, or_false, forall_eq_or_imp, forall_eq] at r1
  obtain ⟨t1, t2⟩ := r1
  have q : ∀ a b, 0 < det2 (P o) (P a) X → 0 < det2 (P o) X (P b) → 0 < det2 (P a) (P b) (P o) + r * (det2 (P a) (P b) X - det2 (P a) (P b) (P o)) →
      Inside (P o) (P a) (P b) (mix r (P o) X) := by
    intro a b k1 k2 k3
    refine ⟨?_, ?_, ?_⟩
    · rw [det2_mix, (det2_same _ _).1]; have := mul_pos r0 k1; linarith
    · rw [e1]; exact k3
    · rw [det2_mix, (det2_same _ _).2.1]
      have e2 : det2 (P b) (P o) X = det2 (P o) X (P b) := by unfold det2; ring
      rw [e2]; have := mul_pos r0 k2; linarith
  have := h.disj s s' (q a b h1 h2 t1) (q a' b' h3 h4 t2)
  subst this
  exact ⟨rfl, h.at_apex s s'⟩

/-- No corner is inside an edge. -/
theorem noend {u v z} (a : PEdge P ts u v) (b : Vtx ts z) : ¬ OnOpen (P u) (P v) (P z) := by
  obtain ⟨t, w, n, e, s | s⟩ := a
  · exact h.noend' s b
  · exact fun k => h.noend' s b k.symm

/-- Edges with a common inner point are the same. -/
theorem same_edge {u v u' v' X} (a : PEdge P ts u v) (b : PEdge P ts u' v') (hX : OnOpen (P u) (P v) X) (hX' : OnOpen (P u') (P v') X) :
    (u = u' ∧ v = v') ∨ (u = v' ∧ v = u') := by
  have a1 := a.edge.vtx; have b1 := b.edge.vtx
  -- otherwise they cross
  have opp : ∀ {p q x y : Nat}, OnOpen (P p) (P q) X → OnOpen (P x) (P y) X → det2 (P p) (P q) (P x) ≠ 0 → det2 (P p) (P q) (P x) * det2 (P p) (P q) (P y) < 0 := by
    intro p q x y h1 h2 h3
    have l := h1.line
    obtain ⟨s, s0, s1, e⟩ := h2
    rw [e, det2_mix] at l
    have s1' : 0 < 1 - s := by linarith
    rcases lt_or_gt_of_ne h3 with k | k
    · apply mul_neg_of_neg_of_pos k
      by_contra hc
      have := mul_neg_of_pos_of_neg s1' k
      have := mul_nonpos_of_nonneg_of_nonpos s0.le (not_lt.1 hc)
      linarith
    · apply mul_neg_of_pos_of_neg k
      by_contra hc
      have := mul_pos s1' k
      have := mul_nonneg s0.le (not_lt.1 hc)
      linarith
  by_cases c1 : det2 (P u) (P v) (P u') = 0
  · rcases collinear_overlap c1 hX hX' with k | k | k | k | ⟨k1, k2⟩ | ⟨k1, k2⟩
    · exact (h.noend a b1.1 k).elim
    · exact (h.noend a b1.2 k).elim
    · exact (h.noend b a1.1 k).elim
    · exact (h.noend b a1.2 k).elim
    · exact .inl ⟨h.inj a1.1 b1.1 k1, h.inj a1.2 b1.2 k2⟩
    · exact .inr ⟨h.inj a1.1 b1.2 k1, h.inj a1.2 b1.1 k2⟩
  by_cases c2 : det2 (P u') (P v') (P u) = 0
  · rcases collinear_overlap c2 hX' hX with k | k | k | k | ⟨k1, k2⟩ | ⟨k1, k2⟩
    · exact (h.noend b a1.1 k).elim
    · exact (h.noend b a1.2 k).elim
    · exact (h.noend a b1.1 k).elim
    · exact (h.noend a b1.2 k).elim
    · exact .inl ⟨h.inj a1.1 b1.1 k1.symm, h.inj a1.2 b1.2 k2.symm⟩
    · exact .inr ⟨h.inj a1.1 b1.2 k2.symm, h.inj a1.2 b1.1 k1.symm⟩
  exact (h.nocross a b ⟨opp hX hX' c1, opp hX' hX c2⟩).elim

end Pl

end P2T
