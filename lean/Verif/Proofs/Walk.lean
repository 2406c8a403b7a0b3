import Verif.Proofs.ScanChain
import Verif.Proofs.Boundary

/-!
# From local to global: walking towards a visible corner

If all unmarked edges are locally Delaunay, then no corner that can be seen from inside a triangle (across unmarked edges) is strictly
inside its circumcircle: walk along the line of sight; from triangle to triangle the power of the corner does not grow.
-/

set_option linter.unusedSectionVars false

namespace P2T

theorem incircle_same (a b c : Point) : inCircleDet a b c a = 0 ∧ inCircleDet a b c b = 0 ∧ inCircleDet a b c c = 0 := by
  refine ⟨?_, ?_, ?_⟩ <;> (unfold inCircleDet; ring)

/-- Powers of a point with respect to the circumcircles at an edge. -/
theorem incircle_step (a b c w v : Point) :
    inCircleDet a b c v * det2 b a w = inCircleDet b a w v * det2 a b c - det2 a b v * inCircleDet a b c w := by
  unfold inCircleDet det2; ring

/-- If `v` is behind the edge `a b` of the triangle `a b c`, outside the circumcircle of the neighbour `b a w`, and the edge is
locally Delaunay, then `v` is outside the circumcircle of `a b c`. -/
theorem incircle_across {a b c w v : Point} (h1 : 0 < det2 a b c) (h2 : 0 < det2 b a w) (h3 : det2 a b v < 0)
    (h4 : inCircleDet a b c w ≤ 0) (h5 : inCircleDet b a w v ≤ 0) : inCircleDet a b c v ≤ 0 := by
  have := incircle_step a b c w v
  have k1 : inCircleDet b a w v * det2 a b c ≤ 0 := mul_nonpos_of_nonpos_of_nonneg h5 h1.le
  have k2 : 0 ≤ det2 a b v * inCircleDet a b c w := mul_nonneg_of_nonpos_of_nonpos h3.le h4
  by_contra hc
  have := mul_pos (not_le.1 hc) h2
  linarith

/-- From a point `X` inside the triangle the way to `z` crosses an edge (or `z` is in the triangle). -/
theorem exit_edge {a b c X z : Point} (h : Inside a b c X) (ha : det2 X z a ≠ 0) (hb : det2 X z b ≠ 0) (hc : det2 X z c ≠ 0) :
    (det2 X z a < 0 ∧ 0 < det2 X z b) ∨ (det2 X z b < 0 ∧ 0 < det2 X z c) ∨ (det2 X z c < 0 ∧ 0 < det2 X z a) := by
  obtain ⟨h1, h2, h3⟩ := h
  -- barycentric coordinates
  have e : det2 b c X * det2 X z a + det2 c a X * det2 X z b + det2 a b X * det2 X z c = 0 := by unfold det2; ring
  rcases lt_or_gt_of_ne ha with ka | ka <;> rcases lt_or_gt_of_ne hb with kb | kb <;> rcases lt_or_gt_of_ne hc with kc | kc
  · exfalso
    have := mul_neg_of_pos_of_neg h2 ka
    have := mul_neg_of_pos_of_neg h3 kb
    have := mul_neg_of_pos_of_neg h1 kc
    linarith
  · exact .inr (.inl ⟨kb, kc⟩)
  · exact .inl ⟨ka, kb⟩
  · exact .inl ⟨ka, kb⟩
  · exact .inr (.inr ⟨kc, ka⟩)
  · exact .inr (.inl ⟨kb, kc⟩)
  · exact .inr (.inr ⟨kc, ka⟩)
  · exfalso
    have := mul_pos h2 ka
    have := mul_pos h3 kb
    have := mul_pos h1 kc
    linarith

/-- Crossing the edge `u v` of `w u v` from `X` towards `z`, one gets into the triangle on the other side. -/
theorem enter {u v w X z : Point} (h : 0 < det2 w v u) (hX : 0 < det2 u v X) (hz : det2 u v z < 0)
    (hu : det2 X z u < 0) (hv : 0 < det2 X z v) : ∃ r, 0 < r ∧ r < 1 ∧ Inside w v u (mix r X z) := by
  have hc : ProperCross u v X z := ⟨mul_neg_of_pos_of_neg hX hz, mul_neg_of_neg_of_pos hu hv⟩
  obtain ⟨Y, ⟨s, s0, s1, e1⟩, r, r0, r1, e2⟩ := hc.point
  have l1 : det2 v u (mix r X z) = 0 := by
    rw [← e2, e1, det2_mix, (det2_same _ _).1, (det2_same _ _).2.1]; ring
  have l2 : det2 u w (mix r X z) = s * det2 w v u := by
    have e : det2 u w v = det2 w v u := by unfold det2; ring
    rw [← e2, e1, det2_mix, (det2_same _ _).1, e]; ring
  have l3 : det2 w v (mix r X z) = (1 - s) * det2 w v u := by
    rw [← e2, e1, det2_mix, (det2_same _ _).2.1]; ring
  have ed : ∀ a b δ, det2 a b (mix (r + δ) X z) = det2 a b (mix r X z) + δ * (det2 a b z - det2 a b X) := by
    intro a b δ; rw [det2_mix, det2_mix]; ring
  obtain ⟨δ, δ0, hδ⟩ := small' (l := [(det2 w v (mix r X z), det2 w v z - det2 w v X), (det2 v u (mix r X z), det2 v u z - det2 v u X),
    (det2 u w (mix r X z), det2 u w z - det2 u w X), (1 - r, -1)]) (by
      intro x hx
      simp only [List.mem_cons, List.not_mem_nil, or_false] at hx
      rcases hx with rfl | rfl | rfl | rfl
      · left; simp only; rw [l3]; exact mul_pos (by linarith) h
      · right
        refine ⟨l1, ?_⟩
        simp only
        rw [det2_swap u v z, det2_swap u v X]; linarith
      · left; simp only; rw [l2]; exact mul_pos s0 h
      · left; simp only; linarith)
  simp only [List.mem_cons, List.not_mem_nil, or_false, forall_eq_or_imp, forall_eq] at hδ
  obtain ⟨d1, d2, d3, d4⟩ := hδ
  exact ⟨r + δ, by linarith, by linarith, by rw [ed]; exact d1, by rw [ed]; exact d2, by rw [ed]; exact d3⟩

/-- On the way from `X` to `z` nothing new is crossed. -/
theorem cross_later {u v X z : Point} {r : Rat} (h0 : 0 < r) (h1 : r < 1) (h : ProperCross u v (mix r X z) z) : ProperCross u v X z := by
  obtain ⟨k1, k2⟩ := h
  have e1 : det2 u v (mix r X z) = (1 - r) * det2 u v X + r * det2 u v z := det2_mix ..
  have e2 : ∀ a, det2 (mix r X z) z a = (1 - r) * det2 X z a := by intro a; simp only [det2, mix]; ring
  rw [e2, e2] at k2
  rw [e1] at k1
  have r1 : 0 < 1 - r := by linarith
  constructor
  · by_contra hc
    have p1 := mul_nonneg r1.le (not_lt.1 hc)
    have p2 := mul_nonneg h0.le (mul_self_nonneg (det2 u v z))
    nlinarith
  · by_contra hc
    have := mul_nonneg (mul_self_nonneg (1 - r)) (not_lt.1 hc)
    nlinarith

/-- A set of triangles that is left only across marked edges, all its unmarked edges being locally Delaunay. -/
structure Walkable (P : Nat → Point) (M : Store) (R : Nat → Prop) : Prop where
  pl : Pl P M
  pos : ∀ {t w u v n e}, R t → Sl M t w u v n e → 0 < det2 (P w) (P u) (P v)
  next : ∀ {t w u v n e}, R t → Sl M t w u v n e → e.isConstrained = false →
    ∃ x w' e', R x ∧ Sl M x w' v u (some t) e' ∧ inCircleDet (P w) (P u) (P v) (P w') ≤ 0

theorem Sl.he {M : Store} {t w u v n e} (h : Sl M t w u v n e) : ∃ k : HE M, k.src = u ∧ k.dst = v := by
  obtain ⟨T, hT, h⟩ := h
  obtain ⟨ht, rfl⟩ := List.getElem?_eq_some_iff.1 hT
  rcases h with ⟨h, -⟩ | ⟨h, -⟩ | ⟨h, -⟩
  · exact ⟨(⟨t, ht⟩, 0), by simp [HE.src, Tri.from, h, V3.get], by simp [HE.dst, Tri.to, h, V3.get]⟩
  · exact ⟨(⟨t, ht⟩, 1), by simp [HE.src, Tri.from, h, V3.get], by simp [HE.dst, Tri.to, h, V3.get]⟩
  · exact ⟨(⟨t, ht⟩, 2), by simp [HE.src, Tri.from, h, V3.get], by simp [HE.dst, Tri.to, h, V3.get]⟩

open Classical in
/-- The half-edges between `X` and `z`. -/
noncomputable def between (P : Nat → Point) (M : Store) (X z : Point) : Finset (HE M) :=
  Finset.univ.filter fun k => ProperCross (P k.src) (P k.dst) X z

namespace Walkable
variable {P : Nat → Point} {M : Store} {R : Nat → Prop} (h : Walkable P M R)
include h

theorem beyond {z : Nat} (hz : Vtx M z) {X : Point} {t w u v n e} (hR : R t) (hs : Sl M t w u v n e) (hX : Inside (P w) (P u) (P v) X)
    (hu : det2 X (P z) (P u) < 0) (hv : 0 < det2 X (P z) (P v)) : det2 (P u) (P v) (P z) < 0 := by
  have k1 : 0 < det2 X (P u) (P z) := by rw [det2_swap']; linarith
  have k2 : 0 < det2 (P v) X (P z) := by rw [← det2_rot]; exact hv
  have hp := h.pos hR hs
  obtain ⟨x1, x2, x3⟩ := hX
  have x2' : 0 < det2 X (P u) (P v) := by rw [← det2_rot]; exact x2
  by_contra hc
  rcases (not_lt.1 hc).lt_or_eq with k | k
  · refine h.pl.nocorner hs hz ⟨?_, k, ?_⟩
    · have e : det2 X (P u) (P v) * det2 (P w) (P u) (P z) = det2 (P u) (P v) (P z) * det2 (P w) (P u) X + det2 X (P u) (P z) * det2 (P w) (P u) (P v) := by
        unfold det2; ring
      have := mul_pos k x1
      have := mul_pos k1 hp
      exact pos_of_mul_pos_right (by rw [e]; linarith) x2'.le
    · have e : det2 X (P u) (P v) * det2 (P v) (P w) (P z) = det2 (P u) (P v) (P z) * det2 (P v) (P w) X + det2 (P v) X (P z) * det2 (P w) (P u) (P v) := by
        unfold det2; ring
      have := mul_pos k x3
      have := mul_pos k2 hp
      exact pos_of_mul_pos_right (by rw [e]; linarith) x2'.le
  · exact h.pl.noend ⟨_, _, _, _, .inl ⟨hs, hp⟩⟩ hz (scan_on_edge k1 hv k.symm)

/-- No corner that can be seen from inside a triangle of the set is strictly inside its circumcircle. -/
theorem walk {z : Nat} (hz : Vtx M z) : ∀ (N : Nat) (X : Point), (between P M X (P z)).card ≤ N →
    (∀ y, Vtx M y → y ≠ z → det2 X (P z) (P y) ≠ 0) →
    (∀ {t w u v n e}, Sl M t w u v n e → ProperCross (P u) (P v) X (P z) → e.isConstrained = false) →
    ∀ {t w u v n e}, R t → Sl M t w u v n e → Inside (P w) (P u) (P v) X → inCircleDet (P w) (P u) (P v) (P z) ≤ 0 := by
  intro N
  induction N using Nat.strong_induction_on with
  | _ N ih =>
  intro X hN gen vis
  -- across the edge opposite `w`
  have step : ∀ {t w u v n e}, R t → Sl M t w u v n e → Inside (P w) (P u) (P v) X → det2 X (P z) (P u) < 0 → 0 < det2 X (P z) (P v) →
      inCircleDet (P w) (P u) (P v) (P z) ≤ 0 := by
    intro t w u v n e hR hs hX hu hv
    have hb := h.beyond hz hR hs hX hu hv
    have hc : ProperCross (P u) (P v) X (P z) := ⟨mul_neg_of_pos_of_neg hX.2.1 hb, mul_neg_of_neg_of_pos hu hv⟩
    obtain ⟨x, w', e', hRx, hs', hd⟩ := h.next hR hs (vis hs hc)
    have hp := h.pos hRx hs'
    obtain ⟨r, r0, r1, hX'⟩ := enter hp hX.2.1 hb hu hv
    have e2 : ∀ a, det2 (mix r X (P z)) (P z) a = (1 - r) * det2 X (P z) a := by intro a; simp only [det2, mix]; ring
    have hlt : (between P M (mix r X (P z)) (P z)).card < (between P M X (P z)).card := by
      refine Finset.card_lt_card ⟨?_, ?_⟩
      · intro k hk
        simp only [between, Finset.mem_filter, Finset.mem_univ, true_and] at hk ⊢
        exact cross_later r0 r1 hk
      · intro hsub
        obtain ⟨k, k1, k2⟩ := hs.he
        have : k ∈ between P M X (P z) := by
          simp only [between, Finset.mem_filter, Finset.mem_univ, true_and, k1, k2]; exact hc
        have := hsub this
        simp only [between, Finset.mem_filter, Finset.mem_univ, true_and, k1, k2] at this
        have q := hX'.2.1
        rw [det2_swap] at q
        have := this.1
        have := mul_pos_of_neg_of_neg (by linarith : det2 (P u) (P v) (mix r X (P z)) < 0) hb
        linarith
    have key := ih _ (lt_of_lt_of_le hlt hN) (mix r X (P z)) le_rfl
      (fun y hy hne => by rw [e2]; exact mul_ne_zero (by linarith) (gen y hy hne))
      (fun hs hc => vis hs (cross_later r0 r1 hc)) hRx hs' hX'
    have a1 : 0 < det2 (P u) (P v) (P w) := by rw [det2_rot]; exact h.pos hR hs
    have a2 : 0 < det2 (P v) (P u) (P w') := by rw [det2_rot]; exact hp
    rw [← incircle_rot] at hd key ⊢
    exact incircle_across a1 a2 hb hd key
  intro t w u v n e hR hs hX
  by_cases c1 : w = z
  · subst c1; exact le_of_eq (incircle_same _ _ _).1
  by_cases c2 : u = z
  · subst c2; exact le_of_eq (incircle_same _ _ _).2.1
  by_cases c3 : v = z
  · subst c3; exact le_of_eq (incircle_same _ _ _).2.2
  have vt := hs.vtx
  obtain ⟨n1, e1, s1⟩ := hs.rot
  obtain ⟨n2, e2, s2⟩ := s1.rot
  rcases exit_edge hX (gen w vt.1 c1) (gen u vt.2.1 c2) (gen v vt.2.2 c3) with ⟨a, b⟩ | ⟨a, b⟩ | ⟨a, b⟩
  · have := step hR s2 ⟨hX.2.2, hX.1, hX.2.1⟩ a b
    rw [← incircle_rot]; rw [← incircle_rot]; exact this
  · exact step hR hs hX a b
  · have := step hR s1 ⟨hX.2.1, hX.2.2, hX.1⟩ a b
    rw [← incircle_rot]; exact this

end Walkable

end P2T
