import Verif.Proofs.Component

/-!
# Points of the front are outside
-/

namespace P2T

theorem affine_dot (a b : Point) : Affine fun z => (z.x - a.x) * b.x + (z.y - a.y) * b.y := fun z g s => by simp only [lerp]; ring

/-- A point off a segment is on the positive side of an affine function that is not positive on the segment. -/
theorem off_segment {u v p : Point} (h : ¬ OnSeg u v p) : ∃ f, Affine f ∧ 0 < f p ∧ ∀ z, OnSeg u v z → f z ≤ 0 := by
  rcases lt_trichotomy (det2 u v p) 0 with k | k | k
  · exact ⟨fun z => - det2 u v z, affine_neg (affine_det u v), by linarith, fun z hz => by simp only [det2_on hz]; simp⟩
  · -- on the line
    let d : Point := ⟨v.x - u.x, v.y - u.y⟩
    let e : Point := ⟨u.x - v.x, u.y - v.y⟩
    by_cases huv : u = v
    · subst huv
      refine ⟨fun z => (z.x - u.x) * (p.x - u.x) + (z.y - u.y) * (p.y - u.y), affine_dot u ⟨p.x - u.x, p.y - u.y⟩, ?_, ?_⟩
      · by_contra hn
        have h1 := mul_self_nonneg (p.x - u.x)
        have h2 := mul_self_nonneg (p.y - u.y)
        have e1 : p.x - u.x = 0 := by
          by_contra z
          have := mul_self_pos.2 z
          simp only at hn; linarith
        have e2 : p.y - u.y = 0 := by
          by_contra z
          have := mul_self_pos.2 z
          simp only at hn; linarith
        exact h ⟨0, le_refl _, by norm_num, by linarith, by linarith⟩
      · rintro z ⟨t, -, -, e1, e2⟩
        simp only [e1, e2]; simp
    · have nz : 0 < (v.x - u.x) * (v.x - u.x) + (v.y - u.y) * (v.y - u.y) := by
        have h1 := mul_self_nonneg (v.x - u.x)
        have h2 := mul_self_nonneg (v.y - u.y)
        by_contra hn
        have e1 : v.x - u.x = 0 := by
          by_contra z
          have := mul_self_pos.2 z
          linarith
        have e2 : v.y - u.y = 0 := by
          by_contra z
          have := mul_self_pos.2 z
          linarith
        apply huv
        cases u; cases v; simp only [Point.mk.injEq]
        simp only at e1 e2
        constructor <;> linarith
      -- parameter of the point
      let D := (v.x - u.x) * (v.x - u.x) + (v.y - u.y) * (v.y - u.y)
      let N := (p.x - u.x) * (v.x - u.x) + (p.y - u.y) * (v.y - u.y)
      have px : p.x = u.x + N / D * (v.x - u.x) := by
        have : (p.x - u.x) * D = N * (v.x - u.x) := by
          have : (p.x - u.x) * D - N * (v.x - u.x) = - (v.y - u.y) * det2 u v p := by simp only [D, N, det2]; ring
          rw [k] at this; linarith
        have hD : D ≠ 0 := nz.ne'
        field_simp
        linarith
      have py : p.y = u.y + N / D * (v.y - u.y) := by
        have : (p.y - u.y) * D = N * (v.y - u.y) := by
          have : (p.y - u.y) * D - N * (v.y - u.y) = (v.x - u.x) * det2 u v p := by simp only [D, N, det2]; ring
          rw [k] at this; linarith
        have hD : D ≠ 0 := nz.ne'
        field_simp
        linarith
      by_cases c1 : N < 0
      · refine ⟨fun z => - ((z.x - u.x) * (v.x - u.x) + (z.y - u.y) * (v.y - u.y)), affine_neg (affine_dot u ⟨v.x - u.x, v.y - u.y⟩), by show 0 < -N; linarith, ?_⟩
        rintro z ⟨t, t0, t1, e1, e2⟩
        simp only [e1, e2]
        have := mul_nonneg t0 nz.le
        linarith
      · by_cases c2 : D < N
        · refine ⟨fun z => ((z.x - v.x) * (v.x - u.x) + (z.y - v.y) * (v.y - u.y)), affine_dot v ⟨v.x - u.x, v.y - u.y⟩, ?_, ?_⟩
          · have : (p.x - v.x) * (v.x - u.x) + (p.y - v.y) * (v.y - u.y) = N - D := by simp only [N, D]; ring
            simp only [this]; linarith
          · rintro z ⟨t, t0, t1, e1, e2⟩
            simp only [e1, e2]
            have := mul_nonneg (show 0 ≤ 1 - t by linarith) nz.le
            linarith
        · exfalso
          exact h ⟨N / D, div_nonneg (not_lt.1 c1) nz.le, (div_le_one nz).2 (not_lt.1 c2), px, py⟩
  · exact ⟨det2 u v, affine_det u v, k, fun z hz => by rw [det2_on hz]⟩

/-- Near a point off the polyline the winding number is constant. -/
theorem wind_near {R : Nat → Point} {L : List Nat} {p g : Point} (h : ∀ x ∈ cyclicPairs L, ¬ OnSeg (R x.1) (R x.2) p) :
    ∃ δ : Rat, 0 < δ ∧ ∀ s, 0 < s → s ≤ δ → wind R L p = wind R L (lerp p g s) := by
  have key : ∀ l : List (Nat × Nat), (∀ x ∈ l, ¬ OnSeg (R x.1) (R x.2) p) → ∃ δ : Rat, 0 < δ ∧ ∀ s, 0 < s → s ≤ δ →
      ∀ x ∈ l, ¬ Meet p (lerp p g s) (R x.1) (R x.2) := by
    intro l hl
    induction l with
    | nil => exact ⟨1, one_pos, by simp⟩
    | cons x l ih =>
      obtain ⟨δ, d0, d1⟩ := ih fun y hy => hl y (by simp [hy])
      obtain ⟨f, f1, f2, f3⟩ := off_segment (hl x (by simp))
      obtain ⟨ε, e0, e1⟩ := affine_small (fs := [f]) (z := p) (g := g) (by simpa using f1) (by simpa using .inl f2)
      refine ⟨min δ ε, lt_min d0 e0, fun s s0 s1 y hy => ?_⟩
      rcases List.mem_cons.1 hy with rfl | hy
      · intro hm
        obtain ⟨a, a0, a1, on⟩ := hm.point
        have k0 := f3 _ on
        rw [f1] at k0
        have := e1 s s0 (s1.trans (min_le_right _ _)) f (by simp)
        have k1 := mul_nonneg a0 this.le
        have k2 := mul_nonneg (show 0 ≤ 1 - a by linarith) f2.le
        rcases eq_or_lt_of_le a0 with z | z
        · rw [← z, zero_mul] at k0; linarith
        · have := mul_pos z this
          linarith
      · exact d1 s s0 (s1.trans (min_le_left _ _)) y hy
  obtain ⟨δ, d0, d1⟩ := key _ h
  exact ⟨δ, d0, fun s s0 s1 => wind_const (d1 s s0 s1)⟩

namespace Labelled
variable {P R : Nat → Point} {size left right : Nat} {M : Store} {nodes : List Node} {Ls : List (List Nat)} {F : List Nat → Nat → Rat}
  (h : Labelled P R size left right M nodes Ls F)
include h

/-- The second node of the front is outside every polyline that does not pass through it. -/
theorem front_outside {a b : Node} {l : List Node} (hn : nodes = a :: b :: l) (hx : (R a.pid).x < (R b.pid).x) {L : List Nat} (hL : L ∈ Ls)
    (hoff : ∀ x ∈ cyclicPairs L, ¬ OnSeg (R x.1) (R x.2) (R b.pid)) : wind R L (R b.pid) = 0 := by
  obtain ⟨δ, d0, d1⟩ := wind_near (g := R a.pid) hoff
  let s : Rat := min δ (1/2)
  have s0 : 0 < s := lt_min d0 (by norm_num)
  have s1 : s ≤ 1/2 := min_le_right _ _
  rw [d1 s s0 (min_le_left _ _)]
  set q := lerp (R b.pid) (R a.pid) s with hq
  have qx : q.x = (R b.pid).x + s * ((R a.pid).x - (R b.pid).x) := rfl
  have q1 : q.x < (R b.pid).x := by
    rw [qx]
    have := mul_pos s0 (sub_pos.2 hx)
    linarith
  have hu : ¬ UnderChain (nodes.map fun e => R e.pid) q := by
    rintro ⟨x, hx1, hx2, hx3, hx4⟩
    rw [hn, List.map_cons, List.map_cons, pairs_cons, List.mem_cons] at hx1
    rcases hx1 with rfl | hx1
    · have : det2 (R a.pid) (R b.pid) q = 0 := by rw [hq]; simp only [det2, lerp]; ring
      simp only at hx4
      linarith
    · have mono := h.real.mono
      rw [hn, List.map_cons, List.map_cons] at mono
      have mono := (List.pairwise_cons.1 mono).2
      have hm : x.1 ∈ R b.pid :: l.map fun e => R e.pid :=
        (pairs_sub _).subset (List.mem_map.2 ⟨x, hx1, rfl⟩)
      have : (R b.pid).x ≤ x.1.x := by
        rcases List.mem_cons.1 hm with e | e
        · rw [e]
        · exact (List.pairwise_cons.1 mono).1 _ e
      linarith
  refine h.wind_out hL fun t => ?_
  have hN : ∑ t : Fin M.length, chiAt R q M[t] = 0 := by
    have := h.real.count q
    simp only [triSum_fin] at this
    rcases this with ⟨u, -, e⟩ | ⟨-, -, e⟩ | ⟨-, -, e⟩
    · exact absurd u hu
    · exact e
    · exact e
  exact (Finset.sum_eq_zero_iff_of_nonneg fun t _ => h.real.chi01 q (by simp)).1 hN t (Finset.mem_univ _)

end Labelled

end P2T
