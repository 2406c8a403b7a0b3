import Verif.Proofs.Jordan
import Verif.Spec.Interior

/-!
# Labels around a corner; nested and disjoint polylines; areas
-/

namespace P2T

/-- Near a point off some segments, short steps meet none of them. -/
theorem segs_near {P : Nat → Point} {p g : Point} (l : List (Nat × Nat)) (hl : ∀ x ∈ l, ¬ OnSeg (P x.1) (P x.2) p) : ∃ δ : Rat, 0 < δ ∧ ∀ s, 0 < s → s ≤ δ →
      ∀ x ∈ l, ¬ Meet p (lerp p g s) (P x.1) (P x.2) := by
  induction l with
  | nil => exact ⟨1, one_pos, by simp⟩
  | cons x l ih =>
    obtain ⟨δ, d0, d1⟩ := ih fun y hy => hl y (by simp [hy])
    obtain ⟨f, f1, f2, f3⟩ := off_segment (hl x (by simp))
    obtain ⟨ε, e0, e1⟩ := affine_small (fs := [f]) (z := p) (g := g) (by simpa using f1) (by simpa using .inl f2)
    refine ⟨min δ ε, lt_min d0 e0, fun s s0 s1 y hy => ?_⟩
    rcases List.mem_cons.1 hy with rfl | hy
    · intro hm
      obtain ⟨a, a0, a1, on⟩ := hm.point
      have k0 := f3 _ on
      rw [f1] at k0
      have := e1 s s0 (s1.trans (min_le_right _ _)) f (by simp)
      have k1 := mul_nonneg a0 this.le
      have k2 := mul_nonneg (show 0 ≤ 1 - a by linarith) f2.le
      rcases eq_or_lt_of_le a0 with z | z
      · rw [← z, zero_mul] at k0; linarith
      · have := mul_pos z this
        linarith
    · exact d1 s s0 (s1.trans (min_le_left _ _)) y hy

theorem chain_const_aux {P : Nat → Point} {size : Nat} {M : Store} (hc : Consistent size M) {G : Nat → Rat} {q q' : Point} (hl : q.x ≤ q'.x)
    (hm : ∀ k : HE M, k.jump G ≠ 0 → ¬ Meet q q' (P k.src) (P k.dst)) :
    ∑ t : Fin M.length, G t * chiAt P q M[t] = ∑ t : Fin M.length, G t * chiAt P q' M[t] := by
  have e1 := stokes hc G (fun u v => cross q (P u) (P v)) (fun u v => cross_swap _ _ _)
  have e2 := stokes hc G (fun u v => cross q' (P u) (P v)) (fun u v => cross_swap _ _ _)
  have e3 := stokes hc G (fun u v => over q q' (P u) - over q q' (P v)) (fun u v => by ring)
  have z : ∑ t : Fin M.length, G t * (over q q' (P M[t].points.a) - over q q' (P M[t].points.b) + (over q q' (P M[t].points.b) - over q q' (P M[t].points.c)) +
      (over q q' (P M[t].points.c) - over q q' (P M[t].points.a))) = 0 := Finset.sum_eq_zero fun t _ => by ring
  rw [z] at e3
  have e4 : ∑ k : HE M, k.wt * k.jump G * cross q (P k.src) (P k.dst) - ∑ k : HE M, k.wt * k.jump G * cross q' (P k.src) (P k.dst) = 0 := by
    rw [← Finset.sum_sub_distrib, e3]
    refine Finset.sum_congr rfl fun k _ => ?_
    by_cases hz : k.jump G = 0
    · rw [hz]; ring
    · rw [← flux hl (hm k hz)]; ring
  have e1' : ∑ t : Fin M.length, G t * chiAt P q M[t] = ∑ k : HE M, k.wt * k.jump G * cross q (P k.src) (P k.dst) := e1
  have e2' : ∑ t : Fin M.length, G t * chiAt P q' M[t] = ∑ k : HE M, k.wt * k.jump G * cross q' (P k.src) (P k.dst) := e2
  rw [e1', e2']; linarith

/-- Where a function of the triangles does not change on the way, the value is the same. -/
theorem chain_const {P : Nat → Point} {size : Nat} {M : Store} (hc : Consistent size M) {G : Nat → Rat} {q q' : Point}
    (hm : ∀ k : HE M, k.jump G ≠ 0 → ¬ Meet q q' (P k.src) (P k.dst)) :
    ∑ t : Fin M.length, G t * chiAt P q M[t] = ∑ t : Fin M.length, G t * chiAt P q' M[t] := by
  rcases le_total q.x q'.x with hl | hl
  · exact chain_const_aux hc hl hm
  · exact (chain_const_aux hc hl fun k hk => fun z => hm k hk z.symm).symm

namespace Planar
variable {P R : Nat → Point} {size left right : Nat} {M : Store} {nodes : List Node} {Ls : List (List Nat)} {F : List Nat → Nat → Rat}
  (h : Planar P R size left right M nodes Ls F)
include h

/-- Across an edge that is not on the polyline the label does not change. -/
theorem off_edge {L : List Nat} (hL : L ∈ Ls) (k : HE M) (h1 : (k.src, k.dst) ∉ cyclicPairs L) (h2 : (k.dst, k.src) ∉ cyclicPairs L) :
    (k.nbr = none → F L k.1 = 0) ∧ ∀ x, k.nbr = some x → F L k.1 = F L x := by
  have z := h.jump_flow hL k
  rw [flow_zero h1 h2] at z
  unfold HE.jump at z
  constructor
  · intro hn
    rw [hn] at z; simpa using z
  · intro x hn
    rw [hn] at z
    simp only at z
    linarith

/-- The sum of a function of the triangles at an inner point of a triangle. -/
theorem sum_at (G : Nat → Rat) {q : Point} {t : Fin M.length} (hq : chiAt R q M[t] = 1) : ∑ t : Fin M.length, G t * chiAt R q M[t] = G t := by
  rcases h.one_face q with k | ⟨t1, k1, k2⟩
  · rw [k t] at hq; norm_num at hq
  · have : t = t1 := by
      by_contra hne
      rw [k2 t hne] at hq; norm_num at hq
    subst this
    rw [Finset.sum_eq_single t]
    · rw [k1, mul_one]
    · intro t' _ ht; rw [k2 t' ht, mul_zero]
    · intro z; exact absurd (Finset.mem_univ _) z

/-- The triangles around a corner that is not on the polyline have the same label. -/
theorem around {L : List Nat} (hL : L ∈ Ls) {x : Nat} (hx : x ∉ L) {t t' : Fin M.length} {i i' : Fin 3} (ht : M[t].points.get i = x)
    (ht' : M[t'].points.get i' = x) : F L t = F L t' := by
  classical
  have key : ∀ {t t' : Fin M.length} {i i' : Fin 3}, M[t].points.get i = x → M[t'].points.get i' = x → F L t ≠ 0 → F L t = F L t' := by
    intro t t' i i' ht ht' hne
    let G : Nat → Rat := fun n => if (∃ (hn : n < M.length) (j : Fin 3), M[n].points.get j = x) ∧ F L n = F L t then 1 else 0
    -- it changes only across edges opposite the corner
    have opp : ∀ k : HE M, k.src = x ∨ k.dst = x → k.jump G = 0 := by
      intro k hk
      have n1 : (k.src, k.dst) ∉ cyclicPairs L := fun z => by
        rcases hk with e | e
        · exact hx (e ▸ cyclic_mem_left z)
        · exact hx (e ▸ cyclic_mem_right z)
      have n2 : (k.dst, k.src) ∉ cyclicPairs L := fun z => by
        rcases hk with e | e
        · exact hx (e ▸ cyclic_mem_right z)
        · exact hx (e ▸ cyclic_mem_left z)
      obtain ⟨o1, o2⟩ := h.off_edge hL k n1 n2
      have at1 : ∀ g : HE M, g.src = x ∨ g.dst = x → ∃ (hn : g.1.1 < M.length) (j : Fin 3), M[g.1.1].points.get j = x := by
        intro g hg
        rcases hg with e | e
        · exact ⟨g.1.2, _, e⟩
        · exact ⟨g.1.2, _, e⟩
      unfold HE.jump
      cases hn : k.nbr with
      | none =>
        have z := o1 hn
        simp only [G, z, hne.symm, and_false, if_false, sub_zero]
      | some y =>
        have z := o2 y hn
        obtain ⟨g, y1, -, -, y4, y5⟩ := HE.twin h.mesh.cons k (by rw [hn]; simp)
        rw [hn] at y1; cases y1
        have a1 := at1 k hk
        have a2 := at1 g (by rw [y4, y5]; exact hk.symm)
        simp only [G, z, a1, a2, true_and, sub_self]
    -- those edges do not pass through the corner
    let l : List (Nat × Nat) := ((Finset.univ.filter fun k : HE M => k.jump G ≠ 0).toList.map fun k => (k.src, k.dst))
    have off : ∀ y ∈ l, ¬ OnSeg (P y.1) (P y.2) (P x) := by
      intro y hy
      obtain ⟨k, hk, rfl⟩ := List.mem_map.1 hy
      simp only [Finset.mem_toList, Finset.mem_filter, Finset.mem_univ, true_and] at hk
      have opos : ∀ g : HE M, (∃ (hn : g.1.1 < M.length) (j : Fin 3), M[g.1.1].points.get j = x) → g.src ≠ x → g.dst ≠ x → det2 (P g.src) (P g.dst) (P x) ≠ 0 := by
        rintro g ⟨hn, j, hj⟩ g1 g2
        have hat := h.strict.at (T := M[g.1]) (by simp) g.2
        have e : M[g.1].points.get g.2 = x := by
          have c : j = g.2 ∨ j = g.2 + 1 ∨ j = g.2 + 2 := by clear * -; generalize g.2 = b; revert j b; decide
          rcases c with c | c | c
          · rw [← c]; exact hj
          · exact absurd (show M[g.1].from g.2 = x by unfold Tri.from; rw [← c]; exact hj) g1
          · exact absurd (show M[g.1].to g.2 = x by unfold Tri.to; rw [← c]; exact hj) g2
        rw [e] at hat
        exact hat.ne'
      have nsd : k.src ≠ x ∧ k.dst ≠ x := ⟨fun z => hk (opp k (.inl z)), fun z => hk (opp k (.inr z))⟩
      have : det2 (P k.src) (P k.dst) (P x) ≠ 0 := by
        by_cases c1 : ∃ (hn : k.1.1 < M.length) (j : Fin 3), M[k.1.1].points.get j = x
        · exact opos k c1 nsd.1 nsd.2
        · unfold HE.jump at hk
          cases hn : k.nbr with
          | none => rw [hn] at hk; simp only [G, c1, false_and, if_false, sub_zero] at hk; exact absurd rfl hk
          | some y =>
            obtain ⟨g, y1, -, -, y4, y5⟩ := HE.twin h.mesh.cons k (by rw [hn]; simp)
            rw [hn] at y1; cases y1
            rw [hn] at hk
            have c2 : ∃ (hn : g.1.1 < M.length) (j : Fin 3), M[g.1.1].points.get j = x := by
              by_contra c2
              simp only [G, c1, c2, false_and, if_false, sub_zero] at hk
              exact hk rfl
            have := opos g c2 (by rw [y4]; exact nsd.2) (by rw [y5]; exact nsd.1)
            rw [y4, y5, det2_swap] at this
            intro z; rw [z] at this; simp at this
      intro on
      exact this (det2_on on)
    have near : ∀ {t : Fin M.length} {i : Fin 3}, M[t].points.get i = x → ∑ t : Fin M.length, G t * chiAt P (P x) M[t] = G t := by
      intro t i ht
      obtain ⟨δ, d0, d1⟩ := segs_near (g := centroid P M[t]) l off
      have c := chain_const (P := P) h.mesh.cons (G := G) (q := P x) (q' := lerp (P x) (centroid P M[t]) (min δ 1)) (fun k hk => by
        refine d1 _ (lt_min d0 one_pos) (min_le_left _ _) (k.src, k.dst) ?_
        exact List.mem_map.2 ⟨k, by simpa using hk, rfl⟩)
      rw [c]
      refine h.perturbed.sum_at G ?_
      have hm : M[t] ∈ M := by simp
      refine (chi_spec _ (h.mesh.pos M[t] hm)).2 ?_
      have e : M[t].from (i + 2) = x := by
        rw [← ht]; unfold Tri.from; congr 1; clear * -; revert i; decide
      have w := toward (h.strict.at hm (i + 2)) (z := P (M[t].from (i + 2))) ⟨0, le_refl _, zero_le_one, by ring, by ring⟩
        ((inside_at (i + 2)).1 (centroid_in h.strict hm)) (lt_min d0 one_pos) (min_le_right δ 1)
      rw [← e]
      exact (inside_at (i + 2)).2 w
    have e1 := near ht
    have e2 := near ht'
    have e3 : G t = G t' := e1.symm.trans e2
    have g1 : G t = 1 := if_pos ⟨⟨t.2, i, ht⟩, rfl⟩
    rw [g1] at e3
    by_contra hno
    have : G t' = 0 := if_neg fun z => hno z.2.symm
    rw [this] at e3; norm_num at e3
  by_cases hz : F L t = 0
  · by_cases hz' : F L t' = 0
    · rw [hz, hz']
    · exact (key ht' ht hz').symm
  · exact key ht ht' hz

/-- A polyline whose edges are inside another one is inside it. -/
theorem nested {L L0 : List Nat} (hL : L ∈ Ls) (hL0 : L0 ∈ Ls)
    (hin : ∀ k : HE M, ((k.src, k.dst) ∈ cyclicPairs L ∨ (k.dst, k.src) ∈ cyclicPairs L) → F L0 k.1 ≠ 0) (t : Fin M.length) (ht : F L t ≠ 0) :
    F L0 t ≠ 0 := by
  classical
  intro hz
  let G : Nat → Rat := fun t => if F L t ≠ 0 ∧ F L0 t = 0 then 1 else 0
  obtain ⟨c, hc⟩ := h.multiple hL0 (G := G) (fun k hk => by
    by_contra hno
    push Not at hno
    obtain ⟨o1, o2⟩ := h.off_edge hL0 k hno.1 hno.2
    apply hk
    unfold HE.jump
    by_cases hkL : (k.src, k.dst) ∈ cyclicPairs L ∨ (k.dst, k.src) ∈ cyclicPairs L
    · have z := hin k hkL
      have g0 : G k.1.1 = 0 := if_neg fun y => z y.2
      rw [g0]
      cases hn : k.nbr with
      | none => simp
      | some y =>
        have : G y = 0 := if_neg fun y' => z (by rw [o2 y hn]; exact y'.2)
        simp only [this, sub_zero]
    · push Not at hkL
      obtain ⟨p1, p2⟩ := h.off_edge hL k hkL.1 hkL.2
      cases hn : k.nbr with
      | none =>
        have : G k.1.1 = 0 := if_neg fun y => y.1 (p1 hn)
        simp only [this, sub_zero]
      | some y =>
        have e1 : F L k.1.1 = F L y := p2 y hn
        have e2 : F L0 k.1.1 = F L0 y := o2 y hn
        simp only [G, e1, e2, sub_self])
  have := hc t
  rw [hz, mul_zero] at this
  have g1 : G t = 1 := if_pos ⟨ht, hz⟩
  rw [g1] at this; norm_num at this

/-- Two polylines each of whose edges is outside the other have no triangle in common. -/
theorem apart {L L' : List Nat} (hL : L ∈ Ls) (hL' : L' ∈ Ls)
    (h1 : ∀ k : HE M, ((k.src, k.dst) ∈ cyclicPairs L ∨ (k.dst, k.src) ∈ cyclicPairs L) → F L' k.1 = 0)
    (h2 : ∀ k : HE M, ((k.src, k.dst) ∈ cyclicPairs L' ∨ (k.dst, k.src) ∈ cyclicPairs L') → F L k.1 = 0) (t : Fin M.length) :
    F L t = 0 ∨ F L' t = 0 := by
  classical
  let G : Nat → Rat := fun t => if F L t ≠ 0 ∧ F L' t ≠ 0 then 1 else 0
  have z := h.zero_of_jump (G := G) (fun k => by
    have twin : ∀ y, k.nbr = some y → ∃ g : HE M, g.1.1 = y ∧ g.src = k.dst ∧ g.dst = k.src := by
      intro y hn
      obtain ⟨g, y1, -, -, y4, y5⟩ := HE.twin h.mesh.cons k (by rw [hn]; simp)
      rw [hn] at y1; cases y1
      exact ⟨g, rfl, y4, y5⟩
    unfold HE.jump
    by_cases hkL : (k.src, k.dst) ∈ cyclicPairs L ∨ (k.dst, k.src) ∈ cyclicPairs L
    · have g0 : G k.1.1 = 0 := if_neg fun y => y.2 (h1 k hkL)
      rw [g0]
      cases hn : k.nbr with
      | none => simp
      | some y =>
        obtain ⟨g, rfl, g1, g2⟩ := twin y hn
        have : G g.1.1 = 0 := if_neg fun y => y.2 (h1 g (by rw [g1, g2]; exact hkL.symm))
        simp only [this, sub_zero]
    · by_cases hkL' : (k.src, k.dst) ∈ cyclicPairs L' ∨ (k.dst, k.src) ∈ cyclicPairs L'
      · have g0 : G k.1.1 = 0 := if_neg fun y => y.1 (h2 k hkL')
        rw [g0]
        cases hn : k.nbr with
        | none => simp
        | some y =>
          obtain ⟨g, rfl, g1, g2⟩ := twin y hn
          have : G g.1.1 = 0 := if_neg fun y => y.1 (h2 g (by rw [g1, g2]; exact hkL'.symm))
          simp only [this, sub_zero]
      · push Not at hkL hkL'
        obtain ⟨p1, p2⟩ := h.off_edge hL k hkL.1 hkL.2
        obtain ⟨q1, q2⟩ := h.off_edge hL' k hkL'.1 hkL'.2
        cases hn : k.nbr with
        | none =>
          have : G k.1.1 = 0 := if_neg fun y => y.1 (p1 hn)
          simp only [this, sub_zero]
        | some y =>
          have e1 : F L k.1.1 = F L y := p2 y hn
          have e2 : F L' k.1.1 = F L' y := q2 y hn
          simp only [G, e1, e2, sub_self]) t
  by_contra hno
  push Not at hno
  have g1 : G t = 1 := if_pos hno
  rw [g1] at z; norm_num at z

end Planar

end P2T
