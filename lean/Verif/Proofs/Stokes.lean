import Verif.Proofs.Flow

/-!
# Sums over triangles and sums along polylines
-/

namespace P2T

section
variable {P : Nat → Point} {size left right : Nat} {M : Store} {nodes : List Node}

/-- The weight of a half-edge: the two halves of an edge between triangles share it. -/
def HE.wt (h : HE M) : Rat := if h.nbr = none then 1 else 1/2

/-- The value of the triangle minus that of the neighbour across the half-edge. -/
def HE.jump (G : Nat → Rat) (h : HE M) : Rat := G h.1.1 - (match h.nbr with | none => 0 | some x => G x)

/-- Sum over the triangles. -/
theorem stokes (hc : Consistent size M) (G : Nat → Rat) (φ : Nat → Nat → Rat) (hφ : ∀ u v, φ v u = - φ u v) :
    ∑ t : Fin M.length, G t * (φ M[t].points.a M[t].points.b + φ M[t].points.b M[t].points.c + φ M[t].points.c M[t].points.a) =
      ∑ h : HE M, h.wt * h.jump G * φ h.src h.dst := by
  have e1 : ∑ t : Fin M.length, G t * (φ M[t].points.a M[t].points.b + φ M[t].points.b M[t].points.c + φ M[t].points.c M[t].points.a) =
      ∑ h : HE M, G h.1.1 * φ h.src h.dst := by
    rw [Fintype.sum_prod_type]
    refine Finset.sum_congr rfl fun t _ => ?_
    rw [Fin.sum_univ_three]
    simp only [HE.src, HE.dst, Tri.from, Tri.to]
    show _ = G t * φ M[t].points.b M[t].points.c + G t * φ M[t].points.c M[t].points.a + G t * φ M[t].points.a M[t].points.b
    ring
  rw [e1]
  have s1 := Finset.sum_filter_add_sum_filter_not (Finset.univ : Finset (HE M)) (fun h => h.nbr ≠ none) (fun h => G h.1.1 * φ h.src h.dst)
  have s2 := Finset.sum_filter_add_sum_filter_not (Finset.univ : Finset (HE M)) (fun h => h.nbr ≠ none) (fun h => h.wt * h.jump G * φ h.src h.dst)
  rw [← s1, ← s2]
  congr 1
  · rw [← sub_eq_zero, ← Finset.sum_sub_distrib]
    refine closed_cancel hc _ ?_
    intro h g h1 h2 h3 h4
    have w1 : h.wt = 1/2 := by unfold HE.wt; rw [if_neg (by rw [h1]; simp)]
    have w2 : g.wt = 1/2 := by unfold HE.wt; rw [if_neg (by rw [h2]; simp)]
    have j1 : h.jump G = G h.1.1 - G g.1.1 := by unfold HE.jump; rw [h1]
    have j2 : g.jump G = G g.1.1 - G h.1.1 := by unfold HE.jump; rw [h2]
    rw [w1, w2, j1, j2, h3, h4, hφ h.src h.dst]; ring
  · refine Finset.sum_congr rfl fun h hh => ?_
    simp only [Finset.mem_filter, Finset.mem_univ, true_and, not_not] at hh
    unfold HE.wt HE.jump
    rw [if_pos hh, hh]; ring

/-- Half-edges are determined by their ends. -/
theorem PlaneMesh.he_once (h : PlaneMesh P size left right M nodes) (hp : Strict P M) (k k' : HE M) (e1 : k.src = k'.src) (e2 : k.dst = k'.dst) :
    k = k' := by
  have e : k.1 = k'.1 := Fin.ext (h.edge_once hp (t := k.1) (t' := k'.1) (T := M[k.1]) (T' := M[k'.1]) (by simp) (by simp) ⟨k.2, k'.2, e1, e2⟩)
  refine Prod.ext e ?_
  by_contra hne
  have e3 := e1
  simp only [HE.src, Tri.from, ← e] at e3
  exact h.cons.different M[k.1] (by simp) _ _ (by revert hne; generalize k.2 = a; generalize k'.2 = b; revert a b; decide) e3

theorem PlaneMesh.he_ne (h : PlaneMesh P size left right M nodes) (k : HE M) : k.src ≠ k.dst :=
  h.cons.different M[k.1] (by simp) _ _ (by generalize k.2 = a; revert a; decide)

/-- No triangle is below the bottom edge. -/
theorem PlaneMesh.no_bottom_back (h : PlaneMesh P size left right M nodes) (hp : Strict P M) (g : HE M) (c3 : g.src = right) (c4 : g.dst = left) : False := by
  have hgm : M[g.1] ∈ M := by simp
  have c3' : M[g.1].from g.2 = right := c3
  have c4' : M[g.1].to g.2 = left := c4
  have hat := hp.at hgm g.2
  have ig := (inside_at g.2).1 (centroid_in hp hgm)
  rw [c3', c4'] at hat ig
  have on : OnSeg (P right) (P left) (lerp (P right) (P left) (1/2)) := ⟨1/2, by norm_num, by norm_num, rfl, rfl⟩
  have flat := h.flat
  have mx : (lerp (P right) (P left) (1/2)).x = ((P right).x + (P left).x) / 2 := by simp only [lerp]; ring
  obtain ⟨δ, d0, d1⟩ := affine_small (fs := [(fun z : Point => z.x - (P left).x), (fun z : Point => (P right).x - z.x)])
    (z := lerp (P right) (P left) (1/2)) (g := centroid P M[g.1]) (by
      intro f hf
      simp only [List.mem_cons, List.not_mem_nil, or_false] at hf
      rcases hf with rfl | rfl
      · exact affine_x _
      · exact affine_x' _) (by
      intro f hf
      simp only [List.mem_cons, List.not_mem_nil, or_false] at hf
      left
      rcases hf with rfl | rfl <;> simp only [mx] <;> linarith)
  have k1 := toward hat on ig (lt_min d0 one_pos) (min_le_right δ 1)
  have k2 := d1 _ (lt_min d0 one_pos) (min_le_left δ 1)
  simp only [List.mem_cons, List.not_mem_nil, or_false, forall_eq_or_imp, forall_eq] at k2
  have d := k1.1
  rw [det2_swap] at d
  rw [← c3', ← c4'] at k1
  exact (h.inside hgm ((inside_at g.2).2 (by rw [c3', c4'] at k1 ⊢; exact k1))).2 ⟨by linarith [k2.1], by linarith [k2.2], by linarith⟩

/-- An open half-edge has nothing on the other side. -/
theorem PlaneMesh.no_reverse (h : PlaneMesh P size left right M nodes) (hp : Strict P M)
    (hlt : (nodes.map fun e => P e.pid).Pairwise fun a b => a.x < b.x) (k : HE M) (hn : k.nbr = none) (g : HE M) :
    ¬ (g.src = k.dst ∧ g.dst = k.src) := by
  rintro ⟨g1, g2⟩
  by_cases hg : g.nbr = none
  · have front : ∀ a b, Consecutive nodes a b → (P a.pid).x < (P b.pid).x := by
      rintro a b ⟨A, B, e⟩
      rw [e, List.map_append, List.pairwise_append] at hlt
      have := hlt.2.1
      rw [List.map_cons, List.map_cons, List.pairwise_cons] at this
      exact this.1 _ (by simp)
    rcases h.bd.only M[k.1] (by simp) k.2 hn with ⟨c1, c2⟩ | ⟨a, b, hab, c1, c2⟩ <;>
      rcases h.bd.only M[g.1] (by simp) g.2 hg with ⟨c3, c4⟩ | ⟨a', b', hab', c3, c4⟩
    · have : left = right := by
        have x1 : k.src = left := c1
        rw [← x1, ← g2]
        exact c4
      have f := h.flat
      rw [this] at f; exact lt_irrefl _ f
    · exact h.no_bottom_back hp g (by rw [g1]; exact c2) (by rw [g2]; exact c1)
    · exact h.no_bottom_back hp k (by rw [← g2]; exact c4) (by rw [← g1]; exact c3)
    · have f1 := front a b hab
      have f2 := front a' b' hab'
      have x1 : a'.pid = b.pid := by
        have y1 : k.src = b.pid := c1
        have y2 : g.dst = a'.pid := c4
        rw [← y1, ← y2, g2]
      have x2 : b'.pid = a.pid := by
        have y1 : k.dst = a.pid := c2
        have y2 : g.src = b'.pid := c3
        rw [← y1, ← y2, g1]
      rw [x1, x2] at f2
      exact lt_asymm f1 f2
  · obtain ⟨g', y1, y2, y3, y4, y5⟩ := HE.twin h.cons g hg
    have := h.he_once hp g' k (by rw [y4, g2]) (by rw [y5, g1])
    rw [this] at y2
    rw [hn] at y2; cases y2

/-- A sum over the one or two half-edges of an edge. -/
theorem PlaneMesh.edge_sum (h : PlaneMesh P size left right M nodes) (hp : Strict P M)
    (hlt : (nodes.map fun e => P e.pid).Pairwise fun a b => a.x < b.x) (k : HE M) (f : HE M → Rat) (σ : Rat) :
    (k.nbr = none ∧ ∑ g : HE M, g.wt * f g * ((if g.src = k.src ∧ g.dst = k.dst then 1 else 0) + σ * (if g.src = k.dst ∧ g.dst = k.src then 1 else 0)) = f k) ∨
    (∃ g : HE M, k.nbr = some g.1.1 ∧ g.nbr = some k.1.1 ∧ g.src = k.dst ∧ g.dst = k.src ∧
      ∑ g : HE M, g.wt * f g * ((if g.src = k.src ∧ g.dst = k.dst then 1 else 0) + σ * (if g.src = k.dst ∧ g.dst = k.src then 1 else 0)) = (f k + σ * f g) / 2) := by
  classical
  have once := h.he_once hp
  have huv := h.he_ne k
  by_cases hn : k.nbr = none
  · left
    refine ⟨hn, ?_⟩
    have no := h.no_reverse hp hlt k hn
    rw [Finset.sum_eq_single k]
    · rw [if_pos ⟨rfl, rfl⟩, if_neg (no k)]
      unfold HE.wt; rw [if_pos hn]; ring
    · intro g _ hg
      rw [if_neg (fun z => hg (once g k z.1 z.2)), if_neg (no g)]; ring
    · intro z; exact absurd (Finset.mem_univ _) z
  · right
    obtain ⟨g, y1, y2, y3, y4, y5⟩ := HE.twin h.cons k hn
    refine ⟨g, y1, y2, y4, y5, ?_⟩
    have hkg : k ≠ g := by rintro rfl; exact y3 rfl
    have hg : g.nbr ≠ none := by rw [y2]; simp
    rw [← Finset.sum_subset (Finset.subset_univ {k, g})]
    · rw [Finset.sum_pair hkg]
      rw [if_pos ⟨rfl, rfl⟩, if_neg (fun z => huv z.1), if_neg (fun z => huv (by rw [← z.1, y4])), if_pos ⟨y4, y5⟩]
      unfold HE.wt; rw [if_neg hn, if_neg hg]; ring
    · intro x _ hx
      simp only [Finset.mem_insert, Finset.mem_singleton, not_or] at hx
      rw [if_neg (fun z => hx.1 (once x k z.1 z.2)), if_neg (fun z => hx.2 (once x g (by rw [z.1, y4]) (by rw [z.2, y5])))]; ring

/-- Every edge has weight one. -/
theorem PlaneMesh.edge_weight (h : PlaneMesh P size left right M nodes) (hp : Strict P M)
    (hlt : (nodes.map fun e => P e.pid).Pairwise fun a b => a.x < b.x) {u v : Nat} (he : MeshEdge M u v) :
    ∑ k : HE M, k.wt * ((if k.src = u ∧ k.dst = v then 1 else 0) + (if k.src = v ∧ k.dst = u then 1 else 0)) = 1 := by
  have core : ∀ k : HE M,
      ∑ g : HE M, g.wt * ((if g.src = k.src ∧ g.dst = k.dst then 1 else 0) + (if g.src = k.dst ∧ g.dst = k.src then 1 else 0)) = 1 := by
    intro k
    rcases h.edge_sum hp hlt k (fun _ => 1) 1 with ⟨-, e⟩ | ⟨g, -, -, -, -, e⟩
    · simpa using e
    · refine Eq.trans ?_ (e.trans (by norm_num))
      exact Finset.sum_congr rfl fun k _ => by rw [mul_one, one_mul]
  obtain ⟨T, hT, i, hi⟩ := he
  obtain ⟨t, ht, rfl⟩ := List.getElem_of_mem hT
  have := core (⟨t, ht⟩, i)
  rcases hi with ⟨rfl, rfl⟩ | ⟨rfl, rfl⟩
  · exact this
  · refine Eq.trans ?_ this
    exact Finset.sum_congr rfl fun k _ => by rw [add_comm]; rfl

/-- The sum along a polyline. -/
theorem PlaneMesh.along_sum (h : PlaneMesh P size left right M nodes) (hp : Strict P M)
    (hlt : (nodes.map fun e => P e.pid).Pairwise fun a b => a.x < b.x) {L : List Nat} (hL : Along M L) (φ : Nat → Nat → Rat)
    (hφ : ∀ u v, φ v u = - φ u v) :
    ∑ k : HE M, k.wt * flow L k.src k.dst * φ k.src k.dst = ((cyclicPairs L).map fun x => φ x.1 x.2).sum := by
  have e1 : ∀ x ∈ cyclicPairs L, φ x.1 x.2 = ∑ k : HE M, k.wt * ((if k.src = x.1 ∧ k.dst = x.2 then 1 else 0) -
      (if k.src = x.2 ∧ k.dst = x.1 then 1 else 0)) * φ k.src k.dst := by
    intro x hx
    have := h.edge_weight hp hlt (hL x hx)
    refine (mul_one (φ x.1 x.2)).symm.trans ((congrArg (φ x.1 x.2 * ·) this.symm).trans ?_)
    simp only [Finset.mul_sum]
    clear this
    refine Finset.sum_congr rfl fun k _ => ?_
    by_cases c1 : k.src = x.1 ∧ k.dst = x.2 <;> by_cases c2 : k.src = x.2 ∧ k.dst = x.1
    · rw [if_pos c1, if_pos c2]
      have : φ x.1 x.2 = 0 := by
        have y1 : x.1 = x.2 := by rw [← c1.1, c2.1]
        have := hφ x.1 x.2
        rw [← y1] at this ⊢; linarith
      rw [this]; ring
    · rw [if_pos c1, if_neg c2, c1.1, c1.2]; ring
    · rw [if_neg c1, if_pos c2, c2.1, c2.2, hφ x.1 x.2]; ring
    · rw [if_neg c1, if_neg c2]; ring
  have e2 : ∀ l : List (Nat × Nat), (∀ x ∈ l, φ x.1 x.2 = ∑ k : HE M, k.wt * ((if k.src = x.1 ∧ k.dst = x.2 then 1 else 0) -
      (if k.src = x.2 ∧ k.dst = x.1 then 1 else 0)) * φ k.src k.dst) →
      (l.map fun x => φ x.1 x.2).sum = ∑ k : HE M, k.wt * ((l.count (k.src, k.dst) : Rat) - (l.count (k.dst, k.src) : Rat)) * φ k.src k.dst := by
    intro l hl
    induction l with
    | nil => simp
    | cons x l ih =>
      rw [List.map_cons, List.sum_cons, ih (fun y hy => hl y (List.mem_cons_of_mem _ hy)), hl x (by simp), ← Finset.sum_add_distrib]
      refine Finset.sum_congr rfl fun k _ => ?_
      rw [List.count_cons, List.count_cons]
      obtain ⟨x1, x2⟩ := x
      have b1 : ((x1, x2) == (k.src, k.dst)) = decide (k.src = x1 ∧ k.dst = x2) := by
        rw [Bool.eq_iff_iff]; simp only [beq_iff_eq, Prod.mk.injEq, decide_eq_true_eq]; tauto
      have b2 : ((x1, x2) == (k.dst, k.src)) = decide (k.src = x2 ∧ k.dst = x1) := by
        rw [Bool.eq_iff_iff]; simp only [beq_iff_eq, Prod.mk.injEq, decide_eq_true_eq]; tauto
      rw [b1, b2]
      simp only [decide_eq_true_eq]
      push_cast
      ring
  rw [e2 _ e1]; rfl

end

end P2T
