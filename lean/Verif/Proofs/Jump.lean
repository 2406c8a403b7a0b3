import Verif.Proofs.Winding
import Verif.Spec.Input
import Verif.Spec.Polygon

/-!
# Winding numbers in a mesh

A closed polyline along mesh edges has the same winding number around all interior points of a triangle; from a triangle to its neighbour
it changes by the number of times the polyline runs along the common edge, and beyond the front and the bottom edge it is zero.
-/

namespace P2T

/-! ## Sums along closed polylines -/

theorem cyclic_perm {α} : ∀ l : List α, ((cyclicPairs l).map Prod.fst).Perm l ∧ ((cyclicPairs l).map Prod.snd).Perm l
  | [] => ⟨.nil, .nil⟩
  | a :: l => by
    unfold cyclicPairs
    rw [List.map_fst_zip (by simp), List.map_snd_zip (by simp)]
    exact ⟨.refl _, List.perm_append_singleton a l⟩

theorem cyclic_sum {α} (f : α → Rat) (l : List α) : ((cyclicPairs l).map fun x => f x.1 - f x.2).sum = 0 := by
  have e : ∀ m : List (α × α), (m.map fun x => f x.1 - f x.2).sum = ((m.map Prod.fst).map f).sum - ((m.map Prod.snd).map f).sum := by
    intro m
    induction m with
    | nil => simp
    | cons x m ih => simp only [List.map_cons, List.sum_cons, ih]; ring
  rw [e, ((cyclic_perm l).1.map f).sum_eq, ((cyclic_perm l).2.map f).sum_eq, sub_self]

/-- The winding number of the closed polyline `L` around `q`. -/
def wind (P : Nat → Point) (L : List Nat) (q : Point) : Rat := ((cyclicPairs L).map fun x => cross q (P x.1) (P x.2)).sum

/-- How often `L` runs from `u` to `v`, minus how often it runs from `v` to `u`. -/
def flow (L : List Nat) (u v : Nat) : Rat := ((cyclicPairs L).count (u, v) : Rat) - ((cyclicPairs L).count (v, u) : Rat)

theorem flow_swap (L : List Nat) (u v : Nat) : flow L v u = - flow L u v := by unfold flow; ring

theorem sum_ind {α} [DecidableEq α] [BEq α] [LawfulBEq α] (a : α) : ∀ l : List α, (l.map fun x => if x = a then (1 : Rat) else 0).sum = l.count a
  | [] => by simp
  | x :: l => by
    rw [List.map_cons, List.sum_cons, sum_ind a l, List.count_cons]
    by_cases h : x = a <;> simp [h]
    ring

theorem sum_add3 {α} (f g k : α → Rat) : ∀ l : List α, (l.map fun x => f x + g x - k x).sum = (l.map f).sum + (l.map g).sum - (l.map k).sum
  | [] => by simp
  | x :: l => by simp only [List.map_cons, List.sum_cons, sum_add3 f g k l]; ring

theorem sum_sub' {α} (f g : α → Rat) : ∀ l : List α, (l.map fun x => f x - g x).sum = (l.map f).sum - (l.map g).sum
  | [] => by simp
  | x :: l => by simp only [List.map_cons, List.sum_cons, sum_sub' f g l]; ring

/-- Moving a point through the edge `u0 v0`, from left to right. -/
theorem wind_diff_core {P : Nat → Point} {L : List Nat} {q q' : Point} {u v : Nat} (hl : q.x ≤ q'.x) (huv : u ≠ v)
    (h1 : 0 < det2 (P u) (P v) q) (h2 : det2 (P u) (P v) q' < 0) (h3 : det2 q q' (P u) < 0) (h4 : 0 < det2 q q' (P v))
    (hm : ∀ x ∈ cyclicPairs L, ¬ Meet q q' (P x.1) (P x.2) ∨ x = (u, v) ∨ x = (v, u)) :
    wind P L q - wind P L q' = flow L u v := by
  unfold wind flow
  rw [← sum_sub']
  have e : (cyclicPairs L).map (fun x => cross q (P x.1) (P x.2) - cross q' (P x.1) (P x.2)) =
      (cyclicPairs L).map fun x => (over q q' (P x.1) - over q q' (P x.2)) + (if x = (u, v) then 1 else 0) - (if x = (v, u) then 1 else 0) := by
    refine List.map_congr_left fun x hx => ?_
    by_cases e1 : x = (u, v)
    · subst e1
      rw [if_pos rfl, if_neg (by intro e; exact huv (congrArg Prod.fst e)), sub_zero]
      exact flux_cross hl h1 h2 h3 h4
    · by_cases e2 : x = (v, u)
      · subst e2
        rw [if_neg e1, if_pos rfl]
        have := flux_cross hl h1 h2 h3 h4
        simp only [cross_swap _ (P u) (P v)]
        linarith
      · rw [if_neg e1, if_neg e2]
        have := flux hl ((hm x hx).resolve_right (by tauto))
        rw [this]; ring
  rw [e, sum_add3, cyclic_sum (fun i => over q q' (P i)), sum_ind, sum_ind, zero_add]

theorem Meet.symm {q q' u v : Point} (h : Meet q q' u v) : Meet q' q u v := by
  obtain ⟨a, b, a0, a1, b0, b1, e1, e2⟩ := h
  exact ⟨1 - a, b, by linarith, by linarith, b0, b1, by rw [← e1]; ring, by rw [← e2]; ring⟩

theorem wind_diff {P : Nat → Point} {L : List Nat} {q q' : Point} {u v : Nat} (huv : u ≠ v)
    (h1 : 0 < det2 (P u) (P v) q) (h2 : det2 (P u) (P v) q' < 0) (h3 : det2 q q' (P u) < 0) (h4 : 0 < det2 q q' (P v))
    (hm : ∀ x ∈ cyclicPairs L, ¬ Meet q q' (P x.1) (P x.2) ∨ x = (u, v) ∨ x = (v, u)) :
    wind P L q - wind P L q' = flow L u v := by
  rcases le_total q.x q'.x with hl | hl
  · exact wind_diff_core hl huv h1 h2 h3 h4 hm
  · have := wind_diff_core (P := P) (L := L) (u := v) (v := u) hl huv.symm (by rw [det2_swap]; linarith) (by rw [det2_swap]; linarith)
      (by rw [det2_swap]; linarith) (by rw [det2_swap]; linarith) (fun x hx => by
        rcases hm x hx with k | k | k
        · exact .inl fun z => k z.symm
        · exact .inr (.inr k)
        · exact .inr (.inl k))
    rw [flow_swap] at this
    linarith

theorem wind_const {P : Nat → Point} {L : List Nat} {q q' : Point} (hm : ∀ x ∈ cyclicPairs L, ¬ Meet q q' (P x.1) (P x.2)) :
    wind P L q = wind P L q' := by
  have core : ∀ {q q' : Point}, q.x ≤ q'.x → (∀ x ∈ cyclicPairs L, ¬ Meet q q' (P x.1) (P x.2)) → wind P L q = wind P L q' := by
    intro q q' hl hm
    rw [← sub_eq_zero]
    unfold wind
    rw [← sum_sub', ← cyclic_sum (fun i => over q q' (P i)) L]
    exact congrArg List.sum (List.map_congr_left fun x hx => flux hl (hm x hx))
  rcases le_total q.x q'.x with hl | hl
  · exact core hl hm
  · exact (core hl fun x hx k => hm x hx k.symm).symm

/-! ## Segments and triangles -/

def lerp (z g : Point) (s : Rat) : Point := ⟨z.x + s * (g.x - z.x), z.y + s * (g.y - z.y)⟩

theorem det2_lerp (a b z g : Point) (s : Rat) : det2 a b (lerp z g s) = det2 a b z + s * (det2 a b g - det2 a b z) := by
  simp only [det2, lerp]; ring

theorem Meet.point {q q' u v : Point} (h : Meet q q' u v) : ∃ a, 0 ≤ a ∧ a ≤ 1 ∧ OnSeg u v (lerp q q' a) := by
  obtain ⟨a, b, a0, a1, b0, b1, e1, e2⟩ := h
  exact ⟨a, a0, a1, b, b0, b1, e1, e2⟩

theorem on_edge {u v w z : Point} (h : 0 < det2 u v w) (hz : OnSeg u v z) : det2 u v z = 0 ∧ 0 ≤ det2 v w z ∧ 0 ≤ det2 w u z := by
  refine ⟨det2_on hz, ?_, ?_⟩ <;> obtain ⟨t, t0, t1, e1, e2⟩ := hz
  · rw [det2_onSeg e1 e2]
    have z1 : det2 v w u = det2 u v w := by rw [det2_rot]
    have z2 : det2 v w v = 0 := by unfold det2; ring
    rw [z1, z2]
    have := mul_nonneg (show 0 ≤ 1 - t by linarith) h.le
    linarith
  · rw [det2_onSeg e1 e2]
    have z1 : det2 w u v = det2 u v w := by rw [det2_rot, det2_rot]
    have z2 : det2 w u u = 0 := by unfold det2; ring
    rw [z1, z2]
    have := mul_nonneg t0 h.le
    linarith

theorem toward {u v w z g : Point} (h : 0 < det2 u v w) (hz : OnSeg u v z) (hg : Inside u v w g) {s : Rat} (s0 : 0 < s) (s1 : s ≤ 1) :
    Inside u v w (lerp z g s) := by
  obtain ⟨e1, e2, e3⟩ := on_edge h hz
  obtain ⟨g1, g2, g3⟩ := hg
  have pos : ∀ x y : Rat, 0 ≤ x → 0 < y → 0 < x + s * (y - x) := by
    intro x y hx hy
    have := mul_nonneg (show 0 ≤ 1 - s by linarith) hx
    have := mul_pos s0 hy
    nlinarith
  refine ⟨?_, ?_, ?_⟩ <;> rw [det2_lerp]
  · exact pos _ _ e1.ge g1
  · exact pos _ _ e2 g2
  · exact pos _ _ e3 g3

/-- Finitely many affine conditions. -/
def Affine (f : Point → Rat) : Prop := ∀ z g s, f (lerp z g s) = f z + s * (f g - f z)

theorem affine_det (a b : Point) : Affine (det2 a b) := fun z g s => det2_lerp a b z g s

theorem affine_neg {f : Point → Rat} (h : Affine f) : Affine fun z => - f z := fun z g s => by simp only [h z g s]; ring

theorem affine_x (c : Rat) : Affine fun z => z.x - c := fun z g s => by simp only [lerp]; ring
theorem affine_x' (c : Rat) : Affine fun z => c - z.x := fun z g s => by simp only [lerp]; ring

theorem affine_small {fs : List (Point → Rat)} (ha : ∀ f ∈ fs, Affine f) {z g : Point} (h : ∀ f ∈ fs, 0 < f z ∨ (f z = 0 ∧ 0 < f g)) :
    ∃ δ : Rat, 0 < δ ∧ ∀ s, 0 < s → s ≤ δ → ∀ f ∈ fs, 0 < f (lerp z g s) := by
  obtain ⟨δ, d0, d1⟩ := small (l := fs.map fun f => (f z, f g - f z)) (by
    intro x hx
    obtain ⟨f, hf, rfl⟩ := List.mem_map.1 hx
    rcases h f hf with k | ⟨k, k'⟩
    · exact .inl k
    · exact .inr ⟨k, by simp only [k]; linarith⟩)
  refine ⟨δ, d0, fun s s0 s1 f hf => ?_⟩
  rw [ha f hf]
  exact d1 s s0 s1 _ (List.mem_map.2 ⟨f, hf, rfl⟩)

/-- A triangle has interior points off any line. -/
theorem inside_off {u v w a b : Point} (h : 0 < det2 u v w) (hab : a ≠ b) : ∃ g, Inside u v w g ∧ det2 a b g ≠ 0 := by
  let G : Rat → Rat → Point := fun s t => ⟨u.x + s * (v.x - u.x) + t * (w.x - u.x), u.y + s * (v.y - u.y) + t * (w.y - u.y)⟩
  have e1 : ∀ s t, det2 u v (G s t) = t * det2 u v w := by intro s t; simp only [det2, G]; ring
  have e2 : ∀ s t, det2 v w (G s t) = (1 - s - t) * det2 u v w := by intro s t; simp only [det2, G]; ring
  have e3 : ∀ s t, det2 w u (G s t) = s * det2 u v w := by intro s t; simp only [det2, G]; ring
  have e4 : ∀ s t, det2 a b (G s t) = (1 - s - t) * det2 a b u + s * det2 a b v + t * det2 a b w := by intro s t; simp only [det2, G]; ring
  have ins : ∀ s t : Rat, 0 < s → 0 < t → s + t < 1 → Inside u v w (G s t) := by
    intro s t s0 t0 st
    refine ⟨?_, ?_, ?_⟩
    · rw [e1]; exact mul_pos t0 h
    · rw [e2]; exact mul_pos (by linarith) h
    · rw [e3]; exact mul_pos s0 h
  by_contra hno
  push Not at hno
  have k1 := hno _ (ins (1/4) (1/4) (by norm_num) (by norm_num) (by norm_num))
  have k2 := hno _ (ins (1/2) (1/4) (by norm_num) (by norm_num) (by norm_num))
  have k3 := hno _ (ins (1/4) (1/2) (by norm_num) (by norm_num) (by norm_num))
  rw [e4] at k1 k2 k3
  have z1 : det2 a b u = 0 := by linarith
  have z2 : det2 a b v = 0 := by linarith
  have z3 : det2 a b w = 0 := by linarith
  -- all three corners on one line
  have i1 : det2 u v w * (b.x - a.x) = 0 := by
    have : det2 u v w * (b.x - a.x) = -((v.x - w.x) * det2 a b u + (w.x - u.x) * det2 a b v + (u.x - v.x) * det2 a b w) := by
      unfold det2; ring
    rw [this, z1, z2, z3]; ring
  have i2 : det2 u v w * (b.y - a.y) = 0 := by
    have : det2 u v w * (b.y - a.y) = -((v.y - w.y) * det2 a b u + (w.y - u.y) * det2 a b v + (u.y - v.y) * det2 a b w) := by
      unfold det2; ring
    rw [this, z1, z2, z3]; ring
  have i3 := (mul_eq_zero.1 i1).resolve_left h.ne'
  have i4 := (mul_eq_zero.1 i2).resolve_left h.ne'
  apply hab
  cases a; cases b; simp only [Point.mk.injEq]
  simp only at i3 i4
  constructor <;> linarith

/-! ## In a mesh -/

section
variable {P : Nat → Point} {size left right : Nat} {M : Store} {nodes : List Node}

/-- All triangles are strictly counter-clockwise. -/
abbrev Strict (P : Nat → Point) (M : Store) : Prop := ∀ T ∈ M, ∀ i, 0 < det2 (P (T.points.get i)) (P (T.from i)) (P (T.to i))

abbrev In (P : Nat → Point) (T : Tri) (q : Point) : Prop := Inside (P (T.points.get 0)) (P (T.points.get 1)) (P (T.points.get 2)) q

theorem Strict.at (hp : Strict P M) {T : Tri} (hT : T ∈ M) (i : Fin 3) : 0 < det2 (P (T.from i)) (P (T.to i)) (P (T.points.get i)) := by
  have := hp T hT i; rw [← det2_rot] at this; exact this

/-- No point of an edge is inside a triangle. -/
theorem PlaneMesh.edge_outside (h : PlaneMesh P size left right M nodes) (hp : Strict P M) {T T' : Tri} (hT : T ∈ M) (hT' : T' ∈ M)
    {j : Fin 3} {z : Point} (hz : OnSeg (P (T'.from j)) (P (T'.to j)) z) : ¬ In P T z := by
  intro k
  obtain ⟨g, hg, -⟩ := inside_off (hp.at hT' j) (show (⟨0, 0⟩ : Point) ≠ ⟨1, 0⟩ by decide)
  obtain ⟨δ, d0, d1⟩ := affine_small (fs := [det2 (P (T.points.get 0)) (P (T.points.get 1)), det2 (P (T.points.get 1)) (P (T.points.get 2)),
    det2 (P (T.points.get 2)) (P (T.points.get 0))]) (z := z) (g := g) (by
      intro f hf
      simp only [List.mem_cons, List.not_mem_nil, or_false] at hf
      rcases hf with rfl | rfl | rfl <;> exact affine_det _ _) (by
      intro f hf
      simp only [List.mem_cons, List.not_mem_nil, or_false] at hf
      rcases hf with rfl | rfl | rfl
      · exact .inl k.1
      · exact .inl k.2.1
      · exact .inl k.2.2)
  have := d1 (min δ 1) (lt_min d0 one_pos) (min_le_left _ _)
  simp only [List.mem_cons, List.not_mem_nil, or_false, forall_eq_or_imp, forall_eq] at this
  obtain ⟨t, ht⟩ := List.mem_iff_getElem?.1 hT
  obtain ⟨t', ht'⟩ := List.mem_iff_getElem?.1 hT'
  have e := h.disjoint ht ht' this ((inside_at j).2 (toward (hp.at hT' j) hz hg (lt_min d0 one_pos) (min_le_right _ _)))
  subst e
  rw [ht] at ht'; cases ht'
  have := (inside_at j).1 k
  exact this.1.ne' (det2_on hz)

theorem Inside.lerp {a b c q q' : Point} (h : Inside a b c q) (h' : Inside a b c q') {s : Rat} (s0 : 0 ≤ s) (s1 : s ≤ 1) :
    Inside a b c (lerp q q' s) := by
  have pos : ∀ x y : Rat, 0 < x → 0 < y → 0 < x + s * (y - x) := by
    intro x y hx hy
    rcases eq_or_lt_of_le s0 with rfl | s0
    · linarith
    · have := mul_nonneg (show 0 ≤ 1 - s by linarith) hx.le
      have := mul_pos s0 hy
      nlinarith
  refine ⟨?_, ?_, ?_⟩ <;> rw [det2_lerp]
  · exact pos _ _ h.1 h'.1
  · exact pos _ _ h.2.1 h'.2.1
  · exact pos _ _ h.2.2 h'.2.2

/-- The polyline runs along edges of the mesh. -/
def Along (M : Store) (L : List Nat) : Prop := ∀ x ∈ cyclicPairs L, MeshEdge M x.1 x.2

theorem OnSeg.symm {a b z : Point} (h : OnSeg a b z) : OnSeg b a z := by
  obtain ⟨t, t0, t1, e1, e2⟩ := h
  exact ⟨1 - t, by linarith, by linarith, by rw [e1]; ring, by rw [e2]; ring⟩

theorem MeshEdge.on {u v : Nat} (h : MeshEdge M u v) {z : Point} (hz : OnSeg (P u) (P v) z) :
    ∃ T ∈ M, ∃ i, OnSeg (P (T.from i)) (P (T.to i)) z ∧ ((T.from i = u ∧ T.to i = v) ∨ (T.from i = v ∧ T.to i = u)) := by
  obtain ⟨T, hT, i, k⟩ := h
  refine ⟨T, hT, i, ?_, k⟩
  rcases k with ⟨k1, k2⟩ | ⟨k1, k2⟩
  · rw [k1, k2]; exact hz
  · rw [k1, k2]; exact hz.symm

/-- The winding number is the same for all points inside a triangle. -/
theorem PlaneMesh.wind_inside (h : PlaneMesh P size left right M nodes) (hp : Strict P M) {L : List Nat} (hL : Along M L) {T : Tri} (hT : T ∈ M)
    {q q' : Point} (hq : In P T q) (hq' : In P T q') : wind P L q = wind P L q' := by
  refine wind_const fun x hx hm => ?_
  obtain ⟨a, a0, a1, hz⟩ := hm.point
  obtain ⟨T', hT', j, hz, -⟩ := (hL x hx).on hz
  exact h.edge_outside hp hT hT' hz (hq.lerp hq' a0 a1)

/-- Crossing an edge of a triangle.  `fs` describes the region beyond it: a neighbour or nothing. -/
theorem PlaneMesh.jump (h : PlaneMesh P size left right M nodes) (hp : Strict P M) {t : Nat} {T : Tri} (hT : M[t]? = some T) (i : Fin 3)
    {fs : List (Point → Rat)} (ha : ∀ f ∈ fs, Affine f)
    (hm : ∀ f ∈ fs, 0 < f (lerp (P (T.from i)) (P (T.to i)) (1/2)) ∨ ∀ z, f z = - det2 (P (T.from i)) (P (T.to i)) z)
    (hB : ∀ T' ∈ M, ∀ z, In P T' z → (∀ f ∈ fs, 0 < f z) → ∀ j w, OnSeg (P (T'.from j)) (P (T'.to j)) w →
      ¬ (∀ f ∈ fs, 0 < f w) ∧ (w = lerp (P (T.from i)) (P (T.to i)) (1/2) → T'.from j = T.to i ∧ T'.to j = T.from i))
    (hd : T.from i ≠ T.to i) :
    ∃ q q', In P T q ∧ (∀ f ∈ fs, 0 < f q') ∧ ∀ L, Along M L → wind P L q - wind P L q' = flow L (T.from i) (T.to i) := by
  have hTm := List.mem_of_getElem? hT
  have h0 := hp.at hTm i
  generalize hw : P (T.points.get i) = w at h0
  generalize hu : T.from i = u' at *
  generalize hv : T.to i = v' at *
  generalize hP : P u' = u at *
  generalize hP' : P v' = v at *
  let m := lerp u v (1/2)
  let m1 : Point := ⟨m.x + (u.y - v.y), m.y + (v.x - u.x)⟩
  let m2 : Point := ⟨m.x - (u.y - v.y), m.y - (v.x - u.x)⟩
  have d0 : 0 < (v.x - u.x) ^ 2 + (v.y - u.y) ^ 2 := by
    by_contra k
    have k1 : (v.x - u.x) ^ 2 = 0 := by nlinarith [sq_nonneg (v.x - u.x), sq_nonneg (v.y - u.y)]
    have k2 : (v.y - u.y) ^ 2 = 0 := by nlinarith [sq_nonneg (v.x - u.x), sq_nonneg (v.y - u.y)]
    have k3 : v.x = u.x := by have := pow_eq_zero_iff (two_ne_zero) |>.1 k1; linarith
    have k4 : v.y = u.y := by have := pow_eq_zero_iff (two_ne_zero) |>.1 k2; linarith
    unfold det2 at h0
    rw [k3, k4] at h0
    have : (u.x - w.x) * (u.y - w.y) - (u.y - w.y) * (u.x - w.x) = 0 := by ring
    linarith
  have em : det2 u v m = 0 := by simp only [det2, m, lerp]; ring
  have e1 : det2 u v m1 = (v.x - u.x) ^ 2 + (v.y - u.y) ^ 2 := by simp only [det2, m1, m, lerp]; ring
  have e2 : det2 u v m2 = -((v.x - u.x) ^ 2 + (v.y - u.y) ^ 2) := by simp only [det2, m2, m, lerp]; ring
  have ev : det2 v w m = det2 u v w / 2 := by simp only [det2, m, lerp]; ring
  have ew : det2 w u m = det2 u v w / 2 := by simp only [det2, m, lerp]; ring
  -- the triangle near `m`
  have inT : ∀ g, 0 < det2 u v g → ∃ δ : Rat, 0 < δ ∧ ∀ s, 0 < s → s ≤ δ → In P T (lerp m g s) := by
    intro g hg
    obtain ⟨δ, k0, k1⟩ := affine_small (fs := [det2 u v, det2 v w, det2 w u]) (z := m) (g := g) (by
      intro f hf
      simp only [List.mem_cons, List.not_mem_nil, or_false] at hf
      rcases hf with rfl | rfl | rfl <;> exact affine_det _ _) (by
      intro f hf
      simp only [List.mem_cons, List.not_mem_nil, or_false] at hf
      rcases hf with rfl | rfl | rfl
      · exact .inr ⟨em, hg⟩
      · left; rw [ev]; linarith
      · left; rw [ew]; linarith)
    refine ⟨δ, k0, fun s s0 s1 => (inside_at i).2 ?_⟩
    have := k1 s s0 s1
    simp only [List.mem_cons, List.not_mem_nil, or_false, forall_eq_or_imp, forall_eq] at this
    rw [hu, hv, hP, hP', hw]; exact this
  have inB : ∀ g, det2 u v g < 0 → ∃ δ : Rat, 0 < δ ∧ ∀ s, 0 < s → s ≤ δ → ∀ f ∈ fs, 0 < f (lerp m g s) := by
    intro g hg
    refine affine_small ha fun f hf => ?_
    rcases hm f hf with k | k
    · exact .inl k
    · right; rw [k, k, em]; exact ⟨neg_zero, by linarith⟩
  obtain ⟨δ1, p1, q1⟩ := inT m1 (by rw [e1]; exact d0)
  obtain ⟨δ2, p2, q2⟩ := inB m2 (by rw [e2]; linarith)
  let s := min δ1 δ2
  have s0 : 0 < s := lt_min p1 p2
  refine ⟨lerp m m1 s, lerp m m2 s, q1 s s0 (min_le_left _ _), q2 s s0 (min_le_right _ _), fun L hL => ?_⟩
  refine wind_diff hd ?_ ?_ ?_ ?_ ?_
  · rw [hP, hP', det2_lerp, em, e1]; have := mul_pos s0 d0; linarith
  · rw [hP, hP', det2_lerp, em, e2]; have := mul_pos s0 d0; linarith
  · rw [hP]
    have : det2 (lerp m m1 s) (lerp m m2 s) u = -(s * ((v.x - u.x) ^ 2 + (v.y - u.y) ^ 2)) := by simp only [det2, m1, m2, m, lerp]; ring
    rw [this]; have := mul_pos s0 d0; linarith
  · rw [hP']
    have : det2 (lerp m m1 s) (lerp m m2 s) v = s * ((v.x - u.x) ^ 2 + (v.y - u.y) ^ 2) := by simp only [det2, m1, m2, m, lerp]; ring
    rw [this]; exact mul_pos s0 d0
  · intro x hx
    by_contra hno
    push Not at hno
    obtain ⟨n1, n2, n3⟩ := hno
    obtain ⟨a, a0, a1, hz⟩ := n1.point
    obtain ⟨T', hT', j, hz, hj⟩ := (hL x hx).on hz
    -- no other edge passes through `m`
    have mid : ∀ z, OnSeg (P (T'.from j)) (P (T'.to j)) z → z ≠ m := by
      rintro z hz rfl
      have huv : u ≠ v := by rintro rfl; simp at d0
      obtain ⟨g, hg, hg0⟩ := inside_off (hp.at hT' j) huv
      rcases lt_or_gt_of_ne hg0 with hg0 | hg0
      · obtain ⟨δ, k0, k1⟩ := inB g hg0
        have ins := (inside_at j).2 (toward (hp.at hT' j) hz hg (lt_min k0 one_pos) (min_le_right δ 1))
        obtain ⟨r1, r2⟩ := (hB T' hT' _ ins (k1 _ (lt_min k0 one_pos) (min_le_left _ _)) j m hz).2 rfl
        rcases hj with ⟨j1, j2⟩ | ⟨j1, j2⟩
        · exact n3 (Prod.ext (j1.symm.trans r1) (j2.symm.trans r2))
        · exact n2 (Prod.ext (j2.symm.trans r2) (j1.symm.trans r1))
      · obtain ⟨δ, k0, k1⟩ := inT g hg0
        have ins := (inside_at j).2 (toward (hp.at hT' j) hz hg (lt_min k0 one_pos) (min_le_right δ 1))
        obtain ⟨t', ht'⟩ := List.mem_iff_getElem?.1 hT'
        have e := h.disjoint hT ht' (k1 _ (lt_min k0 one_pos) (min_le_left _ _)) ins
        subst e
        rw [hT] at ht'; cases ht'
        -- the edge of `T` through `m`
        have eji : j = i := by
          by_contra hne
          have c : j = i + 1 ∨ j = i + 2 := by clear * - hne; revert hne; revert i j; decide
          have z0 := det2_on hz
          have f1 : T.from i = T.points.get (i + 1) := rfl
          have f2 : T.to i = T.points.get (i + 2) := rfl
          rcases c with c | c
          · have x1 : T.from j = T.to i := by unfold Tri.from Tri.to; rw [c]; congr 1; clear * -; revert i; decide
            have x2 : T.to j = T.points.get i := by unfold Tri.to; rw [c]; congr 1; clear * -; revert i; decide
            rw [x1, x2, hv, hP', hw, ev] at z0; linarith
          · have x1 : T.from j = T.points.get i := by unfold Tri.from; rw [c]; congr 1; clear * -; revert i; decide
            have x2 : T.to j = T.from i := by unfold Tri.from Tri.to; rw [c]; congr 1; clear * -; revert i; decide
            rw [x1, x2, hu, hP, hw, ew] at z0; linarith
        subst eji
        rw [hu, hv] at hj
        rcases hj with ⟨j1, j2⟩ | ⟨j1, j2⟩
        · exact n2 (Prod.ext j1.symm j2.symm)
        · exact n3 (Prod.ext j2.symm j1.symm)
    -- the point is on one side
    rcases lt_trichotomy a (1/2) with k | k | k
    · have e : lerp (lerp m m1 s) (lerp m m2 s) a = lerp m m1 (s * (1 - 2 * a)) := by
        simp only [lerp, m1, m2, Point.mk.injEq]; constructor <;> ring
      rw [e] at hz
      refine h.edge_outside hp hTm hT' hz (q1 _ (mul_pos s0 (by linarith)) ?_)
      have : s * (1 - 2 * a) ≤ s * 1 := mul_le_mul_of_nonneg_left (by linarith) s0.le
      exact le_trans (by linarith) (min_le_left δ1 δ2)
    · have e : lerp (lerp m m1 s) (lerp m m2 s) a = m := by
        simp only [lerp, m1, m2, k]; cases m; simp only [Point.mk.injEq]; constructor <;> ring
      rw [e] at hz
      exact mid m hz rfl
    · have e : lerp (lerp m m1 s) (lerp m m2 s) a = lerp m m2 (s * (2 * a - 1)) := by
        simp only [lerp, m1, m2, Point.mk.injEq]; constructor <;> ring
      rw [e] at hz
      have hz1 : ∀ f ∈ fs, 0 < f (lerp m m2 (s * (2 * a - 1))) := by
        refine q2 _ (mul_pos s0 (by linarith)) ?_
        have : s * (2 * a - 1) ≤ s * 1 := mul_le_mul_of_nonneg_left (by linarith) s0.le
        exact le_trans (by linarith) (min_le_right δ1 δ2)
      obtain ⟨g, hg, -⟩ := inside_off (hp.at hT' j) (show (⟨0, 0⟩ : Point) ≠ ⟨1, 0⟩ by decide)
      obtain ⟨δ, k0, k1⟩ := affine_small ha (z := lerp m m2 (s * (2 * a - 1))) (g := g) fun f hf => .inl (hz1 f hf)
      have ins := (inside_at j).2 (toward (hp.at hT' j) hz hg (lt_min k0 one_pos) (min_le_right δ 1))
      exact (hB T' hT' _ ins (k1 _ (lt_min k0 one_pos) (min_le_left _ _)) j _ hz).1 hz1

end

end P2T
