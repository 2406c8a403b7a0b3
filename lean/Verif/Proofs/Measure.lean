import Verif.Proofs.LabelAt
import Verif.Proofs.Interior
import Verif.Spec.Measure

/-!
# Counting and measuring the triangles that are found
-/

namespace P2T

theorem Labelled.perturbed' {P R : Nat → Point} {size left right : Nat} {M : Store} {nodes : List Node} {Ls : List (List Nat)} {F : List Nat → Nat → Rat}
    (h : Labelled P R size left right M nodes Ls F) : Labelled P P size left right M nodes Ls F := { h with real := h.mesh }

theorem Along.lt {size : Nat} {M : Store} (hc : Consistent size M) {L : List Nat} (h : Along M L) {v : Nat} (hv : v ∈ L) : v < size := by
  obtain ⟨b, hb⟩ := cyclic_next hv
  obtain ⟨T, hT, i, ⟨e, -⟩ | ⟨-, e⟩⟩ := h _ hb
  · have e : T.from i = v := e
    rw [← e]; exact hc.corners T hT _
  · have e : T.to i = v := e
    rw [← e]; exact hc.corners T hT _

/-- The label of a triangle is not zero if and only if it is odd. -/
theorem Planar.ne_zero {P R : Nat → Point} {size left right : Nat} {M : Store} {nodes : List Node} {Ls : List (List Nat)} {F : List Nat → Nat → Rat}
    (h : Planar P R size left right M nodes Ls F) {L : List Nat} (hL : L ∈ Ls) (t : Fin M.length) :
    (F L t ≠ 0 → ∃ k : ℤ, F L t = 2 * k + 1) ∧ (∀ k : ℤ, F L t = 2 * k → F L t = 0) := by
  obtain ⟨σ, hσ, hv, -⟩ := h.jordan hL
  constructor
  · intro hne
    rw [(hv t).resolve_right hne]
    rcases hσ with rfl | rfl
    · exact ⟨0, by norm_num⟩
    · exact ⟨-1, by norm_num⟩
  · intro k hk
    rcases hv t with e | e
    · exfalso
      rw [e] at hk
      rcases hσ with rfl | rfl
      · have : (1 : ℤ) = 2 * k := by exact_mod_cast hk
        omega
      · have : (-1 : ℤ) = 2 * k := by exact_mod_cast hk
        omega
    · exact e

/-- A labelled mesh with an outer polyline and holes. -/
structure Holed (P R : Nat → Point) (size left right : Nat) (M : Store) (nodes : List Node) (L0 : List Nat) (Ls : List (List Nat))
    (F : List Nat → Nat → Rat) : Prop where
  lab : Labelled P R size left right M nodes (L0 :: Ls) F
  plane : Plane P size left right M nodes F
  close : Close P R size
  inj : ∀ i j, i < size → j < size → R i = R j → i = j
  inside : ∀ L ∈ Ls, ∀ v ∈ L, StrictlyInside (L0.map R) (R v)
  apart : Ls.Pairwise fun L L' => (∀ v ∈ L', StrictlyOutside (L.map R) (R v)) ∧ ∀ v ∈ L, StrictlyOutside (L'.map R) (R v)

namespace Holed
variable {P R : Nat → Point} {size left right : Nat} {M : Store} {nodes : List Node} {L0 : List Nat} {Ls : List (List Nat)} {F : List Nat → Nat → Rat}
  (h : Holed P R size left right M nodes L0 Ls F)
include h

/-- The label of the triangles at a corner off a polyline. -/
theorem at_corner {L : List Nat} (hL : L ∈ L0 :: Ls) {x : Nat} (hx : x ∉ L) (off : ∀ e ∈ cyclicPairs (L.map R), ¬ OnSeg e.1 e.2 (R x))
    {t : Fin M.length} {i : Fin 3} (ht : M[t].points.get i = x) : F L t ≠ 0 ↔ InsidePolyline (L.map R) (R x) := by
  have e := h.lab.label_at h.close h.inj hL (fun v hv => (h.lab.along L hL).lt h.lab.mesh.cons hv) hx (fun e he => by
    refine off (R e.1, R e.2) ?_
    rw [cyclic_map]; exact List.mem_map.2 ⟨e, he, rfl⟩) ht
  obtain ⟨o1, o2⟩ := h.lab.ne_zero hL t
  constructor
  · intro hne
    obtain ⟨k, hk⟩ := o1 hne
    exact odd_inside (by rw [← e, hk])
  · intro hi hz
    rw [hz] at e
    exact zero_outside e.symm hi

omit h in
theorem half_corner (k : HE M) : (∃ i, M[k.1].points.get i = k.src) ∧ ∃ i, M[k.1].points.get i = k.dst := ⟨⟨_, rfl⟩, _, rfl⟩

theorem not_outer {L : List Nat} (hL : L ∈ Ls) {v : Nat} (hv : v ∈ L) : v ∉ L0 := by
  intro h0
  have nd := h.lab.disj.nodup
  rw [List.flatten_cons, List.nodup_append] at nd
  exact nd.2.2 v h0 v (List.mem_flatten.2 ⟨L, hL, hv⟩) rfl

theorem nested {L : List Nat} (hL : L ∈ Ls) (t : Fin M.length) (ht : F L t ≠ 0) : F L0 t ≠ 0 := by
  refine h.lab.nested (L := L) (L0 := L0) (by simp [hL]) (by simp) (fun k hk => ?_) t ht
  have hv : k.src ∈ L := by rcases hk with e | e; exacts [cyclic_mem_left e, cyclic_mem_right e]
  obtain ⟨i, hi⟩ := (half_corner k).1
  obtain ⟨h1, h2⟩ := h.inside L hL _ hv
  exact (h.at_corner (L := L0) (by simp) (h.not_outer hL hv) h2 hi).2 h1

theorem holes_nodup : Ls.Pairwise fun L L' => ∀ v, v ∈ L → v ∉ L' := by
  have nd := h.lab.disj.nodup
  rw [List.flatten_cons, List.nodup_append] at nd
  exact (List.nodup_flatten.1 nd.2.1).2

theorem separate : Ls.Pairwise fun L L' => ∀ t : Fin M.length, F L t = 0 ∨ F L' t = 0 := by
  refine List.Pairwise.imp_of_mem ?_ (h.apart.and h.holes_nodup)
  rintro L L' hL hL' ⟨⟨h1, h2⟩, h3⟩ t
  refine h.lab.apart (L := L) (L' := L') (by simp [hL]) (by simp [hL']) (fun k hk => ?_) (fun k hk => ?_) t
  · have hv : k.src ∈ L := by rcases hk with e | e; exacts [cyclic_mem_left e, cyclic_mem_right e]
    obtain ⟨i, hi⟩ := (half_corner k).1
    by_contra hne
    exact (h2 _ hv).1 ((h.at_corner (L := L') (by simp [hL']) (h3 _ hv) (h2 _ hv).2 hi).1 hne)
  · have hv : k.src ∈ L' := by rcases hk with e | e; exacts [cyclic_mem_left e, cyclic_mem_right e]
    obtain ⟨i, hi⟩ := (half_corner k).1
    by_contra hne
    exact (h1 _ hv).1 ((h.at_corner (L := L) (by simp [hL]) (fun z => h3 _ z hv) (h1 _ hv).2 hi).1 hne)

/-- What the search finds, in terms of the labels. -/
theorem inner_iff {s : Nat} {S : Tri} {i : Fin 3} (hS : M[s]? = some S)
    (he : (S.from i, S.to i) ∈ cyclicPairs L0 ∨ (S.to i, S.from i) ∈ cyclicPairs L0) (hF : F L0 s = flow L0 (S.from i) (S.to i))
    (hz : ∀ L ∈ Ls, F L s = 0) (t : Fin M.length) : Reach M s t ↔ F L0 t ≠ 0 ∧ ∀ L ∈ Ls, F L t = 0 := by
  constructor
  · intro hr
    have r0 := h.lab.reach_same hr (L := L0) (by simp)
    refine ⟨?_, fun L hL => by rw [← h.lab.reach_same hr (L := L) (by simp [hL])]; exact hz L hL⟩
    rw [← r0, hF]
    have nd := h.lab.disj.nodup' (L := L0) (by simp)
    have h3 := h.lab.disj.three L0 (by simp)
    rcases he with he | he
    · rw [flow_one nd h3 he]; norm_num
    · rw [flow_swap, flow_one nd h3 he]; norm_num
  · rintro ⟨h1, h2⟩
    refine h.lab.perturbed'.complete (L0 := L0) (by simp) hS he hF (h.lab.chi_centroid t) ((h.lab.ne_zero (by simp) t).1 h1) fun L hL hne => ?_
    rcases List.mem_cons.1 hL with e | hL
    · exact absurd e hne
    · exact ⟨0, by rw [h2 L hL]; norm_num⟩

omit h in
theorem ind_sum (Ls : List (List Nat)) (t : Nat) (hp : Ls.Pairwise fun L L' => F L t = 0 ∨ F L' t = 0) (g : Rat) :
    (Ls.map fun L => if F L t ≠ 0 then g else 0).sum = if ∀ L ∈ Ls, F L t = 0 then 0 else g := by
  induction Ls with
  | nil => simp
  | cons L Ls ih =>
    rw [List.pairwise_cons] at hp
    rw [List.map_cons, List.sum_cons, ih hp.2]
    by_cases hz : F L t = 0
    · simp [hz]
    · have : ∀ L' ∈ Ls, F L' t = 0 := fun L' hL' => (hp.1 L' hL').resolve_left hz
      simp only [List.mem_cons, forall_eq_or_imp, hz, false_and, if_false, if_pos this, ne_eq, not_false_eq_true, if_true, add_zero]

omit h in
theorem list_sum_swap {α β} [Fintype β] (f : α → β → Rat) : ∀ l : List α, (l.map fun x => ∑ g : β, f x g).sum = ∑ g : β, (l.map fun x => f x g).sum
  | [] => by simp
  | x :: l => by
    simp only [List.map_cons, List.sum_cons, list_sum_swap f l, Finset.sum_add_distrib]

/-- The triangles found, and the triangles in the holes, together are the triangles in the outer polyline. -/
theorem weights {res : List Nat} (nd : res.Nodup) (lt : ∀ u ∈ res, u < M.length) (hr : ∀ t : Fin M.length, t.1 ∈ res ↔ F L0 t ≠ 0 ∧ ∀ L ∈ Ls, F L t = 0)
    (g : Nat → Rat) : (res.map g).sum + (Ls.map fun L => ∑ t ∈ inF M F L, g t).sum = ∑ t ∈ inF M F L0, g t := by
  classical
  have e1 : (res.map g).sum = ∑ t : Fin M.length, if F L0 t ≠ 0 ∧ ∀ L ∈ Ls, F L t = 0 then g t else 0 := by
    rw [← List.sum_toFinset g nd]
    have : ∀ t : Fin M.length, (if F L0 t ≠ 0 ∧ ∀ L ∈ Ls, F L t = 0 then g t else 0) = if t.1 ∈ res.toFinset then g t.1 else 0 := by
      intro t; simp only [List.mem_toFinset, hr t]
    rw [Finset.sum_congr rfl fun t _ => this t, Fin.sum_univ_eq_sum_range (fun t => if t ∈ res.toFinset then g t else 0), ← Finset.sum_filter]
    refine Finset.sum_congr ?_ fun _ _ => rfl
    ext x
    simp only [List.mem_toFinset, Finset.mem_filter, Finset.mem_range]
    exact ⟨fun hx => ⟨lt x hx, hx⟩, fun hx => hx.2⟩
  have e2 : ∀ L, ∑ t ∈ inF M F L, g t = ∑ t : Fin M.length, if F L t ≠ 0 then g t else 0 := by
    intro L; unfold inF; rw [Finset.sum_filter]
  simp only [e2]
  rw [e1, list_sum_swap, ← Finset.sum_add_distrib]
  refine Finset.sum_congr rfl fun t _ => ?_
  rw [ind_sum Ls t (h.separate.imp fun k => k t)]
  by_cases h0 : F L0 t = 0
  · have : ∀ L ∈ Ls, F L t = 0 := fun L hL => by
      by_contra hne; exact h.nested hL t hne h0
    rw [if_neg (by simp [h0]), if_pos this, if_neg (by simp [h0])]; ring
  · by_cases hz : ∀ L ∈ Ls, F L t = 0
    · simp only [ne_eq, h0, not_false_eq_true, true_and, if_pos hz, add_zero, if_true]
    · simp only [ne_eq, h0, not_false_eq_true, true_and, if_neg hz, zero_add, if_true]

/-- The area inside a polyline. -/
theorem area {L : List Nat} (hL : L ∈ L0 :: Ls) : ∑ t ∈ inF M F L, det2 (R M[t].points.a) (R M[t].points.b) (R M[t].points.c) = |shoelace2 (L.map R)| := by
  classical
  have hφ : ∀ u v : Nat, (R v).x * (R u).y - (R u).x * (R v).y = -((R u).x * (R v).y - (R v).x * (R u).y) := fun u v => by ring
  have e1 := stokes h.lab.mesh.cons (F L) (fun u v => (R u).x * (R v).y - (R v).x * (R u).y) hφ
  have e2 := h.lab.mesh.along_sum h.lab.strict h.lab.lt (h.lab.along L hL) (fun u v => (R u).x * (R v).y - (R v).x * (R u).y) hφ
  have e3 : ((cyclicPairs L).map fun x => (R x.1).x * (R x.2).y - (R x.2).x * (R x.1).y).sum = shoelace2 (L.map R) := by
    unfold shoelace2; rw [cyclic_map, List.map_map]; rfl
  have e4 : ∑ t : Fin M.length, F L t * det2 (R M[t].points.a) (R M[t].points.b) (R M[t].points.c) = shoelace2 (L.map R) := by
    rw [← e3, ← e2]
    refine Eq.trans (Finset.sum_congr rfl fun t _ => ?_) (e1.trans (Finset.sum_congr rfl fun k _ => ?_))
    · unfold det2; ring
    · rw [h.lab.jump_flow hL]
  obtain ⟨σ, hσ, hv, -⟩ := h.lab.jordan hL
  have s0 : σ ≠ 0 := by rcases hσ with e | e <;> rw [e] <;> norm_num
  have e5 : σ * ∑ t ∈ inF M F L, det2 (R M[t].points.a) (R M[t].points.b) (R M[t].points.c) = shoelace2 (L.map R) := by
    rw [← e4, Finset.mul_sum]
    unfold inF
    rw [Finset.sum_filter]
    refine Finset.sum_congr rfl fun t _ => ?_
    rcases hv t with e | e
    · rw [e, if_pos s0]
    · rw [e, zero_mul, if_neg (by simp)]
  have pos : 0 ≤ ∑ t ∈ inF M F L, det2 (R M[t].points.a) (R M[t].points.b) (R M[t].points.c) :=
    Finset.sum_nonneg fun t _ => h.lab.real.pos M[t] (by simp)
  rw [← e5, abs_mul]
  have : |σ| = 1 := by rcases hσ with e | e <;> rw [e] <;> norm_num
  rw [this, one_mul, abs_of_nonneg pos]

/-- The area of the triangles found. -/
theorem found_area {res : List Nat} (nd : res.Nodup) (lt : ∀ u ∈ res, u < M.length) (hr : ∀ t : Fin M.length, t.1 ∈ res ↔ F L0 t ≠ 0 ∧ ∀ L ∈ Ls, F L t = 0) :
    (res.map fun i => match M[i]? with | some T => det2 (R T.points.a) (R T.points.b) (R T.points.c) | none => 0).sum + (Ls.map fun L => |shoelace2 (L.map R)|).sum =
      |shoelace2 (L0.map R)| := by
  have w := h.weights nd lt hr fun i => match M[i]? with | some T => det2 (R T.points.a) (R T.points.b) (R T.points.c) | none => 0
  have e : ∀ L ∈ L0 :: Ls, (∑ t ∈ inF M F L, match M[t.1]? with | some T => det2 (R T.points.a) (R T.points.b) (R T.points.c) | none => 0) = |shoelace2 (L.map R)| := by
    intro L hL
    rw [← h.area hL]
    refine Finset.sum_congr rfl fun t _ => ?_
    simp
  rw [← e L0 (by simp), ← w]
  congr 2
  exact List.map_congr_left fun L hL => (e L (by simp [hL])).symm

/-- The number of triangles found. -/
theorem found_count {res : List Nat} (nd : res.Nodup) (lt : ∀ u ∈ res, u < M.length) (hr : ∀ t : Fin M.length, t.1 ∈ res ↔ F L0 t ≠ 0 ∧ ∀ L ∈ Ls, F L t = 0) :
    res.length + (Ls.map fun L => (inF M F L).card).sum = (inF M F L0).card := by
  have w := h.weights nd lt hr fun _ => 1
  simp only [List.map_const', List.sum_replicate, Finset.sum_const, nsmul_eq_mul, mul_one] at w
  have : ((Ls.map fun L => ((inF M F L).card : Rat)).sum) = ((Ls.map fun L => (inF M F L).card).sum : Nat) := by
    clear * -
    induction Ls with
    | nil => simp
    | cons L Ls ih => simp [ih]
  rw [this] at w
  exact_mod_cast w

end Holed

/-! ## Corners -/

theorem inside_range' {ps : List Point} {q : Point} (h : InsidePolyline ps q) : (∃ p ∈ ps, p.x ≤ q.x) ∧ ∃ p ∈ ps, q.x < p.x := by
  unfold InsidePolyline crossings at h
  have hpos : 0 < (cyclicPairs ps).countP fun x => decide (EdgeOver q x.1 x.2) := by
    rcases Nat.eq_zero_or_pos ((cyclicPairs ps).countP fun x => decide (EdgeOver q x.1 x.2)) with e | e
    · rw [e] at h; cases h
    · exact e
  obtain ⟨⟨u, v⟩, hx, ho⟩ := List.countP_pos_iff.1 hpos
  rcases of_decide_eq_true ho with ⟨k1, k2, -⟩ | ⟨k1, k2, -⟩
  · exact ⟨⟨u, cyclic_mem_left hx, k1⟩, v, cyclic_mem_right hx, k2⟩
  · exact ⟨⟨v, cyclic_mem_right hx, k1⟩, u, cyclic_mem_left hx, k2⟩

/-- … and the other corners of the mesh. -/
structure Corners' (R : Nat → Point) (size left right : Nat) (M : Store) (L0 : List Nat) (Ls : List (List Nat)) (Sts : List Nat) : Prop where
  nodup : Sts.Nodup
  cases : ∀ v, v < size → v ∈ L0 ∨ (∃ L ∈ Ls, v ∈ L) ∨ v ∈ Sts ∨ v = left ∨ v = right
  used : ∀ v, (∃ L ∈ Ls, v ∈ L) ∨ v ∈ Sts → ∃ (t : Fin M.length) (i : Fin 3), M[t].points.get i = v
  free : ∀ v ∈ Sts, ∀ L ∈ L0 :: Ls, v ∉ L ∧ ∀ e ∈ cyclicPairs (L.map R), ¬ OnSeg e.1 e.2 (R v)
  art : ∀ L ∈ L0 :: Ls, left ∉ L ∧ right ∉ L ∧ ∀ v ∈ L, (R left).x < (R v).x ∧ (R v).x < (R right).x

namespace Holed
variable {P R : Nat → Point} {size left right : Nat} {M : Store} {nodes : List Node} {L0 : List Nat} {Ls : List (List Nat)} {F : List Nat → Nat → Rat}
  {Sts : List Nat} (h : Holed P R size left right M nodes L0 Ls F) (c : Corners' R size left right M L0 Ls Sts)
include h c

theorem art_zero {L : List Nat} (hL : L ∈ L0 :: Ls) {v : Nat} (hv : v = left ∨ v = right) {t : Fin M.length} {i : Fin 3} (ht : M[t].points.get i = v) : F L t = 0 := by
  obtain ⟨a1, a2, a3⟩ := c.art L hL
  by_contra hne
  have hvL : v ∉ L := by rcases hv with rfl | rfl; exacts [a1, a2]
  have out : (∀ p ∈ L.map R, (R v).x < p.x) ∨ ∀ p ∈ L.map R, p.x < (R v).x := by
    rcases hv with rfl | rfl
    · left; intro p hp; obtain ⟨u, hu, rfl⟩ := List.mem_map.1 hp; exact (a3 u hu).1
    · right; intro p hp; obtain ⟨u, hu, rfl⟩ := List.mem_map.1 hp; exact (a3 u hu).2
  have := (h.at_corner hL hvL (fun e he ⟨s, s0, s1, e1, _⟩ => by
    have m1 := cyclic_mem_left he
    have m2 := cyclic_mem_right he
    rcases out with k | k
    · have k1 := k _ m1
      have k2 := k _ m2
      have := mul_nonneg s0 (show 0 ≤ e.2.x - (R v).x by linarith)
      have := mul_nonneg (show 0 ≤ 1 - s by linarith) (show 0 ≤ e.1.x - (R v).x by linarith)
      rcases eq_or_lt_of_le s0 with q | q
      · rw [← q] at e1; linarith
      · have := mul_pos q (show 0 < e.2.x - (R v).x by linarith)
        linarith
    · have k1 := k _ m1
      have k2 := k _ m2
      have := mul_nonneg (show 0 ≤ 1 - s by linarith) (show 0 ≤ (R v).x - e.1.x by linarith)
      rcases eq_or_lt_of_le s0 with q | q
      · rw [← q] at e1; linarith
      · have := mul_pos q (show 0 < (R v).x - e.2.x by linarith)
        linarith) ht).1 hne
  obtain ⟨⟨p, p1, p2⟩, p', p1', p2'⟩ := inside_range' this
  rcases out with k | k
  · have := k p p1; linarith
  · have := k p' p1'; linarith

omit c in
/-- The corners of the outer polyline are not in holes. -/
theorem outer_zero {L : List Nat} (hL : L ∈ Ls) {v : Nat} (hv : v ∈ L0) {t : Fin M.length} {i : Fin 3} (ht : M[t].points.get i = v) : F L t = 0 := by
  have hvL : v ∉ L := fun z => h.not_outer hL z hv
  have hL' : L ∈ L0 :: Ls := by simp [hL]
  by_contra hne
  have all : ∀ (t' : Fin M.length) (j : Fin 3), M[t'].points.get j = v → F L t' ≠ 0 := fun t' j hj => by
    rw [← h.lab.around hL' hvL ht hj]; exact hne
  obtain ⟨w, hw⟩ := cyclic_next hv
  obtain ⟨k, hk⟩ := h.lab.edge_jump (L := L0) (by simp) hw
  have kv : k.src = v ∨ k.dst = v := by rcases hk with ⟨⟨e, -⟩, -⟩ | ⟨⟨-, e⟩, -⟩; exacts [.inl e, .inr e]
  have kj : k.jump (F L0) = 1 ∨ k.jump (F L0) = -1 := by rcases hk with ⟨-, e⟩ | ⟨-, e⟩; exacts [.inl e, .inr e]
  have at1 : ∀ g : HE M, g.src = v ∨ g.dst = v → F L g.1 ≠ 0 ∧ F L0 g.1 ≠ 0 := by
    intro g hg
    have : F L g.1 ≠ 0 := by
      rcases hg with e | e
      · exact all g.1 _ e
      · exact all g.1 _ e
    exact ⟨this, h.nested hL g.1 this⟩
  obtain ⟨σ, hσ, hval, -⟩ := h.lab.jordan (L := L0) (by simp)
  have k1 := at1 k kv
  cases hn : k.nbr with
  | none =>
    have n1 : (k.src, k.dst) ∉ cyclicPairs L := fun z => by
      rcases kv with e | e
      · exact hvL (e ▸ cyclic_mem_left z)
      · exact hvL (e ▸ cyclic_mem_right z)
    have n2 : (k.dst, k.src) ∉ cyclicPairs L := fun z => by
      rcases kv with e | e
      · exact hvL (e ▸ cyclic_mem_right z)
      · exact hvL (e ▸ cyclic_mem_left z)
    exact k1.1 ((h.lab.off_edge hL' k n1 n2).1 hn)
  | some y =>
    obtain ⟨g, y1, -, -, y4, y5⟩ := HE.twin h.lab.mesh.cons k (by rw [hn]; simp)
    rw [hn] at y1; cases y1
    have g1 := at1 g (by rw [y4, y5]; exact kv.symm)
    unfold HE.jump at kj
    rw [hn] at kj
    have v1 := (hval k.1).resolve_right k1.2
    have v2 := (hval g.1).resolve_right g1.2
    simp only [v1, v2, sub_self] at kj
    rcases kj with z | z <;> norm_num at z

/-- The corners inside a hole are Steiner points. -/
theorem hole_corners {L : List Nat} (hL : L ∈ Ls) : (inV size M F L).card = Sts.countP fun v => decide (InsidePolyline (L.map R) (R v)) := by
  classical
  have e : inV size M F L = (Sts.filter fun v => decide (InsidePolyline (L.map R) (R v))).toFinset := by
    ext v
    simp only [inV, Finset.mem_filter, Finset.mem_range, List.mem_toFinset, List.mem_filter, decide_eq_true_eq]
    constructor
    · rintro ⟨hv, hvL, t, i, ht, hF⟩
      rcases c.cases v hv with k | ⟨L', hL', k⟩ | k | k
      · exact absurd (h.outer_zero hL k ht) hF
      · exfalso
        have hne : L ≠ L' := by rintro rfl; exact hvL k
        -- another hole
        have out : StrictlyOutside (L.map R) (R v) := by
          have sym : ∀ {l : List (List Nat)}, l.Pairwise (fun L L' => (∀ v ∈ L', StrictlyOutside (L.map R) (R v)) ∧ ∀ v ∈ L, StrictlyOutside (L'.map R) (R v)) →
              L ∈ l → L' ∈ l → StrictlyOutside (L.map R) (R v) := by
            intro l hp h1 h2
            induction l with
            | nil => cases h1
            | cons a l ih =>
              rw [List.pairwise_cons] at hp
              rcases List.mem_cons.1 h1 with e1 | k1 <;> rcases List.mem_cons.1 h2 with e2 | k2
              · exact absurd (e1.trans e2.symm) hne
              · rw [← e1] at hp; exact (hp.1 L' k2).1 v k
              · rw [← e2] at hp; exact (hp.1 L k1).2 v k
              · exact ih hp.2 k1 k2
          exact sym h.apart hL hL'
        exact out.1 ((h.at_corner (L := L) (by simp [hL]) hvL out.2 ht).1 hF)
      · exact ⟨k, (h.at_corner (L := L) (by simp [hL]) hvL (c.free v k L (by simp [hL])).2 ht).1 hF⟩
      · exact absurd (h.art_zero c (by simp [hL]) k ht) hF
    · rintro ⟨hv, hin⟩
      obtain ⟨t, i, ht⟩ := c.used v (.inr hv)
      have f := c.free v hv L (by simp [hL])
      exact ⟨ht ▸ h.lab.mesh.cons.corners M[t] (by simp) i, f.1, t, i, ht, (h.at_corner (L := L) (by simp [hL]) f.1 f.2 ht).2 hin⟩
  rw [e, List.toFinset_card_of_nodup (c.nodup.filter _), List.countP_eq_length_filter]

/-- The corners inside the outer polyline. -/
theorem outer_corners : (inV size M F L0).card = (Ls.map List.length).sum + Sts.countP fun v => decide (InsidePolyline (L0.map R) (R v)) := by
  classical
  have e : inV size M F L0 = (Ls.flatten ++ Sts.filter fun v => decide (InsidePolyline (L0.map R) (R v))).toFinset := by
    ext v
    simp only [inV, Finset.mem_filter, Finset.mem_range, List.mem_toFinset, List.mem_append, List.mem_flatten, List.mem_filter, decide_eq_true_eq]
    constructor
    · rintro ⟨hv, hvL, t, i, ht, hF⟩
      rcases c.cases v hv with k | k | k | k
      · exact absurd k hvL
      · exact .inl k
      · exact .inr ⟨k, (h.at_corner (L := L0) (by simp) hvL (c.free v k L0 (by simp)).2 ht).1 hF⟩
      · exact absurd (h.art_zero c (by simp) k ht) hF
    · rintro (⟨L, hL, hv⟩ | ⟨hv, hin⟩)
      · obtain ⟨t, i, ht⟩ := c.used v (.inl ⟨L, hL, hv⟩)
        have f := h.inside L hL v hv
        exact ⟨ht ▸ h.lab.mesh.cons.corners M[t] (by simp) i, h.not_outer hL hv, t, i, ht, (h.at_corner (L := L0) (by simp) (h.not_outer hL hv) f.2 ht).2 f.1⟩
      · obtain ⟨t, i, ht⟩ := c.used v (.inr hv)
        have f := c.free v hv L0 (by simp)
        exact ⟨ht ▸ h.lab.mesh.cons.corners M[t] (by simp) i, f.1, t, i, ht, (h.at_corner (L := L0) (by simp) f.1 f.2 ht).2 hin⟩
  have nd := h.lab.disj.nodup
  rw [List.flatten_cons, List.nodup_append] at nd
  rw [e, List.toFinset_card_of_nodup, List.length_append, List.length_flatten, List.countP_eq_length_filter]
  rw [List.nodup_append]
  refine ⟨nd.2.1, c.nodup.filter _, ?_⟩
  rintro a ha b hb rfl
  obtain ⟨L, hL, hv⟩ := List.mem_flatten.1 ha
  exact (c.free a (List.mem_filter.1 hb).1 L (by simp [hL])).1 hv

/-- The Steiner points in the outer polyline are in one hole, or in no hole. -/
theorem steiner_split : (Sts.countP fun v => decide (InsidePolyline (L0.map R) (R v))) =
    (Ls.map fun L => Sts.countP fun v => decide (InsidePolyline (L.map R) (R v))).sum +
      Sts.countP fun v => decide (InsidePolyline (L0.map R) (R v) ∧ ∀ L ∈ Ls, ¬ InsidePolyline (L.map R) (R v)) := by
  classical
  have one : ∀ v ∈ Sts, (if InsidePolyline (L0.map R) (R v) then 1 else 0) = (Ls.map fun L => if InsidePolyline (L.map R) (R v) then 1 else 0).sum +
      if InsidePolyline (L0.map R) (R v) ∧ ∀ L ∈ Ls, ¬ InsidePolyline (L.map R) (R v) then 1 else 0 := by
    intro v hv
    obtain ⟨t, i, ht⟩ := c.used v (.inr hv)
    have iff : ∀ L ∈ L0 :: Ls, (F L t ≠ 0 ↔ InsidePolyline (L.map R) (R v)) := fun L hL => h.at_corner hL (c.free v hv L hL).1 (c.free v hv L hL).2 ht
    have s : (Ls.map fun L => if InsidePolyline (L.map R) (R v) then 1 else 0).sum = if ∀ L ∈ Ls, ¬ InsidePolyline (L.map R) (R v) then 0 else 1 := by
      have sep := h.separate.imp fun k => k t
      have iff' : ∀ L ∈ Ls, (F L t ≠ 0 ↔ InsidePolyline (L.map R) (R v)) := fun L hL => iff L (by simp [hL])
      clear * - sep iff'
      induction Ls with
      | nil => simp
      | cons L Ls ih =>
        rw [List.pairwise_cons] at sep
        rw [List.map_cons, List.sum_cons, ih sep.2 fun L hL => iff' L (by simp [hL])]
        by_cases hz : InsidePolyline (L.map R) (R v)
        · have : ∀ L' ∈ Ls, ¬ InsidePolyline (L'.map R) (R v) := fun L' hL' z =>
            ((iff' L' (by simp [hL'])).2 z) ((sep.1 L' hL').resolve_left ((iff' L (by simp)).2 hz))
          simp only [List.mem_cons, forall_eq_or_imp, hz, not_true, false_and, if_false, if_pos this, if_true, add_zero]
        · simp [hz]
    rw [s]
    by_cases h0 : InsidePolyline (L0.map R) (R v)
    · by_cases hz : ∀ L ∈ Ls, ¬ InsidePolyline (L.map R) (R v)
      · rw [if_pos h0, if_pos hz, if_pos ⟨h0, hz⟩]
      · rw [if_pos h0, if_neg hz, if_neg (fun z => hz z.2)]
    · have hz : ∀ L ∈ Ls, ¬ InsidePolyline (L.map R) (R v) := fun L hL z =>
        h0 ((iff L0 (by simp)).1 (h.nested hL t ((iff L (by simp [hL])).2 z)))
      rw [if_neg h0, if_pos hz, if_neg (fun z => h0 z.1)]
  clear * - one
  induction Sts with
  | nil =>
    simp
  | cons v Sts ih =>
    have ih := ih fun u hu => one u (by simp [hu])
    have o := one v (by simp)
    have m : (Ls.map fun L => (v :: Sts).countP fun v => decide (InsidePolyline (L.map R) (R v))).sum =
        (Ls.map fun L => Sts.countP fun v => decide (InsidePolyline (L.map R) (R v))).sum + (Ls.map fun L => if InsidePolyline (L.map R) (R v) then 1 else 0).sum := by
      rw [← List.sum_map_add]
      congr 1
      refine List.map_congr_left fun L _ => ?_
      rw [List.countP_cons]; simp
    rw [m, List.countP_cons, List.countP_cons]
    simp only [decide_eq_true_eq]
    omega

/-- The number of triangles found, in terms of the input. -/
theorem found_number {res : List Nat} (nd : res.Nodup) (lt : ∀ u ∈ res, u < M.length) (hr : ∀ t : Fin M.length, t.1 ∈ res ↔ F L0 t ≠ 0 ∧ ∀ L ∈ Ls, F L t = 0) :
    res.length + 2 = L0.length + (Ls.map fun L => L.length + 2).sum +
      2 * Sts.countP fun v => decide (InsidePolyline (L0.map R) (R v) ∧ ∀ L ∈ Ls, ¬ InsidePolyline (L.map R) (R v)) := by
  have n := h.found_count nd lt hr
  have loop : ∀ L ∈ L0 :: Ls, Loop M L := fun L hL => ⟨h.lab.along L hL, h.lab.disj.nodup' hL, by have := h.lab.disj.three L hL; omega⟩
  have e0 := h.plane.euler _ (loop L0 (by simp)) rfl
  rw [h.outer_corners c, h.steiner_split c] at e0
  have eL : (Ls.map fun L => (inF M F L).card + 2).sum = (Ls.map fun L => L.length + 2 * Sts.countP fun v => decide (InsidePolyline (L.map R) (R v))).sum := by
    congr 1
    refine List.map_congr_left fun L hL => ?_
    rw [h.plane.euler _ (loop L (by simp [hL])) rfl, h.hole_corners c hL]
  have a1 : (Ls.map fun L => (inF M F L).card + 2).sum = (Ls.map fun L => (inF M F L).card).sum + 2 * Ls.length := by
    clear * -; induction Ls with
    | nil => rfl
    | cons L Ls ih => simp only [List.map_cons, List.sum_cons, ih, List.length_cons]; omega
  have a2 : (Ls.map fun L => L.length + 2 * Sts.countP fun v => decide (InsidePolyline (L.map R) (R v))).sum =
      (Ls.map List.length).sum + 2 * (Ls.map fun L => Sts.countP fun v => decide (InsidePolyline (L.map R) (R v))).sum := by
    clear * -; induction Ls with
    | nil => rfl
    | cons L Ls ih => simp only [List.map_cons, List.sum_cons, ih]; omega
  have a3 : (Ls.map fun L => L.length + 2).sum = (Ls.map List.length).sum + 2 * Ls.length := by
    clear * -; induction Ls with
    | nil => rfl
    | cons L Ls ih => simp only [List.map_cons, List.sum_cons, ih, List.length_cons]; omega
  rw [a1, a2] at eL
  rw [a3]
  omega

end Holed

end P2T
