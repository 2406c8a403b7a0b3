import Verif.Proofs.Generic
import Verif.Proofs.CyclicEdges
import Verif.Spec.Steiner

/-!
# Constrained Delaunay triangulations are unique
-/

namespace P2T

/-! ## Closed polylines -/

theorem pairs_snoc {α} : ∀ (l : List α) (a b : α), pairs (l ++ [a, b]) = pairs (l ++ [a]) ++ [(a, b)]
  | [], a, b => rfl
  | [x], a, b => rfl
  | x :: y :: l, a, b => by
    have := pairs_snoc (y :: l) a b
    simp only [List.cons_append] at this ⊢
    rw [pairs_cons, pairs_cons, this]; rfl

theorem cyclic_rot1 {α} (a : α) (l : List α) : (cyclicPairs (l ++ [a])).Perm (cyclicPairs (a :: l)) := by
  cases l with
  | nil => exact .refl _
  | cons b l =>
    rw [cyclic_pairs a, show b :: l ++ [a] = b :: (l ++ [a]) from rfl, cyclic_pairs b (l ++ [a])]
    have e1 : b :: (l ++ [a]) ++ [b] = (b :: l) ++ [a, b] := by simp
    have e2 : a :: (b :: l) ++ [a] = a :: b :: (l ++ [a]) := by simp
    rw [e1, pairs_snoc, e2]
    show ((pairs (b :: l ++ [a])) ++ [(a, b)]).Perm ((a, b) :: pairs (b :: (l ++ [a])))
    exact List.perm_append_singleton _ _

theorem cyclic_rot {α} : ∀ (a b : List α), (cyclicPairs (b ++ a)).Perm (cyclicPairs (a ++ b))
  | [], b => by simp
  | x :: a, b => by
    have h1 := cyclic_rot a (b ++ [x])
    have e : b ++ x :: a = b ++ [x] ++ a := by simp
    rw [e]
    refine h1.trans ?_
    rw [← List.append_assoc]
    exact cyclic_rot1 x (a ++ b)

theorem pairs_reverse {α} : ∀ l : List α, pairs l.reverse = ((pairs l).map Prod.swap).reverse
  | [] => rfl
  | [a] => rfl
  | a :: b :: l => by
    have ih := pairs_reverse (b :: l)
    have e : (a :: b :: l).reverse = l.reverse ++ [b, a] := by simp
    rw [e, pairs_snoc]
    have e2 : l.reverse ++ [b] = (b :: l).reverse := by simp
    rw [e2, ih]
    simp [pairs_cons]

theorem cyclic_reverse {α} (l : List α) : (cyclicPairs l.reverse).Perm ((cyclicPairs l).map Prod.swap) := by
  cases l with
  | nil => exact .refl _
  | cons a l =>
    rw [List.reverse_cons]
    refine (cyclic_rot1 a l.reverse).trans ?_
    rw [cyclic_pairs, cyclic_pairs]
    have e : a :: l.reverse ++ [a] = (a :: l ++ [a]).reverse := by simp
    rw [e, pairs_reverse]
    exact List.reverse_perm _

theorem edgeOver_swap (q u v : Point) : EdgeOver q u v ↔ EdgeOver q v u := by unfold EdgeOver; exact Or.comm

theorem SameClosed.edges {ps qs : List Point} (h : SameClosed ps qs) : (cyclicPairs qs).Perm (cyclicPairs ps) ∨ (cyclicPairs qs).Perm ((cyclicPairs ps).map Prod.swap) := by
  obtain ⟨a, b, rfl, rfl | rfl⟩ := h
  · exact .inl (cyclic_rot a b)
  · exact .inr ((cyclic_reverse _).trans ((cyclic_rot a b).map _))

theorem SameClosed.inside {ps qs : List Point} (h : SameClosed ps qs) (q : Point) : InsidePolyline ps q ↔ InsidePolyline qs q := by
  have : crossings qs q = crossings ps q := by
    unfold crossings
    rcases h.edges with k | k
    · exact k.countP_eq _
    · rw [k.countP_eq, List.countP_map]
      refine List.countP_congr fun x _ => ?_
      simp only [Function.comp, Prod.fst_swap, Prod.snd_swap, decide_eq_true_eq]
      exact edgeOver_swap _ _ _
  unfold InsidePolyline
  rw [this]

theorem SameClosed.mem {ps qs : List Point} (h : SameClosed ps qs) (p : Point) : p ∈ ps ↔ p ∈ qs := by
  obtain ⟨a, b, rfl, rfl | rfl⟩ := h <;> simp [or_comm]

theorem onSeg_swap {u v q : Point} (h : OnSeg u v q) : OnSeg v u q := by
  obtain ⟨t, t0, t1, h1, h2⟩ := h
  exact ⟨1 - t, by linarith, by linarith, by rw [h1]; ring, by rw [h2]; ring⟩

/-- The points of a closed polyline. -/
theorem SameClosed.on {ps qs : List Point} (h : SameClosed ps qs) (q : Point) : (∃ e ∈ cyclicPairs ps, OnSeg e.1 e.2 q) ↔ ∃ e ∈ cyclicPairs qs, OnSeg e.1 e.2 q := by
  rcases h.edges with k | k
  · simp only [k.mem_iff]
  · simp only [k.mem_iff, List.mem_map]
    constructor
    · rintro ⟨e, he, on⟩; exact ⟨e.swap, ⟨e, he, rfl⟩, onSeg_swap on⟩
    · rintro ⟨_, ⟨e, he, rfl⟩, on⟩; exact ⟨e, he, onSeg_swap on⟩

namespace SameOutline
variable {D D' : Type} {poly : Source D} {ops : List (BuildOp D)} {poly' : Source D'} {ops' : List (BuildOp D')} (h : SameOutline poly ops poly' ops')
include h

theorem region (q : Point) : InRegion poly ops q ↔ InRegion poly' ops' q := by
  unfold InRegion
  rw [h.polygon.inside q]
  refine and_congr_right fun _ => ⟨fun k H hH hq => ?_, fun k H hH hq => ?_⟩
  · obtain ⟨H', hH', e⟩ := h.holes' H hH
    exact k H' hH' ((e.inside q).2 hq)
  · obtain ⟨H', hH', e⟩ := h.holes H hH
    exact k H' hH' ((e.inside q).1 hq)

theorem poly_iff {Q : List Point → Prop} (hQ : ∀ ps qs, SameClosed ps qs → (Q ps ↔ Q qs)) : (∃ ps ∈ poly.points :: holesOf ops, Q ps) ↔ ∃ ps ∈ poly'.points :: holesOf ops', Q ps := by
  constructor
  · rintro ⟨ps, hps, k⟩
    rcases List.mem_cons.1 hps with rfl | hps
    · exact ⟨_, by simp, (hQ _ _ h.polygon).1 k⟩
    · obtain ⟨H', hH', e⟩ := h.holes ps hps
      exact ⟨H', by simp [hH'], (hQ _ _ e).1 k⟩
  · rintro ⟨ps, hps, k⟩
    rcases List.mem_cons.1 hps with rfl | hps
    · exact ⟨_, by simp, (hQ _ _ h.polygon).2 k⟩
    · obtain ⟨H', hH', e⟩ := h.holes' ps hps
      exact ⟨H', by simp [hH'], (hQ _ _ e).2 k⟩

theorem visible (X p : Point) : Visible poly ops X p ↔ Visible poly' ops' X p := by
  have key : ∀ q, (∃ ps ∈ poly.points :: holesOf ops, ∃ e ∈ cyclicPairs ps, OnSeg e.1 e.2 q) ↔ ∃ ps ∈ poly'.points :: holesOf ops', ∃ e ∈ cyclicPairs ps, OnSeg e.1 e.2 q :=
    fun q => h.poly_iff fun ps qs hs => hs.on q
  unfold Visible
  constructor
  · intro k ps hps e he q hq on
    obtain ⟨ps', hps', e', he', on'⟩ := (key q).2 ⟨ps, hps, e, he, on⟩
    exact k ps' hps' e' he' q hq on'
  · intro k ps hps e he q hq on
    obtain ⟨ps', hps', e', he', on'⟩ := (key q).1 ⟨ps, hps, e, he, on⟩
    exact k ps' hps' e' he' q hq on'

end SameOutline

theorem SameInput.outline {D D' : Type} {poly : Source D} {ops : List (BuildOp D)} {poly' : Source D'} {ops' : List (BuildOp D')}
    (h : SameInput poly ops poly' ops') : SameOutline poly ops poly' ops' := ⟨h.polygon, h.holes, h.holes'⟩

theorem mem_extraPoints {D : Type} {ops : List (BuildOp D)} (p : Point) :
    p ∈ extraPoints ops ↔ (∃ ps ∈ holesOf ops, p ∈ ps) ∨ p ∈ steinersOf ops := by
  unfold extraPoints
  simp only [allPoints, holesOf, steinersOf, List.mem_flatMap]
  constructor
  · rintro ⟨pc, ⟨o, ho, hpc⟩, hp⟩
    cases o with
    | steinerPoint x d => simp [BuildOp.pieces] at hpc; subst hpc; exact .inr ⟨_, ho, by simpa [BuildOp.steinerPts, Piece.pts] using hp⟩
    | steinerPoints s => simp [BuildOp.pieces] at hpc; subst hpc; exact .inr ⟨_, ho, by simpa [BuildOp.steinerPts, Piece.pts] using hp⟩
    | hole s => simp [BuildOp.pieces] at hpc; subst hpc; exact .inl ⟨s.points, ⟨_, ho, by simp [BuildOp.holePts]⟩, by simpa [Piece.pts] using hp⟩
    | holes ss =>
      simp only [BuildOp.pieces, List.mem_map] at hpc
      obtain ⟨s, hs, rfl⟩ := hpc
      exact .inl ⟨s.points, ⟨_, ho, by simp only [BuildOp.holePts, List.mem_map]; exact ⟨s, hs, rfl⟩⟩, hp⟩
  · rintro (⟨ps, ⟨o, ho, hps⟩, hp⟩ | ⟨o, ho, hp⟩)
    · cases o with
      | steinerPoint x d => simp [BuildOp.holePts] at hps
      | steinerPoints s => simp [BuildOp.holePts] at hps
      | hole s => simp [BuildOp.holePts] at hps; subst hps; exact ⟨.polyline s.points, ⟨_, ho, by simp [BuildOp.pieces]⟩, hp⟩
      | holes ss =>
        simp only [BuildOp.holePts, List.mem_map] at hps
        obtain ⟨s, hs, rfl⟩ := hps
        exact ⟨.polyline s.points, ⟨_, ho, by simp only [BuildOp.pieces, List.mem_map]; exact ⟨s, hs, rfl⟩⟩, hp⟩
    · cases o with
      | steinerPoint x d => exact ⟨.steiner [x], ⟨_, ho, by simp [BuildOp.pieces]⟩, by simpa [BuildOp.steinerPts, Piece.pts] using hp⟩
      | steinerPoints s => exact ⟨.steiner s.points, ⟨_, ho, by simp [BuildOp.pieces]⟩, by simpa [BuildOp.steinerPts, Piece.pts] using hp⟩
      | hole s => simp [BuildOp.steinerPts] at hp
      | holes ss => simp [BuildOp.steinerPts] at hp

theorem mem_allPoints {D : Type} {poly : Source D} {ops : List (BuildOp D)} (p : Point) :
    p ∈ allPoints (piecesOf poly ops) ↔ (∃ ps ∈ poly.points :: holesOf ops, p ∈ ps) ∨ p ∈ steinersOf ops := by
  have e : allPoints (piecesOf poly ops) = poly.points ++ extraPoints ops := by simp [allPoints, piecesOf, Piece.pts, extraPoints]
  rw [e, List.mem_append, mem_extraPoints]
  simp only [List.mem_cons, exists_eq_or_imp, or_assoc]

theorem SameInput.points {D D' : Type} {poly : Source D} {ops : List (BuildOp D)} {poly' : Source D'} {ops' : List (BuildOp D')}
    (h : SameInput poly ops poly' ops') (p : Point) : p ∈ allPoints (piecesOf poly ops) ↔ p ∈ allPoints (piecesOf poly' ops') := by
  rw [mem_allPoints, mem_allPoints, h.steiner p, h.outline.poly_iff (Q := fun ps => p ∈ ps) fun ps qs hs => hs.mem p]

theorem SameClosed.symm {ps qs : List Point} (h : SameClosed ps qs) : SameClosed qs ps := by
  obtain ⟨a, b, rfl, rfl | rfl⟩ := h
  · exact ⟨b, a, rfl, .inl rfl⟩
  · exact ⟨a.reverse, b.reverse, by simp, .inr (by simp)⟩

theorem SameClosed.length {ps qs : List Point} (h : SameClosed ps qs) : ps.length = qs.length := by
  obtain ⟨a, b, rfl, rfl | rfl⟩ := h <;> simp [Nat.add_comm]

theorem SameClosed.strict {ps qs : List Point} (h : SameClosed ps qs) {q : Point} (k : StrictlyInside ps q) : StrictlyInside qs q := by
  refine ⟨(h.inside q).1 k.1, fun x hx on => ?_⟩
  obtain ⟨e, he, on'⟩ := (h.on q).2 ⟨x, hx, on⟩
  exact k.2 e he on'

theorem SameInput.symm {D D' : Type} {poly : Source D} {ops : List (BuildOp D)} {poly' : Source D'} {ops' : List (BuildOp D')}
    (h : SameInput poly ops poly' ops') : SameInput poly' ops' poly ops :=
  ⟨h.polygon.symm, fun H hH => by obtain ⟨H', k1, k2⟩ := h.holes' H hH; exact ⟨H', k1, k2.symm⟩,
    fun H hH => by obtain ⟨H', k1, k2⟩ := h.holes H hH; exact ⟨H', k1, k2.symm⟩, fun p => (h.steiner p).symm⟩

theorem SameInput.extra {D D' : Type} {poly : Source D} {ops : List (BuildOp D)} {poly' : Source D'} {ops' : List (BuildOp D')}
    (h : SameInput poly ops poly' ops') {p : Point} (hp : p ∈ extraPoints ops') : p ∈ extraPoints ops := by
  rw [mem_extraPoints] at hp ⊢
  rcases hp with ⟨ps, k, hp⟩ | hp
  · obtain ⟨H, k1, k2⟩ := h.holes' ps k
    exact .inl ⟨H, k1, (k2.mem p).2 hp⟩
  · exact .inr ((h.steiner p).2 hp)

/-! ## Circles -/

theorem det2_rotA (a b c : Point) : det2 b c a = det2 a b c := by unfold det2; ring
theorem det2_rotB (a b c : Point) : det2 c a b = det2 a b c := by unfold det2; ring

theorem IsAffine.coords {f : Point → Rat} (h : IsAffine f) : ∃ α β γ : Rat, ∀ p, f p = α * p.x + β * p.y + γ := by
  refine ⟨f ⟨1, 0⟩ - f ⟨0, 0⟩, f ⟨0, 1⟩ - f ⟨0, 0⟩, f ⟨0, 0⟩, fun p => ?_⟩
  have h1 := h (2 * p.x) ⟨0, 0⟩ ⟨1, 0⟩
  have h2 := h (2 * p.y) ⟨0, 0⟩ ⟨0, 1⟩
  have h3 := h (1 / 2) ⟨2 * p.x, 0⟩ ⟨0, 2 * p.y⟩
  have e1 : mix (2 * p.x) ⟨0, 0⟩ ⟨1, 0⟩ = ⟨2 * p.x, 0⟩ := by simp [mix]
  have e2 : mix (2 * p.y) ⟨0, 0⟩ ⟨0, 1⟩ = ⟨0, 2 * p.y⟩ := by simp [mix]
  have e3 : mix (1 / 2) ⟨2 * p.x, 0⟩ ⟨0, 2 * p.y⟩ = p := by
    obtain ⟨x, y⟩ := p
    simp only [mix, Point.mk.injEq]; constructor <;> ring
  rw [e1] at h1; rw [e2] at h2; rw [e3, h1, h2] at h3
  rw [h3]; ring

theorem IsAffine.bary {f : Point → Rat} (h : IsAffine f) (a b c X : Point) :
    det2 a b c * f X = det2 b c X * f a + det2 c a X * f b + det2 a b X * f c := by
  obtain ⟨α, β, γ, e⟩ := h.coords
  rw [e, e, e, e]; unfold det2; ring

/-- If two triangles overlap and no corner of one is strictly inside the circumcircle of the other, the circumcircles are equal. -/
theorem circles_equal {a b c a' b' c' X : Point} (hX : Inside a b c X) (hX' : Inside a' b' c' X) (hD : 0 < det2 a b c) (hD' : 0 < det2 a' b' c')
    (h1 : inCircleDet a b c a' ≤ 0) (h2 : inCircleDet a b c b' ≤ 0) (h3 : inCircleDet a b c c' ≤ 0)
    (k1 : inCircleDet a' b' c' a ≤ 0) (k2 : inCircleDet a' b' c' b ≤ 0) (k3 : inCircleDet a' b' c' c ≤ 0) :
    inCircleDet a' b' c' a = 0 ∧ inCircleDet a' b' c' b = 0 ∧ inCircleDet a' b' c' c = 0 := by
  have hf : IsAffine fun p => inCircleDet a b c p * det2 a' b' c' - inCircleDet a' b' c' p * det2 a b c := by
    intro s u v; simp only [inCircleDet, det2, mix]; ring
  have e1 := hf.bary a b c X
  have e2 := hf.bary a' b' c' X
  simp only [(incircle_same a b c).1, (incircle_same a b c).2.1, (incircle_same a b c).2.2, (incircle_same a' b' c').1, (incircle_same a' b' c').2.1,
    (incircle_same a' b' c').2.2, zero_mul, zero_sub, sub_zero] at e1 e2
  generalize hL : inCircleDet a b c X * det2 a' b' c' - inCircleDet a' b' c' X * det2 a b c = L at e1 e2
  obtain ⟨x1, x2, x3⟩ := hX
  obtain ⟨y1, y2, y3⟩ := hX'
  have p1 : 0 ≤ det2 b c X * -(inCircleDet a' b' c' a * det2 a b c) := mul_nonneg x2.le (neg_nonneg.2 (mul_nonpos_of_nonpos_of_nonneg k1 hD.le))
  have p2 : 0 ≤ det2 c a X * -(inCircleDet a' b' c' b * det2 a b c) := mul_nonneg x3.le (neg_nonneg.2 (mul_nonpos_of_nonpos_of_nonneg k2 hD.le))
  have p3 : 0 ≤ det2 a b X * -(inCircleDet a' b' c' c * det2 a b c) := mul_nonneg x1.le (neg_nonneg.2 (mul_nonpos_of_nonpos_of_nonneg k3 hD.le))
  have q1 : det2 b' c' X * (inCircleDet a b c a' * det2 a' b' c') ≤ 0 := mul_nonpos_of_nonneg_of_nonpos y2.le (mul_nonpos_of_nonpos_of_nonneg h1 hD'.le)
  have q2 : det2 c' a' X * (inCircleDet a b c b' * det2 a' b' c') ≤ 0 := mul_nonpos_of_nonneg_of_nonpos y3.le (mul_nonpos_of_nonpos_of_nonneg h2 hD'.le)
  have q3 : det2 a' b' X * (inCircleDet a b c c' * det2 a' b' c') ≤ 0 := mul_nonpos_of_nonneg_of_nonpos y1.le (mul_nonpos_of_nonpos_of_nonneg h3 hD'.le)
  have l1 : 0 ≤ L := by
    by_contra hc
    have := mul_neg_of_pos_of_neg hD (not_le.1 hc); linarith
  have l2 : L ≤ 0 := by
    by_contra hc
    have := mul_pos hD' (not_le.1 hc); linarith
  have l0 : L = 0 := le_antisymm l2 l1
  rw [l0, mul_zero] at e1
  have fin : ∀ {x y : Rat}, 0 < x → x * -(y * det2 a b c) = 0 → y = 0 := by
    intro x y hx e
    rcases mul_eq_zero.1 e with k | k
    · exact absurd k hx.ne'
    · rcases mul_eq_zero.1 (neg_eq_zero.1 k) with k | k
      · exact k
      · exact absurd k hD.ne'
  exact ⟨fin x2 (by linarith), fin x3 (by linarith), fin x1 (by linarith)⟩

/-- On the way from an inner point to a corner one stays inside. -/
theorem inside_toward {a b c X : Point} (hX : Inside a b c X) (hD : 0 < det2 a b c) {s : Rat} (h0 : 0 < s) (h1 : s < 1) : Inside a b c (mix s X a) := by
  obtain ⟨x1, x2, x3⟩ := hX
  have r : 0 < 1 - s := by linarith
  refine ⟨?_, ?_, ?_⟩
  · rw [det2_mix, (det2_same _ _).1]; have := mul_pos r x1; linarith
  · rw [det2_mix, det2_rotA a b c]; have := mul_pos r x2; have := mul_pos h0 hD; linarith
  · rw [det2_mix, (det2_same _ _).2.1]; have := mul_pos r x3; linarith

/-- The same three corners, both counter-clockwise. -/
theorem same_corners {a b c a' b' c' : Point} (hD : 0 < det2 a b c) (hD' : 0 < det2 a' b' c') (ha : a = a' ∨ a = b' ∨ a = c') (hb : b = a' ∨ b = b' ∨ b = c')
    (hc : c = a' ∨ c = b' ∨ c = c') : (a = a' ∧ b = b' ∧ c = c') ∨ (a = b' ∧ b = c' ∧ c = a') ∨ (a = c' ∧ b = a' ∧ c = b') := by
  have z1 := (det2_same a' b').1
  have bad : ∀ {x y z : Point}, 0 < det2 x y z → x ≠ y ∧ y ≠ z ∧ x ≠ z := by
    intro x y z h
    refine ⟨?_, ?_, ?_⟩ <;> rintro rfl
    · rw [(det2_same _ _).2.2] at h; exact lt_irrefl _ h
    · rw [(det2_same _ _).2.1] at h; exact lt_irrefl _ h
    · rw [(det2_same _ _).1] at h; exact lt_irrefl _ h
  obtain ⟨n1, n2, n3⟩ := bad hD
  have o1 : det2 a' c' b' = - det2 a' b' c' := by unfold det2; ring
  have o2 : det2 b' a' c' = - det2 a' b' c' := by unfold det2; ring
  have o3 : det2 c' b' a' = - det2 a' b' c' := by unfold det2; ring
  rcases ha with rfl | rfl | rfl <;> rcases hb with rfl | rfl | rfl <;> rcases hc with rfl | rfl | rfl <;> first
    | exact absurd rfl n1
    | exact absurd rfl n2
    | exact absurd rfl n3
    | exact .inl ⟨rfl, rfl, rfl⟩
    | exact .inr (.inl ⟨rfl, rfl, rfl⟩)
    | exact .inr (.inr ⟨rfl, rfl, rfl⟩)
    | (exfalso; linarith)

/-! ## Triangulations -/

/-- No edge of the polygon or of a hole passes through the inside of a listed triangle. -/
def EdgesClear {D} (poly : Source D) (ops : List (BuildOp D)) (all : List Point) (M : Store) (result : List Nat) : Prop :=
  ∀ i ∈ result, ∀ T, M[i]? = some T → ∀ q, T.Inside all q → ∀ ps ∈ poly.points :: holesOf ops, ∀ e ∈ cyclicPairs ps, ¬ OnSeg e.1 e.2 q

/-- What the theorem needs of a triangulation: nothing about the points on the edges of the input. -/
structure TriangulatesOff {D} (poly : Source D) (ops : List (BuildOp D)) (all : List Point) (M : Store) (result : List Nat) : Prop where
  proper : ∀ i ∈ result, ∃ T, M[i]? = some T ∧ 0 < area2 all T ∧ ∀ k, T.points.get k < (allPoints (piecesOf poly ops)).length
  inside : ∀ i ∈ result, ∀ T, M[i]? = some T → ∀ q, T.Inside all q → InRegion poly ops q
  covers : ∀ q, InRegion poly ops q → (∀ ps ∈ poly.points :: holesOf ops, ∀ e ∈ cyclicPairs ps, ¬ OnSeg e.1 e.2 q) → ∃ i ∈ result, ∃ T, M[i]? = some T ∧ T.InClosed all q

theorem TriangulatesRegion.off {D} {poly : Source D} {ops : List (BuildOp D)} {all : List Point} {M : Store} {result : List Nat}
    (R : TriangulatesRegion poly ops all M result) : TriangulatesOff poly ops all M result := ⟨R.proper, R.inside, fun q hq _ => R.covers q hq⟩

theorem cdt_unique' {D D' : Type} {poly : Source D} {ops : List (BuildOp D)} {poly' : Source D'} {ops' : List (BuildOp D')} {all all' : List Point} {M M' : Store}
    {res res' : List Nat} (h : SameOutline poly ops poly' ops')
    (hall : ∀ i, i < (allPoints (piecesOf poly ops)).length → ptOf all i ∈ allPoints (piecesOf poly ops))
    (mem : ∀ i ∈ res, ∀ T, M[i]? = some T → ∀ k, ptOf all (T.points.get k) ∈ allPoints (piecesOf poly' ops'))
    (mem' : ∀ i ∈ res', ∀ T, M'[i]? = some T → ∀ k, ptOf all' (T.points.get k) ∈ allPoints (piecesOf poly ops))
    {A : List Point} (memA : ∀ i ∈ res, ∀ T, M[i]? = some T → ∀ k, ptOf all (T.points.get k) ∈ A)
    (memA' : ∀ i ∈ res', ∀ T, M'[i]? = some T → ∀ k, ptOf all' (T.points.get k) ∈ A)
    (R : TriangulatesOff poly ops all M res) (R' : TriangulatesOff poly' ops' all' M' res')
    (C : ConstrainedDelaunay poly ops all M res) (C' : ConstrainedDelaunay poly' ops' all' M' res')
    (E : EdgesClear poly ops all M res) (E' : EdgesClear poly' ops' all' M' res')
    (nc : NoFourCocircular A) : TrianglesAmong all M res all' M' res' := by
  intro i hi T hT
  obtain ⟨_, e, hpos, hcor⟩ := R.proper i hi
  rw [hT] at e; cases e
  have hpos : 0 < det2 (ptOf all (T.points.get 0)) (ptOf all (T.points.get 1)) (ptOf all (T.points.get 2)) := hpos
  obtain ⟨X0, hX0, -⟩ := common_point hpos hpos
  -- a point off the lines of the other triangles
  obtain ⟨X, j1, j2⟩ := generic_point (res'.flatMap fun i => match M'[i]? with
      | none => []
      | some T' => [fun X => det2 (ptOf all' (T'.points.get 0)) (ptOf all' (T'.points.get 1)) X, fun X => det2 (ptOf all' (T'.points.get 1)) (ptOf all' (T'.points.get 2)) X,
          fun X => det2 (ptOf all' (T'.points.get 2)) (ptOf all' (T'.points.get 0)) X])
    [fun X => det2 (ptOf all (T.points.get 0)) (ptOf all (T.points.get 1)) X, fun X => det2 (ptOf all (T.points.get 1)) (ptOf all (T.points.get 2)) X,
          fun X => det2 (ptOf all (T.points.get 2)) (ptOf all (T.points.get 0)) X] X0 (by
      intro f hf
      simp only [List.mem_cons, List.not_mem_nil, or_false] at hf
      rcases hf with rfl | rfl | rfl
      · exact ⟨isAffine_det _ _, hX0.1⟩
      · exact ⟨isAffine_det _ _, hX0.2.1⟩
      · exact ⟨isAffine_det _ _, hX0.2.2⟩) (by
      intro f hf
      obtain ⟨i', hi', hf⟩ := List.mem_flatMap.1 hf
      obtain ⟨T', hT', hpos', -⟩ := R'.proper i' hi'
      rw [hT'] at hf
      simp only [List.mem_cons, List.not_mem_nil, or_false] at hf
      have hpos' : 0 < det2 (ptOf all' (T'.points.get 0)) (ptOf all' (T'.points.get 1)) (ptOf all' (T'.points.get 2)) := hpos'
      rcases hf with rfl | rfl | rfl
      · exact ⟨isAffine_det _ _, _, hpos'.ne'⟩
      · exact ⟨isAffine_det _ _, _, ((det2_rotA _ _ _).trans_ne hpos'.ne')⟩
      · exact ⟨isAffine_det _ _, _, ((det2_rotB _ _ _).trans_ne hpos'.ne')⟩)
  have hX : T.Inside all X := ⟨j1 (fun X => det2 (ptOf all (T.points.get 0)) (ptOf all (T.points.get 1)) X) (by simp),
    j1 (fun X => det2 (ptOf all (T.points.get 1)) (ptOf all (T.points.get 2)) X) (by simp), j1 (fun X => det2 (ptOf all (T.points.get 2)) (ptOf all (T.points.get 0)) X) (by simp)⟩
  have offX : ∀ ps ∈ poly'.points :: holesOf ops', ∀ e ∈ cyclicPairs ps, ¬ OnSeg e.1 e.2 X := by
    intro ps hps e he on
    obtain ⟨ps', hps', e', he', on'⟩ := (h.poly_iff (Q := fun ps => ∃ e ∈ cyclicPairs ps, OnSeg e.1 e.2 X) fun ps qs hs => hs.on X).2 ⟨ps, hps, e, he, on⟩
    exact E i hi T hT X hX ps' hps' e' he' on'
  obtain ⟨i', hi', T', hT', cl⟩ := R'.covers X ((h.region X).1 (R.inside i hi T hT X hX)) offX
  obtain ⟨_, e, hpos', hcor'⟩ := R'.proper i' hi'
  rw [hT'] at e; cases e
  have hpos' : 0 < det2 (ptOf all' (T'.points.get 0)) (ptOf all' (T'.points.get 1)) (ptOf all' (T'.points.get 2)) := hpos'
  have ne : ∀ f ∈ [fun X => det2 (ptOf all' (T'.points.get 0)) (ptOf all' (T'.points.get 1)) X, fun X => det2 (ptOf all' (T'.points.get 1)) (ptOf all' (T'.points.get 2)) X,
          fun X => det2 (ptOf all' (T'.points.get 2)) (ptOf all' (T'.points.get 0)) X], f X ≠ 0 := by
    intro f hf
    exact j2 f (List.mem_flatMap.2 ⟨i', hi', by rw [hT']; exact hf⟩)
  simp only [List.mem_cons, List.not_mem_nil, or_false, forall_eq_or_imp, forall_eq] at ne
  have hX' : T'.Inside all' X := ⟨lt_of_le_of_ne cl.1 ne.1.symm, lt_of_le_of_ne cl.2.1 ne.2.1.symm, lt_of_le_of_ne cl.2.2 ne.2.2.symm⟩
  -- the corners are visible
  have rot : ∀ {a b c Y : Point}, Inside a b c Y → Inside b c a Y := fun k => ⟨k.2.1, k.2.2, k.1⟩
  have see : ∀ k : Fin 3, ∀ s : Rat, 0 < s → s < 1 → T.Inside all (mix s X (ptOf all (T.points.get k))) := by
    intro k s s0 s1
    match k with
    | 0 => exact inside_toward hX hpos s0 s1
    | 1 => exact rot (rot (inside_toward (rot hX) (by rw [det2_rotA]; exact hpos) s0 s1))
    | 2 => exact rot (inside_toward (rot (rot hX)) (by rw [det2_rotB]; exact hpos) s0 s1)
  have see' : ∀ k : Fin 3, ∀ s : Rat, 0 < s → s < 1 → T'.Inside all' (mix s X (ptOf all' (T'.points.get k))) := by
    intro k s s0 s1
    match k with
    | 0 => exact inside_toward hX' hpos' s0 s1
    | 1 => exact rot (rot (inside_toward (rot hX') (by rw [det2_rotA]; exact hpos') s0 s1))
    | 2 => exact rot (inside_toward (rot (rot hX')) (by rw [det2_rotB]; exact hpos') s0 s1)
  have vis : ∀ k : Fin 3, Visible poly ops X (ptOf all (T.points.get k)) := by
    intro k ps hps e he q hq on
    obtain ⟨s, s0, s1, x, y⟩ := hq
    have eq : q = mix s X (ptOf all (T.points.get k)) := by obtain ⟨qx, qy⟩ := q; simp only [mix, Point.mk.injEq]; exact ⟨x, y⟩
    exact E i hi T hT q (by rw [eq]; exact see k s s0 s1) ps hps e he on
  have vis' : ∀ k : Fin 3, Visible poly' ops' X (ptOf all' (T'.points.get k)) := by
    intro k ps hps e he q hq on
    obtain ⟨s, s0, s1, x, y⟩ := hq
    have eq : q = mix s X (ptOf all' (T'.points.get k)) := by obtain ⟨qx, qy⟩ := q; simp only [mix, Point.mk.injEq]; exact ⟨x, y⟩
    exact E' i' hi' T' hT' q (by rw [eq]; exact see' k s s0 s1) ps hps e he on
  have m : ∀ k, ptOf all (T.points.get k) ∈ allPoints (piecesOf poly ops) := fun k => hall _ (hcor k)
  have m' : ∀ k, ptOf all' (T'.points.get k) ∈ allPoints (piecesOf poly ops) := fun k => mem' i' hi' T' hT' k
  have c1 : ∀ k, inCircleDet (ptOf all (T.points.get 0)) (ptOf all (T.points.get 1)) (ptOf all (T.points.get 2)) (ptOf all' (T'.points.get k)) ≤ 0 :=
    fun k => C i hi T hT X hX _ (m' k) ((h.visible _ _).2 (vis' k))
  have c2 : ∀ k, inCircleDet (ptOf all' (T'.points.get 0)) (ptOf all' (T'.points.get 1)) (ptOf all' (T'.points.get 2)) (ptOf all (T.points.get k)) ≤ 0 :=
    fun k => C' i' hi' T' hT' X hX' _ (mem i hi T hT k) ((h.visible _ _).1 (vis k))
  obtain ⟨z0, z1, z2⟩ := circles_equal hX hX' hpos hpos' (c1 0) (c1 1) (c1 2) (c2 0) (c2 1) (c2 2)
  have one : ∀ k, inCircleDet (ptOf all' (T'.points.get 0)) (ptOf all' (T'.points.get 1)) (ptOf all' (T'.points.get 2)) (ptOf all (T.points.get k)) = 0 →
      ptOf all (T.points.get k) = ptOf all' (T'.points.get 0) ∨ ptOf all (T.points.get k) = ptOf all' (T'.points.get 1) ∨
        ptOf all (T.points.get k) = ptOf all' (T'.points.get 2) := by
    intro k z
    by_contra hc
    push Not at hc
    exact nc _ (memA' i' hi' T' hT' 0) _ (memA' i' hi' T' hT' 1) _ (memA' i' hi' T' hT' 2) _ (memA i hi T hT k) hpos'.ne' hc.1 hc.2.1 hc.2.2 z
  refine ⟨i', hi', T', hT', ?_⟩
  rcases same_corners hpos hpos' (one 0 z0) (one 1 z1) (one 2 z2) with ⟨e1, e2, e3⟩ | ⟨e1, e2, e3⟩ | ⟨e1, e2, e3⟩
  · exact ⟨0, fun j => match j with | 0 => e1 | 1 => e2 | 2 => e3⟩
  · exact ⟨1, fun j => match j with | 0 => e1 | 1 => e2 | 2 => e3⟩
  · exact ⟨2, fun j => match j with | 0 => e1 | 1 => e2 | 2 => e3⟩

theorem cdt_unique {D D' : Type} {poly : Source D} {ops : List (BuildOp D)} {poly' : Source D'} {ops' : List (BuildOp D')} {all all' : List Point} {M M' : Store}
    {res res' : List Nat} (h : SameInput poly ops poly' ops')
    (hall : ∀ i, i < (allPoints (piecesOf poly ops)).length → ptOf all i ∈ allPoints (piecesOf poly ops))
    (hall' : ∀ i, i < (allPoints (piecesOf poly' ops')).length → ptOf all' i ∈ allPoints (piecesOf poly' ops'))
    (R : TriangulatesOff poly ops all M res) (R' : TriangulatesOff poly' ops' all' M' res')
    (C : ConstrainedDelaunay poly ops all M res) (C' : ConstrainedDelaunay poly' ops' all' M' res')
    (E : EdgesClear poly ops all M res) (E' : EdgesClear poly' ops' all' M' res')
    (nc : NoFourCocircular (allPoints (piecesOf poly ops))) : TrianglesAmong all M res all' M' res' := by
  have m : ∀ i ∈ res, ∀ T, M[i]? = some T → ∀ k, ptOf all (T.points.get k) ∈ allPoints (piecesOf poly ops) := by
    intro i hi T hT k
    obtain ⟨_, e, -, hcor⟩ := R.proper i hi
    rw [hT] at e; cases e
    exact hall _ (hcor k)
  have m' : ∀ i ∈ res', ∀ T, M'[i]? = some T → ∀ k, ptOf all' (T.points.get k) ∈ allPoints (piecesOf poly ops) := by
    intro i hi T hT k
    obtain ⟨_, e, -, hcor⟩ := R'.proper i hi
    rw [hT] at e; cases e
    exact (h.points _).2 (hall' _ (hcor k))
  exact cdt_unique' h.outline hall (fun i hi T hT k => (h.points _).1 (m i hi T hT k)) m' m m' R R' C C' E E' nc

end P2T
