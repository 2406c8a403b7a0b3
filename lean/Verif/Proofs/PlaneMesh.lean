import Verif.Proofs.Perturb

/-!
# Meshes under a front, as sets in the plane
-/

namespace P2T

section
variable {all : List Point} {left right : Nat} {M : Store} {nodes : List Node}

theorem FrontChain.nodup (hf : FrontChain all left right nodes) : (nodes.map (·.pid)).Nodup := by
  rw [List.Nodup, List.pairwise_map]
  refine List.Pairwise.imp_of_mem ?_ hf.increasing
  intro a b ha hb hab e
  rw [(hf.known a ha).2, (hf.known b hb).2, e] at hab
  exact keyLt_irrefl _ hab

theorem FrontChain.lr (hf : FrontChain all left right nodes) (flat : (ptOf all left).x < (ptOf all right).x) :
    ∀ a b, Consecutive nodes a b → ¬ (b.pid = left ∧ a.pid = right) := by
  rintro a b ⟨L, R, e⟩ ⟨h1, h2⟩
  have ha : a ∈ nodes := by rw [e]; simp
  have hb : b ∈ nodes := by rw [e]; simp
  have := hf.increasing
  rw [e, List.pairwise_append] at this
  have hab := (List.pairwise_cons.1 this.2.1).1 b (by simp)
  rw [(hf.known a ha).2, (hf.known b hb).2, h1, h2] at hab
  rcases hab with hab | ⟨hab, -⟩ <;> linarith

theorem planeMesh_of (hc : Consistent all.length M) (ho : Oriented all M) (hb : Bounded left right M nodes)
    (hf : FrontChain all left right nodes) (flat : (ptOf all left).x < (ptOf all right).x) :
    PlaneMesh (ptOf all) all.length left right M nodes := by
  refine ⟨hc, hb, hf.nodup, hf.lr flat, fun T hT => WO.nonneg (ho T hT), ?_, flat⟩
  rw [List.pairwise_map]
  refine List.Pairwise.imp_of_mem ?_ hf.increasing
  intro a b ha hb hab
  rw [(hf.known a ha).2, (hf.known b hb).2] at hab
  rcases hab with hab | ⟨hab, -⟩
  · exact hab.le
  · exact le_of_eq hab

/-- The same mesh with all triangles strictly counter-clockwise. -/
theorem strictMeshW (hc : Consistent all.length M) (ho : Oriented all M) (hb : Bounded left right M nodes)
    (hf : FrontChain all left right nodes) (flat : (ptOf all left).x < (ptOf all right).x) :
    ∃ P, PlaneMesh P all.length left right M nodes ∧
      (∀ T ∈ M, ∀ i, 0 < det2 (P (T.points.get i)) (P (T.from i)) (P (T.to i))) ∧
      (∀ i j k, i < all.length → j < all.length → k < all.length → WO (ptOf all i) (ptOf all j) (ptOf all k) →
        0 < det2 (P i) (P j) (P k)) ∧
      ((nodes.map fun e => P e.pid).Pairwise fun a b => a.x < b.x) ∧
      ∀ i j, i < all.length → j < all.length → keyLt (ptOf all i) (ptOf all j) → (P i).x < (P j).x := by
  obtain ⟨P, h1, h2⟩ := exists_strict (ptOf all) all.length
  have hp : ∀ T ∈ M, ∀ i, 0 < det2 (P (T.points.get i)) (P (T.from i)) (P (T.to i)) := by
    intro T hT i
    have hw : WO (ptOf all (T.points.get 0)) (ptOf all (T.points.get 1)) (ptOf all (T.points.get 2)) := ho T hT
    have := h2 _ _ _ (hc.corners T hT 0) (hc.corners T hT 1) (hc.corners T hT 2) hw
    match i with
    | 0 => exact this
    | 1 => show 0 < det2 (P (T.points.get 1)) (P (T.points.get 2)) (P (T.points.get 0)); rw [det2_rot]; exact this
    | 2 => show 0 < det2 (P (T.points.get 2)) (P (T.points.get 0)) (P (T.points.get 1)); rw [det2_rot, det2_rot]; exact this
  have hlt : (nodes.map fun e => P e.pid).Pairwise fun a b => a.x < b.x := by
    rw [List.pairwise_map]
    refine List.Pairwise.imp_of_mem ?_ hf.increasing
    intro a b ha hb hab
    have ka := hf.known a ha
    have kb := hf.known b hb
    rw [ka.2, kb.2] at hab
    exact h1 _ _ ka.1 kb.1 hab
  refine ⟨P, ⟨hc, hb, hf.nodup, hf.lr flat, fun T hT => (hp T hT 0).le, hlt.imp (fun k => le_of_lt k), ?_⟩, hp,
    h2, hlt, h1⟩
  · obtain ⟨e, l, q1, q2⟩ := hf.first
    obtain ⟨e', l', q3, q4⟩ := hf.last
    have k1 := hf.known e (by rw [q1]; simp)
    have k2 := hf.known e' (by rw [q3]; simp)
    rw [q2] at k1; rw [q4] at k2
    exact h1 _ _ k1.1 k2.1 (.inl flat)

theorem strictMesh' (hc : Consistent all.length M) (ho : Oriented all M) (hb : Bounded left right M nodes)
    (hf : FrontChain all left right nodes) (flat : (ptOf all left).x < (ptOf all right).x) :
    ∃ P, PlaneMesh P all.length left right M nodes ∧
      (∀ T ∈ M, ∀ i, 0 < det2 (P (T.points.get i)) (P (T.from i)) (P (T.to i))) ∧
      (∀ i j k, i < all.length → j < all.length → k < all.length → 0 < det2 (ptOf all i) (ptOf all j) (ptOf all k) →
        0 < det2 (P i) (P j) (P k)) ∧
      ((nodes.map fun e => P e.pid).Pairwise fun a b => a.x < b.x) ∧
      ∀ i j, i < all.length → j < all.length → keyLt (ptOf all i) (ptOf all j) → (P i).x < (P j).x := by
  obtain ⟨P, h1, h2, h3, h4, h5⟩ := strictMeshW hc ho hb hf flat
  exact ⟨P, h1, h2, fun i j k hi hj hk h => h3 i j k hi hj hk (.inl h), h4, h5⟩

theorem strictMesh (hc : Consistent all.length M) (ho : Oriented all M) (hb : Bounded left right M nodes)
    (hf : FrontChain all left right nodes) (flat : (ptOf all left).x < (ptOf all right).x) :
    ∃ P, PlaneMesh P all.length left right M nodes ∧
      (∀ T ∈ M, ∀ i, 0 < det2 (P (T.points.get i)) (P (T.from i)) (P (T.to i))) ∧
      (∀ i j k, i < all.length → j < all.length → k < all.length → 0 < det2 (ptOf all i) (ptOf all j) (ptOf all k) →
        0 < det2 (P i) (P j) (P k)) := by
  obtain ⟨P, h1, h2, h3, -⟩ := strictMesh' hc ho hb hf flat
  exact ⟨P, h1, h2, h3⟩

theorem Inside.rot {a b c q : Point} (h : Inside a b c q) : Inside b c a q := ⟨h.2.1, h.2.2, h.1⟩

theorem inside_at {P : Nat → Point} {T : Tri} {q : Point} (i : Fin 3) :
    Inside (P (T.points.get 0)) (P (T.points.get 1)) (P (T.points.get 2)) q ↔ Inside (P (T.from i)) (P (T.to i)) (P (T.points.get i)) q := by
  match i with
  | 0 => exact ⟨fun h => h.rot, fun h => h.rot.rot⟩
  | 1 => exact ⟨fun h => h.rot.rot, fun h => h.rot⟩
  | 2 => exact Iff.rfl

variable {P : Nat → Point} {size : Nat}

/-- A directed edge belongs to one triangle. -/
theorem PlaneMesh.edge_once (h : PlaneMesh P size left right M nodes)
    (hp : ∀ T ∈ M, ∀ i, 0 < det2 (P (T.points.get i)) (P (T.from i)) (P (T.to i))) {t t' : Nat} {T T' : Tri} (hT : M[t]? = some T)
    (hT' : M[t']? = some T') (hs : ShareDirected T T') : t = t' := by
  obtain ⟨i, j, h1, h2⟩ := hs
  have a := hp T (List.mem_of_getElem? hT) i
  have b := hp T' (List.mem_of_getElem? hT') j
  rw [← det2_rot] at a b
  rw [← h1, ← h2] at b
  obtain ⟨q, q1, q2⟩ := common_point a b
  refine h.disjoint hT hT' ((inside_at i).2 q1) ((inside_at j).2 ?_)
  rw [← h1, ← h2]; exact q2

/-- No corner is inside a triangle. -/
theorem PlaneMesh.no_corner (h : PlaneMesh P size left right M nodes)
    (hp : ∀ T ∈ M, ∀ i, 0 < det2 (P (T.points.get i)) (P (T.from i)) (P (T.to i))) {T T' : Tri} (hT : T ∈ M)
    (hT' : T' ∈ M) (i : Fin 3) : ¬ Inside (P (T.points.get 0)) (P (T.points.get 1)) (P (T.points.get 2)) (P (T'.points.get i)) := by
  intro k
  obtain ⟨q, q1, q2⟩ := corner_overlap k (hp T' hT' i)
  obtain ⟨t, ht⟩ := List.mem_iff_getElem?.1 hT
  obtain ⟨t', ht'⟩ := List.mem_iff_getElem?.1 hT'
  have := h.disjoint ht ht' q1 ((inside_at i).2 q2.rot)
  subst this
  rw [ht] at ht'; cases ht'
  have z : ∀ a b : Point, det2 a b a = 0 ∧ det2 a b b = 0 := by intro a b; constructor <;> (unfold det2; ring)
  obtain ⟨k1, k2, k3⟩ := k
  match i with
  | 0 => rw [(z _ _).1] at k1; exact lt_irrefl _ k1
  | 1 => rw [(z _ _).2] at k1; exact lt_irrefl _ k1
  | 2 => rw [(z _ _).2] at k2; exact lt_irrefl _ k2

/-- No two edges cross. -/
theorem PlaneMesh.no_cross (h : PlaneMesh P size left right M nodes)
    (hp : ∀ T ∈ M, ∀ i, 0 < det2 (P (T.points.get i)) (P (T.from i)) (P (T.to i))) {T T' : Tri} (hT : T ∈ M)
    (hT' : T' ∈ M) (i j : Fin 3) : ¬ ProperCross (P (T.from i)) (P (T.to i)) (P (T'.from j)) (P (T'.to j)) := by
  have key : ∀ {T T' : Tri}, T ∈ M → T' ∈ M → ∀ i j : Fin 3, det2 (P (T.from i)) (P (T.to i)) (P (T'.from j)) < 0 →
      0 < det2 (P (T.from i)) (P (T.to i)) (P (T'.to j)) → 0 < det2 (P (T'.from j)) (P (T'.to j)) (P (T.from i)) →
      det2 (P (T'.from j)) (P (T'.to j)) (P (T.to i)) < 0 → False := by
    intro T T' hT hT' i j h1 h2 h3 h4
    have a := hp T hT i
    have b := hp T' hT' j
    rw [← det2_rot] at a b
    obtain ⟨q, q1, q2⟩ := crossing_overlap a b h1 h2 h3 h4
    obtain ⟨t, ht⟩ := List.mem_iff_getElem?.1 hT
    obtain ⟨t', ht'⟩ := List.mem_iff_getElem?.1 hT'
    have := h.disjoint ht ht' ((inside_at i).2 q1) ((inside_at j).2 q2)
    subst this
    rw [ht] at ht'; cases ht'
    -- the start of the second edge is not to the right of the first
    have z : ∀ a b : Point, det2 a b a = 0 ∧ det2 a b b = 0 := by intro a b; constructor <;> (unfold det2; ring)
    have c : j + 1 = i + 1 ∨ j + 1 = i + 2 ∨ j + 1 = i := by clear * -; revert i j; decide
    unfold Tri.from Tri.to at *
    rcases c with c | c | c
    · rw [c, (z _ _).1] at h1; exact lt_irrefl _ h1
    · rw [c, (z _ _).2] at h1; exact lt_irrefl _ h1
    · rw [c] at h1
      exact lt_asymm a h1
  intro ⟨k1, k2⟩
  have hid : det2 (P (T.from i)) (P (T.to i)) (P (T'.to j)) - det2 (P (T.from i)) (P (T.to i)) (P (T'.from j)) =
      det2 (P (T'.from j)) (P (T'.to j)) (P (T.from i)) - det2 (P (T'.from j)) (P (T'.to j)) (P (T.to i)) := by unfold det2; ring
  rcases mul_neg_iff.1 k1 with ⟨a, b⟩ | ⟨a, b⟩ <;> rcases mul_neg_iff.1 k2 with ⟨a', b'⟩ | ⟨a', b'⟩
  · linarith
  · exact key hT' hT j i a' b' a b
  · exact key hT hT' i j a b a' b'
  · linarith

theorem inside_down {a b c q : Point} (h : Inside a b c q) : ∃ s : Rat, 0 < s ∧ Inside a b c ⟨q.x, q.y - s⟩ := by
  let κ : Point → Point → Rat := fun a b => - (b.x - a.x)
  have e1 : ∀ (a b : Point) (s : Rat), det2 a b ⟨q.x, q.y - s⟩ = det2 a b q + s * κ a b := by
    intro a b s; simp only [det2, κ]; ring
  obtain ⟨s, s0, s1⟩ := small' (l := [(det2 a b q, κ a b), (det2 b c q, κ b c), (det2 c a q, κ c a)])
    (by intro x hx; simp only [List.mem_cons, List.not_mem_nil, or_false] at hx; left; rcases hx with rfl | rfl | rfl
        · exact h.1
        · exact h.2.1
        · exact h.2.2)
  simp only [List.mem_cons, List.not_mem_nil, or_false, forall_eq_or_imp, forall_eq] at s1
  obtain ⟨t1, t2, t3⟩ := s1
  refine ⟨s, s0, ?_, ?_, ?_⟩ <;> rw [e1] <;> assumption

theorem underFront_iff (hf : FrontChain all left right nodes) {q : Point} :
    UnderFront nodes q ↔ UnderChain (nodes.map fun e => ptOf all e.pid) q := by
  have hk : (nodes.map fun e => ptOf all e.pid) = nodes.map (·.key) :=
    List.map_congr_left fun e he => (hf.known e he).2.symm
  rw [hk]
  unfold UnderFront UnderChain
  rw [pairs_map]
  simp only [List.mem_map, Prod.exists]
  constructor
  · rintro ⟨a, b, h1, h2⟩
    exact ⟨_, _, ⟨a, b, mem_pairs.2 h1, rfl⟩, h2⟩
  · rintro ⟨_, _, ⟨a, b, h1, e⟩, h2⟩
    cases e
    exact ⟨a, b, mem_pairs.1 h1, h2⟩

theorem UnderFront.range (hf : FrontChain all left right nodes) {q : Point} (h : UnderFront nodes q) :
    (ptOf all left).x ≤ q.x ∧ q.x < (ptOf all right).x := by
  obtain ⟨a, b, ⟨L, R, e⟩, h1, h2, -⟩ := h
  have ha : a ∈ nodes := by rw [e]; simp
  have hb : b ∈ nodes := by rw [e]; simp
  have wk : ∀ {x y : Node}, LexLt x.key y.key → x.key.x ≤ y.key.x := by
    rintro x y (k | ⟨k, -⟩)
    · exact k.le
    · exact le_of_eq k
  constructor
  · obtain ⟨f, l, q1, rfl⟩ := hf.first
    rw [← (hf.known f (by rw [q1]; simp)).2]
    have inc := hf.increasing
    rw [q1] at ha inc
    rcases List.mem_cons.1 ha with rfl | ha
    · exact h1
    · exact (wk ((List.pairwise_cons.1 inc).1 a ha)).trans h1
  · obtain ⟨f, l, q1, rfl⟩ := hf.last
    rw [← (hf.known f (by rw [q1]; simp)).2]
    have inc := hf.increasing
    rw [q1] at hb inc
    rcases List.mem_append.1 hb with hb | hb
    · exact lt_of_lt_of_le h2 (wk ((List.pairwise_append.1 inc).2.2 b hb f (by simp)))
    · rw [List.mem_singleton] at hb; rw [← hb]; exact h2

theorem PlaneMesh.within (h : PlaneMesh (ptOf all) size left right M nodes) (hf : FrontChain all left right nodes) {q : Point} {T : Tri}
    (hT : T ∈ M) (k : T.Inside all q) : UnderFront nodes q ∧ AboveBottom all left right q := by
  refine ⟨(underFront_iff hf).2 (h.inside hT k).1, ?_⟩
  obtain ⟨s, s0, k'⟩ := inside_down k
  obtain ⟨u, d⟩ := h.inside hT k'
  have hr := UnderFront.range hf ((underFront_iff hf).2 u)
  have d' : 0 ≤ det2 (ptOf all left) (ptOf all right) ⟨q.x, q.y - s⟩ := by
    by_contra hd
    exact d ⟨hr.1, hr.2, not_le.1 hd⟩
  have e : det2 (ptOf all left) (ptOf all right) ⟨q.x, q.y - s⟩ = det2 (ptOf all left) (ptOf all right) q - s * ((ptOf all right).x - (ptOf all left).x) := by
    unfold det2; ring
  have : 0 < s * ((ptOf all right).x - (ptOf all left).x) := mul_pos s0 (by have := h.flat; linarith)
  unfold AboveBottom
  linarith

/-- The area under the front. -/
theorem PlaneMesh.area (h : PlaneMesh (ptOf all) size left right M nodes) (hf : FrontChain all left right nodes)
    (hy : (ptOf all left).y = (ptOf all right).y) : meshArea2 all M = areaUnder2 (ptOf all left).y nodes := by
  let H := (ptOf all left).y
  -- relative to height `H` the bottom contributes nothing
  let φ : Point → Point → Rat := fun u v => (u.x - v.x) * ((u.y - H) + (v.y - H))
  have e := h.sum φ (by intro u v; simp only [φ]; ring)
  have e0 : φ (ptOf all left) (ptOf all right) = 0 := by simp only [φ, H, ← hy]; ring
  rw [e0, zero_add] at e
  have e1 : meshArea2 all M = triSum (fun a b d => φ (ptOf all a) (ptOf all b) + φ (ptOf all b) (ptOf all d) + φ (ptOf all d) (ptOf all a)) M := by
    unfold meshArea2 triSum
    refine congrArg List.sum (List.map_congr_left fun T _ => ?_)
    simp only [area2, det2, φ, V3.get]; ring
  have hk : (nodes.map fun e => ptOf all e.pid) = nodes.map (·.key) :=
    List.map_congr_left fun e he => (hf.known e he).2.symm
  rw [e1, e, hk, pairs_map, List.map_map]
  refine congrArg List.sum (List.map_congr_left fun x _ => ?_)
  simp only [φ, H, Function.comp]; ring

end

end P2T
