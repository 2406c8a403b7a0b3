import Verif.Proofs.Jump
import Mathlib.Algebra.BigOperators.Ring.Finset

/-!
# Face values and boundary sums

Every polyline along mesh edges gives every triangle a value: its winding number around the triangle.  The differences of the values of
neighbours are known, so sums over triangles can be turned into sums along the polyline.
-/

namespace P2T

section
variable {P : Nat → Point} {size left right : Nat} {M : Store} {nodes : List Node}

theorem pairs_order : ∀ {l : List Point}, l.Pairwise (fun a b => a.x < b.x) → ∀ {x y}, x ∈ pairs l → y ∈ pairs l →
    x = y ∨ x.2.x ≤ y.1.x ∨ y.2.x ≤ x.1.x
  | [], _, x, y, hx, _ => by simp [pairs] at hx
  | [a], _, x, y, hx, _ => by simp [pairs] at hx
  | a :: b :: l, h, x, y, hx, hy => by
    have h' := (List.pairwise_cons.1 h).2
    have hb : ∀ z ∈ pairs (b :: l), b.x ≤ z.1.x := by
      intro z hz
      have : z.1 ∈ b :: l := (pairs_sub (b :: l)).subset (List.mem_map.2 ⟨_, hz, rfl⟩)
      rcases List.mem_cons.1 this with e | k
      · rw [e]
      · exact ((List.pairwise_cons.1 h').1 _ k).le
    rw [pairs_cons, List.mem_cons] at hx hy
    rcases hx with rfl | hx <;> rcases hy with rfl | hy
    · exact .inl rfl
    · exact .inr (.inl (hb _ hy))
    · exact .inr (.inr (hb _ hx))
    · exact pairs_order h' hx hy

/-- Strictly between the ends of a front edge, only this edge counts. -/
theorem under_edge {l : List Point} (hl : l.Pairwise fun a b => a.x < b.x) {a b z : Point} (hab : (a, b) ∈ pairs l) (h1 : a.x < z.x)
    (h2 : z.x < b.x) (hu : UnderChain l z) : det2 a b z < 0 := by
  obtain ⟨y, hy, k1, k2, k3⟩ := hu
  rcases pairs_order hl hab hy with e | e | e
  · rw [← e] at k3; exact k3
  · simp only at e; linarith
  · simp only at e; linarith

/-- If no triangle has points in an open region, no edge has. -/
theorem PlaneMesh.edge_avoids (hp : Strict P M) {fs : List (Point → Rat)} (ha : ∀ f ∈ fs, Affine f)
    (hB : ∀ T' ∈ M, ∀ z, In P T' z → ¬ ∀ f ∈ fs, 0 < f z) {u v : Nat} (he : MeshEdge M u v) {w : Point} (hw : OnSeg (P u) (P v) w) :
    ¬ ∀ f ∈ fs, 0 < f w := by
  intro k
  obtain ⟨T', hT', j, hz, -⟩ := he.on hw
  obtain ⟨g, hg, -⟩ := inside_off (hp.at hT' j) (show (⟨0, 0⟩ : Point) ≠ ⟨1, 0⟩ by decide)
  obtain ⟨δ, k0, k1⟩ := affine_small ha (z := w) (g := g) fun f hf => .inl (k f hf)
  exact hB T' hT' _ ((inside_at j).2 (toward (hp.at hT' j) hz hg (lt_min k0 one_pos) (min_le_right δ 1)))
    (k1 _ (lt_min k0 one_pos) (min_le_left _ _))

/-- The point of an edge over (or under) `q`. -/
theorem edge_at {u v q : Point} (h1 : u.x ≤ q.x) (h2 : q.x < v.x) : ∃ r, OnSeg u v r ∧ r.x = q.x ∧ det2 u v q = (v.x - u.x) * (q.y - r.y) ∧
    ∀ a b : Point, det2 a b r = det2 a b q + (b.x - a.x) * (r.y - q.y) := by
  have h3 : 0 < v.x - u.x := by linarith
  let t := (q.x - u.x) / (v.x - u.x)
  have t1 : t * (v.x - u.x) = q.x - u.x := div_mul_cancel₀ _ h3.ne'
  have ex : (lerp u v t).x = q.x := by simp only [lerp, t1]; ring
  refine ⟨lerp u v t, ⟨t, div_nonneg (by linarith) h3.le, by rw [div_le_one h3]; linarith, rfl, rfl⟩, ex, ?_, ?_⟩
  · have : det2 u v (lerp u v t) = 0 := by simp only [det2, lerp]; ring
    have e2 : det2 u v q = det2 u v (lerp u v t) + (v.x - u.x) * (q.y - (lerp u v t).y) + (v.y - u.y) * ((lerp u v t).x - q.x) := by
      simp only [det2]; ring
    rw [e2, this, ex]; ring
  · intro a b
    have e2 : det2 a b (lerp u v t) = det2 a b q + (b.x - a.x) * ((lerp u v t).y - q.y) - (b.y - a.y) * ((lerp u v t).x - q.x) := by
      simp only [det2]; ring
    rw [e2, ex]; ring

/-- Nothing winds around a point above a front edge. -/
theorem wind_above {L : List Nat} (hL : Along M L) {a b q : Point}
    (hB : ∀ u v, MeshEdge M u v → ∀ w, OnSeg (P u) (P v) w → ¬ (a.x < w.x ∧ w.x < b.x ∧ 0 < det2 a b w)) (h1 : a.x < q.x) (h2 : q.x < b.x)
    (h3 : 0 < det2 a b q) : wind P L q = 0 := by
  unfold wind
  refine List.sum_eq_zero fun y hy => ?_
  obtain ⟨x, hx, rfl⟩ := List.mem_map.1 hy
  have core : ∀ u v, MeshEdge M u v → ¬ ((P u).x ≤ q.x ∧ q.x < (P v).x ∧ det2 (P u) (P v) q < 0) := by
    rintro u v he ⟨k1, k2, k3⟩
    obtain ⟨r, r1, r2, r3, r4⟩ := edge_at k1 k2
    have hr : q.y < r.y := by
      rw [r3] at k3
      by_contra z
      have := mul_nonneg (show 0 ≤ (P v).x - (P u).x by linarith) (show 0 ≤ q.y - r.y by linarith)
      linarith
    refine hB u v he r r1 ⟨by rw [r2]; exact h1, by rw [r2]; exact h2, ?_⟩
    rw [r4]
    have := mul_pos (show 0 < b.x - a.x by linarith) (show 0 < r.y - q.y by linarith)
    linarith
  have he := hL x hx
  have he' : MeshEdge M x.2 x.1 := by
    obtain ⟨T, hT, i, k⟩ := he
    exact ⟨T, hT, i, k.symm⟩
  show cross q (P x.1) (P x.2) = 0
  unfold cross
  rw [if_neg (core _ _ he), if_neg (core _ _ he')]

/-- … and below the bottom edge. -/
theorem wind_below {L : List Nat} (hL : Along M L) {a b q : Point}
    (hB : ∀ u v, MeshEdge M u v → ∀ w, OnSeg (P u) (P v) w → ¬ (a.x < w.x ∧ w.x < b.x ∧ det2 a b w < 0)) (h1 : a.x < q.x) (h2 : q.x < b.x)
    (h3 : det2 a b q < 0) : wind P L q = 0 := by
  unfold wind
  let f : Nat → Rat := fun i => if (P i).x ≤ q.x then -1 else 0
  rw [← cyclic_sum f L]
  refine congrArg List.sum (List.map_congr_left fun x hx => ?_)
  have core : ∀ u v, MeshEdge M u v → (P u).x ≤ q.x → q.x < (P v).x → det2 (P u) (P v) q < 0 := by
    intro u v he k1 k2
    obtain ⟨r, r1, r2, r3, r4⟩ := edge_at k1 k2
    have hr : q.y < r.y := by
      by_contra z
      refine hB u v he r r1 ⟨by rw [r2]; exact h1, by rw [r2]; exact h2, ?_⟩
      rw [r4]
      have := mul_nonneg (show 0 ≤ b.x - a.x by linarith) (show 0 ≤ q.y - r.y by linarith)
      nlinarith
    rw [r3]
    exact mul_neg_of_pos_of_neg (by linarith) (by linarith)
  have he := hL x hx
  have he' : MeshEdge M x.2 x.1 := by
    obtain ⟨T, hT, i, k⟩ := he
    exact ⟨T, hT, i, k.symm⟩
  show cross q (P x.1) (P x.2) = f x.1 - f x.2
  unfold cross
  simp only [f]
  have c1 := core _ _ he
  have c2 := core _ _ he'
  by_cases k1 : (P x.1).x ≤ q.x <;> by_cases k2 : (P x.2).x ≤ q.x
  · rw [if_neg (fun z => absurd z.2.1 (not_lt.2 k2)), if_neg (fun z => absurd z.2.1 (not_lt.2 k1)), if_pos k1, if_pos k2]; ring
  · rw [if_pos ⟨k1, not_le.1 k2, c1 k1 (not_le.1 k2)⟩, if_pos k1, if_neg k2]; ring
  · rw [if_neg (fun z => k1 z.1), if_pos ⟨k2, not_le.1 k1, c2 k2 (not_le.1 k1)⟩, if_neg k1, if_pos k2]; ring
  · rw [if_neg (fun z => k1 z.1), if_neg (fun z => k2 z.1), if_neg k1, if_neg k2]; ring

def centroid (P : Nat → Point) (T : Tri) : Point :=
  ⟨((P (T.points.get 0)).x + (P (T.points.get 1)).x + (P (T.points.get 2)).x) / 3,
    ((P (T.points.get 0)).y + (P (T.points.get 1)).y + (P (T.points.get 2)).y) / 3⟩

theorem centroid_in (hp : Strict P M) {T : Tri} (hT : T ∈ M) : In P T (centroid P T) := by
  have h : 0 < det2 (P (T.points.get 0)) (P (T.points.get 1)) (P (T.points.get 2)) := hp T hT 0
  have e : ∀ (a b c : Point), det2 a b ⟨(a.x + b.x + c.x) / 3, (a.y + b.y + c.y) / 3⟩ = det2 a b c / 3 := by
    intro a b c; simp only [det2]; ring
  have e2 : ∀ (a b c : Point), det2 b c ⟨(a.x + b.x + c.x) / 3, (a.y + b.y + c.y) / 3⟩ = det2 a b c / 3 := by
    intro a b c; simp only [det2]; ring
  have e3 : ∀ (a b c : Point), det2 c a ⟨(a.x + b.x + c.x) / 3, (a.y + b.y + c.y) / 3⟩ = det2 a b c / 3 := by
    intro a b c; simp only [det2]; ring
  refine ⟨?_, ?_, ?_⟩
  · show 0 < det2 _ _ ⟨_, _⟩; rw [e]; linarith
  · show 0 < det2 _ _ ⟨_, _⟩; rw [e2]; linarith
  · show 0 < det2 _ _ ⟨_, _⟩; rw [e3]; linarith

/-- Values of the triangles whose jumps are the flow of the polyline. -/
structure Faces (M : Store) (L : List Nat) (F : Nat → Rat) : Prop where
  twin : ∀ t i x j T, Linked M t i x j → M[t]? = some T → F t - F x = flow L (T.from i) (T.to i)
  opn : ∀ t T i, M[t]? = some T → T.neighbors.get i = none → F t = flow L (T.from i) (T.to i)

theorem PlaneMesh.faces (h : PlaneMesh P size left right M nodes) (hp : Strict P M)
    (hlt : (nodes.map fun e => P e.pid).Pairwise fun a b => a.x < b.x) : ∃ F : List Nat → Nat → Rat, ∀ L, Along M L → Faces M L (F L) := by
  classical
  refine ⟨fun L t => wind P L (centroid P (M.getD t (Tri.new 0 0 0))), fun L hL => ?_⟩
  have val : ∀ {t T q}, M[t]? = some T → In P T q → wind P L (centroid P (M.getD t (Tri.new 0 0 0))) = wind P L q := by
    intro t T q hT hq
    have : M.getD t (Tri.new 0 0 0) = T := by rw [List.getD_eq_getElem?_getD, hT]; rfl
    rw [this]
    have hTm := List.mem_of_getElem? hT
    exact h.wind_inside hp hL hTm (centroid_in hp hTm) hq
  have dne : ∀ {T : Tri} (i : Fin 3), T ∈ M → T.from i ≠ T.to i := fun {T} i hT => h.cons.different T hT _ _ (by clear * -; revert i; decide)
  constructor
  · rintro t i x j T ⟨T1, X, h1, h2, h3, h4, h5, h6⟩ hT
    rw [h1] at hT; cases hT
    have hXm := List.mem_of_getElem? h2
    have hX := hp.at hXm j
    rw [← h5, ← h6] at hX
    obtain ⟨q, q', k1, k2, k3⟩ := h.jump hp h1 i (fs := [det2 (P (T.to i)) (P (T.from i)), det2 (P (T.from i)) (P (X.points.get j)),
        det2 (P (X.points.get j)) (P (T.to i))]) (by
      intro f hf
      simp only [List.mem_cons, List.not_mem_nil, or_false] at hf
      rcases hf with rfl | rfl | rfl <;> exact affine_det _ _) (by
      intro f hf
      simp only [List.mem_cons, List.not_mem_nil, or_false] at hf
      rcases hf with rfl | rfl | rfl
      · right; intro z; rw [det2_swap]
      · left
        have : det2 (P (T.from i)) (P (X.points.get j)) (lerp (P (T.from i)) (P (T.to i)) (1/2)) = det2 (P (T.to i)) (P (T.from i)) (P (X.points.get j)) / 2 := by
          simp only [det2, lerp]; ring
        rw [this]; linarith
      · left
        have : det2 (P (X.points.get j)) (P (T.to i)) (lerp (P (T.from i)) (P (T.to i)) (1/2)) = det2 (P (T.to i)) (P (T.from i)) (P (X.points.get j)) / 2 := by
          simp only [det2, lerp]; ring
        rw [this]; linarith) (by
      intro T' hT' z hz hf j' w hw
      have inX : ∀ z, (∀ f ∈ [det2 (P (T.to i)) (P (T.from i)), det2 (P (T.from i)) (P (X.points.get j)),
        det2 (P (X.points.get j)) (P (T.to i))], 0 < f z) ↔ In P X z := by
        intro z
        rw [In, inside_at j, ← h5, ← h6]
        simp only [List.mem_cons, List.not_mem_nil, or_false, forall_eq_or_imp, forall_eq]
        rfl
      rw [inX] at hf ⊢
      refine ⟨h.edge_outside hp hXm hT' hw, ?_⟩
      rintro rfl
      obtain ⟨t', ht'⟩ := List.mem_iff_getElem?.1 hT'
      have e := h.disjoint h2 ht' hf hz
      subst e
      rw [h2] at ht'; cases ht'
      have eji : j' = j := by
        by_contra hne
        have c : j' = j + 1 ∨ j' = j + 2 := by clear * - hne; revert hne; revert j' j; decide
        have z0 := det2_on hw
        rcases c with c | c
        · have x1 : X.from j' = X.to j := by unfold Tri.from Tri.to; rw [c]; congr 1; clear * -; revert j; decide
          have x2 : X.to j' = X.points.get j := by unfold Tri.to; rw [c]; congr 1; clear * -; revert j; decide
          rw [x1, x2, ← h5] at z0
          have : det2 (P (T.from i)) (P (X.points.get j)) (lerp (P (T.from i)) (P (T.to i)) (1/2)) = det2 (P (T.to i)) (P (T.from i)) (P (X.points.get j)) / 2 := by
            simp only [det2, lerp]; ring
          rw [this] at z0; linarith
        · have x1 : X.from j' = X.points.get j := by unfold Tri.from; rw [c]; congr 1; clear * -; revert j; decide
          have x2 : X.to j' = X.from j := by unfold Tri.from Tri.to; rw [c]; congr 1; clear * -; revert j; decide
          rw [x1, x2, ← h6] at z0
          have : det2 (P (X.points.get j)) (P (T.to i)) (lerp (P (T.from i)) (P (T.to i)) (1/2)) = det2 (P (T.to i)) (P (T.from i)) (P (X.points.get j)) / 2 := by
            simp only [det2, lerp]; ring
          rw [this] at z0; linarith
      rw [eji]; exact ⟨h6.symm, h5.symm⟩) (dne i (List.mem_of_getElem? h1))
    have hq' : In P X q' := by
      rw [In, inside_at j, ← h5, ← h6]
      simp only [List.mem_cons, List.not_mem_nil, or_false, forall_eq_or_imp, forall_eq] at k2
      exact k2
    show wind P L (centroid P (M.getD t (Tri.new 0 0 0))) - wind P L (centroid P (M.getD x (Tri.new 0 0 0))) = _
    rw [val h1 k1, val h2 hq', k3 L hL]
  · intro t T i hT hn
    have hTm := List.mem_of_getElem? hT
    show wind P L (centroid P (M.getD t (Tri.new 0 0 0))) = _
    have mx : (lerp (P (T.from i)) (P (T.to i)) (1/2)).x = ((P (T.from i)).x + (P (T.to i)).x) / 2 := by simp only [lerp]; ring
    rcases h.bd.only T hTm i hn with ⟨e1, e2⟩ | ⟨a, b, hab, e1, e2⟩
    · have flat := h.flat
      have hB : ∀ T' ∈ M, ∀ z, In P T' z → ¬ ∀ f ∈ [(fun z : Point => z.x - (P left).x), (fun z : Point => (P right).x - z.x), (fun z => - det2 (P left) (P right) z)], 0 < f z := by
        intro T' hT' z hz k
        simp only [List.mem_cons, List.not_mem_nil, or_false, forall_eq_or_imp, forall_eq] at k
        exact (h.inside hT' hz).2 ⟨by linarith [k.1], by linarith [k.2.1], by linarith [k.2.2]⟩
      have ha : ∀ f ∈ [(fun z : Point => z.x - (P left).x), (fun z : Point => (P right).x - z.x), (fun z => - det2 (P left) (P right) z)], Affine f := by
        intro f hf
        simp only [List.mem_cons, List.not_mem_nil, or_false] at hf
        rcases hf with rfl | rfl | rfl
        · exact affine_x _
        · exact affine_x' _
        · exact affine_neg (affine_det _ _)
      obtain ⟨q, q', k1, k2, k3⟩ := h.jump hp hT i ha (by
        intro f hf
        simp only [List.mem_cons, List.not_mem_nil, or_false] at hf
        rw [e1, e2] at mx
        rw [e1, e2]
        rcases hf with rfl | rfl | rfl
        · left; simp only [mx]; linarith
        · left; simp only [mx]; linarith
        · right; intro z; rfl) (fun T' hT' z hz k => absurd k (hB T' hT' z hz)) (dne i hTm)
      simp only [List.mem_cons, List.not_mem_nil, or_false, forall_eq_or_imp, forall_eq] at k2
      have w0 : wind P L q' = 0 := by
        refine wind_below (a := P left) (b := P right) hL ?_ (by linarith [k2.1]) (by linarith [k2.2.1]) (by linarith [k2.2.2])
        rintro u v he w hw ⟨y1, y2, y3⟩
        refine PlaneMesh.edge_avoids hp ha hB he hw ?_
        simp only [List.mem_cons, List.not_mem_nil, or_false, forall_eq_or_imp, forall_eq]
        exact ⟨by linarith, by linarith, by linarith⟩
      rw [val hT k1, ← k3 L hL, w0, sub_zero]
    · have hpr : (P a.pid, P b.pid) ∈ pairs (nodes.map fun e => P e.pid) := by
        rw [pairs_map]; exact List.mem_map.2 ⟨(a, b), mem_pairs.2 hab, rfl⟩
      have hx : (P a.pid).x < (P b.pid).x := by
        obtain ⟨A, B, e⟩ := hab
        rw [e, List.map_append, List.pairwise_append] at hlt
        have := hlt.2.1
        rw [List.map_cons, List.map_cons, List.pairwise_cons] at this
        exact this.1 _ (by simp)
      have hB : ∀ T' ∈ M, ∀ z, In P T' z → ¬ ∀ f ∈ [(fun z : Point => z.x - (P a.pid).x), (fun z : Point => (P b.pid).x - z.x), det2 (P a.pid) (P b.pid)], 0 < f z := by
        intro T' hT' z hz k
        simp only [List.mem_cons, List.not_mem_nil, or_false, forall_eq_or_imp, forall_eq] at k
        have := under_edge hlt hpr (by linarith [k.1]) (by linarith [k.2.1]) (h.inside hT' hz).1
        linarith [k.2.2]
      have ha : ∀ f ∈ [(fun z : Point => z.x - (P a.pid).x), (fun z : Point => (P b.pid).x - z.x), det2 (P a.pid) (P b.pid)], Affine f := by
        intro f hf
        simp only [List.mem_cons, List.not_mem_nil, or_false] at hf
        rcases hf with rfl | rfl | rfl
        · exact affine_x _
        · exact affine_x' _
        · exact affine_det _ _
      obtain ⟨q, q', k1, k2, k3⟩ := h.jump hp hT i ha (by
        intro f hf
        simp only [List.mem_cons, List.not_mem_nil, or_false] at hf
        rw [e1, e2] at mx
        rw [e1, e2]
        rcases hf with rfl | rfl | rfl
        · left; simp only [mx]; linarith
        · left; simp only [mx]; linarith
        · right; intro z; rw [det2_swap]) (fun T' hT' z hz k => absurd k (hB T' hT' z hz)) (dne i hTm)
      simp only [List.mem_cons, List.not_mem_nil, or_false, forall_eq_or_imp, forall_eq] at k2
      have w0 : wind P L q' = 0 := by
        refine wind_above (a := P a.pid) (b := P b.pid) hL ?_ (by linarith [k2.1]) (by linarith [k2.2.1]) (by linarith [k2.2.2])
        rintro u v he w hw ⟨y1, y2, y3⟩
        refine PlaneMesh.edge_avoids hp ha hB he hw ?_
        simp only [List.mem_cons, List.not_mem_nil, or_false, forall_eq_or_imp, forall_eq]
        exact ⟨by linarith, by linarith, by linarith⟩
      rw [val hT k1, ← k3 L hL, w0, sub_zero]

end

end P2T
