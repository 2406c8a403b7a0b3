import Verif.Proofs.Nested

/-!
# Euler's formula for the inside of a closed polyline along the mesh

A polyline with `n` corners and `v` mesh corners inside has `n - 2 + 2 v` triangles inside.
-/

namespace P2T

/-- The sum along an open polyline. -/
def pathSum (f : Nat → Nat → Rat) (l : List Nat) : Rat := ((pairs l).map fun x => f x.1 x.2).sum

theorem pathSum_cons (f : Nat → Nat → Rat) (a b : Nat) (l : List Nat) : pathSum f (a :: b :: l) = f a b + pathSum f (b :: l) := by
  unfold pathSum; rw [pairs_cons]; simp

theorem pathSum_one (f : Nat → Nat → Rat) (a : Nat) : pathSum f [a] = 0 := by simp [pathSum, pairs]

theorem pathSum_split (f : Nat → Nat → Rat) (x : Nat) (b : List Nat) : ∀ a : List Nat, pathSum f (a ++ x :: b) = pathSum f (a ++ [x]) + pathSum f (x :: b)
  | [] => by rw [List.nil_append, List.nil_append, pathSum_one, zero_add]
  | [y] => by
    rw [List.singleton_append, List.singleton_append, pathSum_cons, pathSum_cons, pathSum_one]; ring
  | y :: z :: a => by
    have := pathSum_split f x b (z :: a)
    rw [List.cons_append, List.cons_append, List.cons_append, List.cons_append, pathSum_cons, pathSum_cons]
    rw [List.cons_append, List.cons_append] at this
    rw [this]; ring

theorem pairs_split (x : Nat) (b : List Nat) : ∀ a : List Nat, pairs (a ++ x :: b) = pairs (a ++ [x]) ++ pairs (x :: b)
  | [] => by simp [pairs]
  | [y] => by simp [pairs]
  | y :: z :: a => by
    have := pairs_split x b (z :: a)
    rw [List.cons_append, List.cons_append] at this
    rw [List.cons_append, List.cons_append, List.cons_append, List.cons_append, pairs_cons, pairs_cons, this, List.cons_append]

theorem cyclicSum (f : Nat → Nat → Rat) (a : Nat) (l : List Nat) : ((cyclicPairs (a :: l)).map fun x => f x.1 x.2).sum = pathSum f (a :: l ++ [a]) := by
  rw [cyclic_pairs]; rfl

/-- Cutting off a triangle. -/
theorem wind_cut (P : Nat → Point) (q : Point) (u v w : Nat) (r1 r2 : List Nat) :
    wind P (u :: v :: (r1 ++ w :: r2)) q = wind P (v :: (r1 ++ [w])) q + wind P (u :: w :: r2) q + wind P [u, v, w] q := by
  let f : Nat → Nat → Rat := fun a b => cross q (P a) (P b)
  have hf : ∀ a b, f b a = - f a b := fun a b => cross_swap _ _ _
  have e : ∀ a l, wind P (a :: l) q = pathSum f (a :: l ++ [a]) := fun a l => cyclicSum f a l
  rw [e, e, e, e]
  have e1 : pathSum f (u :: v :: (r1 ++ w :: r2) ++ [u]) = f u v + pathSum f (v :: r1 ++ [w]) + pathSum f (w :: r2 ++ [u]) := by
    have : u :: v :: (r1 ++ w :: r2) ++ [u] = u :: v :: (r1 ++ w :: (r2 ++ [u])) := by simp
    rw [this, pathSum_cons]
    have := pathSum_split f w (r2 ++ [u]) (v :: r1)
    rw [List.cons_append] at this
    rw [this]; simp only [List.cons_append]; ring
  have e2 : pathSum f (v :: (r1 ++ [w]) ++ [v]) = pathSum f (v :: r1 ++ [w]) + f w v := by
    have : v :: (r1 ++ [w]) ++ [v] = (v :: r1) ++ w :: [v] := by simp
    rw [this, pathSum_split, pathSum_cons, pathSum_one]; simp
  have e3 : pathSum f (u :: w :: r2 ++ [u]) = f u w + pathSum f (w :: r2 ++ [u]) := by
    rw [List.cons_append, List.cons_append, pathSum_cons]
  have e4 : pathSum f (u :: [v, w] ++ [u]) = f u v + f v w + f w u := by
    simp only [List.cons_append, List.nil_append, pathSum_cons, pathSum_one]; ring
  rw [e1, e2, e3, e4, hf v w, hf u w]; ring

/-- Adding a corner. -/
theorem wind_add (P : Nat → Point) (q : Point) (u v w : Nat) (r : List Nat) :
    wind P (u :: v :: r) q = wind P (u :: w :: v :: r) q + wind P [u, v, w] q := by
  let f : Nat → Nat → Rat := fun a b => cross q (P a) (P b)
  have hf : ∀ a b, f b a = - f a b := fun a b => cross_swap _ _ _
  have e : ∀ a l, wind P (a :: l) q = pathSum f (a :: l ++ [a]) := fun a l => cyclicSum f a l
  rw [e, e, e]
  simp only [List.cons_append, List.nil_append, pathSum_cons, pathSum_one]
  rw [hf v w, hf u w]; ring

theorem wind_two (P : Nat → Point) (q : Point) (u v : Nat) : wind P [u, v] q = 0 := by
  have : wind P [u, v] q = cross q (P u) (P v) + cross q (P v) (P u) := by simp [wind, cyclicPairs]
  rw [this, cross_swap q (P u) (P v)]; ring

/-- A mesh with the labels of all polylines along it. -/
structure Plane (P : Nat → Point) (size left right : Nat) (M : Store) (nodes : List Node) (F : List Nat → Nat → Rat) : Prop where
  mesh : PlaneMesh P size left right M nodes
  strict : Strict P M
  lt : (nodes.map fun e => P e.pid).Pairwise fun a b => a.x < b.x
  faces : ∀ L, Along M L → Faces M L (F L)

/-- A closed polyline along the mesh without repeated points (two points: there and back). -/
structure Loop (M : Store) (L : List Nat) : Prop where
  along : Along M L
  nodup : L.Nodup
  two : 2 ≤ L.length

open Classical in
/-- The triangles inside. -/
noncomputable def inF (M : Store) (F : List Nat → Nat → Rat) (L : List Nat) : Finset (Fin M.length) := Finset.univ.filter fun t => F L t ≠ 0

open Classical in
/-- The corners inside. -/
noncomputable def inV (size : Nat) (M : Store) (F : List Nat → Nat → Rat) (L : List Nat) : Finset Nat :=
  (Finset.range size).filter fun v => v ∉ L ∧ ∃ (t : Fin M.length) (i : Fin 3), M[t].points.get i = v ∧ F L t ≠ 0

namespace Plane
variable {P : Nat → Point} {size left right : Nat} {M : Store} {nodes : List Node} {F : List Nat → Nat → Rat}
  (h : Plane P size left right M nodes F)
include h

theorem planar {L : List Nat} (hL : Loop M L) (h3 : 3 ≤ L.length) : Planar P P size left right M nodes [L] F :=
  ⟨h.mesh, h.mesh, h.strict, h.lt, ⟨by simpa using hL.nodup, by simpa using h3⟩, by simpa using hL.along, by simpa using h.faces L hL.along⟩

/-- The label is the winding number. -/
theorem label {L : List Nat} (hL : Along M L) (t : Fin M.length) : F L t = wind P L (centroid P M[t]) := by
  have h0 : Planar P P size left right M nodes [] F := ⟨h.mesh, h.mesh, h.strict, h.lt, ⟨by simp, by simp⟩, by simp, by simp⟩
  have hφ : ∀ u v : Nat, cross (centroid P M[t]) (P v) (P u) = - cross (centroid P M[t]) (P u) (P v) := fun u v => cross_swap _ _ _
  have e2 := h.mesh.along_sum h.strict h.lt hL (fun u v => cross (centroid P M[t]) (P u) (P v)) hφ
  have e1 := stokes h.mesh.cons (F L) (fun u v => cross (centroid P M[t]) (P u) (P v)) hφ
  have e3 := h0.sum_at (F L) (h0.chi_centroid t)
  have e1' : ∑ t' : Fin M.length, F L t' * chiAt P (centroid P M[t]) M[t'] = ∑ k : HE M, k.wt * k.jump (F L) * cross (centroid P M[t]) (P k.src) (P k.dst) := e1
  rw [← e3, e1']
  unfold wind
  rw [← e2]
  refine Finset.sum_congr rfl fun k _ => ?_
  congr 2
  have hT : M[k.1.1]? = some M[k.1] := by simp
  unfold HE.jump
  cases hn : k.nbr with
  | none => simp only [sub_zero]; exact (h.faces L hL).opn k.1 M[k.1] k.2 hT hn
  | some x =>
    obtain ⟨-, j, hl⟩ := h.mesh.cons.linked k.1 M[k.1] k.2 x hT hn
    exact (h.faces L hL).twin k.1 k.2 x j _ hl hT

theorem jump_flow {L : List Nat} (hL : Along M L) (k : HE M) : k.jump (F L) = flow L k.src k.dst := by
  have hT : M[k.1.1]? = some M[k.1] := by simp
  unfold HE.jump
  cases hn : k.nbr with
  | none => simp only [sub_zero]; exact (h.faces L hL).opn k.1 M[k.1] k.2 hT hn
  | some x =>
    obtain ⟨-, j, hl⟩ := h.mesh.cons.linked k.1 M[k.1] k.2 x hT hn
    exact (h.faces L hL).twin k.1 k.2 x j _ hl hT

/-- Nothing is inside a polyline with two corners. -/
theorem two_zero {L : List Nat} (hL : Along M L) (h2 : L.length = 2) (t : Fin M.length) : F L t = 0 := by
  match L, h2 with
  | [u, v], _ => rw [h.label hL, wind_two]

/-- The values of the label. -/
theorem values {L : List Nat} (hL : Loop M L) : ∃ σ : Rat, (σ = 1 ∨ σ = -1) ∧ ∀ t : Fin M.length, F L t = σ ∨ F L t = 0 := by
  by_cases h3 : 3 ≤ L.length
  · obtain ⟨σ, h1, h2, -⟩ := (h.planar hL h3).jordan (L := L) (by simp)
    exact ⟨σ, h1, h2⟩
  · exact ⟨1, .inl rfl, fun t => .inr (h.two_zero hL.along (by have := hL.two; omega) t)⟩

theorem around {L : List Nat} (hL : Loop M L) {x : Nat} (hx : x ∉ L) {t t' : Fin M.length} {i i' : Fin 3} (ht : M[t].points.get i = x)
    (ht' : M[t'].points.get i' = x) : F L t = F L t' := by
  by_cases h3 : 3 ≤ L.length
  · exact (h.planar hL h3).around (L := L) (by simp) hx ht ht'
  · have e : L.length = 2 := by have := hL.two; omega
    rw [h.two_zero hL.along e, h.two_zero hL.along e]

/-- At every corner of the polyline there is a triangle inside. -/
theorem touch {L : List Nat} (hL : Loop M L) (h3 : 3 ≤ L.length) {x : Nat} (hx : x ∈ L) :
    ∃ (t : Fin M.length) (i : Fin 3), M[t].points.get i = x ∧ F L t ≠ 0 := by
  obtain ⟨y, hy⟩ := cyclic_next hx
  obtain ⟨k, hk⟩ := (h.planar hL h3).edge_jump (L := L) (by simp) hy
  have at1 : ∀ g : HE M, g.src = x ∨ g.dst = x → ∃ j : Fin 3, M[g.1].points.get j = x := by
    intro g hg
    rcases hg with e | e
    · exact ⟨_, e⟩
    · exact ⟨_, e⟩
  have kx : k.src = x ∨ k.dst = x := by rcases hk with ⟨⟨e, -⟩, -⟩ | ⟨⟨-, e⟩, -⟩; exacts [.inl e, .inr e]
  have kj : k.jump (F L) ≠ 0 := by rcases hk with ⟨-, e⟩ | ⟨-, e⟩ <;> rw [e] <;> norm_num
  by_cases hz : F L k.1 = 0
  · unfold HE.jump at kj
    cases hn : k.nbr with
    | none => rw [hn] at kj; simp [hz] at kj
    | some y =>
      obtain ⟨g, y1, -, -, y4, y5⟩ := HE.twin h.mesh.cons k (by rw [hn]; simp)
      rw [hn] at y1; cases y1
      obtain ⟨j, hj⟩ := at1 g (by rw [y4, y5]; exact kx.symm)
      refine ⟨g.1, j, hj, fun z => ?_⟩
      rw [hn] at kj
      simp only [hz, z, sub_zero] at kj
      exact kj rfl
  · obtain ⟨j, hj⟩ := at1 k kx
    exact ⟨k.1, j, hj, hz⟩

omit h in
/-- The triangle `t` has the corners `u v w`, counter-clockwise if `σ = 1` and clockwise if `σ = -1`. -/
def _root_.P2T.TriAt (M : Store) (σ : Rat) (t : Fin M.length) (u v w : Nat) : Prop :=
  (σ = 1 ∧ ∃ i, M[t].from i = u ∧ M[t].to i = v ∧ M[t].points.get i = w) ∨ (σ = -1 ∧ ∃ i, M[t].from i = v ∧ M[t].to i = u ∧ M[t].points.get i = w)

omit h in
theorem _root_.P2T.TriAt.edges {σ : Rat} {t : Fin M.length} {u v w : Nat} (hc : TriAt M σ t u v w) {a b : Nat} (hab : (a, b) ∈ [(u, v), (v, w), (w, u)]) :
    ∃ k : HE M, k.1 = t ∧ ((σ = 1 ∧ k.src = a ∧ k.dst = b) ∨ (σ = -1 ∧ k.src = b ∧ k.dst = a)) := by
  simp only [List.mem_cons, List.not_mem_nil, or_false, Prod.mk.injEq] at hab
  have f1 : ∀ i : Fin 3, M[t].from (i + 1) = M[t].to i := fun i => by unfold Tri.from Tri.to; congr 1; clear * -; revert i; decide
  have f2 : ∀ i : Fin 3, M[t].from (i + 2) = M[t].points.get i := fun i => by unfold Tri.from; congr 1; clear * -; revert i; decide
  have f3 : ∀ i : Fin 3, M[t].to (i + 1) = M[t].points.get i := fun i => by unfold Tri.to; congr 1; clear * -; revert i; decide
  have f4 : ∀ i : Fin 3, M[t].to (i + 2) = M[t].from i := fun i => by unfold Tri.from Tri.to; congr 1; clear * -; revert i; decide
  rcases hc with ⟨hσ, i, e1, e2, e3⟩ | ⟨hσ, i, e1, e2, e3⟩
  · rcases hab with ⟨rfl, rfl⟩ | ⟨rfl, rfl⟩ | ⟨rfl, rfl⟩
    · exact ⟨(t, i), rfl, .inl ⟨hσ, e1, e2⟩⟩
    · exact ⟨(t, i + 1), rfl, .inl ⟨hσ, (f1 i).trans e2, (f3 i).trans e3⟩⟩
    · exact ⟨(t, i + 2), rfl, .inl ⟨hσ, (f2 i).trans e3, (f4 i).trans e1⟩⟩
  · rcases hab with ⟨rfl, rfl⟩ | ⟨rfl, rfl⟩ | ⟨rfl, rfl⟩
    · exact ⟨(t, i), rfl, .inr ⟨hσ, e1, e2⟩⟩
    · exact ⟨(t, i + 2), rfl, .inr ⟨hσ, (f2 i).trans e3, (f4 i).trans e1⟩⟩
    · exact ⟨(t, i + 1), rfl, .inr ⟨hσ, (f1 i).trans e2, (f3 i).trans e3⟩⟩

omit h in
theorem _root_.P2T.TriAt.mesh {σ : Rat} {t : Fin M.length} {u v w : Nat} (hc : TriAt M σ t u v w) {a b : Nat} (hab : (a, b) ∈ [(u, v), (v, w), (w, u)]) :
    MeshEdge M a b ∧ MeshEdge M b a := by
  obtain ⟨k, -, hk⟩ := hc.edges hab
  have e : ∀ {x y}, k.src = x → k.dst = y → MeshEdge M x y ∧ MeshEdge M y x := fun hx hy =>
    ⟨⟨M[k.1], by simp, k.2, .inl ⟨hx, hy⟩⟩, M[k.1], by simp, k.2, .inr ⟨hx, hy⟩⟩
  rcases hk with ⟨-, h1, h2⟩ | ⟨-, h1, h2⟩
  · exact e h1 h2
  · exact (e h1 h2).symm

/-- The jump out of the triangle across an edge. -/
theorem jump_out {σ : Rat} {t : Fin M.length} {u v w : Nat} (hc : TriAt M σ t u v w) {a b : Nat} (hab : (a, b) ∈ [(u, v), (v, w), (w, u)])
    {L : List Nat} (hL : Loop M L) : ∃ y, σ * F L t - σ * y = flow L a b ∧ (y = 0 ∨ ∃ t' : Fin M.length, y = F L t') := by
  obtain ⟨k, k1, hk⟩ := hc.edges hab
  have j := h.jump_flow hL.along k
  have e : σ * k.jump (F L) = flow L a b := by
    rcases hk with ⟨s, e1, e2⟩ | ⟨s, e1, e2⟩
    · rw [s, j, e1, e2]; ring
    · rw [s, j, e1, e2, flow_swap]; ring
  unfold HE.jump at e
  rw [k1] at e
  cases hn : k.nbr with
  | none => rw [hn] at e; exact ⟨0, by simpa [mul_sub] using e, .inl rfl⟩
  | some y =>
    rw [hn] at e
    exact ⟨F L y, by simpa [mul_sub] using e, .inr ⟨⟨y, k.nbr_lt h.mesh.cons hn⟩, rfl⟩⟩

theorem tri_label {σ : Rat} {t : Fin M.length} {u v w : Nat} (hc : TriAt M σ t u v w) (t' : Fin M.length) :
    wind P [u, v, w] (centroid P M[t']) = if t' = t then σ else 0 := by
  have h0 : Planar P P size left right M nodes [] F := ⟨h.mesh, h.mesh, h.strict, h.lt, ⟨by simp, by simp⟩, by simp, by simp⟩
  have key : wind P [u, v, w] (centroid P M[t']) = σ * chiAt P (centroid P M[t']) M[t] := by
    have e : wind P [u, v, w] (centroid P M[t']) = cross (centroid P M[t']) (P u) (P v) + cross (centroid P M[t']) (P v) (P w) + cross (centroid P M[t']) (P w) (P u) := by
      simp [wind, cyclicPairs]; ring
    rw [e]
    have rot : ∀ i : Fin 3, chiAt P (centroid P M[t']) M[t] = cross (centroid P M[t']) (P (M[t].from i)) (P (M[t].to i)) +
        cross (centroid P M[t']) (P (M[t].to i)) (P (M[t].points.get i)) + cross (centroid P M[t']) (P (M[t].points.get i)) (P (M[t].from i)) := by
      intro i
      match i with
      | 0 => show cross _ (P M[t].points.a) (P M[t].points.b) + cross _ (P M[t].points.b) (P M[t].points.c) + cross _ (P M[t].points.c) (P M[t].points.a) =
              cross _ (P M[t].points.b) (P M[t].points.c) + cross _ (P M[t].points.c) (P M[t].points.a) + cross _ (P M[t].points.a) (P M[t].points.b); ring
      | 1 => show cross _ (P M[t].points.a) (P M[t].points.b) + cross _ (P M[t].points.b) (P M[t].points.c) + cross _ (P M[t].points.c) (P M[t].points.a) =
              cross _ (P M[t].points.c) (P M[t].points.a) + cross _ (P M[t].points.a) (P M[t].points.b) + cross _ (P M[t].points.b) (P M[t].points.c); ring
      | 2 => show cross _ (P M[t].points.a) (P M[t].points.b) + cross _ (P M[t].points.b) (P M[t].points.c) + cross _ (P M[t].points.c) (P M[t].points.a) =
              cross _ (P M[t].points.a) (P M[t].points.b) + cross _ (P M[t].points.b) (P M[t].points.c) + cross _ (P M[t].points.c) (P M[t].points.a); ring
    rcases hc with ⟨hσ, i, e1, e2, e3⟩ | ⟨hσ, i, e1, e2, e3⟩
    · rw [rot i, e1, e2, e3, hσ]; ring
    · rw [rot i, e1, e2, e3, hσ, cross_swap _ (P u) (P v), cross_swap _ (P v) (P w), cross_swap _ (P w) (P u)]; ring
  rw [key]
  have c := h0.chi_centroid t'
  rcases h0.one_face (centroid P M[t']) with k | ⟨t1, k1, k2⟩
  · rw [k t'] at c; norm_num at c
  · have : t' = t1 := by
      by_contra hne
      rw [k2 t' hne] at c; norm_num at c
    subst this
    by_cases e : t' = t
    · subst e; rw [k1]; simp
    · rw [k2 t (Ne.symm e), if_neg e, mul_zero]

/-- The triangle inside at the first edge. -/
theorem first_tri {u v : Nat} {r : List Nat} (hL : Loop M (u :: v :: r)) (h3 : 3 ≤ (u :: v :: r).length) {σ : Rat} (hσ : σ = 1 ∨ σ = -1)
    (hv : ∀ t : Fin M.length, F (u :: v :: r) t = σ ∨ F (u :: v :: r) t = 0) :
    ∃ (t : Fin M.length) (w : Nat), TriAt M σ t u v w ∧ F (u :: v :: r) t = σ := by
  have he : (u, v) ∈ cyclicPairs (u :: v :: r) := by simp [cyclicPairs]
  have nd : (cyclicPairs (u :: v :: r)).Nodup := List.Nodup.of_map Prod.fst (by rw [cyclic_fst]; exact hL.nodup)
  have nb := cyclic_no_back hL.nodup h3 he
  have f1 : flow (u :: v :: r) u v = 1 := by
    unfold flow
    rw [List.count_eq_one_of_mem nd he, List.count_eq_zero_of_not_mem nb]; norm_num
  have f2 : flow (u :: v :: r) v u = -1 := by rw [flow_swap, f1]
  obtain ⟨k, hk⟩ := Planar.edge_half (hL.along _ he)
  -- the half-edge with the inside on its side
  have key : ∀ g : HE M, ((g.src = u ∧ g.dst = v ∧ σ = 1) ∨ (g.src = v ∧ g.dst = u ∧ σ = -1)) →
      ∃ (t : Fin M.length) (w : Nat), TriAt M σ t u v w ∧ F (u :: v :: r) t = σ := by
    intro g hg
    have j := h.jump_flow hL.along g
    refine ⟨g.1, M[g.1].points.get g.2, ?_, ?_⟩
    · rcases hg with ⟨e1, e2, e3⟩ | ⟨e1, e2, e3⟩
      · exact .inl ⟨e3, g.2, e1, e2, rfl⟩
      · exact .inr ⟨e3, g.2, e1, e2, rfl⟩
    · have jσ : g.jump (F (u :: v :: r)) = σ := by
        rcases hg with ⟨e1, e2, e3⟩ | ⟨e1, e2, e3⟩
        · rw [j, e1, e2, f1, e3]
        · rw [j, e1, e2, f2, e3]
      rcases hv g.1 with e | e
      · exact e
      · exfalso
        unfold HE.jump at jσ
        rw [e] at jσ
        cases hn : g.nbr with
        | none => rw [hn] at jσ; rcases hσ with s | s <;> rw [s] at jσ <;> norm_num at jσ
        | some y =>
          rw [hn] at jσ
          have := hv ⟨y, g.nbr_lt h.mesh.cons hn⟩
          simp only at jσ this
          rcases this with z | z <;> rcases hσ with s | s <;> rw [z, s] at jσ <;> norm_num at jσ
  have flip : ∀ g : HE M, ((g.src = v ∧ g.dst = u ∧ σ = 1) ∨ (g.src = u ∧ g.dst = v ∧ σ = -1)) →
      ∃ (t : Fin M.length) (w : Nat), TriAt M σ t u v w ∧ F (u :: v :: r) t = σ := by
    intro g hg
    have j := h.jump_flow hL.along g
    have jσ : g.jump (F (u :: v :: r)) = -σ := by
      rcases hg with ⟨e1, e2, e3⟩ | ⟨e1, e2, e3⟩
      · rw [j, e1, e2, f2, e3]
      · rw [j, e1, e2, f1, e3]; norm_num
    cases hn : g.nbr with
    | none =>
      exfalso
      unfold HE.jump at jσ
      rw [hn] at jσ
      rcases hv g.1 with z | z <;> rcases hσ with s | s <;> simp only [sub_zero] at jσ <;> rw [z, s] at jσ <;> norm_num at jσ
    | some y =>
      obtain ⟨g', y1, -, -, y4, y5⟩ := HE.twin h.mesh.cons g (by rw [hn]; simp)
      refine key g' ?_
      rw [y4, y5]
      rcases hg with ⟨e1, e2, e3⟩ | ⟨e1, e2, e3⟩
      · exact .inl ⟨e2, e1, e3⟩
      · exact .inr ⟨e2, e1, e3⟩
  rcases hk with ⟨k1, k2⟩ | ⟨k1, k2⟩ <;> rcases hσ with s | s
  · exact key k (.inl ⟨k1, k2, s⟩)
  · exact flip k (.inr ⟨k1, k2, s⟩)
  · exact flip k (.inl ⟨k1, k2, s⟩)
  · exact key k (.inr ⟨k1, k2, s⟩)

end Plane

theorem flow_one {L : List Nat} (nd : L.Nodup) (h3 : 3 ≤ L.length) {a b : Nat} (he : (a, b) ∈ cyclicPairs L) : flow L a b = 1 := by
  have nd' : (cyclicPairs L).Nodup := List.Nodup.of_map Prod.fst (by rw [cyclic_fst]; exact nd)
  have nb := cyclic_no_back nd h3 he
  unfold flow
  rw [List.count_eq_one_of_mem nd' he, List.count_eq_zero_of_not_mem nb]; norm_num

namespace Plane
variable {P : Nat → Point} {size left right : Nat} {M : Store} {nodes : List Node} {F : List Nat → Nat → Rat}
  (h : Plane P size left right M nodes F)
include h

theorem tri_ne {σ : Rat} {t : Fin M.length} {u v w : Nat} (hc : TriAt M σ t u v w) {a b : Nat} (hab : (a, b) ∈ [(u, v), (v, w), (w, u)]) : a ≠ b := by
  obtain ⟨k, -, hk⟩ := hc.edges hab
  have := h.mesh.he_ne k
  rcases hk with ⟨-, e1, e2⟩ | ⟨-, e1, e2⟩
  · rwa [e1, e2] at this
  · rw [e1, e2] at this; exact this.symm

omit h in
theorem _root_.P2T.TriAt.corner {σ : Rat} {t : Fin M.length} {u v w : Nat} (hc : TriAt M σ t u v w) {a : Nat} :
    (∃ i : Fin 3, M[t].points.get i = a) ↔ a = u ∨ a = v ∨ a = w := by
  have q : ∀ i j : Fin 3, j = i ∨ j = i + 1 ∨ j = i + 2 := by decide
  rcases hc with ⟨-, i, e1, e2, e3⟩ | ⟨-, i, e1, e2, e3⟩
  · constructor
    · rintro ⟨j, rfl⟩
      rcases q i j with rfl | rfl | rfl
      · exact .inr (.inr e3)
      · exact .inl e1
      · exact .inr (.inl e2)
    · rintro (rfl | rfl | rfl)
      exacts [⟨_, e1⟩, ⟨_, e2⟩, ⟨_, e3⟩]
  · constructor
    · rintro ⟨j, rfl⟩
      rcases q i j with rfl | rfl | rfl
      · exact .inr (.inr e3)
      · exact .inr (.inl e1)
      · exact .inl e2
    · rintro (rfl | rfl | rfl)
      exacts [⟨_, e2⟩, ⟨_, e1⟩, ⟨_, e3⟩]

theorem corner_lt (t : Fin M.length) (i : Fin 3) : M[t].points.get i < size := by
  exact h.mesh.cons.corners M[t] (by simp) i

/-- A part cut off by the triangle has the same orientation, and the triangle is not in it. -/
theorem part {σ : Rat} (hσ : σ = 1 ∨ σ = -1) {t : Fin M.length} {u v w : Nat} (hc : TriAt M σ t u v w) {a b : Nat} (hab : (a, b) ∈ [(u, v), (v, w), (w, u)])
    {L : List Nat} (hL : Loop M L) (hba : (b, a) ∈ cyclicPairs L) :
    σ * F L t = -1 ∨ (F L t = 0 ∧ ∀ t' : Fin M.length, F L t' = 0 ∨ F L t' = σ) := by
  by_cases h3 : 3 ≤ L.length
  · obtain ⟨s, hs, hv⟩ := h.values hL
    obtain ⟨y, e, hy⟩ := h.jump_out hc hab hL
    have f : flow L a b = -1 := by rw [flow_swap, flow_one hL.nodup h3 hba]
    rw [f] at e
    have hy' : y = s ∨ y = 0 := by
      rcases hy with hy | ⟨t', rfl⟩
      · exact .inr hy
      · exact hv t'
    rcases hv t with ht | ht
    · left
      rw [ht] at e ⊢
      rcases hy' with rfl | rfl <;> rcases hσ with rfl | rfl <;> rcases hs with rfl | rfl <;> norm_num at e <;> norm_num
    · right
      rw [ht] at e
      refine ⟨ht, fun t' => ?_⟩
      have : s = σ := by
        rcases hy' with rfl | rfl <;> rcases hσ with rfl | rfl <;> rcases hs with rfl | rfl <;> norm_num at e <;> norm_num
      rw [← this]; exact (hv t').symm
  · have z := h.two_zero hL.along (by have := hL.two; omega)
    exact .inr ⟨z t, fun t' => .inl (z t')⟩

theorem euler (n : Nat) : ∀ {L : List Nat}, Loop M L → (inF M F L).card = n → n + 2 = L.length + 2 * (inV size M F L).card := by
  classical
  induction n using Nat.strong_induction_on with
  | _ n ih =>
  intro L hL hn
  by_cases h3 : 3 ≤ L.length
  swap
  · have h2 : L.length = 2 := by have := hL.two; omega
    have z := h.two_zero hL.along h2
    have e1 : inF M F L = ∅ := by simp [inF, z]
    have e2 : inV size M F L = ∅ := by simp [inV, z]
    rw [e1] at hn
    rw [e2, h2, ← hn]; simp
  obtain ⟨σ, hσ, hv⟩ := h.values hL
  match L, h3 with
  | u :: v :: r, h3 =>
  obtain ⟨t, w, hc, ht⟩ := h.first_tri hL h3 hσ hv
  have s0 : σ ≠ 0 := by rcases hσ with e | e <;> rw [e] <;> norm_num
  have nuv : u ≠ v := h.tri_ne hc (by simp)
  have nvw : v ≠ w := h.tri_ne hc (by simp)
  have nwu : w ≠ u := h.tri_ne hc (by simp)
  have nd := hL.nodup
  by_cases hw : w ∈ r
  · obtain ⟨r1, r2, rfl⟩ := List.append_of_mem hw
    have al := hL.along
    have m1 := (hc.mesh (a := v) (b := w) (by simp)).2
    have m2 := (hc.mesh (a := w) (b := u) (by simp)).2
    have pr : cyclicPairs (u :: v :: (r1 ++ w :: r2)) = (u, v) :: (pairs (v :: (r1 ++ [w])) ++ pairs (w :: (r2 ++ [u]))) := by
      have := pairs_split w (r2 ++ [u]) (v :: r1)
      simp only [List.cons_append] at this
      rw [cyclic_pairs]; simp only [List.cons_append, List.append_assoc, pairs_cons]; rw [this]
    have p1 : cyclicPairs (v :: (r1 ++ [w])) = pairs (v :: (r1 ++ [w])) ++ [(w, v)] := by
      have := pairs_split w [v] (v :: r1)
      simp only [List.cons_append] at this
      rw [cyclic_pairs]; simp only [List.cons_append, List.append_assoc, List.nil_append]; rw [this]; simp [pairs]
    have p2 : cyclicPairs (u :: w :: r2) = (u, w) :: pairs (w :: (r2 ++ [u])) := by
      rw [cyclic_pairs]; simp only [List.cons_append, pairs_cons]
    have L1 : Loop M (v :: (r1 ++ [w])) := by
      refine ⟨fun x hx => ?_, ?_, by simp⟩
      · rw [p1] at hx
        rcases List.mem_append.1 hx with hx | hx
        · exact al x (by rw [pr]; simp [hx])
        · simp only [List.mem_singleton] at hx; subst hx; exact m1
      · simp only [List.nodup_cons, List.nodup_append, List.mem_append, List.mem_cons] at nd ⊢
        grind
    have L2 : Loop M (u :: w :: r2) := by
      refine ⟨fun x hx => ?_, ?_, by simp⟩
      · rw [p2] at hx
        rcases List.mem_cons.1 hx with hx | hx
        · subst hx; exact m2
        · exact al x (by rw [pr]; simp [hx])
      · simp only [List.nodup_cons, List.nodup_append, List.mem_append, List.mem_cons] at nd ⊢
        grind
    have cut : ∀ t' : Fin M.length, F (u :: v :: (r1 ++ w :: r2)) t' = F (v :: (r1 ++ [w])) t' + F (u :: w :: r2) t' + if t' = t then σ else 0 := by
      intro t'
      rw [h.label hL.along, h.label L1.along, h.label L2.along, wind_cut, h.tri_label hc]
    have q1 := h.part hσ hc (a := v) (b := w) (by simp) L1 (by rw [p1]; simp)
    have q2 := h.part hσ hc (a := w) (b := u) (by simp) L2 (by rw [p2]; simp)
    have ct := cut t
    rw [if_pos rfl, ht] at ct
    have q : (F (v :: (r1 ++ [w])) t = 0 ∧ ∀ t' : Fin M.length, F (v :: (r1 ++ [w])) t' = 0 ∨ F (v :: (r1 ++ [w])) t' = σ) ∧
        (F (u :: w :: r2) t = 0 ∧ ∀ t' : Fin M.length, F (u :: w :: r2) t' = 0 ∨ F (u :: w :: r2) t' = σ) := by
      have z : F (v :: (r1 ++ [w])) t + F (u :: w :: r2) t = 0 := by linarith
      have z' : σ * F (v :: (r1 ++ [w])) t + σ * F (u :: w :: r2) t = 0 := by rw [← mul_add, z, mul_zero]
      rcases q1 with q1 | q1 <;> rcases q2 with q2 | q2
      · rw [q1, q2] at z'; norm_num at z'
      · rw [q1, q2.1] at z'; norm_num at z'
      · rw [q1.1, q2] at z'; norm_num at z'
      · exact ⟨q1, q2⟩
    obtain ⟨⟨t1, v1⟩, t2, v2⟩ := q
    generalize hA : v :: (r1 ++ [w]) = A at *
    generalize hB : u :: w :: r2 = B at *
    generalize hC : u :: v :: (r1 ++ w :: r2) = C at *
    -- no triangle in both parts
    have both : ∀ t' : Fin M.length, F A t' = 0 ∨ F B t' = 0 := by
      intro t'
      by_cases e : t' = t
      · subst e; exact .inl t1
      · have c := cut t'
        rw [if_neg e, add_zero] at c
        by_contra hno
        push Not at hno
        rw [(v1 t').resolve_left hno.1, (v2 t').resolve_left hno.2] at c
        rcases hv t' with e' | e' <;> rw [e'] at c <;> rcases hσ with rfl | rfl <;> norm_num at c
    have fl : ∀ t' : Fin M.length, F C t' ≠ 0 ↔ t' = t ∨ F A t' ≠ 0 ∨ F B t' ≠ 0 := by
      intro t'
      have c := cut t'
      by_cases e : t' = t
      · subst e; rw [ht]; simp [s0]
      · rw [if_neg e, add_zero] at c
        rcases both t' with z | z <;> rw [z] at c <;> simp only [e, z, c, zero_add, add_zero, false_or, or_false, ne_eq, not_true]
    have eF : inF M F C = insert t (inF M F A ∪ inF M F B) := by
      ext t'; simp only [inF, Finset.mem_filter, Finset.mem_univ, true_and, Finset.mem_insert, Finset.mem_union, fl]
    have dF : Disjoint (inF M F A) (inF M F B) := by
      rw [Finset.disjoint_left]
      intro t' h1 h2
      simp only [inF, Finset.mem_filter, Finset.mem_univ, true_and] at h1 h2
      rcases both t' with z | z
      exacts [h1 z, h2 z]
    have nF : t ∉ inF M F A ∪ inF M F B := by simp [inF, t1, t2]
    have cF : (inF M F C).card = (inF M F A).card + (inF M F B).card + 1 := by
      rw [eF, Finset.card_insert_of_notMem nF, Finset.card_union_of_disjoint dF]
    have memC : ∀ x, x ∈ C ↔ x ∈ A ∨ x ∈ B := by
      intro x; subst hA hB hC; simp only [List.mem_cons, List.mem_append]; grind
    -- a corner inside one part is not on the other
    have cross1 : ∀ x ∉ A, ∀ (t' : Fin M.length) (i : Fin 3), M[t'].points.get i = x → F A t' ≠ 0 → x ∉ B := by
      intro x hx t' i hi hF hxB
      by_cases b3 : 3 ≤ B.length
      · obtain ⟨t'', j, hj, hF'⟩ := h.touch L2 b3 hxB
        have := h.around L1 hx hi hj
        rcases both t'' with z | z
        · exact hF (this.trans z)
        · exact hF' z
      · have : x = u := by
          subst hB; cases r2 with
          | nil => simp at hxB; rcases hxB with e | e; exacts [e, absurd (by subst hA; simp [e]) hx]
          | cons _ _ => simp at b3
        obtain ⟨j, hj⟩ := (hc.corner (a := x)).2 (.inl this)
        exact hF ((h.around L1 hx hi hj).trans t1)
    have cross2 : ∀ x ∉ B, ∀ (t' : Fin M.length) (i : Fin 3), M[t'].points.get i = x → F B t' ≠ 0 → x ∉ A := by
      intro x hx t' i hi hF hxA
      by_cases a3 : 3 ≤ A.length
      · obtain ⟨t'', j, hj, hF'⟩ := h.touch L1 a3 hxA
        have := h.around L2 hx hi hj
        rcases both t'' with z | z
        · exact hF' z
        · exact hF (this.trans z)
      · have : x = v := by
          subst hA; cases r1 with
          | nil => simp at hxA; rcases hxA with e | e; exacts [e, absurd (by subst hB; simp [e]) hx]
          | cons _ _ => simp at a3
        obtain ⟨j, hj⟩ := (hc.corner (a := x)).2 (.inr (.inl this))
        exact hF ((h.around L2 hx hi hj).trans t2)
    have eV : inV size M F C = inV size M F A ∪ inV size M F B := by
      ext x
      simp only [inV, Finset.mem_filter, Finset.mem_range, Finset.mem_union]
      constructor
      · rintro ⟨hx, hC', t', i, hi, hF⟩
        rw [memC] at hC'
        push Not at hC'
        rcases (fl t').1 hF with e | e | e
        · subst e
          exfalso
          have := (hc.corner (a := x)).1 ⟨i, hi⟩
          have uB : u ∈ B := by subst hB; simp
          have vA : v ∈ A := by subst hA; simp
          have wB : w ∈ B := by subst hB; simp
          rcases this with rfl | rfl | rfl
          exacts [hC'.2 uB, hC'.1 vA, hC'.2 wB]
        · exact .inl ⟨hx, hC'.1, t', i, hi, e⟩
        · exact .inr ⟨hx, hC'.2, t', i, hi, e⟩
      · rintro (⟨hx, hx', t', i, hi, hF⟩ | ⟨hx, hx', t', i, hi, hF⟩)
        · refine ⟨hx, ?_, t', i, hi, (fl t').2 (.inr (.inl hF))⟩
          rw [memC]; push Not; exact ⟨hx', cross1 x hx' t' i hi hF⟩
        · refine ⟨hx, ?_, t', i, hi, (fl t').2 (.inr (.inr hF))⟩
          rw [memC]; push Not; exact ⟨cross2 x hx' t' i hi hF, hx'⟩
    have dV : Disjoint (inV size M F A) (inV size M F B) := by
      rw [Finset.disjoint_left]
      rintro x h1 h2
      simp only [inV, Finset.mem_filter, Finset.mem_range] at h1 h2
      obtain ⟨-, hA', t', i, hi, hF⟩ := h1
      obtain ⟨-, hB', t'', j, hj, hF'⟩ := h2
      have := h.around L1 hA' hi hj
      rcases both t'' with z | z
      · exact hF (this.trans z)
      · exact hF' z
    have cV : (inV size M F C).card = (inV size M F A).card + (inV size M F B).card := by rw [eV, Finset.card_union_of_disjoint dV]
    have i1 := ih (inF M F A).card (by omega) L1 rfl
    have i2 := ih (inF M F B).card (by omega) L2 rfl
    have l1 : A.length = r1.length + 2 := by subst hA; simp
    have l2 : B.length = r2.length + 2 := by subst hB; simp
    have l3 : C.length = r1.length + r2.length + 3 := by subst hC; simp; omega
    omega
  · have hw' : w ∉ u :: v :: r := by simp [hw, nwu, nvw.symm]
    have m1 := (hc.mesh (a := v) (b := w) (by simp)).2
    have m2 := (hc.mesh (a := w) (b := u) (by simp)).2
    have L' : Loop M (u :: w :: v :: r) := by
      refine ⟨fun x hx => ?_, ?_, by simp⟩
      · have e1 : cyclicPairs (u :: w :: v :: r) = (u, w) :: (w, v) :: pairs (v :: r ++ [u]) := by
          rw [cyclic_pairs]; simp only [List.cons_append, pairs_cons]
        have e2 : cyclicPairs (u :: v :: r) = (u, v) :: pairs (v :: r ++ [u]) := by
          rw [cyclic_pairs]; simp only [List.cons_append, pairs_cons]
        rw [e1] at hx
        simp only [List.mem_cons] at hx
        rcases hx with rfl | rfl | hx
        · exact m2
        · exact m1
        · exact hL.along x (by rw [e2]; exact List.mem_cons_of_mem _ hx)
      · simp only [List.nodup_cons, List.mem_cons] at nd ⊢
        grind
    have add : ∀ t' : Fin M.length, F (u :: v :: r) t' = F (u :: w :: v :: r) t' + if t' = t then σ else 0 := by
      intro t'
      rw [h.label hL.along, h.label L'.along, wind_add P _ u v w, h.tri_label hc]
    have zt : F (u :: w :: v :: r) t = 0 := by
      have := add t
      rw [if_pos rfl, ht] at this; linarith
    have fl : ∀ t' : Fin M.length, F (u :: v :: r) t' ≠ 0 ↔ t' = t ∨ F (u :: w :: v :: r) t' ≠ 0 := by
      intro t'
      by_cases e : t' = t
      · subst e; rw [ht]; simp [s0]
      · have := add t'
        rw [if_neg e, add_zero] at this
        rw [this]; simp [e]
    have eF : inF M F (u :: v :: r) = insert t (inF M F (u :: w :: v :: r)) := by
      ext t'; simp only [inF, Finset.mem_filter, Finset.mem_univ, true_and, Finset.mem_insert, fl]
    have eV : inV size M F (u :: v :: r) = insert w (inV size M F (u :: w :: v :: r)) := by
      ext x
      simp only [inV, Finset.mem_filter, Finset.mem_range, Finset.mem_insert]
      constructor
      · rintro ⟨hx, hx', t', i, hi, hF⟩
        by_cases e : x = w
        · exact .inl e
        · refine .inr ⟨hx, ?_, t', i, hi, ?_⟩
          · simp only [List.mem_cons] at hx' ⊢; grind
          · rcases (fl t').1 hF with e' | e'
            · subst e'
              have := (hc.corner (a := x)).1 ⟨i, hi⟩
              simp only [List.mem_cons] at hx'
              grind
            · exact e'
      · rintro (rfl | ⟨hx, hx', t', i, hi, hF⟩)
        · obtain ⟨j, hj⟩ := (hc.corner (a := x)).2 (.inr (.inr rfl))
          exact ⟨hj ▸ h.corner_lt t j, hw', t, j, hj, by rw [ht]; exact s0⟩
        · exact ⟨hx, by simp only [List.mem_cons] at hx' ⊢; grind, t', i, hi, (fl t').2 (.inr hF)⟩
    have cF : (inF M F (u :: v :: r)).card = (inF M F (u :: w :: v :: r)).card + 1 := by
      rw [eF, Finset.card_insert_of_notMem]; simp [inF, zt]
    have cV : (inV size M F (u :: v :: r)).card = (inV size M F (u :: w :: v :: r)).card + 1 := by
      rw [eV, Finset.card_insert_of_notMem]; simp [inV]
    have i1 := ih _ (by omega) L' rfl
    simp only [List.length_cons] at i1 ⊢
    omega

end Plane

end P2T
