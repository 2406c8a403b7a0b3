import Verif.Spec.Mesh
import Verif.Proofs.FineInput

/-!
# From half-edge invariants to the specification of meshes
-/

namespace P2T

theorem sl_corner {M : Store} {t : Nat} {T : Tri} (h : M[t]? = some T) (i : Fin 3) :
    Sl M t (T.points.get i) (T.from i) (T.to i) (T.neighbors.get i) (T.attrs.get i) := by
  refine ⟨T, h, ?_⟩
  match i with
  | 0 => exact .inl ⟨rfl, rfl, rfl⟩
  | 1 => exact .inr (.inl ⟨rfl, rfl, rfl⟩)
  | 2 => exact .inr (.inr ⟨rfl, rfl, rfl⟩)

theorem Sl.at {M : Store} {t w u v n e} (h : Sl M t w u v n e) : ∃ T i, M[t]? = some T ∧ T.points.get i = w ∧ T.from i = u ∧
    T.to i = v ∧ T.neighbors.get i = n ∧ T.attrs.get i = e := by
  obtain ⟨T, hT, hs⟩ := h
  rcases hs with ⟨h1, h2, h3⟩ | ⟨h1, h2, h3⟩ | ⟨h1, h2, h3⟩
  · exact ⟨T, 0, hT, by rw [h1]; rfl, by rw [Tri.from, h1]; rfl, by rw [Tri.to, h1]; rfl, h2, h3⟩
  · exact ⟨T, 1, hT, by rw [h1]; rfl, by rw [Tri.from, h1]; rfl, by rw [Tri.to, h1]; rfl, h2, h3⟩
  · exact ⟨T, 2, hT, by rw [h1]; rfl, by rw [Tri.from, h1]; rfl, by rw [Tri.to, h1]; rfl, h2, h3⟩

theorem ptOf_pos (c : Ctx) (i : Nat) : ptOf c.points i = c.pos i := by
  simp [ptOf, Ctx.pos, List.getD]

theorem fin3_ne : ∀ {i j : Fin 3}, i ≠ j → j = i + 1 ∨ j = i + 2 := by decide

theorem D3.at {T : Tri} {i : Fin 3} (h : D3 (T.points.get i) (T.from i) (T.to i)) :
    ∀ j k, j ≠ k → T.points.get j ≠ T.points.get k := by
  have key : ∀ j, D3 (T.points.get j) (T.points.get (j + 1)) (T.points.get (j + 2)) := by
    intro j
    unfold Tri.from Tri.to at h
    match i, j with
    | 0, 0 => exact h
    | 0, 1 => exact h.rot
    | 0, 2 => exact h.rot.rot
    | 1, 0 => exact h.rot.rot
    | 1, 1 => exact h
    | 1, 2 => exact h.rot
    | 2, 0 => exact h.rot
    | 2, 1 => exact h.rot.rot
    | 2, 2 => exact h
  intro j k hjk
  rcases fin3_ne hjk with rfl | rfl
  · exact (key j).1
  · exact (key j).2.2

section
variable {c : Ctx} {K : Prop} {Q : Nat → Prop} {M : Store}

/-- Two edges of a triangle with the same ends are the same edge. -/
theorem MeshInv.idx (m : MeshInv c K Q M) {t : Nat} {T : Tri} (hT : M[t]? = some T) {i j : Fin 3} (h : T.points.get i = T.points.get j) : i = j := by
  by_contra hne
  exact ((oriW c).d3 (m.wo (sl_corner hT 0))).at i j hne h

theorem MeshInv.linked (m : MeshInv c K Q M) {t : Nat} {T : Tri} (hT : M[t]? = some T) {i : Fin 3} {x : Nat} (hn : T.neighbors.get i = some x) :
    x ≠ t ∧ ∃ j, Linked M t i x j := by
  have s := sl_corner hT i
  rw [hn] at s
  obtain ⟨w', e', s'⟩ := m.sym s
  obtain ⟨X, j, k1, k2, k3, k4, k5, k6⟩ := s'.at
  exact ⟨(m.ne s).symm, j, T, X, hT, k1, hn, k5, k4.symm, k3.symm⟩

theorem MeshInv.consistent (m : MeshInv c K Q M) : Consistent c.points.length M := by
  refine ⟨?_, ?_, fun t T i x hT hn => m.linked hT hn, ?_⟩
  · intro T hT i
    obtain ⟨t, hT⟩ := List.mem_iff_getElem?.1 hT
    exact (m.wo (sl_corner hT i)).1.1
  · intro T hT i j
    obtain ⟨t, hT⟩ := List.mem_iff_getElem?.1 hT
    exact ((oriW c).d3 (m.wo (sl_corner hT 0))).at i j
  · intro T hT i j x h1 h2
    obtain ⟨t, hT⟩ := List.mem_iff_getElem?.1 hT
    have a := sl_corner hT i; rw [h1] at a
    have b := sl_corner hT j; rw [h2] at b
    exact m.idx hT (m.nbr_uniq a b).1

theorem MeshInv.oriented (m : MeshInv c K Q M) : Oriented c.points M := by
  intro T hT
  obtain ⟨t, hT⟩ := List.mem_iff_getElem?.1 hT
  have := (m.wo (sl_corner hT 0)).2
  simp only [ptOf_pos]
  exact this

/-- The half-edges of a link. -/
theorem Linked.sl {t i x j} {T X : Tri} (h : Linked M t i x j) (hT : M[t]? = some T) (hX : M[x]? = some X) :
    Sl M t (T.points.get i) (T.from i) (T.to i) (some x) (T.attrs.get i) ∧
    Sl M x (X.points.get j) (T.to i) (T.from i) (some t) (X.attrs.get j) := by
  obtain ⟨T', X', h1, h2, h3, h4, h5, h6⟩ := h
  rw [hT] at h1; cases h1
  rw [hX] at h2; cases h2
  have a := sl_corner hT i; rw [h3] at a
  have b := sl_corner hX j; rw [h4, ← h5, ← h6] at b
  exact ⟨a, b⟩

theorem MeshInv.delaunay (m : MeshInv c K (fun _ => False) M) : LocallyDelaunay c.points M := by
  intro t i x j T X h hT hX h1 h2
  obtain ⟨a, b⟩ := h.sl hT hX
  simp only [ptOf_pos]
  rcases m.leg a b h1 h2 with k | k | k
  · exact k.elim
  · exact k.elim
  · exact k

theorem MeshInv.marks (m : MeshInv c K Q M) (hK : K) : SymmetricMarks M := by
  intro t i x j T X h hT hX
  obtain ⟨a, b⟩ := h.sl hT hX
  exact m.csym hK a b

theorem bothCon_edge {u v : Nat} (h : BothCon M u v) : ConstrainedEdge M u v := by
  rcases h with ⟨t, w, e, s, he⟩ | ⟨t, w, x, e, w', e', s, he, s', he'⟩
  · obtain ⟨T, i, k1, k2, k3, k4, k5, k6⟩ := s.at
    refine ⟨t, T, i, k1, .inl ⟨k3, k4⟩, by rw [Tri.isConstrained, k6, he], ?_⟩
    intro x hx; rw [k5] at hx; cases hx
  · obtain ⟨T, i, k1, k2, k3, k4, k5, k6⟩ := s.at
    obtain ⟨X, j, l1, l2, l3, l4, l5, l6⟩ := s'.at
    refine ⟨t, T, i, k1, .inl ⟨k3, k4⟩, by rw [Tri.isConstrained, k6, he], ?_⟩
    intro y hy; rw [k5] at hy; cases hy
    exact ⟨X, j, l1, ⟨T, X, k1, l1, k5, l5, by rw [k3, l4], by rw [k4, l3]⟩, by rw [Tri.isConstrained, l6, he']⟩

theorem ConstrainedEdge.symm {u v : Nat} (h : ConstrainedEdge M u v) : ConstrainedEdge M v u := by
  obtain ⟨t, T, i, k1, k2, k3⟩ := h
  exact ⟨t, T, i, k1, k2.symm, k3⟩

theorem conEdge_edge {u v : Nat} (h : ConEdge M u v) : ConstrainedEdge M u v := by
  rcases h with h | h
  · exact bothCon_edge h
  · exact (bothCon_edge h).symm

theorem edge_conEdge {u v : Nat} (h : ConstrainedEdge M u v) : ConEdge M u v := by
  have key : ∀ {u v t T i}, M[t]? = some T → (T.from i = u ∧ T.to i = v) → T.isConstrained i = true →
    (∀ x, T.neighbors.get i = some x → ∃ X j, M[x]? = some X ∧ Linked M t i x j ∧ X.isConstrained j = true) → BothCon M u v := by
    rintro u v t T i k1 ⟨rfl, rfl⟩ k3 k4
    have s := sl_corner k1 i
    cases hn : T.neighbors.get i with
    | none => rw [hn] at s; exact .inl ⟨_, _, _, s, k3⟩
    | some x =>
      obtain ⟨X, j, l1, l2, l3⟩ := k4 x hn
      obtain ⟨a, b⟩ := l2.sl k1 l1
      exact .inr ⟨_, _, _, _, _, _, a, k3, b, l3⟩
  obtain ⟨t, T, i, k1, k2 | k2, k3, k4⟩ := h
  · exact .inl (key k1 k2 k3 k4)
  · exact .inr (key k1 k2 k3 k4)

theorem Keep.edges {M' : Store} (h : Keep M M') {u v : Nat} (k : ConstrainedEdge M u v) : ConstrainedEdge M' u v := by
  rcases edge_conEdge k with k | k
  · exact bothCon_edge (h _ _ k)
  · exact (bothCon_edge (h _ _ k)).symm

theorem fedges_consec {nodes : List Node} {a τ b} : (a, τ, b) ∈ fedges nodes ↔ ∃ x y, Consecutive nodes x y ∧ x.pid = a ∧ x.tri = τ ∧ y.pid = b := by
  constructor
  · intro h
    obtain ⟨L, x, y, R, e, h1, h2, h3⟩ := fedges_mem h
    exact ⟨x, y, ⟨L, R, e⟩, h1, h2, h3⟩
  · rintro ⟨x, y, ⟨L, R, rfl⟩, rfl, rfl, rfl⟩
    exact fedges_of_split L x y R

theorem FOk.chain {f : Front} (h : FOk c f) : FrontChain c.points c.head c.tail f.nodes := by
  refine ⟨h.first, h.last, ?_, h.asc⟩
  intro e he
  rw [ptOf_pos]; exact h.keys e he

theorem BInv.bounds {nodes : List Node} (h : BInv c (fun _ _ => False) M nodes) : FrontBounds c.head c.tail M nodes := by
  refine ⟨?_, ?_, ?_, ?_⟩
  · intro a b hab
    obtain ⟨t, ⟨w, e, s⟩, k⟩ := h.fr (fedges_consec.2 ⟨a, b, hab, rfl, rfl, rfl⟩)
    obtain ⟨T, i, k1, k2, k3, k4, k5, k6⟩ := s.at
    exact ⟨t, T, i, k.resolve_right id, k1, k5, k3, k4⟩
  · obtain ⟨t, w, e, s⟩ := h.bot
    obtain ⟨T, i, k1, k2, k3, k4, k5, k6⟩ := s.at
    exact ⟨T, List.mem_of_getElem? k1, i, k5, k3, k4⟩
  · intro T hT i hn
    obtain ⟨t, hT⟩ := List.mem_iff_getElem?.1 hT
    have s := sl_corner hT i
    rw [hn] at s
    rcases h.cov ⟨_, _, s⟩ with k | ⟨τ, k, -⟩
    · exact .inl k
    · obtain ⟨x, y, k1, k2, k3, k4⟩ := fedges_consec.1 k
      exact .inr ⟨x, y, k1, k4.symm, k2.symm⟩
  · intro t T i t' T' i' hT hT' hn hn' h1 h2
    have s := sl_corner hT i; rw [hn] at s
    have s' := sl_corner hT' i'; rw [hn', ← h1, ← h2] at s'
    exact h.uniq ⟨_, _, s⟩ ⟨_, _, s'⟩

end

end P2T
