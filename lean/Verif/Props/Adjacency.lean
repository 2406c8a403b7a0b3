import Verif.Proofs.View

/-!
# C29: adjacency detection is exact
-/

namespace P2T

/-- Specification: edge number `i` (opposite corner `i`) of a triangle, as a directed edge. -/
def Tri.edgeAt (T : Tri) (i : Fin 3) : Nat × Nat :=
  match i with
  | 0 => (T.points.b, T.points.c)
  | 1 => (T.points.c, T.points.a)
  | 2 => (T.points.a, T.points.b)

/-- The corners are pairwise different. -/
def Tri.Proper (T : Tri) : Prop := D3 T.points.a T.points.b T.points.c

/-- `R` has the corners of `L` in the opposite cyclic order. -/
def Tri.Mirror (L R : Tri) : Prop :=
  ∃ i, R.edgeAt i = (L.edgeAt 0).swap ∧ (R.points = ⟨L.points.a, L.points.c, L.points.b⟩ ∨
    R.points = ⟨L.points.c, L.points.b, L.points.a⟩ ∨ R.points = ⟨L.points.b, L.points.a, L.points.c⟩)

/-- **C29** For two triangles with different corners that are not mirror images of each other, the shared
edge is found at positions `i`, `j` iff the edge at `i` of the first is the reversed edge at `j` of the
second. -/
theorem C29_common_edge_exact (L R : Tri) (hL : L.Proper) (hR : R.Proper) (hm : ¬ L.Mirror R)
    (i j : Fin 3) : L.commonEdgeIndex R = some (i, j) ↔ R.edgeAt j = (L.edgeAt i).swap := by
  obtain ⟨⟨a, b, c⟩, N, E, x⟩ := L
  obtain ⟨⟨a', b', c'⟩, N', E', x'⟩ := R
  obtain ⟨h1, h2, h3⟩ := hL
  obtain ⟨g1, g2, g3⟩ := hR
  have hm' : ¬ (a' = a ∧ b' = c ∧ c' = b) ∧ ¬ (a' = c ∧ b' = b ∧ c' = a) ∧ ¬ (a' = b ∧ b' = a ∧ c' = c) := by
    refine ⟨?_, ?_, ?_⟩ <;> rintro ⟨rfl, rfl, rfl⟩ <;> apply hm
    · exact ⟨0, rfl, .inl rfl⟩
    · exact ⟨2, rfl, .inr (.inl rfl)⟩
    · exact ⟨1, rfl, .inr (.inr rfl)⟩
  clear hm
  simp only [Tri.commonEdgeIndex] at *
  match i, j with
  | 0, 0 | 0, 1 | 0, 2 | 1, 0 | 1, 1 | 1, 2 | 2, 0 | 2, 1 | 2, 2 =>
    simp only [Tri.edgeAt, Prod.swap, Prod.mk.injEq]
    grind (splits := 40)

/-- **C29** Even for mirror images the answer is sound: positions that are reported are those of a shared
edge, and a shared edge is never overlooked. -/
theorem C29_common_edge_sound (L R : Tri) (hL : L.Proper) (hR : R.Proper) :
    (∀ i j, L.commonEdgeIndex R = some (i, j) → R.edgeAt j = (L.edgeAt i).swap) ∧
    ((∃ i j, R.edgeAt j = (L.edgeAt i).swap) → ∃ i j, L.commonEdgeIndex R = some (i, j)) := by
  obtain ⟨⟨a, b, c⟩, N, E, x⟩ := L
  obtain ⟨⟨a', b', c'⟩, N', E', x'⟩ := R
  obtain ⟨h1, h2, h3⟩ := hL
  obtain ⟨g1, g2, g3⟩ := hR
  constructor
  · intro i j
    simp only [Tri.commonEdgeIndex] at *
    match i, j with
    | 0, 0 | 0, 1 | 0, 2 | 1, 0 | 1, 1 | 1, 2 | 2, 0 | 2, 1 | 2, 2 =>
      simp only [Tri.edgeAt, Prod.swap, Prod.mk.injEq]
      grind (splits := 40)
  · rintro ⟨i, j, h⟩
    by_cases hn : Tri.commonEdgeIndex ⟨⟨a, b, c⟩, N, E, x⟩ ⟨⟨a', b', c'⟩, N', E', x'⟩ = none
    · exfalso
      simp only [Tri.commonEdgeIndex] at *
      revert h
      match i, j with
      | 0, 0 | 0, 1 | 0, 2 | 1, 0 | 1, 1 | 1, 2 | 2, 0 | 2, 1 | 2, 2 =>
        simp only [Tri.edgeAt, Prod.swap, Prod.mk.injEq]
        grind (splits := 40)
    · obtain ⟨⟨i, j⟩, h⟩ := Option.ne_none_iff_exists'.1 hn
      exact ⟨i, j, h⟩

/-- **C29** Looking an undirected edge up in one triangle: the position is found iff the triangle has the
edge, in either direction. -/
theorem C29_edge_index_exact (T : Tri) (hT : T.Proper) (p q : Nat) (i : Fin 3) :
    T.edgeIndex p q = some i ↔ T.edgeAt i = (p, q) ∨ T.edgeAt i = (q, p) := by
  obtain ⟨⟨a, b, c⟩, N, E, x⟩ := T
  obtain ⟨h1, h2, h3⟩ := hT
  simp only at h1 h2 h3
  match i with
  | 0 | 1 | 2 =>
    simp only [Tri.edgeIndex, Tri.edgeAt, Prod.mk.injEq]
    grind (splits := 40)

/-- The hypotheses are met by two triangles sharing the edge 1–2. -/
example : (Tri.new 0 1 2).Proper ∧ (Tri.new 2 1 3).Proper ∧ ¬ (Tri.new 0 1 2).Mirror (Tri.new 2 1 3) ∧
    (Tri.new 0 1 2).commonEdgeIndex (Tri.new 2 1 3) = some (0, 2) := by
  refine ⟨by simp [Tri.Proper, D3, Tri.new], by simp [Tri.Proper, D3, Tri.new], ?_, by decide⟩
  rintro ⟨i, -, h | h | h⟩ <;> simp [Tri.new] at h

end P2T
