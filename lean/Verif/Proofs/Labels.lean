import Verif.Proofs.Stokes
import Verif.Proofs.CyclicEdges
import Verif.Proofs.Flood

/-!
# Meshes whose marked edges are closed polylines
-/

namespace P2T

/-- A plane mesh, disjoint closed polylines along its edges, and for each of them the label of every triangle. -/
structure Planar (P R : Nat → Point) (size left right : Nat) (M : Store) (nodes : List Node) (Ls : List (List Nat))
    (F : List Nat → Nat → Rat) : Prop where
  real : PlaneMesh R size left right M nodes
  mesh : PlaneMesh P size left right M nodes
  strict : Strict P M
  lt : (nodes.map fun e => P e.pid).Pairwise fun a b => a.x < b.x
  disj : Disjoint3 Ls
  along : ∀ L ∈ Ls, Along M L
  faces : ∀ L ∈ Ls, Faces M L (F L)

/-- … and the marked edges are those of the polylines. -/
structure Labelled (P R : Nat → Point) (size left right : Nat) (M : Store) (nodes : List Node) (Ls : List (List Nat))
    (F : List Nat → Nat → Rat) : Prop extends Planar P R size left right M nodes Ls F where
  marks : ∀ T ∈ M, ∀ i, T.isConstrained i = true ↔ (T.from i, T.to i) ∈ allEdges Ls ∨ (T.to i, T.from i) ∈ allEdges Ls

theorem flow_zero {L : List Nat} {u v : Nat} (h1 : (u, v) ∉ cyclicPairs L) (h2 : (v, u) ∉ cyclicPairs L) : flow L u v = 0 := by
  unfold flow; rw [List.count_eq_zero_of_not_mem h1, List.count_eq_zero_of_not_mem h2]; simp

/-- The value of the triangles at a point. -/
abbrev chiAt (R : Nat → Point) (q : Point) (T : Tri) : Rat := chi q (R T.points.a) (R T.points.b) (R T.points.c)

namespace Planar
variable {P R : Nat → Point} {size left right : Nat} {M : Store} {nodes : List Node} {Ls : List (List Nat)} {F : List Nat → Nat → Rat}
  (h : Planar P R size left right M nodes Ls F)
include h

theorem jump_flow {L : List Nat} (hL : L ∈ Ls) (k : HE M) : k.jump (F L) = flow L k.src k.dst := by
  have hT : M[k.1.1]? = some M[k.1] := by simp
  unfold HE.jump
  cases hn : k.nbr with
  | none => simp only [sub_zero]; exact (h.faces L hL).opn k.1 M[k.1] k.2 hT hn
  | some x =>
    obtain ⟨-, j, hl⟩ := h.mesh.cons.linked k.1 M[k.1] k.2 x hT hn
    exact (h.faces L hL).twin k.1 k.2 x j _ hl hT

/-- The winding number of a polyline is the sum of its labels over the triangles at the point. -/
theorem wind_sum {L : List Nat} (hL : L ∈ Ls) (q : Point) : wind R L q = ∑ t : Fin M.length, F L t * chiAt R q M[t] := by
  have hφ : ∀ u v : Nat, cross q (R v) (R u) = - cross q (R u) (R v) := fun u v => cross_swap _ _ _
  have e1 := stokes h.mesh.cons (F L) (fun u v => cross q (R u) (R v)) hφ
  have e2 := h.mesh.along_sum h.strict h.lt (h.along L hL) (fun u v => cross q (R u) (R v)) hφ
  unfold wind
  rw [← e2]
  refine Eq.trans ?_ e1.symm
  exact Finset.sum_congr rfl fun k _ => by rw [h.jump_flow hL]

/-- At every point there is at most one triangle. -/
theorem one_face (q : Point) : (∀ t : Fin M.length, chiAt R q M[t] = 0) ∨
    ∃ t0 : Fin M.length, chiAt R q M[t0] = 1 ∧ ∀ t : Fin M.length, t ≠ t0 → chiAt R q M[t] = 0 := by
  have hN : ∑ t : Fin M.length, chiAt R q M[t] ≤ 1 := by
    have := h.real.count q
    simp only [triSum_fin] at this
    rcases this with ⟨-, -, e⟩ | ⟨-, -, e⟩ | ⟨-, -, e⟩
    · exact le_of_eq e
    · exact le_trans (le_of_eq e) zero_le_one
    · exact le_trans (le_of_eq e) zero_le_one
  have nn : ∀ t : Fin M.length, 0 ≤ chiAt R q M[t] := fun t => h.real.chi01 q (by simp)
  have z1 : ∀ t : Fin M.length, chiAt R q M[t] = 0 ∨ chiAt R q M[t] = 1 := by
    intro t
    rcases (chi_spec q (h.real.pos M[t] (by simp))).1 with k | ⟨k, -⟩
    · exact .inl k
    · exact .inr k
  by_cases hz : ∀ t : Fin M.length, chiAt R q M[t] = 0
  · exact .inl hz
  · right
    push Not at hz
    obtain ⟨t0, ht0⟩ := hz
    have e0 := (z1 t0).resolve_left ht0
    refine ⟨t0, e0, fun t ht => ?_⟩
    rcases z1 t with k | k
    · exact k
    · exfalso
      have : chiAt R q M[t0] + chiAt R q M[t] ≤ ∑ t : Fin M.length, chiAt R q M[t] := by
        rw [← Finset.sum_pair (f := fun t : Fin M.length => chiAt R q M[t]) (Ne.symm ht)]
        exact Finset.sum_le_sum_of_subset_of_nonneg (Finset.subset_univ _) fun t _ _ => nn t
      rw [e0, k] at this
      linarith

theorem wind_at {L : List Nat} (hL : L ∈ Ls) {q : Point} {t0 : Fin M.length} (h1 : chiAt R q M[t0] = 1) : wind R L q = F L t0 := by
  rcases h.one_face q with k | ⟨t1, k1, k2⟩
  · rw [k t0] at h1; norm_num at h1
  · have : t0 = t1 := by
      by_contra hne
      rw [k2 t0 hne] at h1; norm_num at h1
    subst this
    rw [h.wind_sum hL, Finset.sum_eq_single t0]
    · rw [k1, mul_one]
    · intro t _ ht; rw [k2 t ht, mul_zero]
    · intro z; exact absurd (Finset.mem_univ _) z

theorem wind_out {L : List Nat} (hL : L ∈ Ls) {q : Point} (h1 : ∀ t : Fin M.length, chiAt R q M[t] = 0) : wind R L q = 0 := by
  rw [h.wind_sum hL]
  exact Finset.sum_eq_zero fun t _ => by rw [h1 t, mul_zero]

/-- Around a point of the region between bottom and front the winding number is the label of a triangle there; elsewhere it is zero. -/
theorem point_face {q : Point} {L0 : List Nat} (hL0 : L0 ∈ Ls) (h0 : wind R L0 q ≠ 0) : ∃ t : Fin M.length, chiAt R q M[t] = 1 ∧
    ∀ L ∈ Ls, wind R L q = F L t := by
  rcases h.one_face q with k | ⟨t1, k1, k2⟩
  · exact absurd (h.wind_out hL0 k) h0
  · exact ⟨t1, k1, fun L hL => h.wind_at hL k1⟩

end Planar

namespace Labelled
variable {P R : Nat → Point} {size left right : Nat} {M : Store} {nodes : List Node} {Ls : List (List Nat)} {F : List Nat → Nat → Rat}
  (h : Labelled P R size left right M nodes Ls F)
include h

theorem not_marked {T : Tri} (hT : T ∈ M) {i : Fin 3} (hi : T.isConstrained i = false) {L : List Nat} (hL : L ∈ Ls) :
    flow L (T.from i) (T.to i) = 0 := by
  have hm := h.marks T hT i
  rw [hi] at hm
  simp only [Bool.false_eq_true, false_iff, not_or] at hm
  exact flow_zero (fun k => hm.1 (mem_allEdges.2 ⟨L, hL, k⟩)) (fun k => hm.2 (mem_allEdges.2 ⟨L, hL, k⟩))

/-- Across an unmarked edge the labels do not change. -/
theorem step_same {t u : Nat} (hs : OpenStep M t u) {L : List Nat} (hL : L ∈ Ls) : F L t = F L u := by
  obtain ⟨T, hT, i, hi, hn⟩ := hs
  obtain ⟨-, j, hl⟩ := h.mesh.cons.linked t T i u hT hn
  have := (h.faces L hL).twin t i u j T hl hT
  rw [h.not_marked (List.mem_of_getElem? hT) hi hL] at this
  linarith

theorem reach_same {t u : Nat} (hr : Reach M t u) {L : List Nat} (hL : L ∈ Ls) : F L t = F L u := by
  induction hr with
  | refl => rfl
  | step _ hs ih => rw [ih, h.step_same hs hL]

theorem step_symm {t u : Nat} (hs : OpenStep M t u) : OpenStep M u t := by
  obtain ⟨T, hT, i, hi, hn⟩ := hs
  obtain ⟨-, j, T', X, h1, h2, h3, h4, h5, h6⟩ := h.mesh.cons.linked t T i u hT hn
  rw [hT] at h1; cases h1
  refine ⟨X, h2, j, ?_, h4⟩
  have m1 := h.marks T (List.mem_of_getElem? hT) i
  have m2 := h.marks X (List.mem_of_getElem? h2) j
  rw [hi, h5, h6] at m1
  simp only [Bool.false_eq_true, false_iff, not_or] at m1
  rw [Bool.eq_false_iff]
  intro k
  rcases m2.1 k with k | k
  · exact m1.2 k
  · exact m1.1 k

theorem reach_symm {t u : Nat} (hr : Reach M t u) : Reach M u t := by
  have trans : ∀ {a b c : Nat}, Reach M a b → Reach M b c → Reach M a c := by
    intro a b c h1 h2
    induction h2 with
    | refl => exact h1
    | step _ hs ih => exact .step ih hs
  induction hr with
  | refl => exact .refl
  | step _ hs ih => exact trans (.step .refl (h.step_symm hs)) ih

end Labelled

end P2T
