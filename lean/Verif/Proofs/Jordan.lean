import Verif.Proofs.Interior

/-!
# A closed polyline along the mesh has one inside

The labels of a closed polyline without repeated points take, besides zero, only one value, `1` or `-1`.
-/

namespace P2T

theorem HE.jump_sub {M : Store} (k : HE M) (G H : Nat → Rat) (c : Rat) : k.jump (fun t => G t - c * H t) = k.jump G - c * k.jump H := by
  unfold HE.jump
  cases k.nbr <;> ring

namespace Planar
variable {P R : Nat → Point} {size left right : Nat} {M : Store} {nodes : List Node} {Ls : List (List Nat)} {F : List Nat → Nat → Rat}
  (h : Planar P R size left right M nodes Ls F)
include h

/-- The perturbed positions. -/
theorem perturbed : Planar P P size left right M nodes Ls F := { h with real := h.mesh }

theorem single {L : List Nat} (hL : L ∈ Ls) : Planar P R size left right M nodes [L] F :=
  { h with
    disj := ⟨by simpa using h.disj.nodup' hL, by simpa using h.disj.three L hL⟩
    along := by simpa using h.along L hL
    faces := by simpa using h.faces L hL }

theorem chi_centroid (t : Fin M.length) : chiAt P (centroid P M[t]) M[t] = 1 :=
  (chi_spec _ (h.mesh.pos M[t] (by simp))).2 (centroid_in h.strict (by simp))

/-- What never changes is zero. -/
theorem zero_of_jump {G : Nat → Rat} (hj : ∀ k : HE M, k.jump G = 0) (t : Fin M.length) : G t = 0 := by
  have hφ : ∀ u v : Nat, cross (centroid P M[t]) (P v) (P u) = - cross (centroid P M[t]) (P u) (P v) := fun u v => cross_swap _ _ _
  have e := stokes h.mesh.cons G (fun u v => cross (centroid P M[t]) (P u) (P v)) hφ
  have z : ∑ k : HE M, k.wt * k.jump G * cross (centroid P M[t]) (P k.src) (P k.dst) = 0 :=
    Finset.sum_eq_zero fun k _ => by rw [hj k]; ring
  rw [z] at e
  have hc := h.chi_centroid t
  rcases h.perturbed.one_face (centroid P M[t]) with k | ⟨t0, k1, k2⟩
  · rw [k t] at hc; norm_num at hc
  · have : t = t0 := by
      by_contra hne
      rw [k2 t hne] at hc; norm_num at hc
    subst this
    rw [Finset.sum_eq_single t] at e
    · have e' : G t * chiAt P (centroid P M[t]) M[t] = 0 := e
      rw [hc, mul_one] at e'
      exact e'
    · intro t' _ ht
      have : chiAt P (centroid P M[t]) M[t'] = 0 := k2 t' ht
      show G t' * chiAt P (centroid P M[t]) M[t'] = 0
      rw [this, mul_zero]
    · intro z; exact absurd (Finset.mem_univ _) z

/-- A function of the triangles that changes only across the edges of one polyline is a multiple of its label. -/
theorem multiple {L : List Nat} (hL : L ∈ Ls) {G : Nat → Rat}
    (hs : ∀ k : HE M, k.jump G ≠ 0 → (k.src, k.dst) ∈ cyclicPairs L ∨ (k.dst, k.src) ∈ cyclicPairs L) :
    ∃ c, ∀ t : Fin M.length, G t = c * F L t := by
  have h1 := h.single hL
  obtain ⟨c, hc⟩ := h1.jump_const (G := G) (fun k hk => by simpa [allEdges] using hs k hk) (L := L) (by simp)
  refine ⟨c, fun t => ?_⟩
  have nd : (cyclicPairs L).Nodup := List.Nodup.of_map Prod.fst (by rw [cyclic_fst]; exact h.disj.nodup' hL)
  have nb : ∀ {u v}, (u, v) ∈ cyclicPairs L → (v, u) ∉ cyclicPairs L :=
    fun k => cyclic_no_back (h.disj.nodup' hL) (h.disj.three L hL) k
  have := h.zero_of_jump (G := fun t => G t - c * F L t) (fun k => by
    rw [HE.jump_sub, h.jump_flow hL, ← h.edgeJump_eq]
    by_cases k1 : (k.src, k.dst) ∈ cyclicPairs L
    · rw [hc _ k1]
      unfold flow
      rw [List.count_eq_one_of_mem nd k1, List.count_eq_zero_of_not_mem (nb k1)]; norm_num
    · by_cases k2 : (k.dst, k.src) ∈ cyclicPairs L
      · rw [edgeJump_swap, hc _ k2]
        unfold flow
        rw [List.count_eq_one_of_mem nd k2, List.count_eq_zero_of_not_mem (nb k2)]; norm_num
      · rw [flow_zero k1 k2, h.edgeJump_eq]
        have : k.jump G = 0 := by
          by_contra z
          rcases hs k z with z | z
          · exact k1 z
          · exact k2 z
        rw [this]; ring) t
  linarith

theorem label_wind {L : List Nat} (hL : L ∈ Ls) (t : Fin M.length) : F L t = wind P L (centroid P M[t]) :=
  (h.perturbed.wind_at hL (h.chi_centroid t)).symm

theorem label_int {L : List Nat} (hL : L ∈ Ls) (t : Fin M.length) : ∃ m : ℤ, F L t = m := by
  obtain ⟨k, hk⟩ := wind_parity P L (centroid P M[t])
  exact ⟨(crossings (L.map P) (centroid P M[t]) : ℤ) + 2 * k, by rw [h.label_wind hL, hk]; push_cast; rfl⟩

/-- An edge of the polyline as a half-edge: the label changes by one. -/
theorem edge_jump {L : List Nat} (hL : L ∈ Ls) {u v : Nat} (he : (u, v) ∈ cyclicPairs L) :
    ∃ k : HE M, ((k.src = u ∧ k.dst = v) ∧ k.jump (F L) = 1) ∨ ((k.src = v ∧ k.dst = u) ∧ k.jump (F L) = -1) := by
  have nd : (cyclicPairs L).Nodup := List.Nodup.of_map Prod.fst (by rw [cyclic_fst]; exact h.disj.nodup' hL)
  have nb := cyclic_no_back (h.disj.nodup' hL) (h.disj.three L hL) he
  obtain ⟨k, hk⟩ := edge_half (h.along L hL _ he)
  refine ⟨k, ?_⟩
  rcases hk with ⟨k1, k2⟩ | ⟨k1, k2⟩
  · left
    refine ⟨⟨k1, k2⟩, ?_⟩
    rw [h.jump_flow hL, k1, k2]
    unfold flow
    rw [List.count_eq_one_of_mem nd he, List.count_eq_zero_of_not_mem nb]; norm_num
  · right
    refine ⟨⟨k1, k2⟩, ?_⟩
    rw [h.jump_flow hL, k1, k2]
    unfold flow
    rw [List.count_eq_one_of_mem nd he, List.count_eq_zero_of_not_mem nb]; norm_num

theorem some_edge {L : List Nat} (hL : L ∈ Ls) : ∃ x, x ∈ cyclicPairs L := by
  have l3 := h.disj.three L hL
  obtain ⟨a, ha⟩ := List.exists_mem_of_ne_nil L (by rintro rfl; simp at l3)
  obtain ⟨b, hb⟩ := cyclic_next ha
  exact ⟨_, hb⟩

omit h in
theorem _root_.P2T.HE.nbr_lt (hc : Consistent size M) (k : HE M) {x : Nat} (hx : k.nbr = some x) : x < M.length := by
  obtain ⟨g, y1, -⟩ := HE.twin hc k (by rw [hx]; simp)
  rw [hx] at y1; cases y1
  exact g.1.2

/-- The level sets of the label. -/
theorem level_one {L : List Nat} (hL : L ∈ Ls) {m : Rat} (hm : m ≠ 0) {t : Fin M.length} (ht : F L t = m) :
    (m = 1 ∨ m = -1) ∧ ∀ t' : Fin M.length, F L t' = m ∨ F L t' = 0 := by
  classical
  let G : Nat → Rat := fun t => if F L t = m then 1 else 0
  obtain ⟨c, hc⟩ := h.multiple hL (G := G) (fun k hk => by
    by_contra hno
    push Not at hno
    have z := h.jump_flow hL k
    rw [flow_zero hno.1 hno.2] at z
    apply hk
    unfold HE.jump at z ⊢
    cases hn : k.nbr with
    | none =>
      rw [hn] at z
      simp only [sub_zero] at z ⊢
      simp only [G, z, if_neg (Ne.symm hm)]
    | some x =>
      rw [hn] at z
      have : F L k.1.1 = F L x := by linarith
      simp only [G, this, sub_self])
  have g1 : (1 : Rat) = c * m := by
    have := hc t
    simp only [G, ht, if_true] at this
    exact this
  refine ⟨?_, fun t' => ?_⟩
  · obtain ⟨x, hx⟩ := h.some_edge hL
    obtain ⟨k, hk⟩ := h.edge_jump hL hx
    have jc : k.jump G = c * k.jump (F L) := by
      unfold HE.jump
      rw [hc k.1]
      cases hn : k.nbr with
      | none => simp only; ring
      | some y =>
        have := hc ⟨y, k.nbr_lt h.mesh.cons hn⟩
        simp only at this ⊢
        rw [this]; ring
    have jG : k.jump G = 1 ∨ k.jump G = 0 ∨ k.jump G = -1 := by
      have G01 : ∀ t, G t = 0 ∨ G t = 1 := by
        intro t
        simp only [G]
        split_ifs <;> simp
      unfold HE.jump
      cases k.nbr with
      | none => rcases G01 k.1.1 with e | e <;> simp [e]
      | some y => rcases G01 k.1.1 with e | e <;> rcases G01 y with e' | e' <;> simp [e, e']
    have cs : c = 1 ∨ c = 0 ∨ c = -1 := by
      rcases hk with ⟨-, e⟩ | ⟨-, e⟩ <;> rw [e] at jc <;> rcases jG with j | j | j <;> rw [j] at jc
      · left; linarith
      · right; left; linarith
      · right; right; linarith
      · right; right; linarith
      · right; left; linarith
      · left; linarith
    rcases cs with e | e | e <;> rw [e] at g1
    · left; linarith
    · norm_num at g1
    · right; linarith
  · by_cases e : F L t' = m
    · exact .inl e
    · right
      have := hc t'
      simp only [G, if_neg e] at this
      rcases mul_eq_zero.1 this.symm with k | k
      · rw [k] at g1; norm_num at g1
      · exact k

/-- **Jordan.**  Besides zero there is one label, `1` or `-1`, and it occurs. -/
theorem jordan {L : List Nat} (hL : L ∈ Ls) : ∃ σ : Rat, (σ = 1 ∨ σ = -1) ∧ (∀ t : Fin M.length, F L t = σ ∨ F L t = 0) ∧ ∃ t : Fin M.length, F L t = σ := by
  have : ∃ t : Fin M.length, F L t ≠ 0 := by
    by_contra hno
    push Not at hno
    obtain ⟨x, hx⟩ := h.some_edge hL
    obtain ⟨k, hk⟩ := h.edge_jump hL hx
    have : k.jump (F L) = 0 := by
      unfold HE.jump
      rw [hno k.1]
      cases hn : k.nbr with
      | none => simp
      | some y =>
        have := hno ⟨y, k.nbr_lt h.mesh.cons hn⟩
        simp only at this ⊢
        rw [this]; ring
    rw [this] at hk
    rcases hk with ⟨-, e⟩ | ⟨-, e⟩ <;> norm_num at e
  obtain ⟨t, ht⟩ := this
  obtain ⟨h1, h2⟩ := h.level_one hL ht rfl
  exact ⟨F L t, h1, h2, t, rfl⟩

end Planar

end P2T
