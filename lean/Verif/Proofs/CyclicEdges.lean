import Verif.Proofs.Boundary
import Verif.Proofs.Build

/-!
# The edges of disjoint closed polylines
-/

namespace P2T

theorem cyclic_pairs {α} (a : α) (l : List α) : cyclicPairs (a :: l) = pairs (a :: l ++ [a]) := by
  unfold cyclicPairs pairs
  rw [List.cons_append, List.tail_cons]
  rw [← List.cons_append]
  have h : (l ++ [a]) = (l ++ [a]) ++ [] := by simp
  conv_rhs => rw [h]
  rw [List.zip_append (by simp)]
  simp

theorem cyclic_snd_perm {α} : ∀ l : List α, ((cyclicPairs l).map Prod.snd).Perm l
  | [] => .nil
  | a :: l => by rw [cyclic_snd]; exact List.perm_append_singleton a l

theorem cyclic_mem_left {α} {l : List α} {x : α × α} (h : x ∈ cyclicPairs l) : x.1 ∈ l := by
  rw [← cyclic_fst l]; exact List.mem_map.2 ⟨x, h, rfl⟩

theorem cyclic_mem_right {α} {l : List α} {x : α × α} (h : x ∈ cyclicPairs l) : x.2 ∈ l :=
  (cyclic_snd_perm l).subset (List.mem_map.2 ⟨x, h, rfl⟩)

theorem cyclic_next {α} {l : List α} {a : α} (h : a ∈ l) : ∃ b, (a, b) ∈ cyclicPairs l := by
  rw [← cyclic_fst l] at h
  obtain ⟨x, hx, rfl⟩ := List.mem_map.1 h
  exact ⟨x.2, hx⟩

theorem cyclic_prev {α} {l : List α} {a : α} (h : a ∈ l) : ∃ b, (b, a) ∈ cyclicPairs l := by
  obtain ⟨x, hx, rfl⟩ := List.mem_map.1 ((cyclic_snd_perm l).symm.subset h)
  exact ⟨x.1, hx⟩

theorem fst_inj {α} : ∀ {l : List (α × α)}, (l.map Prod.fst).Nodup → ∀ {x y}, x ∈ l → y ∈ l → x.1 = y.1 → x = y
  | [], _, x, y, hx, _, _ => by cases hx
  | z :: l, h, x, y, hx, hy, e => by
    rw [List.map_cons, List.nodup_cons] at h
    rcases List.mem_cons.1 hx with k1 | k1 <;> rcases List.mem_cons.1 hy with k2 | k2
    · rw [k1, k2]
    · subst k1; exact absurd (List.mem_map.2 ⟨y, k2, e.symm⟩) h.1
    · subst k2; exact absurd (List.mem_map.2 ⟨x, k1, e⟩) h.1
    · exact fst_inj h.2 k1 k2 e

theorem snd_inj {α} : ∀ {l : List (α × α)}, (l.map Prod.snd).Nodup → ∀ {x y}, x ∈ l → y ∈ l → x.2 = y.2 → x = y
  | [], _, x, y, hx, _, _ => by cases hx
  | z :: l, h, x, y, hx, hy, e => by
    rw [List.map_cons, List.nodup_cons] at h
    rcases List.mem_cons.1 hx with k1 | k1 <;> rcases List.mem_cons.1 hy with k2 | k2
    · rw [k1, k2]
    · subst k1; exact absurd (List.mem_map.2 ⟨y, k2, e.symm⟩) h.1
    · subst k2; exact absurd (List.mem_map.2 ⟨x, k1, e⟩) h.1
    · exact snd_inj h.2 k1 k2 e

theorem mod_back {i n : Nat} (hi : i < n) (h3 : 3 ≤ n) (y2 : ((i + 1) % n + 1) % n = i) : False := by
  have : (i + 1) % n = i + 1 ∨ (i + 1) % n = 0 := by
    rcases Nat.lt_or_ge (i + 1) n with k | k
    · exact .inl (Nat.mod_eq_of_lt k)
    · right
      have : i + 1 = n := by omega
      rw [this]; exact Nat.mod_self n
  rcases this with k | k
  · rw [k] at y2
    rcases Nat.lt_or_ge (i + 2) n with k2 | k2
    · rw [Nat.mod_eq_of_lt k2] at y2; omega
    · have h1 : i + 1 < n := by
        by_contra hh
        have : i + 1 = n := by omega
        rw [this, Nat.mod_self] at k; omega
      have : i + 1 + 1 = n := by omega
      rw [this, Nat.mod_self] at y2; omega
  · rw [k] at y2
    rw [Nat.mod_eq_of_lt (show 0 + 1 < n by omega)] at y2
    subst y2
    rw [Nat.mod_eq_of_lt (show 0 + 1 + 1 < n by omega)] at k; omega

/-- With three or more corners no edge is passed in both directions. -/
theorem cyclic_no_back {l : List Nat} (h : l.Nodup) (h3 : 3 ≤ l.length) {u v : Nat} (h1 : (u, v) ∈ cyclicPairs l) : (v, u) ∉ cyclicPairs l := by
  intro h2
  have key : ∀ {u v : Nat}, (u, v) ∈ cyclicPairs l → ∃ i, ∃ hi : i < l.length, l[i] = u ∧ l[(i + 1) % l.length]'(Nat.mod_lt _ (by omega)) = v := by
    intro u v h
    cases l with
    | nil => simp at h3
    | cons a l =>
      obtain ⟨i, hi, e⟩ := List.getElem_of_mem h
      simp only [cyclicPairs, List.length_zip, List.length_cons, List.length_append, List.length_nil, Nat.zero_add, Nat.min_self] at hi
      simp only [cyclicPairs, List.getElem_zip, Prod.mk.injEq] at e
      refine ⟨i, by simpa using hi, e.1, ?_⟩
      rw [← e.2]
      rcases Nat.lt_or_ge (i + 1) (l.length + 1) with k | k
      · have : (i + 1) % (a :: l).length = i + 1 := Nat.mod_eq_of_lt (by simpa using k)
        simp only [this, List.getElem_cons_succ]
        rw [List.getElem_append_left (by omega)]
      · have ei : i = l.length := by omega
        subst ei
        simp
  obtain ⟨i, hi, e1, e2⟩ := key h1
  obtain ⟨j, hj, e3, e4⟩ := key h2
  have y1 := (List.Nodup.getElem_inj_iff h).1 (e3.trans e2.symm)
  have y2 := (List.Nodup.getElem_inj_iff h).1 (e4.trans e1.symm)
  rw [y1] at y2
  exact mod_back hi h3 y2

theorem cyclic_const_aux {f : Nat × Nat → Rat} : ∀ {l : List Nat}, (∀ u v w, (u, v) ∈ pairs l → (v, w) ∈ pairs l → f (u, v) = f (v, w)) →
    ∃ c, ∀ x ∈ pairs l, f x = c
  | [], _ => ⟨0, by simp [pairs]⟩
  | [a], _ => ⟨0, by simp [pairs]⟩
  | [a, b], _ => ⟨f (a, b), by simp [pairs]⟩
  | a :: b :: d :: l, h => by
    have e : pairs (a :: b :: d :: l) = (a, b) :: pairs (b :: d :: l) := rfl
    obtain ⟨c, hc⟩ := cyclic_const_aux (l := b :: d :: l) fun u v w h1 h2 => h u v w (by rw [e]; exact List.mem_cons_of_mem _ h1)
      (by rw [e]; exact List.mem_cons_of_mem _ h2)
    refine ⟨c, fun x hx => ?_⟩
    rw [e, List.mem_cons] at hx
    rcases hx with rfl | hx
    · have hb : (b, d) ∈ pairs (b :: d :: l) := by
        have : pairs (b :: d :: l) = (b, d) :: pairs (d :: l) := rfl
        rw [this]; simp
      rw [h a b d (by rw [e]; simp) (by rw [e]; exact List.mem_cons_of_mem _ hb)]
      exact hc _ hb
    · exact hc x hx

/-- What is the same on consecutive edges is the same on all. -/
theorem cyclic_const {f : Nat × Nat → Rat} {l : List Nat} (h : ∀ u v w, (u, v) ∈ cyclicPairs l → (v, w) ∈ cyclicPairs l → f (u, v) = f (v, w)) :
    ∃ c, ∀ x ∈ cyclicPairs l, f x = c := by
  cases l with
  | nil => exact ⟨0, by simp [cyclicPairs]⟩
  | cons a l =>
    rw [cyclic_pairs] at h ⊢
    exact cyclic_const_aux h

/-- All edges of the polylines. -/
def allEdges (Ls : List (List Nat)) : List (Nat × Nat) := Ls.flatMap cyclicPairs

theorem mem_allEdges {Ls : List (List Nat)} {x} : x ∈ allEdges Ls ↔ ∃ L ∈ Ls, x ∈ cyclicPairs L := by
  unfold allEdges; rw [List.mem_flatMap]

theorem allEdges_fst (Ls : List (List Nat)) : (allEdges Ls).map Prod.fst = Ls.flatten := by
  induction Ls with
  | nil => rfl
  | cons L Ls ih =>
    unfold allEdges at *
    rw [List.flatMap_cons, List.map_append, ih, cyclic_fst, List.flatten_cons]

theorem allEdges_snd (Ls : List (List Nat)) : ((allEdges Ls).map Prod.snd).Perm Ls.flatten := by
  induction Ls with
  | nil => exact .nil
  | cons L Ls ih =>
    unfold allEdges at *
    rw [List.flatMap_cons, List.map_append, List.flatten_cons]
    exact (cyclic_snd_perm L).append ih

/-- Disjoint polylines with three or more corners. -/
structure Disjoint3 (Ls : List (List Nat)) : Prop where
  nodup : Ls.flatten.Nodup
  three : ∀ L ∈ Ls, 3 ≤ L.length

namespace Disjoint3
variable {Ls : List (List Nat)} (d : Disjoint3 Ls)
include d

theorem inj1 {x y} (hx : x ∈ allEdges Ls) (hy : y ∈ allEdges Ls) (e : x.1 = y.1) : x = y :=
  fst_inj (by rw [allEdges_fst]; exact d.nodup) hx hy e

theorem inj2 {x y} (hx : x ∈ allEdges Ls) (hy : y ∈ allEdges Ls) (e : x.2 = y.2) : x = y :=
  snd_inj ((allEdges_snd Ls).nodup_iff.2 d.nodup) hx hy e

theorem edges_nodup : (allEdges Ls).Nodup := List.Nodup.of_map _ (by rw [allEdges_fst]; exact d.nodup)

theorem nodup' {L} (hL : L ∈ Ls) : L.Nodup := (List.nodup_flatten.1 d.nodup).1 L hL

/-- A corner belongs to one polyline. -/
theorem same {L L' : List Nat} (hL : L ∈ Ls) (hL' : L' ∈ Ls) {a : Nat} (h : a ∈ L) (h' : a ∈ L') : L = L' := by
  have := (List.nodup_flatten.1 d.nodup).2
  by_contra hne
  obtain ⟨i, hi, rfl⟩ := List.getElem_of_mem hL
  obtain ⟨j, hj, rfl⟩ := List.getElem_of_mem hL'
  rw [List.pairwise_iff_getElem] at this
  rcases Nat.lt_trichotomy i j with k | k | k
  · exact this i j hi hj k h h'
  · subst k; exact hne rfl
  · exact this j i hj hi k h' h

theorem no_back {u v} (h : (u, v) ∈ allEdges Ls) : (v, u) ∉ allEdges Ls := by
  intro h'
  obtain ⟨L, hL, k⟩ := mem_allEdges.1 h
  obtain ⟨L', hL', k'⟩ := mem_allEdges.1 h'
  have := d.same hL hL' (cyclic_mem_left k) (cyclic_mem_right k')
  subst this
  exact cyclic_no_back (d.nodup' hL) (d.three L hL) k k'

end Disjoint3

end P2T
