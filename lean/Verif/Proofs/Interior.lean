import Verif.Spec.Interior
import Verif.Proofs.FrontPoint

/-!
# The reported triangles and the polygon minus its holes
-/

namespace P2T

/-! ## Crossings and winding numbers -/

theorem cross_over (q u v : Point) : (EdgeOver q u v ∧ (cross q u v = 1 ∨ cross q u v = -1)) ∨ (¬ EdgeOver q u v ∧ cross q u v = 0) := by
  unfold EdgeOver cross
  by_cases h1 : u.x ≤ q.x ∧ q.x < v.x ∧ det2 u v q < 0
  · left; exact ⟨.inl h1, by rw [if_pos h1]; exact .inr rfl⟩
  · by_cases h2 : v.x ≤ q.x ∧ q.x < u.x ∧ det2 v u q < 0
    · left; exact ⟨.inr h2, by rw [if_neg h1, if_pos h2]; exact .inl rfl⟩
    · right; exact ⟨by tauto, by rw [if_neg h1, if_neg h2]⟩

theorem wind_parity (R : Nat → Point) (L : List Nat) (q : Point) : ∃ k : ℤ, wind R L q = (crossings (L.map R) q : Rat) + 2 * k := by
  unfold wind crossings
  rw [cyclic_map]
  generalize cyclicPairs L = l
  induction l with
  | nil => exact ⟨0, by simp⟩
  | cons x l ih =>
    obtain ⟨k, hk⟩ := ih
    rw [List.map_cons, List.sum_cons, hk, List.map_cons, List.countP_cons]
    rcases cross_over q (R x.1) (R x.2) with ⟨h1, h2 | h2⟩ | ⟨h1, h2⟩
    · refine ⟨k, ?_⟩; rw [h2]; simp only [h1, decide_true, if_true]; push_cast; ring
    · refine ⟨k - 1, ?_⟩; rw [h2]; simp only [h1, decide_true, if_true]; push_cast; ring
    · refine ⟨k, ?_⟩; rw [h2]; simp only [h1, decide_false, Bool.false_eq_true, if_false]; push_cast; ring

theorem inside_odd {R : Nat → Point} {L : List Nat} {q : Point} (h : InsidePolyline (L.map R) q) : ∃ k : ℤ, wind R L q = 2 * k + 1 := by
  obtain ⟨k, hk⟩ := wind_parity R L q
  unfold InsidePolyline at h
  refine ⟨k + (crossings (L.map R) q / 2 : ℕ), ?_⟩
  rw [hk]
  have := Nat.div_add_mod (crossings (L.map R) q) 2
  rw [h] at this
  generalize crossings (L.map R) q / 2 = m at *
  rw [← this]
  push_cast; ring

theorem not_inside_even {R : Nat → Point} {L : List Nat} {q : Point} (h : ¬ InsidePolyline (L.map R) q) : ∃ k : ℤ, wind R L q = 2 * k := by
  obtain ⟨k, hk⟩ := wind_parity R L q
  unfold InsidePolyline at h
  have h : crossings (L.map R) q % 2 = 0 := by omega
  refine ⟨k + (crossings (L.map R) q / 2 : ℕ), ?_⟩
  rw [hk]
  have := Nat.div_add_mod (crossings (L.map R) q) 2
  rw [h] at this
  generalize crossings (L.map R) q / 2 = m at *
  rw [← this]
  push_cast; ring

theorem odd_inside {R : Nat → Point} {L : List Nat} {q : Point} {k : ℤ} (h : wind R L q = 2 * k + 1) : InsidePolyline (L.map R) q := by
  by_contra hn
  obtain ⟨j, hj⟩ := not_inside_even hn
  rw [h] at hj
  have : (2 * k + 1 : ℤ) = 2 * j := by exact_mod_cast hj
  omega

theorem zero_outside {R : Nat → Point} {L : List Nat} {q : Point} (h : wind R L q = 0) : ¬ InsidePolyline (L.map R) q := by
  intro hi
  obtain ⟨j, hj⟩ := inside_odd hi
  rw [h] at hj
  have : (0 : ℤ) = 2 * j + 1 := by exact_mod_cast hj
  omega

/-! ## The region -/

namespace Labelled
variable {P R : Nat → Point} {size left right : Nat} {M : Store} {nodes : List Node} {Ls : List (List Nat)} {L0 : List Nat} {F : List Nat → Nat → Rat}
  (h : Labelled P R size left right M nodes (L0 :: Ls) F)
include h

/-- The triangle where the search for the interior ends is on the inner side of an edge of the outer polyline. -/
theorem start_inner (hb : FrontBounds left right M nodes) {a b : Node} {l : List Node} (hn : nodes = a :: b :: l) (ha : a.pid = left)
    (hx : (R left).x < (R b.pid).x) (hr : ∃ e l', nodes = l' ++ [e] ∧ e.pid = right)
    (hin : ∀ L ∈ Ls, ∀ v ∈ L, StrictlyInside (L0.map R) (R v)) {s : Nat} (hs : StartOf M b.pid b.tri (some s)) :
    ∃ (S : Tri) (i : Fin 3), M[s]? = some S ∧ ((S.from i, S.to i) ∈ cyclicPairs L0 ∨ (S.to i, S.from i) ∈ cyclicPairs L0) ∧
      F L0 s = flow L0 (S.from i) (S.to i) ∧ ∀ L ∈ Ls, F L s = 0 := by
  -- the front has a third node
  cases l with
  | nil =>
    obtain ⟨e, l', he, hp⟩ := hr
    rw [hn] at he
    have : b = e := by
      have := congrArg List.getLast? he
      simpa using this
    obtain ⟨t, T, i, -, hT, -, e1, e2⟩ := hb.below a b ⟨[], [], by simp [hn]⟩
    have hl := (List.getElem?_eq_some_iff.1 hT)
    have lt := hl.1
    exact (h.mesh.no_bottom_back h.strict (⟨t, hl.1⟩, i) (by show M[t].from i = _; rw [hl.2, e1, this, hp]) (by
      show M[t].to i = _; rw [hl.2, e2, ha])).elim
  | cons d l =>
    obtain ⟨t, T, i, ht, hT, hnn, e1, e2⟩ := hb.below b d ⟨[a], l, by simp [hn]⟩
    obtain ⟨S, j, hS, hj, hm, hF⟩ := h.walk hs t T i ht hT e2 (fun L hL => by
      rw [(h.faces L hL).opn t T i hT hnn, e2]) s rfl
    have hSm := List.mem_of_getElem? hS
    have hmk := (h.marks S hSm j).1 hm
    have hmk' : ∃ L ∈ L0 :: Ls, (S.from j, S.to j) ∈ cyclicPairs L ∨ (S.to j, S.from j) ∈ cyclicPairs L := by
      rcases hmk with k | k
      · obtain ⟨L, hL, k⟩ := mem_allEdges.1 k; exact ⟨L, hL, .inl k⟩
      · obtain ⟨L, hL, k⟩ := mem_allEdges.1 k; exact ⟨L, hL, .inr k⟩
    obtain ⟨L, hL, hk⟩ := hmk'
    have hvL : b.pid ∈ L := by
      rw [← hj]
      rcases hk with k | k
      · exact cyclic_mem_right k
      · exact cyclic_mem_left k
    -- the edge belongs to the outer polyline
    have hL0 : L = L0 := by
      rcases List.mem_cons.1 hL with k | k
      · exact k
      · exfalso
        obtain ⟨i1, i2⟩ := hin L k _ hvL
        have := h.front_outside hn (by rw [ha]; exact hx) (L := L0) (by simp) (fun x hx => by
          refine i2 (R x.1, R x.2) ?_
          rw [cyclic_map]
          exact List.mem_map.2 ⟨x, hx, rfl⟩)
        exact zero_outside this i1
    subst hL0
    refine ⟨S, j, hS, hk, by rw [hF L (by simp), hj], fun L' hL' => ?_⟩
    rw [hF L' (by simp [hL']), ← hj]
    have hne : ∀ v, v ∈ L → v ∉ L' := by
      intro v hv hv'
      have nd := h.disj.nodup
      rw [List.flatten_cons, List.nodup_append] at nd
      exact nd.2.2 v hv v (List.mem_flatten.2 ⟨L', hL', hv'⟩) rfl
    rw [hj]
    exact flow_zero (fun k => hne _ hvL (cyclic_mem_right k)) (fun k => hne _ hvL (cyclic_mem_left k))

/-- What can be reached from there is the inside of the outer polyline without the insides of the others. -/
theorem region {s : Nat} {S : Tri} {i : Fin 3} (hS : M[s]? = some S)
    (he : (S.from i, S.to i) ∈ cyclicPairs L0 ∨ (S.to i, S.from i) ∈ cyclicPairs L0) (hF : F L0 s = flow L0 (S.from i) (S.to i))
    (hz : ∀ L ∈ Ls, F L s = 0) (q : Point) :
    (∀ t T, Reach M s t → M[t]? = some T → Inside (R (T.points.get 0)) (R (T.points.get 1)) (R (T.points.get 2)) q →
      InsidePolyline (L0.map R) q ∧ ∀ L ∈ Ls, ¬ InsidePolyline (L.map R) q) ∧
    (InsidePolyline (L0.map R) q → (∀ L ∈ Ls, ¬ InsidePolyline (L.map R) q) → ∃ t T, Reach M s t ∧ M[t]? = some T ∧
      0 < det2 (R (T.points.get 0)) (R (T.points.get 1)) (R (T.points.get 2)) ∧
      InClosed (R (T.points.get 0)) (R (T.points.get 1)) (R (T.points.get 2)) q) := by
  constructor
  · intro t T hr hT hq
    have hl := List.getElem?_eq_some_iff.1 hT
    have hc : chiAt R q M[(⟨t, hl.1⟩ : Fin M.length)] = 1 := by
      have := (chi_spec q (h.real.pos T (List.mem_of_getElem? hT))).2 hq
      simp only [Fin.getElem_fin, hl.2]
      exact this
    constructor
    · have w := h.wind_at (L := L0) (by simp) hc
      have r := h.reach_same hr (L := L0) (by simp)
      simp only at w
      rw [← r, hF] at w
      have nb : ∀ {u v}, (u, v) ∈ cyclicPairs L0 → (v, u) ∉ cyclicPairs L0 :=
        fun k => cyclic_no_back (h.disj.nodup' (L := L0) (by simp)) (h.disj.three L0 (by simp)) k
      have nd : (cyclicPairs L0).Nodup := List.Nodup.of_map Prod.fst (by rw [cyclic_fst]; exact h.disj.nodup' (by simp))
      unfold flow at w
      rcases he with he | he
      · rw [List.count_eq_one_of_mem nd he, List.count_eq_zero_of_not_mem (nb he)] at w
        exact odd_inside (k := 0) (by rw [w]; norm_num)
      · rw [List.count_eq_one_of_mem nd he, List.count_eq_zero_of_not_mem (nb he)] at w
        exact odd_inside (k := -1) (by rw [w]; norm_num)
    · intro L hL
      have w := h.wind_at (L := L) (by simp [hL]) hc
      have r := h.reach_same hr (L := L) (by simp [hL])
      simp only at w
      rw [← r, hz L hL] at w
      exact zero_outside w
  · intro h1 h2
    obtain ⟨k, hk⟩ := inside_odd h1
    have hne : wind R L0 q ≠ 0 := by
      rw [hk]; intro z
      have : (2 * k + 1 : ℤ) = 0 := by exact_mod_cast z
      omega
    obtain ⟨t, ht, hw⟩ := h.point_face (L0 := L0) (by simp) hne
    have hr := h.complete (L0 := L0) (by simp) hS he hF ht ⟨k, by rw [← hw L0 (by simp), hk]⟩ (fun L hL hne => by
      rcases List.mem_cons.1 hL with e | hL'
      · exact absurd e hne
      · obtain ⟨m, hm⟩ := not_inside_even (h2 L hL')
        exact ⟨m, by rw [← hw L hL, hm]⟩)
    refine ⟨t, M[t], hr, by simp, ?_⟩
    rcases (chi_spec q (h.real.pos M[t] (by simp))).1 with k | ⟨-, k1, k2⟩
    · have : chiAt R q M[t] = 0 := k
      rw [ht] at this; norm_num at this
    · exact ⟨k1, k2⟩

end Labelled

end P2T
