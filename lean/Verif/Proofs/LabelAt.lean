import Verif.Proofs.Euler
import Verif.Proofs.FrontPoint

/-!
# The labels of the triangles at a corner are the winding number of the corner

Also where some triangles of the real mesh are degenerate: the perturbed mesh is close enough to the real one.
-/

namespace P2T

/-- The positions `P` are a perturbation of `R` that keeps the key order and the orientation of all triples that are not on a line. -/
structure Close (P R : Nat → Point) (size : Nat) : Prop where
  key : ∀ i j, i < size → j < size → keyLt (R i) (R j) → (P i).x < (P j).x
  det : ∀ i j k, i < size → j < size → k < size → 0 < det2 (R i) (R j) (R k) → 0 < det2 (P i) (P j) (P k)

/-- A point on the line of a segment but not on the segment is before or after both ends. -/
theorem col_off {u v p : Point} (hd : det2 u v p = 0) (h : ¬ OnSeg u v p) (hu : u ≠ p) (hv : v ≠ p) :
    (keyLt p u ∧ keyLt p v) ∨ (keyLt u p ∧ keyLt v p) := by
  have btw : ∀ {u v : Point}, det2 u v p = 0 → keyLt u p → keyLt p v → OnSeg u v p := by
    intro u v hd h1 h2
    have huv := keyLt_trans h1 h2
    rcases huv with hx | ⟨hx, hy⟩
    · have d : v.x - u.x ≠ 0 := by intro z; linarith
      have d' : 0 < v.x - u.x := by linarith
      have l1 : u.x ≤ p.x := by rcases h1 with k | ⟨k, -⟩ <;> linarith
      have l2 : p.x ≤ v.x := by rcases h2 with k | ⟨k, -⟩ <;> linarith
      refine ⟨(p.x - u.x) / (v.x - u.x), div_nonneg (by linarith) d'.le, (div_le_one d').2 (by linarith), by field_simp; ring, ?_⟩
      field_simp
      unfold det2 at hd
      linarith
    · have ex : p.x = u.x := by
        rcases h1 with k | ⟨k, -⟩ <;> rcases h2 with k' | ⟨k', -⟩ <;> linarith
      have l1 : u.y ≤ p.y := by rcases h1 with k | ⟨-, k⟩ <;> linarith
      have l2 : p.y ≤ v.y := by rcases h2 with k | ⟨-, k⟩ <;> linarith
      have d' : 0 < v.y - u.y := by linarith
      have d : v.y - u.y ≠ 0 := d'.ne'
      refine ⟨(p.y - u.y) / (v.y - u.y), div_nonneg (by linarith) d'.le, (div_le_one d').2 (by linarith), ?_, by field_simp; ring⟩
      rw [← hx, ex]; ring
  rcases keyLt_total hu with a | a <;> rcases keyLt_total hv with b | b
  · exact .inr ⟨a, b⟩
  · exact absurd (btw hd a b) h
  · exact absurd (btw (by rw [det2_swap, hd, neg_zero]) b a).symm h
  · exact .inl ⟨a, b⟩

/-- Is the point vertically above `p`? -/
def above (p u : Point) : Rat := if u.x = p.x ∧ p.y < u.y then 1 else 0

theorem cross_close {u v p U V X : Point} (hu : u ≠ p) (hv : v ≠ p) (h : ¬ OnSeg u v p)
    (ku : keyLt u p → U.x < X.x) (ku' : keyLt p u → X.x < U.x) (kv : keyLt v p → V.x < X.x) (kv' : keyLt p v → X.x < V.x)
    (hd : 0 < det2 u v p → 0 < det2 U V X) (hd' : det2 u v p < 0 → det2 U V X < 0) :
    cross X U V = cross p u v + above p u - above p v := by
  have s1 : det2 v u p = - det2 u v p := det2_swap u v p
  have s2 : det2 V U X = - det2 U V X := det2_swap U V X
  have ex : det2 u v p = (u.x - p.x) * (v.y - p.y) - (u.y - p.y) * (v.x - p.x) := rfl
  by_cases hz : det2 u v p = 0
  · have r : cross p u v = 0 := by unfold cross; rw [s1, hz]; simp
    have e : cross X U V = 0 := by
      unfold cross
      rcases col_off hz h hu hv with ⟨a, b⟩ | ⟨a, b⟩
      · have := ku' a; have := kv' b
        rw [if_neg (by rintro ⟨z, -⟩; linarith), if_neg (by rintro ⟨z, -⟩; linarith)]
      · have := ku a; have := kv b
        rw [if_neg (by rintro ⟨-, z, -⟩; linarith), if_neg (by rintro ⟨-, z, -⟩; linarith)]
    have a : above p u = above p v := by
      rw [hz] at ex
      have side := col_off hz h hu hv
      unfold above
      by_cases c1 : u.x = p.x
      · have c2 : v.x = p.x := by
          have : (u.y - p.y) * (v.x - p.x) = 0 := by rw [c1] at ex; linarith
          rcases mul_eq_zero.1 this with k | k
          · exfalso; apply hu; cases u; cases p; simp only [Point.mk.injEq] at *; exact ⟨c1, by linarith⟩
          · linarith
        simp only [c1, c2, true_and]
        unfold keyLt at side
        rw [c1, c2] at side
        simp only [lt_irrefl, false_or, true_and] at side
        rcases side with ⟨a, b⟩ | ⟨a, b⟩
        · rw [if_pos a, if_pos b]
        · rw [if_neg (not_lt.2 a.le), if_neg (not_lt.2 b.le)]
      · have c2 : v.x ≠ p.x := by
          intro c2
          have : (u.x - p.x) * (v.y - p.y) = 0 := by rw [c2] at ex; linarith
          rcases mul_eq_zero.1 this with k | k
          · exact c1 (by linarith)
          · apply hv; cases v; cases p; simp only [Point.mk.injEq] at *; exact ⟨c2, by linarith⟩
        simp [c1, c2]
    rw [e, r, a]; ring
  · have key : ∀ {u v U V : Point}, u ≠ p → v ≠ p → (keyLt u p → U.x < X.x) → (keyLt p u → X.x < U.x) → (keyLt v p → V.x < X.x) → (keyLt p v → X.x < V.x) →
        (0 < det2 u v p → 0 < det2 U V X) → (det2 u v p < 0 → det2 U V X < 0) → det2 u v p ≠ 0 → (keyLt u p ∨ keyLt p v) →
        cross X U V = cross p u v + above p u - above p v := by
      intro u v U V hu hv ku ku' kv kv' hd hd' hz hc
      have s1 : det2 v u p = - det2 u v p := det2_swap u v p
      have s2 : det2 V U X = - det2 U V X := det2_swap U V X
      have ex : det2 u v p = (u.x - p.x) * (v.y - p.y) - (u.y - p.y) * (v.x - p.x) := rfl
      rcases keyLt_total hu with a | a <;> rcases keyLt_total hv with b | b
      · -- both before
        have k1 := ku a
        have k2 := kv b
        have x1 : u.x ≤ p.x := by rcases a with k | ⟨k, -⟩ <;> linarith
        have x2 : v.x ≤ p.x := by rcases b with k | ⟨k, -⟩ <;> linarith
        have e1 : cross X U V = 0 := by unfold cross; rw [if_neg (by rintro ⟨-, z, -⟩; linarith), if_neg (by rintro ⟨-, z, -⟩; linarith)]
        have e2 : cross p u v = 0 := by unfold cross; rw [if_neg (by rintro ⟨-, z, -⟩; linarith), if_neg (by rintro ⟨-, z, -⟩; linarith)]
        have e3 : above p u = 0 := by unfold above; rw [if_neg]; rintro ⟨z1, z2⟩; rcases a with k | ⟨k, k'⟩ <;> linarith
        have e4 : above p v = 0 := by unfold above; rw [if_neg]; rintro ⟨z1, z2⟩; rcases b with k | ⟨k, k'⟩ <;> linarith
        rw [e1, e2, e3, e4]; ring
      · -- between
        have k1 := ku a
        have k2 := kv' b
        have x1 : u.x ≤ p.x := by rcases a with k | ⟨k, -⟩ <;> linarith
        have e3 : above p u = 0 := by unfold above; rw [if_neg]; rintro ⟨z1, z2⟩; rcases a with k | ⟨k, k'⟩ <;> linarith
        rcases b with b | ⟨b, b'⟩
        · have e4 : above p v = 0 := by unfold above; rw [if_neg]; rintro ⟨z1, z2⟩; linarith
          rw [e3, e4]
          unfold cross
          have n1 : ¬ (V.x ≤ X.x ∧ X.x < U.x ∧ det2 V U X < 0) := by rintro ⟨z, -⟩; linarith
          have n2 : ¬ (v.x ≤ p.x ∧ p.x < u.x ∧ det2 v u p < 0) := by rintro ⟨z, -⟩; linarith
          rw [if_neg n1, if_neg n2]
          rcases lt_or_gt_of_ne hz with c | c
          · rw [if_pos ⟨k1.le, k2, hd' c⟩, if_pos ⟨x1, b, c⟩]; norm_num
          · have := hd c
            rw [if_neg (by rintro ⟨-, -, z⟩; linarith), if_neg (by rintro ⟨-, -, z⟩; linarith)]; norm_num
        · have e4 : above p v = 1 := by unfold above; rw [if_pos ⟨b.symm, b'⟩]
          have hx : u.x < p.x := by
            rcases a with k | ⟨k, -⟩
            · exact k
            · exfalso; apply hz; rw [ex, k, b]; ring
          have c : det2 u v p < 0 := by
            rw [ex, ← b]
            have := mul_pos (show 0 < p.x - u.x by linarith) (show 0 < v.y - p.y by linarith)
            linarith
          have e2 : cross p u v = 0 := by unfold cross; rw [if_neg (by rintro ⟨-, z, -⟩; linarith), if_neg (by rintro ⟨-, z, -⟩; linarith)]
          have e1 : cross X U V = -1 := by unfold cross; rw [if_pos ⟨k1.le, k2, hd' c⟩]
          rw [e1, e2, e3, e4]; ring
      · exact absurd hc (by rintro (z | z); exacts [keyLt_asymm a z, keyLt_asymm b z])
      · -- both after
        have k1 := ku' a
        have k2 := kv' b
        have x1 : p.x ≤ u.x := by rcases a with k | ⟨k, -⟩ <;> linarith
        have x2 : p.x ≤ v.x := by rcases b with k | ⟨k, -⟩ <;> linarith
        have e1 : cross X U V = 0 := by unfold cross; rw [if_neg (by rintro ⟨z, -⟩; linarith), if_neg (by rintro ⟨z, -⟩; linarith)]
        rcases a with a | ⟨a, a'⟩
        · have e3 : above p u = 0 := by unfold above; rw [if_neg]; rintro ⟨z1, z2⟩; linarith
          rcases b with b | ⟨b, b'⟩
          · have e4 : above p v = 0 := by unfold above; rw [if_neg]; rintro ⟨z1, z2⟩; linarith
            have e2 : cross p u v = 0 := by unfold cross; rw [if_neg (by rintro ⟨z, -⟩; linarith), if_neg (by rintro ⟨z, -⟩; linarith)]
            rw [e1, e2, e3, e4]; ring
          · have e4 : above p v = 1 := by unfold above; rw [if_pos ⟨b.symm, b'⟩]
            have c : det2 v u p < 0 := by
              rw [s1, ex, ← b]
              have := mul_pos (show 0 < u.x - p.x by linarith) (show 0 < v.y - p.y by linarith)
              linarith
            have e2 : cross p u v = 1 := by
              unfold cross; rw [if_neg (by rintro ⟨z, -⟩; linarith), if_pos ⟨by linarith, a, c⟩]
            rw [e1, e2, e3, e4]; ring
        · have e3 : above p u = 1 := by unfold above; rw [if_pos ⟨a.symm, a'⟩]
          rcases b with b | ⟨b, b'⟩
          · have e4 : above p v = 0 := by unfold above; rw [if_neg]; rintro ⟨z1, z2⟩; linarith
            have c : det2 u v p < 0 := by
              rw [ex, ← a]
              have := mul_pos (show 0 < v.x - p.x by linarith) (show 0 < u.y - p.y by linarith)
              linarith
            have e2 : cross p u v = -1 := by
              unfold cross; rw [if_pos ⟨by linarith, b, c⟩]
            rw [e1, e2, e3, e4]; ring
          · exfalso; apply hz; rw [ex, ← a, ← b]; ring
    rcases keyLt_total hu with a | a
    · exact key hu hv ku ku' kv kv' hd hd' hz (.inl a)
    · rcases keyLt_total hv with b | b
      · have := key hv hu kv kv' ku ku' (fun k => by rw [s2]; have := hd' (by rw [s1] at k; linarith); linarith)
          (fun k => by rw [s2]; have := hd (by rw [s1] at k; linarith); linarith) (by rw [s1]; exact neg_ne_zero.2 hz) (.inl b)
        rw [cross_swap X U V, cross_swap p u v] at this
        linarith
      · exact key hu hv ku ku' kv kv' hd hd' hz (.inr b)

namespace Planar
variable {P R : Nat → Point} {size left right : Nat} {M : Store} {nodes : List Node} {Ls : List (List Nat)} {F : List Nat → Nat → Rat}
  (h : Planar P R size left right M nodes Ls F)
include h

/-- The triangles at a corner off the polyline have the winding number of the corner as their label. -/
theorem label_at (hc : Close P R size) (inj : ∀ i j, i < size → j < size → R i = R j → i = j) {L : List Nat} (hL : L ∈ Ls) (hs : ∀ v ∈ L, v < size)
    {x : Nat} (hx : x ∉ L) (off : ∀ e ∈ cyclicPairs L, ¬ OnSeg (R e.1) (R e.2) (R x)) {t : Fin M.length} {i : Fin 3} (ht : M[t].points.get i = x) :
    F L t = wind R L (R x) := by
  have hm : M[t] ∈ M := by simp
  have xs : x < size := by rw [← ht]; exact h.mesh.cons.corners M[t] hm i
  have ne : ∀ v ∈ L, R v ≠ R x := fun v hv e => hx (inj v x (hs v hv) xs e ▸ hv)
  have neg : ∀ a b c, a < size → b < size → c < size → det2 (R a) (R b) (R c) < 0 → det2 (P a) (P b) (P c) < 0 := by
    intro a b c ha hb hc' k
    have := hc.det b a c hb ha hc' (by rw [det2_swap]; linarith)
    rw [det2_swap] at this; linarith
  -- the corner is off the polyline in the perturbed positions
  have off' : ∀ e ∈ cyclicPairs L, ¬ OnSeg (P e.1) (P e.2) (P x) := by
    intro e he on
    have s1 := hs _ (cyclic_mem_left he)
    have s2 := hs _ (cyclic_mem_right he)
    have n1 := ne _ (cyclic_mem_left he)
    have n2 := ne _ (cyclic_mem_right he)
    have z := det2_on on
    rcases lt_trichotomy (det2 (R e.1) (R e.2) (R x)) 0 with k | k | k
    · have := neg _ _ _ s1 s2 xs k; linarith
    · obtain ⟨s, s0, s1', e1, -⟩ := on
      rcases col_off k (off e he) n1 n2 with ⟨a, b⟩ | ⟨a, b⟩
      · have a' := hc.key _ _ xs s1 a
        have b' := hc.key _ _ xs s2 b
        have m1 := mul_nonneg s0 (show 0 ≤ (P e.2).x - (P x).x by linarith)
        have m2 := mul_nonneg (show 0 ≤ 1 - s by linarith) (show 0 ≤ (P e.1).x - (P x).x by linarith)
        rcases eq_or_lt_of_le s0 with q | q
        · rw [← q] at e1; linarith
        · have := mul_pos q (show 0 < (P e.2).x - (P x).x by linarith)
          linarith
      · have a' := hc.key _ _ s1 xs a
        have b' := hc.key _ _ s2 xs b
        have m2 := mul_nonneg (show 0 ≤ 1 - s by linarith) (show 0 ≤ (P x).x - (P e.1).x by linarith)
        rcases eq_or_lt_of_le s0 with q | q
        · rw [← q] at e1; linarith
        · have := mul_pos q (show 0 < (P x).x - (P e.2).x by linarith)
          linarith
    · have := hc.det _ _ _ s1 s2 xs k; linarith
  have e1 : wind P L (P x) = wind R L (R x) := by
    have hsum := cyclic_sum (fun v => above (R x) (R v)) L
    have : wind P L (P x) = wind R L (R x) + ((cyclicPairs L).map fun e => above (R x) (R e.1) - above (R x) (R e.2)).sum := by
      unfold wind
      rw [← List.sum_map_add]
      congr 1
      refine List.map_congr_left fun e he => ?_
      have s1 := hs _ (cyclic_mem_left he)
      have s2 := hs _ (cyclic_mem_right he)
      rw [cross_close (ne _ (cyclic_mem_left he)) (ne _ (cyclic_mem_right he)) (off e he) (hc.key _ _ s1 xs) (hc.key _ _ xs s1) (hc.key _ _ s2 xs) (hc.key _ _ xs s2)
        (hc.det _ _ _ s1 s2 xs) (neg _ _ _ s1 s2 xs)]
      ring
    rw [this, hsum, add_zero]
  rw [← e1]
  obtain ⟨δ, d0, d1⟩ := wind_near (R := P) (g := centroid P M[t]) off'
  rw [d1 (min δ 1) (lt_min d0 one_pos) (min_le_left _ _)]
  refine (h.perturbed.wind_at hL ?_).symm
  refine (chi_spec _ (h.mesh.pos M[t] hm)).2 ?_
  have e : M[t].from (i + 2) = x := by
    rw [← ht]; unfold Tri.from; congr 1; clear * -; revert i; decide
  have w := toward (h.strict.at hm (i + 2)) (z := P (M[t].from (i + 2))) ⟨0, le_refl _, zero_le_one, by ring, by ring⟩
    ((inside_at (i + 2)).1 (centroid_in h.strict hm)) (lt_min d0 one_pos) (min_le_right δ 1)
  rw [← e]
  exact (inside_at (i + 2)).2 w

end Planar

end P2T
