import Verif.Proofs.Geom

/-!
# Specification: simple polygons

`SimplePolygon l`: the closed polyline through the points of `l` has at least three corners, and two
different edges have no point in common except the corner shared by consecutive edges.
-/

namespace P2T

/-- `p` lies on the closed segment from `a` to `b`. -/
def OnSeg (a b p : Point) : Prop :=
  ∃ t : Rat, 0 ≤ t ∧ t ≤ 1 ∧ p.x = a.x + t * (b.x - a.x) ∧ p.y = a.y + t * (b.y - a.y)

/-- Corner `i` of the closed polyline, cyclically. -/
def corner (l : List Point) (i : Nat) : Point := l.getD (i % l.length) ⟨0, 0⟩

structure SimplePolygon (l : List Point) : Prop where
  three : 3 ≤ l.length
  meet : ∀ i, i < l.length → ∀ j, j < l.length → i ≠ j → ∀ p,
    OnSeg (corner l i) (corner l (i + 1)) p → OnSeg (corner l j) (corner l (j + 1)) p →
    (j = (i + 1) % l.length ∧ p = corner l j) ∨ (i = (j + 1) % l.length ∧ p = corner l i)

/-! ## A decision procedure for concrete polygons -/

/-- All of `c`, `d` strictly on one side of the line `a b`. -/
def sameSide (a b c d : Point) : Bool :=
  (decide (0 < det2 a b c) && decide (0 < det2 a b d)) ||
  (decide (det2 a b c < 0) && decide (det2 a b d < 0))

def edgePairOk (l : List Point) (i j : Nat) : Bool :=
  if i = j then true
  else
    let a := corner l i
    let b := corner l (i + 1)
    let c := corner l j
    let d := corner l (j + 1)
    if j = (i + 1) % l.length then decide (det2 a b d ≠ 0)
    else if i = (j + 1) % l.length then decide (det2 c d b ≠ 0)
    else sameSide a b c d || sameSide c d a b

def simpleCheck (l : List Point) : Bool :=
  decide (3 ≤ l.length) &&
  (List.range l.length).all fun i => (List.range l.length).all fun j => edgePairOk l i j

theorem det2_onSeg {a b c d p : Point} {t : Rat} (hx : p.x = c.x + t * (d.x - c.x))
    (hy : p.y = c.y + t * (d.y - c.y)) : det2 a b p = (1 - t) * det2 a b c + t * det2 a b d := by
  unfold det2; rw [hx, hy]; ring

theorem det2_on {a b p : Point} (h : OnSeg a b p) : det2 a b p = 0 := by
  obtain ⟨t, -, -, hx, hy⟩ := h
  rw [det2_onSeg hx hy]; unfold det2; ring

theorem sameSide_disjoint {a b c d p : Point} (h : sameSide a b c d = true) (h1 : OnSeg a b p)
    (h2 : OnSeg c d p) : False := by
  have e := det2_on h1
  obtain ⟨t, t0, t1, hx, hy⟩ := h2
  rw [det2_onSeg hx hy] at e
  simp only [sameSide, Bool.or_eq_true, Bool.and_eq_true, decide_eq_true_eq] at h
  rcases h with ⟨h, h'⟩ | ⟨h, h'⟩
  · have k1 : 0 ≤ (1 - t) * det2 a b c := mul_nonneg (by linarith) (le_of_lt h)
    have k2 : 0 ≤ t * det2 a b d := mul_nonneg t0 (le_of_lt h')
    have k3 : (1 - t) * det2 a b c = 0 := by linarith
    have k4 : t * det2 a b d = 0 := by linarith
    rcases mul_eq_zero.1 k3 with k | k
    · rcases mul_eq_zero.1 k4 with k' | k' <;> linarith
    · linarith
  · have k1 : (1 - t) * det2 a b c ≤ 0 := mul_nonpos_of_nonneg_of_nonpos (by linarith) (le_of_lt h)
    have k2 : t * det2 a b d ≤ 0 := mul_nonpos_of_nonneg_of_nonpos t0 (le_of_lt h')
    have k3 : (1 - t) * det2 a b c = 0 := by linarith
    have k4 : t * det2 a b d = 0 := by linarith
    rcases mul_eq_zero.1 k3 with k | k
    · rcases mul_eq_zero.1 k4 with k' | k' <;> linarith
    · linarith

theorem adjacent_meet {a b d p : Point} (h : det2 a b d ≠ 0) (h1 : OnSeg a b p) (h2 : OnSeg b d p) :
    p = b := by
  have e := det2_on h1
  obtain ⟨t, t0, t1, hx, hy⟩ := h2
  rw [det2_onSeg hx hy] at e
  have : det2 a b b = 0 := by unfold det2; ring
  rw [this] at e
  have : t = 0 := by
    rcases mul_eq_zero.1 (show t * det2 a b d = 0 by linarith) with k | k
    · exact k
    · contradiction
  subst this
  obtain ⟨px, py⟩ := p
  obtain ⟨bx, byy⟩ := b
  simp only at hx hy
  congr 1 <;> linarith

theorem corner_mod (l : List Point) (i : Nat) : corner l (i % l.length) = corner l i := by
  simp [corner]

theorem simple_of_check {l : List Point} (h : simpleCheck l = true) : SimplePolygon l := by
  simp only [simpleCheck, Bool.and_eq_true, decide_eq_true_eq, List.all_eq_true, List.mem_range] at h
  refine ⟨h.1, fun i hi j hj hij p h1 h2 => ?_⟩
  have k := h.2 i hi j hj
  simp only [edgePairOk, hij, if_false] at k
  split at k
  · rename_i e
    simp only [decide_eq_true_eq] at k
    left
    have : corner l j = corner l (i + 1) := by rw [e, corner_mod]
    rw [this] at h2 ⊢
    exact ⟨e, adjacent_meet k h1 h2⟩
  · split at k
    · rename_i e
      simp only [decide_eq_true_eq] at k
      right
      have : corner l i = corner l (j + 1) := by rw [e, corner_mod]
      rw [this] at h1 ⊢
      exact ⟨e, adjacent_meet k h2 h1⟩
    · simp only [Bool.or_eq_true] at k
      rcases k with k | k
      · exact (sameSide_disjoint k h1 h2).elim
      · exact (sameSide_disjoint k h2 h1).elim

end P2T
