import Verif.Model.Num
import Mathlib.Tactic.Linarith
import Mathlib.Tactic.Ring
import Mathlib.Algebra.Order.Field.Rat

/-!
# Plane geometry over the rationals
-/

namespace P2T

theorem det2_rot (a b c : Point) : det2 b c a = det2 a b c := by unfold det2; ring
theorem det2_swap (a b c : Point) : det2 b a c = - det2 a b c := by unfold det2; ring
theorem det2_swap' (a b c : Point) : det2 a c b = - det2 a b c := by unfold det2; ring

theorem orient_ccw {a b c : Point} : orient2d a b c = .ccw ↔ 0 < det2 a b c := by
  unfold orient2d; dsimp only; split
  · simpa
  · split <;> simp_all
theorem orient_cw {a b c : Point} : orient2d a b c = .cw ↔ det2 a b c < 0 := by
  unfold orient2d; dsimp only; split
  · rename_i h; simp; exact le_of_lt h
  · split <;> simp_all
theorem orient_collinear {a b c : Point} : orient2d a b c = .collinear ↔ det2 a b c = 0 := by
  unfold orient2d; dsimp only; split
  · rename_i h; simp; exact ne_of_gt h
  · split
    · rename_i h; simp; exact ne_of_lt h
    · simp; exact le_antisymm (not_lt.1 ‹_›) (not_lt.1 ‹_›)

/-- The key order of the advancing front: by `x`, then `y`. -/
def keyLt (a b : Point) : Prop := a.x < b.x ∨ (a.x = b.x ∧ a.y < b.y)

theorem keyLt_irrefl (a : Point) : ¬ keyLt a a := by simp [keyLt]
theorem keyLt_trans {a b c : Point} (h : keyLt a b) (h' : keyLt b c) : keyLt a c := by
  rcases h with h | ⟨h, g⟩ <;> rcases h' with h' | ⟨h', g'⟩
  · exact .inl (h.trans h')
  · exact .inl (h' ▸ h)
  · exact .inl (h ▸ h')
  · exact .inr ⟨h.trans h', g.trans g'⟩
theorem keyLt_asymm {a b : Point} (h : keyLt a b) : ¬ keyLt b a := fun h' => keyLt_irrefl _ (keyLt_trans h h')

/-- Weakly counter-clockwise: strictly, or collinear and cyclically ascending in the key order. -/
def WO (p a b : Point) : Prop :=
  0 < det2 p a b ∨ (det2 p a b = 0 ∧
    ((keyLt p a ∧ keyLt a b) ∨ (keyLt a b ∧ keyLt b p) ∨ (keyLt b p ∧ keyLt p a)))

theorem WO.rot {p a b : Point} (h : WO p a b) : WO a b p := by
  unfold WO at *
  rw [det2_rot]
  rcases h with h | ⟨h, h1 | h1 | h1⟩
  · exact .inl h
  · exact .inr ⟨h, .inr (.inr h1)⟩
  · exact .inr ⟨h, .inl h1⟩
  · exact .inr ⟨h, .inr (.inl h1)⟩

theorem WO.nonneg {p a b : Point} (h : WO p a b) : 0 ≤ det2 p a b := by
  rcases h with h | ⟨h, -⟩
  · exact le_of_lt h
  · exact ge_of_eq h

theorem WO.anti {p a b : Point} (h : WO p a b) : ¬ WO a p b := by
  intro h'
  unfold WO at *
  rw [det2_swap p a b] at h'
  rcases h with h | ⟨h, h1⟩ <;> rcases h' with h' | ⟨h', h1'⟩
  · linarith
  · linarith
  · linarith
  · have A := @keyLt_asymm
    rcases h1 with ⟨x, y⟩ | ⟨x, y⟩ | ⟨x, y⟩ <;> rcases h1' with ⟨x', y'⟩ | ⟨x', y'⟩ | ⟨x', y'⟩ <;>
      first
        | exact A x x' | exact A x y' | exact A y x' | exact A y y'

theorem incircle_a (p a b d : Point) : det2 p a d * ((b.x - a.x) ^ 2 + (b.y - a.y) ^ 2) =
    inCircleDet p a b d + ((p.x - a.x) ^ 2 + (p.y - a.y) ^ 2) * det2 d b a
      + ((d.x - a.x) ^ 2 + (d.y - a.y) ^ 2) * det2 p a b := by
  unfold det2 inCircleDet; ring

theorem incircle_b (p a b d : Point) : det2 p d b * ((a.x - b.x) ^ 2 + (a.y - b.y) ^ 2) =
    inCircleDet p a b d + ((p.x - b.x) ^ 2 + (p.y - b.y) ^ 2) * det2 d b a
      + ((d.x - b.x) ^ 2 + (d.y - b.y) ^ 2) * det2 p a b := by
  unfold det2 inCircleDet; ring

/-- An illegal edge between two weakly counter-clockwise triangles is a diagonal of a strictly convex
quadrilateral. -/
theorem illegal_convex {p a b d : Point} (h1 : 0 ≤ det2 p a b) (h2 : 0 ≤ det2 d b a)
    (h : 0 < inCircleDet p a b d) : 0 < det2 p d b ∧ 0 < det2 p a d := by
  have s : ∀ x y : Rat, 0 ≤ x ^ 2 + y ^ 2 := fun x y => add_nonneg (sq_nonneg _) (sq_nonneg _)
  constructor
  · have := incircle_b p a b d
    have h3 : 0 < det2 p d b * ((a.x - b.x) ^ 2 + (a.y - b.y) ^ 2) := by
      rw [this]
      have := mul_nonneg (s (p.x - b.x) (p.y - b.y)) h2
      have := mul_nonneg (s (d.x - b.x) (d.y - b.y)) h1
      linarith
    exact pos_of_mul_pos_left h3 (s _ _)
  · have := incircle_a p a b d
    have h3 : 0 < det2 p a d * ((b.x - a.x) ^ 2 + (b.y - a.y) ^ 2) := by
      rw [this]
      have := mul_nonneg (s (p.x - a.x) (p.y - a.y)) h2
      have := mul_nonneg (s (d.x - a.x) (d.y - a.y)) h1
      linarith
    exact pos_of_mul_pos_left h3 (s _ _)

/-- The in-circle test gives the same value from both sides of an edge. -/
theorem incircle_sym (p a b d : Point) : inCircleDet d b a p = inCircleDet p a b d := by
  unfold inCircleDet; ring
/-- … and the opposite value for the other diagonal. -/
theorem incircle_flip (p a b d : Point) : inCircleDet b p d a = - inCircleDet p a b d := by
  unfold inCircleDet; ring
theorem incircle_flip' (p a b d : Point) : inCircleDet a d p b = - inCircleDet p a b d := by
  unfold inCircleDet; ring
theorem incircle_rot (p a b d : Point) : inCircleDet a b p d = inCircleDet p a b d := by
  unfold inCircleDet; ring

end P2T
