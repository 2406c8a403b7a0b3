import Verif.Proofs.Attr

/-!
# C28: edge marks are independent

The specification reads a triangle as a function: for each of the three edges a "constrained" and a
"Delaunay" mark.  Setting a mark is the function update at that edge and that mark, and nothing else.
-/

namespace P2T

/-- What a user sees of the marks of a triangle: edge ↦ (constrained, Delaunay). -/
def Tri.marks (t : Tri) (i : Fin 3) : Bool × Bool := (t.isConstrained i, t.isDelaunay i)

/-- **C28** (constrained mark). -/
theorem C28_set_constrained (t : Tri) (i : Fin 3) (v : Bool) :
    (∀ j, (t.setConstrained i v).marks j = if j = i then (v, (t.marks j).2) else t.marks j) ∧
    (t.setConstrained i v).points = t.points ∧
    (t.setConstrained i v).neighbors = t.neighbors ∧
    (t.setConstrained i v).interior = t.interior := by
  refine ⟨fun j => ?_, rfl, rfl, rfl⟩
  simp only [Tri.marks, Tri.setConstrained, Tri.isConstrained, Tri.isDelaunay, V3.get_set]
  split
  · subst j; simp
  · rfl

/-- **C28** (Delaunay mark). -/
theorem C28_set_delaunay (t : Tri) (i : Fin 3) (v : Bool) :
    (∀ j, (t.setDelaunay i v).marks j = if j = i then ((t.marks j).1, v) else t.marks j) ∧
    (t.setDelaunay i v).points = t.points ∧
    (t.setDelaunay i v).neighbors = t.neighbors ∧
    (t.setDelaunay i v).interior = t.interior := by
  refine ⟨fun j => ?_, rfl, rfl, rfl⟩
  simp only [Tri.marks, Tri.setDelaunay, Tri.isConstrained, Tri.isDelaunay, V3.get_set]
  split
  · subst j; simp
  · rfl

/-- A fresh triangle carries no mark. -/
theorem C28_new (a b c : Nat) (i : Fin 3) : (Tri.new a b c).marks i = (false, false) := by
  match i with
  | 0 | 1 | 2 => simp [Tri.new, Tri.marks, Tri.isConstrained, Tri.isDelaunay, V3.get]

example : ((((Tri.new 1 2 3).setConstrained 0 true).setDelaunay 1 true).setConstrained 0 false).marks 1
    = (false, true) := by decide

end P2T
