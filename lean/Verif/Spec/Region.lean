import Verif.Spec.Flip

/-!
# Specification: points of the plane, triangles and the region under the front
-/

namespace P2T

/-- `q` is in the interior of the triangle `a b c`. -/
def Inside (a b c q : Point) : Prop := 0 < det2 a b q ∧ 0 < det2 b c q ∧ 0 < det2 c a q

/-- `q` is in the interior of the triangle `a b c` or on its border. -/
def InClosed (a b c q : Point) : Prop := 0 ≤ det2 a b q ∧ 0 ≤ det2 b c q ∧ 0 ≤ det2 c a q

def Tri.Inside (all : List Point) (T : Tri) (q : Point) : Prop :=
  P2T.Inside (ptOf all (T.points.get 0)) (ptOf all (T.points.get 1)) (ptOf all (T.points.get 2)) q

def Tri.InClosed (all : List Point) (T : Tri) (q : Point) : Prop :=
  P2T.InClosed (ptOf all (T.points.get 0)) (ptOf all (T.points.get 1)) (ptOf all (T.points.get 2)) q

/-- `q` is strictly below the front: below the front edge over it. -/
def UnderFront (nodes : List Node) (q : Point) : Prop :=
  ∃ a b, Consecutive nodes a b ∧ a.key.x ≤ q.x ∧ q.x < b.key.x ∧ det2 a.key b.key q < 0

/-- `q` is strictly above the line through the two artificial points. -/
def AboveBottom (all : List Point) (left right : Nat) (q : Point) : Prop := 0 < det2 (ptOf all left) (ptOf all right) q

/-- Twice the area between the horizontal line at height `h` and the front: a sum of trapezoids. -/
def areaUnder2 (h : Rat) (nodes : List Node) : Rat :=
  ((nodes.zip nodes.tail).map fun x => (x.2.key.x - x.1.key.x) * ((x.1.key.y - h) + (x.2.key.y - h))).sum

/-- The segments `u v` and `x y` cross in a point inside both. -/
def ProperCross (u v x y : Point) : Prop := det2 u v x * det2 u v y < 0 ∧ det2 x y u * det2 x y v < 0

/-- `u v` is an edge of a triangle of the mesh. -/
def MeshEdge (M : Store) (u v : Nat) : Prop :=
  ∃ T ∈ M, ∃ i : Fin 3, (T.from i = u ∧ T.to i = v) ∨ (T.from i = v ∧ T.to i = u)

/-- Both triangles have an edge from the same point to the same point (in this direction). -/
def ShareDirected (T T' : Tri) : Prop := ∃ i j, T.from i = T'.from j ∧ T.to i = T'.to j

/-- The triangles have the same corners in the same cyclic order. -/
def SameCycle (T T' : Tri) : Prop := ∃ k : Fin 3, ∀ i : Fin 3, T.points.get i = T'.points.get (i + k)

end P2T
