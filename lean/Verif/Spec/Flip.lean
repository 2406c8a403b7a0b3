import Verif.Spec.Mesh

/-!
# Specification: edge flips
-/

namespace P2T

/-- Triangle number `t` has the corners `a`, `b`, `c`, in this cyclic order. -/
def Corners (M : Store) (t a b c : Nat) : Prop :=
  ∃ T i, M[t]? = some T ∧ T.points.get i = a ∧ T.from i = b ∧ T.to i = c

/-- The triangles `t = p a b` and `ot = op b a` are neighbours across the edge `a b`. -/
def FacingAt (M : Store) (t p a b ot op : Nat) : Prop :=
  ∃ i j T O, Linked M t i ot j ∧ M[t]? = some T ∧ M[ot]? = some O ∧ T.points.get i = p ∧ T.from i = a ∧ T.to i = b ∧
    O.points.get j = op

/-- The diagonal `a b` of the quadrilateral `p a op b` can be replaced by `p op`: the corners at `a` and `b` are strictly convex,
so that the new triangles `p op b` and `p a op` are strictly counter-clockwise. -/
def ConvexAt (all : List Point) (p a b op : Nat) : Prop :=
  0 < det2 (ptOf all p) (ptOf all op) (ptOf all b) ∧ 0 < det2 (ptOf all p) (ptOf all a) (ptOf all op)

/-- Twice the signed area of a triangle. -/
def area2 (all : List Point) (T : Tri) : Rat :=
  det2 (ptOf all (T.points.get 0)) (ptOf all (T.points.get 1)) (ptOf all (T.points.get 2))

/-- Twice the total area of a mesh. -/
def meshArea2 (all : List Point) (M : Store) : Rat := (M.map (area2 all)).sum

/-- `M'` is `M` with the edge `a b` between `t` and `ot` replaced by `p op`: the two triangles are now `p op b` and `p a op`, linked
across the new edge, all other triangles keep their corners, the mesh is still consistent and not inverted, and the
total area is the same. -/
structure Flipped (all : List Point) (M M' : Store) (t p a b ot op : Nat) : Prop where
  consistent : Consistent all.length M'
  oriented : Oriented all M'
  facing : FacingAt M' t b p op ot a
  others : ∀ x, x ≠ t → x ≠ ot → ∀ u v w, Corners M x u v w → Corners M' x u v w
  length : M'.length = M.length
  area : meshArea2 all M' = meshArea2 all M

end P2T
