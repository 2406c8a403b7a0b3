import Verif.Spec.Fine

/-!
# Specification: what a good mesh and a good advancing front are

A mesh is a list of triangles.  Triangle `T` has the corners `T.points.get i` (`i = 0, 1, 2`), across the edge
opposite corner `i`, which runs from corner `i + 1` to corner `i + 2`, it has the neighbour
`T.neighbors.get i` (or none) and the mark `T.isConstrained i`.
-/

namespace P2T

/-- Start of the edge opposite corner `i`. -/
def Tri.from (T : Tri) (i : Fin 3) : Nat := T.points.get (i + 1)
/-- End of the edge opposite corner `i`. -/
def Tri.to (T : Tri) (i : Fin 3) : Nat := T.points.get (i + 2)

/-- The edge opposite corner `i` of triangle number `t` and the edge opposite corner `j` of triangle number
`x` are recorded as one edge: each triangle names the other as its neighbour there. -/
def Linked (M : Store) (t : Nat) (i : Fin 3) (x : Nat) (j : Fin 3) : Prop :=
  ∃ T X, M[t]? = some T ∧ M[x]? = some X ∧ T.neighbors.get i = some x ∧ X.neighbors.get j = some t ∧
    T.from i = X.to j ∧ T.to i = X.from j

/-- Consistent adjacency over `size` points: corners are existing, different points, and every neighbour entry
names another existing triangle, which has the same edge in the opposite direction and names the first one
there; no triangle is a neighbour twice. -/
structure Consistent (size : Nat) (M : Store) : Prop where
  corners : ∀ T ∈ M, ∀ i, T.points.get i < size
  different : ∀ T ∈ M, ∀ i j, i ≠ j → T.points.get i ≠ T.points.get j
  linked : ∀ t T i x, M[t]? = some T → T.neighbors.get i = some x → x ≠ t ∧ ∃ j, Linked M t i x j
  once : ∀ T ∈ M, ∀ i j x, T.neighbors.get i = some x → T.neighbors.get j = some x → i = j

/-- Increasing by `x`, then by `y`. -/
def LexLt (p q : Point) : Prop := p.x < q.x ∨ (p.x = q.x ∧ p.y < q.y)

/-- Counter-clockwise, or three different points on a line listed (up to rotation) from left to right. -/
def NotReversed (a b c : Point) : Prop :=
  0 < det2 a b c ∨ (det2 a b c = 0 ∧ ((LexLt a b ∧ LexLt b c) ∨ (LexLt b c ∧ LexLt c a) ∨ (LexLt c a ∧ LexLt a b)))

/-- The point with number `i`. -/
def ptOf (all : List Point) (i : Nat) : Point := all.getD i ⟨0, 0⟩

/-- No triangle is inverted. -/
def Oriented (all : List Point) (M : Store) : Prop :=
  ∀ T ∈ M, NotReversed (ptOf all (T.points.get 0)) (ptOf all (T.points.get 1)) (ptOf all (T.points.get 2))

/-- Every edge between two triangles that neither of them marks as constrained is locally Delaunay: the far
corner of the neighbour is not strictly inside the circumcircle. -/
def LocallyDelaunay (all : List Point) (M : Store) : Prop :=
  ∀ t i x j T X, Linked M t i x j → M[t]? = some T → M[x]? = some X →
    T.isConstrained i = false → X.isConstrained j = false →
    inCircleDet (ptOf all (T.points.get i)) (ptOf all (T.from i)) (ptOf all (T.to i)) (ptOf all (X.points.get j)) ≤ 0

/-- What `verify_triangles` checks: every edge that the triangle across does not mark as constrained is locally
Delaunay. -/
def VerifyClaim (all : List Point) (M : Store) : Prop :=
  ∀ t i x j T X, Linked M t i x j → M[t]? = some T → M[x]? = some X → X.isConstrained j = false →
    inCircleDet (ptOf all (T.points.get i)) (ptOf all (T.from i)) (ptOf all (T.to i)) (ptOf all (X.points.get j)) ≤ 0

/-- Both triangles at an edge agree on the constraint mark. -/
def SymmetricMarks (M : Store) : Prop :=
  ∀ t i x j T X, Linked M t i x j → M[t]? = some T → M[x]? = some X → T.isConstrained i = X.isConstrained j

/-- The mesh has the edge `u v` (in one direction or the other) and every triangle at it marks it as
constrained. -/
def ConstrainedEdge (M : Store) (u v : Nat) : Prop :=
  (∃ t T i, M[t]? = some T ∧ ((T.from i = u ∧ T.to i = v) ∨ (T.from i = v ∧ T.to i = u)) ∧ T.isConstrained i = true ∧
    ∀ x, T.neighbors.get i = some x → ∃ X j, M[x]? = some X ∧ Linked M t i x j ∧ X.isConstrained j = true)

/-- The second of two consecutive callbacks closes or follows the flips of an edge insertion: it is the
`edge_event` callback, or legalization starts at a triangle that existed already at the first callback. (A fill or a point event
starts legalization at a triangle it has just appended.) -/
def AfterEdgeFlips (x y : Ev × Snap) : Prop :=
  (∃ p q, y.1 = .edge p q) ∨ ∃ t, y.1 = .willLegalize t ∧ t < x.2.tris.length

/-- Consecutive elements. -/
def Consecutive {α} (l : List α) (a b : α) : Prop := ∃ L R, l = L ++ a :: b :: R

/-- The chain of front nodes: it starts at the left artificial point, ends at the right one, and its points
are known points in strictly increasing `(x, y)` order. -/
structure FrontChain (all : List Point) (left right : Nat) (nodes : List Node) : Prop where
  first : ∃ e l, nodes = e :: l ∧ e.pid = left
  last : ∃ e l, nodes = l ++ [e] ∧ e.pid = right
  known : ∀ e ∈ nodes, e.pid < all.length ∧ e.key = ptOf all e.pid
  increasing : nodes.Pairwise fun a b => LexLt a.key b.key

/-- The open edges of the mesh (edges of a triangle without neighbour) are exactly the bottom edge from the left
to the right artificial point and the edges between consecutive front nodes; every front node (but the
last) records the triangle below the front edge to its right; no edge is open twice. -/
structure FrontBounds (left right : Nat) (M : Store) (nodes : List Node) : Prop where
  below : ∀ a b, Consecutive nodes a b → ∃ t T i, a.tri = some t ∧ M[t]? = some T ∧ T.neighbors.get i = none ∧
    T.from i = b.pid ∧ T.to i = a.pid
  bottom : ∃ T ∈ M, ∃ i, T.neighbors.get i = none ∧ T.from i = left ∧ T.to i = right
  only : ∀ T ∈ M, ∀ i, T.neighbors.get i = none → (T.from i = left ∧ T.to i = right) ∨
    ∃ a b, Consecutive nodes a b ∧ T.from i = b.pid ∧ T.to i = a.pid
  once : ∀ (t : Nat) (T : Tri) (i : Fin 3) (t' : Nat) (T' : Tri) (i' : Fin 3), M[t]? = some T → M[t']? = some T' → T.neighbors.get i = none → T'.neighbors.get i' = none →
    T.from i = T'.from i' → T.to i = T'.to i' → t = t'

/-- Callbacks between events (all but those made during legalization). -/
def Ev.isEvent : Ev → Bool
  | .willLegalize _ => false
  | .legalizeStep _ => false
  | .rotated _ _ => false
  | .legalized _ => false
  | _ => true

end P2T
