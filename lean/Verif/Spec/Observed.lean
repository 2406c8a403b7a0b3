import Verif.Spec.Mesh
import Verif.Spec.Region
import Verif.Spec.Interior

/-!
# Specification: what an observer finds at a callback

`pts` are the points of the run: the input points and the two artificial ones, the last two.
-/

namespace P2T

/-- The mesh and the front that an observer can read at the callback `ev` are sound. -/
structure SoundCallback (pts : List Point) (left right : Nat) (ev : Ev) (sn : Snap) : Prop where
  /-- ids in range, neighbour links symmetric and along a common edge -/
  adjacency : Consistent pts.length sn.tris
  /-- no triangle is clockwise -/
  oriented : Oriented pts sn.tris
  /-- an edge is marked from both sides or not at all -/
  marks : SymmetricMarks sn.tris
  /-- the front is a chain from the left artificial point to the right one, from left to right -/
  front : FrontChain pts left right sn.front.nodes
  /-- triangles do not overlap -/
  disjoint : ∀ (i j : Nat) (T T' : Tri), sn.tris[i]? = some T → sn.tris[j]? = some T' → ∀ q, T.Inside pts q → T'.Inside pts q → i = j
  /-- every point under the front and above the bottom line is in a triangle, and no other -/
  cover : ∀ q, UnderFront sn.front.nodes q → AboveBottom pts left right q → ∃ T ∈ sn.tris, 0 < area2 pts T ∧ T.InClosed pts q
  within : ∀ (q : Point) (T : Tri), T ∈ sn.tris → T.Inside pts q → UnderFront sn.front.nodes q ∧ AboveBottom pts left right q
  /-- edges do not cross and no corner is inside a triangle -/
  planar : ∀ u v x y, MeshEdge sn.tris u v → MeshEdge sn.tris x y → ¬ ProperCross (ptOf pts u) (ptOf pts v) (ptOf pts x) (ptOf pts y)
  corners : ∀ T ∈ sn.tris, ∀ T' ∈ sn.tris, ∀ i, ¬ T.Inside pts (ptOf pts (T'.points.get i))
  /-- between events: the front bounds the mesh, and every edge that is not marked is locally Delaunay -/
  bounds : ev.isEvent = true → FrontBounds left right sn.tris sn.front.nodes
  delaunay : ev.isEvent = true → LocallyDelaunay pts sn.tris
  /-- after an edge event the edge is in the mesh, marked -/
  edge : ∀ p q, ev = .edge p q → ConstrainedEdge sn.tris p q

end P2T
