import Verif.Spec.Region
import Verif.Spec.Flip

/-!
# The lifted mesh

Every point is lifted to the height `x² + y²`, every proper triangle to the triangle over it in space.
-/

namespace P2T

/-- The height of a lifted point. -/
def sqNorm (p : Point) : Rat := p.x * p.x + p.y * p.y

/-- The height over `q` of the plane through the lifted corners of `T`: the heights of the corners with the barycentric coordinates of `q` as weights. -/
def heightAt (all : List Point) (T : Tri) (q : Point) : Rat :=
  (det2 (ptOf all (T.points.get 1)) (ptOf all (T.points.get 2)) q * sqNorm (ptOf all (T.points.get 0)) +
    det2 (ptOf all (T.points.get 2)) (ptOf all (T.points.get 0)) q * sqNorm (ptOf all (T.points.get 1)) +
    det2 (ptOf all (T.points.get 0)) (ptOf all (T.points.get 1)) q * sqNorm (ptOf all (T.points.get 2))) / area2 all T

/-- In this part of the log of callbacks (in call order) no edge insertion made flips between two callbacks. -/
def NoEdgeFlips (l : List (Ev × Snap)) : Prop := ∀ x y, Consecutive l x y → ¬ AfterEdgeFlips x y

/-- `AfterEdgeFlips`, computed. -/
def afterEdgeFlips (x y : Ev × Snap) : Bool :=
  match y.1 with
  | .edge _ _ => true
  | .willLegalize t => decide (t < x.2.tris.length)
  | _ => false

/-- How often in this part of the log an edge insertion made (or may have made) flips between two callbacks. -/
def edgeFlipBreaks : List (Ev × Snap) → Nat
  | x :: y :: l => (if afterEdgeFlips x y then 1 else 0) + edgeFlipBreaks (y :: l)
  | _ => 0

/-- Is this a `triangle_rotated` callback? -/
def Ev.isRotated : Ev → Bool
  | .rotated _ _ => true
  | _ => false

/-- No three of these points are on a line. -/
def NoThreeOnLine (all : List Point) : Prop := ∀ i j k, i < all.length → j < all.length → k < all.length → i ≠ j → j ≠ k → i ≠ k →
  det2 (ptOf all i) (ptOf all j) (ptOf all k) ≠ 0

end P2T
