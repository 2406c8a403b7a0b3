import Verif.Spec.Delaunay

/-!
# Specification: moving, rotating, scaling and mirroring an input
-/

namespace P2T

/-- A similarity of the plane: `(x, y) ↦ (a x - b y + e, b x + a y + f)` or, with a reflection, `(a x + b y + e, b x - a y + f)`. -/
structure Similarity where
  a : Rat
  b : Rat
  e : Rat
  f : Rat
  mirror : Bool
  ne : a ≠ 0 ∨ b ≠ 0

/-- The image of a point. -/
def Similarity.app (φ : Similarity) (p : Point) : Point :=
  if φ.mirror then ⟨φ.a * p.x + φ.b * p.y + φ.e, φ.b * p.x - φ.a * p.y + φ.f⟩
  else ⟨φ.a * p.x - φ.b * p.y + φ.e, φ.b * p.x + φ.a * p.y + φ.f⟩

/-- The image of a list of points with data. -/
def Source.mapPts {D} (φ : Similarity) (s : Source D) : Source D := ⟨s.points.map φ.app, s.data⟩

/-- The image of a builder call. -/
def BuildOp.mapPts {D} (φ : Similarity) : BuildOp D → BuildOp D
  | .steinerPoint p d => .steinerPoint (φ.app p) d
  | .steinerPoints s => .steinerPoints (s.mapPts φ)
  | .hole s => .hole (s.mapPts φ)
  | .holes ss => .holes (ss.map (·.mapPts φ))

/-- The image of every triangle listed in `result` is listed in `result'`: the images of its three corners are the three corners of a triangle listed there. -/
def ImagesAmong (φ : Similarity) (all : List Point) (M : Store) (result : List Nat) (all' : List Point) (M' : Store) (result' : List Nat) : Prop :=
  ∀ i ∈ result, ∀ T, M[i]? = some T → ∃ i' ∈ result', ∃ T', M'[i']? = some T' ∧
    (∀ j : Fin 3, ∃ j' : Fin 3, φ.app (ptOf all (T.points.get j)) = ptOf all' (T'.points.get j')) ∧
    ∀ j' : Fin 3, ∃ j : Fin 3, φ.app (ptOf all (T.points.get j)) = ptOf all' (T'.points.get j')

/-- Every triangle listed in `result'` is the image of one listed in `result`. -/
def AreImages (φ : Similarity) (all : List Point) (M : Store) (result : List Nat) (all' : List Point) (M' : Store) (result' : List Nat) : Prop :=
  ∀ i' ∈ result', ∀ T', M'[i']? = some T' → ∃ i ∈ result, ∃ T, M[i]? = some T ∧
    (∀ j : Fin 3, ∃ j' : Fin 3, φ.app (ptOf all (T.points.get j)) = ptOf all' (T'.points.get j')) ∧
    ∀ j' : Fin 3, ∃ j : Fin 3, φ.app (ptOf all (T.points.get j)) = ptOf all' (T'.points.get j')

end P2T
