import Verif.Props.Defects
import Verif.Spec.General

/-!
# C55: a refuted expectation about Steiner points on an edge

`add_steiner_point` with a point on an edge of the polygon: the collinear branch of the edge insertion marks the parts of the edge from one side only, and the
flood fill crosses them from the other side.
-/

namespace P2T

def wedge : List Point := pointsOf [(0,6),(2,2),(2,12)]
def wedgeSteiner : List Point := pointsOf [(2,10)]

/-- Some reported triangle has a corner below all the points of `ps`. -/
def hasLow (ps : List Point) (m : Except Err (Triangles Unit)) : Bool :=
  match m with
  | .error _ => false
  | .ok t => (List.range t.result.length).any fun i =>
      match reported t i with
      | some (a, b, c) => decide (∃ z ∈ [a, b, c], ∀ p ∈ ps, z.y < p.y)
      | none => false

/-- **C55.**  A triangle with integer coordinates and one Steiner point on one of its edges: `triangulate` returns, and among the reported triangles is one with
a corner that is none of the input points, below all of them. -/
theorem C55_leak : ∃ l m : List Point, SimplePolygon l ∧ (l ++ m).Nodup ∧ l.length = 3 ∧
    (∃ u ∈ l, ∃ v ∈ l, ∃ z, m = [z] ∧ Between u v z) ∧
    ∃ f0 t, (∀ f, f0 ≤ f → triangulateF64 l m f = .ok t) ∧
      ∃ i a b c, reported t i = some (a, b, c) ∧ ∃ z ∈ [a, b, c], ∀ p ∈ l ++ m, z.y < p.y := by
  have h : hasLow (wedge ++ wedgeSteiner) (triangulateF64 wedge wedgeSteiner 60) = true := by decide +kernel
  generalize hm : triangulateF64 wedge wedgeSteiner 60 = r at h
  cases r with
  | error e => cases h
  | ok t =>
    refine ⟨wedge, wedgeSteiner, simple_of_check (by decide +kernel), by decide +kernel, rfl,
      ⟨⟨2, 2⟩, by decide +kernel, ⟨2, 12⟩, by decide +kernel, ⟨2, 10⟩, by decide +kernel, by decide +kernel⟩, 60, t, fun f hf => ?_, ?_⟩
    · rcases triangulateF64_fuel wedge wedgeSteiner hf with e | e
      · rw [hm] at e; cases e
      · rw [← e, hm]
    · simp only [hasLow, List.any_eq_true, List.mem_range] at h
      obtain ⟨i, -, h⟩ := h
      split at h
      · rename_i a b c e
        exact ⟨i, a, b, c, e, of_decide_eq_true h⟩
      · cases h

/-- The same triangle with the Steiner point moved inside by one unit: three triangles, corners among the input points. -/
example : (match triangulateF64 wedge (pointsOf [(1,6)]) 60 with
    | .ok t => t.result.length == 3 && (List.range 3).all fun i => match reported t i with
        | some (a, b, c) => decide (a ∈ wedge ++ pointsOf [(1,6)] ∧ b ∈ wedge ++ pointsOf [(1,6)] ∧ c ∈ wedge ++ pointsOf [(1,6)])
        | none => false
    | .error _ => false) = true := by decide +kernel

end P2T
