import Verif.Props.Float
import Verif.Props.Defects

/-!
# Inputs with points on a line, and C50

The theorems about whole runs do not ask for general position: axis-parallel squares with square holes and Steiner points in a row are covered.  What
they do ask for is that the float angle test reports no wrong sign (`FineInput`); C50 shows what happens otherwise.
-/

namespace P2T

/-- A square with two square holes and a Steiner point on a diagonal: many triples of points on a line. -/
def sqPoly : Source Nat := ⟨[⟨0, 0⟩, ⟨10, 0⟩, ⟨10, 10⟩, ⟨0, 10⟩], [1, 2, 3, 4]⟩
def sqOps : List (BuildOp Nat) :=
  [.hole ⟨[⟨2, 2⟩, ⟨4, 2⟩, ⟨4, 4⟩, ⟨2, 4⟩], [5, 6, 7, 8]⟩, .hole ⟨[⟨6, 6⟩, ⟨8, 6⟩, ⟨8, 8⟩, ⟨6, 8⟩], [9, 10, 11, 12]⟩, .steinerPoint ⟨5, 5⟩ 13]

theorem sq_plain : PlainInput sqPoly sqOps :=
  ⟨⟨by decide, by decide +kernel, by decide +kernel, by decide +kernel, by decide, by decide, inside_of_check (by decide +kernel)⟩, by decide +kernel⟩

theorem sq_grid : OnGrid 0 (allPoints (piecesOf sqPoly sqOps)) := grid_of_check (by decide +kernel)

/-- The corners of the enlarged box are `(-3, -3)` and `(13, -3)`. -/
theorem sq_corners : CornersOnGrid 0 (allPoints (piecesOf sqPoly sqOps)) := by
  intro x0 x1 y0 y1 box
  have box' : BoundingBox (allPoints (piecesOf sqPoly sqOps)) 0 10 0 10 := by decide +kernel
  obtain ⟨rfl, rfl, rfl, rfl⟩ := box'.unique box
  exact grid_of_check (by decide +kernel)

theorem sq_admissible : Admissible f64 sqPoly sqOps := C48_admissible f64 sq_plain sq_grid (by norm_num) (by norm_num) (.inr sq_corners)

/-- The input is not in general position. -/
example : ¬ GeneralPosition (allPoints (piecesOf sqPoly sqOps)) := by decide +kernel

theorem sq_correct : ∃ N t s, (∀ fuel, N ≤ fuel → program f64 fuel sqPoly sqOps = .ok (t, s)) ∧
    TriangulatesRegion sqPoly sqOps (runPts f64 sqPoly sqOps) t.triangles t.result ∧
    ConstrainedDelaunay sqPoly sqOps (runPts f64 sqPoly sqOps) t.triangles t.result ∧
    ConstraintsInPlace (inputEdges sqPoly sqOps) t.triangles :=
  have ⟨N, t, s, h1, h2, h3, h4, _⟩ := sq_admissible.correct
  ⟨N, t, s, h1, h2, h3, h4⟩

/-! ## C50 -/

/-- A right triangle. -/
def rightTriangle : List Point := pointsOf [(0, 0), (3, 0), (3, 1)]

/-- Corner coordinates of mesh triangle number `i`. -/
def meshTriangle (t : Triangles Unit) (i : Nat) : Option (Point × Point × Point) := do
  let T ← t.triangles[i]?
  let a ← t.points.points[T.points.a]?
  let b ← t.points.points[T.points.b]?
  let c ← t.points.points[T.points.c]?
  pure (a, b, c)

def meshInverted (m : Except Err (Triangles Unit)) : Bool :=
  match m with
  | .error _ => false
  | .ok t => (List.range t.triangles.length).any fun i =>
      match meshTriangle t i with
      | some (a, b, c) => decide (det2 a b c < 0)
      | none => false

/-- **C50** The mesh of a right triangle with `f64`: the finished mesh contains a clockwise triangle, although the polygon is simple, strictly convex, without holes
and Steiner points and has small integer coordinates.  (The float angle test takes the wrong side of a line through an artificial point.) -/
theorem C50_inverted : ∃ l : List Point, SimplePolygon l ∧ l.length = 3 ∧
    ∃ f0 t, (∀ f, f0 ≤ f → triangulateF64 l [] f = .ok t) ∧ ∃ i a b c, meshTriangle t i = some (a, b, c) ∧ det2 a b c < 0 := by
  have h : meshInverted (triangulateF64 rightTriangle [] 60) = true := by decide +kernel
  generalize hm : triangulateF64 rightTriangle [] 60 = m at h
  cases m with
  | error e => cases h
  | ok t =>
    refine ⟨rightTriangle, simple_of_check (by decide +kernel), rfl, 60, t, fun f hf => ?_, ?_⟩
    · rcases triangulateF64_fuel rightTriangle [] hf with e | e
      · rw [hm] at e; cases e
      · rw [← e, hm]
    · simp only [meshInverted, List.any_eq_true, List.mem_range] at h
      obtain ⟨i, -, h⟩ := h
      split at h
      · rename_i a b c e
        exact ⟨i, a, b, c, e, by simpa using h⟩
      · cases h

/-- **C50** `FineInput` cannot be dropped from C11: this input meets the other hypotheses, with `FineInput` it does not. -/
theorem C50_fine : ¬ FineInput f64 rightTriangle := by decide +kernel

end P2T
