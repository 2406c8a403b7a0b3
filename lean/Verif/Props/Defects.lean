import Verif.Props.Determinism
import Verif.Spec.Polygon
import Verif.Model.F64

/-!
# C33, C34: refuted expectations

Concrete inputs, evaluated by the kernel on the `f64` instance of the model, and lifted to every recursion
bound by C16.
-/

namespace P2T

/-- `Builder::new(polygon).add_steiner_points(steiner).build().triangulate()` with `f64`. -/
def triangulateF64 (polygon steiner : List Point) (fuel : Nat) : Except Err (Triangles Unit) := do
  let b ← Builder.new (Source.ofPoints polygon)
  let b := b.addSteinerPoints (Source.ofPoints steiner)
  (b.build f64).triangulate fuel

theorem triangulateF64_fuel (l m : List Point) {f f' : Nat} (h : f ≤ f') :
    triangulateF64 l m f = .error .fuel ∨ triangulateF64 l m f = triangulateF64 l m f' := by
  unfold triangulateF64
  cases Builder.new (Source.ofPoints l) with
  | error e => exact .inr rfl
  | ok b => exact C16_triangulate _ h

/-- A conclusive outcome at one bound is the outcome at every conclusive bound. -/
theorem triangulateF64_all {l m : List Point} {f0 : Nat} {r} (h : triangulateF64 l m f0 = r)
    (hr : r ≠ .error .fuel) (f : Nat) : triangulateF64 l m f = .error .fuel ∨ triangulateF64 l m f = r := by
  rcases Nat.le_total f f0 with h' | h'
  · rcases triangulateF64_fuel l m h' with e | e
    · exact .inl e
    · exact .inr (e.trans h)
  · rcases triangulateF64_fuel l m h' with e | e
    · exact (hr (h.symm.trans e)).elim
    · exact .inr (e.symm.trans h)

def pointsOf (l : List (Nat × Nat)) : List Point := l.map fun p => ⟨p.1, p.2⟩

/-- A simple octagon with small integer coordinates. -/
def octagon : List Point := pointsOf [(11,2),(10,6),(17,5),(20,7),(17,10),(5,13),(6,12),(7,8)]

def failsWith (m : Except Err (Triangles Unit)) (e : Err) : Bool :=
  match m with
  | .error e' => decide (e' = e)
  | .ok _ => false

theorem failsWith_iff {m e} : failsWith m e = true ↔ m = .error e := by
  cases m <;> simp [failsWith]

/-- **C33** There is a simple polygon (integer coordinates, no Steiner points) on which `triangulate` panics:
with every recursion bound that is large enough the run ends in the panic of `update_triangle`. -/
theorem C33_simple_polygon_panics : ∃ l : List Point, SimplePolygon l ∧
    ∃ f0, ∀ f, f0 ≤ f → triangulateF64 l [] f = .error (.panic "update_triangle unwrap") := by
  have h : triangulateF64 octagon [] 12 = .error (.panic "update_triangle unwrap") :=
    failsWith_iff.1 (by decide +kernel)
  refine ⟨octagon, simple_of_check (by decide +kernel), 12, fun f hf => ?_⟩
  rcases triangulateF64_fuel octagon [] hf with e | e
  · rw [h] at e; cases e
  · rw [← e, h]

/-- The reported triangle number `i` as points. -/
def reported (t : Triangles Unit) (i : Nat) : Option (Point × Point × Point) := do
  let id ← t.result[i]?
  let T ← t.triangles[id]?
  let a ← t.points.points[T.points.a]?
  let b ← t.points.points[T.points.b]?
  let c ← t.points.points[T.points.c]?
  pure (a, b, c)

def dodecagon : List Point :=
  pointsOf [(15,16),(8,15),(14,9),(15,11),(16,16),(20,9),(16,7),(13,0),(5,19),(6,3),(1,17),(2,20)]

def hasInverted (m : Except Err (Triangles Unit)) : Bool :=
  match m with
  | .error _ => false
  | .ok t => (List.range t.result.length).any fun i =>
      match reported t i with
      | some (a, b, c) => decide (det2 a b c < 0)
      | none => false

/-- **C33** There is a simple polygon for which `triangulate` succeeds but reports a triangle whose
vertices are in clockwise order (twice the signed area is negative). -/
theorem C33_simple_polygon_inverted : ∃ l : List Point, SimplePolygon l ∧
    ∃ f0 t, (∀ f, f0 ≤ f → triangulateF64 l [] f = .ok t) ∧
      ∃ i a b c, reported t i = some (a, b, c) ∧ det2 a b c < 0 := by
  have h : hasInverted (triangulateF64 dodecagon [] 60) = true := by decide +kernel
  generalize hm : triangulateF64 dodecagon [] 60 = m at h
  cases m with
  | error e => cases h
  | ok t =>
    refine ⟨dodecagon, simple_of_check (by decide +kernel), 60, t, fun f hf => ?_, ?_⟩
    · rcases triangulateF64_fuel dodecagon [] hf with e | e
      · rw [hm] at e; cases e
      · rw [← e, hm]
    · simp only [hasInverted, List.any_eq_true, List.mem_range] at h
      obtain ⟨i, -, h⟩ := h
      split at h
      · rename_i a b c e
        exact ⟨i, a, b, c, e, by simpa using h⟩
      · cases h

/-- A quadrilateral and Steiner points, the fourth of which lies on an edge of it. -/
def quad : List Point := pointsOf [(6,4),(4,5),(1,6),(0,0)]
def quadSteiner : List Point := pointsOf [(0,3),(4,2),(1,1),(3,2),(5,4)]

/-- **C34** The safe API can reach undefined behaviour: a quadrilateral with a Steiner point on an edge
makes the edge flip read the triangle `INVALID` without a bounds check. -/
theorem C34_undefined_behaviour : ∃ l m : List Point, SimplePolygon l ∧ (l ++ m).Nodup ∧
    ∃ f0, ∀ f, f0 ≤ f → triangulateF64 l m f = .error (.ub "get_unchecked of INVALID") := by
  have h : triangulateF64 quad quadSteiner 40
      = .error (.ub "get_unchecked of INVALID") := failsWith_iff.1 (by decide +kernel)
  refine ⟨quad, quadSteiner, simple_of_check (by decide +kernel), by decide +kernel, 40, fun f hf => ?_⟩
  rcases triangulateF64_fuel quad quadSteiner hf with e | e
  · rw [h] at e; cases e
  · rw [← e, h]

end P2T
