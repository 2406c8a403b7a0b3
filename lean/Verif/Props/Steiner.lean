import Verif.Props.Defects
import Verif.Spec.General

/-!
# C58: the documented claim that a Steiner point outside the polygon has no effect

`/repo/src/cdt.rs:95-98`, the doc comment of `add_steiner_point`: "if the point locates outside of polyline, then it has no effect on the final result".
-/

namespace P2T

def kite : List Point := pointsOf [(10,10),(19,11),(20,20),(11,18)]

/-- **C58.**  A simple polygon with four corners and a Steiner point outside it, to the left of all its corners: without the Steiner point `triangulate` reports
two triangles, with it `triangulate` returns normally and reports none. -/
theorem C58_outside_steiner : ∃ (l : List Point) (z : Point), SimplePolygon l ∧ l.length = 4 ∧ (∀ p ∈ l, z.x < p.x) ∧
    ∃ f0 t t', (∀ f, f0 ≤ f → triangulateF64 l [] f = .ok t) ∧ (∀ f, f0 ≤ f → triangulateF64 l [z] f = .ok t') ∧
      t.result.length = 2 ∧ t'.result = [] := by
  have h : (match triangulateF64 kite [] 80 with | .ok t => decide (t.result.length = 2) | .error _ => false) = true := by decide +kernel
  have h' : (match triangulateF64 kite [⟨5, 15⟩] 80 with | .ok t => t.result.isEmpty | .error _ => false) = true := by decide +kernel
  generalize hm : triangulateF64 kite [] 80 = r at h
  generalize hm' : triangulateF64 kite [⟨5, 15⟩] 80 = r' at h'
  cases r with
  | error e => cases h
  | ok t =>
    cases r' with
    | error e => cases h'
    | ok t' =>
      refine ⟨kite, ⟨5, 15⟩, simple_of_check (by decide +kernel), rfl, by decide +kernel, 80, t, t', fun f hf => ?_, fun f hf => ?_,
        of_decide_eq_true h, List.isEmpty_iff.mp h'⟩
      · rcases triangulateF64_fuel kite [] hf with e | e
        · rw [hm] at e; cases e
        · rw [← e, hm]
      · rcases triangulateF64_fuel kite [⟨5, 15⟩] hf with e | e
        · rw [hm'] at e; cases e
        · rw [← e, hm']

/-- The same polygon with an outside Steiner point to the right of the leftmost corner: two triangles, the corners of both among the corners of the polygon. -/
example : (match triangulateF64 kite (pointsOf [(15,25)]) 80 with
    | .ok t => t.result.length == 2 && (List.range 2).all fun i => match reported t i with
        | some (a, b, c) => decide (a ∈ kite ∧ b ∈ kite ∧ c ∈ kite)
        | none => false
    | .error _ => false) = true := by decide +kernel

end P2T
