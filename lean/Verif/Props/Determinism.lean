import Verif.Proofs.Mono

/-!
# C16: the result does not depend on the recursion bound of the model

`CDT.run fuel` is the model of `triangulate_with_observer`.  Whatever it answers other than "out of fuel"
is its answer for every larger bound, so a Rust run has one well defined outcome.
-/

namespace P2T

/-- **C16** A successful run gives the same triangles, data and callbacks with any larger bound. -/
theorem C16_result_independent_of_bound {D} (cdt : CDT D) {f f' : Nat} (h : f ≤ f')
    {r : Triangles D × St} (hr : cdt.run f = .ok r) : cdt.run f' = .ok r := by
  rcases run_fuel cdt h with e | e
  · rw [e] at hr; cases hr
  · rw [← e, hr]

/-- **C16** The same for failures: a panic (or undefined behaviour) does not go away with a larger bound. -/
theorem C16_failure_independent_of_bound {D} (cdt : CDT D) {f f' : Nat} (h : f ≤ f') {e : Err}
    (hr : cdt.run f = .error e) (he : e ≠ .fuel) : cdt.run f' = .error e := by
  rcases run_fuel cdt h with e' | e'
  · rw [e'] at hr; cases hr; contradiction
  · rw [← e', hr]

/-- **C16** Any two conclusive runs on the same input agree completely. -/
theorem C16_deterministic {D} (cdt : CDT D) {f f' : Nat}
    (h1 : cdt.run f ≠ .error .fuel) (h2 : cdt.run f' ≠ .error .fuel) : cdt.run f = cdt.run f' := by
  rcases Nat.le_total f f' with h | h
  · exact (run_fuel cdt h).resolve_left h1
  · exact ((run_fuel cdt h).resolve_left h2).symm

/-- The public `triangulate` without observer. -/
theorem C16_triangulate {D} (cdt : CDT D) {f f' : Nat} (h : f ≤ f') :
    cdt.triangulate f = .error .fuel ∨ cdt.triangulate f = cdt.triangulate f' := by
  unfold CDT.triangulate
  rcases run_fuel cdt h with e | e <;> rw [e]
  · exact .inl rfl
  · exact .inr rfl

end P2T
