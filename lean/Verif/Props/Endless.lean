import Verif.Proofs.Diverge
import Verif.Props.Defects
import Verif.Props.Dip

/-!
# C45: simple polygons are triangulated in finite time (refuted)

A simple heptagon in general position on which `triangulate` never ends: `fill_right_below_edge_event` calls itself with unchanged arguments.
-/

namespace P2T

/-- A simple polygon with seven corners. -/
def heptagon : List Point := pointsOf [(20,100),(70,480),(390,380),(470,320),(80,420),(100,370),(110,340)]

def heptagonSrc : Source Unit := Source.ofPoints heptagon

/-- The heptagon meets every hypothesis of C39 and C40. -/
theorem heptagon_fine : FineInput f64 (allPoints (piecesOf heptagonSrc [])) ∧ GeneralPosition (runPts f64 heptagonSrc []) ∧ NoTouch heptagonSrc [] ∧
    ScanComplete f64 (runPts f64 heptagonSrc []) ∧ EpsUp f64 (allPoints (piecesOf heptagonSrc [])) ∧ EdgesApart heptagonSrc [] ∧
    ∀ p ∈ piecesOf heptagonSrc [], p.Ok := by
  refine ⟨?_, ?_, ?_, ?_, ?_, ?_, ?_⟩ <;> decide +kernel

/-- The run of what the builder calls return gets to a state in which the code calls itself with unchanged arguments. -/
def buildLoops (m : Except Err (Builder Unit)) (k : Nat) : Bool :=
  match m with
  | .ok b => runLoops (b.build f64) k
  | .error _ => false

theorem buildLoops_fuel {m : Except Err (Builder Unit)} {k : Nat} (h : buildLoops m k = true) (f : Nat) :
    (do let b ← m; (b.build f64).run f) = .error .fuel := by
  cases m with
  | error e => cases h
  | ok b => exact runLoops_fuel h f

theorem heptagon_program (f : Nat) : program f64 f heptagonSrc [] = .error .fuel :=
  buildLoops_fuel (m := buildChain heptagonSrc []) (k := 30) (by decide +kernel) f

theorem heptagon_triangulate (f : Nat) : triangulateF64 heptagon [] f = .error .fuel := by
  have := buildLoops_fuel (m := do let b ← Builder.new (Source.ofPoints heptagon); pure (b.addSteinerPoints (Source.ofPoints []))) (k := 30)
    (by decide +kernel) f
  unfold triangulateF64 CDT.triangulate
  cases e : Builder.new (Source.ofPoints heptagon) with
  | error e' => rw [e] at this; cases this; rfl
  | ok b =>
    simp only [e, bind, Except.bind, pure, Except.pure] at this ⊢
    rw [this]

/-- **C45** There is a simple polygon (integer coordinates, no Steiner points, no three corners on a line) on which `triangulate` does not
end: every recursion bound runs out. -/
theorem C45_endless : ∃ l : List Point, SimplePolygon l ∧ (∀ a ∈ l, ∀ b ∈ l, ∀ c ∈ l, a ≠ b → b ≠ c → a ≠ c → det2 a b c ≠ 0) ∧
    ∀ f, triangulateF64 l [] f = .error .fuel :=
  ⟨heptagon, simple_of_check (by decide +kernel), by decide +kernel, heptagon_triangulate⟩

/-- **C45** The second alternative of C40 cannot be dropped: an input that meets all the hypotheses of C40 (and is a simple polygon), on
which the code has no result with any bound. -/
theorem C45_hypotheses : ∃ (n : Num) (poly : Source Unit) (ops : List (BuildOp Unit)),
    FineInput n (allPoints (piecesOf poly ops)) ∧ GeneralPosition (runPts n poly ops) ∧ NoTouch poly ops ∧ ScanComplete n (runPts n poly ops) ∧
    EpsUp n (allPoints (piecesOf poly ops)) ∧ EdgesApart poly ops ∧ (∀ p ∈ piecesOf poly ops, p.Ok) ∧
    ∀ f, program n f poly ops = .error .fuel := by
  obtain ⟨h1, h2, h3, h4, h5, h6, h7⟩ := heptagon_fine
  exact ⟨f64, heptagonSrc, [], h1, h2, h3, h4, h5, h6, h7, heptagon_program⟩

end P2T
