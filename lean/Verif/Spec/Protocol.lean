import Verif.Model.Cdt

/-!
# Specification: the observer protocol
-/

namespace P2T

/-- A callback made by legalization. -/
def IsLegalizationCall (e : Ev) : Prop :=
  (∃ t, e = .willLegalize t) ∨ (∃ t, e = .legalizeStep t) ∨ (∃ t o, e = .rotated t o) ∨ ∃ t, e = .legalized t

/-- The callbacks of the edge events of the point `q`, whose lower ends are given. -/
inductive EdgeCalls (q : Nat) : List Nat → List Ev → Prop
  | nil : EdgeCalls q [] []
  | edge {p ps l r} : (∀ e ∈ l, IsLegalizationCall e) → EdgeCalls q ps r → EdgeCalls q (p :: ps) (l ++ .edge p q :: r)

/-- The callbacks of the sweep over some points, each with the lower ends of its edges. -/
inductive SweepCalls : List (Nat × List Nat) → List Ev → Prop
  | nil : SweepCalls [] []
  | point {q ps rest l m r} : (∀ e ∈ l, IsLegalizationCall e) → EdgeCalls q ps m → SweepCalls rest r →
      SweepCalls ((q, ps) :: rest) (.enterPoint q :: l ++ .exitPoint q :: m ++ r)

/-- All callbacks of a run, oldest first. -/
def St.events (s : St) : List Ev := (s.trace.map Prod.fst).reverse

/-- The edge events among some callbacks. -/
def edgesOf : List Ev → List (Nat × Nat)
  | [] => []
  | .edge p q :: es => (p, q) :: edgesOf es
  | _ :: es => edgesOf es

end P2T
