import Verif.Spec.Protocol

/-!
# Specification: the callbacks of legalization, with the number of triangles at each callback

Lists of callbacks, oldest first, each with the number of triangles that the observer finds in the store at that callback.
-/

namespace P2T

/-- The callbacks inside one legalization: each step either leaves a triangle alone or flips an edge, announced by `rotated`.  The number `n` of triangles does not change, and the ids are those of triangles. -/
inductive LegalSteps (n : Nat) : List (Ev × Nat) → Prop
  | nil : LegalSteps n []
  | checked {t l} : t < n → LegalSteps n l → LegalSteps n ((.legalizeStep t, n) :: l)
  | flipped {t o l} : t < n → o < n → t ≠ o → LegalSteps n l → LegalSteps n ((.rotated t o, n) :: (.legalizeStep t, n) :: l)

/-- A row of complete legalizations: `will_legalize` and `legalized` with the same id enclose each, none is inside another, and the number of triangles grows only between them,
from (at least) `n` before to `m` after. -/
inductive LegalBlocks : Nat → List (Ev × Nat) → Nat → Prop
  | nil {n m} : n ≤ m → LegalBlocks n [] m
  | block {n k m t l r} : n ≤ k → t < k → LegalSteps k l → l ≠ [] → LegalBlocks k r m → LegalBlocks n ((.willLegalize t, k) :: l ++ (.legalized t, k) :: r) m

/-- The edge events of the point `q`, whose lower ends are given. -/
inductive EdgeBlocks (q : Nat) : List Nat → Nat → List (Ev × Nat) → Nat → Prop
  | nil {n} : EdgeBlocks q [] n [] n
  | edge {p ps n k m l r} : LegalBlocks n l k → EdgeBlocks q ps k r m → EdgeBlocks q (p :: ps) n (l ++ (.edge p q, k) :: r) m

/-- The sweep over some points, each with the lower ends of its edges: a point event adds a triangle before its first legalization. -/
inductive SweepBlocks : List (Nat × List Nat) → Nat → List (Ev × Nat) → Nat → Prop
  | nil {n} : SweepBlocks [] n [] n
  | point {q ps rest n k k' m l e r} : LegalBlocks (n + 1) l k → l ≠ [] → EdgeBlocks q ps k e k' → SweepBlocks rest k' r m →
      SweepBlocks ((q, ps) :: rest) n ((.enterPoint q, n) :: l ++ (.exitPoint q, k) :: e ++ r) m

/-- All callbacks of a run with the numbers of triangles, oldest first. -/
def St.counts (s : St) : List (Ev × Nat) := (s.trace.map fun x => (x.1, x.2.tris.length)).reverse

/-- The triangle ids that a callback passes to the observer. -/
def Ev.ids : Ev → List Nat
  | .willLegalize t | .legalizeStep t | .legalized t => [t]
  | .rotated t o => [t, o]
  | _ => []

end P2T
