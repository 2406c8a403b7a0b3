import Verif.Spec.Input

/-!
# Specification: inputs on which the theorems about whole runs hold

`FineInput n pts` says: the points are different, the two artificial points enclose them, and the crate's own
float arithmetic (the angle test of the filling and the scan-area test of the edge flips, which are *not*
computed with robust predicates) does not report a wrong sign on these points.

It is a decidable condition on the points alone; the polygons, holes and edges do not enter.  With exact
arithmetic it holds for all different points that are not on one axis-parallel line and whose different
x-coordinates differ by more than `Float::EPSILON` (`fine_exact`).  It is checked by evaluation for concrete
`f64` inputs.
-/

namespace P2T

/-- The run-time points: the input points and the two artificial points of `Points::new`. -/
def withArtificial (n : Num) (pts : List Point) : List Point := (Ctx.new n pts []).points

/-- The left artificial point. -/
def artLeft (n : Num) (pts : List Point) : Point := (withArtificial n pts).getD pts.length ⟨0, 0⟩
/-- The right artificial point. -/
def artRight (n : Num) (pts : List Point) : Point := (withArtificial n pts).getD (pts.length + 1) ⟨0, 0⟩

/-- The float arithmetic gives no wrong sign on the points `all`.  `angle`: a corner that really turns left
is not called a right turn.  `scan`: the scan test answers "clearly negative" / "clearly positive" only if the
exact orientation says so. -/
structure Faithful (n : Num) (all : List Point) : Prop where
  angle : ∀ o ∈ all, ∀ a ∈ all, ∀ b ∈ all, det2 o a b < 0 → (Angle.new n o a b).dy < 0
  scanNeg : ∀ a ∈ all, ∀ b ∈ all, ∀ d ∈ all, scanDet n a b d < -n.eps → det2 a d b < 0
  scanPos : ∀ a ∈ all, ∀ b ∈ all, ∀ d ∈ all, n.eps < scanDet n a b d → 0 < det2 a d b

/-- See the head of the file. -/
structure FineInput (n : Num) (pts : List Point) : Prop where
  nonempty : pts ≠ []
  size : pts.length + 2 ≤ 2 ^ 32
  distinct : pts.Nodup
  enclosed : ∀ p ∈ pts, (artLeft n pts).x < p.x ∧ p.x < (artRight n pts).x ∧ (artLeft n pts).y < p.y
  /-- `p.x <= q.x + EPSILON` only if `p.x <= q.x` -/
  apart : ∀ p ∈ pts, ∀ q ∈ pts, p.x ≤ n.rnd (q.x + n.eps) → p.x ≤ q.x
  faithful : Faithful n (withArtificial n pts)

instance (n : Num) (all : List Point) : Decidable (Faithful n all) :=
  decidable_of_iff ((∀ o ∈ all, ∀ a ∈ all, ∀ b ∈ all, det2 o a b < 0 → (Angle.new n o a b).dy < 0) ∧
    (∀ a ∈ all, ∀ b ∈ all, ∀ d ∈ all, scanDet n a b d < -n.eps → det2 a d b < 0) ∧
    (∀ a ∈ all, ∀ b ∈ all, ∀ d ∈ all, n.eps < scanDet n a b d → 0 < det2 a d b))
    ⟨fun h => ⟨h.1, h.2.1, h.2.2⟩, fun h => ⟨h.1, h.2, h.3⟩⟩

instance (n : Num) (pts : List Point) : Decidable (FineInput n pts) :=
  decidable_of_iff (pts ≠ [] ∧ pts.length + 2 ≤ 2 ^ 32 ∧ pts.Nodup ∧
    (∀ p ∈ pts, (artLeft n pts).x < p.x ∧ p.x < (artRight n pts).x ∧ (artLeft n pts).y < p.y) ∧
    (∀ p ∈ pts, ∀ q ∈ pts, p.x ≤ n.rnd (q.x + n.eps) → p.x ≤ q.x) ∧ Faithful n (withArtificial n pts))
    ⟨fun h => ⟨h.1, h.2.1, h.2.2.1, h.2.2.2.1, h.2.2.2.2.1, h.2.2.2.2.2⟩,
     fun h => ⟨h.1, h.2, h.3, h.4, h.5, h.6⟩⟩

/-- What a user writes, with ghost traps (see `Trap`): a success of `programG ⟨true, _⟩` is a run of the code
that does not take the branch at `sweeper.rs:698`. -/
def programG {D} (g : Trap) (n : Num) (fuel : Nat) (poly : Source D) (ops : List (BuildOp D)) :
    Except Err (Triangles D × St) := do
  let b ← buildChain poly ops
  (b.build n).runG g fuel

end P2T
