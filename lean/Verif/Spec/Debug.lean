import Verif.Model.Debug
import Verif.Spec.Input

/-!
# Specification: the program in a debug build
-/

namespace P2T

/-- What a user writes, compiled with debug assertions (`program` is the same without them). -/
def programD {D} (n : Num) (fuel : Nat) (poly : Source D) (ops : List (BuildOp D)) : Except Err (Triangles D × St) := do
  let b ← buildChain poly ops
  (b.build n).runD fuel

end P2T
