import Verif.Model.Cdt

/-!
# Specification: what a chain of builder calls describes

A chain is flattened into pieces: closed polylines and groups of Steiner points, in call order.  Points are
numbered through in that order.  The input edges are the cyclic edges of the polylines, each written with
its lower end (by `y`, then `x`) first.
-/

namespace P2T

inductive Piece where
  | polyline (ps : List Point)
  | steiner (ps : List Point)

def Piece.pts : Piece → List Point
  | .polyline ps => ps
  | .steiner ps => ps

/-- The pieces of one builder call. -/
def BuildOp.pieces {D} : BuildOp D → List Piece
  | .steinerPoint p _ => [.steiner [p]]
  | .steinerPoints s => [.steiner s.points]
  | .hole s => [.polyline s.points]
  | .holes ss => ss.map fun s => .polyline s.points

/-- The data of one builder call. -/
def BuildOp.datas {D} : BuildOp D → List D
  | .steinerPoint _ d => [d]
  | .steinerPoints s => s.data
  | .hole s => s.data
  | .holes ss => ss.flatMap (·.data)

/-- The pieces of `Builder::new(poly)` followed by the calls `ops`. -/
def piecesOf {D} (poly : Source D) (ops : List (BuildOp D)) : List Piece :=
  .polyline poly.points :: ops.flatMap BuildOp.pieces

/-- All points, in call order. -/
def allPoints (ps : List Piece) : List Point := ps.flatMap Piece.pts

/-- The pairs of cyclically consecutive elements. -/
def cyclicPairs {α} : List α → List (α × α)
  | [] => []
  | a :: l => (a :: l).zip (l ++ [a])

/-- The sweep order: lower, or equally high and further left. -/
def Below (p q : Point) : Prop := p.y < q.y ∨ (p.y = q.y ∧ p.x < q.x)

instance (p q : Point) : Decidable (Below p q) := by unfold Below; infer_instance

/-- An edge between numbered points, lower end first. -/
def orientEdge (a b : Nat × Point) : Nat × Nat := if Below b.2 a.2 then (b.1, a.1) else (a.1, b.1)

/-- The edges of the closed polyline whose points are numbered from `off`. -/
def polylineEdges (off : Nat) (ps : List Point) : List (Nat × Nat) :=
  (cyclicPairs ((List.range' off ps.length).zip ps)).map fun x => orientEdge x.1 x.2

/-- All edges of the pieces, numbered from `off`. -/
def pieceEdges : Nat → List Piece → List (Nat × Nat)
  | _, [] => []
  | off, .polyline ps :: rest => polylineEdges off ps ++ pieceEdges (off + ps.length) rest
  | off, .steiner ps :: rest => pieceEdges (off + ps.length) rest

/-- No polyline has two equal cyclically consecutive points. -/
def NoRepeat (ps : List Point) : Prop := ∀ x ∈ cyclicPairs ps, x.1 ≠ x.2

def Piece.Ok : Piece → Prop
  | .polyline ps => NoRepeat ps
  | .steiner _ => True

/-- `Builder::new(poly)` followed by a chain of calls. -/
def buildChain {D} (poly : Source D) (ops : List (BuildOp D)) : Except Err (Builder D) := do
  let b ← Builder.new poly
  b.applyAll ops

/-- What a user writes: build, `build()`, `triangulate_with_observer`. -/
def program {D} (n : Num) (fuel : Nat) (poly : Source D) (ops : List (BuildOp D)) : Except Err (Triangles D × St) := do
  let b ← buildChain poly ops
  (b.build n).run fuel

end P2T
