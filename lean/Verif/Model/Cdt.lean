import Verif.Model.Sweep

/-!
# Builder, CDT and the result type

Models `/repo/src/cdt.rs` and the `PointDataSource` impls of `/repo/src/lib.rs`.
-/

namespace P2T

/-- `Builder`, `/repo/src/cdt.rs:74-78`. -/
structure Builder (D : Type) where
  pb : PointsBuilder
  data : List D

/-- The value of a `PointDataSource`, `/repo/src/lib.rs:23-44`.  For `Vec<Point>` the data is
`vec![(); len]`; for `(Vec<Point>, Vec<D>)` the two vectors are passed on unchecked. -/
structure Source (D : Type) where
  points : List Point
  data : List D

/-- `impl PointDataSource for Vec<Point>`, `/repo/src/lib.rs:29-36`. -/
def Source.ofPoints (ps : List Point) : Source Unit := ⟨ps, List.replicate ps.length ()⟩

/-- The building calls a user can chain after `Builder::new`, `/repo/src/cdt.rs:98-130`. -/
inductive BuildOp (D : Type) where
  | steinerPoint (p : Point) (d : D)
  | steinerPoints (s : Source D)
  | hole (s : Source D)
  | holes (ss : List (Source D))

namespace Builder

variable {D : Type}

/-- `Builder::new`, `/repo/src/cdt.rs:83-93`. -/
def new (s : Source D) : Except Err (Builder D) := do
  let pb ← PointsBuilder.empty.parsePolyline s.points
  pure ⟨pb, s.data⟩

/-- `add_steiner_point`, `/repo/src/cdt.rs:98-102`. -/
def addSteinerPoint (b : Builder D) (p : Point) (d : D) : Builder D :=
  ⟨(b.pb.addSteinerPoint p).1, b.data ++ [d]⟩

/-- `add_steiner_points`, `/repo/src/cdt.rs:105-110`. -/
def addSteinerPoints (b : Builder D) (s : Source D) : Builder D :=
  ⟨b.pb.addSteinerPoints s.points, b.data ++ s.data⟩

/-- `add_hole`, `/repo/src/cdt.rs:113-119`. -/
def addHole (b : Builder D) (s : Source D) : Except Err (Builder D) := do
  let pb ← b.pb.parsePolyline s.points
  pure ⟨pb, b.data ++ s.data⟩

/-- `add_holes`, `/repo/src/cdt.rs:122-130`. -/
def addHoles (b : Builder D) : List (Source D) → Except Err (Builder D)
  | [] => pure b
  | s :: ss => do
    let b ← b.addHole s
    b.addHoles ss

/-- One chained call. -/
def apply (b : Builder D) : BuildOp D → Except Err (Builder D)
  | .steinerPoint p d => pure (b.addSteinerPoint p d)
  | .steinerPoints s => pure (b.addSteinerPoints s)
  | .hole s => b.addHole s
  | .holes ss => b.addHoles ss

/-- A chain of calls. -/
def applyAll (b : Builder D) : List (BuildOp D) → Except Err (Builder D)
  | [] => pure b
  | o :: os => do
    let b ← b.apply o
    b.applyAll os

end Builder

/-- `CDT`, `/repo/src/cdt.rs:144-147`. -/
structure CDT (D : Type) where
  points : Ctx
  data : List D

/-- `Builder::build`, `/repo/src/cdt.rs:133-139`. -/
def Builder.build {D} (n : Num) (b : Builder D) : CDT D := ⟨b.pb.build n, b.data⟩

/-- `Triangles`, `/repo/src/cdt.rs:150-162`. -/
structure Triangles (D : Type) where
  points : Ctx
  data : List D
  triangles : Store
  result : List Nat
  next : Nat

/-- The state before the sweep, `/repo/src/cdt.rs:228-243`. -/
def initState (c : Ctx) : Except Err St := do
  let p0 ← unwrap (c.ySorted[0]?) "get_id_by_y(0) unwrap"
  let T := Tri.new p0 c.head c.tail
  let f ← Front.new T 0 c
  pure { tris := [T], front := f, result := [], trace := [] }

/-- `triangulate_with_observer`, `/repo/src/cdt.rs:227-262`; also returns the observer log. -/
def CDT.runG {D} (g : Trap) (fuel : Nat) (cdt : CDT D) : Except Err (Triangles D × St) := do
  let s ← initState cdt.points
  let s ← sweepPoints g cdt.points fuel s
  let s := s.emit .sweepDone
  let s ← finalizePolygon fuel s
  let s := s.emit .finalized
  pure (⟨cdt.points, cdt.data, s.tris, s.result, 0⟩, s)

/-- `triangulate_with_observer` as the code has it: no ghost trap. -/
def CDT.run {D} (fuel : Nat) (cdt : CDT D) : Except Err (Triangles D × St) := cdt.runG Trap.off fuel

/-- `triangulate`, `/repo/src/cdt.rs:222-224`. -/
def CDT.triangulate {D} (fuel : Nat) (cdt : CDT D) : Except Err (Triangles D) := do
  let (t, _) ← cdt.run fuel
  pure t

namespace Triangles

variable {D : Type}

/-- `points`, `/repo/src/cdt.rs:167-169`. -/
def pts (t : Triangles D) : List Point := t.points.pointsWithoutFake

/-- `data`, `/repo/src/cdt.rs:172-174`: the field itself. -/
def getData (t : Triangles D) : List D := t.data

/-- `triangle_list_indices`, `/repo/src/cdt.rs:179-192`. -/
def triangleListIndices (t : Triangles D) : Except Err (List Nat) := do
  let ls ← t.result.mapM fun id => do
    let T ← Store.getU t.triangles id
    pure [T.points.a, T.points.b, T.points.c]
  pure ls.flatten

/-- `Iterator::next`, `/repo/src/cdt.rs:198-217`. -/
def iterNext (t : Triangles D) : Except Err (Option (V3 Point) × Triangles D) :=
  if t.next < t.result.length then
    match t.result[t.next]? with
    | none => .error (.ub "result get_unchecked")
    | some id => do
      let T ← Store.getU t.triangles id
      let a ← t.points.pt T.points.a
      let b ← t.points.pt T.points.b
      let c ← t.points.pt T.points.c
      pure (some ⟨a, b, c⟩, { t with next := t.next + 1 })
  else pure (none, t)

/-- `collect()`: call `next` until it returns `None`. -/
def collect (t : Triangles D) : Nat → Except Err (List (V3 Point))
  | 0 => .error .fuel
  | fuel + 1 => do
    let (o, t) ← t.iterNext
    match o with
    | none => pure []
    | some x => do
      let xs ← collect t fuel
      pure (x :: xs)

end Triangles

/-! ## Verification helpers exposed to observers -/

/-- `is_legalize`, `/repo/src/sweeper.rs:151-183`, for one corner. -/
def isLegalizeAt (c : Ctx) (ts : Store) (t : Nat) (i : Fin 3) : Except Err (Option Nat) := do
  let T ← Store.getU ts t
  match T.neighbors.get i with
  | none => pure none
  | some ot => do
    let O ← Store.getU ts ot
    let p := T.points.get i
    let op ← O.oppositePoint T p
    let oi ← unwrap (O.pointIndex op) "point_index unwrap"
    if O.isConstrained oi then pure none
    else
      let pp ← c.pt p
      let a ← c.pt (← T.pointCcw p)
      let b ← c.pt (← T.pointCw p)
      let d ← c.pt op
      if inCircle pp a b d then pure (some ot) else pure none

/-- `illegal_triangles`, `/repo/src/sweeper.rs:1223-1241`. -/
def illegalTriangles (c : Ctx) (ts : Store) : Except Err (List (Nat × Nat)) := do
  let ls ← (List.range ts.length).mapM fun t => do
    let l ← ([0, 1, 2] : List (Fin 3)).mapM fun i => isLegalizeAt c ts t i
    pure ((l.filterMap id).map fun o => (t, o))
  pure ls.flatten

/-- `verify_triangles`, `/repo/src/sweeper.rs:1217-1219`. -/
def verifyTriangles (c : Ctx) (ts : Store) : Except Err Bool := do
  let l ← illegalTriangles c ts
  pure l.isEmpty

end P2T
