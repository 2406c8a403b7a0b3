import Verif.Model.Shape

/-!
# The point store and its builder

Models `/repo/src/points.rs` and `parse_polyline` of `/repo/src/cdt.rs`.
-/

namespace P2T

/-- `len as NumType` with `NumType = u32`, `/repo/src/points.rs:8`, `:47`, `:137`, `:168`, `:173`. -/
def asU32 (n : Nat) : Nat := n % 2 ^ 32

/-- `PointEdges`, `/repo/src/points.rs:69-73`. -/
inductive PointEdges where
  | none
  | one (p : Nat)
  | two (p q : Nat)
  deriving DecidableEq, Repr

/-- `PointEdges::push`, `/repo/src/points.rs:76-82`. -/
def PointEdges.push (e : PointEdges) (p : Nat) : Except Err PointEdges :=
  match e with
  | .none => .ok (.one p)
  | .one p0 => .ok (.two p0 p)
  | .two _ _ => .error (.panic "one point only has two edges")

/-- `Iterator for PointEdges`, `/repo/src/points.rs:91-110`: one `next` call. -/
def PointEdges.next (e : PointEdges) : Option Nat × PointEdges :=
  match e with
  | .none => (Option.none, .none)
  | .one p => (some p, .none)
  | .two p q => (some p, .one q)

/-- The items a `for p in edges` loop visits (`/repo/src/sweeper.rs:50`). -/
def PointEdges.toList (e : PointEdges) : List Nat :=
  match e with
  | .none => []
  | .one p => [p]
  | .two p q => [p, q]

/-- `PointsBuilder`, `/repo/src/points.rs:31-35`. -/
structure PointsBuilder where
  points : List Point
  edges : List PointEdges
  deriving DecidableEq, Repr

namespace PointsBuilder

/-- `with_capacity`, `/repo/src/points.rs:38-43`. -/
def empty : PointsBuilder := ⟨[], []⟩

/-- `add_steiner_point`, `/repo/src/points.rs:46-51`. -/
def addSteinerPoint (b : PointsBuilder) (p : Point) : PointsBuilder × Nat :=
  (⟨b.points ++ [p], b.edges ++ [.none]⟩, asU32 b.points.length)

/-- `Vec::resize(n, v)`. -/
def resize {α} (l : List α) (n : Nat) (v : α) : List α :=
  if n ≤ l.length then l.take n else l ++ List.replicate (n - l.length) v

/-- `add_steiner_points`, `/repo/src/points.rs:54-57`. -/
def addSteinerPoints (b : PointsBuilder) (ps : List Point) : PointsBuilder :=
  let points := b.points ++ ps
  ⟨points, resize b.edges points.length .none⟩

/-- `get_edges_mut(q).unwrap().push(p)`, `/repo/src/points.rs:59-61` with `/repo/src/cdt.rs:279`,
`:284`. -/
def pushEdge (b : PointsBuilder) (e : Edge) : Except Err PointsBuilder :=
  match b.edges[e.q]? with
  | none => .error (.panic "get_edges_mut unwrap")
  | some pe => do
    let pe' ← pe.push e.p
    pure { b with edges := b.edges.set e.q pe' }

/-- The first pass of `parse_polyline`, `/repo/src/cdt.rs:267-271`: add every point, keep its id. -/
def addAll (b : PointsBuilder) : List Point → PointsBuilder × List (Nat × Point)
  | [] => (b, [])
  | p :: ps =>
    let (b, i) := b.addSteinerPoint p
    let (b, rest) := b.addAll ps
    (b, (i, p) :: rest)

/-- The `loop` of `parse_polyline`, `/repo/src/cdt.rs:275-288`. -/
def polyLoop (first : Nat × Point) (b : PointsBuilder) (last : Nat × Point) :
    List (Nat × Point) → Except Err PointsBuilder
  | [] => do
    let e ← Edge.new last first
    b.pushEdge e
  | p2 :: rest => do
    let e ← Edge.new last p2
    let b ← b.pushEdge e
    polyLoop first b p2 rest

/-- `parse_polyline`, `/repo/src/cdt.rs:265-290`. -/
def parsePolyline (b : PointsBuilder) (polyline : List Point) : Except Err PointsBuilder :=
  let (b, ids) := b.addAll polyline
  match ids with
  | [] => .ok b
  | first :: rest => polyLoop first b first rest

end PointsBuilder

/-- `Points`, `/repo/src/points.rs:113-120`, together with the float parameters. -/
structure Ctx where
  num : Num
  points : List Point
  edges : List PointEdges
  ySorted : List Nat
  head : Nat
  tail : Nat

/-- The comparator of `sort_by` returning `Ordering::Less`, `/repo/src/points.rs:142-157`. -/
def sweepLess (p1 p2 : Point) : Bool :=
  if p1.y < p2.y then true
  else if p1.y = p2.y then decide (p1.x < p2.x)
  else false

/-- Insertion of one element by a stable sort whose comparator says `Less` exactly when `lt`. -/
def insertBy {α} (lt : α → α → Bool) (x : α) : List α → List α
  | [] => [x]
  | y :: ys => if lt x y then x :: y :: ys else y :: insertBy lt x ys

/-- `sort_by` / `sort_unstable_by_key`.  The library sorts are modelled by a stable insertion sort;
for pairwise different keys every sorting algorithm returns this list, for equal keys the order is
left unspecified by Rust (and this crate documents duplicate points as unsupported). -/
def sortBy {α} (lt : α → α → Bool) (l : List α) : List α :=
  l.foldl (fun acc x => insertBy lt x acc) []

/-- `f64::max` / `f64::min` on finite floats, `/repo/src/points.rs:132-135`. -/
def fmax (a b : Rat) : Rat := if a < b then b else a
/-- See `fmax`. -/
def fmin (a b : Rat) : Rat := if b < a then b else a

/-- `Points::new`, `/repo/src/points.rs:123-187`. -/
def Ctx.new (n : Num) (points : List Point) (edges : List PointEdges) : Ctx :=
  let xmax := points.foldl (fun m p => fmax m p.x) n.lo
  let xmin := points.foldl (fun m p => fmin m p.x) n.hi
  let ymax := points.foldl (fun m p => fmax m p.y) n.lo
  let ymin := points.foldl (fun m p => fmin m p.y) n.hi
  let unsorted := points.zipIdx.map (fun (p, i) => (asU32 i, p))
  let sorted := sortBy (fun a b => sweepLess a.2 b.2) unsorted
  let dx := n.rnd (n.rnd (xmax - xmin) * n.k03)
  let dy := n.rnd (n.rnd (ymax - ymin) * n.k03)
  let head : Point := ⟨n.rnd (xmin - dx), n.rnd (ymin - dy)⟩
  let tail : Point := ⟨n.rnd (xmax + dx), n.rnd (ymin - dy)⟩
  { num := n
    points := points ++ [head] ++ [tail]
    edges := edges ++ [.none] ++ [.none]
    ySorted := sorted.map (·.1)
    head := asU32 points.length
    tail := asU32 (points.length + 1) }

/-- `PointsBuilder::build`, `/repo/src/points.rs:63-65`. -/
def PointsBuilder.build (n : Num) (b : PointsBuilder) : Ctx := Ctx.new n b.points b.edges

/-- `get_point_uncheck`, `PointId::get`, `/repo/src/points.rs:26-28`, `:199-201`. -/
def Ctx.pt (c : Ctx) (i : Nat) : Except Err Point :=
  match c.points[i]? with
  | some p => .ok p
  | none => .error (.ub "point get_unchecked")

/-- `points_without_fake`, `/repo/src/points.rs:244-246`. -/
def Ctx.pointsWithoutFake (c : Ctx) : List Point := c.points.take (c.points.length - 2)

/-- `iter_point_by_y(order)`, `/repo/src/points.rs:203-213`. -/
def Ctx.iterByY (c : Ctx) (order : Nat) : Except Err (List (Nat × Point × PointEdges)) :=
  (c.ySorted.drop order).mapM fun id => do
    let p ← c.pt id
    match c.edges[id]? with
    | some e => pure (id, p, e)
    | none => .error (.ub "edges get_unchecked")

end P2T
