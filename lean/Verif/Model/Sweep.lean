import Verif.Model.Front
import Verif.Model.Store

/-!
# The sweep

Models `/repo/src/sweeper.rs`.  `&mut self` becomes a state that is returned; a panic or undefined
behaviour is an `Err`; every Rust `loop`, `while` and recursion takes a `fuel` argument and reports
`Err.fuel` when it runs out.  The three reusable scratch vectors of `Sweeper` are empty between calls
(each user drains what it pushed) and are modelled as local lists.  Observer callbacks receive
`&Sweeper`; the model records, newest first, each callback with a snapshot of what it can read.
-/

namespace P2T

/-- The `Observer` callbacks, `/repo/src/cdt.rs:10-45`. -/
inductive Ev where
  | enterPoint (p : Nat)
  | exitPoint (p : Nat)
  | edge (p q : Nat)
  | sweepDone
  | finalized
  | willLegalize (t : Nat)
  | legalizeStep (t : Nat)
  | rotated (t ot : Nat)
  | legalized (t : Nat)
  deriving DecidableEq, Repr

/-- What a callback can read of the `Sweeper` it is given (`/repo/src/sweeper.rs:10-14`). -/
structure Snap where
  tris : Store
  front : Front
  result : List Nat

/-- `Sweeper`, `/repo/src/sweeper.rs:10-22`, and the log of observer callbacks (newest first). -/
structure St where
  tris : Store
  front : Front
  result : List Nat
  trace : List (Ev × Snap)

/-- Ghost switches that the code does not have; with all of them off (`Trap.off`) the model is the
code.  `l698` and `col` stop the model with `Err.trapped` when the corresponding branch of the code is
taken.  They let a theorem say "in every run that does not take this branch".
`l698`: the branch at `/repo/src/sweeper.rs:698` (the right convex scan found a concave node).
`col`: the two collinear branches at `/repo/src/sweeper.rs:847-863` and `:871-888`.
`fix`: not a trap but a repaired program: the call at `/repo/src/sweeper.rs:698` gets the next node as
its argument, as the mirrored call at `/repo/src/sweeper.rs:778` does. -/
structure Trap where
  l698 : Bool
  col : Bool
  fix : Bool := false
  deriving DecidableEq, Repr

/-- The code as it is. -/
def Trap.off : Trap := ⟨false, false, false⟩

/-- The code with line 698 repaired. -/
def Trap.repaired : Trap := ⟨false, false, true⟩

/-- The branch at line 698 is excluded or repaired. -/
class Trap.Tame (g : Trap) : Prop where
  tame : g.l698 = true ∨ g.fix = true

instance {b d : Bool} : Trap.Tame ⟨true, b, d⟩ := ⟨.inl rfl⟩
instance {a b : Bool} : Trap.Tame ⟨a, b, true⟩ := ⟨.inr rfl⟩
instance : Trap.Tame Trap.repaired := ⟨.inr rfl⟩

/-- The same with the collinear branches trapped as well. -/
abbrev Trap.strict (g : Trap) : Trap := ⟨g.l698, true, g.fix⟩

instance {g : Trap} [h : g.Tame] : Trap.Tame g.strict := ⟨h.tame⟩

def St.snap (s : St) : Snap := ⟨s.tris, s.front, s.result⟩
/-- A call of an observer method. -/
def St.emit (s : St) (e : Ev) : St := { s with trace := (e, s.snap) :: s.trace }

/-- `.unwrap()` / `.expect(..)` on an `Option`. -/
def unwrap {α} (o : Option α) (msg : String) : Except Err α :=
  match o with
  | some a => .ok a
  | none => .error (.panic msg)

/-! ## Legalization -/

/-- One iteration of the `for point_idx in 0..3` test of `legalize`, `/repo/src/sweeper.rs:200-220`:
`some (p, ot, op)` if the edge opposite `p` has to be flipped. -/
def illegalAt (c : Ctx) (ts : Store) (t : Nat) (i : Fin 3) :
    Except Err (Option (Nat × Nat × Nat)) := do
  let T ← Store.getU ts t
  if T.isConstrained i || T.isDelaunay i then pure none
  else match T.neighbors.get i with
    | none => pure none
    | some ot => do
      let O ← Store.getU ts ot
      let p := T.points.get i
      let op ← O.oppositePoint T p
      let pp ← c.pt p
      let a ← c.pt (← T.pointCcw p)
      let b ← c.pt (← T.pointCw p)
      let d ← c.pt op
      if inCircle pp a b d then pure (some (p, ot, op)) else pure none

/-- The `for point_idx in 0..3` loop with its `break`, `/repo/src/sweeper.rs:199-251` (nothing is
modified before the `break`). -/
def firstIllegal (c : Ctx) (ts : Store) (t : Nat) :
    List (Fin 3) → Except Err (Option (Nat × Nat × Nat))
  | [] => pure none
  | i :: is => do
    match ← illegalAt c ts t i with
    | some r => pure (some r)
    | none => firstIllegal c ts t is

/-- The `while let Some(triangle_id) = task_queue.pop()` loop of `legalize`,
`/repo/src/sweeper.rs:198-254`.  The head of `queue` is the top of the Rust stack. -/
def legalizeLoop (c : Ctx) : Nat → St → List Nat → List Nat → Except Err (St × List Nat)
  | _, s, [], remap => pure (s, remap)
  | 0, _, _ :: _, _ => .error .fuel
  | fuel + 1, s, t :: queue, remap => do
    match ← firstIllegal c s.tris t [0, 1, 2] with
    | none => legalizeLoop c fuel (s.emit (.legalizeStep t)) queue remap
    | some (p, ot, op) =>
      let s := s.emit (.rotated t ot)
      let (ts, need) ← Store.rotatePair s.tris t p ot op
      let ts ← Store.flagDelaunay ts t ot
      let s := { s with tris := ts }.emit (.legalizeStep t)
      legalizeLoop c fuel s (ot :: t :: queue) (if need then remap ++ [t, ot] else remap)

/-- The loop of `map_triangle_to_nodes`, `/repo/src/sweeper.rs:323-334`. -/
def mapTriLoop (c : Ctx) (T : Tri) (t : Nat) : List (Fin 3) → Front → Except Err Front
  | [], f => pure f
  | i :: is, f => do
    match T.neighbors.get i with
    | some _ => mapTriLoop c T t is f
    | none =>
      let p ← c.pt (← T.pointCw (T.points.get i))
      let f ← f.updateTriangle p t
      mapTriLoop c T t is f

/-- `map_triangle_to_nodes`, `/repo/src/sweeper.rs:323-334`. -/
def mapTri (c : Ctx) (s : St) (t : Nat) : Except Err St := do
  let T ← Store.getU s.tris t
  let f ← mapTriLoop c T t [0, 1, 2] s.front
  pure { s with front := f }

/-- `for triangle_id in legalized_triangles.drain(..)`, `/repo/src/sweeper.rs:256-258`. -/
def mapAll (c : Ctx) : List Nat → St → Except Err St
  | [], s => pure s
  | t :: ts, s => do
    let s ← mapTri c s t
    mapAll c ts s

/-- `legalize`, `/repo/src/sweeper.rs:186-267`. -/
def legalize (c : Ctx) (fuel : Nat) (s : St) (t : Nat) : Except Err St := do
  let s := s.emit (.willLegalize t)
  let (s, remap) ← legalizeLoop c fuel s [t] [t]
  let s ← mapAll c remap s
  pure (s.emit (.legalized t))

/-! ## Filling -/

/-- `FillOne`, `/repo/src/sweeper.rs:473-476`. -/
structure FillOne where
  prev : NodeId
  next : NodeId

/-- `fill_one`, `/repo/src/sweeper.rs:341-384`. -/
def fillOne (c : Ctx) (fuel : Nat) (s : St) (id : NodeId) : Except Err (St × Option FillOne) := do
  let node ← unwrap (s.front.getNodeWithId id) "fill_one unwrap"
  match s.front.prev node with
  | none => pure (s, none)
  | some prevNode =>
    match s.front.next node with
    | none => pure (s, none)
    | some nextNode => do
      let new := s.tris.length
      let ts := s.tris ++ [Tri.new prevNode.pid node.pid nextNode.pid]
      let pt ← unwrap prevNode.tri "prev triangle unwrap"
      let ts ← Store.markNeighbor ts new pt
      let nt ← unwrap node.tri "node triangle unwrap"
      let ts ← Store.markNeighbor ts new nt
      let f ← s.front.updateAndDelete prevNode.idx new node.idx
      let s ← legalize c fuel { s with tris := ts, front := f } new
      pure (s, some ⟨prevNode.id, nextNode.id⟩)

/-- `should_fill`, `/repo/src/sweeper.rs:439-470` (it answers whether filling must *stop*). -/
def shouldFill (c : Ctx) (f : Front) (node : NodeRef) : Except Err Bool := do
  let next ← unwrap (f.next node) "should_fill next"
  let prev ← unwrap (f.prev node) "should_fill prev"
  let angle := Angle.new c.num node.pt next.pt prev.pt
  if angle.isNegative then pure true
  else if !angle.exceeds90 then pure false
  else
    let a := match f.next next with
      | some nn => (Angle.new c.num node.pt nn.pt prev.pt).between0To90
      | none => false
    if a then pure false
    else
      let b := match f.prev prev with
        | some pp => (Angle.new c.num node.pt next.pt pp.pt).between0To90
        | none => false
      if b then pure false else pure true

/-- The right-hand loop of `fill_advancing_front`, `/repo/src/sweeper.rs:395-411`. -/
def fillRight (c : Ctx) (fuel0 : Nat) : Nat → St → NodeId → Except Err St
  | 0, _, _ => .error .fuel
  | fuel + 1, s, id =>
    match s.front.locateNext id with
    | none => pure s
    | some nextNode =>
      match s.front.next nextNode with
      | none => pure s
      | some _ => do
        if ← shouldFill c s.front nextNode then pure s
        else
          let nextId := nextNode.id
          let (s, r) ← fillOne c fuel0 s nextId
          let id := match r with
            | some fo => fo.next
            | none => nextId
          fillRight c fuel0 fuel s id

/-- The left-hand loop of `fill_advancing_front`, `/repo/src/sweeper.rs:416-430`. -/
def fillLeft (c : Ctx) (fuel0 : Nat) : Nat → St → NodeId → Except Err St
  | 0, _, _ => .error .fuel
  | fuel + 1, s, id =>
    match s.front.locatePrev id with
    | none => pure s
    | some prevNode =>
      match s.front.prev prevNode with
      | none => pure s
      | some _ => do
        if ← shouldFill c s.front prevNode then pure s
        else
          let id := prevNode.id
          let (s, _) ← fillOne c fuel0 s id
          fillLeft c fuel0 fuel s id

/-- `Basin`, `/repo/src/sweeper.rs:1056-1062`. -/
structure Basin where
  left : Point
  right : Point
  width : Rat
  leftHigher : Bool

/-- `Basin::is_shallow`, `/repo/src/sweeper.rs:1065-1073`. -/
def Basin.isShallow (n : Num) (b : Basin) (p : Point) : Bool :=
  let height := if b.leftHigher then n.rnd (b.left.y - p.y) else n.rnd (b.right.y - p.y)
  decide (b.width > height)

/-- `Basin::completed`, `/repo/src/sweeper.rs:1075-1081`. -/
def Basin.completed (n : Num) (b : Basin) (p : Point) : Bool :=
  if p.x ≥ b.right.x ∨ p.x ≤ b.left.x then true else b.isShallow n p

/-- `basin_angle_satisfy`, `/repo/src/sweeper.rs:1086-1101`. -/
def basinAngleSatisfy (c : Ctx) (f : Front) (id : NodeId) : Bool :=
  match f.locateNext id with
  | none => false
  | some next =>
    match f.next next with
    | none => false
    | some nn =>
      let n := c.num
      let ax := n.rnd (id.pt.x - nn.pt.x)
      let ay := n.rnd (id.pt.y - nn.pt.y)
      if ax > 0 then decide (ay < n.rnd (-1 * ax)) else decide (ay > n.rnd (-1 * ax))

/-- The loop that finds the basin's bottom, `/repo/src/sweeper.rs:1124-1131`. -/
def findBottom (f : Front) : Nat → NodeRef → Except Err NodeRef
  | 0, _ => .error .fuel
  | fuel + 1, b =>
    match f.next b with
    | none => pure b
    | some n => if b.pt.y ≥ n.pt.y then findBottom f fuel n else pure b

/-- The loop that finds the basin's right end, `/repo/src/sweeper.rs:1139-1146`. -/
def findRight (f : Front) : Nat → NodeRef → Except Err NodeRef
  | 0, _ => .error .fuel
  | fuel + 1, r =>
    match f.next r with
    | none => pure r
    | some n => if r.pt.y < n.pt.y then findRight f fuel n else pure r

/-- `fill_basin_req`, `/repo/src/sweeper.rs:1169-1213`.  The caller ignores the `Option<()>`. -/
def fillBasinReq (c : Ctx) (fuel0 : Nat) : Nat → St → NodeId → Basin → Except Err St
  | 0, _, _, _ => .error .fuel
  | fuel + 1, s, node, basin => do
    if basin.completed c.num node.pt then pure s
    else
      let (s, r) ← fillOne c fuel0 s node
      let fo ← unwrap r "already in basin"
      if fo.prev.pt = basin.left ∧ fo.next.pt = basin.right then pure s
      else if fo.prev.pt = basin.left then
        let next ← unwrap (s.front.getNodeWithId fo.next) "basin next"
        let nn ← unwrap (s.front.next next) "basin next next"
        if orient2d node.pt next.pt nn.pt = .cw then pure s
        else fillBasinReq c fuel0 fuel s next.id basin
      else if fo.next.pt = basin.right then
        let prev ← unwrap (s.front.getNodeWithId fo.prev) "basin prev"
        match s.front.prev prev with
        | none => pure s
        | some pp =>
          if orient2d node.pt prev.pt pp.pt = .ccw then pure s
          else fillBasinReq c fuel0 fuel s prev.id basin
      else if fo.prev.pt.y < fo.next.pt.y then fillBasinReq c fuel0 fuel s fo.prev basin
      else fillBasinReq c fuel0 fuel s fo.next basin

/-- `fill_basin`, `/repo/src/sweeper.rs:1105-1167`. -/
def fillBasin (c : Ctx) (fuel : Nat) (s : St) (id : NodeId) : Except Err St :=
  match s.front.locateNext id with
  | none => pure s
  | some next =>
    match s.front.next next with
    | none => pure s
    | some nn => do
      let left := if orient2d id.pt next.pt nn.pt = .ccw then nn else next
      let bottom ← findBottom s.front fuel left
      if bottom.pid = left.pid then pure s
      else
        let right ← findRight s.front fuel bottom
        if right.pid = bottom.pid then pure s
        else
          fillBasinReq c fuel fuel s bottom.id
            { left := left.pt, right := right.pt
              width := c.num.rnd (right.pt.x - left.pt.x)
              leftHigher := decide (left.pt.y > right.pt.y) }

/-- `fill_advancing_front`, `/repo/src/sweeper.rs:386-437`. -/
def fillAdvancingFront (c : Ctx) (fuel : Nat) (s : St) (pt : Point) : Except Err St := do
  let node ← unwrap (← s.front.getNode pt) "fill_advancing_front unwrap"
  let id := node.id
  let s ← fillRight c fuel fuel s id
  let s ← fillLeft c fuel fuel s id
  if basinAngleSatisfy c s.front id then fillBasin c fuel s id else pure s

/-! ## Point events -/

/-- `point_event`, `/repo/src/sweeper.rs:124-148`. -/
def pointEvent (c : Ctx) (fuel : Nat) (s : St) (pid : Nat) (pt : Point) : Except Err St := do
  let node ← s.front.locateNode pt
  let next ← unwrap (s.front.next node) "next unwrap"
  let t := s.tris.length
  let ts := s.tris ++ [Tri.new pid node.pid next.pid]
  let nt ← unwrap node.tri "node triangle unwrap"
  let ts ← Store.markNeighbor ts nt t
  let f := s.front.insert pid pt t
  let s ← legalize c fuel { s with tris := ts, front := f } t
  let s ← (if pt.x ≤ c.num.rnd (node.pt.x + c.num.eps) then do
      let (s, _) ← fillOne c fuel s node.id
      pure s
    else pure s)
  fillAdvancingFront c fuel s pt

/-! ## Edge events -/

/-- `ConstrainedEdge`, `/repo/src/sweeper.rs:478-508`. -/
structure CEdge where
  pId : Nat
  qId : Nat
  p : Point
  q : Point
  right : Bool

/-- `with_q`, `/repo/src/sweeper.rs:496-507`. -/
def CEdge.withQ (c : Ctx) (e : CEdge) (q : Nat) : Except Err CEdge := do
  let qp ← c.pt q
  pure { pId := e.pId, qId := q, p := e.p, q := qp, right := decide (e.p.x > qp.x) }

/-- `fill_right_concave_edge_event`, `/repo/src/sweeper.rs:644-676`. -/
def fillRightConcave (c : Ctx) (fuel0 : Nat) (e : CEdge) : Nat → St → NodeId → Except Err St
  | 0, _, _ => .error .fuel
  | fuel + 1, s, id => do
    let nextNode ← unwrap (s.front.locateNext id) "concave next"
    let nextId := nextNode.id
    let (s, r) ← fillOne c fuel0 s nextId
    let nextId := match r with
      | none => nextId
      | some fo => fo.next
    if nextId.pid ≠ e.pId then
      if orient2d e.q nextId.pt e.p = .ccw then
        let nn ← unwrap (s.front.locateNext nextId) "concave next next"
        if orient2d id.pt nextId.pt nn.pt = .ccw then fillRightConcave c fuel0 e fuel s id
        else pure s
      else pure s
    else pure s

/-- `fill_right_convex_edge_event`, `/repo/src/sweeper.rs:680-711`; `false` is Rust's `None`. -/
def fillRightConvex (g : Trap) (c : Ctx) (fuel0 : Nat) (e : CEdge) : Nat → St → NodeId → Except Err (St × Bool)
  | 0, _, _ => .error .fuel
  | fuel + 1, s, id => do
    let n1 ← unwrap (s.front.locateNext id) "convex next"
    let n2 ← unwrap (s.front.next n1) "convex next next"
    match s.front.next n2 with
    | none => pure (s, false)
    | some n3 =>
      if orient2d n1.pt n2.pt n3.pt = .ccw then
        if g.l698 then .error (.trapped "698") else do
        let s ← fillRightConcave c fuel0 e fuel0 s (if g.fix then n1.id else id)
        pure (s, true)
      else if orient2d e.q n2.pt e.p = .ccw then
        fillRightConvex g c fuel0 e fuel s n1.id
      else pure (s, true)

/-- `fill_right_below_edge_event`, `/repo/src/sweeper.rs:614-641` (its result is ignored by every
caller). -/
def fillRightBelow (g : Trap) (c : Ctx) (fuel0 : Nat) (e : CEdge) : Nat → St → NodeId → Except Err St
  | 0, _, _ => .error .fuel
  | fuel + 1, s, id => do
    if id.pt.x ≥ e.p.x then pure s
    else
      let node ← unwrap (s.front.getNodeWithId id) "below node"
      let n1 ← unwrap (s.front.next node) "below next"
      let n2 ← unwrap (s.front.next n1) "below next next"
      if orient2d node.pt n1.pt n2.pt = .ccw then fillRightConcave c fuel0 e fuel0 s id
      else
        let (s, b) ← fillRightConvex g c fuel0 e fuel0 s id
        if b then fillRightBelow g c fuel0 e fuel s id else pure s

/-- `fill_right_above_edge_event`, `/repo/src/sweeper.rs:592-612`. -/
def fillRightAbove (g : Trap) (c : Ctx) (fuel0 : Nat) (e : CEdge) : Nat → St → NodeId → Except Err St
  | 0, _, _ => .error .fuel
  | fuel + 1, s, id =>
    match s.front.locateNext id with
    | none => pure s
    | some n1 =>
      if n1.pt.x ≥ e.p.x then pure s
      else if orient2d e.q n1.pt e.p = .ccw then do
        let s ← fillRightBelow g c fuel0 e fuel0 s id
        fillRightAbove g c fuel0 e fuel s id
      else fillRightAbove g c fuel0 e fuel s n1.id

/-- `fill_left_concave_edge_event`, `/repo/src/sweeper.rs:793-822`. -/
def fillLeftConcave (c : Ctx) (fuel0 : Nat) (e : CEdge) : Nat → St → NodeId → Except Err St
  | 0, _, _ => .error .fuel
  | fuel + 1, s, id => do
    let prevNode ← unwrap (s.front.locatePrev id) "concave prev"
    let prevId := prevNode.id
    let (s, r) ← fillOne c fuel0 s prevId
    let prevId := match r with
      | none => prevId
      | some fo => fo.prev
    if prevId.pid ≠ e.pId then
      if orient2d e.q prevId.pt e.p = .cw then
        let prev ← unwrap (s.front.getNodeWithId prevId) "concave prev node"
        let pp ← unwrap (s.front.prev prev) "concave prev prev"
        if orient2d id.pt prev.pt pp.pt = .cw then fillLeftConcave c fuel0 e fuel s id
        else pure s
      else pure s
    else pure s

/-- `fill_left_convex_edge_event`, `/repo/src/sweeper.rs:760-791`; `false` is Rust's `None`. -/
def fillLeftConvex (c : Ctx) (fuel0 : Nat) (e : CEdge) : Nat → St → NodeId → Except Err (St × Bool)
  | 0, _, _ => .error .fuel
  | fuel + 1, s, id => do
    let n1 ← unwrap (s.front.locatePrev id) "convex prev"
    let n2 ← unwrap (s.front.prev n1) "convex prev prev"
    match s.front.prev n2 with
    | none => pure (s, false)
    | some n3 =>
      if orient2d n1.pt n2.pt n3.pt = .cw then do
        let s ← fillLeftConcave c fuel0 e fuel0 s n1.id
        pure (s, true)
      else if orient2d e.q n2.pt e.p = .cw then
        fillLeftConvex c fuel0 e fuel s n1.id
      else pure (s, true)

/-- `fill_left_below_edge_event`, `/repo/src/sweeper.rs:734-756`. -/
def fillLeftBelow (c : Ctx) (fuel0 : Nat) (e : CEdge) : Nat → St → NodeId → Except Err St
  | 0, _, _ => .error .fuel
  | fuel + 1, s, id => do
    if id.pt.x > e.p.x then
      let n1 ← unwrap (s.front.locatePrev id) "below prev"
      let n2 ← unwrap (s.front.prev n1) "below prev prev"
      if orient2d id.pt n1.pt n2.pt = .cw then fillLeftConcave c fuel0 e fuel0 s id
      else
        let (s, b) ← fillLeftConvex c fuel0 e fuel0 s id
        if b then fillLeftBelow c fuel0 e fuel s id else pure s
    else pure s

/-- `fill_left_above_edge_event`, `/repo/src/sweeper.rs:713-732`. -/
def fillLeftAbove (c : Ctx) (fuel0 : Nat) (e : CEdge) : Nat → St → NodeId → Except Err St
  | 0, _, _ => .error .fuel
  | fuel + 1, s, id =>
    match s.front.locatePrev id with
    | none => pure s
    | some n1 =>
      if n1.pt.x ≤ e.p.x then pure s
      else if orient2d e.q n1.pt e.p = .cw then do
        let s ← fillLeftBelow c fuel0 e fuel0 s id
        fillLeftAbove c fuel0 e fuel s id
      else fillLeftAbove c fuel0 e fuel s n1.id

/-- `fill_edge_event`, `/repo/src/sweeper.rs:579-590`. -/
def fillEdgeEvent (g : Trap) (c : Ctx) (fuel : Nat) (s : St) (e : CEdge) (id : NodeId) : Except Err St :=
  if e.right then fillRightAbove g c fuel e fuel s id else fillLeftAbove c fuel e fuel s id

/-- `next_flip_triangle`, `/repo/src/sweeper.rs:965-980`: the triangle to go on with and the one to
push on the legalize queue. -/
def nextFlipTriangle (o : Orientation) (t ot : Nat) : Nat × Nat :=
  if o = .ccw then (t, ot) else (ot, t)

/-- `next_flip_point`, `/repo/src/sweeper.rs:982-1009`. -/
def nextFlipPoint (c : Ctx) (ts : Store) (ep eq ot op : Nat) : Except Err Nat := do
  let e ← c.pt eq
  let o ← c.pt op
  let p ← c.pt ep
  let O ← Store.getU ts ot
  match orient2d e o p with
  | .cw => O.pointCcw op
  | .ccw => O.pointCw op
  | .collinear => .error (.panic "Opposing point on constrained edge")

mutual

/-- `edge_event_process`, `/repo/src/sweeper.rs:824-905`.  Returns the state and the legalize queue. -/
def edgeProcess (g : Trap) (c : Ctx) (fuel : Nat) (s : St) (ep eq : Nat) (e : CEdge) (t : Option Nat) (p : Nat)
    (lq : List Nat) : Except Err (St × List Nat) :=
  match fuel with
  | 0 => .error .fuel
  | fuel + 1 => do
    let t ← unwrap t "assert triangle valid"
    let (ts, marked) ← Store.tryMarkEdge s.tris ep eq t
    let s := { s with tris := ts }
    if marked then pure (s, lq)
    else
      let T ← Store.getU s.tris t
      let p1 ← T.pointCcw p
      let o1 := orient2d (← c.pt eq) (← c.pt p1) (← c.pt ep)
      if o1 = .collinear then
        if g.col then .error (.trapped "collinear") else
        match T.edgeIndex eq p1 with
        | none => .error (.panic "EdgeEvent - collinear points not supported")
        | some i =>
          let s := { s with tris := s.tris.set t (T.setConstrained i true) }
          let n ← T.neighborAcross p
          edgeProcess g c fuel s ep p1 (← e.withQ c p1) n p1 lq
      else
        let p2 ← T.pointCw p
        let o2 := orient2d (← c.pt eq) (← c.pt p2) (← c.pt ep)
        if o2 = .collinear then
          if g.col then .error (.trapped "collinear") else
          match T.edgeIndex eq p2 with
          | none => .error (.panic "collinear points not supported")
          | some i =>
            let s := { s with tris := s.tris.set t (T.setConstrained i true) }
            let n ← T.neighborAcross p
            edgeProcess g c fuel s ep p2 (← e.withQ c p2) n p2 lq
        else if o1 = o2 then
          let n ← (if o1 = .cw then T.neighborCcw p else T.neighborCw p)
          edgeProcess g c fuel s ep eq e n p lq
        else flipEdge g c fuel s ep eq e t p lq
termination_by structural fuel

/-- `flip_edge_event`, `/repo/src/sweeper.rs:910-963`. -/
def flipEdge (g : Trap) (c : Ctx) (fuel : Nat) (s : St) (ep eq : Nat) (e : CEdge) (t : Nat) (p : Nat)
    (lq : List Nat) : Except Err (St × List Nat) :=
  match fuel with
  | 0 => .error .fuel
  | fuel + 1 => do
    let T ← Store.getU s.tris t
    let (ot, O) ← Store.getUO s.tris (← T.neighborAcross p)
    let op ← O.oppositePoint T p
    let pa ← c.pt p
    let pb ← c.pt (← T.pointCcw p)
    let pc ← c.pt (← T.pointCw p)
    let pd ← c.pt op
    if inScanArea c.num pa pb pc pd then
      let (ts, need) ← Store.rotatePair s.tris t p ot op
      let s := { s with tris := ts }
      let s ← (if need then do
          let s ← mapTri c s t
          mapTri c s ot
        else pure s)
      let lq := lq ++ [t, ot]
      if p = eq ∧ op = ep then
        if eq = e.qId ∧ ep = e.pId then
          let T ← Store.getU s.tris t
          let ts := s.tris.set t (T.setConstrainedForEdge ep eq)
          let O ← Store.getU ts ot
          let ts := ts.set ot (O.setConstrainedForEdge ep eq)
          pure ({ s with tris := ts }, lq)
        else pure (s, lq)
      else
        let o := orient2d (← c.pt eq) (← c.pt op) (← c.pt ep)
        let (t', q) := nextFlipTriangle o t ot
        flipEdge g c fuel s ep eq e t' p (lq ++ [q])
    else
      let newP ← nextFlipPoint c s.tris ep eq ot op
      let (s, lq) ← flipScan g c fuel s ep eq e t ot newP lq
      edgeProcess g c fuel s ep eq e (some t) p lq
termination_by structural fuel

/-- `flip_scan_edge_event`, `/repo/src/sweeper.rs:1011-1053`. -/
def flipScan (g : Trap) (c : Ctx) (fuel : Nat) (s : St) (ep eq : Nat) (e : CEdge) (flipT t : Nat) (p : Nat)
    (lq : List Nat) : Except Err (St × List Nat) :=
  match fuel with
  | 0 => .error .fuel
  | fuel + 1 => do
    let T ← Store.getU s.tris t
    let ot ← unwrap (← T.neighborAcross p) "flip_scan_edge_event - null neighbor across"
    let O ← Store.getU s.tris ot
    let op ← O.oppositePoint T p
    let F ← Store.getU s.tris flipT
    let p1 ← F.pointCcw eq
    let p2 ← F.pointCw eq
    if inScanArea c.num (← c.pt eq) (← c.pt p1) (← c.pt p2) (← c.pt op) then
      flipEdge g c fuel s eq op e ot op lq
    else
      let newP ← nextFlipPoint c s.tris ep eq ot op
      flipScan g c fuel s ep eq e flipT ot newP lq
termination_by structural fuel

end

/-- `for triangle_id in triangle_ids.drain(..) { self.legalize(..) }`, `/repo/src/sweeper.rs:556-558`. -/
def legalizeAll (c : Ctx) (fuel : Nat) : List Nat → St → Except Err St
  | [], s => pure s
  | t :: ts, s => do
    let s ← legalize c fuel s t
    legalizeAll c fuel ts s

/-- `edge_event`, `/repo/src/sweeper.rs:512-560`. -/
def edgeEvent (g : Trap) (c : Ctx) (fuel : Nat) (s : St) (edge : Edge) (q : Point) : Except Err St := do
  let p ← c.pt edge.p
  let ce : CEdge := ⟨edge.p, edge.q, p, q, decide (p.x > q.x)⟩
  let (f, r) ← s.front.getNodeWithCache q
  let s := { s with front := f }
  let node ← unwrap r "edge_event node"
  let t ← unwrap node.tri "edge_event triangle"
  let (ts, marked) ← Store.tryMarkEdge s.tris edge.p edge.q t
  let s := { s with tris := ts }
  if marked then pure s
  else
    let s ← fillEdgeEvent g c fuel s ce node.id
    let (f, r) ← s.front.getNodeWithCache q
    let s := { s with front := f }
    let node ← unwrap r "edge_event node"
    let t ← unwrap node.tri "edge_event triangle"
    let (s, lq) ← edgeProcess g c fuel s edge.p edge.q ce (some t) edge.q []
    legalizeAll c fuel lq s

/-- `for p in edges { .. }`, `/repo/src/sweeper.rs:50-55`. -/
def edgeEvents (g : Trap) (c : Ctx) (fuel : Nat) (pid : Nat) (pt : Point) : List Nat → St → Except Err St
  | [], s => pure s
  | p :: ps, s => do
    let s ← edgeEvent g c fuel s ⟨p, pid⟩ pt
    edgeEvents g c fuel pid pt ps (s.emit (.edge p pid))

/-- The body of `sweep_points`, `/repo/src/sweeper.rs:45-58` (the `debug_assert!` is not modelled). -/
def sweepLoop (g : Trap) (c : Ctx) (fuel : Nat) : List (Nat × Point × PointEdges) → St → Except Err St
  | [], s => pure s
  | (pid, pt, es) :: rest, s => do
    let s := s.emit (.enterPoint pid)
    let s ← pointEvent c fuel s pid pt
    let s := s.emit (.exitPoint pid)
    let s ← edgeEvents g c fuel pid pt es.toList s
    sweepLoop g c fuel rest s

/-- `sweep_points`, `/repo/src/sweeper.rs:44-59`. -/
def sweepPoints (g : Trap) (c : Ctx) (fuel : Nat) (s : St) : Except Err St := do
  let items ← c.iterByY 1
  sweepLoop g c fuel items s

/-! ## Finalization -/

/-- The loop of `finalize_polygon`, `/repo/src/sweeper.rs:68-79`. -/
def findInterior (ts : Store) (p : Nat) : Nat → Option Nat → Except Err (Option Nat)
  | 0, _ => .error .fuel
  | fuel + 1, t => do
    match ← Store.get ts t with
    | none => pure t
    | some T =>
      if ← T.constrainedEdgeCw p then pure t
      else
        let n ← T.neighborCcw p
        findInterior ts p fuel n

/-- The `for i in 0..3` loop of `clean_mesh`, `/repo/src/sweeper.rs:104-111`: what is pushed, in push
order. -/
def cleanPushes (T : Tri) (t : Nat) (fromT : Option Nat) : List (Option Nat × Option Nat) :=
  ([0, 1, 2] : List (Fin 3)).filterMap fun i =>
    if T.isConstrained i then none
    else if T.neighbors.get i = fromT then none
    else some (T.neighbors.get i, some t)

/-- `clean_mesh`, `/repo/src/sweeper.rs:88-116`.  The head of the list is the top of the Rust stack. -/
def cleanMesh : Nat → Store → List Nat → List (Option Nat × Option Nat) → Except Err (Store × List Nat)
  | _, ts, res, [] => pure (ts, res)
  | 0, _, _, _ :: _ => .error .fuel
  | fuel + 1, ts, res, (t, fromT) :: stack =>
    match t with
    | none => cleanMesh fuel ts res stack
    | some t =>
      match ts[t]? with
      | none => .error (.panic "clean_mesh unwrap")
      | some T =>
        if T.interior then cleanMesh fuel ts res stack
        else
          cleanMesh fuel (ts.set t { T with interior := true }) (res ++ [t])
            ((cleanPushes T t fromT).reverse ++ stack)

/-- `finalize_polygon`, `/repo/src/sweeper.rs:61-86`. -/
def finalizePolygon (fuel : Nat) (s : St) : Except Err St := do
  match s.front.nth 1 with
  | none => pure s
  | some node =>
    match node.tri with
    | none => pure s
    | some t0 =>
      match ← findInterior s.tris node.pid fuel (some t0) with
      | none => pure s
      | some t => do
        let (ts, res) ← cleanMesh fuel s.tris s.result [(some t, none)]
        pure { s with tris := ts, result := res }

end P2T
