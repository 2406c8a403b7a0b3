import Verif.Model.Cdt

/-!
# The debug build

A debug build (`cargo build`, `cargo test`) checks the `debug_assert!`s.  This file repeats the functions of
`Verif.Model.Sweep` whose call tree contains one, with the assertion as a check that panics:

* `/repo/src/utils.rs:35`: `orient_2d` is called with three pairwise different points (`orientD`);
* `/repo/src/triangles.rs:186`: the two triangles linked by `mark_neighbor_for_two_mut` have a common edge (`markTwoD`);
* `/repo/src/advancing_front/vec_backed.rs:175`: the updated entry is the one of the given point (`updateAndDeleteD`);
* `/repo/src/sweeper.rs:57`: `verify_triangles()` after the events of each point (`sweepLoopD`).

The remaining assertions (`!id.invalid()` at `/repo/src/triangles.rs:78` and
`/repo/src/advancing_front/vec_backed.rs:143`, `:171`) are checked by the release model already: ids that can be `INVALID` are
`Option`s there and reading `none` unchecked is `Err.ub`; the two calls in the front get the id of a triangle just inserted.
The overflow checks of a debug build concern index arithmetic only; where the release model lets an index wrap
(`locate_node`, `search_by_key_with_cache`) it stops with an error already.  Functions without an assertion below them are those
of the release model.  There are no ghost traps here: this is the code as it is.
-/

namespace P2T

/-- The panics of the debug assertions. -/
inductive Dbg where
  | orient | neighbors | pointId | verify
  deriving DecidableEq, Repr

/-- The error of a failed assertion. -/
def Dbg.err : Dbg → Err
  | .orient => .panic "debug_assert: orient_2d point same"
  | .neighbors => .panic "debug_assert: they are not neighbors"
  | .pointId => .panic "debug_assert: point_id mismatch"
  | .verify => .panic "debug_assert: verify_triangles"

/-- `orient_2d` with its assertion, `/repo/src/utils.rs:34-50`. -/
def orientD (a b c : Point) : Except Err Orientation :=
  if a ≠ b ∧ a ≠ c ∧ b ≠ c then .ok (orient2d a b c) else .error Dbg.orient.err

namespace Store

/-- `mark_neighbor_for_two_mut` with its assertion, `/repo/src/triangles.rs:179-200`. -/
def markTwoD (l r : Nat) (L R : Tri) : Except Err (Tri × Tri) :=
  match L.commonEdgeIndex R with
  | none => .error Dbg.neighbors.err
  | some _ => .ok (markTwo l r L R)

/-- `mark_neighbor_for_two_mut` applied to two elements of the store. -/
def markPairD (ts : Store) (l r : Nat) : Except Err Store :=
  match ts[l]?, ts[r]? with
  | some L, some R => do
    let (L', R') ← markTwoD l r L R
    pure ((ts.set l L').set r R')
  | _, _ => pure ts

/-- `mark_neighbor`, `/repo/src/triangles.rs:172-175`. -/
def markNeighborD (ts : Store) (l r : Nat) : Except Err Store := do
  assertTwo ts l r
  markPairD ts l r

/-- `if let Some(t_n) = t_n { mark_neighbor_for_two_mut(..) }`, `/repo/src/sweeper.rs:306-317`. -/
def markOptD (ts : Store) (l : Nat) (r : Option Nat) : Except Err Store :=
  match r with
  | none => pure ts
  | some r => markPairD ts l r

/-- `rotate_triangle_pair`, `/repo/src/sweeper.rs:270-320`. -/
def rotatePairD (ts : Store) (t p ot op : Nat) : Except Err (Store × Bool) := do
  assertTwo ts t ot
  let T ← getU ts t
  let O ← getU ts ot
  let n1 ← T.neighborCcw p
  let n2 ← T.neighborCw p
  let n3 ← O.neighborCcw op
  let n4 ← O.neighborCw op
  let ea1 ← T.edgeAttrCcw p
  let ea2 ← T.edgeAttrCw p
  let ea3 ← O.edgeAttrCcw op
  let ea4 ← O.edgeAttrCw op
  let T ← T.rotateCw p op
  let O ← O.rotateCw op p
  let T ← T.setEdgeAttrCw p ea2
  let T ← T.setEdgeAttrCcw op ea3
  let O ← O.setEdgeAttrCcw p ea1
  let O ← O.setEdgeAttrCw op ea4
  let (T, O) ← markTwoD t ot T.clearNeighbors O.clearNeighbors
  let ts := (ts.set t T).set ot O
  getMutSix ts t ot n1 n2 n3 n4
  let ts ← markOptD ts t n2
  let ts ← markOptD ts t n3
  let ts ← markOptD ts ot n1
  let ts ← markOptD ts ot n4
  pure (ts, n1.isNone || n2.isNone || n3.isNone || n4.isNone)

end Store

/-- `update_and_delete_by_index` with its assertion, `/repo/src/advancing_front/vec_backed.rs:164-182`. -/
def Front.updateAndDeleteD (f : Front) (upd : Nat) (pid : Nat) (tid : Nat) (del : Nat) : Except Err Front :=
  match f.nodes[upd]? with
  | none => .error (.panic "get_mut unwrap")
  | some e => if e.pid = pid then f.updateAndDelete upd tid del else .error Dbg.pointId.err

/-- The `while let Some(triangle_id) = task_queue.pop()` loop of `legalize`,
`/repo/src/sweeper.rs:198-254`.  The head of `queue` is the top of the Rust stack. -/
def legalizeLoopD (c : Ctx) : Nat → St → List Nat → List Nat → Except Err (St × List Nat)
  | _, s, [], remap => pure (s, remap)
  | 0, _, _ :: _, _ => .error .fuel
  | fuel + 1, s, t :: queue, remap => do
    match ← firstIllegal c s.tris t [0, 1, 2] with
    | none => legalizeLoopD c fuel (s.emit (.legalizeStep t)) queue remap
    | some (p, ot, op) =>
      let s := s.emit (.rotated t ot)
      let (ts, need) ← Store.rotatePairD s.tris t p ot op
      let ts ← Store.flagDelaunay ts t ot
      let s := { s with tris := ts }.emit (.legalizeStep t)
      legalizeLoopD c fuel s (ot :: t :: queue) (if need then remap ++ [t, ot] else remap)

/-- `legalize`, `/repo/src/sweeper.rs:186-267`. -/
def legalizeD (c : Ctx) (fuel : Nat) (s : St) (t : Nat) : Except Err St := do
  let s := s.emit (.willLegalize t)
  let (s, remap) ← legalizeLoopD c fuel s [t] [t]
  let s ← mapAll c remap s
  pure (s.emit (.legalized t))

/-- `fill_one`, `/repo/src/sweeper.rs:341-384`. -/
def fillOneD (c : Ctx) (fuel : Nat) (s : St) (id : NodeId) : Except Err (St × Option FillOne) := do
  let node ← unwrap (s.front.getNodeWithId id) "fill_one unwrap"
  match s.front.prev node with
  | none => pure (s, none)
  | some prevNode =>
    match s.front.next node with
    | none => pure (s, none)
    | some nextNode => do
      let new := s.tris.length
      let ts := s.tris ++ [Tri.new prevNode.pid node.pid nextNode.pid]
      let pt ← unwrap prevNode.tri "prev triangle unwrap"
      let ts ← Store.markNeighborD ts new pt
      let nt ← unwrap node.tri "node triangle unwrap"
      let ts ← Store.markNeighborD ts new nt
      let f ← s.front.updateAndDeleteD prevNode.idx prevNode.pid new node.idx
      let s ← legalizeD c fuel { s with tris := ts, front := f } new
      pure (s, some ⟨prevNode.id, nextNode.id⟩)

/-- The right-hand loop of `fill_advancing_front`, `/repo/src/sweeper.rs:395-411`. -/
def fillRightD (c : Ctx) (fuel0 : Nat) : Nat → St → NodeId → Except Err St
  | 0, _, _ => .error .fuel
  | fuel + 1, s, id =>
    match s.front.locateNext id with
    | none => pure s
    | some nextNode =>
      match s.front.next nextNode with
      | none => pure s
      | some _ => do
        if ← shouldFill c s.front nextNode then pure s
        else
          let nextId := nextNode.id
          let (s, r) ← fillOneD c fuel0 s nextId
          let id := match r with
            | some fo => fo.next
            | none => nextId
          fillRightD c fuel0 fuel s id

/-- The left-hand loop of `fill_advancing_front`, `/repo/src/sweeper.rs:416-430`. -/
def fillLeftD (c : Ctx) (fuel0 : Nat) : Nat → St → NodeId → Except Err St
  | 0, _, _ => .error .fuel
  | fuel + 1, s, id =>
    match s.front.locatePrev id with
    | none => pure s
    | some prevNode =>
      match s.front.prev prevNode with
      | none => pure s
      | some _ => do
        if ← shouldFill c s.front prevNode then pure s
        else
          let id := prevNode.id
          let (s, _) ← fillOneD c fuel0 s id
          fillLeftD c fuel0 fuel s id

/-- `fill_basin_req`, `/repo/src/sweeper.rs:1169-1213`.  The caller ignores the `Option<()>`. -/
def fillBasinReqD (c : Ctx) (fuel0 : Nat) : Nat → St → NodeId → Basin → Except Err St
  | 0, _, _, _ => .error .fuel
  | fuel + 1, s, node, basin => do
    if basin.completed c.num node.pt then pure s
    else
      let (s, r) ← fillOneD c fuel0 s node
      let fo ← unwrap r "already in basin"
      if fo.prev.pt = basin.left ∧ fo.next.pt = basin.right then pure s
      else if fo.prev.pt = basin.left then
        let next ← unwrap (s.front.getNodeWithId fo.next) "basin next"
        let nn ← unwrap (s.front.next next) "basin next next"
        let o ← orientD node.pt next.pt nn.pt
        if o = .cw then pure s
        else fillBasinReqD c fuel0 fuel s next.id basin
      else if fo.next.pt = basin.right then
        let prev ← unwrap (s.front.getNodeWithId fo.prev) "basin prev"
        match s.front.prev prev with
        | none => pure s
        | some pp => do
          let o ← orientD node.pt prev.pt pp.pt
          if o = .ccw then pure s
          else fillBasinReqD c fuel0 fuel s prev.id basin
      else if fo.prev.pt.y < fo.next.pt.y then fillBasinReqD c fuel0 fuel s fo.prev basin
      else fillBasinReqD c fuel0 fuel s fo.next basin

/-- `fill_basin`, `/repo/src/sweeper.rs:1105-1167`. -/
def fillBasinD (c : Ctx) (fuel : Nat) (s : St) (id : NodeId) : Except Err St :=
  match s.front.locateNext id with
  | none => pure s
  | some next =>
    match s.front.next next with
    | none => pure s
    | some nn => do
      let o ← orientD id.pt next.pt nn.pt
      let left := if o = .ccw then nn else next
      let bottom ← findBottom s.front fuel left
      if bottom.pid = left.pid then pure s
      else
        let right ← findRight s.front fuel bottom
        if right.pid = bottom.pid then pure s
        else
          fillBasinReqD c fuel fuel s bottom.id
            { left := left.pt, right := right.pt
              width := c.num.rnd (right.pt.x - left.pt.x)
              leftHigher := decide (left.pt.y > right.pt.y) }

/-- `fill_advancing_front`, `/repo/src/sweeper.rs:386-437`. -/
def fillAdvancingFrontD (c : Ctx) (fuel : Nat) (s : St) (pt : Point) : Except Err St := do
  let node ← unwrap (← s.front.getNode pt) "fill_advancing_front unwrap"
  let id := node.id
  let s ← fillRightD c fuel fuel s id
  let s ← fillLeftD c fuel fuel s id
  if basinAngleSatisfy c s.front id then fillBasinD c fuel s id else pure s

/-- `point_event`, `/repo/src/sweeper.rs:124-148`. -/
def pointEventD (c : Ctx) (fuel : Nat) (s : St) (pid : Nat) (pt : Point) : Except Err St := do
  let node ← s.front.locateNode pt
  let next ← unwrap (s.front.next node) "next unwrap"
  let t := s.tris.length
  let ts := s.tris ++ [Tri.new pid node.pid next.pid]
  let nt ← unwrap node.tri "node triangle unwrap"
  let ts ← Store.markNeighborD ts nt t
  let f := s.front.insert pid pt t
  let s ← legalizeD c fuel { s with tris := ts, front := f } t
  let s ← (if pt.x ≤ c.num.rnd (node.pt.x + c.num.eps) then do
      let (s, _) ← fillOneD c fuel s node.id
      pure s
    else pure s)
  fillAdvancingFrontD c fuel s pt

/-- `fill_right_concave_edge_event`, `/repo/src/sweeper.rs:644-676`. -/
def fillRightConcaveD (c : Ctx) (fuel0 : Nat) (e : CEdge) : Nat → St → NodeId → Except Err St
  | 0, _, _ => .error .fuel
  | fuel + 1, s, id => do
    let nextNode ← unwrap (s.front.locateNext id) "concave next"
    let nextId := nextNode.id
    let (s, r) ← fillOneD c fuel0 s nextId
    let nextId := match r with
      | none => nextId
      | some fo => fo.next
    if nextId.pid ≠ e.pId then
      let o ← orientD e.q nextId.pt e.p
      if o = .ccw then
        let nn ← unwrap (s.front.locateNext nextId) "concave next next"
        let o' ← orientD id.pt nextId.pt nn.pt
        if o' = .ccw then fillRightConcaveD c fuel0 e fuel s id
        else pure s
      else pure s
    else pure s

/-- `fill_right_convex_edge_event`, `/repo/src/sweeper.rs:680-711`; `false` is Rust's `None`. -/
def fillRightConvexD (c : Ctx) (fuel0 : Nat) (e : CEdge) : Nat → St → NodeId → Except Err (St × Bool)
  | 0, _, _ => .error .fuel
  | fuel + 1, s, id => do
    let n1 ← unwrap (s.front.locateNext id) "convex next"
    let n2 ← unwrap (s.front.next n1) "convex next next"
    match s.front.next n2 with
    | none => pure (s, false)
    | some n3 => do
      let o ← orientD n1.pt n2.pt n3.pt
      if o = .ccw then do
        let s ← fillRightConcaveD c fuel0 e fuel0 s id
        pure (s, true)
      else do
        let o' ← orientD e.q n2.pt e.p
        if o' = .ccw then fillRightConvexD c fuel0 e fuel s n1.id
        else pure (s, true)

/-- `fill_right_below_edge_event`, `/repo/src/sweeper.rs:614-641` (its result is ignored by every
caller). -/
def fillRightBelowD (c : Ctx) (fuel0 : Nat) (e : CEdge) : Nat → St → NodeId → Except Err St
  | 0, _, _ => .error .fuel
  | fuel + 1, s, id => do
    if id.pt.x ≥ e.p.x then pure s
    else
      let node ← unwrap (s.front.getNodeWithId id) "below node"
      let n1 ← unwrap (s.front.next node) "below next"
      let n2 ← unwrap (s.front.next n1) "below next next"
      let o ← orientD node.pt n1.pt n2.pt
      if o = .ccw then fillRightConcaveD c fuel0 e fuel0 s id
      else
        let (s, b) ← fillRightConvexD c fuel0 e fuel0 s id
        if b then fillRightBelowD c fuel0 e fuel s id else pure s

/-- `fill_right_above_edge_event`, `/repo/src/sweeper.rs:592-612`. -/
def fillRightAboveD (c : Ctx) (fuel0 : Nat) (e : CEdge) : Nat → St → NodeId → Except Err St
  | 0, _, _ => .error .fuel
  | fuel + 1, s, id =>
    match s.front.locateNext id with
    | none => pure s
    | some n1 =>
      if n1.pt.x ≥ e.p.x then pure s
      else do
        let o ← orientD e.q n1.pt e.p
        if o = .ccw then do
          let s ← fillRightBelowD c fuel0 e fuel0 s id
          fillRightAboveD c fuel0 e fuel s id
        else fillRightAboveD c fuel0 e fuel s n1.id

/-- `fill_left_concave_edge_event`, `/repo/src/sweeper.rs:793-822`. -/
def fillLeftConcaveD (c : Ctx) (fuel0 : Nat) (e : CEdge) : Nat → St → NodeId → Except Err St
  | 0, _, _ => .error .fuel
  | fuel + 1, s, id => do
    let prevNode ← unwrap (s.front.locatePrev id) "concave prev"
    let prevId := prevNode.id
    let (s, r) ← fillOneD c fuel0 s prevId
    let prevId := match r with
      | none => prevId
      | some fo => fo.prev
    if prevId.pid ≠ e.pId then
      let o ← orientD e.q prevId.pt e.p
      if o = .cw then
        let prev ← unwrap (s.front.getNodeWithId prevId) "concave prev node"
        let pp ← unwrap (s.front.prev prev) "concave prev prev"
        let o' ← orientD id.pt prev.pt pp.pt
        if o' = .cw then fillLeftConcaveD c fuel0 e fuel s id
        else pure s
      else pure s
    else pure s

/-- `fill_left_convex_edge_event`, `/repo/src/sweeper.rs:760-791`; `false` is Rust's `None`. -/
def fillLeftConvexD (c : Ctx) (fuel0 : Nat) (e : CEdge) : Nat → St → NodeId → Except Err (St × Bool)
  | 0, _, _ => .error .fuel
  | fuel + 1, s, id => do
    let n1 ← unwrap (s.front.locatePrev id) "convex prev"
    let n2 ← unwrap (s.front.prev n1) "convex prev prev"
    match s.front.prev n2 with
    | none => pure (s, false)
    | some n3 => do
      let o ← orientD n1.pt n2.pt n3.pt
      if o = .cw then do
        let s ← fillLeftConcaveD c fuel0 e fuel0 s n1.id
        pure (s, true)
      else do
        let o' ← orientD e.q n2.pt e.p
        if o' = .cw then fillLeftConvexD c fuel0 e fuel s n1.id
        else pure (s, true)

/-- `fill_left_below_edge_event`, `/repo/src/sweeper.rs:734-756`. -/
def fillLeftBelowD (c : Ctx) (fuel0 : Nat) (e : CEdge) : Nat → St → NodeId → Except Err St
  | 0, _, _ => .error .fuel
  | fuel + 1, s, id => do
    if id.pt.x > e.p.x then
      let n1 ← unwrap (s.front.locatePrev id) "below prev"
      let n2 ← unwrap (s.front.prev n1) "below prev prev"
      let o ← orientD id.pt n1.pt n2.pt
      if o = .cw then fillLeftConcaveD c fuel0 e fuel0 s id
      else
        let (s, b) ← fillLeftConvexD c fuel0 e fuel0 s id
        if b then fillLeftBelowD c fuel0 e fuel s id else pure s
    else pure s

/-- `fill_left_above_edge_event`, `/repo/src/sweeper.rs:713-732`. -/
def fillLeftAboveD (c : Ctx) (fuel0 : Nat) (e : CEdge) : Nat → St → NodeId → Except Err St
  | 0, _, _ => .error .fuel
  | fuel + 1, s, id =>
    match s.front.locatePrev id with
    | none => pure s
    | some n1 =>
      if n1.pt.x ≤ e.p.x then pure s
      else do
        let o ← orientD e.q n1.pt e.p
        if o = .cw then do
          let s ← fillLeftBelowD c fuel0 e fuel0 s id
          fillLeftAboveD c fuel0 e fuel s id
        else fillLeftAboveD c fuel0 e fuel s n1.id

/-- `fill_edge_event`, `/repo/src/sweeper.rs:579-590`. -/
def fillEdgeEventD (c : Ctx) (fuel : Nat) (s : St) (e : CEdge) (id : NodeId) : Except Err St :=
  if e.right then fillRightAboveD c fuel e fuel s id else fillLeftAboveD c fuel e fuel s id

/-- `next_flip_point`, `/repo/src/sweeper.rs:982-1009`. -/
def nextFlipPointD (c : Ctx) (ts : Store) (ep eq ot op : Nat) : Except Err Nat := do
  let e ← c.pt eq
  let o ← c.pt op
  let p ← c.pt ep
  let O ← Store.getU ts ot
  match ← orientD e o p with
  | .cw => O.pointCcw op
  | .ccw => O.pointCw op
  | .collinear => .error (.panic "Opposing point on constrained edge")

mutual

/-- `edge_event_process`, `/repo/src/sweeper.rs:824-905`.  Returns the state and the legalize queue. -/
def edgeProcessD (c : Ctx) (fuel : Nat) (s : St) (ep eq : Nat) (e : CEdge) (t : Option Nat) (p : Nat)
    (lq : List Nat) : Except Err (St × List Nat) :=
  match fuel with
  | 0 => .error .fuel
  | fuel + 1 => do
    let t ← unwrap t "assert triangle valid"
    let (ts, marked) ← Store.tryMarkEdge s.tris ep eq t
    let s := { s with tris := ts }
    if marked then pure (s, lq)
    else
      let T ← Store.getU s.tris t
      let p1 ← T.pointCcw p
      let o1 ← orientD (← c.pt eq) (← c.pt p1) (← c.pt ep)
      if o1 = .collinear then
        match T.edgeIndex eq p1 with
        | none => .error (.panic "EdgeEvent - collinear points not supported")
        | some i =>
          let s := { s with tris := s.tris.set t (T.setConstrained i true) }
          let n ← T.neighborAcross p
          edgeProcessD c fuel s ep p1 (← e.withQ c p1) n p1 lq
      else
        let p2 ← T.pointCw p
        let o2 ← orientD (← c.pt eq) (← c.pt p2) (← c.pt ep)
        if o2 = .collinear then
          match T.edgeIndex eq p2 with
          | none => .error (.panic "collinear points not supported")
          | some i =>
            let s := { s with tris := s.tris.set t (T.setConstrained i true) }
            let n ← T.neighborAcross p
            edgeProcessD c fuel s ep p2 (← e.withQ c p2) n p2 lq
        else if o1 = o2 then
          let n ← (if o1 = .cw then T.neighborCcw p else T.neighborCw p)
          edgeProcessD c fuel s ep eq e n p lq
        else flipEdgeD c fuel s ep eq e t p lq
termination_by structural fuel

/-- `flip_edge_event`, `/repo/src/sweeper.rs:910-963`. -/
def flipEdgeD (c : Ctx) (fuel : Nat) (s : St) (ep eq : Nat) (e : CEdge) (t : Nat) (p : Nat)
    (lq : List Nat) : Except Err (St × List Nat) :=
  match fuel with
  | 0 => .error .fuel
  | fuel + 1 => do
    let T ← Store.getU s.tris t
    let (ot, O) ← Store.getUO s.tris (← T.neighborAcross p)
    let op ← O.oppositePoint T p
    let pa ← c.pt p
    let pb ← c.pt (← T.pointCcw p)
    let pc ← c.pt (← T.pointCw p)
    let pd ← c.pt op
    if inScanArea c.num pa pb pc pd then
      let (ts, need) ← Store.rotatePairD s.tris t p ot op
      let s := { s with tris := ts }
      let s ← (if need then do
          let s ← mapTri c s t
          mapTri c s ot
        else pure s)
      let lq := lq ++ [t, ot]
      if p = eq ∧ op = ep then
        if eq = e.qId ∧ ep = e.pId then
          let T ← Store.getU s.tris t
          let ts := s.tris.set t (T.setConstrainedForEdge ep eq)
          let O ← Store.getU ts ot
          let ts := ts.set ot (O.setConstrainedForEdge ep eq)
          pure ({ s with tris := ts }, lq)
        else pure (s, lq)
      else
        let o ← orientD (← c.pt eq) (← c.pt op) (← c.pt ep)
        let (t', q) := nextFlipTriangle o t ot
        flipEdgeD c fuel s ep eq e t' p (lq ++ [q])
    else
      let newP ← nextFlipPointD c s.tris ep eq ot op
      let (s, lq) ← flipScanD c fuel s ep eq e t ot newP lq
      edgeProcessD c fuel s ep eq e (some t) p lq
termination_by structural fuel

/-- `flip_scan_edge_event`, `/repo/src/sweeper.rs:1011-1053`. -/
def flipScanD (c : Ctx) (fuel : Nat) (s : St) (ep eq : Nat) (e : CEdge) (flipT t : Nat) (p : Nat)
    (lq : List Nat) : Except Err (St × List Nat) :=
  match fuel with
  | 0 => .error .fuel
  | fuel + 1 => do
    let T ← Store.getU s.tris t
    let ot ← unwrap (← T.neighborAcross p) "flip_scan_edge_event - null neighbor across"
    let O ← Store.getU s.tris ot
    let op ← O.oppositePoint T p
    let F ← Store.getU s.tris flipT
    let p1 ← F.pointCcw eq
    let p2 ← F.pointCw eq
    if inScanArea c.num (← c.pt eq) (← c.pt p1) (← c.pt p2) (← c.pt op) then
      flipEdgeD c fuel s eq op e ot op lq
    else
      let newP ← nextFlipPointD c s.tris ep eq ot op
      flipScanD c fuel s ep eq e flipT ot newP lq
termination_by structural fuel

end

/-- `for triangle_id in triangle_ids.drain(..) { self.legalize(..) }`, `/repo/src/sweeper.rs:556-558`. -/
def legalizeAllD (c : Ctx) (fuel : Nat) : List Nat → St → Except Err St
  | [], s => pure s
  | t :: ts, s => do
    let s ← legalizeD c fuel s t
    legalizeAllD c fuel ts s

/-- `edge_event`, `/repo/src/sweeper.rs:512-560`. -/
def edgeEventD (c : Ctx) (fuel : Nat) (s : St) (edge : Edge) (q : Point) : Except Err St := do
  let p ← c.pt edge.p
  let ce : CEdge := ⟨edge.p, edge.q, p, q, decide (p.x > q.x)⟩
  let (f, r) ← s.front.getNodeWithCache q
  let s := { s with front := f }
  let node ← unwrap r "edge_event node"
  let t ← unwrap node.tri "edge_event triangle"
  let (ts, marked) ← Store.tryMarkEdge s.tris edge.p edge.q t
  let s := { s with tris := ts }
  if marked then pure s
  else
    let s ← fillEdgeEventD c fuel s ce node.id
    let (f, r) ← s.front.getNodeWithCache q
    let s := { s with front := f }
    let node ← unwrap r "edge_event node"
    let t ← unwrap node.tri "edge_event triangle"
    let (s, lq) ← edgeProcessD c fuel s edge.p edge.q ce (some t) edge.q []
    legalizeAllD c fuel lq s

/-- `for p in edges { .. }`, `/repo/src/sweeper.rs:50-55`. -/
def edgeEventsD (c : Ctx) (fuel : Nat) (pid : Nat) (pt : Point) : List Nat → St → Except Err St
  | [], s => pure s
  | p :: ps, s => do
    let s ← edgeEventD c fuel s ⟨p, pid⟩ pt
    edgeEventsD c fuel pid pt ps (s.emit (.edge p pid))

/-- The body of `sweep_points`, `/repo/src/sweeper.rs:45-58`, with the assertion of line 57. -/
def sweepLoopD (c : Ctx) (fuel : Nat) : List (Nat × Point × PointEdges) → St → Except Err St
  | [], s => pure s
  | (pid, pt, es) :: rest, s => do
    let s := s.emit (.enterPoint pid)
    let s ← pointEventD c fuel s pid pt
    let s := s.emit (.exitPoint pid)
    let s ← edgeEventsD c fuel pid pt es.toList s
    if ← verifyTriangles c s.tris then sweepLoopD c fuel rest s else .error Dbg.verify.err

/-- `sweep_points`, `/repo/src/sweeper.rs:44-59`. -/
def sweepPointsD (c : Ctx) (fuel : Nat) (s : St) : Except Err St := do
  let items ← c.iterByY 1
  sweepLoopD c fuel items s

/-- `triangulate_with_observer` in a debug build, `/repo/src/cdt.rs:227-262`. -/
def CDT.runD {D} (fuel : Nat) (cdt : CDT D) : Except Err (Triangles D × St) := do
  let s ← initState cdt.points
  let s ← sweepPointsD cdt.points fuel s
  let s := s.emit .sweepDone
  let s ← finalizePolygon fuel s
  let s := s.emit .finalized
  pure (⟨cdt.points, cdt.data, s.tris, s.result, 0⟩, s)

end P2T
