import Verif.Model.Points

/-!
# The advancing front

Models `/repo/src/advancing_front/mod.rs` and `/repo/src/advancing_front/vec_backed.rs`.
The test-only hit/miss counters are not modelled.
-/

namespace P2T

/-- `Entry` with its `NodeInner`, `/repo/src/advancing_front/vec_backed.rs:17-20`, `:84-88`. -/
structure Node where
  key : Point
  pid : Nat
  tri : Option Nat
  deriving DecidableEq, Repr

/-- `AdvancingFront`, `/repo/src/advancing_front/vec_backed.rs:7-15`. -/
structure Front where
  nodes : List Node
  cache : Option (Point × Nat)
  deriving DecidableEq, Repr

/-- `NodeId`, `/repo/src/advancing_front/mod.rs:10-15`. -/
structure NodeId where
  pid : Nat
  pt : Point
  hint : Nat
  deriving DecidableEq, Repr

/-- `NodeRef`, `/repo/src/advancing_front/mod.rs:29-39` (the borrowed front is passed separately). -/
structure NodeRef where
  pid : Nat
  pt : Point
  tri : Option Nat
  idx : Nat
  deriving DecidableEq, Repr

/-- `get_node_id`, `/repo/src/advancing_front/mod.rs:63-69`. -/
def NodeRef.id (r : NodeRef) : NodeId := ⟨r.pid, r.pt, r.idx⟩

/-- `to_node`, `/repo/src/advancing_front/vec_backed.rs:31-39`. -/
def Node.toRef (e : Node) (i : Nat) : NodeRef := ⟨e.pid, e.key, e.tri, i⟩

/-- `[T]::binary_search_by_key(key, |e| e.key)`: on a slice sorted by key, `Ok i` if the key is at
`i`, otherwise `Err i` with `i` the insertion point.  The standard library's probing order is
modelled by its contract (first position whose key is not less). -/
def binSearch (nodes : List Node) (key : Point) : Except Nat Nat :=
  let i := (nodes.takeWhile (fun e => keyCmp e.key key == .lt)).length
  match nodes[i]? with
  | some e => if keyCmp e.key key = .eq then .ok i else .error i
  | none => .error i

/-- `.map(|idx| idx + i).map_err(|idx| idx + i)`. -/
def shiftRes (r : Except Nat Nat) (i : Nat) : Except Nat Nat :=
  match r with
  | .ok j => .ok (j + i)
  | .error j => .error (j + i)

namespace Front

/-- `AdvancingFront::new`, `/repo/src/advancing_front/vec_backed.rs:93-138`. -/
def new (T : Tri) (tid : Nat) (c : Ctx) : Except Err Front := do
  let get (i : Nat) : Except Err Point :=
    match c.points[i]? with
    | some p => .ok p
    | none => .error (.panic "should not fail")
  let first ← get T.points.b
  let middle ← get T.points.a
  let tail ← get T.points.c
  let nodes : List Node :=
    [⟨first, T.points.b, some tid⟩, ⟨middle, T.points.a, some tid⟩, ⟨tail, T.points.c, none⟩]
  pure { nodes := sortBy (fun a b => keyCmp a.key b.key == .lt) nodes, cache := none }

/-- `search_by_key`, `/repo/src/advancing_front/vec_backed.rs:293-295`. -/
def searchByKey (f : Front) (key : Point) : Except Nat Nat := binSearch f.nodes key

/-- `search_by_key_with_cache`, `/repo/src/advancing_front/vec_backed.rs:297-376`.  `nodes[i - 1]` and
`nodes[i + 1]` are checked indexing (a wrapped `0 - 1` is out of range as well), so an index outside
the vector panics. -/
def searchByKeyWithCache (f : Front) (key : Point) : Except Err (Except Nat Nat) :=
  match f.cache with
  | none => .ok (f.searchByKey key)
  | some (p, i) =>
    match keyCmp p key with
    | .eq => .ok (.ok i)
    | .gt =>
      match (if i = 0 then none else f.nodes[i - 1]?) with
      | none => .error (.panic "index out of bounds")
      | some e =>
        match keyCmp e.key key with
        | .eq => .ok (.ok (i - 1))
        | .lt => .ok (.error i)
        | .gt => .ok (binSearch (f.nodes.take i) key)
    | .lt =>
      if i < f.nodes.length then
        match f.nodes[i + 1]? with
        | none => .error (.panic "index out of bounds")
        | some e =>
          match keyCmp e.key key with
          | .gt => .ok (.error (i + 1))
          | _ => .ok (shiftRes (binSearch (f.nodes.drop i) key) i)
      else
        .ok (shiftRes (binSearch (f.nodes.drop i) key) i)

/-- `resolve_index_for_id`, `/repo/src/advancing_front/vec_backed.rs:380-391`. -/
def resolve (f : Front) (id : NodeId) : Except Nat Nat :=
  match f.nodes[id.hint]? with
  | some e => if e.pid = id.pid then .ok id.hint else f.searchByKey id.pt
  | none => f.searchByKey id.pt

/-- `nth`, `/repo/src/advancing_front/vec_backed.rs:185-187`; also the body of `next_node`,
`prev_node` and the `get_unchecked` reads whose index the code has just checked. -/
def nth (f : Front) (i : Nat) : Option NodeRef := (f.nodes[i]?).map (·.toRef i)

/-- `NodeRef::next` / `next_node`, `/repo/src/advancing_front/vec_backed.rs:260-267`. -/
def next (f : Front) (r : NodeRef) : Option NodeRef := f.nth (r.idx + 1)

/-- `NodeRef::prev` / `prev_node`, `/repo/src/advancing_front/vec_backed.rs:283-291`. -/
def prev (f : Front) (r : NodeRef) : Option NodeRef :=
  if r.idx = 0 then none else f.nth (r.idx - 1)

/-- `insert`, `/repo/src/advancing_front/vec_backed.rs:142-159`. -/
def insert (f : Front) (pid : Nat) (pt : Point) (tid : Nat) : Front :=
  match f.searchByKey pt with
  | .ok i =>
    { nodes := f.nodes.modify i (fun e => { e with pid := pid, tri := some tid })
      cache := some (pt, i) }
  | .error i =>
    { nodes := f.nodes.take i ++ [⟨pt, pid, some tid⟩] ++ f.nodes.drop i
      cache := some (pt, i) }

/-- `update_and_delete_by_index`, `/repo/src/advancing_front/vec_backed.rs:164-182`. -/
def updateAndDelete (f : Front) (upd : Nat) (tid : Nat) (del : Nat) : Except Err Front :=
  if upd < f.nodes.length then
    let nodes := f.nodes.modify upd (fun e => { e with tri := some tid })
    if del < nodes.length then .ok { nodes := nodes.eraseIdx del, cache := none }
    else .error (.panic "remove index")
  else .error (.panic "get_mut unwrap")

/-- `locate_node`, `/repo/src/advancing_front/vec_backed.rs:200-209`.  `idx - 1` with `idx = 0` wraps in
a release build and the unchecked read is then out of bounds. -/
def locateNode (f : Front) (pt : Point) : Except Err NodeRef :=
  let idx : Option Nat :=
    match f.searchByKey pt with
    | .error 0 => none
    | .error (i + 1) => some i
    | .ok i => some i
  match idx.bind f.nth with
  | some r => .ok r
  | none => .error (.ub "locate_node")

/-- `get_node`, `/repo/src/advancing_front/vec_backed.rs:212-217`. -/
def getNode (f : Front) (pt : Point) : Except Err (Option NodeRef) := do
  match ← f.searchByKeyWithCache pt with
  | .error _ => pure none
  | .ok i =>
    match f.nth i with
    | some r => pure (some r)
    | none => .error (.ub "get_node")

/-- `get_node_with_cache`, `/repo/src/advancing_front/vec_backed.rs:220-228`. -/
def getNodeWithCache (f : Front) (pt : Point) : Except Err (Front × Option NodeRef) := do
  match ← f.searchByKeyWithCache pt with
  | .error _ => pure (f, none)
  | .ok i =>
    let f := { f with cache := some (pt, i) }
    match f.nth i with
    | some r => pure (f, some r)
    | none => .error (.ub "get_node_with_cache")

/-- `get_node_with_id`, `/repo/src/advancing_front/vec_backed.rs:231-235`. -/
def getNodeWithId (f : Front) (id : NodeId) : Option NodeRef :=
  match f.resolve id with
  | .ok i => f.nth i
  | .error _ => none

/-- `update_triangle`, `/repo/src/advancing_front/vec_backed.rs:238-241`. -/
def updateTriangle (f : Front) (pt : Point) (tid : Nat) : Except Err Front := do
  match ← f.searchByKeyWithCache pt with
  | .error _ => .error (.panic "update_triangle unwrap")
  | .ok i =>
    if i < f.nodes.length then
      pure { f with nodes := f.nodes.modify i (fun e => { e with tri := some tid }) }
    else .error (.panic "index out of bounds")

/-- `locate_next_node`, `/repo/src/advancing_front/vec_backed.rs:245-256`. -/
def locateNext (f : Front) (id : NodeId) : Option NodeRef :=
  match f.resolve id with
  | .ok i => f.nth (i + 1)
  | .error i => f.nth i

/-- `locate_prev_node`, `/repo/src/advancing_front/vec_backed.rs:271-279`. -/
def locatePrev (f : Front) (id : NodeId) : Option NodeRef :=
  match f.resolve id with
  | .ok i => if i > 0 then f.nth (i - 1) else none
  | .error i => if i > 0 then f.nth (i - 1) else none

end Front
end P2T
