import Verif.Model.Shape

/-!
# The triangle store

Models `/repo/src/triangles.rs`.  The store is the list of triangles in insertion order; a triangle id
is its index.  `insert` (`:64-68`) is `ts ++ [t]` with id `ts.length`.
-/

namespace P2T

/-- `TriangleStore`, `/repo/src/triangles.rs:43-45`. -/
abbrev Store := List Tri

namespace Store

/-- `get_unchecked` / `get_mut_unchecked`, `/repo/src/triangles.rs:77-80`, `:160-162`: out of bounds
(in particular `INVALID`) is undefined behaviour in a release build. -/
def getU (ts : Store) (t : Nat) : Except Err Tri :=
  match ts[t]? with
  | some T => .ok T
  | none => .error (.ub "triangle get_unchecked")

/-- The same on a slot that may be `INVALID`. -/
def getUO (ts : Store) (t : Option Nat) : Except Err (Nat × Tri) :=
  match t with
  | none => .error (.ub "get_unchecked of INVALID")
  | some t => do let T ← getU ts t; pure (t, T)

/-- `get`, `/repo/src/triangles.rs:70-75`: `INVALID` gives `None`, any other id is unchecked. -/
def get (ts : Store) (t : Option Nat) : Except Err (Option Tri) :=
  match t with
  | none => .ok none
  | some t => do let T ← getU ts t; pure (some T)

/-- The assertion shared by `get_mut_two` and `get_mut_six`, `/repo/src/triangles.rs:91-95`,
`:122-126`. -/
def assertTwo (ts : Store) (a b : Nat) : Except Err Unit :=
  if a ≠ b ∧ a < ts.length ∧ b < ts.length then .ok () else .error (.panic "get_mut_two")

/-- `mark_neighbor_for_two_mut`, `/repo/src/triangles.rs:179-200`.  Without a common edge the release
build returns silently. -/
def markTwo (l r : Nat) (L R : Tri) : Tri × Tri :=
  match L.commonEdgeIndex R with
  | none => (L, R)
  | some (li, ri) =>
    let con := L.isConstrained li || R.isConstrained ri
    let L1 := { L with neighbors := L.neighbors.set li (some r) }
    let L2 := (L1.setConstrained li con).setDelaunay li false
    let R1 := { R with neighbors := R.neighbors.set ri (some l) }
    let R2 := (R1.setConstrained ri con).setDelaunay ri false
    (L2, R2)

/-- Applying `mark_neighbor_for_two_mut` to two elements of the store. -/
def markPair (ts : Store) (l r : Nat) : Store :=
  match ts[l]?, ts[r]? with
  | some L, some R =>
    let (L', R') := markTwo l r L R
    (ts.set l L').set r R'
  | _, _ => ts

/-- `mark_neighbor`, `/repo/src/triangles.rs:172-175`. -/
def markNeighbor (ts : Store) (l r : Nat) : Except Err Store := do
  assertTwo ts l r
  pure (markPair ts l r)

/-- `if let Some(t_n) = t_n { mark_neighbor_for_two_mut(..) }`, `/repo/src/sweeper.rs:306-317`. -/
def markOpt (ts : Store) (l : Nat) (r : Option Nat) : Store :=
  match r with
  | none => ts
  | some r => markPair ts l r

/-- The safety condition of `get_mut_six`, `/repo/src/triangles.rs:106-158`: the assertion on the
first two ids, and (not asserted by the code) all valid ids in bounds and pairwise different,
otherwise the unchecked pointer arithmetic is out of bounds or two `&mut` alias. -/
def getMutSix (ts : Store) (a b : Nat) (n1 n2 n3 n4 : Option Nat) : Except Err Unit := do
  assertTwo ts a b
  let ids := [a, b] ++ ([n1, n2, n3, n4].filterMap id)
  if ids.Nodup ∧ ∀ i ∈ ids, i < ts.length then pure () else .error (.ub "get_mut_six")

/-- `rotate_triangle_pair`, `/repo/src/sweeper.rs:270-320`. -/
def rotatePair (ts : Store) (t p ot op : Nat) : Except Err (Store × Bool) := do
  assertTwo ts t ot
  let T ← getU ts t
  let O ← getU ts ot
  let n1 ← T.neighborCcw p
  let n2 ← T.neighborCw p
  let n3 ← O.neighborCcw op
  let n4 ← O.neighborCw op
  let ea1 ← T.edgeAttrCcw p
  let ea2 ← T.edgeAttrCw p
  let ea3 ← O.edgeAttrCcw op
  let ea4 ← O.edgeAttrCw op
  let T ← T.rotateCw p op
  let O ← O.rotateCw op p
  let T ← T.setEdgeAttrCw p ea2
  let T ← T.setEdgeAttrCcw op ea3
  let O ← O.setEdgeAttrCcw p ea1
  let O ← O.setEdgeAttrCw op ea4
  let (T, O) := markTwo t ot T.clearNeighbors O.clearNeighbors
  let ts := (ts.set t T).set ot O
  getMutSix ts t ot n1 n2 n3 n4
  let ts := markOpt ts t n2
  let ts := markOpt ts t n3
  let ts := markOpt ts ot n1
  let ts := markOpt ts ot n4
  pure (ts, n1.isNone || n2.isNone || n3.isNone || n4.isNone)

/-- `t.common_edge_index(ot).unwrap()` then `set_delaunay` on both sides,
`/repo/src/sweeper.rs:228-237`. -/
def flagDelaunay (ts : Store) (t ot : Nat) : Except Err Store := do
  assertTwo ts t ot
  let T ← getU ts t
  let O ← getU ts ot
  match T.commonEdgeIndex O with
  | none => .error (.panic "common_edge_index unwrap")
  | some (i, j) => pure ((ts.set t (T.setDelaunay i true)).set ot (O.setDelaunay j true))

/-- `try_mark_edge_for_triangle`, `/repo/src/sweeper.rs:564-577`. -/
def tryMarkEdge (ts : Store) (p q t : Nat) : Except Err (Store × Bool) := do
  let T ← getU ts t
  match T.edgeIndex p q with
  | none => pure (ts, false)
  | some i =>
    let ts := ts.set t (T.setConstrained i true)
    match T.neighbors.get i with
    | none => pure (ts, true)
    | some o =>
      let O ← getU ts o
      let j ← O.neighborIndex t
      pure (ts.set o (O.setConstrained j true), true)

end Store
end P2T
