import Verif.Model.Num

/-!
# Edges, edge attributes and triangles

Models `/repo/src/shape.rs`.  A `PointId` is a `Nat` (its `u32` value).  A `TriangleId` slot that may
hold `TriangleId::INVALID` is an `Option Nat` (`none` is `INVALID`); the sentinel `usize::MAX` is never
a real index because a store of that size cannot exist.
-/

namespace P2T

/-- A Rust array `[T; 3]`. -/
structure V3 (α : Type) where
  a : α
  b : α
  c : α
  deriving DecidableEq, Repr

/-- `arr[i]` for a constant-length array of three. -/
def V3.get {α} (v : V3 α) (i : Fin 3) : α :=
  match i with
  | 0 => v.a
  | 1 => v.b
  | 2 => v.c

/-- `arr[i] = x`. -/
def V3.set {α} (v : V3 α) (i : Fin 3) (x : α) : V3 α :=
  match i with
  | 0 => { v with a := x }
  | 1 => { v with b := x }
  | 2 => { v with c := x }

/-- `Edge`, `/repo/src/shape.rs:3-9`. -/
structure Edge where
  p : Nat
  q : Nat
  deriving DecidableEq, Repr

/-- `Edge::new`, `/repo/src/shape.rs:12-29`. -/
def Edge.new (p1 : Nat × Point) (p2 : Nat × Point) : Except Err Edge :=
  if p1.2.y > p2.2.y then .ok ⟨p2.1, p1.1⟩
  else if p1.2.y = p2.2.y then
    if p1.2.x > p2.2.x then .ok ⟨p2.1, p1.1⟩
    else if p1.2.x = p2.2.x then .error (.panic "repeat points")
    else .ok ⟨p1.1, p2.1⟩
  else .ok ⟨p1.1, p2.1⟩

/-- `EdgeAttr`, `/repo/src/shape.rs:57-58`: one byte of flags. -/
structure EdgeAttr where
  bits : BitVec 8
  deriving DecidableEq, Repr

namespace EdgeAttr

/-- `Default`, `/repo/src/shape.rs:57`. -/
def default : EdgeAttr := ⟨0⟩
/-- `/repo/src/shape.rs:70-75`. -/
def ALL : BitVec 8 := 0xFF
def CONSTRAINED : BitVec 8 := 1
def CONSTRAINED_UNSET : BitVec 8 := ALL ^^^ CONSTRAINED
def DELAUNAY : BitVec 8 := 1 <<< 1
def DELAUNAY_UNSET : BitVec 8 := ALL ^^^ DELAUNAY

/-- `/repo/src/shape.rs:77-83`. -/
def setConstrained (e : EdgeAttr) (val : Bool) : EdgeAttr :=
  if !val then ⟨e.bits &&& CONSTRAINED_UNSET⟩ else ⟨e.bits ||| CONSTRAINED⟩
/-- `/repo/src/shape.rs:85-87`. -/
def isConstrained (e : EdgeAttr) : Bool := e.bits &&& CONSTRAINED != 0
/-- `/repo/src/shape.rs:89-95`. -/
def setDelaunay (e : EdgeAttr) (val : Bool) : EdgeAttr :=
  if !val then ⟨e.bits &&& DELAUNAY_UNSET⟩ else ⟨e.bits ||| DELAUNAY⟩
/-- `/repo/src/shape.rs:97-99`. -/
def isDelaunay (e : EdgeAttr) : Bool := e.bits &&& DELAUNAY != 0

end EdgeAttr

/-- `InnerTriangle`, `/repo/src/shape.rs:102-115`. -/
structure Tri where
  points : V3 Nat
  neighbors : V3 (Option Nat)
  attrs : V3 EdgeAttr
  interior : Bool
  deriving DecidableEq, Repr

namespace Tri

/-- `InnerTriangle::new`, `/repo/src/shape.rs:118-125`. -/
def new (a b c : Nat) : Tri :=
  { points := ⟨a, b, c⟩
    attrs := ⟨EdgeAttr.default, EdgeAttr.default, EdgeAttr.default⟩
    neighbors := ⟨none, none, none⟩
    interior := false }

def notIn : Err := .panic "point not belongs to triangle"

/-- `point_cw`, `/repo/src/shape.rs:128-138`. -/
def pointCw (t : Tri) (p : Nat) : Except Err Nat :=
  if p = t.points.a then .ok t.points.c
  else if p = t.points.b then .ok t.points.a
  else if p = t.points.c then .ok t.points.b
  else .error notIn

/-- `point_ccw`, `/repo/src/shape.rs:141-151`. -/
def pointCcw (t : Tri) (p : Nat) : Except Err Nat :=
  if p = t.points.a then .ok t.points.b
  else if p = t.points.b then .ok t.points.c
  else if p = t.points.c then .ok t.points.a
  else .error notIn

/-- `opposite_point`, `/repo/src/shape.rs:154-157`. -/
def oppositePoint (self fromT : Tri) (p : Nat) : Except Err Nat := do
  let cw ← fromT.pointCw p
  self.pointCw cw

/-- `point_index`, `/repo/src/shape.rs:161-171`. -/
def pointIndex (t : Tri) (p : Nat) : Option (Fin 3) :=
  if t.points.a = p then some 0
  else if t.points.b = p then some 1
  else if t.points.c = p then some 2
  else none

/-- `set_constrained`, `/repo/src/shape.rs:181-183`. -/
def setConstrained (t : Tri) (i : Fin 3) (val : Bool) : Tri :=
  { t with attrs := t.attrs.set i ((t.attrs.get i).setConstrained val) }
/-- `is_constrained`, `/repo/src/shape.rs:185-187`. -/
def isConstrained (t : Tri) (i : Fin 3) : Bool := (t.attrs.get i).isConstrained
/-- `set_delaunay`, `/repo/src/shape.rs:190-192`. -/
def setDelaunay (t : Tri) (i : Fin 3) (val : Bool) : Tri :=
  { t with attrs := t.attrs.set i ((t.attrs.get i).setDelaunay val) }
/-- `is_delaunay`, `/repo/src/shape.rs:194-196`. -/
def isDelaunay (t : Tri) (i : Fin 3) : Bool := (t.attrs.get i).isDelaunay

/-- `edge_attr_ccw`, `/repo/src/shape.rs:198-208`. -/
def edgeAttrCcw (t : Tri) (p : Nat) : Except Err EdgeAttr :=
  if p = t.points.a then .ok t.attrs.c
  else if p = t.points.b then .ok t.attrs.a
  else if p = t.points.c then .ok t.attrs.b
  else .error notIn

/-- `set_edge_attr_ccw`, `/repo/src/shape.rs:210-220`. -/
def setEdgeAttrCcw (t : Tri) (p : Nat) (e : EdgeAttr) : Except Err Tri :=
  if p = t.points.a then .ok { t with attrs := t.attrs.set 2 e }
  else if p = t.points.b then .ok { t with attrs := t.attrs.set 0 e }
  else if p = t.points.c then .ok { t with attrs := t.attrs.set 1 e }
  else .error notIn

/-- `set_edge_attr_cw`, `/repo/src/shape.rs:222-232`. -/
def setEdgeAttrCw (t : Tri) (p : Nat) (e : EdgeAttr) : Except Err Tri :=
  if p = t.points.a then .ok { t with attrs := t.attrs.set 1 e }
  else if p = t.points.b then .ok { t with attrs := t.attrs.set 2 e }
  else if p = t.points.c then .ok { t with attrs := t.attrs.set 0 e }
  else .error notIn

/-- `edge_attr_cw`, `/repo/src/shape.rs:234-244`. -/
def edgeAttrCw (t : Tri) (p : Nat) : Except Err EdgeAttr :=
  if p = t.points.a then .ok t.attrs.b
  else if p = t.points.b then .ok t.attrs.c
  else if p = t.points.c then .ok t.attrs.a
  else .error notIn

/-- `constrained_edge_cw`, `/repo/src/shape.rs:247-254`. -/
def constrainedEdgeCw (t : Tri) (p : Nat) : Except Err Bool :=
  match t.pointIndex p with
  | some 0 => .ok t.attrs.b.isConstrained
  | some 1 => .ok t.attrs.c.isConstrained
  | some 2 => .ok t.attrs.a.isConstrained
  | none => .error notIn

/-- `neighbor_index`, `/repo/src/shape.rs:256-266`. -/
def neighborIndex (t : Tri) (tid : Nat) : Except Err (Fin 3) :=
  if t.neighbors.a = some tid then .ok 0
  else if t.neighbors.b = some tid then .ok 1
  else if t.neighbors.c = some tid then .ok 2
  else .error (.panic "not valid neighbor")

/-- `neighbor_ccw`, `/repo/src/shape.rs:269-279`. -/
def neighborCcw (t : Tri) (p : Nat) : Except Err (Option Nat) :=
  if p = t.points.a then .ok t.neighbors.c
  else if p = t.points.b then .ok t.neighbors.a
  else if p = t.points.c then .ok t.neighbors.b
  else .error notIn

/-- `neighbor_cw`, `/repo/src/shape.rs:282-292`. -/
def neighborCw (t : Tri) (p : Nat) : Except Err (Option Nat) :=
  if p = t.points.a then .ok t.neighbors.b
  else if p = t.points.b then .ok t.neighbors.c
  else if p = t.points.c then .ok t.neighbors.a
  else .error notIn

/-- `neighbor_across`, `/repo/src/shape.rs:295-300`. -/
def neighborAcross (t : Tri) (p : Nat) : Except Err (Option Nat) :=
  match t.pointIndex p with
  | some i => .ok (t.neighbors.get i)
  | none => .error (.panic "break here")

/-- `rotate_cw`, `/repo/src/shape.rs:303-319` (the assignments are sequential; each line of the Rust
code reads values that earlier lines have not overwritten). -/
def rotateCw (t : Tri) (o n : Nat) : Except Err Tri :=
  if o = t.points.a then .ok { t with points := ⟨t.points.c, t.points.a, n⟩ }
  else if o = t.points.b then .ok { t with points := ⟨n, t.points.a, t.points.b⟩ }
  else if o = t.points.c then .ok { t with points := ⟨t.points.c, n, t.points.b⟩ }
  else .error notIn

/-- `clear_neighbors`, `/repo/src/shape.rs:321-323`. -/
def clearNeighbors (t : Tri) : Tri := { t with neighbors := ⟨none, none, none⟩ }

/-- `edge_index`, `/repo/src/shape.rs:325-353`. -/
def edgeIndex (t : Tri) (p q : Nat) : Option (Fin 3) :=
  if t.points.a = p then
    if t.points.b = q then some 2
    else if t.points.c = q then some 1
    else none
  else if t.points.b = p then
    if t.points.a = q then some 2
    else if t.points.c = q then some 0
    else none
  else if t.points.c = p then
    if t.points.a = q then some 1
    else if t.points.b = q then some 0
    else none
  else none

/-- `set_constrained_for_edge`, `/repo/src/shape.rs:174-178`. -/
def setConstrainedForEdge (t : Tri) (p q : Nat) : Tri :=
  match t.edgeIndex p q with
  | some i => t.setConstrained i true
  | none => t

/-- `common_edge_index`, `/repo/src/shape.rs:355-431`. -/
def commonEdgeIndex (s o : Tri) : Option (Fin 3 × Fin 3) :=
  if s.points.b = o.points.a then
    if s.points.c = o.points.c then some (0, 1)
    else if s.points.a = o.points.b then some (2, 2)
    else none
  else if s.points.b = o.points.b then
    if s.points.c = o.points.a then some (0, 2)
    else if s.points.a = o.points.c then some (2, 0)
    else none
  else if s.points.b = o.points.c then
    if s.points.c = o.points.b then some (0, 0)
    else if s.points.a = o.points.a then some (2, 1)
    else none
  else if s.points.a = o.points.a then
    if s.points.c = o.points.b then some (1, 2)
    else if s.points.b = o.points.c then some (2, 1)
    else none
  else if s.points.a = o.points.c then
    if s.points.c = o.points.a then some (1, 1)
    else if s.points.b = o.points.b then some (2, 0)
    else none
  else if s.points.a = o.points.b then
    if s.points.b = o.points.a then some (2, 2)
    else if s.points.c = o.points.c then some (1, 0)
    else none
  else if s.points.c = o.points.a then
    if s.points.a = o.points.c then some (1, 1)
    else if s.points.b = o.points.b then some (0, 2)
    else none
  else if s.points.c = o.points.b then
    if s.points.a = o.points.a then some (1, 2)
    else if s.points.b = o.points.c then some (0, 0)
    else none
  else if s.points.c = o.points.c then
    if s.points.b = o.points.a then some (0, 1)
    else if s.points.a = o.points.b then some (1, 0)
    else none
  else none

end Tri
end P2T
