import Verif.Proofs.Attr
import Verif.Model.Store

/-!
# Triangles up to rotation

`Tri.View T P N E`: the triangle `T` is a rotation of the vertices `P`, neighbours `N`, flags `E`.
`Tri.Slot T w u v n e`: `T` has the directed edge `u → v` opposite the vertex `w`, with neighbour `n`
and flags `e`.
-/

namespace P2T

def V3.rot {α} (v : V3 α) : V3 α := ⟨v.b, v.c, v.a⟩

def Tri.View (T : Tri) (P : V3 Nat) (N : V3 (Option Nat)) (E : V3 EdgeAttr) : Prop :=
  (T.points = P ∧ T.neighbors = N ∧ T.attrs = E) ∨
  (T.points = P.rot ∧ T.neighbors = N.rot ∧ T.attrs = E.rot) ∨
  (T.points = P.rot.rot ∧ T.neighbors = N.rot.rot ∧ T.attrs = E.rot.rot)

def Tri.Slot (T : Tri) (w u v : Nat) (n : Option Nat) (e : EdgeAttr) : Prop :=
  (T.points = ⟨w, u, v⟩ ∧ T.neighbors.a = n ∧ T.attrs.a = e) ∨
  (T.points = ⟨v, w, u⟩ ∧ T.neighbors.b = n ∧ T.attrs.b = e) ∨
  (T.points = ⟨u, v, w⟩ ∧ T.neighbors.c = n ∧ T.attrs.c = e)

theorem Tri.Slot.view {T : Tri} {w u v n e} (h : T.Slot w u v n e) :
    ∃ n1 n2 e1 e2, T.View ⟨w, u, v⟩ ⟨n, n1, n2⟩ ⟨e, e1, e2⟩ := by
  obtain ⟨⟨a, b, c⟩, ⟨na, nb, nc⟩, ⟨ea, eb, ec⟩, i⟩ := T
  rcases h with ⟨h, rfl, rfl⟩ | ⟨h, rfl, rfl⟩ | ⟨h, rfl, rfl⟩ <;> cases h
  · exact ⟨nb, nc, eb, ec, .inl ⟨rfl, rfl, rfl⟩⟩
  · exact ⟨nc, na, ec, ea, .inr (.inr ⟨rfl, rfl, rfl⟩)⟩
  · exact ⟨na, nb, ea, eb, .inr (.inl ⟨rfl, rfl, rfl⟩)⟩

theorem Tri.View.rot {T : Tri} {P N E} (h : T.View P N E) : T.View P.rot N.rot E.rot := by
  rcases h with h | h | h
  · exact .inr (.inr h)
  · exact .inl h
  · exact .inr (.inl h)

theorem Tri.view_self (T : Tri) : T.View T.points T.neighbors T.attrs := .inl ⟨rfl, rfl, rfl⟩

theorem Tri.View.slot {T : Tri} {p a b n0 n1 n2 e0 e1 e2}
    (h : T.View ⟨p, a, b⟩ ⟨n0, n1, n2⟩ ⟨e0, e1, e2⟩) : T.Slot p a b n0 e0 := by
  rcases h with ⟨h1, h2, h3⟩ | ⟨h1, h2, h3⟩ | ⟨h1, h2, h3⟩ <;>
    simp [Tri.Slot, h1, h2, h3, V3.rot]

theorem Tri.View.slot1 {T : Tri} {p a b n0 n1 n2 e0 e1 e2}
    (h : T.View ⟨p, a, b⟩ ⟨n0, n1, n2⟩ ⟨e0, e1, e2⟩) : T.Slot a b p n1 e1 := h.rot.slot

theorem Tri.View.slot2 {T : Tri} {p a b n0 n1 n2 e0 e1 e2}
    (h : T.View ⟨p, a, b⟩ ⟨n0, n1, n2⟩ ⟨e0, e1, e2⟩) : T.Slot b p a n2 e2 := h.rot.rot.slot

theorem Tri.View.slot_iff {T : Tri} {p a b n0 n1 n2 e0 e1 e2}
    (h : T.View ⟨p, a, b⟩ ⟨n0, n1, n2⟩ ⟨e0, e1, e2⟩) (w u v n e) :
    T.Slot w u v n e ↔ (w = p ∧ u = a ∧ v = b ∧ n = n0 ∧ e = e0) ∨
      (w = a ∧ u = b ∧ v = p ∧ n = n1 ∧ e = e1) ∨ (w = b ∧ u = p ∧ v = a ∧ n = n2 ∧ e = e2) := by
  obtain ⟨⟨a', b', c'⟩, ⟨na, nb, nc⟩, ⟨ea, eb, ec⟩, i⟩ := T
  rcases h with ⟨h1, h2, h3⟩ | ⟨h1, h2, h3⟩ | ⟨h1, h2, h3⟩ <;>
    simp only [V3.rot, V3.mk.injEq] at h1 h2 h3 <;>
    obtain ⟨rfl, rfl, rfl⟩ := h1 <;> obtain ⟨rfl, rfl, rfl⟩ := h2 <;> obtain ⟨rfl, rfl, rfl⟩ := h3 <;>
    simp only [Tri.Slot, V3.mk.injEq] <;> grind

/-- Pairwise different. -/
def D3 (p a b : Nat) : Prop := p ≠ a ∧ a ≠ b ∧ p ≠ b

theorem D3.rot {p a b} (h : D3 p a b) : D3 a b p := ⟨h.2.1, h.2.2.symm, h.1.symm⟩

section
variable {T : Tri} {p a b : Nat} {n0 n1 n2 : Option Nat} {e0 e1 e2 : EdgeAttr}

macro "view_bash" h:ident d:ident : tactic => `(tactic| (
  obtain ⟨hd1, hd2, hd3⟩ := $d
  have hd1' := Ne.symm hd1; have hd2' := Ne.symm hd2; have hd3' := Ne.symm hd3
  rcases $h:ident with ⟨h1, h2, h3⟩ | ⟨h1, h2, h3⟩ | ⟨h1, h2, h3⟩ <;>
  simp_all [V3.rot, Tri.pointCcw, Tri.pointCw, Tri.neighborCcw, Tri.neighborCw, Tri.neighborAcross,
    Tri.pointIndex, Tri.edgeAttrCcw, Tri.edgeAttrCw, V3.get, V3.set, Tri.rotateCw, Tri.setEdgeAttrCcw,
    Tri.setEdgeAttrCw, Tri.View, Tri.constrainedEdgeCw]))

theorem Tri.View.pointCcw (h : T.View ⟨p, a, b⟩ ⟨n0, n1, n2⟩ ⟨e0, e1, e2⟩) (d : D3 p a b) :
    T.pointCcw p = .ok a := by view_bash h d
theorem Tri.View.pointCw (h : T.View ⟨p, a, b⟩ ⟨n0, n1, n2⟩ ⟨e0, e1, e2⟩) (d : D3 p a b) :
    T.pointCw p = .ok b := by view_bash h d
theorem Tri.View.neighborCcw (h : T.View ⟨p, a, b⟩ ⟨n0, n1, n2⟩ ⟨e0, e1, e2⟩) (d : D3 p a b) :
    T.neighborCcw p = .ok n2 := by view_bash h d
theorem Tri.View.neighborCw (h : T.View ⟨p, a, b⟩ ⟨n0, n1, n2⟩ ⟨e0, e1, e2⟩) (d : D3 p a b) :
    T.neighborCw p = .ok n1 := by view_bash h d
theorem Tri.View.neighborAcross (h : T.View ⟨p, a, b⟩ ⟨n0, n1, n2⟩ ⟨e0, e1, e2⟩) (d : D3 p a b) :
    T.neighborAcross p = .ok n0 := by view_bash h d
theorem Tri.View.edgeAttrCcw (h : T.View ⟨p, a, b⟩ ⟨n0, n1, n2⟩ ⟨e0, e1, e2⟩) (d : D3 p a b) :
    T.edgeAttrCcw p = .ok e2 := by view_bash h d
theorem Tri.View.edgeAttrCw (h : T.View ⟨p, a, b⟩ ⟨n0, n1, n2⟩ ⟨e0, e1, e2⟩) (d : D3 p a b) :
    T.edgeAttrCw p = .ok e1 := by view_bash h d
theorem Tri.View.constrainedEdgeCw (h : T.View ⟨p, a, b⟩ ⟨n0, n1, n2⟩ ⟨e0, e1, e2⟩) (d : D3 p a b) :
    T.constrainedEdgeCw p = .ok e1.isConstrained := by view_bash h d

theorem Tri.View.rotateCw (h : T.View ⟨p, a, b⟩ ⟨n0, n1, n2⟩ ⟨e0, e1, e2⟩) (d : D3 p a b) (n : Nat) :
    ∃ T', T.rotateCw p n = .ok T' ∧ T'.View ⟨b, p, n⟩ ⟨n0, n1, n2⟩ ⟨e0, e1, e2⟩ ∧
      T'.interior = T.interior := by view_bash h d

theorem Tri.View.setEdgeAttrCw (h : T.View ⟨p, a, b⟩ ⟨n0, n1, n2⟩ ⟨e0, e1, e2⟩) (d : D3 p a b)
    (e : EdgeAttr) : ∃ T', T.setEdgeAttrCw p e = .ok T' ∧
      T'.View ⟨p, a, b⟩ ⟨n0, n1, n2⟩ ⟨e0, e, e2⟩ ∧ T'.interior = T.interior := by view_bash h d

theorem Tri.View.setEdgeAttrCcw (h : T.View ⟨p, a, b⟩ ⟨n0, n1, n2⟩ ⟨e0, e1, e2⟩) (d : D3 p a b)
    (e : EdgeAttr) : ∃ T', T.setEdgeAttrCcw p e = .ok T' ∧
      T'.View ⟨p, a, b⟩ ⟨n0, n1, n2⟩ ⟨e0, e1, e⟩ ∧ T'.interior = T.interior := by view_bash h d

theorem Tri.View.clear (h : T.View ⟨p, a, b⟩ ⟨n0, n1, n2⟩ ⟨e0, e1, e2⟩) :
    T.clearNeighbors.View ⟨p, a, b⟩ ⟨none, none, none⟩ ⟨e0, e1, e2⟩ := by
  rcases h with ⟨h1, h2, h3⟩ | ⟨h1, h2, h3⟩ | ⟨h1, h2, h3⟩
  · exact .inl ⟨h1, rfl, h3⟩
  · exact .inr (.inl ⟨h1, rfl, h3⟩)
  · exact .inr (.inr ⟨h1, rfl, h3⟩)

end

/-- Position (index) of the edge opposite `w` when `T` is viewed from `w`. -/
def idxOf (T : Tri) (w : Nat) : Fin 3 := if T.points.a = w then 0 else if T.points.b = w then 1 else 2

/-- `common_edge_index` finds the edge that is traversed in opposite directions. -/
theorem commonEdgeIndex_view {L R : Tri} {w x u v N E M F} (hL : L.View ⟨w, u, v⟩ N E)
    (hR : R.View ⟨x, v, u⟩ M F) (d : D3 w u v) (d' : D3 x v u) (hwx : w ≠ x) :
    L.commonEdgeIndex R = some (idxOf L w, idxOf R x) := by
  obtain ⟨h1, h2, h3⟩ := d
  obtain ⟨g1, g2, g3⟩ := d'
  have h1' := h1.symm; have h2' := h2.symm; have h3' := h3.symm
  have g1' := g1.symm; have g3' := g3.symm; have hwx' := hwx.symm
  rcases hL with ⟨l, -, -⟩ | ⟨l, -, -⟩ | ⟨l, -, -⟩ <;> rcases hR with ⟨r, -, -⟩ | ⟨r, -, -⟩ | ⟨r, -, -⟩ <;>
    simp [Tri.commonEdgeIndex, idxOf, V3.rot, *]

theorem idxOf_set {T : Tri} {p a b n0 n1 n2 e0 e1 e2}
    (h : T.View ⟨p, a, b⟩ ⟨n0, n1, n2⟩ ⟨e0, e1, e2⟩) (d : D3 p a b) :
    T.neighbors.get (idxOf T p) = n0 ∧ T.attrs.get (idxOf T p) = e0 ∧ T.points.get (idxOf T p) = p ∧
    (∀ n e i, Tri.View { T with neighbors := T.neighbors.set (idxOf T p) n, attrs := T.attrs.set (idxOf T p) e, interior := i }
      ⟨p, a, b⟩ ⟨n, n1, n2⟩ ⟨e, e1, e2⟩) := by
  obtain ⟨hd1, hd2, hd3⟩ := d
  rcases h with ⟨h1, h2, h3⟩ | ⟨h1, h2, h3⟩ | ⟨h1, h2, h3⟩ <;>
    simp [idxOf, h1, h2, h3, V3.rot, hd1, hd2, hd3, hd1.symm, hd2.symm, hd3.symm, V3.get, V3.set, Tri.View]

/-- Flags of a freshly linked edge. -/
def mkA (con : Bool) (e : EdgeAttr) : EdgeAttr := (e.setConstrained con).setDelaunay false

@[simp] theorem mkA_con (con e) : (mkA con e).isConstrained = con := by simp [mkA]
@[simp] theorem mkA_del (con e) : (mkA con e).isDelaunay = false := by simp [mkA]

@[simp] theorem V3.set_set {α} (v : V3 α) (i : Fin 3) (x y : α) : (v.set i x).set i y = v.set i y := by
  match i with
  | 0 | 1 | 2 => rfl

theorem V3.set_get {α} (v : V3 α) (i : Fin 3) : v.set i (v.get i) = v := by
  match i with
  | 0 | 1 | 2 => rfl

/-- `mark_neighbor_for_two_mut` on two triangles that share exactly one edge. -/
theorem markTwo_view {L R : Tri} {l r : Nat} {w x u v n0 n1 n2 e0 e1 e2 m0 m1 m2 f0 f1 f2}
    (hL : L.View ⟨w, u, v⟩ ⟨n0, n1, n2⟩ ⟨e0, e1, e2⟩) (hR : R.View ⟨x, v, u⟩ ⟨m0, m1, m2⟩ ⟨f0, f1, f2⟩)
    (d : D3 w u v) (d' : D3 x v u) (hwx : w ≠ x) :
    ∃ L' R', Store.markTwo l r L R = (L', R') ∧
      L'.View ⟨w, u, v⟩ ⟨some r, n1, n2⟩ ⟨mkA (e0.isConstrained || f0.isConstrained) e0, e1, e2⟩ ∧
      R'.View ⟨x, v, u⟩ ⟨some l, m1, m2⟩ ⟨mkA (e0.isConstrained || f0.isConstrained) f0, f1, f2⟩ ∧
      L'.interior = L.interior ∧ R'.interior = R.interior := by
  obtain ⟨-, hl2, -, hl4⟩ := idxOf_set hL d
  obtain ⟨-, hr2, -, hr4⟩ := idxOf_set hR d'
  refine ⟨_, _, ?_, hl4 _ _ _, hr4 _ _ _, rfl, rfl⟩
  simp [Store.markTwo, commonEdgeIndex_view hL hR d d' hwx, Tri.isConstrained, Tri.setConstrained,
    Tri.setDelaunay, hl2, hr2, mkA]

end P2T
