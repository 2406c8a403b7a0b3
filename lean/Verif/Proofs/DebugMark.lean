import Verif.Proofs.Debug
import Verif.Proofs.EdgeEv

/-!
# The assertion of `mark_neighbor` holds on consistent meshes
-/

set_option linter.unusedSectionVars false

namespace P2T

variable {c : Ctx} {K : Prop} {Q : Nat → Prop} {ts : Store}

/-- The triangles `l` and `r` have a common edge, in the sense of `common_edge_index`. -/
def Adj (ts : Store) (l r : Nat) : Prop := ∀ L R, ts[l]? = some L → ts[r]? = some R → L.commonEdgeIndex R ≠ none

/-- The corners of all triangles. -/
def ptsOf (ts : Store) : List (V3 Nat) := ts.map (·.points)

theorem cei_congr {L L' R R' : Tri} (h : L.points = L'.points) (h' : R.points = R'.points) :
    L.commonEdgeIndex R = L'.commonEdgeIndex R' := by
  unfold Tri.commonEdgeIndex
  rw [h, h']

theorem ptsOf_get {ts ts' : Store} (h : ptsOf ts = ptsOf ts') {i : Nat} {T : Tri} (hT : ts[i]? = some T) :
    ∃ T', ts'[i]? = some T' ∧ T'.points = T.points := by
  have := congrArg (·[i]?) h
  simp only [ptsOf, List.getElem?_map, hT, Option.map_some] at this
  cases h' : ts'[i]? with
  | none => rw [h'] at this; cases this
  | some T' => rw [h'] at this; simp at this; exact ⟨T', rfl, this.symm⟩

theorem Adj.congr {ts ts' : Store} {l r : Nat} (h : Adj ts l r) (e : ptsOf ts' = ptsOf ts) : Adj ts' l r := by
  intro L R hL hR
  obtain ⟨L', k1, k2⟩ := ptsOf_get e hL
  obtain ⟨R', k3, k4⟩ := ptsOf_get e hR
  rw [← cei_congr k2 k4]
  exact h L' R' k1 k3

theorem ptsOf_set {ts : Store} {t : Nat} {T T' : Tri} (h : ts[t]? = some T) (h' : T'.points = T.points) : ptsOf (ts.set t T') = ptsOf ts := by
  unfold ptsOf
  rw [List.map_set, h']
  apply List.ext_getElem?
  intro i
  rw [List.getElem?_set]
  split
  · subst_vars; simp only [List.getElem?_map, h, Option.map_some]
    split
    · rfl
    · have := (List.getElem?_eq_some_iff.1 h).1; simp at *; omega
  · rfl

theorem ptsOf_markPair {ts : Store} {l r : Nat} (h : l ≠ r) : ptsOf (Store.markPair ts l r) = ptsOf ts := by
  unfold Store.markPair
  split
  · rename_i L R hL hR
    have := markTwo_points l r L R
    have e : (ts.set l (Store.markTwo l r L R).1)[r]? = some R := by
      rw [List.getElem?_set]; simp [h, hR]
    show ptsOf ((ts.set l (Store.markTwo l r L R).1).set r (Store.markTwo l r L R).2) = _
    rw [ptsOf_set e this.2, ptsOf_set hL this.1]
  · rfl

theorem ptsOf_markOpt {ts : Store} {l : Nat} {r : Option Nat} (h : r ≠ some l) : ptsOf (Store.markOpt ts l r) = ptsOf ts := by
  unfold Store.markOpt
  split
  · rfl
  · apply ptsOf_markPair; intro e; subst e; contradiction

theorem markTwoD_ok {l r : Nat} {L R : Tri} (h : L.commonEdgeIndex R ≠ none) : Store.markTwoD l r L R = .ok (Store.markTwo l r L R) := by
  unfold Store.markTwoD
  cases k : L.commonEdgeIndex R with
  | none => exact (h k).elim
  | some _ => rfl

theorem markPairD_ok {l r : Nat} (h : Adj ts l r) : Store.markPairD ts l r = .ok (Store.markPair ts l r) := by
  unfold Store.markPairD Store.markPair
  cases hL : ts[l]? with
  | none => rfl
  | some L =>
    cases hR : ts[r]? with
    | none => rfl
    | some R =>
      simp only [markTwoD_ok (h L R hL hR), ok_bind]
      rfl

theorem markOptD_ok {l : Nat} {r : Option Nat} (h : ∀ x, r = some x → Adj ts l x) : Store.markOptD ts l r = .ok (Store.markOpt ts l r) := by
  unfold Store.markOptD Store.markOpt
  cases r with
  | none => rfl
  | some x => exact markPairD_ok (h x rfl)

/-- Two triangles that traverse an edge in opposite directions have a common edge. -/
theorem cei_ne {L R : Tri} {w x u v N E M F} (hL : L.View ⟨w, u, v⟩ N E) (hR : R.View ⟨x, v, u⟩ M F) (d : D3 w u v) (d' : D3 x v u) :
    L.commonEdgeIndex R ≠ none := by
  by_cases hwx : w = x
  · subst hwx
    obtain ⟨h1, h2, h3⟩ := d
    have h1' := h1.symm; have h2' := h2.symm; have h3' := h3.symm
    rcases hL with ⟨l, -, -⟩ | ⟨l, -, -⟩ | ⟨l, -, -⟩ <;> rcases hR with ⟨r, -, -⟩ | ⟨r, -, -⟩ | ⟨r, -, -⟩ <;>
      simp [Tri.commonEdgeIndex, V3.rot, *]
  · rw [commonEdgeIndex_view hL hR d d' hwx]; simp

theorem adj_sl {t x w u v n e w' n' e'} (h : Sl ts t w u v n e) (h' : Sl ts x w' v u n' e') (d : D3 w u v) (d' : D3 w' v u) : Adj ts t x := by
  intro L R hL hR
  obtain ⟨T, n1, n2, e1, e2, k, vT⟩ := h.view
  obtain ⟨X, m1, m2, f1, f2, k', vX⟩ := h'.view
  rw [hL] at k; cases k
  rw [hR] at k'; cases k'
  exact cei_ne vT vX d d'

/-- Neighbours have a common edge. -/
theorem MeshInv.adj (m : MeshInv c K Q ts) {t x w u v e} (h : Sl ts t w u v (some x) e) : Adj ts t x := by
  obtain ⟨w', e', h'⟩ := m.sym h
  exact adj_sl h h' ((oriW c).d3 (m.wo h)) ((oriW c).d3 (m.wo h'))

/-- A flip that keeps the mesh consistent meets the assertions. -/
theorem rotatePairD_ok {F : Flip} {ts' : Store} (m : MeshInv c K Q ts) (hp : F.Pre c.W ts) {Q' : Nat → Prop} (m' : MeshInv c K Q' ts') (r : F.Rel ts ts')
    {b : Bool} (h : Store.rotatePair ts F.t F.p F.ot F.op = .ok (ts', b)) : Store.rotatePairD ts F.t F.p F.ot F.op = .ok (ts', b) := by
  have d := hp.facts (oriW c) m.ok
  obtain ⟨T, hT, vT⟩ := hp.viewT d
  obtain ⟨O, hO, vO⟩ := hp.viewO d
  have dT : D3 F.p F.a F.b := ⟨d.pa, d.ab, d.pb⟩
  have dO : D3 F.op F.b F.a := ⟨d.bop.symm, d.ab.symm, d.aop.symm⟩
  have a0 : Adj ts' F.t F.ot := m'.adj ((r ..).2 (.inl ⟨rfl, rfl, rfl, rfl, rfl, rfl⟩))
  have a3 : ∀ x, F.n3 = some x → Adj ts' F.t x := fun x hx =>
    m'.adj ((r ..).2 (.inr (.inl ⟨rfl, rfl, rfl, rfl, hx.symm, rfl⟩)))
  have a2 : ∀ x, F.n2 = some x → Adj ts' F.t x := fun x hx =>
    m'.adj ((r ..).2 (.inr (.inr (.inl ⟨rfl, rfl, rfl, rfl, hx.symm, rfl⟩))))
  have a1 : ∀ x, F.n1 = some x → Adj ts' F.ot x := fun x hx =>
    m'.adj ((r ..).2 (.inr (.inr (.inr (.inr (.inl ⟨rfl, rfl, rfl, rfl, hx.symm, rfl⟩))))))
  have a4 : ∀ x, F.n4 = some x → Adj ts' F.ot x := fun x hx =>
    m'.adj ((r ..).2 (.inr (.inr (.inr (.inr (.inr (.inl ⟨rfl, rfl, rfl, rfl, hx.symm, rfl⟩)))))))
  unfold Store.rotatePair at h
  unfold Store.rotatePairD
  simp only [bind_ok] at h
  obtain ⟨u0, k0, T', kT, O', kO, n1, q1, n2, q2, n3, q3, n4, q4, ea1, z1, ea2, z2, ea3, z3, ea4, z4, T1, y1, O1, y2, T2, y3, T3, y4, O2, y5,
    O3, y6, h⟩ := h
  rw [getU_ok] at kT kO
  rw [hT] at kT; cases kT
  rw [hO] at kO; cases kO
  rw [vT.neighborCcw dT] at q1; cases q1
  rw [vT.neighborCw dT] at q2; cases q2
  rw [vO.neighborCcw dO] at q3; cases q3
  rw [vO.neighborCw dO] at q4; cases q4
  obtain ⟨⟨⟩, y7, h⟩ := h
  simp only [pure_ok, Except.ok.injEq, Prod.mk.injEq] at h
  obtain ⟨h, hb⟩ := h
  have lt := hp.s0.lt
  have lo := hp.o0.lt
  generalize hX : (ts.set F.t (Store.markTwo F.t F.ot T3.clearNeighbors O3.clearNeighbors).1).set F.ot (Store.markTwo F.t F.ot T3.clearNeighbors O3.clearNeighbors).2 = X at *
  have p1 := ptsOf_markOpt (ts := X) (l := F.t) (r := F.n2) d.u2.1
  have p2 := ptsOf_markOpt (ts := Store.markOpt X F.t F.n2) (l := F.t) (r := F.n3) d.u3.1
  have p3 := ptsOf_markOpt (ts := Store.markOpt (Store.markOpt X F.t F.n2) F.t F.n3) (l := F.ot) (r := F.n1) d.u1.2
  have p4 := ptsOf_markOpt (ts := (Store.markOpt (Store.markOpt X F.t F.n2) F.t F.n3).markOpt F.ot F.n1) (l := F.ot) (r := F.n4) d.u4.2
  rw [h] at p4
  have hX0 : T3.clearNeighbors.commonEdgeIndex O3.clearNeighbors ≠ none := by
    have g1 : X[F.t]? = some (Store.markTwo F.t F.ot T3.clearNeighbors O3.clearNeighbors).1 := by
      rw [← hX, List.getElem?_set, List.getElem?_set]; simp [d.tot.symm, lt]
    have g2 : X[F.ot]? = some (Store.markTwo F.t F.ot T3.clearNeighbors O3.clearNeighbors).2 := by
      rw [← hX, List.getElem?_set]; simp [lo]
    have := a0.congr (p4.trans (p3.trans (p2.trans p1))).symm _ _ g1 g2
    rw [cei_congr (markTwo_points ..).1 (markTwo_points ..).2] at this
    exact this
  simp only [k0, ok_bind, getU_ok.2 hT, getU_ok.2 hO, vT.neighborCcw dT, vT.neighborCw dT, vO.neighborCcw dO, vO.neighborCw dO, z1, z2, z3, z4,
    y1, y2, y3, y4, y5, y6, markTwoD_ok hX0, hX, y7,
    markOptD_ok (ts := X) fun x hx => (a2 x hx).congr (p4.trans (p3.trans (p2.trans p1))).symm,
    markOptD_ok (ts := Store.markOpt X F.t F.n2) fun x hx => (a3 x hx).congr (p4.trans (p3.trans p2)).symm,
    markOptD_ok (ts := Store.markOpt (Store.markOpt X F.t F.n2) F.t F.n3) fun x hx => (a1 x hx).congr (p4.trans p3).symm,
    markOptD_ok (ts := (Store.markOpt (Store.markOpt X F.t F.n2) F.t F.n3).markOpt F.ot F.n1) fun x hx => (a4 x hx).congr p4.symm]
  rw [h, ← hb]; rfl

/-- The flip of a convex quadrilateral meets the assertions. -/
theorem flipD_ok (m : MeshInv c K Q ts) {t p a b ot op e0 f0} (s0 : Sl ts t p a b (some ot) e0) (o0 : Sl ts ot op b a (some t) f0)
    (cv : Convex c p a b op) {r} (h : Store.rotatePair ts t p ot op = .ok r) : Store.rotatePairD ts t p ot op = .ok r := by
  have w1 := m.wo s0
  have w2 := m.wo o0
  obtain ⟨F, rfl, rfl, rfl, rfl, rfl, rfl, rfl, rfl, hp⟩ := mkFlip m.ok s0 o0 (w1 := ⟨⟨w1.1.1, w2.1.1, w1.1.2.2⟩, .inl cv.1⟩)
    (w2 := ⟨⟨w1.1.1, w1.1.2.1, w2.1.1⟩, .inl cv.2⟩)
  obtain ⟨ts1, h1, h2, h3, h4⟩ := rotatePair_spec (oriW c) m.ok hp
  rw [h1] at h; cases h
  exact rotatePairD_ok m hp (m.flip hp h2) h2 h1

theorem legalizeLoopD_ok : ∀ (fuel : Nat) (s : St) (queue remap : List Nat), MeshInv c K (fun _ => True) s.tris → (∀ t ∈ queue, t < s.tris.length) →
    Sim (legalizeLoop c fuel s queue remap) (legalizeLoopD c fuel s queue remap)
  | _, s, [], r, _, _ => by simp only [legalizeLoopD, legalizeLoop]; exact .refl _
  | 0, s, t :: q, r, _, _ => by rw [legalizeLoop]; exact .err _ _
  | fuel + 1, s, t :: q, r, m, hq => by
    rw [legalizeLoopD, legalizeLoop]
    rcases firstIllegal_spec m (hq t (by simp)) with ⟨h1, h2⟩ | ⟨p, a, b, ot, op, e0, f0, h1, s0, o0, hc, hi⟩
    · rw [h1]
      exact legalizeLoopD_ok fuel _ _ _ m fun x hx => hq x (by simp [hx])
    · rw [h1]
      obtain ⟨cv, F, hF1, hF2, hF3, hF4, hF5, hF6, hF7, hF8, hp, ts1, ts2, k1, k2, k3, k4, k5, k6⟩ := flip_round m s0 o0 hi
      have e1 : Store.rotatePair (s.emit (.rotated t ot)).tris t p ot op = .ok _ := k1
      have e2 : Store.rotatePairD (s.emit (.rotated t ot)).tris t p ot op = .ok _ := flipD_ok m s0 o0 cv k1
      simp only [ok_bind, e1, e2, k3]
      refine legalizeLoopD_ok fuel _ _ _ (k5.mono fun _ _ => trivial) ?_
      intro x hx
      show x < ts2.length
      rw [k6]
      simp only [List.mem_cons] at hx
      rcases hx with rfl | rfl | hx
      · exact o0.lt
      · exact hq x (by simp)
      · exact hq x (by simp [hx])

theorem legalizeD_ok {fuel : Nat} {s : St} {t : Nat} (m : MeshInv c K (fun _ => True) s.tris) (ht : t < s.tris.length) :
    Sim (legalize c fuel s t) (legalizeD c fuel s t) :=
  .bind (legalizeLoopD_ok fuel _ _ _ m (by simpa [St.emit] using ht)) fun _ _ => .refl _

end P2T
