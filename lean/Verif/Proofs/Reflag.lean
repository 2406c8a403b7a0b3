import Verif.Proofs.Inv
import Verif.Proofs.Evolve

/-!
# Changing flags, constrained edges, and the shape of a flip
-/

namespace P2T

/-! ## Half-edges by position -/

theorem Tri.slotAt (T : Tri) (i : Fin 3) :
    T.Slot (T.points.get i) (T.points.get (i + 1)) (T.points.get (i + 2)) (T.neighbors.get i) (T.attrs.get i) := by
  obtain ⟨⟨a, b, c⟩, N, E, x⟩ := T
  match i with
  | 0 | 1 | 2 => simp [Tri.Slot, V3.get]

theorem Tri.Slot.index {T : Tri} {w u v n e} (h : T.Slot w u v n e) :
    ∃ i : Fin 3, T.points.get i = w ∧ T.points.get (i + 1) = u ∧ T.points.get (i + 2) = v ∧
      T.neighbors.get i = n ∧ T.attrs.get i = e := by
  rcases h with ⟨h1, h2, h3⟩ | ⟨h1, h2, h3⟩ | ⟨h1, h2, h3⟩
  · exact ⟨0, by simp [h1, h2, h3, V3.get]⟩
  · exact ⟨1, by simp [h1, h2, h3, V3.get]⟩
  · exact ⟨2, by simp [h1, h2, h3, V3.get]⟩

theorem idxOf_get {T : Tri} {i : Fin 3} (d : D3 (T.points.get i) (T.points.get (i + 1)) (T.points.get (i + 2))) :
    idxOf T (T.points.get i) = i := by
  obtain ⟨⟨a, b, c⟩, N, E, x⟩ := T
  obtain ⟨d1, d2, d3⟩ := d
  match i with
  | 0 => simp [idxOf, V3.get]
  | 1 => simp [idxOf, V3.get] at *; grind
  | 2 => simp [idxOf, V3.get] at *; grind

theorem sl_at {ts : Store} {t : Nat} {T : Tri} (h : ts[t]? = some T) (i : Fin 3) :
    Sl ts t (T.points.get i) (T.points.get (i + 1)) (T.points.get (i + 2)) (T.neighbors.get i) (T.attrs.get i) :=
  ⟨T, h, T.slotAt i⟩

/-- Overwriting the flags of one half-edge. -/
theorem setAttr_sl {ts : Store} {t : Nat} {T : Tri} (h : ts[t]? = some T) (i : Fin 3)
    (d : D3 (T.points.get i) (T.points.get (i + 1)) (T.points.get (i + 2))) (e' : EdgeAttr) (y W U V N E) :
    Sl (ts.set t { T with attrs := T.attrs.set i e' }) y W U V N E ↔
      (y = t ∧ W = T.points.get i ∧ U = T.points.get (i + 1) ∧ V = T.points.get (i + 2) ∧ N = T.neighbors.get i ∧ E = e') ∨
      (Sl ts y W U V N E ∧ ¬ (y = t ∧ W = T.points.get i)) := by
  have lt := (List.getElem?_eq_some_iff.1 h).1
  obtain ⟨n1, n2, e1, e2, hv⟩ := (T.slotAt i).view
  have k := (idxOf_set hv d).2.2.2 (T.neighbors.get i) e' T.interior
  rw [idxOf_get d, V3.set_get] at k
  rw [sl_set lt, k.slot_iff]
  obtain ⟨d1, d2, d3⟩ := d
  by_cases hy : y = t
  · subst hy
    rw [sl_iff_of_view h hv]
    clear hv k h
    constructor <;> grind (splits := 40)
  · simp [hy]

/-! ## Constrained edges -/

/-- The directed edge `u v` is in the mesh and constrained on both of its sides (or on its only side). -/
def BothCon (ts : Store) (u v : Nat) : Prop :=
  (∃ t w e, Sl ts t w u v none e ∧ e.isConstrained = true) ∨
  (∃ t w x e w' e', Sl ts t w u v (some x) e ∧ e.isConstrained = true ∧ Sl ts x w' v u (some t) e' ∧
    e'.isConstrained = true)

/-- No constrained edge gets lost. -/
def Keep (ts ts' : Store) : Prop := ∀ u v, BothCon ts u v → BothCon ts' u v

theorem Keep.refl (ts : Store) : Keep ts ts := fun _ _ h => h
theorem Keep.trans {a b d : Store} (h : Keep a b) (h' : Keep b d) : Keep a d := fun u v k => h' u v (h u v k)

/-! ## Changing flags only -/

/-- `ts'` differs from `ts` in flags only, constraint marks are never cleared, and new Delaunay marks are on
legal edges. -/
structure Reflag (c : Ctx) (ts ts' : Store) : Prop where
  len : ts'.length = ts.length
  back : ∀ {y w u v n e'}, Sl ts' y w u v n e' → ∃ e, Sl ts y w u v n e ∧
    (e.isConstrained = true → e'.isConstrained = true) ∧
    (e'.isDelaunay = true → e.isDelaunay = true ∨
      ∀ x w' f, n = some x → Sl ts x w' v u (some y) f → Legal c w u v w')
  fwd : ∀ {y w u v n e}, Sl ts y w u v n e → ∃ e', Sl ts' y w u v n e' ∧
    (e.isConstrained = true → e'.isConstrained = true)

theorem Reflag.refl (c : Ctx) (ts : Store) : Reflag c ts ts :=
  ⟨rfl, fun h => ⟨_, h, id, .inl⟩, fun h => ⟨_, h, id⟩⟩

theorem Reflag.trans {c : Ctx} {a b d : Store} (h : Reflag c a b) (h' : Reflag c b d) : Reflag c a d := by
  refine ⟨h'.len.trans h.len, ?_, ?_⟩
  · intro y w u v n e' hs
    obtain ⟨e, k1, k2, k3⟩ := h'.back hs
    obtain ⟨e0, l1, l2, l3⟩ := h.back k1
    refine ⟨e0, l1, fun q => k2 (l2 q), fun q => ?_⟩
    rcases k3 q with q | q
    · exact l3 q
    · refine .inr fun x w' f hn hf => ?_
      obtain ⟨f', hf', -⟩ := h.fwd hf
      exact q x w' f' hn hf'
  · intro y w u v n e hs
    obtain ⟨e1, k1, k2⟩ := h.fwd hs
    obtain ⟨e2, l1, l2⟩ := h'.fwd k1
    exact ⟨e2, l1, fun q => l2 (k2 q)⟩

theorem Reflag.keep {c : Ctx} {ts ts' : Store} (h : Reflag c ts ts') : Keep ts ts' := by
  rintro u v (⟨t, w, e, hs, he⟩ | ⟨t, w, x, e, w', e', hs, he, hs', he'⟩)
  · obtain ⟨e1, k1, k2⟩ := h.fwd hs
    exact .inl ⟨t, w, e1, k1, k2 he⟩
  · obtain ⟨e1, k1, k2⟩ := h.fwd hs
    obtain ⟨e2, l1, l2⟩ := h.fwd hs'
    exact .inr ⟨t, w, x, e1, w', e2, k1, k2 he, l1, l2 he'⟩

/-- Flags may be changed as long as the marks stay symmetric. -/
theorem MeshInv.reflag {c : Ctx} {K Q} {ts ts' : Store} (m : MeshInv c K Q ts) (h : Reflag c ts ts')
    (hc : ∀ {t w u v x e w' e'}, K → Sl ts' t w u v (some x) e → Sl ts' x w' v u (some t) e' →
      e.isConstrained = e'.isConstrained) : MeshInv c K Q ts' := by
  refine ⟨?_, ?_, ?_, ?_, hc⟩
  · intro t w u v n e hs
    obtain ⟨e1, k1, -⟩ := h.back hs
    exact m.wo k1
  · intro t w u v x e hs
    obtain ⟨e1, k1, -⟩ := h.back hs
    obtain ⟨w', e', k⟩ := m.sym k1
    obtain ⟨e2, l, -⟩ := h.fwd k
    exact ⟨w', e2, l⟩
  · intro t w u v x e w' e' hs hs' hd
    obtain ⟨e1, k1, -, k3⟩ := h.back hs
    obtain ⟨e2, l1, -, -⟩ := h.back hs'
    rcases k3 hd with q | q
    · exact m.del k1 l1 q
    · exact q x w' e2 rfl l1
  · intro t w u v x e w' e' hs hs' hd hd'
    obtain ⟨e1, k1, k2, -⟩ := h.back hs
    obtain ⟨e2, l1, l2, -⟩ := h.back hs'
    refine m.leg k1 l1 ?_ ?_
    · by_contra q; simp only [Bool.not_eq_false] at q; rw [k2 q] at hd; cases hd
    · by_contra q; simp only [Bool.not_eq_false] at q; rw [l2 q] at hd'; cases hd'

/-- Setting one constraint mark. -/
theorem setCon_reflag {c : Ctx} {K Q} {ts : Store} (m : MeshInv c K Q ts) {t : Nat} {T : Tri} (h : ts[t]? = some T) (i : Fin 3) :
    Reflag c ts (ts.set t (T.setConstrained i true)) := by
  have d := (oriW c).d3 (m.wo (sl_at h i))
  have key := setAttr_sl h i d ((T.attrs.get i).setConstrained true)
  have at' := sl_at h i
  refine ⟨by simp, ?_, ?_⟩
  · intro y w u v n e' hs
    rcases (key ..).1 hs with ⟨rfl, rfl, rfl, rfl, rfl, rfl⟩ | ⟨hs, -⟩
    · exact ⟨_, at', by simp, by simp; exact .inl⟩
    · exact ⟨_, hs, id, .inl⟩
  · intro y w u v n e hs
    by_cases hy : y = t ∧ w = T.points.get i
    · obtain ⟨rfl, rfl⟩ := hy
      refine ⟨_, (key ..).2 (.inl ⟨rfl, rfl, ?_, ?_, ?_, rfl⟩), by simp⟩
      all_goals
        have := sl_two at' d hs
        obtain ⟨d1, d2, d3⟩ := d
        grind
    · exact ⟨_, (key ..).2 (.inr ⟨hs, hy⟩), id⟩

theorem MeshInv.noK {c : Ctx} {K Q} {ts : Store} (m : MeshInv c K Q ts) : MeshInv c False Q ts :=
  ⟨m.wo, m.sym, m.del, m.leg, fun h => h.elim⟩

theorem edgeIndex_some {T : Tri} {p q : Nat} {i : Fin 3} (h : T.edgeIndex p q = some i) :
    (T.points.get (i + 1) = p ∧ T.points.get (i + 2) = q) ∨ (T.points.get (i + 1) = q ∧ T.points.get (i + 2) = p) := by
  obtain ⟨⟨a, b, c⟩, N, E, x⟩ := T
  simp only [Tri.edgeIndex] at h
  match i with
  | 0 | 1 | 2 =>
    simp [V3.get]
    grind

theorem edgeIndex_of {T : Tri} {p q : Nat} {i : Fin 3} (d : D3 (T.points.get i) (T.points.get (i + 1)) (T.points.get (i + 2)))
    (h : (T.points.get (i + 1) = p ∧ T.points.get (i + 2) = q) ∨ (T.points.get (i + 1) = q ∧ T.points.get (i + 2) = p)) :
    T.edgeIndex p q = some i := by
  obtain ⟨⟨a, b, c⟩, N, E, x⟩ := T
  simp only [Tri.edgeIndex]
  obtain ⟨d1, d2, d3⟩ := d
  match i with
  | 0 | 1 | 2 =>
    simp [V3.get] at *
    grind

theorem neighborIndex_some {T : Tri} {t : Nat} {i : Fin 3} (h : T.neighborIndex t = .ok i) : T.neighbors.get i = some t := by
  obtain ⟨P, ⟨a, b, c⟩, E, x⟩ := T
  simp only [Tri.neighborIndex] at h
  match i with
  | 0 | 1 | 2 =>
    simp [V3.get]
    grind

theorem neighborIndex_of {T : Tri} {t : Nat} {i : Fin 3} (h : T.neighbors.get i = some t) : ∃ j, T.neighborIndex t = .ok j := by
  obtain ⟨P, ⟨a, b, c⟩, E, x⟩ := T
  simp only [Tri.neighborIndex]
  match i with
  | 0 | 1 | 2 =>
    simp only [V3.get] at h
    subst h
    split <;> [skip; split] <;> [skip; skip; split] <;> simp_all

/-- Marking both sides of an edge. -/
theorem setCon_pair {c : Ctx} {K Q} {ts : Store} (m : MeshInv c K Q ts) {t o : Nat} {T O : Tri} (hT : ts[t]? = some T)
    (hO : ts[o]? = some O) {i j : Fin 3} (hi : T.neighbors.get i = some o) (hj : O.neighbors.get j = some t) :
    let ts' := (ts.set t (T.setConstrained i true)).set o (O.setConstrained j true)
    Reflag c ts ts' ∧ MeshInv c K Q ts' ∧ BothCon ts' (T.points.get (i + 1)) (T.points.get (i + 2)) := by
  intro ts'
  have aT := sl_at hT i
  rw [hi] at aT
  have aO := sl_at hO j
  rw [hj] at aO
  have hne := m.ne aT
  obtain ⟨w', e', hs⟩ := m.sym aT
  have q := m.nbr_uniq hs aO
  obtain ⟨rfl, q1, q2, rfl⟩ := q
  have dT := (oriW c).d3 (m.wo aT)
  have dO := (oriW c).d3 (m.wo aO)
  have k1 := setAttr_sl hT i dT ((T.attrs.get i).setConstrained true)
  have hO1 : (ts.set t (T.setConstrained i true))[o]? = some O := by
    rw [List.getElem?_set]; simp [hne, hO]
  have r1 := setCon_reflag m hT i
  have m1 := m.noK.reflag r1 (fun h => h.elim)
  have r2 := setCon_reflag m1 hO1 j
  have r := r1.trans r2
  have k2 := setAttr_sl hO1 j dO ((O.attrs.get j).setConstrained true)
  have key : ∀ y W U V N E, Sl ts' y W U V N E ↔
      (y = o ∧ W = O.points.get j ∧ U = O.points.get (j + 1) ∧ V = O.points.get (j + 2) ∧ N = some t ∧
        E = (O.attrs.get j).setConstrained true) ∨
      (y = t ∧ W = T.points.get i ∧ U = T.points.get (i + 1) ∧ V = T.points.get (i + 2) ∧ N = some o ∧
        E = (T.attrs.get i).setConstrained true) ∨
      (Sl ts y W U V N E ∧ ¬ (y = t ∧ W = T.points.get i) ∧ ¬ (y = o ∧ W = O.points.get j)) := by
    intro y W U V N E
    refine (k2 y W U V N E).trans ?_
    have := k1 y W U V N E
    unfold Tri.setConstrained at *
    rw [this, hj, hi]
    grind (splits := 40)
  refine ⟨r, m.reflag r ?_, .inr ⟨t, _, o, _, _, _, (key ..).2 (.inr (.inl ⟨rfl, rfl, rfl, rfl, rfl, rfl⟩)), by simp,
    (key ..).2 (.inl ⟨rfl, rfl, q1, q2, rfl, rfl⟩), by simp⟩⟩
  intro a w u v x e w' e' hK h1 h2
  rcases (key ..).1 h1 with ⟨rfl, rfl, rfl, rfl, hx, rfl⟩ | ⟨rfl, rfl, rfl, rfl, hx, rfl⟩ | ⟨g1, n1, n1'⟩
  · cases hx
    rcases (key ..).1 h2 with ⟨h, -⟩ | ⟨-, -, -, -, -, rfl⟩ | ⟨h2, n2, n2'⟩
    · exact (hne h).elim
    · simp
    · rw [← q1, ← q2] at h2
      have := m.uniq h2 aT
      exact (n2 ⟨rfl, this.1⟩).elim
  · cases hx
    rcases (key ..).1 h2 with ⟨-, -, -, -, -, rfl⟩ | ⟨h, -⟩ | ⟨h2, n2, n2'⟩
    · simp
    · exact (hne h.symm).elim
    · rw [q1, q2] at h2
      have := m.uniq h2 aO
      exact (n2' ⟨rfl, this.1⟩).elim
  · rcases (key ..).1 h2 with ⟨rfl, rfl, rfl, rfl, hx, rfl⟩ | ⟨rfl, rfl, rfl, rfl, hx, rfl⟩ | ⟨h2, n2, n2'⟩
    · cases hx
      rw [← q1, ← q2] at g1
      have := m.uniq g1 aT
      exact (n1 ⟨rfl, this.1⟩).elim
    · cases hx
      rw [q1, q2] at g1
      have := m.uniq g1 aO
      exact (n1' ⟨rfl, this.1⟩).elim
    · exact m.csym hK g1 h2

/-- An edge constrained on both sides, in one of the two directions. -/
def ConEdge (ts : Store) (p q : Nat) : Prop := BothCon ts p q ∨ BothCon ts q p

theorem tryMarkEdge_spec {c : Ctx} {K Q} {ts : Store} (m : MeshInv c K Q ts) {t : Nat} (ht : t < ts.length) (p q : Nat) :
    Store.tryMarkEdge ts p q t = .ok (ts, false) ∨
    ∃ ts', Store.tryMarkEdge ts p q t = .ok (ts', true) ∧ Reflag c ts ts' ∧ MeshInv c K Q ts' ∧ ConEdge ts' p q := by
  obtain ⟨T, hT⟩ : ∃ T, ts[t]? = some T := ⟨_, List.getElem?_eq_getElem ht⟩
  simp only [Store.tryMarkEdge, getU_ok.2 hT, ok_bind]
  cases hi : T.edgeIndex p q with
  | none => exact .inl rfl
  | some i =>
    right
    dsimp only
    have e := edgeIndex_some hi
    have conv : ∀ {ts'}, BothCon ts' (T.points.get (i + 1)) (T.points.get (i + 2)) → ConEdge ts' p q := by
      intro ts' h
      rcases e with ⟨rfl, rfl⟩ | ⟨rfl, rfl⟩
      · exact .inl h
      · exact .inr h
    have aT := sl_at hT i
    have dT := (oriW c).d3 (m.wo aT)
    have k1 := setAttr_sl hT i dT ((T.attrs.get i).setConstrained true)
    have r1 := setCon_reflag m hT i
    cases hn : T.neighbors.get i with
    | none =>
      refine ⟨_, rfl, r1, m.reflag r1 ?_, conv (.inl ⟨t, _, _, (k1 ..).2 (.inl ⟨rfl, rfl, rfl, rfl, hn.symm, rfl⟩), by simp⟩)⟩
      intro a w u v x e w' e' hK h1 h2
      rcases (k1 ..).1 h1 with ⟨rfl, rfl, rfl, rfl, hx, rfl⟩ | ⟨h1, n1⟩
      · rw [hn] at hx; cases hx
      rcases (k1 ..).1 h2 with ⟨rfl, rfl, rfl, rfl, hx, rfl⟩ | ⟨h2, n2⟩
      · rw [hn] at hx; cases hx
      exact m.csym hK h1 h2
    | some o =>
      rw [hn] at aT
      obtain ⟨w', e', hs⟩ := m.sym aT
      obtain ⟨O, hO, hsl⟩ := hs
      obtain ⟨j0, hj0⟩ := hsl.index
      obtain ⟨j, hj⟩ := neighborIndex_of hj0.2.2.2.1
      have hne := m.ne aT
      have hO1 : (ts.set t (T.setConstrained i true))[o]? = some O := by
        rw [List.getElem?_set]; simp [hne, hO]
      obtain ⟨r, m', b⟩ := setCon_pair m hT hO hn (neighborIndex_some hj)
      exact ⟨_, by simp [getU_ok.2 hO1, hj], r, m', conv b⟩

/-- Marking a freshly created diagonal. -/
theorem setConFor_pair {c : Ctx} {K Q} {ts : Store} (m : MeshInv c K Q ts) {t o w u v w' e e'}
    (h1 : Sl ts t w u v (some o) e) (h2 : Sl ts o w' v u (some t) e') {p q : Nat}
    (hpq : (p = u ∧ q = v) ∨ (p = v ∧ q = u)) :
    ∃ T O, ts[t]? = some T ∧ (ts.set t (T.setConstrainedForEdge p q))[o]? = some O ∧
      let ts' := (ts.set t (T.setConstrainedForEdge p q)).set o (O.setConstrainedForEdge p q)
      Reflag c ts ts' ∧ MeshInv c K Q ts' ∧ ConEdge ts' p q := by
  have hne := m.ne h1
  have d1 := (oriW c).d3 (m.wo h1)
  have d2 := (oriW c).d3 (m.wo h2)
  obtain ⟨T, hT, sT⟩ := h1
  obtain ⟨O, hO, sO⟩ := h2
  obtain ⟨i, rfl, rfl, rfl, hn, rfl⟩ := sT.index
  obtain ⟨j, rfl, q1, q2, hn', rfl⟩ := sO.index
  have hO1 : (ts.set t (T.setConstrainedForEdge p q))[o]? = some O := by
    rw [List.getElem?_set]; simp [hne, hO]
  have i1 : T.edgeIndex p q = some i := edgeIndex_of d1 (by grind)
  have i2 : O.edgeIndex p q = some j := edgeIndex_of (by rw [q1, q2]; exact d2) (by grind)
  refine ⟨T, O, hT, hO1, ?_⟩
  obtain ⟨r, m', b⟩ := setCon_pair m hT hO hn hn'
  simp only [Tri.setConstrainedForEdge, i1, i2]
  refine ⟨r, m', ?_⟩
  rcases hpq with ⟨rfl, rfl⟩ | ⟨rfl, rfl⟩
  · exact .inl b
  · exact .inr b

/-- `flagDelaunay` on a legal edge. -/
theorem flagDelaunay_spec {c : Ctx} {K Q} {ts : Store} (m : MeshInv c K Q ts) {t o w u v w' e e'}
    (h1 : Sl ts t w u v (some o) e) (h2 : Sl ts o w' v u (some t) e') (hl : Legal c w u v w') :
    ∃ ts', Store.flagDelaunay ts t o = .ok ts' ∧ Reflag c ts ts' ∧ MeshInv c K Q ts' := by
  have hne := m.ne h1
  have hax := m.apex_ne h1 h2
  have d1 := (oriW c).d3 (m.wo h1)
  have d2 := (oriW c).d3 (m.wo h2)
  have s1 := h1
  have s2 := h2
  obtain ⟨T, hT, sT⟩ := h1
  obtain ⟨O, hO, sO⟩ := h2
  obtain ⟨a1, a2, a3, a4, vT⟩ := sT.view
  obtain ⟨b1, b2, b3, b4, vO⟩ := sO.view
  have ci := commonEdgeIndex_view vT vO d1 d2 hax
  obtain ⟨i, rfl, rfl, rfl, hn, rfl⟩ := sT.index
  obtain ⟨j, rfl, q1, q2, hn', rfl⟩ := sO.index
  rw [idxOf_get d1, idxOf_get (by rw [q1, q2]; exact d2)] at ci
  have hO1 : (ts.set t (T.setDelaunay i true))[o]? = some O := by
    rw [List.getElem?_set]; simp [hne, hO]
  have k1 := setAttr_sl hT i d1 ((T.attrs.get i).setDelaunay true)
  have k2 := setAttr_sl hO1 j (by rw [q1, q2]; exact d2) ((O.attrs.get j).setDelaunay true)
  have key : ∀ y W U V N E, Sl ((ts.set t (T.setDelaunay i true)).set o (O.setDelaunay j true)) y W U V N E ↔
      (y = o ∧ W = O.points.get j ∧ U = O.points.get (j + 1) ∧ V = O.points.get (j + 2) ∧ N = some t ∧
        E = (O.attrs.get j).setDelaunay true) ∨
      (y = t ∧ W = T.points.get i ∧ U = T.points.get (i + 1) ∧ V = T.points.get (i + 2) ∧ N = some o ∧
        E = (T.attrs.get i).setDelaunay true) ∨
      (Sl ts y W U V N E ∧ ¬ (y = t ∧ W = T.points.get i) ∧ ¬ (y = o ∧ W = O.points.get j)) := by
    intro y W U V N E
    refine (k2 y W U V N E).trans ?_
    have := k1 y W U V N E
    unfold Tri.setDelaunay at *
    rw [this, hn, hn']
    grind (splits := 40)
  rw [q1, q2] at key
  have back : ∀ {y w u v n e'}, Sl ((ts.set t (T.setDelaunay i true)).set o (O.setDelaunay j true)) y w u v n e' →
      ∃ e, Sl ts y w u v n e ∧ e.isConstrained = e'.isConstrained ∧ (e'.isDelaunay = true → e.isDelaunay = true ∨
      ∀ x w' f, n = some x → Sl ts x w' v u (some y) f → Legal c w u v w') := by
    intro y w u v n e' hs
    rcases (key ..).1 hs with ⟨rfl, rfl, rfl, rfl, rfl, rfl⟩ | ⟨rfl, rfl, rfl, rfl, rfl, rfl⟩ | ⟨hs, -⟩
    · refine ⟨_, s2, by simp, fun _ => .inr fun x w' f hn hf => ?_⟩
      cases hn
      have := m.uniq hf s1
      rw [this.1]; exact hl.symm
    · refine ⟨_, s1, by simp, fun _ => .inr fun x w' f hn hf => ?_⟩
      cases hn
      have := m.uniq hf s2
      rw [this.1]; exact hl
    · exact ⟨_, hs, rfl, .inl⟩
  have r : Reflag c ts ((ts.set t (T.setDelaunay i true)).set o (O.setDelaunay j true)) := by
    refine ⟨by simp, ?_, ?_⟩
    · intro y w u v n e' hs
      obtain ⟨e, k1, k2, k3⟩ := back hs
      exact ⟨e, k1, by rw [k2]; exact id, k3⟩
    · intro y w u v n e hs
      by_cases c1 : y = t ∧ w = T.points.get i
      · obtain ⟨rfl, rfl⟩ := c1
        have := sl_two s1 d1 hs
        obtain ⟨x1, x2, x3⟩ := d1
        have q : u = T.points.get (i + 1) ∧ v = T.points.get (i + 2) ∧ n = some o ∧ e = T.attrs.get i := by grind
        obtain ⟨rfl, rfl, rfl, rfl⟩ := q
        exact ⟨_, (key ..).2 (.inr (.inl ⟨rfl, rfl, rfl, rfl, rfl, rfl⟩)), by simp⟩
      by_cases c2 : y = o ∧ w = O.points.get j
      · obtain ⟨rfl, rfl⟩ := c2
        have := sl_two s2 d2 hs
        obtain ⟨x1, x2, x3⟩ := d2
        have q : u = T.points.get (i + 2) ∧ v = T.points.get (i + 1) ∧ n = some t ∧ e = O.attrs.get j := by grind
        obtain ⟨rfl, rfl, rfl, rfl⟩ := q
        exact ⟨_, (key ..).2 (.inl ⟨rfl, rfl, rfl, rfl, rfl, rfl⟩), by simp⟩
      exact ⟨_, (key ..).2 (.inr (.inr ⟨hs, c1, c2⟩)), id⟩
  refine ⟨_, ?_, r, m.reflag r ?_⟩
  · have lt := (List.getElem?_eq_some_iff.1 hT).1
    have lo := (List.getElem?_eq_some_iff.1 hO).1
    simp [Store.flagDelaunay, Store.assertTwo, hne, lt, lo, getU_ok.2 hT, getU_ok.2 hO, ci]
  · intro a w u v x e w' e' hK g1 g2
    obtain ⟨f1, z1, z2, -⟩ := back g1
    obtain ⟨f2, y1, y2, -⟩ := back g2
    rw [← z2, ← y2]
    exact m.csym hK z1 y1

end P2T
