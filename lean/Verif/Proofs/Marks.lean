import Verif.Proofs.FlipInv

/-!
# Which edges are marked as constrained
-/

set_option linter.unusedSectionVars false

namespace P2T

/-- Some triangle marks the edge `u v` as constrained. -/
def Mk (ts : Store) (u v : Nat) : Prop := ∃ t w n e, (Sl ts t w u v n e ∨ Sl ts t w v u n e) ∧ e.isConstrained = true

/-- No edge gets a mark. -/
def NoNew (ts ts' : Store) : Prop := ∀ u v, Mk ts' u v → Mk ts u v

/-- The two triangles at an edge agree on its mark. -/
def Csym (ts : Store) : Prop := ∀ {t w u v x e w' e'}, Sl ts t w u v (some x) e → Sl ts x w' v u (some t) e' →
  e.isConstrained = e'.isConstrained

theorem Mk.symm {ts u v} (h : Mk ts u v) : Mk ts v u := by
  obtain ⟨t, w, n, e, h, he⟩ := h
  exact ⟨t, w, n, e, h.symm, he⟩

theorem Mk.of {ts : Store} {t w u v n e} (h : Sl ts t w u v n e) (he : e.isConstrained = true) : Mk ts u v := ⟨_, _, _, _, .inl h, he⟩

theorem NoNew.of {ts ts' : Store} (h : ∀ {t w u v n e}, Sl ts' t w u v n e → e.isConstrained = true → Mk ts u v) : NoNew ts ts' := by
  rintro u v ⟨t, w, n, e, k | k, he⟩
  · exact h k he
  · exact (h k he).symm

theorem NoNew.refl (ts : Store) : NoNew ts ts := fun _ _ h => h
theorem NoNew.trans {a b d : Store} (h : NoNew a b) (h' : NoNew b d) : NoNew a d := fun u v k => h u v (h' u v k)

theorem MeshInv.csym' {c : Ctx} {Q} {ts : Store} (m : MeshInv c True Q ts) : Csym ts := fun h h' => m.csym trivial h h'
theorem MeshInv.toTrue {c : Ctx} {K Q} {ts : Store} (m : MeshInv c K Q ts) (h : Csym ts) : MeshInv c True Q ts :=
  ⟨m.wo, m.sym, m.del, m.leg, fun _ k k' => h k k'⟩

theorem BothCon.mk {ts u v} (h : BothCon ts u v) : Mk ts u v := by
  rcases h with ⟨t, w, e, h, he⟩ | ⟨t, w, x, e, w', e', h, he, -⟩ <;> exact .of h he

theorem ConEdge.mk {ts u v} (h : ConEdge ts u v) : Mk ts u v := by
  rcases h with h | h
  · exact h.mk
  · exact h.mk.symm

/-- In a symmetric mesh every mark is on both sides. -/
theorem MeshInv.both {c : Ctx} {Q} {ts : Store} (m : MeshInv c True Q ts) {t w u v n e} (h : Sl ts t w u v n e) (he : e.isConstrained = true) :
    BothCon ts u v := by
  cases n with
  | none => exact .inl ⟨_, _, _, h, he⟩
  | some x =>
    obtain ⟨w', e', k⟩ := m.sym h
    exact .inr ⟨_, _, _, _, _, _, h, he, k, (m.csym trivial h k).symm.trans he⟩

theorem MeshInv.con {c : Ctx} {Q} {ts : Store} (m : MeshInv c True Q ts) {u v} (h : Mk ts u v) : ConEdge ts u v := by
  obtain ⟨t, w, n, e, h | h, he⟩ := h
  · exact .inl (m.both h he)
  · exact .inr (m.both h he)

theorem linkA_con {n g e} (h : (linkA n g e).isConstrained = true) : e.isConstrained = true ∨ (∃ y, n = some y) ∧ g.isConstrained = true := by
  unfold linkA at h
  cases n <;> simp_all

section
variable {c : Ctx} {K : Prop} {Q : Nat → Prop} {ts ts' : Store} {F : Flip} (r : F.Rel ts ts') (p : F.Pre c.W ts) (m : MeshInv c K Q ts)
include r p m

/-- A triangle that is not flipped keeps its corners. -/
theorem Flip.Rel.frame {y w u v n e} (h : Sl ts y w u v n e) (h1 : y ≠ F.t) (h2 : y ≠ F.ot) : ∃ n' e', Sl ts' y w u v n' e' := by
  by_cases hn : n = some F.t ∨ n = some F.ot
  · rcases p.toward m h h1 h2 hn with ⟨k, rfl, rfl, rfl, rfl⟩ | ⟨k, rfl, rfl, rfl, rfl⟩ | ⟨k, rfl, rfl, rfl, rfl⟩ |
        ⟨k, rfl, rfl, rfl, rfl⟩
    · exact ⟨_, _, r.q1 k⟩
    · exact ⟨_, _, r.q2 k⟩
    · exact ⟨_, _, r.q3 k⟩
    · exact ⟨_, _, r.q4 k⟩
  · exact ⟨_, _, r.rest h h1 h2 (fun h => hn (.inl h)) (fun h => hn (.inr h))⟩

theorem Flip.Rel.vtx (z : Nat) : (∃ t u v n e, Sl ts' t z u v n e) ↔ (∃ t u v n e, Sl ts t z u v n e) := by
  constructor
  · rintro ⟨t, u, v, n, e, h⟩
    rcases (r ..).1 h with ⟨-, rfl, -⟩ | ⟨-, rfl, -⟩ | ⟨-, rfl, -⟩ | ⟨-, rfl, -⟩ | ⟨-, rfl, -⟩ | ⟨-, rfl, -⟩ | ⟨k, rfl, -⟩ | ⟨k, rfl, -⟩ |
      ⟨k, rfl, -⟩ | ⟨k, rfl, -⟩ | ⟨-, -, -, -, k⟩
    · exact ⟨_, _, _, _, _, p.s1⟩
    · exact ⟨_, _, _, _, _, p.s0⟩
    · exact ⟨_, _, _, _, _, p.o0⟩
    · exact ⟨_, _, _, _, _, p.s2⟩
    · exact ⟨_, _, _, _, _, p.o0⟩
    · exact ⟨_, _, _, _, _, p.s0⟩
    · exact ⟨_, _, _, _, _, p.h1 _ k⟩
    · exact ⟨_, _, _, _, _, p.h2 _ k⟩
    · exact ⟨_, _, _, _, _, p.h3 _ k⟩
    · exact ⟨_, _, _, _, _, p.h4 _ k⟩
    · exact ⟨_, _, _, _, _, k⟩
  · rintro ⟨t, u, v, n, e, h⟩
    by_cases h1 : t = F.t
    · subst h1
      rcases p.onT m h with ⟨rfl, -⟩ | ⟨rfl, -⟩ | ⟨rfl, -⟩
      · exact ⟨_, _, _, _, _, r.r3⟩
      · exact ⟨_, _, _, _, _, r.r0⟩
      · exact ⟨_, _, _, _, _, r.r0'⟩
    by_cases h2 : t = F.ot
    · subst h2
      rcases p.onO m h with ⟨rfl, -⟩ | ⟨rfl, -⟩ | ⟨rfl, -⟩
      · exact ⟨_, _, _, _, _, r.r2⟩
      · exact ⟨_, _, _, _, _, r.r0'⟩
      · exact ⟨_, _, _, _, _, r.r0⟩
    obtain ⟨n', e', k⟩ := r.frame p m h h1 h2
    exact ⟨_, _, _, _, _, k⟩

/-- A flip sets no mark except on the new edge. -/
theorem Flip.Rel.newmark : ∀ u v, Mk ts' u v → Mk ts u v ∨ (u = F.p ∧ v = F.op) ∨ (u = F.op ∧ v = F.p) := by
  have L : ∀ {n g e a b tt ww}, (linkA n g e).isConstrained = true → Sl ts tt ww a b n e →
      (∀ y, n = some y → ∃ x n', Sl ts y x b a n' g) → Mk ts a b := by
    intro n g e a b tt ww h1 h2 h3
    rcases linkA_con h1 with k | ⟨⟨y, hy⟩, k⟩
    · exact .of h2 k
    · obtain ⟨x, n', h4⟩ := h3 y hy
      exact (Mk.of h4 k).symm
  have M : ∀ {e g a b tt ww t' w' n n' x}, (mkA (e.isConstrained || g.isConstrained) x).isConstrained = true → Sl ts tt ww a b n e →
      Sl ts t' w' b a n' g → Mk ts b a := by
    intro e g a b tt ww t' w' n n' x h1 h2 h3
    rw [mkA_con, Bool.or_eq_true] at h1
    rcases h1 with k | k
    · exact (Mk.of h2 k).symm
    · exact .of h3 k
  have main : ∀ {t w u v n e}, Sl ts' t w u v n e → e.isConstrained = true → Mk ts u v ∨ (u = F.p ∧ v = F.op) ∨ (u = F.op ∧ v = F.p) := by
    intro t w u v n e h he
    rcases (r ..).1 h with ⟨-, rfl, rfl, rfl, rfl, rfl⟩ | ⟨-, rfl, rfl, rfl, rfl, rfl⟩ | ⟨-, rfl, rfl, rfl, rfl, rfl⟩ |
      ⟨-, rfl, rfl, rfl, rfl, rfl⟩ | ⟨-, rfl, rfl, rfl, rfl, rfl⟩ | ⟨-, rfl, rfl, rfl, rfl, rfl⟩ | ⟨k, rfl, rfl, rfl, rfl, rfl⟩ |
      ⟨k, rfl, rfl, rfl, rfl, rfl⟩ | ⟨k, rfl, rfl, rfl, rfl, rfl⟩ | ⟨k, rfl, rfl, rfl, rfl, rfl⟩ | ⟨-, -, -, -, k⟩
    · simp
    · exact .inl (L he p.o3 fun y hy => ⟨_, _, p.h3 y hy⟩)
    · exact .inl (L he p.s2 fun y hy => ⟨_, _, p.h2 y hy⟩)
    · simp
    · exact .inl (L he p.s1 fun y hy => ⟨_, _, p.h1 y hy⟩)
    · exact .inl (L he p.o4 fun y hy => ⟨_, _, p.h4 y hy⟩)
    · exact .inl (M he p.s1 (p.h1 _ k))
    · exact .inl (M he p.s2 (p.h2 _ k))
    · exact .inl (M he p.o3 (p.h3 _ k))
    · exact .inl (M he p.o4 (p.h4 _ k))
    · exact .inl (.of k he)
  rintro u v ⟨t, w, n, e, k | k, he⟩
  · exact main k he
  · rcases main k he with k | ⟨h1, h2⟩ | ⟨h1, h2⟩
    · exact .inl k.symm
    · exact .inr (.inr ⟨h2, h1⟩)
    · exact .inr (.inl ⟨h2, h1⟩)

/-- A flip of an unmarked edge sets no mark. -/
theorem Flip.Rel.nonew (h0 : F.e0.isConstrained = false) (h0' : F.f0.isConstrained = false) : NoNew ts ts' := by
  refine .of ?_
  intro t w u v n e h he
  have L : ∀ {n g e a b tt ww}, (linkA n g e).isConstrained = true → Sl ts tt ww a b n e →
      (∀ y, n = some y → ∃ x n', Sl ts y x b a n' g) → Mk ts a b := by
    intro n g e a b tt ww h1 h2 h3
    rcases linkA_con h1 with k | ⟨⟨y, hy⟩, k⟩
    · exact .of h2 k
    · obtain ⟨x, n', h4⟩ := h3 y hy
      exact (Mk.of h4 k).symm
  have M : ∀ {e g a b tt ww t' w' n n' x}, (mkA (e.isConstrained || g.isConstrained) x).isConstrained = true → Sl ts tt ww a b n e →
      Sl ts t' w' b a n' g → Mk ts b a := by
    intro e g a b tt ww t' w' n n' x h1 h2 h3
    rw [mkA_con, Bool.or_eq_true] at h1
    rcases h1 with k | k
    · exact (Mk.of h2 k).symm
    · exact .of h3 k
  rcases (r ..).1 h with ⟨-, rfl, rfl, rfl, rfl, rfl⟩ | ⟨-, rfl, rfl, rfl, rfl, rfl⟩ | ⟨-, rfl, rfl, rfl, rfl, rfl⟩ |
    ⟨-, rfl, rfl, rfl, rfl, rfl⟩ | ⟨-, rfl, rfl, rfl, rfl, rfl⟩ | ⟨-, rfl, rfl, rfl, rfl, rfl⟩ | ⟨k, rfl, rfl, rfl, rfl, rfl⟩ |
    ⟨k, rfl, rfl, rfl, rfl, rfl⟩ | ⟨k, rfl, rfl, rfl, rfl, rfl⟩ | ⟨k, rfl, rfl, rfl, rfl, rfl⟩ | ⟨-, -, -, -, k⟩
  · rw [mkA_con, h0, h0'] at he; cases he
  · exact L he p.o3 fun y hy => ⟨_, _, p.h3 y hy⟩
  · exact L he p.s2 fun y hy => ⟨_, _, p.h2 y hy⟩
  · rw [mkA_con, h0, h0'] at he; cases he
  · exact L he p.s1 fun y hy => ⟨_, _, p.h1 y hy⟩
  · exact L he p.o4 fun y hy => ⟨_, _, p.h4 y hy⟩
  · exact M he p.s1 (p.h1 _ k)
  · exact M he p.s2 (p.h2 _ k)
  · exact M he p.o3 (p.h3 _ k)
  · exact M he p.o4 (p.h4 _ k)
  · exact .of k he

end

/-! ## Setting marks -/

/-- `ts'` has the same triangles and marks, and possibly a mark on `p q`. -/
structure MarkOne (ts ts' : Store) (p q : Nat) : Prop where
  sl : ∀ {t w u v n e}, Sl ts' t w u v n e → ∃ e', Sl ts t w u v n e'
  con : ∀ u v, Mk ts' u v → Mk ts u v ∨ (u = p ∧ v = q) ∨ (u = q ∧ v = p)
  keep : ∀ u v, Mk ts u v → Mk ts' u v

theorem MarkOne.trans {a b d : Store} {p q} (h : MarkOne a b p q) (h' : MarkOne b d p q) : MarkOne a d p q := by
  refine ⟨fun k => ?_, fun u v k => ?_, fun u v k => h'.keep u v (h.keep u v k)⟩
  · obtain ⟨e, k⟩ := h'.sl k; exact h.sl k
  · rcases h'.con u v k with k | k
    · exact h.con u v k
    · exact .inr k

theorem setCon_one {c : Ctx} {K Q} {ts : Store} (m : MeshInv c K Q ts) {t : Nat} {T : Tri} (h : ts[t]? = some T) (i : Fin 3) {p q : Nat}
    (hpq : (T.points.get (i + 1) = p ∧ T.points.get (i + 2) = q) ∨ (T.points.get (i + 1) = q ∧ T.points.get (i + 2) = p)) :
    MarkOne ts (ts.set t (T.setConstrained i true)) p q := by
  have d := (oriW c).d3 (m.wo (sl_at h i))
  have key := setAttr_sl h i d ((T.attrs.get i).setConstrained true)
  have main : ∀ {y w u v n e}, Sl (ts.set t (T.setConstrained i true)) y w u v n e → (∃ e', Sl ts y w u v n e') ∧
      (e.isConstrained = true → Mk ts u v ∨ (u = p ∧ v = q) ∨ (u = q ∧ v = p)) := by
    intro y w u v n e hs
    rcases (key ..).1 hs with ⟨rfl, rfl, rfl, rfl, rfl, rfl⟩ | ⟨k, -⟩
    · exact ⟨⟨_, sl_at h i⟩, fun _ => .inr hpq⟩
    · exact ⟨⟨_, k⟩, fun he => .inl (.of k he)⟩
  have fwd : ∀ {y w u v n e}, Sl ts y w u v n e → e.isConstrained = true → Mk (ts.set t (T.setConstrained i true)) u v := by
    intro y w u v n e hs he
    by_cases hi : y = t ∧ w = T.points.get i
    · obtain ⟨rfl, rfl⟩ := hi
      obtain ⟨rfl, rfl, rfl, rfl⟩ : u = T.points.get (i + 1) ∧ v = T.points.get (i + 2) ∧ n = T.neighbors.get i ∧ e = T.attrs.get i := by
        rcases sl_two (sl_at h i) d hs with ⟨-, h2, h3, h4, h5⟩ | ⟨k, -, -⟩ | ⟨k, -, -⟩
        · exact ⟨h2, h3, h4, h5⟩
        · exact (d.1 k).elim
        · exact (d.2.2 k).elim
      exact .of ((key ..).2 (.inl ⟨rfl, rfl, rfl, rfl, rfl, rfl⟩)) (by simp)
    · exact .of ((key ..).2 (.inr ⟨hs, hi⟩)) he
  refine ⟨fun hs => (main hs).1, ?_, fun u v => ?_⟩
  rotate_left
  · rintro ⟨y, w, n, e, hs | hs, he⟩
    · exact fwd hs he
    · exact (fwd hs he).symm
  rintro u v ⟨y, w, n, e, hs | hs, he⟩
  · exact (main hs).2 he
  · rcases (main hs).2 he with k | ⟨k1, k2⟩ | ⟨k1, k2⟩
    · exact .inl k.symm
    · exact .inr (.inr ⟨k2, k1⟩)
    · exact .inr (.inl ⟨k2, k1⟩)

theorem setCon_two {c : Ctx} {K Q} {ts : Store} (m : MeshInv c K Q ts) {t o : Nat} {T O : Tri} (hT : ts[t]? = some T)
    (hO : ts[o]? = some O) (hne : t ≠ o) {i j : Fin 3} {p q : Nat}
    (hi : (T.points.get (i + 1) = p ∧ T.points.get (i + 2) = q) ∨ (T.points.get (i + 1) = q ∧ T.points.get (i + 2) = p))
    (hj : (O.points.get (j + 1) = p ∧ O.points.get (j + 2) = q) ∨ (O.points.get (j + 1) = q ∧ O.points.get (j + 2) = p)) :
    MarkOne ts ((ts.set t (T.setConstrained i true)).set o (O.setConstrained j true)) p q := by
  have hO1 : (ts.set t (T.setConstrained i true))[o]? = some O := by
    rw [List.getElem?_set]; simp [hne, hO]
  have m1 := m.noK.reflag (setCon_reflag m hT i) (fun h => h.elim)
  exact (setCon_one m hT i hi).trans (setCon_one m1 hO1 j hj)

/-- `try_mark_edge` marks at most the given edge, and does so if the triangle has it. -/
theorem tryMarkEdge_one {c : Ctx} {K Q} {ts ts' : Store} (m : MeshInv c K Q ts) {t : Nat} {p q : Nat} {b : Bool}
    (h : Store.tryMarkEdge ts p q t = .ok (ts', b)) :
    MarkOne ts ts' p q ∧ (b = false → ts' = ts ∧ (∀ w n e, ¬ Sl ts t w p q n e) ∧ ∀ w n e, ¬ Sl ts t w q p n e) ∧
      (b = true → ∃ w n e, Sl ts t w p q n e ∨ Sl ts t w q p n e) := by
  simp only [Store.tryMarkEdge] at h
  obtain ⟨T, hT, h⟩ := bind_ok.1 h
  have hT := getU_ok.1 hT
  cases hi : T.edgeIndex p q with
  | none =>
    rw [hi] at h
    cases h
    refine ⟨⟨fun k => ⟨_, k⟩, fun u v k => .inl k, fun _ _ k => k⟩, fun _ => ⟨rfl, ?_, ?_⟩, by simp⟩
    · intro w n e k
      have d := (oriW c).d3 (m.wo k)
      obtain ⟨T', hT', k⟩ := k
      rw [hT] at hT'; cases hT'
      obtain ⟨j, rfl, k1, k2, -⟩ := k.index
      rw [edgeIndex_of (i := j) (by rw [k1, k2]; exact d) (.inl ⟨k1, k2⟩)] at hi; cases hi
    · intro w n e k
      have d := (oriW c).d3 (m.wo k)
      obtain ⟨T', hT', k⟩ := k
      rw [hT] at hT'; cases hT'
      obtain ⟨j, rfl, k1, k2, -⟩ := k.index
      rw [edgeIndex_of (i := j) (by rw [k1, k2]; exact d) (.inr ⟨k1, k2⟩)] at hi; cases hi
  | some i =>
    rw [hi] at h
    dsimp only at h
    have e := edgeIndex_some hi
    have has : ∃ w n e, Sl ts t w p q n e ∨ Sl ts t w q p n e := by
      have aT := sl_at hT i
      rcases e with ⟨k1, k2⟩ | ⟨k1, k2⟩ <;> rw [k1, k2] at aT
      · exact ⟨_, _, _, .inl aT⟩
      · exact ⟨_, _, _, .inr aT⟩
    cases hn : T.neighbors.get i with
    | none =>
      rw [hn] at h
      cases h
      exact ⟨setCon_one m hT i e, by simp, fun _ => has⟩
    | some o =>
      rw [hn] at h
      dsimp only at h
      have aT := sl_at hT i
      rw [hn] at aT
      have hne := m.ne aT
      obtain ⟨O, hO, h⟩ := bind_ok.1 h
      have hO := getU_ok.1 hO
      obtain ⟨j, hj, h⟩ := bind_ok.1 h
      cases h
      have hO1 : ts[o]? = some O := by
        rw [List.getElem?_set] at hO; simpa [hne] using hO
      obtain ⟨w', e', hs⟩ := m.sym aT
      have aO := sl_at hO1 j
      rw [neighborIndex_some hj] at aO
      obtain ⟨-, q1, q2, -⟩ := m.nbr_uniq hs aO
      refine ⟨setCon_two m hT hO1 hne e ?_, by simp, fun _ => has⟩
      grind

/-- Marking a freshly created diagonal. -/
theorem setConFor_one {c : Ctx} {K Q} {ts : Store} (m : MeshInv c K Q ts) {t o w u v w' e e'}
    (h1 : Sl ts t w u v (some o) e) (h2 : Sl ts o w' v u (some t) e') {p q : Nat}
    (hpq : (p = u ∧ q = v) ∨ (p = v ∧ q = u)) {T O : Tri} (hT : ts[t]? = some T) (hO : (ts.set t (T.setConstrainedForEdge p q))[o]? = some O) :
    MarkOne ts ((ts.set t (T.setConstrainedForEdge p q)).set o (O.setConstrainedForEdge p q)) p q := by
  have hne := m.ne h1
  have d1 := (oriW c).d3 (m.wo h1)
  have d2 := (oriW c).d3 (m.wo h2)
  have hO1 : ts[o]? = some O := by
    rw [List.getElem?_set] at hO; simpa [hne] using hO
  obtain ⟨T', hT', sT⟩ := h1
  obtain ⟨O', hO', sO⟩ := h2
  rw [hT] at hT'; cases hT'
  rw [hO1] at hO'; cases hO'
  obtain ⟨i, rfl, rfl, rfl, hn, rfl⟩ := sT.index
  obtain ⟨j, rfl, q1, q2, hn', rfl⟩ := sO.index
  have e1 : (T.points.get (i + 1) = p ∧ T.points.get (i + 2) = q) ∨ (T.points.get (i + 1) = q ∧ T.points.get (i + 2) = p) := by grind
  have e2 : (O.points.get (j + 1) = p ∧ O.points.get (j + 2) = q) ∨ (O.points.get (j + 1) = q ∧ O.points.get (j + 2) = p) := by grind
  have i1 : T.edgeIndex p q = some i := edgeIndex_of d1 e1
  have i2 : O.edgeIndex p q = some j := edgeIndex_of (by rw [q1, q2]; exact d2) e2
  have := setCon_two m hT hO1 hne e1 e2
  simp only [Tri.setConstrainedForEdge, i1, i2]
  exact this

/-! ## Steps that are not edge events -/

/-- Marks stay symmetric, and no edge gets one. -/
def NN (ts ts' : Store) : Prop := Csym ts → Csym ts' ∧ NoNew ts ts'

theorem NN.refl (ts : Store) : NN ts ts := fun h => ⟨h, .refl _⟩
theorem NN.trans {a b d : Store} (h : NN a b) (h' : NN b d) : NN a d := fun k =>
  ⟨(h' (h k).1).1, (h k).2.trans (h' (h k).1).2⟩

theorem setDel_nonew {ts : Store} {t : Nat} {T : Tri} (h : ts[t]? = some T) (i : Fin 3)
    (d : D3 (T.points.get i) (T.points.get (i + 1)) (T.points.get (i + 2))) : NoNew ts (ts.set t (T.setDelaunay i true)) := by
  have key := setAttr_sl h i d ((T.attrs.get i).setDelaunay true)
  refine .of ?_
  intro y w u v n e hs he
  rcases (key ..).1 hs with ⟨rfl, rfl, rfl, rfl, rfl, rfl⟩ | ⟨k, -⟩
  · exact .of (sl_at h i) (by simpa using he)
  · exact .of k he

theorem flag_nonew {c : Ctx} {K Q} {ts ts' : Store} (m : MeshInv c K Q ts) {t o : Nat} (hne : t ≠ o) (h : Store.flagDelaunay ts t o = .ok ts') :
    NoNew ts ts' := by
  simp only [Store.flagDelaunay] at h
  obtain ⟨_, -, h⟩ := bind_ok.1 h
  obtain ⟨T, hT, h⟩ := bind_ok.1 h
  obtain ⟨O, hO, h⟩ := bind_ok.1 h
  have hT := getU_ok.1 hT
  have hO := getU_ok.1 hO
  split at h
  · cases h
  · rename_i i j _
    cases h
    have hO1 : (ts.set t (T.setDelaunay i true))[o]? = some O := by
      rw [List.getElem?_set]; simp [hne, hO]
    exact (setDel_nonew hT i ((oriW c).d3 (m.wo (sl_at hT i)))).trans (setDel_nonew hO1 j ((oriW c).d3 (m.wo (sl_at hO j))))

end P2T
