import Verif.Props.MeshProps

/-!
# C12: what `verify_triangles` says

On the mesh of any callback `verify_triangles` returns; it returns `true` exactly if every edge that the
triangle across does not mark as constrained is locally Delaunay.
-/

namespace P2T

theorem mapM_ok_iff {α β : Type} {f : α → Except Err β} {g : α → β} {l : List α} (h : ∀ a ∈ l, f a = .ok (g a)) :
    l.mapM f = .ok (l.map g) := by
  induction l with
  | nil => rfl
  | cons a l ih =>
    rw [List.mapM_cons, h a (by simp), ok_bind, ih fun b hb => h b (by simp [hb])]
    rfl

section
variable {c : Ctx} {K : Prop} {Q : Nat → Prop} {M : Store}

theorem pointIndex_at {X : Tri} {j : Fin 3} (d : ∀ i k, i ≠ k → X.points.get i ≠ X.points.get k) :
    X.pointIndex (X.points.get j) = some j := by
  have h01 := d 0 1 (by decide); have h02 := d 0 2 (by decide); have h12 := d 1 2 (by decide)
  simp only [V3.get] at h01 h02 h12
  unfold Tri.pointIndex
  match j with
  | 0 => simp [V3.get]
  | 1 => simp [V3.get, h01]
  | 2 => simp [V3.get, h02, h12]

/-- One edge test of `verify_triangles`. -/
theorem isLegalizeAt_spec (m : MeshInv c K Q M) {t : Nat} {T : Tri} (hT : M[t]? = some T) (i : Fin 3) :
    ∃ o, isLegalizeAt c M t i = .ok o ∧ (o = none ↔ ∀ x j X, Linked M t i x j → M[x]? = some X → X.isConstrained j = false →
      inCircleDet (c.pos (T.points.get i)) (c.pos (T.from i)) (c.pos (T.to i)) (c.pos (X.points.get j)) ≤ 0) := by
  have a := sl_corner hT i
  simp only [isLegalizeAt, getU_ok.2 hT, ok_bind]
  cases hn : T.neighbors.get i with
  | none =>
    refine ⟨none, rfl, iff_of_true rfl ?_⟩
    rintro x j X ⟨T', X', h1, -, h3, -⟩
    rw [hT] at h1; cases h1
    rw [hn] at h3; cases h3
  | some x =>
    rw [hn] at a
    obtain ⟨-, j, hl⟩ := m.linked hT hn
    obtain ⟨T', X, h1, hX, h3, h4, h5, h6⟩ := id hl
    obtain ⟨-, o⟩ := hl.sl hT hX
    obtain ⟨q1, q2, q3⟩ := a.pts m hT
    have w1 := (m.wo a).1
    have w2 := (m.wo o).1
    have dX := ((oriW c).d3 (m.wo (sl_corner hX 0))).at
    simp only [getU_ok.2 hX, ok_bind, oppositePoint_sl m a o hT hX, pointIndex_at dX, unwrap_some, q1, q2,
      Ctx.pt_ok w1.1, Ctx.pt_ok w1.2.1, Ctx.pt_ok w1.2.2, Ctx.pt_ok w2.1]
    have huniq : ∀ x' j' X', Linked M t i x' j' → M[x']? = some X' → x' = x ∧ j' = j ∧ X' = X := by
      rintro x' j' X' hl' hX'
      obtain ⟨T'', X'', l1, l2, l3, l4, l5, l6⟩ := id hl'
      rw [hT] at l1; cases l1
      rw [hn] at l3; cases l3
      rw [hX] at hX'; cases hX'
      refine ⟨rfl, ?_, rfl⟩
      obtain ⟨-, o'⟩ := hl'.sl hT hX
      exact m.idx hX (m.uniq o' o).1
    by_cases hc : X.isConstrained j = true
    · rw [if_pos hc]
      refine ⟨none, rfl, iff_of_true rfl ?_⟩
      intro x' j' X' hl' hX' hc'
      obtain ⟨rfl, rfl, rfl⟩ := huniq x' j' X' hl' hX'
      rw [hc] at hc'; cases hc'
    · rw [if_neg hc]
      by_cases hi : inCircle (c.pos (T.points.get i)) (c.pos (T.from i)) (c.pos (T.to i)) (c.pos (X.points.get j)) = true
      · rw [if_pos hi]
        refine ⟨some x, rfl, iff_of_false (by simp) ?_⟩
        intro h
        have := h x j X hl hX (by simpa using hc)
        simp only [inCircle, decide_eq_true_eq] at hi
        linarith
      · rw [if_neg hi]
        refine ⟨none, rfl, iff_of_true rfl ?_⟩
        intro x' j' X' hl' hX' hc'
        obtain ⟨rfl, rfl, rfl⟩ := huniq x' j' X' hl' hX'
        simp only [inCircle, decide_eq_true_eq] at hi
        linarith

theorem verifyTriangles_spec (m : MeshInv c K Q M) : ∃ b, verifyTriangles c M = .ok b ∧
    (b = true ↔ ∀ t i x j T X, Linked M t i x j → M[t]? = some T → M[x]? = some X → X.isConstrained j = false →
      inCircleDet (c.pos (T.points.get i)) (c.pos (T.from i)) (c.pos (T.to i)) (c.pos (X.points.get j)) ≤ 0) := by
  classical
  let f : Nat → Fin 3 → Option Nat := fun t i => (match isLegalizeAt c M t i with | .ok o => o | .error _ => none)
  have hf : ∀ t < M.length, ∀ i, isLegalizeAt c M t i = .ok (f t i) := by
    intro t ht i
    obtain ⟨o, h1, -⟩ := isLegalizeAt_spec m (List.getElem?_eq_getElem ht) i
    simp only [f, h1]
  have h1 : illegalTriangles c M = .ok (((List.range M.length).map fun t =>
      ((([0, 1, 2] : List (Fin 3)).map (f t)).filterMap id).map fun o => (t, o)).flatten) := by
    unfold illegalTriangles
    rw [mapM_ok_iff (g := fun t => ((([0, 1, 2] : List (Fin 3)).map (f t)).filterMap id).map fun o => (t, o))]
    · rfl
    · intro t ht
      rw [mapM_ok_iff (g := f t)]
      · rfl
      · intro i _; exact hf t (List.mem_range.1 ht) i
  refine ⟨_, by rw [verifyTriangles, h1]; rfl, ?_⟩
  rw [List.isEmpty_iff, List.flatten_eq_nil_iff]
  have h2 : (∀ l ∈ (List.range M.length).map (fun t =>
      ((([0, 1, 2] : List (Fin 3)).map (f t)).filterMap id).map fun o => (t, o)), l = []) ↔ ∀ t < M.length, ∀ i, f t i = none := by
    simp only [List.mem_map, List.mem_range, forall_exists_index, and_imp, forall_apply_eq_imp_iff₂, List.map_eq_nil_iff,
      List.filterMap_eq_nil_iff]
    constructor
    · intro h t ht i
      have := h t ht i (by match i with | 0 => simp | 1 => simp | 2 => simp)
      simpa using this
    · intro h t ht a _
      exact h t ht a
  rw [h2]
  constructor
  · intro h t i x j T X hl hT hX hc
    have ht := (List.getElem?_eq_some_iff.1 hT).1
    obtain ⟨o, k1, k2⟩ := isLegalizeAt_spec m hT i
    have := h t ht i
    rw [hf t ht i] at k1
    cases k1
    exact k2.1 this x j X hl hX hc
  · intro h t ht i
    obtain ⟨o, k1, k2⟩ := isLegalizeAt_spec m (List.getElem?_eq_getElem ht) i
    rw [hf t ht i] at k1
    cases k1
    exact k2.2 fun x j X hl hX hc => h t i x j _ X hl (List.getElem?_eq_getElem ht) hX hc

end

section
variable {D : Type} {n : Num} {fuel : Nat} {poly : Source D} {ops : List (BuildOp D)} {t : Triangles D} {s : St} {g : Trap} [hg : g.Tame]

/-- **C12.**  Called at any callback (also during legalization) or on the final mesh, `verify_triangles` returns, and it returns `true`
exactly if every edge not marked constrained in the triangle across is locally Delaunay. -/
theorem C12_verify_exact (hf : FineInput n (allPoints (piecesOf poly ops)))
    (h : programG g n fuel poly ops = .ok (t, s)) :
    (∀ ev sn, (ev, sn) ∈ s.trace → ∃ b, verifyTriangles t.points sn.tris = .ok b ∧
      (b = true ↔ VerifyClaim (withArtificial n (allPoints (piecesOf poly ops))) sn.tris)) ∧
    ∃ b, verifyTriangles t.points t.triangles = .ok b ∧
      (b = true ↔ VerifyClaim (withArtificial n (allPoints (piecesOf poly ops))) t.triangles) := by
  obtain ⟨c, hc, hi, hp, hh, ht, -, hr, hs⟩ := fine_run hf h
  rw [← hp, hc]
  simp only [VerifyClaim, ptOf_pos]
  exact ⟨fun ev sn hm => verifyTriangles_spec (hr.inv.trace _ hm).mesh, by rw [hs]; exact verifyTriangles_spec hr.inv.mesh⟩

/-- **C12.**  In runs that take neither the defective branch nor the collinear branches, `verify_triangles` is `true` at every
callback between events and on the final mesh. -/
theorem C12_verify_true (hf : FineInput n (allPoints (piecesOf poly ops)))
    (h : programG g n fuel poly ops = .ok (t, s)) (hk : g.col = true := by rfl) :
    (∀ ev sn, (ev, sn) ∈ s.trace → ev.isEvent = true → verifyTriangles t.points sn.tris = .ok true) ∧
    verifyTriangles t.points t.triangles = .ok true := by
  obtain ⟨c, hc, hi, hp, hh, ht, -, hr, hs⟩ := fine_run hf h
  have key : ∀ M, MeshInv c (g.col = true) (fun _ => False) M → verifyTriangles t.points M = .ok true := by
    intro M m
    rw [hc]
    obtain ⟨b, h1, h2⟩ := verifyTriangles_spec m
    rw [h1, h2.2]
    intro t i x j T X hl hT hX hcX
    have := m.delaunay t i x j T X hl hT hX (by rw [m.marks hk t i x j T X hl hT hX]; exact hcX) hcX
    simpa only [ptOf_pos] using this
  exact ⟨fun ev sn hm he => key _ ((hr.inv.trace _ hm).full (isLegal_event he)).1, by rw [hs]; exact key _ hr.inv.mesh⟩

end

end P2T
