import Verif.Proofs.EdgeFlip

/-!
# Edge events
-/

set_option linter.unusedSectionVars false

namespace P2T

variable {c : Ctx} {K : Prop}

theorem FOk.pGetCache {f : Front} (h : FOk c f) {L R : List Nat} {p : Nat} (hs : f.pids = L ++ p :: R) :
    ∃ f' r, f.getNodeWithCache (c.pos p) = .ok (f', some r) ∧ f'.nodes = f.nodes ∧ FOk c f' ∧ RefFor c f' r L p R := by
  obtain ⟨L', e, R', e1, e2, e3, e4⟩ := h.nodes_split hs
  have hg := h.getNodeWithCache e1
  rw [h.key e1, e3] at hg
  have hf : FOk c { f with cache := some (c.pos p, L'.length) } := by
    refine ⟨h.keys, h.asc, ?_, h.first, h.last⟩
    rintro p' i ⟨⟩
    refine ⟨e, ?_, by rw [h.key e1, e3]⟩
    show f.nodes[L'.length]? = some e
    rw [e1]; simp
  refine ⟨_, _, hg, rfl, hf, ?_⟩
  refine ⟨hs, e3, ?_, ?_, ⟨L', e, R', e1, e2, e3, e4, rfl⟩⟩
  · show e.key = _
    rw [h.key e1, e3]
  · simp [Node.toRef, ← e2]

/-- After an edge event. -/
structure EvPost (c : Ctx) (K : Prop) (s s' : St) : Prop where
  inv : SInv c K (fun _ => False) NoP s'
  len : s.tris.length ≤ s'.tris.length
  grow : Grow s.tris s'.tris
  step : StepLog c s.trace → HeadEq s → StepLog c s'.trace

theorem edgeEvent_spec (gd : Good c) {g : Trap} (hg : g.Tame) (hK : K → g.col = true) {fuel : Nat} {s : St}
    (h : SInv c K (fun _ => False) NoP s) {p q : Nat} (hp : p < c.points.length) (hq : q ∈ s.front.pids) (hqt : q ≠ c.tail) :
    Spec (edgeEvent g c fuel s ⟨p, q⟩ (c.pos q)) EErr fun s' =>
      EvPost c K s s' ∧ q ∈ s'.front.pids ∧ (g.col = true → ConEdge s'.tris p q) := by
  -- reading the node of `q`
  have rd : ∀ {s : St}, SInv c K (fun _ => False) NoP s → q ∈ s.front.pids → ∃ f' r t, s.front.getNodeWithCache (c.pos q) = .ok (f', some r) ∧
      IdFor c r.id q ∧ r.tri = some t ∧ t < s.tris.length ∧ SInv c K (fun _ => False) NoP { s with front := f' } ∧ f'.nodes = s.front.nodes := by
    intro s h hq
    obtain ⟨L, R, hs⟩ := List.append_of_mem hq
    obtain ⟨f', r, k1, k2, k3, k4⟩ := h.front.pGetCache hs
    have hb : BInv c NoP s.tris f'.nodes := by rw [k2]; exact h.bd
    cases R with
    | nil =>
      obtain ⟨l, hl⟩ := h.front.tailP
      rw [hs] at hl
      have := List.append_inj' hl rfl
      simp only [List.cons.injEq, and_true] at this
      exact (hqt this.2).elim
    | cons x R =>
      obtain ⟨t, k5, w, e, k6⟩ := k4.tri hb
      exact ⟨f', r, t, k1, k4.id, k5, k6.lt, ⟨h.mesh, hb, k3, h.trace, h.one⟩, k2⟩
  have hqL := h.front.pids_lt hq
  unfold edgeEvent
  simp only [Ctx.pt_ok hp, ok_bind]
  obtain ⟨f1, r1, t1, a1, a2, a3, a4, a5, a6⟩ := rd h hq
  simp only [a1, ok_bind, unwrap_some, a3]
  rcases tryMarkEdge_spec a5.mesh a4 p q with k | ⟨ts', k, k1, k2, k3⟩
  swap
  · simp only [k, ok_bind, if_true]
    obtain ⟨i1, i2⟩ := a5.reflag k1 k2
    refine Spec.ok ⟨⟨i1, ?_, ?_, fun h _ => h⟩, ?_, fun _ => k3⟩
    · exact le_of_eq i2.len.symm
    · exact i2.grow
    · show q ∈ f1.pids
      unfold Front.pids; rw [a6]; exact hq
  · simp only [k, ok_bind]
    rw [if_neg (by simp)]
    have hq1 : q ∈ f1.pids := by unfold Front.pids; rw [a6]; exact hq
    refine Spec.bind ((fillEdgeEvent_spec hg (s := { s with front := f1 }) a5 hq1 a2).monoE fun _ => FErr.toE) ?_
    rintro s2 ⟨b1, b2, b3⟩
    obtain ⟨f2, r2, t2, c1, c2, c3, c4, c5, c6⟩ := rd b1 b3
    simp only [c1, ok_bind, unwrap_some, c3]
    have e0 : EPost c K { s2 with front := f2 } ({ s2 with front := f2 }, []) :=
      ⟨c5.mono (by simp) (fun _ => id), by simp, .refl _⟩
    refine Spec.bind ((edge_specs gd hK fuel).1 e0 hp hqL (by rintro x ⟨⟩; exact c4)) ?_
    rintro ⟨s3, lq⟩ ⟨d1, d2⟩
    refine (legalizeAll_spec (Q0 := fun _ => False) lq (d1.inv.mono (by simp) (fun _ => id)) d1.lt).fuelE.mono ?_
    rintro s4 ⟨⟨x1, x2, x3, x4⟩, x5⟩
    refine ⟨⟨x1, ?_, ?_, ?_⟩, ?_, ?_⟩
    · rw [x4, d1.same.len]; exact b2.len
    · exact b2.grow.trans (d1.same.grow.trans x2.grow)
    · intro st hd
      obtain ⟨st2, hd2⟩ := b2.steps st hd
      refine x5 (by rw [d1.same.trace]; exact st2) ?_
      intro x l e
      rw [d1.same.trace] at e
      rw [hd2 x l e, d1.same.len]
    · rw [Front.pids_shape x3, Front.pids_shape d1.same.shape]
      show q ∈ f2.pids
      unfold Front.pids; rw [c6]; exact b3
    · intro hc
      rcases d2 hc rfl rfl with k | k
      · exact .inl (x2.keep _ _ k)
      · exact .inr (x2.keep _ _ k)

end P2T
