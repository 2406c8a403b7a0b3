import Verif.Proofs.PlaneMesh
import Verif.Props.MeshProps

/-!
# C08, C19, C20, C35, C36: the mesh as a set in the plane

The `static` theorems hold for every mesh under a front, however it was made.  The others are about all callbacks
of all runs that do not take the branch at `sweeper.rs:698`.
-/

namespace P2T

/-! ## Static -/

section
variable {all : List Point} {left right : Nat} {M : Store} {nodes : List Node}

/-- In a consistent mesh without inverted triangles whose open edges are the front and the bottom edge no point of
the plane is inside two triangles. -/
theorem static_no_overlap (hc : Consistent all.length M) (ho : Oriented all M) (hb : FrontBounds left right M nodes)
    (hf : FrontChain all left right nodes) (flat : (ptOf all left).x < (ptOf all right).x) {q : Point} {t t' : Nat} {T T' : Tri}
    (hT : M[t]? = some T) (hT' : M[t']? = some T') (h : T.Inside all q) (h' : T'.Inside all q) : t = t' :=
  (planeMesh_of hc ho hb.bounded hf flat).disjoint hT hT' h h'

/-- … and every directed edge belongs to one triangle, also if it is degenerate. -/
theorem static_directed_edges (hc : Consistent all.length M) (ho : Oriented all M) (hb : FrontBounds left right M nodes)
    (hf : FrontChain all left right nodes) (flat : (ptOf all left).x < (ptOf all right).x) {t t' : Nat} {T T' : Tri}
    (hT : M[t]? = some T) (hT' : M[t']? = some T') (h : ShareDirected T T') : t = t' := by
  obtain ⟨P, h1, h2, -⟩ := strictMesh hc ho hb.bounded hf flat
  exact h1.edge_once h2 hT hT' h

end

theorem SameCycle.share {T T' : Tri} (h : SameCycle T T') : ShareDirected T T' := by
  obtain ⟨k, h⟩ := h
  refine ⟨0, k, ?_, ?_⟩
  · have := h 1; rw [show (1 : Fin 3) + k = k + 1 by clear * -; revert k; decide] at this; exact this
  · have := h 2; rw [show (2 : Fin 3) + k = k + 2 by clear * -; revert k; decide] at this; exact this

/-! ## In a run -/

section
variable {D : Type} {n : Num} {fuel : Nat} {poly : Source D} {ops : List (BuildOp D)} {t : Triangles D} {s : St} {g : Trap} [hg : g.Tame]

/-- All points of a run: the input points, the left and the right artificial point. -/
abbrev runPts (n : Num) (poly : Source D) (ops : List (BuildOp D)) : List Point := withArtificial n (allPoints (piecesOf poly ops))
/-- The number of the left artificial point; the right one is the next. -/
abbrev leftId (poly : Source D) (ops : List (BuildOp D)) : Nat := (allPoints (piecesOf poly ops)).length

theorem callback_mesh (hf : FineInput n (allPoints (piecesOf poly ops))) (h : programG g n fuel poly ops = .ok (t, s)) :
    (ptOf (runPts n poly ops) (leftId poly ops)).x < (ptOf (runPts n poly ops) (leftId poly ops + 1)).x ∧
    (ptOf (runPts n poly ops) (leftId poly ops)).y = (ptOf (runPts n poly ops) (leftId poly ops + 1)).y ∧
    ∀ ev sn, (ev, sn) ∈ s.trace → Consistent (runPts n poly ops).length sn.tris ∧ Oriented (runPts n poly ops) sn.tris ∧
      Bounded (leftId poly ops) (leftId poly ops + 1) sn.tris sn.front.nodes ∧
      FrontChain (runPts n poly ops) (leftId poly ops) (leftId poly ops + 1) sn.front.nodes := by
  obtain ⟨c, hc, hi, hp, hh, ht, -, hr, hs⟩ := fine_run hf h
  refine ⟨?_, ?_, ?_⟩
  · obtain ⟨p, hp⟩ := List.exists_mem_of_ne_nil _ hf.nonempty
    have := hf.enclosed p hp
    exact this.1.trans this.2.1
  · obtain ⟨head, tail, xmax, xmin, ymax, ymin, h1, h2, h3, -⟩ := ctx_points n (allPoints (piecesOf poly ops)) []
    have h1' : runPts n poly ops = allPoints (piecesOf poly ops) ++ [head] ++ [tail] := h1
    rw [h1']
    simp only [ptOf, leftId, List.append_assoc, List.getD_eq_getElem?_getD]
    simp [h2, h3]
  · intro ev sn hm
    have k := hr.inv.trace _ hm
    simp only [runPts, leftId]
    rw [← hp, ← ht, ← hh]
    obtain ⟨P, hb⟩ := k.bd
    exact ⟨k.mesh.consistent, k.mesh.oriented, hb.bounded, k.front.chain⟩

/-- **C19.**  At every callback no point of the plane is in the interior of two triangles of the mesh. -/
theorem C19_no_overlap (hf : FineInput n (allPoints (piecesOf poly ops))) (h : programG g n fuel poly ops = .ok (t, s))
    {ev : Ev} {sn : Snap} (hm : (ev, sn) ∈ s.trace) {i j : Nat} {T T' : Tri} (hT : sn.tris[i]? = some T) (hT' : sn.tris[j]? = some T')
    {q : Point} (hq : T.Inside (runPts n poly ops) q) (hq' : T'.Inside (runPts n poly ops) q) : i = j := by
  obtain ⟨k1, k2, k3⟩ := callback_mesh hf h
  obtain ⟨a, b, d, e⟩ := k3 ev sn hm
  exact (planeMesh_of a b d e k1).disjoint hT hT' hq hq'

/-- **C19, reported triangles.**  Two different entries of the result do not overlap. -/
theorem C19_result (hf : FineInput n (allPoints (piecesOf poly ops))) (h : programG g n fuel poly ops = .ok (t, s)) :
    t.result.Pairwise fun i j => ∀ T T', t.triangles[i]? = some T → t.triangles[j]? = some T' → ∀ q,
      ¬ (T.Inside (runPts n poly ops) q ∧ T'.Inside (runPts n poly ops) q) := by
  obtain ⟨sn, hm, e, -⟩ := final_seen h
  have hn : t.result.Nodup := by
    obtain ⟨b, hb, hr⟩ := bind_ok.1 h
    obtain ⟨sn, -, -, -, ⟨-, h, -⟩ | ⟨_, _, -, -, h⟩⟩ := run_final hr
    · rw [h]; exact .nil
    · exact h.nodup
  refine hn.imp ?_
  intro i j hne T T' hT hT' q hq
  rw [← e] at hT hT'
  exact hne (C19_no_overlap hf h hm hT hT' hq.1 hq.2)

/-- **C08, directed edges.**  At every callback every directed edge belongs to at most one triangle (degenerate triangles included):
no two triangles lie on the same side of a common edge. -/
theorem C08_directed_edges (hf : FineInput n (allPoints (piecesOf poly ops))) (h : programG g n fuel poly ops = .ok (t, s))
    {ev : Ev} {sn : Snap} (hm : (ev, sn) ∈ s.trace) {i j : Nat} {T T' : Tri} (hT : sn.tris[i]? = some T) (hT' : sn.tris[j]? = some T')
    (hs : ShareDirected T T') : i = j := by
  obtain ⟨k1, k2, k3⟩ := callback_mesh hf h
  obtain ⟨a, b, d, e⟩ := k3 ev sn hm
  obtain ⟨P, h1, h2, -⟩ := strictMesh a b d e k1
  exact h1.edge_once h2 hT hT' hs

/-- **C08, vertex cycles.**  The reported triangles have pairwise different vertex cycles. -/
theorem C08_distinct_cycles (hf : FineInput n (allPoints (piecesOf poly ops))) (h : programG g n fuel poly ops = .ok (t, s)) :
    t.result.Pairwise fun i j => ∀ T T', t.triangles[i]? = some T → t.triangles[j]? = some T' → ¬ SameCycle T T' := by
  obtain ⟨sn, hm, e, -⟩ := final_seen h
  have hn : t.result.Nodup := by
    obtain ⟨b, hb, hr⟩ := bind_ok.1 h
    obtain ⟨sn, -, -, -, ⟨-, h, -⟩ | ⟨_, _, -, -, h⟩⟩ := run_final hr
    · rw [h]; exact .nil
    · exact h.nodup
  refine hn.imp ?_
  intro i j hne T T' hT hT' hs
  rw [← e] at hT hT'
  exact hne (C08_directed_edges hf h hm hT hT' hs.share)

/-- **C20, coverage.**  At every callback every point below the front and above the bottom line is in a non-degenerate triangle
of the mesh or on its border. -/
theorem C20_covered (hf : FineInput n (allPoints (piecesOf poly ops))) (h : programG g n fuel poly ops = .ok (t, s))
    {ev : Ev} {sn : Snap} (hm : (ev, sn) ∈ s.trace) {q : Point} (hu : UnderFront sn.front.nodes q)
    (hb : AboveBottom (runPts n poly ops) (leftId poly ops) (leftId poly ops + 1) q) :
    ∃ T ∈ sn.tris, 0 < area2 (runPts n poly ops) T ∧ T.InClosed (runPts n poly ops) q := by
  obtain ⟨k1, k2, k3⟩ := callback_mesh hf h
  obtain ⟨a, b, d, e⟩ := k3 ev sn hm
  exact (planeMesh_of a b d e k1).cover ((underFront_iff e).1 hu) (le_of_lt hb)

/-- **C20, nothing else.**  Conversely every interior point of a triangle is below the front and above the bottom line. -/
theorem C20_nothing_else (hf : FineInput n (allPoints (piecesOf poly ops))) (h : programG g n fuel poly ops = .ok (t, s))
    {ev : Ev} {sn : Snap} (hm : (ev, sn) ∈ s.trace) {q : Point} {T : Tri} (hT : T ∈ sn.tris) (hq : T.Inside (runPts n poly ops) q) :
    UnderFront sn.front.nodes q ∧ AboveBottom (runPts n poly ops) (leftId poly ops) (leftId poly ops + 1) q := by
  obtain ⟨k1, k2, k3⟩ := callback_mesh hf h
  obtain ⟨a, b, d, e⟩ := k3 ev sn hm
  exact (planeMesh_of a b d e k1).within e hT hq

/-- **C20, area.**  At every callback the areas of the triangles add up to the area between the horizontal line through the artificial points
and the front. -/
theorem C20_area (hf : FineInput n (allPoints (piecesOf poly ops))) (h : programG g n fuel poly ops = .ok (t, s))
    {ev : Ev} {sn : Snap} (hm : (ev, sn) ∈ s.trace) :
    meshArea2 (runPts n poly ops) sn.tris = areaUnder2 (ptOf (runPts n poly ops) (leftId poly ops)).y sn.front.nodes := by
  obtain ⟨k1, k2, k3⟩ := callback_mesh hf h
  obtain ⟨a, b, d, e⟩ := k3 ev sn hm
  exact (planeMesh_of a b d e k1).area e k2

/-- **C35.**  At every callback no corner of a triangle (degenerate ones included) is in the interior of a triangle. -/
theorem C35_no_corner_inside (hf : FineInput n (allPoints (piecesOf poly ops))) (h : programG g n fuel poly ops = .ok (t, s))
    {ev : Ev} {sn : Snap} (hm : (ev, sn) ∈ s.trace) {T T' : Tri} (hT : T ∈ sn.tris) (hT' : T' ∈ sn.tris) (i : Fin 3) :
    ¬ T.Inside (runPts n poly ops) (ptOf (runPts n poly ops) (T'.points.get i)) := by
  obtain ⟨k1, k2, k3⟩ := callback_mesh hf h
  obtain ⟨a, b, d, e⟩ := k3 ev sn hm
  obtain ⟨P, h1, h2, h3⟩ := strictMesh a b d e k1
  rintro ⟨q1, q2, q3⟩
  have r := a.corners T hT
  have r' := a.corners T' hT' i
  exact h1.no_corner h2 hT hT' i ⟨h3 _ _ _ (r 0) (r 1) r' q1, h3 _ _ _ (r 1) (r 2) r' q2, h3 _ _ _ (r 2) (r 0) r' q3⟩

/-- **C36.**  At every callback no two edges of the mesh cross. -/
theorem C36_planar (hf : FineInput n (allPoints (piecesOf poly ops))) (h : programG g n fuel poly ops = .ok (t, s))
    {ev : Ev} {sn : Snap} (hm : (ev, sn) ∈ s.trace) {u v x y : Nat} (hu : MeshEdge sn.tris u v) (hx : MeshEdge sn.tris x y) :
    ¬ ProperCross (ptOf (runPts n poly ops) u) (ptOf (runPts n poly ops) v) (ptOf (runPts n poly ops) x) (ptOf (runPts n poly ops) y) := by
  obtain ⟨k1, k2, k3⟩ := callback_mesh hf h
  obtain ⟨a, b, d, e⟩ := k3 ev sn hm
  obtain ⟨P, h1, h2, h3⟩ := strictMesh a b d e k1
  have neg : ∀ i j k, i < (runPts n poly ops).length → j < (runPts n poly ops).length → k < (runPts n poly ops).length →
      det2 (ptOf (runPts n poly ops) i) (ptOf (runPts n poly ops) j) (ptOf (runPts n poly ops) k) < 0 → det2 (P i) (P j) (P k) < 0 := by
    intro i j k hi hj hk hd
    have := h3 j i k hj hi hk (by rw [det2_swap]; linarith)
    rw [det2_swap] at this; linarith
  have main : ∀ {T T' : Tri}, T ∈ sn.tris → T' ∈ sn.tris → ∀ i j, ¬ ProperCross (ptOf (runPts n poly ops) (T.from i))
      (ptOf (runPts n poly ops) (T.to i)) (ptOf (runPts n poly ops) (T'.from j)) (ptOf (runPts n poly ops) (T'.to j)) := by
    intro T T' hT hT' i j hcr
    refine h1.no_cross h2 hT hT' i j ?_
    have r := a.corners T hT
    have r' := a.corners T' hT'
    have mul : ∀ i j k l, i < (runPts n poly ops).length → j < (runPts n poly ops).length → k < (runPts n poly ops).length →
        l < (runPts n poly ops).length →
        det2 (ptOf (runPts n poly ops) i) (ptOf (runPts n poly ops) j) (ptOf (runPts n poly ops) k) *
        det2 (ptOf (runPts n poly ops) i) (ptOf (runPts n poly ops) j) (ptOf (runPts n poly ops) l) < 0 →
        det2 (P i) (P j) (P k) * det2 (P i) (P j) (P l) < 0 := by
      intro i j k l hi hj hk hl hd
      rcases mul_neg_iff.1 hd with ⟨q1, q2⟩ | ⟨q1, q2⟩
      · exact mul_neg_of_pos_of_neg (h3 _ _ _ hi hj hk q1) (neg _ _ _ hi hj hl q2)
      · exact mul_neg_of_neg_of_pos (neg _ _ _ hi hj hk q1) (h3 _ _ _ hi hj hl q2)
    exact ⟨mul _ _ _ _ (r _) (r _) (r' _) (r' _) hcr.1, mul _ _ _ _ (r' _) (r' _) (r _) (r _) hcr.2⟩
  have sw1 : ∀ {u v x y : Point}, ProperCross u v x y → ProperCross v u x y := by
    intro u v x y hcr
    unfold ProperCross at *
    rw [det2_swap u v x, det2_swap u v y, neg_mul_neg]
    exact ⟨hcr.1, by rw [mul_comm]; exact hcr.2⟩
  have sw2 : ∀ {u v x y : Point}, ProperCross u v x y → ProperCross u v y x := by
    intro u v x y hcr
    unfold ProperCross at *
    rw [det2_swap x y u, det2_swap x y v, neg_mul_neg]
    exact ⟨by rw [mul_comm]; exact hcr.1, hcr.2⟩
  intro hcr
  obtain ⟨T, hT, i, hi⟩ := hu
  obtain ⟨T', hT', j, hj⟩ := hx
  rcases hi with ⟨rfl, rfl⟩ | ⟨rfl, rfl⟩ <;> rcases hj with ⟨rfl, rfl⟩ | ⟨rfl, rfl⟩
  · exact main hT hT' i j hcr
  · exact main hT hT' i j (sw2 hcr)
  · exact main hT hT' i j (sw1 hcr)
  · exact main hT hT' i j (sw1 (sw2 hcr))

end

/-! ## Concrete cases (`ex_fine`, `ex_run` show that the hypotheses on the run can be met) -/

/-- A point of the example that is under the front when the run is finished, and in a triangle. -/
example : (match programG no698 f64 200 exPoly exOps with
    | .ok (t, s) => s.trace.any fun x => x.1 == .finalized && (x.2.front.nodes.zip x.2.front.nodes.tail).any (fun e =>
        decide (e.1.key.x ≤ 5 ∧ 5 < e.2.key.x ∧ det2 e.1.key e.2.key ⟨5, 6⟩ < 0)) &&
        t.triangles.any (fun T => decide (0 < det2 (ptOf t.points.points T.points.a) (ptOf t.points.points T.points.b) ⟨5, 6⟩ ∧
          0 < det2 (ptOf t.points.points T.points.b) (ptOf t.points.points T.points.c) ⟨5, 6⟩ ∧
          0 < det2 (ptOf t.points.points T.points.c) (ptOf t.points.points T.points.a) ⟨5, 6⟩))
    | .error _ => false) = true := by decide +kernel

end P2T
