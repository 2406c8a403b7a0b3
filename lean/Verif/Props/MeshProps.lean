import Verif.Proofs.MeshSpec
import Verif.Props.Result

/-!
# C06, C10, C11, C12, C13, C17, C18, C30: what observers see

Every theorem is about a run that does not take the branch at `sweeper.rs:698` (the defect of C33), or about
any run of the program in which that line is repaired: a success of `programG g` with `g.Tame`.  For the traps
`no698` and `noCol`, which repair nothing, such a run is the run of the code by `programG_program`.
-/

namespace P2T

/-- No trap but the defective branch `sweeper.rs:698`. -/
abbrev no698 : Trap := ⟨true, false, false⟩
/-- Neither the defective branch nor the two collinear branches of the edge insertion. -/
abbrev noCol : Trap := ⟨true, true, false⟩

section
variable {D : Type} {n : Num} {fuel : Nat} {poly : Source D} {ops : List (BuildOp D)} {t : Triangles D} {s : St} {g : Trap} [hg : g.Tame]

/-- The run invariant, in one piece. -/
theorem fine_run (hf : FineInput n (allPoints (piecesOf poly ops)))
    (h : programG g n fuel poly ops = .ok (t, s)) :
    ∃ c : Ctx, t.points = c ∧ Input c ∧ c.points = withArtificial n (allPoints (piecesOf poly ops)) ∧
      c.head = (allPoints (piecesOf poly ops)).length ∧ c.tail = (allPoints (piecesOf poly ops)).length + 1 ∧ c.num = n ∧
      RunPost c (g.col = true) g s ∧ t.triangles = s.tris := by
  obtain ⟨b, hb, hr, hi, hp, hE⟩ := programG_run hf h
  have := runG_spec (K := g.col = true) (b.build n) hi hg id fuel
  rw [hr] at this
  obtain ⟨h1, -, h2⟩ := this
  obtain ⟨k1, k2⟩ := c_new_nodup_head (n := n) (pts := b.pb.points) (es := b.pb.edges) (by rw [hp]; exact hf.size)
  refine ⟨(b.build n).points, ?_, hi, ?_, ?_, ?_, rfl, h1, h2⟩
  · obtain ⟨_, _, _, _, _, _, _, _, _, e⟩ := runG_ok hr; rw [e]
  · show (Ctx.new n b.pb.points b.pb.edges).points = _
    rw [hp]; rfl
  · rw [← hp]; exact k1
  · rw [← hp]; exact k2

/-- **C10.**  At every callback (also during legalization) the mesh an observer can inspect has consistent
adjacency: ids in range, neighbour links symmetric, linked triangles share the edge with opposite
directions; and so has the final mesh. -/
theorem C10_adjacency_consistent (hf : FineInput n (allPoints (piecesOf poly ops)))
    (h : programG g n fuel poly ops = .ok (t, s)) :
    (∀ ev sn, (ev, sn) ∈ s.trace → Consistent ((allPoints (piecesOf poly ops)).length + 2) sn.tris) ∧
    Consistent ((allPoints (piecesOf poly ops)).length + 2) t.triangles := by
  obtain ⟨c, hc, hi, hp, hh, ht, -, hr, hs⟩ := fine_run hf h
  have hl : c.points.length = (allPoints (piecesOf poly ops)).length + 2 := by
    have := hi.two; have := hi.head; rw [hh] at this; omega
  rw [← hl]
  exact ⟨fun ev sn hm => (hr.inv.trace _ hm).mesh.consistent, by rw [hs]; exact hr.inv.mesh.consistent⟩

/-- **C11.**  At every callback, and in the final mesh, no triangle is inverted: its corners are in
counter-clockwise order, or they lie on one line and are listed from left to right. -/
theorem C11_no_inverted (hf : FineInput n (allPoints (piecesOf poly ops)))
    (h : programG g n fuel poly ops = .ok (t, s)) :
    (∀ ev sn, (ev, sn) ∈ s.trace → Oriented (withArtificial n (allPoints (piecesOf poly ops))) sn.tris) ∧
    Oriented (withArtificial n (allPoints (piecesOf poly ops))) t.triangles := by
  obtain ⟨c, hc, hi, hp, hh, ht, -, hr, hs⟩ := fine_run hf h
  rw [← hp]
  exact ⟨fun ev sn hm => (hr.inv.trace _ hm).mesh.oriented, by rw [hs]; exact hr.inv.mesh.oriented⟩

theorem isLegal_event {ev : Ev} (h : ev.isEvent = true) : ev.isLegal = false := by
  cases ev <;> simp_all [Ev.isEvent, Ev.isLegal]

/-- **C12.**  At every callback between events (before and after every point event, after every edge event, at
`sweep_done` and at `finalized`) and in the final mesh, every edge between two triangles that is not marked
constrained is locally Delaunay. -/
theorem C12_locally_delaunay (hf : FineInput n (allPoints (piecesOf poly ops)))
    (h : programG g n fuel poly ops = .ok (t, s)) :
    (∀ ev sn, (ev, sn) ∈ s.trace → ev.isEvent = true →
      LocallyDelaunay (withArtificial n (allPoints (piecesOf poly ops))) sn.tris) ∧
    LocallyDelaunay (withArtificial n (allPoints (piecesOf poly ops))) t.triangles := by
  obtain ⟨c, hc, hi, hp, hh, ht, -, hr, hs⟩ := fine_run hf h
  rw [← hp]
  refine ⟨fun ev sn hm he => ?_, by rw [hs]; exact hr.inv.mesh.delaunay⟩
  exact ((hr.inv.trace _ hm).full (isLegal_event he)).1.delaunay

/-- **C13.**  At every callback the front runs from the left to the right artificial point with strictly
increasing `(x, y)`; at every callback between events the open edges of the mesh are exactly the front edges
and the bottom edge, and every front node records the triangle below the front edge to its right. -/
theorem C13_front (hf : FineInput n (allPoints (piecesOf poly ops)))
    (h : programG g n fuel poly ops = .ok (t, s)) :
    (∀ ev sn, (ev, sn) ∈ s.trace → FrontChain (withArtificial n (allPoints (piecesOf poly ops)))
      (allPoints (piecesOf poly ops)).length ((allPoints (piecesOf poly ops)).length + 1) sn.front.nodes) ∧
    (∀ ev sn, (ev, sn) ∈ s.trace → ev.isEvent = true → FrontBounds
      (allPoints (piecesOf poly ops)).length ((allPoints (piecesOf poly ops)).length + 1) sn.tris sn.front.nodes) := by
  obtain ⟨c, hc, hi, hp, hh, ht, -, hr, hs⟩ := fine_run hf h
  rw [← hp, ← ht, ← hh]
  exact ⟨fun ev sn hm => (hr.inv.trace _ hm).front.chain,
    fun ev sn hm he => ((hr.inv.trace _ hm).full (isLegal_event he)).2.bounds⟩

/-- Every triangle of the mesh that can be read from the trace was seen by an observer: the final mesh is the one at
`finalized`. -/
theorem final_seen {g : Trap} (h : programG g n fuel poly ops = .ok (t, s)) :
    ∃ sn, (Ev.finalized, sn) ∈ s.trace ∧ sn.tris = t.triangles ∧ sn.result = t.result := by
  obtain ⟨b, hb, hr⟩ := bind_ok.1 h
  obtain ⟨s0, s1, s2, items, k0, k1, k2, k3, rfl, rfl⟩ := runG_ok hr
  exact ⟨s2.snap, by simp [St.emit], rfl, rfl⟩

/-- **C06.**  The three indices of every reported triangle are pairwise different. -/
theorem C06_indices_different (hf : FineInput n (allPoints (piecesOf poly ops)))
    (h : programG g n fuel poly ops = .ok (t, s)) :
    ∀ id ∈ t.result, ∃ T, t.triangles[id]? = some T ∧ T.points.a ≠ T.points.b ∧ T.points.b ≠ T.points.c ∧ T.points.a ≠ T.points.c := by
  intro id hid
  obtain ⟨b, hb, hr⟩ := bind_ok.1 h
  obtain ⟨hv, -⟩ := result_valid hr
  have hlt := hv id hid
  refine ⟨_, List.getElem?_eq_getElem hlt, ?_⟩
  have := (C10_adjacency_consistent hf h).2.different _ (List.getElem_mem hlt)
  exact ⟨this 0 1 (by decide), this 1 2 (by decide), this 0 2 (by decide)⟩

/-- **C30.**  After a successful run every input point is a corner of a triangle of the final mesh, and every corner
is an input point or an artificial point. -/
theorem C30_all_points_used (hf : FineInput n (allPoints (piecesOf poly ops)))
    (h : programG g n fuel poly ops = .ok (t, s)) :
    (∀ v, v < (allPoints (piecesOf poly ops)).length → ∃ T ∈ t.triangles, ∃ i, T.points.get i = v) ∧
    (∀ T ∈ t.triangles, ∀ i, T.points.get i < (allPoints (piecesOf poly ops)).length + 2) := by
  refine ⟨?_, (C10_adjacency_consistent hf h).2.corners⟩
  obtain ⟨c, hc, hi, hp, hh, ht, -, hr, hs⟩ := fine_run hf h
  intro v hv
  have hm : v ∈ c.ySorted := by
    refine hi.perm.symm.subset ?_
    rw [List.mem_range]
    have := hi.head; rw [hh] at this; omega
  obtain ⟨t', u, w, k, e, hsl⟩ := hr.has v hm
  obtain ⟨T, i, k1, k2, -⟩ := hsl.at
  rw [hs]
  exact ⟨T, List.mem_of_getElem? k1, i, k2⟩

/-- **C17.**  Take two consecutive callbacks `x`, `y`.  Unless edge insertion made its flips in between, every
edge that at `x` all its triangles mark as constrained is still there at `y`, with all its marks: no point event, fill (also those
of edge events) or legalization step removes it. -/
theorem C17_constraints_survive (hf : FineInput n (allPoints (piecesOf poly ops)))
    (h : programG g n fuel poly ops = .ok (t, s)) {x y : Ev × Snap}
    (ht : Consecutive s.trace.reverse x y) (hq : ¬ AfterEdgeFlips x y) {u v : Nat} (hc : ConstrainedEdge x.2.tris u v) :
    ConstrainedEdge y.2.tris u v := by
  obtain ⟨c, -, -, -, -, -, -, hr, -⟩ := fine_run hf h
  obtain ⟨L, R, ht⟩ := ht
  have e : s.trace = R.reverse ++ y :: x :: L.reverse := by
    have := congrArg List.reverse ht
    rw [List.reverse_reverse] at this
    rw [this]; simp
  refine (hr.step _ _ _ _ e ⟨fun p q k => hq (.inl ⟨p, q, k⟩), fun t k => ?_⟩).1.edges hc
  by_contra hlt
  exact hq (.inr ⟨t, k, by omega⟩)

/-- **C17.**  Take the callbacks in call order.  Between `enter_point_event(p)` and the next event callback
`exit_point_event(p)` (only legalization callbacks in between: the point event with its fills), no edge that
all its triangles mark as constrained gets lost or loses a mark. -/
theorem C17_point_event (hf : FineInput n (allPoints (piecesOf poly ops)))
    (h : programG g n fuel poly ops = .ok (t, s)) {before middle after : List (Ev × Snap)} {p : Nat} {sn sn' : Snap}
    (ht : s.trace.reverse = before ++ (.enterPoint p, sn) :: middle ++ (.exitPoint p, sn') :: after)
    (hm : ∀ x ∈ middle, x.1.isEvent = false) {u v : Nat} (hc : ConstrainedEdge sn.tris u v) :
    ConstrainedEdge sn'.tris u v := by
  obtain ⟨c, -, -, -, -, -, -, hr, -⟩ := fine_run hf h
  have e : s.trace = after.reverse ++ (.exitPoint p, sn') :: middle.reverse ++ (.enterPoint p, sn) :: before.reverse := by
    have := congrArg List.reverse ht
    rw [List.reverse_reverse] at this
    rw [this]; simp
  refine (hr.log.point _ _ _ _ _ _ e ?_).edges hc
  intro x hx
  have := hm x (List.mem_reverse.1 hx)
  revert this
  cases x.1 <;> simp [Ev.isEvent, Ev.isLegal]

/-- **C18.**  In a run that takes neither the defective branch nor the collinear branches, whenever
`edge_event(p, q)` is called the mesh contains the edge `p q` and it is marked constrained on all its sides. -/
theorem C18_edge_inserted (hf : FineInput n (allPoints (piecesOf poly ops)))
    (h : programG g n fuel poly ops = .ok (t, s)) {p q : Nat} {sn : Snap} (hm : (.edge p q, sn) ∈ s.trace) (hk : g.col = true := by rfl) :
    ConstrainedEdge sn.tris p q := by
  obtain ⟨c, -, -, -, -, -, -, hr, -⟩ := fine_run hf h
  exact conEdge_edge (hr.log.edge p q sn hm hk)

/-- In such runs the constraint marks are symmetric at every callback. -/
theorem C12_symmetric_marks (hf : FineInput n (allPoints (piecesOf poly ops)))
    (h : programG g n fuel poly ops = .ok (t, s)) (hk : g.col = true := by rfl) :
    (∀ ev sn, (ev, sn) ∈ s.trace → SymmetricMarks sn.tris) ∧ SymmetricMarks t.triangles := by
  obtain ⟨c, hc, hi, hp, hh, ht, -, hr, hs⟩ := fine_run hf h
  exact ⟨fun ev sn hm => (hr.inv.trace _ hm).mesh.marks hk, by rw [hs]; exact hr.inv.mesh.marks hk⟩

end

/-! ## A concrete run -/

/-- The example input (a quadrilateral with a triangular hole and two Steiner points) is fine in double
precision … -/
theorem ex_fine : FineInput f64 (allPoints (piecesOf exPoly exOps)) := by decide +kernel

/-- … and its run takes none of the trapped branches, makes edge events and reports triangles. -/
theorem ex_run : (match programG noCol f64 200 exPoly exOps with
    | .ok (t, s) => decide (t.result.length = 11) && (s.trace.any fun x => x.1 == .edge 0 1)
    | .error _ => false) = true := by decide +kernel

end P2T
