import Verif.Proofs.PolyIds
import Verif.Proofs.Fan
import Verif.Proofs.LabelAt
import Verif.Props.Region

/-!
# C37: the reported triangles are the polygon minus the holes
-/

namespace P2T

theorem labelled_of {all : List Point} {left right : Nat} {M : Store} {nodes : List Node} {Ls : List (List Nat)}
    (hc : Consistent all.length M) (ho : Oriented all M) (hb : Bounded left right M nodes)
    (hf : FrontChain all left right nodes) (flat : (ptOf all left).x < (ptOf all right).x) (hd : Disjoint3 Ls) (ha : ∀ L ∈ Ls, Along M L)
    (hm : ∀ T ∈ M, ∀ i, T.isConstrained i = true ↔ (T.from i, T.to i) ∈ allEdges Ls ∨ (T.to i, T.from i) ∈ allEdges Ls) :
    ∃ P F, Labelled P (ptOf all) all.length left right M nodes Ls F ∧ Plane P all.length left right M nodes F ∧ Close P (ptOf all) all.length := by
  obtain ⟨P, h1, h2, h3, h4, h5⟩ := strictMesh' hc ho hb hf flat
  obtain ⟨F, hF⟩ := h1.faces h2 h4
  exact ⟨P, F, ⟨⟨planeMesh_of hc ho hb hf flat, h1, h2, h4, hd, ha, fun L hL => hF L (ha L hL)⟩, hm⟩, ⟨h1, h2, h4, hF⟩, h5, h3⟩

theorem SameMesh.tri {M M' : Store} (h : SameMesh M M') {T : Tri} (hT : T ∈ M) : ∃ T' ∈ M', T'.points = T.points ∧ T'.neighbors = T.neighbors ∧ T'.attrs = T.attrs := by
  obtain ⟨t, ht, rfl⟩ := List.getElem_of_mem hT
  have hl := h.1
  exact ⟨M'[t]'(by omega), by simp, h.2 t M[t] (M'[t]'(by omega)) (by simp) (by simp [List.getElem?_eq_getElem (show t < M'.length by omega)])⟩

theorem SameMesh.symm {M M' : Store} (h : SameMesh M M') : SameMesh M' M :=
  ⟨h.1.symm, fun i T T' hT hT' => by obtain ⟨a, b, c⟩ := h.2 i T' T hT' hT; exact ⟨a.symm, b.symm, c.symm⟩⟩

theorem ConstraintsInPlace.same {E : List (Nat × Nat)} {M M' : Store} (h : ConstraintsInPlace E M) (hs : SameMesh M' M) : ConstraintsInPlace E M' := by
  constructor
  · intro e he
    obtain ⟨T, hT, i, hi⟩ := h.present e he
    obtain ⟨T', hT', e1, -, -⟩ := hs.symm.tri hT
    refine ⟨T', hT', i, ?_⟩
    simpa [Tri.from, Tri.to, e1] using hi
  · intro T hT i
    obtain ⟨T', hT', e1, -, e3⟩ := hs.tri hT
    have := h.marked T' hT' i
    simpa [Tri.from, Tri.to, e1, Tri.isConstrained, e3] using this

section
variable {D : Type} {n : Num} {fuel : Nat} {poly : Source D} {ops : List (BuildOp D)} {t : Triangles D} {s : St} {g : Trap} [hg : g.Tame]

/-- The final mesh with its constraint edges, its front and the search for the interior. -/
theorem final_setup' (hf : FineInput n (allPoints (piecesOf poly ops))) (h : programG g n fuel poly ops = .ok (t, s))
    (hc : ConstraintsInPlace (inputEdges poly ops) t.triangles) (h3 : 3 ≤ poly.points.length) (h3' : ∀ H ∈ holesOf ops, 3 ≤ H.length) :
    ∃ (M : Store) (nodes : List Node) (Ls : List (List Nat)) (P : Nat → Point) (F : List Nat → Nat → Rat) (a b : Node) (l : List Node),
      Labelled P (ptOf (runPts n poly ops)) (runPts n poly ops).length (leftId poly ops) (leftId poly ops + 1) M nodes
        (List.range poly.points.length :: Ls) F ∧
      (List.range poly.points.length).map (ptOf (runPts n poly ops)) = poly.points ∧ Ls.map (·.map (ptOf (runPts n poly ops))) = holesOf ops ∧
      FrontBounds (leftId poly ops) (leftId poly ops + 1) M nodes ∧ nodes = a :: b :: l ∧ a.pid = leftId poly ops ∧
      (b.pid < leftId poly ops ∨ b.pid = leftId poly ops + 1) ∧
      (ptOf (runPts n poly ops) (leftId poly ops)).x < (ptOf (runPts n poly ops) b.pid).x ∧
      (∃ e l', nodes = l' ++ [e] ∧ e.pid = leftId poly ops + 1) ∧
      ((t.result = [] ∧ StartOf M b.pid b.tri none) ∨ ∃ start, StartOf M b.pid b.tri (some start) ∧ FloodInv M start t.triangles t.result []) ∧
      Plane P (runPts n poly ops).length (leftId poly ops) (leftId poly ops + 1) M nodes F ∧ Close P (ptOf (runPts n poly ops)) (runPts n poly ops).length ∧
      polyIds 0 (piecesOf poly ops) = List.range poly.points.length :: Ls ∧ nodes.map (·.pid) = s.front.pids := by
  obtain ⟨k1, -, k3⟩ := callback_mesh hf h
  obtain ⟨k4, k5⟩ := C13_front hf h
  obtain ⟨b, hb, hr⟩ := bind_ok.1 h
  obtain ⟨sn, hfr, hm, -, -, hres⟩ := run_final' hr
  have same : SameMesh sn.tris t.triangles := by
    rcases hres with ⟨e, -⟩ | ⟨_, _, -, -, fl⟩
    · rw [e]; exact .refl _
    · exact fl.same
  obtain ⟨c1, c2, c3, c4⟩ := k3 _ _ hm
  have fb := k5 _ _ hm rfl
  have hc' := hc.same same
  -- the polylines
  obtain ⟨head, tail, xmax, xmin, ymax, ymin, hpts, -⟩ := ctx_points n (allPoints (piecesOf poly ops)) []
  have hpts : runPts n poly ops = [] ++ allPoints (piecesOf poly ops) ++ [head, tail] := by
    show (Ctx.new n (allPoints (piecesOf poly ops)) []).points = _
    rw [hpts]; simp
  have hids := polyIds_pts (runPts n poly ops) [] (piecesOf poly ops) [head, tail] hpts
  rw [polylines_of] at hids
  simp only [List.length_nil] at hids
  have hthree := polyIds_length 0 (piecesOf poly ops) (by rw [polylines_of]; intro ps hps; rcases List.mem_cons.1 hps with rfl | k; exacts [h3, h3' _ k])
  have hnd := polyIds_nodup 0 (piecesOf poly ops)
  have hedges := @pieceEdges_iff 0 (piecesOf poly ops)
  obtain ⟨Ls, hLs⟩ : ∃ Ls, polyIds 0 (piecesOf poly ops) = List.range poly.points.length :: Ls :=
    ⟨_, by rw [piecesOf, polyIds, List.range_eq_range']⟩
  rw [hLs] at hids hthree hnd hedges
  simp only [List.map_cons, List.cons.injEq] at hids
  obtain ⟨P, F, lab, plane, close⟩ := labelled_of c1 c2 c3 c4 k1 ⟨hnd, hthree⟩ (fun L hL x hx => by
    have := (hedges (u := x.1) (v := x.2)).2 (.inl (mem_allEdges.2 ⟨L, hL, hx⟩))
    rcases this with k | k
    · exact hc'.present _ k
    · obtain ⟨T, hT, i, hi⟩ := hc'.present _ k
      exact ⟨T, hT, i, hi.symm⟩) (fun T hT i => by rw [hc'.marked T hT i]; exact hedges)
  -- the front
  obtain ⟨e0, l, hnodes, he0⟩ := c4.first
  obtain ⟨b1, l', hl⟩ : ∃ b1 l', l = b1 :: l' := by
    cases l with
    | nil =>
      obtain ⟨e, l', g1, g2⟩ := c4.last
      rw [hnodes] at g1
      have : e0 = e := by
        have := congrArg List.getLast? g1
        simpa using this
      rw [this, g2] at he0; omega
    | cons b1 l' => exact ⟨b1, l', rfl⟩
  subst hl
  have kn := c4.known b1 (by rw [hnodes]; simp)
  have hlen : (runPts n poly ops).length = leftId poly ops + 2 := by rw [hpts]; simp
  have hb1 : b1.pid < leftId poly ops ∨ b1.pid = leftId poly ops + 1 := by
    have h1 := kn.1
    have h2 : b1.pid ≠ leftId poly ops := by
      intro z
      have nd := c4.nodup
      rw [hnodes] at nd
      simp only [List.map_cons, List.nodup_cons, List.mem_cons, not_or] at nd
      exact nd.1.1 (by rw [he0, z])
    omega
  have hx : (ptOf (runPts n poly ops) (leftId poly ops)).x < (ptOf (runPts n poly ops) b1.pid).x := by
    rcases hb1 with z | z
    · have hmem : ptOf (runPts n poly ops) b1.pid ∈ allPoints (piecesOf poly ops) := by
        unfold ptOf
        rw [hpts]
        simp only [List.nil_append, List.getD_eq_getElem?_getD]
        rw [List.getElem?_append_left z, List.getElem?_eq_getElem z]
        simp
      exact (hf.enclosed _ hmem).1
    · rw [z]; exact k1
  have hnode : ∀ node, sn.front.nth 1 = some node → node.pid = b1.pid ∧ node.tri = b1.tri := by
    intro node hn
    simp only [Front.nth, hnodes, List.getElem?_cons_succ, List.getElem?_cons_zero, Option.map_some, Option.some.injEq] at hn
    rw [← hn]; exact ⟨rfl, rfl⟩
  refine ⟨_, _, Ls, P, F, e0, b1, l', lab, hids.1, hids.2, fb, hnodes, he0, hb1, hx, c4.last, ?_, plane, close, hLs, by rw [← hfr]; rfl⟩
  rcases hres with ⟨-, h2, h4 | ⟨node, hn, hst⟩⟩ | ⟨node, start, hn, hst, fl⟩
  · simp [Front.nth, hnodes] at h4
  · rw [(hnode node hn).1, (hnode node hn).2] at hst
    exact .inl ⟨h2, hst⟩
  · rw [(hnode node hn).1, (hnode node hn).2] at hst
    exact .inr ⟨start, hst, fl⟩

theorem final_setup (hf : FineInput n (allPoints (piecesOf poly ops))) (h : programG g n fuel poly ops = .ok (t, s))
    (hc : ConstraintsInPlace (inputEdges poly ops) t.triangles) (h3 : 3 ≤ poly.points.length) (h3' : ∀ H ∈ holesOf ops, 3 ≤ H.length) :
    ∃ (M : Store) (nodes : List Node) (Ls : List (List Nat)) (P : Nat → Point) (F : List Nat → Nat → Rat) (a b : Node) (l : List Node),
      Labelled P (ptOf (runPts n poly ops)) (runPts n poly ops).length (leftId poly ops) (leftId poly ops + 1) M nodes
        (List.range poly.points.length :: Ls) F ∧
      (List.range poly.points.length).map (ptOf (runPts n poly ops)) = poly.points ∧ Ls.map (·.map (ptOf (runPts n poly ops))) = holesOf ops ∧
      FrontBounds (leftId poly ops) (leftId poly ops + 1) M nodes ∧ nodes = a :: b :: l ∧ a.pid = leftId poly ops ∧
      (b.pid < leftId poly ops ∨ b.pid = leftId poly ops + 1) ∧
      (ptOf (runPts n poly ops) (leftId poly ops)).x < (ptOf (runPts n poly ops) b.pid).x ∧
      (∃ e l', nodes = l' ++ [e] ∧ e.pid = leftId poly ops + 1) ∧
      ((t.result = [] ∧ StartOf M b.pid b.tri none) ∨ ∃ start, StartOf M b.pid b.tri (some start) ∧ FloodInv M start t.triangles t.result []) ∧
      Plane P (runPts n poly ops).length (leftId poly ops) (leftId poly ops + 1) M nodes F ∧ Close P (ptOf (runPts n poly ops)) (runPts n poly ops).length ∧
      polyIds 0 (piecesOf poly ops) = List.range poly.points.length :: Ls := by
  obtain ⟨M, nodes, Ls, P, F, a, b, l, h1, h2, h3, h4, h5, h6, h7, h8, h9, h10, h11, h12, h13, -⟩ := final_setup' hf h hc h3 h3'
  exact ⟨M, nodes, Ls, P, F, a, b, l, h1, h2, h3, h4, h5, h6, h7, h8, h9, h10, h11, h12, h13⟩

/-- **C37.**  If the polygon and the holes have three or more corners, all corners of the holes are strictly inside the polygon, the input edges
are edges of the final mesh, marked and nothing else marked, and something is reported, then the reported triangles are exactly the polygon minus
the holes: every interior point of a reported triangle is inside the polygon and outside all holes, and every point inside the polygon
and outside all holes is in a non-degenerate reported triangle or on its border. -/
theorem C37_region (hf : FineInput n (allPoints (piecesOf poly ops))) (h : programG g n fuel poly ops = .ok (t, s))
    (hc : ConstraintsInPlace (inputEdges poly ops) t.triangles) (h3 : 3 ≤ poly.points.length) (h3' : ∀ H ∈ holesOf ops, 3 ≤ H.length)
    (hin : ∀ H ∈ holesOf ops, ∀ p ∈ H, StrictlyInside poly.points p) (hne : t.result ≠ []) (q : Point) :
    (∀ i ∈ t.result, ∀ T, t.triangles[i]? = some T → T.Inside (runPts n poly ops) q → InRegion poly ops q) ∧
    (InRegion poly ops q → ∃ i ∈ t.result, ∃ T, t.triangles[i]? = some T ∧ 0 < area2 (runPts n poly ops) T ∧ T.InClosed (runPts n poly ops) q) := by
  obtain ⟨M, nodes, Ls, P, F, a, b, l, lab, hids1, hids2, fb, hnodes, he0, hb1, hx, last, hst, -⟩ := final_setup hf h hc h3 h3'
  rcases hst with ⟨h2, -⟩ | ⟨start, hst, fl⟩
  · exact absurd h2 hne
  obtain ⟨S, i, hS, he, hF, hz⟩ := lab.start_inner fb hnodes he0 hx last (fun L hL v hv => by
    rw [hids1]
    refine hin (L.map (ptOf (runPts n poly ops))) ?_ _ (List.mem_map.2 ⟨v, hv, rfl⟩)
    rw [← hids2]
    exact List.mem_map.2 ⟨L, hL, rfl⟩) hst
  have hreg := lab.region hS he hF hz q
  rw [hids1] at hreg
  have hholes : (∀ L ∈ Ls, ¬ InsidePolyline (L.map (ptOf (runPts n poly ops))) q) ↔ ∀ H ∈ holesOf ops, ¬ InsidePolyline H q := by
    rw [← hids2]; simp
  rw [hholes] at hreg
  have sm : ∀ {i : Nat} {T : Tri}, M[i]? = some T → ∃ T' : Tri, t.triangles[i]? = some T' ∧ T'.points = T.points := by
    intro i T hT
    have hl := (List.getElem?_eq_some_iff.1 hT).1
    have hl' : i < t.triangles.length := by rw [fl.same.1]; exact hl
    exact ⟨t.triangles[i], List.getElem?_eq_getElem hl', (fl.same.2 i T _ hT (List.getElem?_eq_getElem hl')).1⟩
  constructor
  · intro i hi T hT hq
    have hl' : i < M.length := by rw [← fl.same.1]; exact (List.getElem?_eq_some_iff.1 hT).1
    have hT0 : M[i]? = some M[i] := List.getElem?_eq_getElem hl'
    have e := (fl.same.2 i _ T hT0 hT).1
    exact hreg.1 i M[i] ((fl.iff i).1 hi) hT0 (by rw [← e]; exact hq)
  · intro hq
    obtain ⟨i, T, r1, r2, r3, r4⟩ := hreg.2 hq.1 hq.2
    obtain ⟨T', hT', e⟩ := sm r2
    exact ⟨i, (fl.iff i).2 r1, T', hT', by unfold area2; rw [e]; exact r3, by unfold Tri.InClosed; rw [e]; exact r4⟩

theorem holes_extra {H : List Point} (h : H ∈ holesOf ops) : ∀ p ∈ H, p ∈ extraPoints ops := by
  intro p hp
  unfold holesOf at h
  obtain ⟨o, ho, hH⟩ := List.mem_flatMap.1 h
  unfold extraPoints allPoints
  rw [List.mem_flatMap]
  cases o with
  | steinerPoint _ _ => simp [BuildOp.holePts] at hH
  | steinerPoints _ => simp [BuildOp.holePts] at hH
  | hole s =>
    simp only [BuildOp.holePts, List.mem_singleton] at hH
    exact ⟨.polyline s.points, List.mem_flatMap.2 ⟨_, ho, by simp [BuildOp.pieces]⟩, by rw [← hH]; exact hp⟩
  | holes ss =>
    simp only [BuildOp.holePts, List.mem_map] at hH
    obtain ⟨s, hs, rfl⟩ := hH
    exact ⟨.polyline s.points, List.mem_flatMap.2 ⟨_, ho, by simp only [BuildOp.pieces, List.mem_map]; exact ⟨s, hs, rfl⟩⟩, hp⟩

/-- **C42.**  If the input edges are in place and all hole corners and Steiner points are strictly inside the polygon, the result is not empty. -/
theorem C42_nonempty (hf : FineInput n (allPoints (piecesOf poly ops))) (h : programG g n fuel poly ops = .ok (t, s))
    (hc : ConstraintsInPlace (inputEdges poly ops) t.triangles) (h3 : 3 ≤ poly.points.length) (h3' : ∀ H ∈ holesOf ops, 3 ≤ H.length)
    (hin : ∀ p ∈ extraPoints ops, StrictlyInside poly.points p) : t.result ≠ [] := by
  intro hres
  obtain ⟨M, nodes, Ls, P, F, a, b, l, lab, hids1, hids2, fb, hnodes, he0, hb1, hx, last, hst, -⟩ := final_setup hf h hc h3 h3'
  have hpl : poly.points.length ≤ leftId poly ops := by
    simp [leftId, allPoints, piecesOf, Piece.pts]
  -- the second node of the front is a corner of the polygon
  have bmem : b.pid < poly.points.length := by
    by_contra hn
    rcases hb1 with z | z
    · have hmem : ptOf (runPts n poly ops) b.pid ∈ extraPoints ops := by
        obtain ⟨head, tail, xmax, xmin, ymax, ymin, hpts, -⟩ := ctx_points n (allPoints (piecesOf poly ops)) []
        have e1 : runPts n poly ops = poly.points ++ (extraPoints ops ++ [head, tail]) := by
          show (Ctx.new n (allPoints (piecesOf poly ops)) []).points = _
          rw [hpts]; simp [extraPoints, allPoints, piecesOf, Piece.pts]
        have e2 : leftId poly ops = poly.points.length + (extraPoints ops).length := by
          simp [leftId, extraPoints, allPoints, piecesOf, Piece.pts]
        unfold ptOf
        rw [e1, List.getD_eq_getElem?_getD, List.getElem?_append_right (by omega), List.getElem?_append_left (by omega),
          List.getElem?_eq_getElem (by omega)]
        simp
      obtain ⟨i1, i2⟩ := hin _ hmem
      have out := lab.front_outside hnodes (by rw [he0]; exact hx) (L := List.range poly.points.length) (by simp) (fun x hx => by
        refine i2 (ptOf (runPts n poly ops) x.1, ptOf (runPts n poly ops) x.2) ?_
        rw [← hids1, cyclic_map]
        exact List.mem_map.2 ⟨x, hx, rfl⟩)
      refine zero_outside out ?_
      rw [hids1]; exact i1
    · obtain ⟨t, T, i, -, hT, -, e1, e2⟩ := fb.below a b ⟨[], l, hnodes⟩
      have hl := (List.getElem?_eq_some_iff.1 hT)
      have lt := hl.1
      exact (lab.mesh.no_bottom_back lab.strict (⟨t, hl.1⟩, i) (by show M[t].from i = _; rw [hl.2, e1, z]) (by
        show M[t].to i = _; rw [hl.2, e2, he0])).elim
  rcases hst with ⟨-, hst⟩ | ⟨start, hst, fl⟩
  · exact lab.start_some fb hnodes (by rw [he0, List.mem_range]; omega) (by omega) (by omega) last (List.mem_range.2 bmem) hst
  · have := (fl.iff start).2 .refl
    rw [hres] at this; cases this

end

/-! ## An example -/

instance (M : Store) (u v : Nat) : Decidable (MeshEdge M u v) := by unfold MeshEdge; infer_instance

instance (E : List (Nat × Nat)) (M : Store) : Decidable (ConstraintsInPlace E M) :=
  decidable_of_iff ((∀ e ∈ E, MeshEdge M e.1 e.2) ∧
    ∀ T ∈ M, ∀ i : Fin 3, T.isConstrained i = true ↔ (T.from i, T.to i) ∈ E ∨ (T.to i, T.from i) ∈ E)
    ⟨fun h => ⟨h.1, h.2⟩, fun h => ⟨h.1, h.2⟩⟩

theorem strictlyInside_of {ps : List Point} {q : Point} (h1 : InsidePolyline ps q) (h2 : ∀ x ∈ cyclicPairs ps, det2 x.1 x.2 q ≠ 0) :
    StrictlyInside ps q := ⟨h1, fun x hx hon => h2 x hx (det2_on hon)⟩

/-- The example input and its run meet the hypotheses of `C37_region`. -/
example : (∃ t s, programG no698 f64 200 exPoly exOps = .ok (t, s) ∧ ConstraintsInPlace (inputEdges exPoly exOps) t.triangles ∧ t.result ≠ []) ∧
    3 ≤ exPoly.points.length ∧ (∀ H ∈ holesOf exOps, 3 ≤ H.length) ∧
    ∀ H ∈ holesOf exOps, ∀ p ∈ H, StrictlyInside exPoly.points p := by
  refine ⟨?_, by decide, by decide, fun H hH p hp => ?_⟩
  · have : (match programG no698 f64 200 exPoly exOps with
      | .ok (t, _) => decide (ConstraintsInPlace (inputEdges exPoly exOps) t.triangles ∧ t.result ≠ [])
      | .error _ => false) = true := by decide +kernel
    split at this
    · rename_i t s e
      exact ⟨t, s, e, by simpa using this⟩
    · cases this
  · have : ∀ H ∈ holesOf exOps, ∀ p ∈ H, InsidePolyline exPoly.points p ∧ ∀ x ∈ cyclicPairs exPoly.points, det2 x.1 x.2 p ≠ 0 := by decide +kernel
    exact strictlyInside_of (this H hH p hp).1 (this H hH p hp).2

/-- A point of the hole is not in the region, one beside it is. -/
example : ¬ InRegion exPoly exOps ⟨5, 5⟩ ∧ InRegion exPoly exOps ⟨2, 5⟩ := by
  constructor
  · rintro ⟨-, h⟩
    exact h [⟨3, 3⟩, ⟨6, 4⟩, ⟨5, 7⟩] (by decide) (by decide +kernel)
  · refine ⟨by decide +kernel, ?_⟩
    have : ∀ H ∈ holesOf exOps, ¬ InsidePolyline H ⟨2, 5⟩ := by decide +kernel
    exact this

end P2T
