import Verif.Props.Crossing

/-!
# C63: a closed polyline that no edge crosses is respected
-/

namespace P2T

section
variable {D : Type} {n : Num} {poly : Source D} {ops : List (BuildOp D)}

theorem edge_of_loop {poly : Source D} {ops : List (BuildOp D)} {L : List Nat} (hL : L ∈ polyIds 0 (piecesOf poly ops))
    (hu : Uncrossed poly ops (L.map (ptOf (allPoints (piecesOf poly ops))))) {x : Nat × Nat} (hx : x ∈ cyclicPairs L) :
    x ∈ freeEdges poly ops ∨ (x.2, x.1) ∈ freeEdges poly ops := by
  have cross : ∀ {a b c d : Point}, ProperCross a b c d → ProperCross b a c d := by
    intro a b c d h
    unfold ProperCross at *
    rw [mul_comm (det2 c d b)]
    refine ⟨?_, h.2⟩
    have e : ∀ z, det2 b a z = - det2 a b z := fun z => by unfold det2; ring
    rw [e, e, neg_mul_neg]; exact h.1
  have hm : (ptOf (allPoints (piecesOf poly ops)) x.1, ptOf (allPoints (piecesOf poly ops)) x.2) ∈ cyclicPairs (L.map (ptOf (allPoints (piecesOf poly ops)))) := by
    rw [cyclic_map]; exact List.mem_map.2 ⟨x, hx, rfl⟩
  have hf := hu _ hm
  have hin : ∀ f ∈ inputEdges poly ops, (ptOf (allPoints (piecesOf poly ops)) f.1, ptOf (allPoints (piecesOf poly ops)) f.2) ∈ inputSegs poly ops :=
    fun f hf' => List.mem_map.2 ⟨f, hf', rfl⟩
  rcases (pieceEdges_iff (off := 0) (pieces := piecesOf poly ops) (u := x.1) (v := x.2)).2 (.inl (mem_allEdges.2 ⟨L, hL, hx⟩)) with k | k
  · have k' : CrossFree poly ops x := fun f hf' hc => hf _ (hin f hf') hc
    exact .inl (List.mem_filter.2 ⟨k, by simpa using k'⟩)
  · have k' : CrossFree poly ops (x.2, x.1) := fun f hf' hc => hf _ (hin f hf') (cross hc)
    exact .inr (List.mem_filter.2 ⟨k, by simpa using k'⟩)

theorem ptOf_run {i : Nat} (h : i < (allPoints (piecesOf poly ops)).length) : ptOf (runPts n poly ops) i = ptOf (allPoints (piecesOf poly ops)) i := by
  rw [input_point h]; simp [ptOf, h]

/-- The corners of the polygon and of the holes by number. -/
theorem loop_ids {L : List Point} (hL : L ∈ poly.points :: holesOf ops) :
    ∃ I ∈ polyIds 0 (piecesOf poly ops), L = I.map (ptOf (allPoints (piecesOf poly ops))) := by
  have hids := polyIds_pts (allPoints (piecesOf poly ops)) [] (piecesOf poly ops) [] (by simp)
  rw [polylines_of] at hids
  simp only [List.length_nil] at hids
  rw [← hids] at hL
  obtain ⟨I, hI, rfl⟩ := List.mem_map.1 hL
  exact ⟨I, hI, rfl⟩

/-- A loop that no edge crosses divides the final mesh: there is a label of the triangles that changes only across the loop and tells the winding number. -/
theorem loop_label {g : Trap} [g.Tame] {fuel t s} (a : LooseInput n poly ops) (h3 : 3 ≤ poly.points.length) (h3' : ∀ H ∈ holesOf ops, 3 ≤ H.length)
    (h : programG g n fuel poly ops = .ok (t, s)) {I : List Nat} (hI : I ∈ polyIds 0 (piecesOf poly ops)) (hu : Uncrossed poly ops (I.map (ptOf (allPoints (piecesOf poly ops))))) :
    I.map (ptOf (allPoints (piecesOf poly ops))) = I.map (ptOf (runPts n poly ops)) ∧
    (t.result = [] ∨ ∃ (sn : Snap) (F : List Nat → Nat → Rat) (P : Nat → Point) (node : NodeRef) (start : Nat), sn.front = s.front ∧ (.sweepDone, sn) ∈ s.trace ∧
      sn.front.nth 1 = some node ∧ StartOf sn.tris node.pid node.tri (some start) ∧
      Planar P (ptOf (runPts n poly ops)) (runPts n poly ops).length (leftId poly ops) (leftId poly ops + 1) sn.tris sn.front.nodes [I] F ∧
      (∀ i j k, i < (runPts n poly ops).length → j < (runPts n poly ops).length → k < (runPts n poly ops).length →
        0 < det2 (ptOf (runPts n poly ops) i) (ptOf (runPts n poly ops) j) (ptOf (runPts n poly ops) k) → 0 < det2 (P i) (P j) (P k)) ∧
      (∀ i j, i < (runPts n poly ops).length → j < (runPts n poly ops).length → keyLt (ptOf (runPts n poly ops) i) (ptOf (runPts n poly ops) j) → (P i).x < (P j).x) ∧
      (∀ x ∈ cyclicPairs I, ∀ T ∈ sn.tris, ∀ i, (T.from i = x.1 ∧ T.to i = x.2 ∨ T.from i = x.2 ∧ T.to i = x.1) → T.isConstrained i = true) ∧
      ∀ i ∈ t.result, ∀ T, t.triangles[i]? = some T → ∀ q, T.Inside (runPts n poly ops) q → wind (ptOf (runPts n poly ops)) I q = F I start) := by
  have safe := a.safe h
  obtain ⟨k1, -, k3⟩ := callback_mesh a.fine h
  obtain ⟨b, hb, hr⟩ := bind_ok.1 h
  obtain ⟨sn, hfr, hm, -, -, hres⟩ := run_final' hr
  have emap : I.map (ptOf (allPoints (piecesOf poly ops))) = I.map (ptOf (runPts n poly ops)) :=
    List.map_congr_left fun v hv => (ptOf_run (by have := (polyIds_bound I hI v hv).2; omega)).symm
  refine ⟨emap, ?_⟩
  rcases hres with ⟨-, e, -⟩ | ⟨node, start, hnode, hst, fl⟩
  · exact .inl e
  right
  obtain ⟨c1, c2, c3, c4⟩ := k3 _ _ hm
  have hthree := polyIds_length 0 (piecesOf poly ops) (by rw [polylines_of]; intro ps hps; rcases List.mem_cons.1 hps with rfl | k; exacts [h3, h3' _ k])
  have hnd := polyIds_nodup 0 (piecesOf poly ops)
  have hd : Disjoint3 [I] := ⟨by simpa using (List.nodup_flatten.1 hnd).1 I hI, by simpa using hthree I hI⟩
  -- its edges are marked
  have hedge : ∀ x ∈ cyclicPairs I, ConstrainedEdge t.triangles x.1 x.2 := by
    intro x hx
    rcases edge_of_loop hI hu hx with k | k
    · exact safe.edges _ k
    · exact (safe.edges _ k).symm
  have hmesh : ∀ x ∈ cyclicPairs I, MeshEdge sn.tris x.1 x.2 := by
    intro x hx
    obtain ⟨t', T, i, hT, e, -⟩ := hedge x hx
    obtain ⟨T', hT', e1, -, -⟩ := fl.same.symm.tri (List.mem_of_getElem? hT)
    refine ⟨T', hT', i, ?_⟩
    simpa [Tri.from, Tri.to, e1] using e
  have hmark : ∀ x ∈ cyclicPairs I, ∀ T ∈ sn.tris, ∀ i, (T.from i = x.1 ∧ T.to i = x.2 ∨ T.from i = x.2 ∧ T.to i = x.1) → T.isConstrained i = true := by
    intro x hx T hT i he
    obtain ⟨T', hT', e1, -, e3⟩ := fl.same.symm.symm.tri hT
    have : T'.isConstrained i = true := by
      refine marked_all a.fine h (programG_noCol_gen a.fine a.noTouch a.scan a.up h) hT' ?_
      have q : Mk t.triangles x.1 x.2 := by
        obtain ⟨t', T0, j, hT0, e, hc, -⟩ := hedge x hx
        rcases e with ⟨e, e'⟩ | ⟨e, e'⟩
        · rw [← e, ← e']; exact .of (sl_at hT0 j) hc
        · rw [← e, ← e']; exact (Mk.of (sl_at hT0 j) hc).symm
      have f1 : T'.from i = T.from i := by simp [Tri.from, e1]
      have f2 : T'.to i = T.to i := by simp [Tri.to, e1]
      rw [f1, f2]
      rcases he with ⟨e, e'⟩ | ⟨e, e'⟩
      · rw [e, e']; exact q
      · rw [e, e']; exact q.symm
    simpa [Tri.isConstrained, e3] using this
  obtain ⟨P, p1, p2, p3, p4, p5⟩ := strictMesh' c1 c2 c3 c4 k1
  obtain ⟨F, hF⟩ := p1.faces p2 p4
  have pl : Planar P (ptOf (runPts n poly ops)) (runPts n poly ops).length (leftId poly ops) (leftId poly ops + 1) sn.tris sn.front.nodes [I] F :=
    ⟨planeMesh_of c1 c2 c3 c4 k1, p1, p2, p4, hd, fun L hL => by rw [List.mem_singleton.1 hL]; exact hmesh, by simpa using hF I hmesh⟩
  have reach : ∀ {u v}, Reach sn.tris u v → F I u = F I v := by
    intro u v hr
    induction hr with
    | refl => rfl
    | step _ hs ih =>
      rw [ih]
      obtain ⟨T, hT, i, hi, hn⟩ := hs
      obtain ⟨-, j, hl⟩ := pl.mesh.cons.linked _ T i _ hT hn
      have := (pl.faces I (by simp)).twin _ i _ j T hl hT
      rw [flow_zero (fun k => by rw [hmark _ k T (List.mem_of_getElem? hT) i (.inl ⟨rfl, rfl⟩)] at hi; cases hi)
        (fun k => by rw [hmark _ k T (List.mem_of_getElem? hT) i (.inr ⟨rfl, rfl⟩)] at hi; cases hi)] at this
      linarith
  have key : ∀ i ∈ t.result, ∀ T, t.triangles[i]? = some T → ∀ q, T.Inside (runPts n poly ops) q → wind (ptOf (runPts n poly ops)) I q = F I start := by
    intro i hi T hT q hq
    have hl : i < sn.tris.length := by rw [← fl.same.1]; exact (List.getElem?_eq_some_iff.1 hT).1
    have hT0 : sn.tris[i]? = some sn.tris[i] := List.getElem?_eq_getElem hl
    have e := (fl.same.2 i _ T hT0 hT).1
    have hc : chiAt (ptOf (runPts n poly ops)) q sn.tris[(⟨i, hl⟩ : Fin sn.tris.length)] = 1 := by
      refine (chi_spec q (pl.real.pos sn.tris[i] (by simp))).2 ?_
      unfold Tri.Inside at hq
      rw [e] at hq; exact hq
    rw [pl.wind_at (by simp) hc, reach ((fl.iff i).1 hi)]
  exact ⟨sn, F, P, node, start, hfr, hm, hnode, hst, pl, p3, p5, hmark, key⟩

/-- **C63.**  If no input point is inside an edge, the reported triangles are, for the polygon and for each hole that no edge crosses (and that does not cross itself), all inside it or all outside:
the search for the interior does not leak through an uncrossed border, whatever the other edges do. -/
theorem C63_one_side {g : Trap} [g.Tame] {fuel t s} (a : LooseInput n poly ops) (h3 : 3 ≤ poly.points.length) (h3' : ∀ H ∈ holesOf ops, 3 ≤ H.length)
    (h : programG g n fuel poly ops = .ok (t, s)) {L : List Point} (hL : L ∈ poly.points :: holesOf ops) (hu : Uncrossed poly ops L) :
    OneSide (withArtificial n (allPoints (piecesOf poly ops))) t L := by
  obtain ⟨I, hI, rfl⟩ := loop_ids hL
  obtain ⟨emap, hres⟩ := loop_label a h3 h3' h hI hu
  rcases hres with e | ⟨sn, F, P, node, start, -, -, -, -, -, -, -, -, key⟩
  · left; intro i hi; rw [e] at hi; cases hi
  rw [emap]
  by_cases hk : ∃ k : ℤ, F I start = 2 * k + 1
  · obtain ⟨k, hk⟩ := hk
    exact .inl fun i hi T hT q hq => odd_inside (k := k) (by rw [key i hi T hT q hq, hk])
  · refine .inr fun i hi T hT q hq hin => hk ?_
    obtain ⟨k, hk⟩ := inside_odd hin
    exact ⟨k, by rw [← key i hi T hT q hq, hk]⟩

/-- **C63, crate and repaired program.** -/
theorem C63_crate (a : LooseInput n poly ops) (h3 : 3 ≤ poly.points.length) (h3' : ∀ H ∈ holesOf ops, 3 ≤ H.length) :
    ((∃ N t s, (∀ fuel, N ≤ fuel → program n fuel poly ops = .ok (t, s)) ∧ SafeResult n poly ops t s ∧ RespectsLoops n poly ops t) ∨
      (∃ N, ∀ fuel, N ≤ fuel → programG no698 n fuel poly ops = .error (.trapped "698")) ∧ HasFreeDip poly ops) ∧
    ∃ N t s, (∀ fuel, N ≤ fuel → repairedProgram n fuel poly ops = .ok (t, s)) ∧ SafeResult n poly ops t s ∧ RespectsLoops n poly ops t := by
  constructor
  · rcases total_gen (g := no698) a.fine a.noTouch a.scan a.up a.ok with ⟨N, t, s, h⟩ | ⟨h, -, hd⟩
    · exact .inl ⟨N, t, s, fun fuel hN => programG_program rfl (h fuel hN), a.safe (h N (Nat.le_refl _)), fun L hL hu => C63_one_side a h3 h3' (h N (Nat.le_refl _)) hL hu⟩
    · exact .inr ⟨h, hd⟩
  · rcases total_gen (g := .repaired) a.fine a.noTouch a.scan a.up a.ok with ⟨N, t, s, h⟩ | ⟨-, h, -⟩
    · exact ⟨N, t, s, h, a.safe (h N (Nat.le_refl _)), fun L hL hu => C63_one_side a h3 h3' (h N (Nat.le_refl _)) hL hu⟩
    · cases h

/-- **C63, `f64`.** -/
theorem C63_f64 (ov : Rat → Rat) {e : Int} (h : CrossingInput poly ops) (hg : OnGrid e (allPoints (piecesOf poly ops))) (he : -20 ≤ e) (he' : e ≤ 220)
    (hc : ClearOfCorners (allPoints (piecesOf poly ops)) ∨ CornersOnGrid e (allPoints (piecesOf poly ops))) :
    ((∃ N t s, (∀ fuel, N ≤ fuel → program (f64With ov) fuel poly ops = .ok (t, s)) ∧ SafeResult (f64With ov) poly ops t s ∧ RespectsLoops (f64With ov) poly ops t) ∨
      (∃ N, ∀ fuel, N ≤ fuel → programG no698 (f64With ov) fuel poly ops = .error (.trapped "698")) ∧ HasFreeDip poly ops) ∧
    ∃ N t s, (∀ fuel, N ≤ fuel → repairedProgram (f64With ov) fuel poly ops = .ok (t, s)) ∧ SafeResult (f64With ov) poly ops t s ∧ RespectsLoops (f64With ov) poly ops t :=
  C63_crate (h.loose ov hg he he' hc) h.three h.three'

/-- **C63, `f32`.** -/
theorem C63_f32 (ov : Rat → Rat) {M e : Int} (h : CrossingInput poly ops) (hg : OnGridUpTo M e (allPoints (piecesOf poly ops))) (hM : 1 ≤ M) (hM' : M ≤ 2 ^ 10)
    (he : -8 ≤ e) (he' : e ≤ 38) (hc : CornersFine32 M e (allPoints (piecesOf poly ops))) :
    ((∃ N t s, (∀ fuel, N ≤ fuel → program (f32With ov) fuel poly ops = .ok (t, s)) ∧ SafeResult (f32With ov) poly ops t s ∧ RespectsLoops (f32With ov) poly ops t) ∨
      (∃ N, ∀ fuel, N ≤ fuel → programG no698 (f32With ov) fuel poly ops = .error (.trapped "698")) ∧ HasFreeDip poly ops) ∧
    ∃ N t s, (∀ fuel, N ≤ fuel → repairedProgram (f32With ov) fuel poly ops = .ok (t, s)) ∧ SafeResult (f32With ov) poly ops t s ∧ RespectsLoops (f32With ov) poly ops t :=
  C63_crate (h.loose32 ov hg hM hM' he he' hc) h.three h.three'

end

/-- A polygon with two triangular holes that cross each other and one that does not. -/
def crossedPoly : Source Unit := Source.ofPoints [⟨0, 0⟩, ⟨40, 1⟩, ⟨41, 30⟩, ⟨-1, 29⟩]

def crossedOps : List (BuildOp Unit) := [.hole (Source.ofPoints [⟨5, 5⟩, ⟨15, 6⟩, ⟨9, 16⟩]), .hole (Source.ofPoints [⟨6, 12⟩, ⟨16, 13⟩, ⟨11, 4⟩]),
  .hole (Source.ofPoints [⟨25, 8⟩, ⟨33, 9⟩, ⟨28, 20⟩])]

/-- Two of the four loops are not crossed. -/
example : CrossingInput crossedPoly crossedOps ∧ Uncrossed crossedPoly crossedOps crossedPoly.points ∧ Uncrossed crossedPoly crossedOps [⟨25, 8⟩, ⟨33, 9⟩, ⟨28, 20⟩] ∧
    ¬ Uncrossed crossedPoly crossedOps [⟨5, 5⟩, ⟨15, 6⟩, ⟨9, 16⟩] ∧ ¬ Uncrossed crossedPoly crossedOps [⟨6, 12⟩, ⟨16, 13⟩, ⟨11, 4⟩] ∧ ¬ HasFreeDip crossedPoly crossedOps :=
  ⟨⟨by decide, by decide +kernel, by decide +kernel, by decide, by decide⟩, by decide +kernel, by decide +kernel, by decide +kernel, by decide +kernel, by decide +kernel⟩

/-- A reported triangle contains the point. -/
def reportsAt {D} (all : List Point) (q : Point) (m : Except Err (Triangles D × St)) : Bool :=
  match m with
  | .ok (t, _) => t.result.any fun i => match t.triangles[i]? with
    | some T => decide (0 < det2 (ptOf all (T.points.get 0)) (ptOf all (T.points.get 1)) q ∧ 0 < det2 (ptOf all (T.points.get 1)) (ptOf all (T.points.get 2)) q ∧
        0 < det2 (ptOf all (T.points.get 2)) (ptOf all (T.points.get 0)) q)
    | none => false
  | .error _ => false

theorem reportsAt_spec {D} {all : List Point} {q : Point} {t : Triangles D} {s : St} (h : reportsAt all q (.ok (t, s)) = true) :
    ∃ i ∈ t.result, ∃ T, t.triangles[i]? = some T ∧ T.Inside all q := by
  simp only [reportsAt, List.any_eq_true] at h
  obtain ⟨i, hi, k⟩ := h
  refine ⟨i, hi, ?_⟩
  cases e : t.triangles[i]? with
  | none => rw [e] at k; cases k
  | some T => rw [e] at k; simp only [decide_eq_true_eq] at k; exact ⟨T, rfl, k⟩

/-- A hole that is crossed may get lost: here the crate reports triangles inside it as well as outside. -/
theorem C63_crossed_lost : ∃ t s, program f64 100 crossedPoly crossedOps = .ok (t, s) ∧
    ¬ OneSide (withArtificial f64 (allPoints (piecesOf crossedPoly crossedOps))) t [⟨5, 5⟩, ⟨15, 6⟩, ⟨9, 16⟩] := by
  have h1 : reportsAt (withArtificial f64 (allPoints (piecesOf crossedPoly crossedOps))) ⟨8, 8⟩ (program f64 100 crossedPoly crossedOps) = true := by decide +kernel
  have h2 : reportsAt (withArtificial f64 (allPoints (piecesOf crossedPoly crossedOps))) ⟨20, 25⟩ (program f64 100 crossedPoly crossedOps) = true := by decide +kernel
  generalize program f64 100 crossedPoly crossedOps = m at *
  match m with
  | .error _ => cases h1
  | .ok (t, s) =>
    refine ⟨t, s, rfl, ?_⟩
    obtain ⟨i, hi, T, hT, hq⟩ := reportsAt_spec h1
    obtain ⟨i', hi', T', hT', hq'⟩ := reportsAt_spec h2
    rintro (k | k)
    · exact absurd (k i' hi' T' hT' _ hq') (by decide +kernel)
    · exact k i hi T hT _ hq (by decide +kernel)

/-- A polygon with two holes that overlap. -/
def slipPoly : Source Unit := Source.ofPoints [⟨-3, 2⟩, ⟨-1, -4⟩, ⟨2, 0⟩, ⟨0, 11⟩, ⟨-1, 5⟩, ⟨0, 10⟩, ⟨-1, -1⟩, ⟨-2, 0⟩]

def slipOps : List (BuildOp Unit) := [.hole (Source.ofPoints [⟨0, 5⟩, ⟨1, 0⟩, ⟨1, 1⟩]), .hole (Source.ofPoints [⟨0, -1⟩, ⟨0, -2⟩, ⟨1, 5⟩])]

/-- The run reported exactly one triangle, and the point is inside it. -/
def reportsOnly {D} (all : List Point) (q : Point) (m : Except Err (Triangles D × St)) : Bool :=
  (match m with
    | .ok (t, _) => decide (t.result.length = 1)
    | .error _ => false) && reportsAt all q m

/-- Which side is not certain.  The holes of this input cross each other, but they are strictly inside the polygon, no edge crosses the polygon and there is no dip; yet the one and only
triangle that the crate reports is outside the polygon. -/
theorem C63_outside : CrossingInput slipPoly slipOps ∧ Uncrossed slipPoly slipOps slipPoly.points ∧ (∀ p ∈ extraPoints slipOps, StrictlyInside slipPoly.points p) ∧
    ¬ HasFreeDip slipPoly slipOps ∧ ∃ t s, program f64 100 slipPoly slipOps = .ok (t, s) ∧
      t.result ≠ [] ∧ ∀ i ∈ t.result, ∀ T, t.triangles[i]? = some T → ∃ q, T.Inside (withArtificial f64 (allPoints (piecesOf slipPoly slipOps))) q ∧ ¬ InsidePolyline slipPoly.points q := by
  refine ⟨⟨by decide, by decide +kernel, by decide +kernel, by decide, by decide⟩, by decide +kernel, fun p hp => ?_, by decide +kernel, ?_⟩
  · have : ∀ p ∈ extraPoints slipOps, InsidePolyline slipPoly.points p ∧ ∀ x ∈ cyclicPairs slipPoly.points, ¬ (det2 x.1 x.2 p = 0 ∧ min x.1.x x.2.x ≤ p.x ∧ p.x ≤ max x.1.x x.2.x) := by decide +kernel
    refine ⟨(this p hp).1, fun x hx hon => (this p hp).2 x hx ⟨det2_on hon, ?_⟩⟩
    obtain ⟨t, t0, t1, ex, -⟩ := hon
    rw [ex]
    rcases le_total x.1.x x.2.x with k | k
    · rw [min_eq_left k, max_eq_right k]; constructor <;> nlinarith
    · rw [min_eq_right k, max_eq_left k]; constructor <;> nlinarith
  · have h1 : reportsOnly (withArtificial f64 (allPoints (piecesOf slipPoly slipOps))) ⟨-2, 1/3⟩ (program f64 100 slipPoly slipOps) = true := by decide +kernel
    generalize program f64 100 slipPoly slipOps = m at *
    match m with
    | .error _ => cases h1
    | .ok (t, s) =>
      simp only [reportsOnly, Bool.and_eq_true, decide_eq_true_eq] at h1
      obtain ⟨h1, h2⟩ := h1
      obtain ⟨j, e⟩ := List.length_eq_one_iff.1 h1
      obtain ⟨i, hi, T, hT, hq⟩ := reportsAt_spec h2
      refine ⟨t, s, rfl, by rw [e]; simp, fun i' hi' T' hT' => ⟨⟨-2, 1/3⟩, ?_, by decide +kernel⟩⟩
      rw [e, List.mem_singleton] at hi hi'
      rw [hi', ← hi, hT] at hT'
      cases hT'
      exact hq

end P2T
