import Verif.Proofs.Generic
import Verif.Spec.Delaunay
import Verif.Props.Measure

/-!
# C46: the reported triangles are a constrained Delaunay triangulation
-/

namespace P2T

theorem strictlyBetween_iff {u v q : Point} : StrictlyBetween u v q ↔ ∃ s : Rat, 0 < s ∧ s < 1 ∧ q = mix s u v := by
  obtain ⟨x, y⟩ := q
  simp only [StrictlyBetween, mix, Point.mk.injEq]

theorem onSeg_iff {u v q : Point} : OnSeg u v q ↔ ∃ s : Rat, 0 ≤ s ∧ s ≤ 1 ∧ q = mix s u v := by
  obtain ⟨x, y⟩ := q
  simp only [OnSeg, mix, Point.mk.injEq]

/-- Conditions for finitely many things together. -/
theorem collect {ι : Type} {X : Point} {Q : ι → Point → Prop} : ∀ (E : List ι),
    (∀ e ∈ E, ∃ As : List (Point → Rat), (∀ f ∈ As, IsAffine f ∧ 0 < f X) ∧ ∀ X', (∀ f ∈ As, 0 < f X') → Q e X') →
    ∃ As : List (Point → Rat), (∀ f ∈ As, IsAffine f ∧ 0 < f X) ∧ ∀ X', (∀ f ∈ As, 0 < f X') → ∀ e ∈ E, Q e X'
  | [], _ => ⟨[], by simp, by simp⟩
  | e :: E, h => by
    obtain ⟨A, h1, h2⟩ := h e (by simp)
    obtain ⟨B, k1, k2⟩ := collect E fun x hx => h x (by simp [hx])
    refine ⟨A ++ B, fun f hf => ?_, fun X' hX x hx => ?_⟩
    · rcases List.mem_append.1 hf with k | k
      · exact h1 f k
      · exact k1 f k
    · rcases List.mem_cons.1 hx with rfl | hx
      · exact h2 X' fun f hf => hX f (by simp [hf])
      · exact k2 X' (fun f hf => hX f (by simp [hf])) x hx

theorem off_line {a b : Point} (hne : a ≠ b) : ∃ Y, det2 Y a b ≠ 0 := by
  refine ⟨⟨a.x - (b.y - a.y), a.y + (b.x - a.x)⟩, ?_⟩
  have e : det2 ⟨a.x - (b.y - a.y), a.y + (b.x - a.x)⟩ a b = (b.x - a.x) ^ 2 + (b.y - a.y) ^ 2 := by simp only [det2]; ring
  rw [e]
  intro k
  have k1 : b.x - a.x = 0 := by have : (b.x - a.x) ^ 2 = 0 := by nlinarith [sq_nonneg (b.x - a.x), sq_nonneg (b.y - a.y)]
                                exact pow_eq_zero_iff (two_ne_zero) |>.1 this
  have k2 : b.y - a.y = 0 := by have : (b.y - a.y) ^ 2 = 0 := by nlinarith [sq_nonneg (b.x - a.x), sq_nonneg (b.y - a.y)]
                                exact pow_eq_zero_iff (two_ne_zero) |>.1 this
  apply hne
  cases a; cases b; simp only [Point.mk.injEq] at *; constructor <;> linarith

/-- No point of an edge is inside a triangle. -/
theorem Pl.noedge' {P : Nat → Point} {M : Store} (h : Pl P M) {t w u v n e} (hs : Sl M t w u v n e) {a b : Nat} (hE : EdgeOf M a b) {X : Point}
    (hX : OnOpen (P a) (P b) X) : ¬ Inside (P w) (P u) (P v) X := by
  intro hin
  have key : (∃ z, Vtx M z ∧ P z = X) ∨ ∃ u' v', PEdge P M u' v' ∧ OnOpen (P u') (P v') X := by
    obtain ⟨t', w', n', e', k | k⟩ := hE
    · rcases h.cover k hX with q | ⟨u', v', q1, q2, -⟩
      · exact .inl q
      · exact .inr ⟨u', v', q1, q2⟩
    · rcases h.cover k hX.symm with q | ⟨u', v', q1, q2, -⟩
      · exact .inl q
      · exact .inr ⟨u', v', q1, q2⟩
  rcases key with ⟨z, hz, rfl⟩ | ⟨u', v', q1, q2⟩
  · exact h.nocorner hs hz hin
  · exact h.noedge hs q1 q2 hin

/-- A corner that is visible across the edges `E` from inside a triangle is not inside its circumcircle. -/
theorem Walkable.visible {P : Nat → Point} {M : Store} {R : Nat → Prop} (h : Walkable P M R) {E : List (Nat × Nat)}
    (hE : ∀ e ∈ E, EdgeOf M e.1 e.2) (marks : ∀ {t w u v n e}, Sl M t w u v n e → e.isConstrained = true → (u, v) ∈ E ∨ (v, u) ∈ E)
    {N : Nat} (hN : ∀ y, Vtx M y → y < N) {z : Nat} (hz : Vtx M z) {t w u v n e} (hR : R t) (hs : Sl M t w u v n e) {X : Point}
    (hX : Inside (P w) (P u) (P v) X) (vis : ∀ e ∈ E, ∀ q, StrictlyBetween X (P z) q → ¬ OnSeg (P e.1) (P e.2) q) :
    inCircleDet (P w) (P u) (P v) (P z) ≤ 0 := by
  classical
  obtain ⟨As, k1, k2⟩ := collect (X := X) (Q := fun e X' => ¬ ProperCross (P e.1) (P e.2) X' (P z)) E (by
    intro e he
    by_cases e1 : e.1 = z
    · exact ⟨[], by simp, fun X' _ hc => by have := hc.1; rw [e1, (det2_same _ _).1] at this; simp at this⟩
    by_cases e2 : e.2 = z
    · exact ⟨[], by simp, fun X' _ hc => by have := hc.1; rw [e2, (det2_same _ _).2.1] at this; simp at this⟩
    have hv := (hE e he).vtx
    by_cases h0 : det2 (P e.1) (P e.2) (P z) = 0
    · exact ⟨[], by simp, fun X' _ hc => by have := hc.1; rw [h0, mul_zero] at this; exact lt_irrefl _ this⟩
    refine sight_conditions h0 ?_ ?_
    · intro s s0 s1 hXs
      rcases s0.lt_or_eq with s0 | rfl
      · rcases s1.lt_or_eq with s1 | rfl
        · exact h.pl.noedge' hs (hE e he) ⟨s, s0, s1, hXs⟩ hX
        · refine h.pl.nocorner hs hv.2 ?_
          have : X = P e.2 := by rw [hXs]; obtain ⟨x, y⟩ := P e.2; simp [mix]
          rw [← this]; exact hX
      · refine h.pl.nocorner hs hv.1 ?_
        have : X = P e.1 := by rw [hXs]; obtain ⟨x, y⟩ := P e.1; simp [mix]
        rw [← this]; exact hX
    · intro r r0 r1 s s0 s1 hq
      exact vis e he _ (strictlyBetween_iff.2 ⟨r, r0, r1, rfl⟩) (onSeg_iff.2 ⟨s, s0, s1, hq⟩))
  obtain ⟨X', j1, j2⟩ := generic_point (((List.range N).filter fun y => decide (Vtx M y ∧ y ≠ z)).map fun y X => det2 X (P z) (P y))
    ((fun X => det2 (P w) (P u) X) :: (fun X => det2 (P u) (P v) X) :: (fun X => det2 (P v) (P w) X) :: As) X (by
      intro f hf
      simp only [List.mem_cons] at hf
      rcases hf with rfl | rfl | rfl | hf
      · exact ⟨isAffine_det _ _, hX.1⟩
      · exact ⟨isAffine_det _ _, hX.2.1⟩
      · exact ⟨isAffine_det _ _, hX.2.2⟩
      · exact k1 f hf) (by
      intro f hf
      simp only [List.mem_map, List.mem_filter, List.mem_range, decide_eq_true_eq] at hf
      obtain ⟨y, ⟨-, hy, hyz⟩, rfl⟩ := hf
      refine ⟨isAffine_det' _ _, ?_⟩
      exact off_line fun q => hyz (h.pl.inj hy hz q.symm))
  refine h.walk hz _ X' le_rfl (fun y hy hne => ?_) (fun {t w u v n e} hs' hc => ?_) hR hs
    ⟨j1 _ (by simp), j1 (fun X => det2 (P u) (P v) X) (by simp), j1 (fun X => det2 (P v) (P w) X) (by simp)⟩
  · exact j2 (fun X => det2 X (P z) (P y)) (by
      simp only [List.mem_map, List.mem_filter, List.mem_range, decide_eq_true_eq]
      exact ⟨y, ⟨hN y hy, hy, hne⟩, rfl⟩)
  · rw [Bool.eq_false_iff]
    intro he
    have k := k2 X' fun f hf => j1 f (by simp [hf])
    rcases marks hs' he with m | m
    · exact k _ m hc
    · exact k _ m hc.swap

section
variable {D : Type} {n : Num} {fuel : Nat} {poly : Source D} {ops : List (BuildOp D)} {t : Triangles D} {s : St} {g : Trap} [hg : g.Tame]

/-- The reported triangles: left only across marked edges, locally Delaunay. -/
theorem final_walkable (hf : FineInput n (allPoints (piecesOf poly ops))) (hp : NoTouch poly ops)
    (h : programG g n fuel poly ops = .ok (t, s)) (hc : ConstraintsInPlace (inputEdges poly ops) t.triangles) (h3 : 3 ≤ poly.points.length)
    (h3' : ∀ H ∈ holesOf ops, 3 ≤ H.length) (hin : ∀ H ∈ holesOf ops, ∀ p ∈ H, StrictlyInside poly.points p) :
    Walkable (ptOf (runPts n poly ops)) t.triangles (· ∈ t.result) := by
  refine ⟨final_pl hf hp h hc, fun {t' w u v n' e'} hR hs => result_pos hf hp h hc h3 h3' hin hR hs, fun {t' w u v n' e'} hR hs he => ?_⟩
  obtain ⟨T, i, hT, rfl, rfl, rfl, rfl, rfl⟩ := sl_to hs
  obtain ⟨x, hx, hn⟩ := result_closed hf h hc h3 h3' hin hR hT he
  obtain ⟨-, j, hl⟩ := (C10_adjacency_consistent hf h).2.linked t' T i x hT hn
  obtain ⟨T', X, q1, q2, q3, q4, q5, q6⟩ := id hl
  rw [hT] at q1; cases q1
  have hm : X.isConstrained j = false := by
    rw [Bool.eq_false_iff]
    intro k
    have m1 := hc.marked X (List.mem_of_getElem? q2) j
    have m2 := hc.marked T (List.mem_of_getElem? hT) i
    rw [q5, q6] at m2
    have : T.isConstrained i = true := m2.2 (m1.1 k).symm
    exact Bool.false_ne_true (he.symm.trans this)
  refine ⟨x, X.points.get j, X.attrs.get j, hx, ?_, (C12_locally_delaunay hf h).2 t' i x j T X hl hT q2 he hm⟩
  have := sl_at q2 j
  rw [q4] at this
  rw [q5, q6]; exact this

/-- **C46.**  If no input point is inside an input edge and the input edges are in place (`C38_constraints_honoured`), the reported triangles are constrained Delaunay in the
global sense: from no inner point of a reported triangle one can see, the edges of the polygon and of the holes being opaque, an input point that is strictly
inside the circumcircle of the triangle. -/
theorem C46_delaunay (hf : FineInput n (allPoints (piecesOf poly ops))) (hp : NoTouch poly ops)
    (h : programG g n fuel poly ops = .ok (t, s)) (hc : ConstraintsInPlace (inputEdges poly ops) t.triangles) (h3 : 3 ≤ poly.points.length)
    (h3' : ∀ H ∈ holesOf ops, 3 ≤ H.length) (hin : ∀ H ∈ holesOf ops, ∀ p ∈ H, StrictlyInside poly.points p) :
    ConstrainedDelaunay poly ops (runPts n poly ops) t.triangles t.result := by
  intro i hi T hT X hX p hpm vis
  have W := final_walkable hf hp h hc h3 h3' hin
  obtain ⟨head, tail, xmax, xmin, ymax, ymin, hpts, -⟩ := ctx_points n (allPoints (piecesOf poly ops)) []
  have hpts : runPts n poly ops = [] ++ allPoints (piecesOf poly ops) ++ [head, tail] := by
    show (Ctx.new n (allPoints (piecesOf poly ops)) []).points = _
    rw [hpts]; simp
  have hids := polyIds_pts (runPts n poly ops) [] (piecesOf poly ops) [head, tail] hpts
  rw [polylines_of] at hids
  simp only [List.length_nil] at hids
  obtain ⟨z, hz, rfl⟩ := List.getElem_of_mem hpm
  have ez : ptOf (runPts n poly ops) z = (allPoints (piecesOf poly ops))[z] := by
    unfold ptOf
    rw [hpts]
    simp only [List.nil_append, List.getD_eq_getElem?_getD]
    rw [List.getElem?_append_left hz, List.getElem?_eq_getElem hz]
    simp
  rw [← ez] at vis ⊢
  have vz : Vtx t.triangles z := by
    obtain ⟨T', hT', k, e⟩ := (C30_all_points_used hf h).1 z hz
    obtain ⟨j, hj, rfl⟩ := List.getElem_of_mem hT'
    have := sl_at (List.getElem?_eq_getElem hj) k
    rw [e] at this
    exact ⟨_, _, _, _, _, this⟩
  refine W.visible (E := allEdges (polyIds 0 (piecesOf poly ops))) ?_ ?_ (N := (runPts n poly ops).length) ?_ vz hi (sl_at hT 0) hX ?_
  · intro e he
    have : MeshEdge t.triangles e.1 e.2 := by
      rcases (pieceEdges_iff (u := e.1) (v := e.2)).2 (.inl he) with k | k
      · exact hc.present _ k
      · obtain ⟨T, hT, i, hi⟩ := hc.present _ k
        exact ⟨T, hT, i, hi.symm⟩
    obtain ⟨T, hT, i, hi⟩ := this
    obtain ⟨j, hj, rfl⟩ := List.getElem_of_mem hT
    have sl := sl_at (List.getElem?_eq_getElem hj) i
    rcases hi with ⟨k1, k2⟩ | ⟨k1, k2⟩
    · exact ⟨_, _, _, _, .inl (by rw [← k1, ← k2]; exact sl)⟩
    · exact ⟨_, _, _, _, .inr (by rw [← k1, ← k2]; exact sl)⟩
  · intro t' w u v n' e' hs he
    obtain ⟨T', i', hT', rfl, rfl, rfl, rfl, rfl⟩ := sl_to hs
    exact pieceEdges_iff.1 ((hc.marked T' (List.mem_of_getElem? hT') i').1 he)
  · rintro y ⟨t', u, v, n', e', hs⟩
    obtain ⟨T', i', hT', rfl, -⟩ := sl_to hs
    rw [runPts_length]
    exact (C10_adjacency_consistent hf h).2.corners T' (List.mem_of_getElem? hT') i'
  · intro e he q hq
    obtain ⟨L, hL, he⟩ := mem_allEdges.1 he
    refine vis (L.map (ptOf (runPts n poly ops))) ?_ (ptOf (runPts n poly ops) e.1, ptOf (runPts n poly ops) e.2) ?_ q hq
    · rw [← hids]; exact List.mem_map.2 ⟨L, hL, rfl⟩
    · rw [cyclic_map]; exact List.mem_map.2 ⟨e, he, rfl⟩

/-- **C46, total.**  Under the hypotheses of total correctness (`C42_correct`) triangulating terminates without panic, and the reported triangles are a constrained
Delaunay triangulation of the polygon minus the holes. -/
theorem C46_total (hf : FineInput n (allPoints (piecesOf poly ops))) (hp : NoTouch poly ops)
    (hx : ScanComplete n (runPts n poly ops)) (hu : EpsUp n (allPoints (piecesOf poly ops))) (ha : EdgesApart poly ops)
    (hok : ∀ p ∈ piecesOf poly ops, p.Ok) (hd : ¬ HasDip poly ops)
    (h3 : 3 ≤ poly.points.length) (h3' : ∀ H ∈ holesOf ops, 3 ≤ H.length) (hin : ∀ p ∈ extraPoints ops, StrictlyInside poly.points p) :
    ∃ N t s, (∀ fuel, N ≤ fuel → program n fuel poly ops = .ok (t, s)) ∧
      TriangulatesRegion poly ops (runPts n poly ops) t.triangles t.result ∧ ConstrainedDelaunay poly ops (runPts n poly ops) t.triangles t.result := by
  obtain ⟨N, t, s, h1, h2, h4⟩ := C41_total hf hp hx hu ha hok hd
  have h := h2 N (Nat.le_refl _)
  exact ⟨N, t, s, h1, (C42_region hf hp hx hu ha h h3 h3' hin).1, C46_delaunay hf hp h h4 h3 h3' fun H hH p hp => hin p (holes_extra hH p hp)⟩

end

/-! ## Examples -/

theorem StrictlyBetween.onSeg {u v q : Point} (h : StrictlyBetween u v q) : OnSeg u v q := by
  obtain ⟨t, t0, t1, e⟩ := h
  exact ⟨t, t0.le, t1.le, e⟩

theorem visible_of {D : Type} {poly : Source D} {ops : List (BuildOp D)} {X p : Point}
    (h : ∀ ps ∈ poly.points :: holesOf ops, ∀ e ∈ cyclicPairs ps, (sameSide e.1 e.2 X p || sameSide X p e.1 e.2) = true) : Visible poly ops X p := by
  intro ps hps e he q hq on
  rcases Bool.or_eq_true_iff.1 (h ps hps e he) with k | k
  · exact sameSide_disjoint k on hq.onSeg
  · exact sameSide_disjoint k hq.onSeg on

/-- A quadrilateral with a triangular hole and two Steiner points. -/
theorem gp_delaunay : ∃ N t s, (∀ fuel, N ≤ fuel → program f64 fuel exPoly gpOps = .ok (t, s)) ∧
    TriangulatesRegion exPoly gpOps (runPts f64 exPoly gpOps) t.triangles t.result ∧
    ConstrainedDelaunay exPoly gpOps (runPts f64 exPoly gpOps) t.triangles t.result := by
  refine C46_total gp_fine gp_general.1 gp_general.2.1 gp_up.1 gp_general.2.2 gp_up.2 gp_no_dip (by decide) (by decide) fun p hp => ?_
  have h1 : ∀ p ∈ extraPoints gpOps, InsidePolyline exPoly.points p ∧ ∀ x ∈ cyclicPairs exPoly.points, det2 x.1 x.2 p ≠ 0 := by decide +kernel
  exact strictlyInside_of (h1 p hp).1 (h1 p hp).2

/-- In it one Steiner point is visible from the other, but not from a point behind the hole. -/
example : Visible exPoly gpOps ⟨1, 2⟩ ⟨7, 2⟩ ∧ ¬ Visible exPoly gpOps ⟨1, 6⟩ ⟨7, 2⟩ := by
  refine ⟨visible_of (by decide +kernel), fun h => ?_⟩
  refine h [⟨3, 3⟩, ⟨6, 4⟩, ⟨5, 8⟩] (by simp [holesOf, gpOps, BuildOp.holePts]) (⟨3, 3⟩, ⟨6, 4⟩) (by simp [cyclicPairs]) ⟨14 / 3, 32 / 9⟩ ?_ ?_
  · exact ⟨11 / 18, by norm_num, by norm_num, by norm_num, by norm_num⟩
  · exact ⟨5 / 9, by norm_num, by norm_num, by norm_num, by norm_num⟩

end P2T
