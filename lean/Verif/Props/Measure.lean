import Verif.Proofs.Measure
import Verif.Props.Correct

/-!
# C43, C44: the area and the number of the reported triangles
-/

namespace P2T

/-! ## The numbers of the Steiner points -/

def steinerIds : Nat → List Piece → List Nat
  | _, [] => []
  | off, .polyline ps :: rest => steinerIds (off + ps.length) rest
  | off, .steiner ps :: rest => List.range' off ps.length ++ steinerIds (off + ps.length) rest

def pieceSteiners : List Piece → List Point
  | [] => []
  | .polyline _ :: rest => pieceSteiners rest
  | .steiner ps :: rest => ps ++ pieceSteiners rest

theorem steinerIds_bound : ∀ {off : Nat} {pieces : List Piece}, ∀ v ∈ steinerIds off pieces, off ≤ v ∧ v < off + (allPoints pieces).length
  | off, [], v, h => by simp [steinerIds] at h
  | off, .polyline ps :: rest, v, h => by
    simp only [allPoints, List.flatMap_cons, Piece.pts, List.length_append]
    simp only [steinerIds] at h
    have := steinerIds_bound v h
    simp only [allPoints] at this
    omega
  | off, .steiner ps :: rest, v, h => by
    simp only [allPoints, List.flatMap_cons, Piece.pts, List.length_append]
    simp only [steinerIds, List.mem_append] at h
    rcases h with h | h
    · simp only [List.mem_range'_1] at h; omega
    · have := steinerIds_bound v h
      simp only [allPoints] at this
      omega

theorem steinerIds_nodup : ∀ (off : Nat) (pieces : List Piece), (steinerIds off pieces).Nodup
  | off, [] => by simp [steinerIds]
  | off, .polyline ps :: rest => by simp only [steinerIds]; exact steinerIds_nodup _ rest
  | off, .steiner ps :: rest => by
    simp only [steinerIds, List.nodup_append]
    refine ⟨List.nodup_range', steinerIds_nodup _ rest, ?_⟩
    intro a ha b hb e
    subst e
    have := steinerIds_bound a hb
    simp only [List.mem_range'_1] at ha
    omega

theorem steinerIds_disjoint : ∀ {off : Nat} {pieces : List Piece}, ∀ v ∈ steinerIds off pieces, ∀ L ∈ polyIds off pieces, v ∉ L
  | off, [], v, h => by simp [steinerIds] at h
  | off, .polyline ps :: rest, v, h => by
    intro L hL hv
    simp only [steinerIds] at h
    simp only [polyIds, List.mem_cons] at hL
    rcases hL with rfl | hL
    · have := steinerIds_bound v h
      simp only [List.mem_range'_1] at hv; omega
    · exact steinerIds_disjoint v h L hL hv
  | off, .steiner ps :: rest, v, h => by
    intro L hL hv
    simp only [steinerIds, List.mem_append] at h
    simp only [polyIds] at hL
    rcases h with h | h
    · have := polyIds_bound L hL v hv
      simp only [List.mem_range'_1] at h; omega
    · exact steinerIds_disjoint v h L hL hv

theorem ids_cases : ∀ {off : Nat} {pieces : List Piece} {v : Nat}, off ≤ v → v < off + (allPoints pieces).length →
    (∃ L ∈ polyIds off pieces, v ∈ L) ∨ v ∈ steinerIds off pieces
  | off, [], v, h1, h2 => by simp [allPoints] at h2; omega
  | off, .polyline ps :: rest, v, h1, h2 => by
    simp only [allPoints, List.flatMap_cons, Piece.pts, List.length_append] at h2
    by_cases hv : v < off + ps.length
    · exact .inl ⟨_, by simp [polyIds], List.mem_range'_1.2 ⟨h1, hv⟩⟩
    · rcases ids_cases (off := off + ps.length) (pieces := rest) (v := v) (by omega) (by simp only [allPoints]; omega) with ⟨L, hL, k⟩ | k
      · exact .inl ⟨L, by simp [polyIds, hL], k⟩
      · exact .inr (by simpa [steinerIds] using k)
  | off, .steiner ps :: rest, v, h1, h2 => by
    simp only [allPoints, List.flatMap_cons, Piece.pts, List.length_append] at h2
    by_cases hv : v < off + ps.length
    · exact .inr (by simp only [steinerIds, List.mem_append]; exact .inl (List.mem_range'_1.2 ⟨h1, hv⟩))
    · rcases ids_cases (off := off + ps.length) (pieces := rest) (v := v) (by omega) (by simp only [allPoints]; omega) with ⟨L, hL, k⟩ | k
      · exact .inl ⟨L, by simp [polyIds, hL], k⟩
      · exact .inr (by simp only [steinerIds, List.mem_append]; exact .inr k)

theorem steinerIds_pts (all : List Point) : ∀ (pre : List Point) (pieces : List Piece) (post : List Point), all = pre ++ allPoints pieces ++ post →
    (steinerIds pre.length pieces).map (ptOf all) = pieceSteiners pieces
  | pre, [], post, _ => by simp [steinerIds, pieceSteiners]
  | pre, .steiner ps :: rest, post, e => by
    simp only [steinerIds, pieceSteiners, List.map_append]
    have ih := steinerIds_pts all (pre ++ ps) rest post (by rw [e]; simp [allPoints, Piece.pts])
    rw [List.length_append] at ih
    rw [ih]
    congr 1
    apply List.ext_getElem
    · simp
    · intro i h1 h2
      simp only [List.getElem_map, List.getElem_range', Nat.one_mul]
      unfold ptOf
      rw [e]
      simp only [allPoints, List.flatMap_cons, Piece.pts, List.getD_eq_getElem?_getD]
      rw [List.getElem?_append_left (by simp; omega), List.getElem?_append_right (by omega), List.getElem?_append_left (by omega)]
      simp [h2]
  | pre, .polyline ps :: rest, post, e => by
    simp only [steinerIds, pieceSteiners]
    have ih := steinerIds_pts all (pre ++ ps) rest post (by rw [e]; simp [allPoints, Piece.pts])
    rw [List.length_append] at ih
    exact ih

theorem pieceSteiners_append (a b : List Piece) : pieceSteiners (a ++ b) = pieceSteiners a ++ pieceSteiners b := by
  induction a with
  | nil => rfl
  | cons p a ih => cases p <;> simp [pieceSteiners, ih]

theorem steiners_of {D} (poly : Source D) (ops : List (BuildOp D)) : pieceSteiners (piecesOf poly ops) = steinersOf ops := by
  unfold piecesOf
  simp only [pieceSteiners]
  unfold steinersOf
  induction ops with
  | nil => rfl
  | cons o ops ih =>
    rw [List.flatMap_cons, List.flatMap_cons, pieceSteiners_append, ih]
    congr 1
    cases o with
    | steinerPoint p d => rfl
    | steinerPoints s => simp [BuildOp.pieces, BuildOp.steinerPts, pieceSteiners]
    | hole s => rfl
    | holes ss =>
      simp only [BuildOp.pieces, BuildOp.steinerPts]
      induction ss with
      | nil => rfl
      | cons s ss ih => simp [pieceSteiners, ih]

section
variable {D : Type} {n : Num} {fuel : Nat} {poly : Source D} {ops : List (BuildOp D)} {t : Triangles D} {s : St} {g : Trap} [hg : g.Tame]

theorem runPts_inj (hf : FineInput n (allPoints (piecesOf poly ops))) (i j : Nat) (hi : i < (runPts n poly ops).length) (hj : j < (runPts n poly ops).length)
    (e : ptOf (runPts n poly ops) i = ptOf (runPts n poly ops) j) : i = j := by
  unfold ptOf at e
  rw [List.getD_eq_getElem?_getD, List.getElem?_eq_getElem hi, List.getD_eq_getElem?_getD, List.getElem?_eq_getElem hj] at e
  exact (List.Nodup.getElem_inj_iff (runPts_nodup hf)).1 (by simpa using e)

/-- The final mesh as a mesh with holes. -/
theorem final_holed (hf : FineInput n (allPoints (piecesOf poly ops))) (h : programG g n fuel poly ops = .ok (t, s))
    (hc : ConstraintsInPlace (inputEdges poly ops) t.triangles) (h3 : 3 ≤ poly.points.length) (h3' : ∀ H ∈ holesOf ops, 3 ≤ H.length)
    (hin : ∀ H ∈ holesOf ops, ∀ p ∈ H, StrictlyInside poly.points p) (hap : HolesApart ops) (hne : t.result ≠ []) :
    ∃ (M : Store) (nodes : List Node) (Ls : List (List Nat)) (P : Nat → Point) (F : List Nat → Nat → Rat),
      Holed P (ptOf (runPts n poly ops)) (runPts n poly ops).length (leftId poly ops) (leftId poly ops + 1) M nodes (List.range poly.points.length) Ls F ∧
      (List.range poly.points.length).map (ptOf (runPts n poly ops)) = poly.points ∧ Ls.map (·.map (ptOf (runPts n poly ops))) = holesOf ops ∧
      polyIds 0 (piecesOf poly ops) = List.range poly.points.length :: Ls ∧ SameMesh M t.triangles ∧ t.result.Nodup ∧ (∀ u ∈ t.result, u < M.length) ∧
      ∀ u : Fin M.length, u.1 ∈ t.result ↔ F (List.range poly.points.length) u ≠ 0 ∧ ∀ L ∈ Ls, F L u = 0 := by
  obtain ⟨M, nodes, Ls, P, F, a, b, l, lab, hids1, hids2, fb, hnodes, he0, hb1, hx, last, hst, plane, close, hLs⟩ := final_setup hf h hc h3 h3'
  rcases hst with ⟨h2, -⟩ | ⟨start, hst, fl⟩
  · exact absurd h2 hne
  have inside : ∀ L ∈ Ls, ∀ v ∈ L, StrictlyInside ((List.range poly.points.length).map (ptOf (runPts n poly ops))) (ptOf (runPts n poly ops) v) := by
    intro L hL v hv
    rw [hids1]
    refine hin (L.map (ptOf (runPts n poly ops))) ?_ _ (List.mem_map.2 ⟨v, hv, rfl⟩)
    rw [← hids2]
    exact List.mem_map.2 ⟨L, hL, rfl⟩
  obtain ⟨S, i, hS, he, hF, hz⟩ := lab.start_inner fb hnodes he0 hx last inside hst
  have hol : Holed P (ptOf (runPts n poly ops)) (runPts n poly ops).length (leftId poly ops) (leftId poly ops + 1) M nodes (List.range poly.points.length) Ls F := by
    refine ⟨lab, plane, close, runPts_inj hf, inside, ?_⟩
    unfold HolesApart at hap
    rw [← hids2, List.pairwise_map] at hap
    exact hap.imp fun k => ⟨fun v hv => k.1 _ (List.mem_map.2 ⟨v, hv, rfl⟩), fun v hv => k.2 _ (List.mem_map.2 ⟨v, hv, rfl⟩)⟩
  refine ⟨M, nodes, Ls, P, F, hol, hids1, hids2, hLs, fl.same, fl.nodup, fun u hu => by rw [← fl.same.1]; exact fl.lt u hu, fun u => ?_⟩
  rw [fl.iff u, hol.inner_iff hS he hF hz u]

/-- **C43.**  Under the hypotheses of `C37_region`, and if no corner of a hole is inside or on another hole: the total area of the reported triangles
is the area of the polygon minus the areas of the holes (shoelace formula; all areas twice). -/
theorem C43_area (hf : FineInput n (allPoints (piecesOf poly ops))) (h : programG g n fuel poly ops = .ok (t, s))
    (hc : ConstraintsInPlace (inputEdges poly ops) t.triangles) (h3 : 3 ≤ poly.points.length) (h3' : ∀ H ∈ holesOf ops, 3 ≤ H.length)
    (hin : ∀ H ∈ holesOf ops, ∀ p ∈ H, StrictlyInside poly.points p) (hap : HolesApart ops) (hne : t.result ≠ []) :
    resultArea2 (runPts n poly ops) t.triangles t.result = |shoelace2 poly.points| - ((holesOf ops).map fun H => |shoelace2 H|).sum := by
  obtain ⟨M, nodes, Ls, P, F, hol, hids1, hids2, -, same, nd, lt, hr⟩ := final_holed hf h hc h3 h3' hin hap hne
  have w := hol.found_area nd lt hr
  rw [hids1] at w
  have e1 : (Ls.map fun L => |shoelace2 (L.map (ptOf (runPts n poly ops)))|) = (holesOf ops).map fun H => |shoelace2 H| := by
    rw [← hids2, List.map_map]; rfl
  rw [e1] at w
  have e2 : resultArea2 (runPts n poly ops) t.triangles t.result = (t.result.map fun i => match M[i]? with
      | some T => det2 (ptOf (runPts n poly ops) T.points.a) (ptOf (runPts n poly ops) T.points.b) (ptOf (runPts n poly ops) T.points.c) | none => 0).sum := by
    unfold resultArea2
    congr 1
    refine List.map_congr_left fun i hi => ?_
    have hl := lt i hi
    have hl' : i < t.triangles.length := by rw [same.1]; exact hl
    rw [List.getElem?_eq_getElem hl, List.getElem?_eq_getElem hl']
    have e := (same.2 i _ _ (List.getElem?_eq_getElem hl) (List.getElem?_eq_getElem hl')).1
    simp only [area2, e]; rfl
  exact e2.trans (eq_sub_of_add_eq w)

/-- **C44.**  Under the hypotheses of `C43_area`, and if no Steiner point is on an edge of the polygon or of a hole: the number of reported triangles is determined
by the input.  Each corner of the polygon counts 1, each corner of a hole 1 and each hole 2, each Steiner point in the region 2; in total, minus 2. -/
theorem C44_count (hf : FineInput n (allPoints (piecesOf poly ops))) (h : programG g n fuel poly ops = .ok (t, s))
    (hc : ConstraintsInPlace (inputEdges poly ops) t.triangles) (h3 : 3 ≤ poly.points.length) (h3' : ∀ H ∈ holesOf ops, 3 ≤ H.length)
    (hin : ∀ H ∈ holesOf ops, ∀ p ∈ H, StrictlyInside poly.points p) (hap : HolesApart ops) (hso : SteinersOff poly ops) (hne : t.result ≠ []) :
    t.result.length + 2 = poly.points.length + ((holesOf ops).map fun H => H.length + 2).sum + 2 * (steinersOf ops).countP fun p => decide (InRegion poly ops p) := by
  obtain ⟨M, nodes, Ls, P, F, hol, hids1, hids2, hLs, same, nd, lt, hr⟩ := final_holed hf h hc h3 h3' hin hap hne
  obtain ⟨head, tail, xmax, xmin, ymax, ymin, hpts, -⟩ := ctx_points n (allPoints (piecesOf poly ops)) []
  have hpts : runPts n poly ops = [] ++ allPoints (piecesOf poly ops) ++ [head, tail] := by
    show (Ctx.new n (allPoints (piecesOf poly ops)) []).points = _
    rw [hpts]; simp
  have sts := steinerIds_pts (runPts n poly ops) [] (piecesOf poly ops) [head, tail] hpts
  rw [steiners_of] at sts
  simp only [List.length_nil] at sts
  have hlen : (runPts n poly ops).length = leftId poly ops + 2 := runPts_length
  have lid : leftId poly ops = (allPoints (piecesOf poly ops)).length := rfl
  have bound : ∀ L ∈ List.range poly.points.length :: Ls, ∀ v ∈ L, v < leftId poly ops := by
    intro L hL v hv
    rw [← hLs] at hL
    have := (polyIds_bound L hL v hv).2
    omega
  have input : ∀ v, v < leftId poly ops → ptOf (runPts n poly ops) v ∈ allPoints (piecesOf poly ops) := by
    intro v hv
    unfold ptOf
    rw [hpts]
    simp only [List.nil_append, List.getD_eq_getElem?_getD]
    rw [List.getElem?_append_left hv, List.getElem?_eq_getElem hv]
    simp
  have used : ∀ v, v < leftId poly ops → ∃ (t : Fin M.length) (i : Fin 3), M[t].points.get i = v := by
    intro v hv
    obtain ⟨T, hT, i, hi⟩ := (C30_all_points_used hf h).1 v hv
    obtain ⟨T', hT', e, -⟩ := same.symm.tri hT
    obtain ⟨j, hj, rfl⟩ := List.getElem_of_mem hT'
    exact ⟨⟨j, hj⟩, i, by show M[j].points.get i = v; rw [e]; exact hi⟩
  have cor : Corners' (ptOf (runPts n poly ops)) (runPts n poly ops).length (leftId poly ops) (leftId poly ops + 1) M (List.range poly.points.length) Ls
      (steinerIds 0 (piecesOf poly ops)) := by
    refine ⟨steinerIds_nodup _ _, fun v hv => ?_, fun v hv => ?_, fun v hv L hL => ⟨?_, ?_⟩, fun L hL => ⟨fun z => ?_, fun z => ?_, fun v hv => ?_⟩⟩
    · by_cases hl : v < leftId poly ops
      · rcases ids_cases (off := 0) (pieces := piecesOf poly ops) (Nat.zero_le v) (by omega) with ⟨L, hL, k⟩ | k
        · rw [hLs] at hL
          rcases List.mem_cons.1 hL with rfl | hL
          · exact .inl k
          · exact .inr (.inl ⟨L, hL, k⟩)
        · exact .inr (.inr (.inl k))
      · exact .inr (.inr (.inr (by omega)))
    · refine used v ?_
      rcases hv with ⟨L, hL, k⟩ | k
      · exact bound L (by simp [hL]) v k
      · have := (steinerIds_bound v k).2; omega
    · exact steinerIds_disjoint v hv L (by rw [hLs]; exact hL)
    · refine hso _ ?_ _ ?_
      · rcases List.mem_cons.1 hL with rfl | hL
        · rw [hids1]; simp
        · rw [← hids2]; exact List.mem_cons_of_mem _ (List.mem_map.2 ⟨L, hL, rfl⟩)
      · rw [← sts]; exact List.mem_map.2 ⟨v, hv, rfl⟩
    · have := bound L hL _ z; omega
    · have := bound L hL _ z; omega
    · have := hf.enclosed _ (input v (bound L hL v hv))
      exact ⟨this.1, this.2.1⟩
  have w := hol.found_number cor nd lt hr
  rw [hids1, List.length_range] at w
  have e1 : (Ls.map fun L => L.length + 2) = (holesOf ops).map fun H => H.length + 2 := by
    rw [← hids2, List.map_map]; simp
  have e2 : ((steinerIds 0 (piecesOf poly ops)).countP fun v => decide (InsidePolyline poly.points (ptOf (runPts n poly ops) v) ∧
      ∀ L ∈ Ls, ¬ InsidePolyline (L.map (ptOf (runPts n poly ops))) (ptOf (runPts n poly ops) v))) = (steinersOf ops).countP fun p => decide (InRegion poly ops p) := by
    rw [← sts, List.countP_map]
    refine List.countP_congr fun v _ => ?_
    simp only [Function.comp, decide_eq_true_eq, InRegion, ← hids2, List.mem_map, forall_exists_index, and_imp, forall_apply_eq_imp_iff₂]
  rw [e1, e2] at w
  exact w

/-- **C44, no holes and no Steiner points.**  A polygon with `k` corners is triangulated with `k - 2` triangles. -/
theorem C44_polygon (hf : FineInput n poly.points) (h : programG g n fuel poly [] = .ok (t, s))
    (hc : ConstraintsInPlace (inputEdges poly []) t.triangles) (h3 : 3 ≤ poly.points.length) :
    t.result.length + 2 = poly.points.length ∧ resultArea2 (runPts n poly []) t.triangles t.result = |shoelace2 poly.points| := by
  have hf' : FineInput n (allPoints (piecesOf poly [])) := by rw [convex_points]; exact hf
  have hne := C42_nonempty hf' h hc h3 (by simp [holesOf]) (by simp [extraPoints, allPoints])
  have c := C44_count hf' h hc h3 (by simp [holesOf]) (by simp [holesOf]) (by simp [HolesApart, holesOf]) (by simp [SteinersOff, steinersOf]) hne
  have a := C43_area hf' h hc h3 (by simp [holesOf]) (by simp [holesOf]) (by simp [HolesApart, holesOf]) hne
  simp only [holesOf, steinersOf, List.flatMap_nil, List.map_nil, List.sum_nil, List.countP_nil] at c a
  exact ⟨by omega, by linarith⟩

/-- No Steiner point is on an edge. -/
theorem steiners_off (hf : FineInput n (allPoints (piecesOf poly ops))) (hp : NoTouch poly ops) (hok : ∀ p ∈ piecesOf poly ops, p.Ok)
    (h3 : 3 ≤ poly.points.length) (h3' : ∀ H ∈ holesOf ops, 3 ≤ H.length) : SteinersOff poly ops := by
  obtain ⟨head, tail, xmax, xmin, ymax, ymin, hpts, -⟩ := ctx_points n (allPoints (piecesOf poly ops)) []
  have hpts : runPts n poly ops = [] ++ allPoints (piecesOf poly ops) ++ [head, tail] := by
    show (Ctx.new n (allPoints (piecesOf poly ops)) []).points = _
    rw [hpts]; simp
  have hids := polyIds_pts (runPts n poly ops) [] (piecesOf poly ops) [head, tail] hpts
  have sts := steinerIds_pts (runPts n poly ops) [] (piecesOf poly ops) [head, tail] hpts
  rw [polylines_of] at hids
  rw [steiners_of] at sts
  simp only [List.length_nil] at hids sts
  have len : (runPts n poly ops).length = (allPoints (piecesOf poly ops)).length + 2 := runPts_length
  intro ps hps p hps' x hx on
  rw [← hids] at hps
  rw [← sts] at hps'
  obtain ⟨L, hL, rfl⟩ := List.mem_map.1 hps
  obtain ⟨v, hv, rfl⟩ := List.mem_map.1 hps'
  rw [cyclic_map] at hx
  obtain ⟨⟨a, b⟩, hab, rfl⟩ := List.mem_map.1 hx
  have h3L := polyIds_length 0 (piecesOf poly ops) (by rw [polylines_of]; intro ps hps; rcases List.mem_cons.1 hps with rfl | k; exacts [h3, h3' _ k]) L hL
  have nd := (List.nodup_flatten.1 (polyIds_nodup 0 (piecesOf poly ops))).1 L hL
  have la := (polyIds_bound L hL a (cyclic_mem_left hab)).2
  have lb := (polyIds_bound L hL b (cyclic_mem_right hab)).2
  have lv := (steinerIds_bound v hv).2
  have na : a ≠ v := by rintro rfl; exact steinerIds_disjoint a hv L hL (cyclic_mem_left hab)
  have nv : b ≠ v := by rintro rfl; exact steinerIds_disjoint b hv L hL (cyclic_mem_right hab)
  have inj := runPts_inj hf
  have hE : InEdge poly ops a b := pieceEdges_iff.2 (.inl (mem_allEdges.2 ⟨L, hL, hab⟩))
  obtain ⟨r, r0, r1, ex, ey⟩ := on
  have e : ptOf (runPts n poly ops) v = mix r (ptOf (runPts n poly ops) a) (ptOf (runPts n poly ops) b) := by
    generalize ptOf (runPts n poly ops) v = p at *
    cases p; simp only [mix, Point.mk.injEq]; exact ⟨ex, ey⟩
  rcases r0.lt_or_eq with r0 | rfl
  · rcases r1.lt_or_eq with r1 | rfl
    · exact loose_run hf hp hok hE (by omega) ⟨r, r0, r1, e⟩
    · rw [mix_one] at e; exact nv (inj _ _ (by omega) (by omega) e.symm)
  · rw [mix_zero] at e; exact na (inj _ _ (by omega) (by omega) e.symm)

/-- **C43, C44, total.**  Under the hypotheses of total correctness (`C42_correct`), and if the holes do not contain each other: triangulating terminates without panic, and
the area and the number of the reported triangles are those of the polygon minus the holes. -/
theorem C44_total (hf : FineInput n (allPoints (piecesOf poly ops))) (hp : NoTouch poly ops)
    (hx : ScanComplete n (runPts n poly ops)) (hu : EpsUp n (allPoints (piecesOf poly ops))) (ha : EdgesApart poly ops)
    (hok : ∀ p ∈ piecesOf poly ops, p.Ok) (hd : ¬ HasDip poly ops)
    (h3 : 3 ≤ poly.points.length) (h3' : ∀ H ∈ holesOf ops, 3 ≤ H.length) (hin : ∀ p ∈ extraPoints ops, StrictlyInside poly.points p) (hap : HolesApart ops) :
    ∃ N t s, (∀ fuel, N ≤ fuel → program n fuel poly ops = .ok (t, s)) ∧
      resultArea2 (runPts n poly ops) t.triangles t.result = |shoelace2 poly.points| - ((holesOf ops).map fun H => |shoelace2 H|).sum ∧
      t.result.length + 2 = poly.points.length + ((holesOf ops).map fun H => H.length + 2).sum + 2 * (steinersOf ops).countP fun p => decide (InRegion poly ops p) := by
  obtain ⟨N, t, s, h1, h2, h4⟩ := C41_total hf hp hx hu ha hok hd
  have h := h2 N (Nat.le_refl _)
  have hne := C42_nonempty hf h h4 h3 h3' hin
  have hin' : ∀ H ∈ holesOf ops, ∀ p ∈ H, StrictlyInside poly.points p := fun H hH p hp => hin p (holes_extra hH p hp)
  exact ⟨N, t, s, h1, C43_area hf h h4 h3 h3' hin' hap hne, C44_count hf h h4 h3 h3' hin' hap (steiners_off hf hp hok h3 h3') hne⟩

end

/-! ## Examples -/

/-- A quadrilateral with a triangular hole and two Steiner points: 11 triangles. -/
theorem gp_measure : ∃ N t s, (∀ fuel, N ≤ fuel → program f64 fuel exPoly gpOps = .ok (t, s)) ∧
    resultArea2 (runPts f64 exPoly gpOps) t.triangles t.result = |shoelace2 exPoly.points| - ((holesOf gpOps).map fun H => |shoelace2 H|).sum ∧
    t.result.length = 11 := by
  have h1 : ∀ p ∈ extraPoints gpOps, InsidePolyline exPoly.points p ∧ ∀ x ∈ cyclicPairs exPoly.points, det2 x.1 x.2 p ≠ 0 := by decide +kernel
  obtain ⟨N, t, s, k1, k2, k3⟩ := C44_total gp_fine gp_general.1 gp_general.2.1 gp_up.1 gp_general.2.2 gp_up.2 gp_no_dip (by decide) (by decide)
    (fun p hp => strictlyInside_of (h1 p hp).1 (h1 p hp).2) (by simp [HolesApart, holesOf, gpOps, BuildOp.holePts])
  refine ⟨N, t, s, k1, k2, ?_⟩
  have e : exPoly.points.length + ((holesOf gpOps).map fun H => H.length + 2).sum + 2 * ((steinersOf gpOps).countP fun p => decide (InRegion exPoly gpOps p)) = 13 := by
    decide +kernel
  omega

/-- Its area. -/
example : |shoelace2 exPoly.points| - ((holesOf gpOps).map fun H => |shoelace2 H|).sum = 213 - 13 := by
  have e1 : shoelace2 exPoly.points = 213 := by norm_num [shoelace2, cyclicPairs, exPoly]
  have e2 : (holesOf gpOps).map shoelace2 = [13] := by norm_num [shoelace2, cyclicPairs, gpOps, holesOf, BuildOp.holePts]
  have e3 : ((holesOf gpOps).map fun H => |shoelace2 H|) = ((holesOf gpOps).map shoelace2).map fun x => |x| := by rw [List.map_map]; rfl
  rw [e1, e3, e2]; norm_num

/-- A quadrilateral with two holes, one Steiner point in the region and one in a hole. -/
def twoPoly : Source Nat := ⟨[⟨0, 0⟩, ⟨100, 10⟩, ⟨90, 120⟩, ⟨-10, 100⟩], [1, 2, 3, 4]⟩
def twoOps : List (BuildOp Nat) :=
  [.holes [⟨[⟨20, 20⟩, ⟨40, 30⟩, ⟨30, 50⟩], [5, 6, 7]⟩, ⟨[⟨60, 60⟩, ⟨80, 70⟩, ⟨70, 90⟩], [8, 9, 10]⟩], .steinerPoint ⟨50, 40⟩ 11, .steinerPoint ⟨30, 30⟩ 12]

theorem two_run : ∃ t s, programG no698 f64 500 twoPoly twoOps = .ok (t, s) ∧ ConstraintsInPlace (inputEdges twoPoly twoOps) t.triangles ∧ t.result ≠ [] ∧ t.result.length = 14 := by
  have : (match programG no698 f64 500 twoPoly twoOps with
    | .ok (t, _) => decide (ConstraintsInPlace (inputEdges twoPoly twoOps) t.triangles ∧ t.result ≠ [] ∧ t.result.length = 14)
    | .error _ => false) = true := by decide +kernel
  split at this
  · rename_i t s e
    exact ⟨t, s, e, by simpa using this⟩
  · cases this

theorem strictlyOutside_of {ps : List Point} {q : Point} (h1 : ¬ InsidePolyline ps q)
    (h2 : ∀ x ∈ cyclicPairs ps, det2 x.1 x.2 q ≠ 0 ∨ (q.x < x.1.x ∧ q.x < x.2.x) ∨ (x.1.x < q.x ∧ x.2.x < q.x)) : StrictlyOutside ps q := by
  refine ⟨h1, fun x hx hon => ?_⟩
  rcases h2 x hx with k | k | k
  · exact k (det2_on hon)
  all_goals
    obtain ⟨s, s0, s1, e, -⟩ := hon
    have m1 := mul_nonneg s0 (show 0 ≤ |x.2.x - q.x| from abs_nonneg _)
    have m2 := mul_nonneg (show 0 ≤ 1 - s by linarith) (show 0 ≤ |x.1.x - q.x| from abs_nonneg _)
  · rw [abs_of_pos (by linarith)] at m1 m2
    rcases eq_or_lt_of_le s0 with z | z
    · rw [← z] at e; linarith
    · have := mul_pos z (show 0 < x.2.x - q.x by linarith)
      linarith
  · rw [abs_of_neg (by linarith)] at m1 m2
    rcases eq_or_lt_of_le s0 with z | z
    · rw [← z] at e; linarith
    · have := mul_pos z (show 0 < q.x - x.2.x by linarith)
      linarith

/-- The hypotheses of `C43_area` and `C44_count` for it (`(0, 0)`, `(20, 20)` and `(60, 60)` are on a line, so it is not in general position). -/
example : FineInput f64 (allPoints (piecesOf twoPoly twoOps)) ∧ (∃ t s, programG no698 f64 500 twoPoly twoOps = .ok (t, s) ∧
      ConstraintsInPlace (inputEdges twoPoly twoOps) t.triangles ∧ t.result ≠ [] ∧ t.result.length = 14) ∧
    3 ≤ twoPoly.points.length ∧ (∀ H ∈ holesOf twoOps, 3 ≤ H.length) ∧ (∀ H ∈ holesOf twoOps, ∀ p ∈ H, StrictlyInside twoPoly.points p) ∧
    HolesApart twoOps ∧ SteinersOff twoPoly twoOps ∧ (steinersOf twoOps).map (fun p => decide (InRegion twoPoly twoOps p)) = [true, false] := by
  refine ⟨by decide +kernel, two_run, by decide, by decide, fun H hH p hp => ?_, ?_, fun ps hps p hp x hx on => ?_, by decide +kernel⟩
  · have : ∀ H ∈ holesOf twoOps, ∀ p ∈ H, InsidePolyline twoPoly.points p ∧ ∀ x ∈ cyclicPairs twoPoly.points, det2 x.1 x.2 p ≠ 0 := by decide +kernel
    exact strictlyInside_of (this H hH p hp).1 (this H hH p hp).2
  · have : (holesOf twoOps).Pairwise fun H H' =>
        (∀ q ∈ H', ¬ InsidePolyline H q ∧ ∀ x ∈ cyclicPairs H, det2 x.1 x.2 q ≠ 0 ∨ (q.x < x.1.x ∧ q.x < x.2.x) ∨ (x.1.x < q.x ∧ x.2.x < q.x)) ∧
        (∀ q ∈ H, ¬ InsidePolyline H' q ∧ ∀ x ∈ cyclicPairs H', det2 x.1 x.2 q ≠ 0 ∨ (q.x < x.1.x ∧ q.x < x.2.x) ∨ (x.1.x < q.x ∧ x.2.x < q.x)) := by decide +kernel
    exact this.imp fun k => ⟨fun q hq => strictlyOutside_of (k.1 q hq).1 (k.1 q hq).2, fun q hq => strictlyOutside_of (k.2 q hq).1 (k.2 q hq).2⟩
  · have : ∀ ps ∈ twoPoly.points :: holesOf twoOps, ∀ p ∈ steinersOf twoOps, ∀ x ∈ cyclicPairs ps, det2 x.1 x.2 p ≠ 0 := by decide +kernel
    exact this ps hps p hp x hx (det2_on on)

end P2T
