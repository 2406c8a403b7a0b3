import Verif.Proofs.Unique
import Verif.Props.Delaunay

/-!
# C47: the reported triangles depend only on the polygon, the holes and the Steiner points
-/

namespace P2T

section
variable {D : Type} {n : Num} {fuel : Nat} {poly : Source D} {ops : List (BuildOp D)} {t : Triangles D} {s : St} {g : Trap} [hg : g.Tame]

/-- The numbers of the corners of the polygon and of the holes. -/
theorem ids_points : (polyIds 0 (piecesOf poly ops)).map (·.map (ptOf (runPts n poly ops))) = poly.points :: holesOf ops := by
  obtain ⟨head, tail, xmax, xmin, ymax, ymin, hpts, -⟩ := ctx_points n (allPoints (piecesOf poly ops)) []
  have hpts : runPts n poly ops = [] ++ allPoints (piecesOf poly ops) ++ [head, tail] := by
    show (Ctx.new n (allPoints (piecesOf poly ops)) []).points = _
    rw [hpts]; simp
  have hids := polyIds_pts (runPts n poly ops) [] (piecesOf poly ops) [head, tail] hpts
  rw [polylines_of] at hids
  exact hids

theorem clear_of (hf : FineInput n (allPoints (piecesOf poly ops))) (hp : NoTouch poly ops)
    (h : programG g n fuel poly ops = .ok (t, s)) (hc : ConstraintsInPlace (inputEdges poly ops) t.triangles) :
    EdgesClear poly ops (runPts n poly ops) t.triangles t.result := by
  intro i hi T hT q hq ps hps e he on
  have pl := final_pl hf hp h hc
  rw [← ids_points (n := n)] at hps
  obtain ⟨L, hL, rfl⟩ := List.mem_map.1 hps
  rw [cyclic_map] at he
  obtain ⟨⟨a, b⟩, hab, rfl⟩ := List.mem_map.1 he
  have hE : EdgeOf t.triangles a b := by
    have : MeshEdge t.triangles a b := by
      rcases (pieceEdges_iff (u := a) (v := b)).2 (.inl (mem_allEdges.2 ⟨L, hL, hab⟩)) with k | k
      · exact hc.present _ k
      · obtain ⟨T, hT, i, hi⟩ := hc.present _ k
        exact ⟨T, hT, i, hi.symm⟩
    obtain ⟨T, hT, i, hi⟩ := this
    obtain ⟨j, hj, rfl⟩ := List.getElem_of_mem hT
    have sl := sl_at (List.getElem?_eq_getElem hj) i
    rcases hi with ⟨k1, k2⟩ | ⟨k1, k2⟩
    · exact ⟨_, _, _, _, .inl (by rw [← k1, ← k2]; exact sl)⟩
    · exact ⟨_, _, _, _, .inr (by rw [← k1, ← k2]; exact sl)⟩
  obtain ⟨r, r0, r1, e⟩ := onSeg_iff.1 on
  have hs := sl_at hT 0
  rcases r0.lt_or_eq with r0 | rfl
  · rcases r1.lt_or_eq with r1 | rfl
    · exact pl.noedge' hs hE ⟨r, r0, r1, e⟩ hq
    · refine pl.nocorner hs hE.vtx.2 ?_
      have : q = ptOf (runPts n poly ops) b := by rw [e]; simp [mix]
      rw [← this]; exact hq
  · refine pl.nocorner hs hE.vtx.1 ?_
    have : q = ptOf (runPts n poly ops) a := by rw [e]; simp [mix]
    rw [← this]; exact hq

/-- **C47.**  Let the same polygon, holes and Steiner points be given twice: in any order, by any calls, the closed polylines starting anywhere and running in either direction, and
perhaps with different number formats.  If no input point is inside an input edge, no four points are on a circle, and in both runs the input edges are in place, then both runs report the
same triangles. -/
theorem C47_unique {D' : Type} {n' : Num} {fuel' : Nat} {poly' : Source D'} {ops' : List (BuildOp D')} {t' : Triangles D'} {s' : St}
    (hs : SameInput poly ops poly' ops') (nc : NoFourCocircular (allPoints (piecesOf poly ops)))
    (hf : FineInput n (allPoints (piecesOf poly ops))) (hf' : FineInput n' (allPoints (piecesOf poly' ops')))
    (hp : NoTouch poly ops) (hp' : NoTouch poly' ops')
    (h : programG g n fuel poly ops = .ok (t, s)) {g' : Trap} [g'.Tame] (h' : programG g' n' fuel' poly' ops' = .ok (t', s'))
    (hc : ConstraintsInPlace (inputEdges poly ops) t.triangles) (hc' : ConstraintsInPlace (inputEdges poly' ops') t'.triangles)
    (h3 : 3 ≤ poly.points.length) (h3' : ∀ H ∈ holesOf ops, 3 ≤ H.length) (hin : ∀ p ∈ extraPoints ops, StrictlyInside poly.points p) :
    TrianglesAmong (runPts n poly ops) t.triangles t.result (runPts n' poly' ops') t'.triangles t'.result ∧
    TrianglesAmong (runPts n' poly' ops') t'.triangles t'.result (runPts n poly ops) t.triangles t.result := by
  have t3 : 3 ≤ poly'.points.length := by rw [← hs.polygon.length]; exact h3
  have t3' : ∀ H ∈ holesOf ops', 3 ≤ H.length := by
    intro H hH
    obtain ⟨H', k1, k2⟩ := hs.holes' H hH
    rw [← k2.length]; exact h3' H' k1
  have tin : ∀ p ∈ extraPoints ops', StrictlyInside poly'.points p := fun p hp => hs.polygon.strict (hin p (hs.extra hp))
  have nc' : NoFourCocircular (allPoints (piecesOf poly' ops')) := fun a ha b hb c hc d hd =>
    nc a ((hs.points a).2 ha) b ((hs.points b).2 hb) c ((hs.points c).2 hc) d ((hs.points d).2 hd)
  have R := (triangulates_of hf hp h hc h3 h3' hin).1
  have R' := (triangulates_of hf' hp' h' hc' t3 t3' tin).1
  have C := C46_delaunay hf hp h hc h3 h3' fun H hH p hp => hin p (holes_extra hH p hp)
  have C' := C46_delaunay hf' hp' h' hc' t3 t3' fun H hH p hp => tin p (holes_extra hH p hp)
  have E := clear_of hf hp h hc
  have E' := clear_of hf' hp' h' hc'
  have al : ∀ i, i < (allPoints (piecesOf poly ops)).length → ptOf (runPts n poly ops) i ∈ allPoints (piecesOf poly ops) := fun i hi => by
    rw [input_point hi]; exact List.getElem_mem hi
  have al' : ∀ i, i < (allPoints (piecesOf poly' ops')).length → ptOf (runPts n' poly' ops') i ∈ allPoints (piecesOf poly' ops') := fun i hi => by
    rw [input_point hi]; exact List.getElem_mem hi
  exact ⟨cdt_unique hs al al' R.off R'.off C C' E E' nc, cdt_unique hs.symm al' al R'.off R.off C' C E' E nc'⟩

/-- **C47, total.**  Two admissible descriptions of the same input, with no four points on a circle: both runs terminate without panic and report the same triangles. -/
theorem C47_total {D' : Type} {n' : Num} {poly' : Source D'} {ops' : List (BuildOp D')} (a : Admissible n poly ops) (a' : Admissible n' poly' ops')
    (hs : SameInput poly ops poly' ops') (nc : NoFourCocircular (allPoints (piecesOf poly ops))) :
    ∃ N t s t' s', (∀ fuel, N ≤ fuel → program n fuel poly ops = .ok (t, s) ∧ program n' fuel poly' ops' = .ok (t', s')) ∧
      TrianglesAmong (runPts n poly ops) t.triangles t.result (runPts n' poly' ops') t'.triangles t'.result ∧
      TrianglesAmong (runPts n' poly' ops') t'.triangles t'.result (runPts n poly ops) t.triangles t.result := by
  obtain ⟨N, t, s, h1, h2, h4⟩ := C41_total a.fine a.noTouch a.scan a.up a.apart a.ok a.noDip
  obtain ⟨N', t', s', h1', h2', h4'⟩ := C41_total a'.fine a'.noTouch a'.scan a'.up a'.apart a'.ok a'.noDip
  refine ⟨max N N', t, s, t', s', fun fuel hfu => ⟨h1 fuel (by omega), h1' fuel (by omega)⟩, ?_⟩
  exact C47_unique hs nc a.fine a'.fine a.noTouch a'.noTouch (h2 N (Nat.le_refl _)) (h2' N' (Nat.le_refl _)) h4 h4' a.three a.three' a.inside

/-- The order of the builder calls does not matter. -/
theorem sameInput_perm {ops' : List (BuildOp D)} (h : ops.Perm ops') : SameInput poly ops poly ops' := by
  have self : ∀ ps : List Point, SameClosed ps ps := fun ps => ⟨[], ps, by simp, .inl (by simp)⟩
  have ho : (holesOf ops).Perm (holesOf ops') := h.flatMap_right _
  have hst : (steinersOf ops).Perm (steinersOf ops') := h.flatMap_right _
  exact ⟨self _, fun H hH => ⟨H, ho.mem_iff.1 hH, self _⟩, fun H hH => ⟨H, ho.mem_iff.2 hH, self _⟩, fun p => hst.mem_iff⟩

end

/-! ## Examples -/

/-- The example input, with the polygon in the other direction starting at another corner, the hole starting at another corner, and the calls in another order. -/
def gpPoly' : Source Nat := ⟨[⟨9, 12⟩, ⟨10, 1⟩, ⟨0, 0⟩, ⟨-1, 10⟩], [1, 2, 3, 4]⟩
def gpOps' : List (BuildOp Nat) :=
  [.steinerPoints ⟨[⟨7, 2⟩, ⟨1, 2⟩], [9, 5]⟩, .holes [⟨[⟨6, 4⟩, ⟨5, 8⟩, ⟨3, 3⟩], [7, 8, 6]⟩]]

theorem gp_same : SameInput exPoly gpOps gpPoly' gpOps' := by
  refine ⟨⟨[⟨0, 0⟩, ⟨10, 1⟩, ⟨9, 12⟩], [⟨-1, 10⟩], rfl, .inr rfl⟩, ?_, ?_, ?_⟩
  · simp only [holesOf, gpOps, gpOps', List.flatMap_cons, List.flatMap_nil, BuildOp.holePts, List.map_cons, List.map_nil, List.nil_append, List.append_nil, List.mem_singleton,
      forall_eq, exists_eq_left]
    exact ⟨[⟨3, 3⟩], [⟨6, 4⟩, ⟨5, 8⟩], rfl, .inl rfl⟩
  · simp only [holesOf, gpOps, gpOps', List.flatMap_cons, List.flatMap_nil, BuildOp.holePts, List.map_cons, List.map_nil, List.nil_append, List.append_nil, List.mem_singleton,
      forall_eq, exists_eq_left]
    exact ⟨[⟨3, 3⟩], [⟨6, 4⟩, ⟨5, 8⟩], rfl, .inl rfl⟩
  · intro p
    simp [steinersOf, gpOps, gpOps', BuildOp.steinerPts, or_comm]

theorem inside_of_check {poly : Source Nat} {ops : List (BuildOp Nat)} (h : ∀ p ∈ extraPoints ops, InsidePolyline poly.points p ∧ ∀ x ∈ cyclicPairs poly.points, det2 x.1 x.2 p ≠ 0) :
    ∀ p ∈ extraPoints ops, StrictlyInside poly.points p := fun p hp => strictlyInside_of (h p hp).1 (h p hp).2

theorem gp_admissible : Admissible f64 exPoly gpOps :=
  ⟨⟨gp_fine, gp_general.1, gp_general.2.1, gp_up.1, gp_general.2.2, gp_up.2, by decide, by decide, inside_of_check (by decide +kernel)⟩, gp_no_dip⟩

theorem gp_admissible' : Admissible f64 gpPoly' gpOps' :=
  ⟨⟨by decide +kernel, by decide +kernel, by decide +kernel, by decide +kernel, by decide +kernel, by decide +kernel, by decide, by decide,
    inside_of_check (by decide +kernel)⟩, by decide +kernel⟩

theorem gp_unique : ∃ N t s t' s', (∀ fuel, N ≤ fuel → program f64 fuel exPoly gpOps = .ok (t, s) ∧ program f64 fuel gpPoly' gpOps' = .ok (t', s')) ∧
    TrianglesAmong (runPts f64 exPoly gpOps) t.triangles t.result (runPts f64 gpPoly' gpOps') t'.triangles t'.result ∧
    TrianglesAmong (runPts f64 gpPoly' gpOps') t'.triangles t'.result (runPts f64 exPoly gpOps) t.triangles t.result :=
  C47_total gp_admissible gp_admissible' gp_same (by decide +kernel)

end P2T
