import Verif.Props.Float
import Verif.Spec.Steiner

/-!
# C59: what a Steiner point outside the polygon or in a hole can do
-/

namespace P2T

/-- From one point to another without meeting the closed polyline: both are inside or none. -/
theorem inside_along {ps : List Point} {X Z : Point} (h : ∀ e ∈ cyclicPairs ps, ∀ q, OnSeg X Z q → ¬ OnSeg e.1 e.2 q) :
    InsidePolyline ps X ↔ InsidePolyline ps Z := by
  have e0 : (List.range ps.length).map (ptOf ps) = ps := by
    apply List.ext_getElem
    · simp
    · intro i h1 h2
      simp [ptOf, List.getD_eq_getElem?_getD, List.getElem?_eq_getElem h2]
  have w : wind (ptOf ps) (List.range ps.length) X = wind (ptOf ps) (List.range ps.length) Z := by
    refine wind_const fun x hx hm => ?_
    obtain ⟨a, b, a0, a1, b0, b1, k1, k2⟩ := hm
    refine h (ptOf ps x.1, ptOf ps x.2) ?_ (mix a X Z) ⟨a, a0, a1, rfl, rfl⟩ ⟨b, b0, b1, k1, k2⟩
    have : (ptOf ps x.1, ptOf ps x.2) ∈ cyclicPairs ((List.range ps.length).map (ptOf ps)) := by
      rw [cyclic_map]; exact List.mem_map.2 ⟨x, hx, rfl⟩
    rwa [e0] at this
  have key : ∀ {X Z : Point}, wind (ptOf ps) (List.range ps.length) X = wind (ptOf ps) (List.range ps.length) Z → InsidePolyline ps X → InsidePolyline ps Z := by
    intro X Z w hX
    obtain ⟨k, hk⟩ := inside_odd (R := ptOf ps) (L := List.range ps.length) (q := X) (by rw [e0]; exact hX)
    have := odd_inside (R := ptOf ps) (L := List.range ps.length) (q := Z) (k := k) (by rw [← w, hk])
    rwa [e0] at this
  exact ⟨key w, key w.symm⟩

section
variable {D : Type} {n : Num} {fuel : Nat} {poly : Source D} {ops : List (BuildOp D)} {t : Triangles D} {s : St}

/-- A corner of a reported triangle is a corner of the polygon or of a hole, or a Steiner point inside the polygon and in no hole. -/
theorem reported_corner {all : List Point} {M : Store} {res : List Nat} (R : TriangulatesRegion poly ops all M res) (E : EdgesClear poly ops all M res)
    (hso : SteinersOff poly ops) (hall : ∀ i, i < (allPoints (piecesOf poly ops)).length → ptOf all i ∈ allPoints (piecesOf poly ops))
    {i : Nat} (hi : i ∈ res) {T : Tri} (hT : M[i]? = some T) (k : Fin 3) :
    (∃ ps ∈ poly.points :: holesOf ops, ptOf all (T.points.get k) ∈ ps) ∨ (ptOf all (T.points.get k) ∈ steinersOf ops ∧ InRegion poly ops (ptOf all (T.points.get k))) := by
  obtain ⟨_, e, hpos, hcor⟩ := R.proper i hi
  rw [hT] at e; cases e
  rcases (mem_allPoints _).1 (hall _ (hcor k)) with q | q
  · exact .inl q
  refine .inr ⟨q, ?_⟩
  have hpos : 0 < det2 (ptOf all (T.points.get 0)) (ptOf all (T.points.get 1)) (ptOf all (T.points.get 2)) := hpos
  obtain ⟨X, hX, -⟩ := common_point hpos hpos
  have rot : ∀ {a b c Y : Point}, Inside a b c Y → Inside b c a Y := fun k => ⟨k.2.1, k.2.2, k.1⟩
  have see : ∀ s : Rat, 0 < s → s < 1 → T.Inside all (mix s X (ptOf all (T.points.get k))) := by
    intro s s0 s1
    match k with
    | 0 => exact inside_toward hX hpos s0 s1
    | 1 => exact rot (rot (inside_toward (rot hX) (by rw [det2_rotA]; exact hpos) s0 s1))
    | 2 => exact rot (inside_toward (rot (rot hX)) (by rw [det2_rotB]; exact hpos) s0 s1)
  have clear : ∀ ps ∈ poly.points :: holesOf ops, ∀ e ∈ cyclicPairs ps, ∀ q, OnSeg X (ptOf all (T.points.get k)) q → ¬ OnSeg e.1 e.2 q := by
    intro ps hps e he z hz on
    obtain ⟨r, r0, r1, ez⟩ := onSeg_iff.1 hz
    rcases r0.lt_or_eq with r0 | rfl
    · rcases r1.lt_or_eq with r1 | rfl
      · exact E i hi T hT z (by rw [ez]; exact see r r0 r1) ps hps e he on
      · have : z = ptOf all (T.points.get k) := by rw [ez]; simp [mix]
        rw [this] at on
        exact hso ps hps _ q e he on
    · have : z = X := by rw [ez]; simp [mix]
      rw [this] at on
      exact E i hi T hT X hX ps hps e he on
  have reg := R.inside i hi T hT X hX
  exact ⟨(inside_along (clear _ (by simp))).1 reg.1, fun H hH k => reg.2 H hH ((inside_along (clear H (by simp [hH]))).2 k)⟩

theorem SameInside.symm {D' : Type} {poly' : Source D'} {ops' : List (BuildOp D')} (h : SameInside poly ops poly' ops') : SameInside poly' ops' poly ops :=
  ⟨⟨h.polygon.symm, fun H hH => by obtain ⟨H', k1, k2⟩ := h.holes' H hH; exact ⟨H', k1, k2.symm⟩,
    fun H hH => by obtain ⟨H', k1, k2⟩ := h.holes H hH; exact ⟨H', k1, k2.symm⟩⟩, fun p hp => (h.steiner p ((h.toSameOutline.region p).2 hp)).symm⟩

theorem SameInside.corner {D' : Type} {poly' : Source D'} {ops' : List (BuildOp D')} (h : SameInside poly ops poly' ops') {p : Point}
    (hp : (∃ ps ∈ poly.points :: holesOf ops, p ∈ ps) ∨ (p ∈ steinersOf ops ∧ InRegion poly ops p)) : p ∈ allPoints (piecesOf poly' ops') := by
  rw [mem_allPoints]
  rcases hp with k | ⟨k1, k2⟩
  · exact .inl ((h.toSameOutline.poly_iff (Q := fun ps => p ∈ ps) fun ps qs hs => hs.mem p).1 k)
  · exact .inr ((h.steiner p k2).1 k1)

/-- **C59, dichotomy.**  The documentation of `add_steiner_point` claims that a point outside the polygon has no effect on the result (C58 refutes it).  What holds: let two inputs have
the same polygon, the same holes and the same Steiner points inside the polygon and outside the holes, while all other Steiner points are arbitrary (outside the polygon or in a hole).
If no four points of one of the two inputs are on a circle, then both runs terminate without panic, and both report the same triangles, unless one of the results is empty. -/
theorem C59_no_effect_or_empty {D' : Type} {n' : Num} {poly' : Source D'} {ops' : List (BuildOp D')} (a : AdmissibleOutline n poly ops) (a' : AdmissibleOutline n' poly' ops')
    (hs : SameInside poly ops poly' ops') (nc : NoFourCocircular (allPoints (piecesOf poly ops))) :
    ∃ N t s t' s', (∀ fuel, N ≤ fuel → program n fuel poly ops = .ok (t, s) ∧ program n' fuel poly' ops' = .ok (t', s')) ∧
      (t.result = [] ∨ t'.result = [] ∨
        TrianglesAmong (runPts n poly ops) t.triangles t.result (runPts n' poly' ops') t'.triangles t'.result ∧
        TrianglesAmong (runPts n' poly' ops') t'.triangles t'.result (runPts n poly ops) t.triangles t.result) := by
  obtain ⟨N, t, s, h1, h2, h4⟩ := C41_total a.fine a.noTouch a.scan a.up a.apart a.ok a.noDip
  obtain ⟨N', t', s', h1', h2', h4'⟩ := C41_total a'.fine a'.noTouch a'.scan a'.up a'.apart a'.ok a'.noDip
  refine ⟨max N N', t, s, t', s', fun fuel hfu => ⟨h1 fuel (by omega), h1' fuel (by omega)⟩, ?_⟩
  have h := h2 N (Nat.le_refl _)
  have h' := h2' N' (Nat.le_refl _)
  by_cases ne : t.result = []
  · exact .inl ne
  by_cases ne' : t'.result = []
  · exact .inr (.inl ne')
  have R := triangulates_ne a.fine a.noTouch h h4 a.three a.three' a.holes ne
  have R' := triangulates_ne a'.fine a'.noTouch h' h4' a'.three a'.three' a'.holes ne'
  have C := C46_delaunay a.fine a.noTouch h h4 a.three a.three' a.holes
  have C' := C46_delaunay a'.fine a'.noTouch h' h4' a'.three a'.three' a'.holes
  have E := clear_of a.fine a.noTouch h h4
  have E' := clear_of a'.fine a'.noTouch h' h4'
  have al : ∀ i, i < (allPoints (piecesOf poly ops)).length → ptOf (runPts n poly ops) i ∈ allPoints (piecesOf poly ops) := fun i hi => by
    rw [input_point hi]; exact List.getElem_mem hi
  have al' : ∀ i, i < (allPoints (piecesOf poly' ops')).length → ptOf (runPts n' poly' ops') i ∈ allPoints (piecesOf poly' ops') := fun i hi => by
    rw [input_point hi]; exact List.getElem_mem hi
  have m := fun i (hi : i ∈ t.result) T hT k => hs.corner (reported_corner R E (steiners_off a.fine a.noTouch a.ok a.three a.three') al hi (T := T) hT k)
  have m' := fun i (hi : i ∈ t'.result) T hT k => hs.symm.corner (reported_corner R' E' (steiners_off a'.fine a'.noTouch a'.ok a'.three a'.three') al' hi (T := T) hT k)
  have own : ∀ i ∈ t.result, ∀ T, t.triangles[i]? = some T → ∀ k, ptOf (runPts n poly ops) (T.points.get k) ∈ allPoints (piecesOf poly ops) := by
    intro i hi T hT k
    obtain ⟨_, e, -, hcor⟩ := R.proper i hi
    rw [hT] at e; cases e
    exact al _ (hcor k)
  exact .inr (.inr ⟨cdt_unique' hs.toSameOutline al m m' own m' R.off R'.off C C' E E' nc, cdt_unique' hs.symm.toSameOutline al' m' m m' own R'.off R.off C' C E' E nc⟩)

/-- **C59.**  Adding Steiner points outside the polygon or in a hole to an admissible input: the result is empty, or it is the same as without them. -/
theorem C59_same_or_empty {D' : Type} {n' : Num} {poly' : Source D'} {ops' : List (BuildOp D')} (a : Admissible n poly ops) (a' : AdmissibleOutline n' poly' ops')
    (hs : SameInside poly ops poly' ops') (nc : NoFourCocircular (allPoints (piecesOf poly ops))) :
    ∃ N t s t' s', (∀ fuel, N ≤ fuel → program n fuel poly ops = .ok (t, s) ∧ program n' fuel poly' ops' = .ok (t', s')) ∧ t.result ≠ [] ∧
      (t'.result = [] ∨
        TrianglesAmong (runPts n poly ops) t.triangles t.result (runPts n' poly' ops') t'.triangles t'.result ∧
        TrianglesAmong (runPts n' poly' ops') t'.triangles t'.result (runPts n poly ops) t.triangles t.result) := by
  have ao : AdmissibleOutline n poly ops := ⟨⟨a.fine, a.noTouch, a.scan, a.up, a.apart, a.ok, a.three, a.three', fun H hH p hp => a.inside p (holes_extra hH p hp)⟩, a.noDip⟩
  obtain ⟨N, t, s, t', s', h1, h2⟩ := C59_no_effect_or_empty ao a' hs nc
  obtain ⟨N2, t2, s2, k1, k2, k3⟩ := C41_total a.fine a.noTouch a.scan a.up a.apart a.ok a.noDip
  have e1 := (h1 (max N N2) (by omega)).1
  rw [k1 (max N N2) (by omega)] at e1
  cases e1
  have ne := C42_nonempty a.fine (k2 N2 (Nat.le_refl _)) k3 a.three a.three' a.inside
  exact ⟨N, t, s, t', s', h1, ne, h2.resolve_left ne⟩

/-- Points on a binary grid: the conditions on the arithmetic hold, no matter how it rounds. -/
theorem SimpleOutline.sound (n : Num) [F64Like n] [Tenths n] {e : Int} (h : SimpleOutline poly ops) (hg : OnGrid e (allPoints (piecesOf poly ops))) (he : -20 ≤ e) (he' : e ≤ 220)
    (hc : ClearOfCorners (allPoints (piecesOf poly ops)) ∨ CornersOnGrid e (allPoints (piecesOf poly ops))) : SoundOutline n poly ops := by
  obtain ⟨f1, f2, f3⟩ : FineInput n (allPoints (piecesOf poly ops)) ∧ ScanComplete n (withArtificial n (allPoints (piecesOf poly ops))) ∧
      EpsUp n (allPoints (piecesOf poly ops)) := by
    rcases hc with hc | hc
    · obtain ⟨f1, f2, f3, -⟩ := hg.fine n he he' hc h.distinct (two_points h.three) h.size
      exact ⟨f1, f2, f3⟩
    · refine hg.fine_round n he he' hc ?_ h.distinct (two_points h.three) h.size
      intro x0 x1 y0 y1 box
      constructor
      · by_contra c
        refine not_flat h.distinct h.three h.noTouch Point.y Point.x (.inr ⟨rfl, rfl⟩) (c := x0) fun p hp => ?_
        have := box.inside p hp
        linarith
      · by_contra c
        refine not_flat h.distinct h.three h.noTouch Point.x Point.y (.inl ⟨rfl, rfl⟩) (c := y0) fun p hp => ?_
        have := box.inside p hp
        linarith
  exact ⟨f1, h.noTouch, f2, f3, h.apart, pieces_ok h.distinct h.three h.three', h.three, h.three', h.holes⟩

/-- **C59.**  The hypotheses on an input with outside Steiner points hold for `f64` when the coordinates are on a binary grid, no matter how the arithmetic rounds. -/
theorem C59_admissible (n : Num) [F64Like n] [Tenths n] {e : Int} (h : PlainOutline poly ops) (hg : OnGrid e (allPoints (piecesOf poly ops))) (he : -20 ≤ e) (he' : e ≤ 220)
    (hc : ClearOfCorners (allPoints (piecesOf poly ops)) ∨ CornersOnGrid e (allPoints (piecesOf poly ops))) : AdmissibleOutline n poly ops :=
  ⟨h.toSimpleOutline.sound n hg he he' hc, h.noDip⟩

end

/-! ## Example: the example input with a Steiner point outside the polygon and another one in the hole -/

def outOps : List (BuildOp Nat) := gpOps ++ [.steinerPoint ⟨14, 5⟩ 17, .steinerPoint ⟨5, 5⟩ 18]

theorem out_plain : PlainOutline exPoly outOps :=
  ⟨⟨by decide, by decide +kernel, by decide +kernel, by decide +kernel, by decide, by decide, fun H hH p hp => by
    have : ∀ H ∈ holesOf outOps, ∀ p ∈ H, InsidePolyline exPoly.points p ∧ ∀ x ∈ cyclicPairs exPoly.points, det2 x.1 x.2 p ≠ 0 := by decide +kernel
    exact strictlyInside_of (this H hH p hp).1 (this H hH p hp).2⟩, by decide +kernel⟩

theorem out_admissible : AdmissibleOutline f64 exPoly outOps :=
  C59_admissible f64 out_plain (e := 0) (grid_of_check (by decide +kernel)) (by norm_num) (by norm_num)
    (.inl (clear_of_box (x0 := -1) (x1 := 14) (y0 := 0) (y1 := 12) (by decide +kernel) (by decide +kernel)))

theorem out_same : SameInside exPoly gpOps exPoly outOps := by
  have self : ∀ ps : List Point, SameClosed ps ps := fun ps => ⟨[], ps, by simp, .inl (by simp)⟩
  have e1 : holesOf outOps = holesOf gpOps := by decide +kernel
  have e2 : steinersOf outOps = steinersOf gpOps ++ [⟨14, 5⟩, ⟨5, 5⟩] := by decide +kernel
  have e3 : ∀ p ∈ ([⟨14, 5⟩, ⟨5, 5⟩] : List Point), ¬ InRegion exPoly gpOps p := by decide +kernel
  refine ⟨⟨self _, fun H hH => ⟨H, by rw [e1]; exact hH, self _⟩, fun H hH => ⟨H, by rw [← e1]; exact hH, self _⟩⟩, fun p hp => ?_⟩
  rw [e2, List.mem_append]
  exact ⟨.inl, fun k => k.resolve_right fun k => e3 p k hp⟩

theorem out_example : ∃ N t s t' s', (∀ fuel, N ≤ fuel → program f64 fuel exPoly gpOps = .ok (t, s) ∧ program f64 fuel exPoly outOps = .ok (t', s')) ∧ t.result ≠ [] ∧
    (t'.result = [] ∨
      TrianglesAmong (runPts f64 exPoly gpOps) t.triangles t.result (runPts f64 exPoly outOps) t'.triangles t'.result ∧
      TrianglesAmong (runPts f64 exPoly outOps) t'.triangles t'.result (runPts f64 exPoly gpOps) t.triangles t.result) :=
  C59_same_or_empty gp_admissible out_admissible out_same (by decide +kernel)

/-- It is not empty: eleven triangles. -/
example : (match program f64 200 exPoly outOps with | .ok (t, _) => t.result.length | .error _ => 0) = 11 := by decide +kernel

end P2T
