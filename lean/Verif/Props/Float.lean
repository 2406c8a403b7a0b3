import Verif.Proofs.GridInput
import Verif.Props.Unique
import Verif.Props.Sentinels

/-!
# C48, C49: no hypothesis on the float arithmetic

The theorems about whole runs (C38–C47) assume that the float computations of the crate report no wrong sign.  Here these assumptions are discharged by an
error analysis of the modelled `f64` arithmetic: they follow from conditions on the exact coordinates.
-/

namespace P2T

section
variable {D : Type} {poly : Source D} {ops : List (BuildOp D)} (n : Num) [F64Like n]

theorem noRepeat_of {ps : List Point} (h : ps.Nodup) (h2 : 2 ≤ ps.length) : NoRepeat ps := by
  rw [noRepeat_iff]
  intro i hi
  rw [Ne, List.Nodup.getElem_inj_iff h]
  intro e
  rcases Nat.lt_or_ge (i + 1) ps.length with k | k
  · rw [Nat.mod_eq_of_lt k] at e; omega
  · have : i + 1 = ps.length := by omega
    rw [this, Nat.mod_self] at e; omega

theorem mem_polylinesOf {ps : List Point} : ∀ {l : List Piece}, Piece.polyline ps ∈ l → ps ∈ polylinesOf l
  | .polyline qs :: l, h => by
    rcases List.mem_cons.1 h with e | e
    · cases e; simp [polylinesOf]
    · simp [polylinesOf, mem_polylinesOf e]
  | .steiner qs :: l, h => by
    rcases List.mem_cons.1 h with e | e
    · cases e
    · simpa [polylinesOf] using mem_polylinesOf e

theorem pieces_ok (hd : (allPoints (piecesOf poly ops)).Nodup) (h3 : 3 ≤ poly.points.length) (h3' : ∀ H ∈ holesOf ops, 3 ≤ H.length) :
    ∀ p ∈ piecesOf poly ops, p.Ok := by
  intro p hp
  cases p with
  | steiner ps => trivial
  | polyline ps =>
    have nd : ps.Nodup := by
      have := List.nodup_flatMap.1 hd
      exact this.1 _ hp
    have mem := mem_polylinesOf hp
    rw [polylines_of, List.mem_cons] at mem
    refine noRepeat_of nd ?_
    rcases mem with rfl | k
    · omega
    · have := h3' _ k; omega

theorem two_points (h3 : 3 ≤ poly.points.length) : 2 ≤ (allPoints (piecesOf poly ops)).length := by
  have : (allPoints (piecesOf poly ops)).length = poly.points.length + (extraPoints ops).length := by
    simp [allPoints, piecesOf, extraPoints, Piece.pts]
  omega

/-- The corners of the polygon are not all on one vertical or horizontal line: the nearer neighbour of the first one would be inside an edge. -/
theorem not_flat (hd : (allPoints (piecesOf poly ops)).Nodup) (h3 : 3 ≤ poly.points.length) (hp : NoTouch poly ops) (f g : Point → Rat)
    (hfg : (f = Point.x ∧ g = Point.y) ∨ f = Point.y ∧ g = Point.x) {c : Rat} (hc : ∀ p ∈ allPoints (piecesOf poly ops), g p = c) : False := by
  generalize hA : allPoints (piecesOf poly ops) = A at *
  have hids := polyIds_pts A [] (piecesOf poly ops) [] (by simp [hA])
  rw [polylines_of] at hids
  simp only [List.length_nil] at hids
  obtain ⟨L, hL, e⟩ := List.mem_map.1 (show poly.points ∈ _ by rw [hids]; simp)
  have h3L : 3 ≤ L.length := by rw [← e] at h3; simpa using h3
  have nd := (List.nodup_flatten.1 (polyIds_nodup 0 (piecesOf poly ops))).1 L hL
  have lt : ∀ v ∈ L, v < A.length := fun v hv => by rw [← hA]; simpa using (polyIds_bound L hL v hv).2
  have mem : ∀ v ∈ L, ptOf A v ∈ A := fun v hv => by
    unfold ptOf; rw [List.getD_eq_getElem?_getD, List.getElem?_eq_getElem (lt v hv)]; simp
  have inj : ∀ u ∈ L, ∀ v ∈ L, u ≠ v → f (ptOf A u) ≠ f (ptOf A v) := by
    intro u hu v hv huv k
    apply huv
    have k2 := (hc _ (mem u hu)).trans (hc _ (mem v hv)).symm
    have : ptOf A u = ptOf A v := by
      generalize ptOf A u = a at *
      generalize ptOf A v = b at *
      cases a; cases b
      rcases hfg with ⟨rfl, rfl⟩ | ⟨rfl, rfl⟩ <;> simp_all
    unfold ptOf at this
    rw [List.getD_eq_getElem?_getD, List.getD_eq_getElem?_getD, List.getElem?_eq_getElem (lt u hu), List.getElem?_eq_getElem (lt v hv)] at this
    exact (List.Nodup.getElem_inj_iff hd).1 (by simpa using this)
  obtain ⟨v, hv, hmin⟩ : ∃ v ∈ L, ∀ u ∈ L, f (ptOf A v) ≤ f (ptOf A u) := by
    have : ∀ l : List Nat, l ≠ [] → ∃ v ∈ l, ∀ u ∈ l, f (ptOf A v) ≤ f (ptOf A u) := by
      intro l
      induction l with
      | nil => intro h; exact absurd rfl h
      | cons a l ih =>
        intro _
        by_cases h : l = []
        · subst h; exact ⟨a, by simp, by simp⟩
        · obtain ⟨v, hv, k⟩ := ih h
          rcases le_total (f (ptOf A a)) (f (ptOf A v)) with q | q
          · refine ⟨a, by simp, fun u hu => ?_⟩
            rcases List.mem_cons.1 hu with rfl | hu
            · exact le_refl _
            · exact le_trans q (k u hu)
          · refine ⟨v, by simp [hv], fun u hu => ?_⟩
            rcases List.mem_cons.1 hu with rfl | hu
            · exact q
            · exact k u hu
    exact this L (by rintro rfl; simp at h3L)
  obtain ⟨b, hb⟩ := cyclic_next hv
  obtain ⟨a, ha⟩ := cyclic_prev hv
  have mb := cyclic_mem_right hb
  have ma := cyclic_mem_left ha
  simp only at mb ma
  have nab : a ≠ b := by rintro rfl; exact cyclic_no_back nd h3L hb ha
  have nvb : v ≠ b := by rintro rfl; exact cyclic_no_back nd h3L hb hb
  have nva : v ≠ a := by rintro rfl; exact cyclic_no_back nd h3L ha ha
  have key : ∀ {a b : Nat}, a ∈ L → b ∈ L → v ≠ a → f (ptOf A a) < f (ptOf A b) → InEdge poly ops v b → False := by
    intro a b ma mb nva hlt hE
    have l1 : f (ptOf A v) < f (ptOf A a) := lt_of_le_of_ne (hmin a ma) (inj v hv a ma nva)
    have ga := hc _ (mem a ma)
    have gb := hc _ (mem b mb)
    have gv := hc _ (mem v hv)
    have hm := mem a ma
    have bt : Between (ptOf A v) (ptOf A b) (ptOf A a) ∧ Between (ptOf A b) (ptOf A v) (ptOf A a) := by
      generalize ptOf A a = pa at *
      generalize ptOf A b = pb at *
      generalize ptOf A v = pv at *
      rcases hfg with ⟨rfl, rfl⟩ | ⟨rfl, rfl⟩
      · refine ⟨⟨by unfold det2; rw [ga, gb, gv]; ring, ?_⟩, by unfold det2; rw [ga, gb, gv]; ring, ?_⟩ <;> (rw [ga, gb, gv]; nlinarith)
      · refine ⟨⟨by unfold det2; rw [ga, gb, gv]; ring, ?_⟩, by unfold det2; rw [ga, gb, gv]; ring, ?_⟩ <;> (rw [ga, gb, gv]; nlinarith)
    unfold NoTouch at hp
    rw [hA] at hp
    rcases hE with k | k
    · exact hp _ k _ hm bt.1
    · exact hp _ k _ hm bt.2
  have E1 : InEdge poly ops v b := pieceEdges_iff.2 (.inl (mem_allEdges.2 ⟨L, hL, hb⟩))
  have E2 : InEdge poly ops v a := pieceEdges_iff.2 (.inr (mem_allEdges.2 ⟨L, hL, ha⟩))
  rcases lt_or_gt_of_ne (inj a ma b mb nab) with k | k
  · exact key ma mb nva k E1
  · exact key mb ma nvb k E2

theorem SimpleInput.open_box (h : SimpleInput poly ops) : ∀ x0 x1 y0 y1, BoundingBox (allPoints (piecesOf poly ops)) x0 x1 y0 y1 → x0 < x1 ∧ y0 < y1 := by
  intro x0 x1 y0 y1 box
  constructor
  · by_contra c
    refine not_flat h.distinct h.three h.noTouch Point.y Point.x (.inr ⟨rfl, rfl⟩) (c := x0) fun p hp => ?_
    have := box.inside p hp
    linarith
  · by_contra c
    refine not_flat h.distinct h.three h.noTouch Point.x Point.y (.inl ⟨rfl, rfl⟩) (c := y0) fun p hp => ?_
    have := box.inside p hp
    linarith

/-- Points on a binary grid: the conditions on the arithmetic hold, no matter how it rounds. -/
theorem SimpleInput.sound [Tenths n] {e : Int} (h : SimpleInput poly ops) (hg : OnGrid e (allPoints (piecesOf poly ops))) (he : -20 ≤ e) (he' : e ≤ 220)
    (hc : ClearOfCorners (allPoints (piecesOf poly ops)) ∨ CornersOnGrid e (allPoints (piecesOf poly ops))) : SoundInput n poly ops := by
  obtain ⟨f1, f2, f3⟩ : FineInput n (allPoints (piecesOf poly ops)) ∧ ScanComplete n (withArtificial n (allPoints (piecesOf poly ops))) ∧
      EpsUp n (allPoints (piecesOf poly ops)) := by
    rcases hc with hc | hc
    · obtain ⟨f1, f2, f3, -⟩ := hg.fine n he he' hc h.distinct (two_points h.three) h.size
      exact ⟨f1, f2, f3⟩
    · exact hg.fine_round n he he' hc h.open_box h.distinct (two_points h.three) h.size
  exact ⟨f1, h.noTouch, f2, f3, h.apart, pieces_ok h.distinct h.three h.three', h.three, h.three', h.inside⟩

/-- **C48.**  Points on a binary grid: the input is admissible, no matter how the arithmetic rounds. -/
theorem C48_admissible [Tenths n] {e : Int} (h : PlainInput poly ops) (hg : OnGrid e (allPoints (piecesOf poly ops))) (he : -20 ≤ e) (he' : e ≤ 220)
    (hc : ClearOfCorners (allPoints (piecesOf poly ops)) ∨ CornersOnGrid e (allPoints (piecesOf poly ops))) : Admissible n poly ops :=
  ⟨h.toSimpleInput.sound n hg he he' hc, h.noDip⟩

/-- Well separated points: the conditions on the arithmetic hold. -/
theorem SimpleInput.sound_separated {B : Rat} (h : SimpleInput poly ops) (hs : WellSeparated B (allPoints (piecesOf poly ops))) : SoundInput n poly ops := by
  obtain ⟨f1, f2, f3, -⟩ := hs.fine n h.distinct (two_points h.three) h.size
  exact ⟨f1, h.noTouch, f2, f3, h.apart, pieces_ok h.distinct h.three h.three', h.three, h.three', h.inside⟩

/-- **C48.**  Points anywhere, provided that they are well separated. -/
theorem C48_separated {B : Rat} (h : PlainInput poly ops) (hs : WellSeparated B (allPoints (piecesOf poly ops))) : Admissible n poly ops :=
  ⟨h.toSimpleInput.sound_separated n hs, h.noDip⟩

/-- Everything that C41, C42, C43, C44 and C46 say about an admissible input. -/
theorem Admissible.correct {n : Num} (a : Admissible n poly ops) : ∃ N t s, (∀ fuel, N ≤ fuel → program n fuel poly ops = .ok (t, s)) ∧
    TriangulatesRegion poly ops (runPts n poly ops) t.triangles t.result ∧
    ConstrainedDelaunay poly ops (runPts n poly ops) t.triangles t.result ∧
    ConstraintsInPlace (inputEdges poly ops) t.triangles ∧
    (HolesApart ops → resultArea2 (runPts n poly ops) t.triangles t.result = |shoelace2 poly.points| - ((holesOf ops).map fun H => |shoelace2 H|).sum ∧
      t.result.length + 2 = poly.points.length + ((holesOf ops).map fun H => H.length + 2).sum + 2 * (steinersOf ops).countP fun p => decide (InRegion poly ops p)) := by
  obtain ⟨N, t, s, h1, h2, h4⟩ := C41_total a.fine a.noTouch a.scan a.up a.apart a.ok a.noDip
  have h := h2 N (Nat.le_refl _)
  have hne := C42_nonempty a.fine h h4 a.three a.three' a.inside
  have hin' : ∀ H ∈ holesOf ops, ∀ p ∈ H, StrictlyInside poly.points p := fun H hH p hp => a.inside p (holes_extra hH p hp)
  exact ⟨N, t, s, h1, (C42_region a.fine a.noTouch a.scan a.up a.apart h a.three a.three' a.inside).1, C46_delaunay a.fine a.noTouch h h4 a.three a.three' hin', h4,
    fun hap => ⟨C43_area a.fine h h4 a.three a.three' hin' hap hne, C44_count a.fine h h4 a.three a.three' hin' hap (steiners_off a.fine a.noTouch a.ok a.three a.three') hne⟩⟩

/-- **C48.**  Total correctness for `f64` without any assumption on the arithmetic.  For every plain input whose coordinates are multiples of `2 ^ e` by
integers of absolute value at most `2 ^ 20` (with `e = 0`: integers up to a million), and either no two points are on a line with a lower corner of the bounding
box enlarged by 30 percent, or these corners are on the grid, too (the width and the height of the box are multiples of ten), triangulating with `f64` terminates without panic; the result is a
constrained Delaunay triangulation of the polygon minus the holes, all edges are in place, and the area and the number of triangles are the right ones.  The arithmetic
is IEEE double precision with subnormal numbers, and `ov`, the answer on overflow, is arbitrary. -/
theorem C48_correct (ov : Rat → Rat) {e : Int} (h : PlainInput poly ops) (hg : OnGrid e (allPoints (piecesOf poly ops))) (he : -20 ≤ e) (he' : e ≤ 220)
    (hc : ClearOfCorners (allPoints (piecesOf poly ops)) ∨ CornersOnGrid e (allPoints (piecesOf poly ops))) :
    ∃ N t s, (∀ fuel, N ≤ fuel → program (f64With ov) fuel poly ops = .ok (t, s)) ∧
    TriangulatesRegion poly ops (runPts (f64With ov) poly ops) t.triangles t.result ∧
    ConstrainedDelaunay poly ops (runPts (f64With ov) poly ops) t.triangles t.result ∧
    ConstraintsInPlace (inputEdges poly ops) t.triangles ∧
    (HolesApart ops → resultArea2 (runPts (f64With ov) poly ops) t.triangles t.result = |shoelace2 poly.points| - ((holesOf ops).map fun H => |shoelace2 H|).sum ∧
      t.result.length + 2 = poly.points.length + ((holesOf ops).map fun H => H.length + 2).sum + 2 * (steinersOf ops).countP fun p => decide (InRegion poly ops p)) :=
  (C48_admissible (f64With ov) h hg he he' hc).correct

/-- **C49.**  Rounding has no influence on the result: on such inputs, if no four points are on a circle, the `f64` program and the program run with exact
arithmetic return the same triangles. -/
theorem C49_rounding (ov : Rat → Rat) {e : Int} (h : PlainInput poly ops) (hg : OnGrid e (allPoints (piecesOf poly ops))) (he : -20 ≤ e) (he' : e ≤ 220)
    (hc : ClearOfCorners (allPoints (piecesOf poly ops)) ∨ CornersOnGrid e (allPoints (piecesOf poly ops)))
    (nc : NoFourCocircular (allPoints (piecesOf poly ops))) :
    ∃ N t s t' s', (∀ fuel, N ≤ fuel → program (f64With ov) fuel poly ops = .ok (t, s) ∧ program realNum fuel poly ops = .ok (t', s')) ∧
      TrianglesAmong (runPts (f64With ov) poly ops) t.triangles t.result (runPts realNum poly ops) t'.triangles t'.result ∧
      TrianglesAmong (runPts realNum poly ops) t'.triangles t'.result (runPts (f64With ov) poly ops) t.triangles t.result :=
  C47_total (C48_admissible (f64With ov) h hg he he' hc) (C48_admissible realNum h hg he he' hc) (sameInput_perm (List.Perm.refl _)) nc

/-- **C49, well separated points.** -/
theorem C49_separated (ov : Rat → Rat) {B : Rat} (h : PlainInput poly ops) (hs : WellSeparated B (allPoints (piecesOf poly ops)))
    (nc : NoFourCocircular (allPoints (piecesOf poly ops))) :
    ∃ N t s t' s', (∀ fuel, N ≤ fuel → program (f64With ov) fuel poly ops = .ok (t, s) ∧ program realNum fuel poly ops = .ok (t', s')) ∧
      TrianglesAmong (runPts (f64With ov) poly ops) t.triangles t.result (runPts realNum poly ops) t'.triangles t'.result ∧
      TrianglesAmong (runPts realNum poly ops) t'.triangles t'.result (runPts (f64With ov) poly ops) t.triangles t.result :=
  C47_total (C48_separated (f64With ov) h hs) (C48_separated realNum h hs) (sameInput_perm (List.Perm.refl _)) nc

/-- The conditions of C23 and C24 on rounded arithmetic hold for `f64` points. -/
theorem f64_sane {pts : List Point} (h : ∀ p ∈ pts, IsF64 p.x ∧ IsF64 p.y) : f64.Sane pts := by
  refine ⟨fun _ _ h => roundIEEE_sat_mono (by norm_num) f64Max_nonneg h, f64_zero f64,
    fun p hp => ⟨f64_fix f64 (h p hp).1, f64_fix f64 (h p hp).2⟩, fun p hp => ?_, ?_⟩
  · have k := h p hp
    exact ⟨abs_le.1 k.1.le_max, abs_le.1 k.2.le_max⟩
  · have := abs_le.1 (f64_k03 f64)
    norm_num at this
    linarith

/-- **C24, `f64`.**  The artificial points enclose all input points (not strictly, in general). -/
theorem C24_enclose_f64 (pts : List Point) (es : List PointEdges) (hne : pts ≠ [])
    (h : ∀ p ∈ pts, IsF64 p.x ∧ IsF64 p.y) :
    ∃ head tail, (Ctx.new f64 pts es).points = pts ++ [head, tail] ∧ head.y = tail.y ∧ ∀ p ∈ pts, head.x ≤ p.x ∧ p.x ≤ tail.x ∧ head.y ≤ p.y :=
  C24_enclose_rounded f64 pts es (f64_sane h) hne

/-- **C23, `f64`.**  Two or more different points with the same abscissa: triangulating panics. -/
theorem C23_vertical_f64 {D} (pts : List Point) (es : List PointEdges) (d : List D) (fuel : Nat)
    (h : ∀ p ∈ pts, IsF64 p.x ∧ IsF64 p.y) (hn : pts.length + 2 ≤ 2 ^ 32) (hl : es.length = pts.length) (x0 : Rat)
    (hx : ∀ p ∈ pts, p.x = x0) (hd : pts.Nodup) (h2 : 2 ≤ pts.length) :
    CDT.run fuel ⟨Ctx.new f64 pts es, d⟩ = .error (.panic "next unwrap") :=
  C23_vertical f64 pts es d fuel (f64_sane h) hn hl x0 hx hd h2

end

/-! ## Examples -/

instance (pts : List Point) (x0 x1 y0 y1 : Rat) : Decidable (BoundingBox pts x0 x1 y0 y1) :=
  decidable_of_iff ((∀ p ∈ pts, x0 ≤ p.x ∧ p.x ≤ x1 ∧ y0 ≤ p.y ∧ p.y ≤ y1) ∧ (∃ p ∈ pts, p.x = x0) ∧ (∃ p ∈ pts, p.x = x1) ∧ (∃ p ∈ pts, p.y = y0) ∧ ∃ p ∈ pts, p.y = y1)
    ⟨fun h => ⟨h.1, h.2.1, h.2.2.1, h.2.2.2.1, h.2.2.2.2⟩, fun h => ⟨h.1, h.2, h.3, h.4, h.5⟩⟩

theorem clear_of_box {pts : List Point} {x0 x1 y0 y1 : Rat} (box : BoundingBox pts x0 x1 y0 y1)
    (h : ∀ a ∈ pts, ∀ b ∈ pts, a ≠ b → det2 (cornerLeft x0 x1 y0 y1) a b ≠ 0 ∧ det2 (cornerRight x0 x1 y0 y1) a b ≠ 0) : ClearOfCorners pts := by
  intro a0 a1 b0 b1 box'
  obtain ⟨rfl, rfl, rfl, rfl⟩ := box.unique box'
  exact h

theorem grid_of_check {pts : List Point} (h : ∀ p ∈ pts, (p.x = p.x.num ∧ |p.x.num| ≤ 2 ^ 20) ∧ p.y = p.y.num ∧ |p.y.num| ≤ 2 ^ 20) : OnGrid 0 pts :=
  fun p hp => ⟨⟨p.x.num, by rw [zpow_zero, mul_one]; exact (h p hp).1.1, (h p hp).1.2⟩, p.y.num, by rw [zpow_zero, mul_one]; exact (h p hp).2.1, (h p hp).2.2⟩

theorem gp_grid : OnGrid 0 (allPoints (piecesOf exPoly gpOps)) := grid_of_check (by decide +kernel)

theorem gp_plain : PlainInput exPoly gpOps :=
  ⟨⟨by decide, by decide +kernel, by decide +kernel,
    gp_general.2.2, by decide, by decide, inside_of_check (by decide +kernel)⟩, gp_no_dip⟩

theorem gp_clear : ClearOfCorners (allPoints (piecesOf exPoly gpOps)) :=
  clear_of_box (x0 := -1) (x1 := 10) (y0 := 0) (y1 := 12) (by decide +kernel) (by decide +kernel)

/-- A quadrilateral with a triangular hole and two Steiner points: no float computation is evaluated to establish this. -/
example : ∃ N t s, (∀ fuel, N ≤ fuel → program f64 fuel exPoly gpOps = .ok (t, s)) ∧
    TriangulatesRegion exPoly gpOps (runPts f64 exPoly gpOps) t.triangles t.result ∧
    ConstrainedDelaunay exPoly gpOps (runPts f64 exPoly gpOps) t.triangles t.result := by
  obtain ⟨N, t, s, h1, h2, h3, -⟩ := C48_correct (saturate f64Max) gp_plain gp_grid (by norm_num) (by norm_num) (.inl gp_clear)
  exact ⟨N, t, s, h1, h2, h3⟩

example : ∃ N t s t' s', (∀ fuel, N ≤ fuel → program f64 fuel exPoly gpOps = .ok (t, s) ∧ program realNum fuel exPoly gpOps = .ok (t', s')) ∧
    TrianglesAmong (runPts f64 exPoly gpOps) t.triangles t.result (runPts realNum exPoly gpOps) t'.triangles t'.result ∧
    TrianglesAmong (runPts realNum exPoly gpOps) t'.triangles t'.result (runPts f64 exPoly gpOps) t.triangles t.result :=
  C49_rounding (saturate f64Max) gp_plain gp_grid (by norm_num) (by norm_num) (.inl gp_clear) (by decide +kernel)

/-- Coordinates that are not on a coarse grid: `0.1`, `0.7` and `0.2` as `f64`. -/
def sepPoly : Source Nat :=
  ⟨[⟨mkRat 3602879701896397 36028797018963968, 0⟩, ⟨3, mkRat 3152519739159347 4503599627370496⟩, ⟨mkRat 3602879701896397 18014398509481984, 4⟩], [1, 2, 3]⟩

theorem isF64_of_check {x : Rat} {m k : Int} (h : x = m * pow2 k) (hm : |m| < 2 ^ 53 ∧ -1074 ≤ k ∧ k ≤ 971) : IsF64 x := ⟨m, k, by rw [← pow2_eq]; exact h, hm⟩

theorem coarse_of_check {x : Rat} {m : Int} (h : x = m * pow2 (-200)) : ∃ m : Int, x = m * 2 ^ (-200 : Int) := ⟨m, by rw [← pow2_eq]; exact h⟩

theorem sep_separated : WellSeparated 4 (allPoints (piecesOf sepPoly [])) := by
  refine ⟨?_, by decide +kernel, by norm_num, ?_, by decide +kernel, ?_⟩
  · have e : allPoints (piecesOf sepPoly []) = sepPoly.points := by decide +kernel
    rw [e]
    simp only [sepPoly, List.mem_cons, List.not_mem_nil, or_false, forall_eq_or_imp, forall_eq]
    exact ⟨⟨isF64_of_check (m := 3602879701896397) (k := -55) (by decide +kernel) (by decide), isF64_of_check (m := 0) (k := 0) (by decide +kernel) (by decide)⟩,
      ⟨isF64_of_check (m := 3) (k := 0) (by decide +kernel) (by decide), isF64_of_check (m := 3152519739159347) (k := -52) (by decide +kernel) (by decide)⟩,
      ⟨isF64_of_check (m := 3602879701896397) (k := -54) (by decide +kernel) (by decide), isF64_of_check (m := 4) (k := 0) (by decide +kernel) (by decide)⟩⟩
  · have e : allPoints (piecesOf sepPoly []) = sepPoly.points := by decide +kernel
    rw [e]
    simp only [sepPoly, List.mem_cons, List.not_mem_nil, or_false, forall_eq_or_imp, forall_eq]
    exact ⟨⟨coarse_of_check (m := 3602879701896397 * 2 ^ 145) (by decide +kernel), coarse_of_check (m := 0) (by decide +kernel)⟩,
      ⟨coarse_of_check (m := 3 * 2 ^ 200) (by decide +kernel), coarse_of_check (m := 3152519739159347 * 2 ^ 148) (by decide +kernel)⟩,
      ⟨coarse_of_check (m := 3602879701896397 * 2 ^ 146) (by decide +kernel), coarse_of_check (m := 4 * 2 ^ 200) (by decide +kernel)⟩⟩
  · intro x0 x1 y0 y1 box
    have box' : BoundingBox (allPoints (piecesOf sepPoly [])) (mkRat 3602879701896397 36028797018963968) 3 0 4 := by decide +kernel
    obtain ⟨rfl, rfl, rfl, rfl⟩ := box'.unique box
    decide +kernel

theorem sep_plain : PlainInput sepPoly [] :=
  ⟨⟨by decide, by decide +kernel, by decide +kernel,
    by decide +kernel, by decide, by decide, inside_of_check (by decide +kernel)⟩, by decide +kernel⟩

example : Admissible f64 sepPoly [] := C48_separated f64 sep_plain sep_separated

end P2T
