import Verif.Proofs.Grid32
import Verif.Props.Square

/-!
# C56, C57: the `f32` feature

With the feature `f32` the coordinates and the plain float computations have 24 significant bits.  The assumptions of the theorems about whole runs are
discharged for `f32`, too, and the two builds return the same triangles.
-/

namespace P2T

section
variable {D : Type} {poly : Source D} {ops : List (BuildOp D)} (n : Num) [F32Like n]

theorem SimpleInput.soundOf {n : Num} (h : SimpleInput poly ops)
    (f : FineInput n (allPoints (piecesOf poly ops)) ∧ ScanComplete n (withArtificial n (allPoints (piecesOf poly ops))) ∧ EpsUp n (allPoints (piecesOf poly ops))) :
    SoundInput n poly ops :=
  ⟨f.1, h.noTouch, f.2.1, f.2.2, h.apart, pieces_ok h.distinct h.three h.three', h.three, h.three', h.inside⟩

/-- Where the corners of the enlarged box may be: not too close to a line through two of the points; on a small grid, just not on such a line; or on the grid. -/
def CornersFine32 (M e : Int) (pts : List Point) : Prop :=
  FarFromCorners (M * 2 ^ e) pts ∨ (M ≤ 2 ^ 6 ∧ ClearOfCorners pts) ∨ CornersOnGrid32 e pts

/-- Points on a binary grid: the conditions on the arithmetic hold, no matter how it rounds. -/
theorem SimpleInput.sound32 [Tenths32 n] {M e : Int} (h : SimpleInput poly ops) (hg : OnGridUpTo M e (allPoints (piecesOf poly ops))) (hM : 1 ≤ M) (hM' : M ≤ 2 ^ 10)
    (he : -8 ≤ e) (he' : e ≤ 38) (hc : CornersFine32 M e (allPoints (piecesOf poly ops))) : SoundInput n poly ops := by
  have g := F32.grid_facts hg hM hM' (by omega) he'
  refine h.soundOf ?_
  rcases hc with hc | ⟨hm, hc⟩ | hc
  · exact g.fine n hc h.distinct (two_points h.three) h.size
  · exact g.fine n (F32.small_far hg hM hm he he' hc h.distinct (two_points h.three)) h.distinct (two_points h.three) h.size
  · exact g.fine_round n hc h.open_box h.distinct (two_points h.three) h.size

/-- **C56.**  Points on a binary grid: the input is admissible, no matter how the arithmetic rounds. -/
theorem C56_admissible [Tenths32 n] {M e : Int} (h : PlainInput poly ops) (hg : OnGridUpTo M e (allPoints (piecesOf poly ops))) (hM : 1 ≤ M) (hM' : M ≤ 2 ^ 10)
    (he : -8 ≤ e) (he' : e ≤ 38) (hc : CornersFine32 M e (allPoints (piecesOf poly ops))) : Admissible n poly ops :=
  ⟨h.toSimpleInput.sound32 n hg hM hM' he he' hc, h.noDip⟩

/-- **C56.**  Points anywhere, provided that they are well separated. -/
theorem C56_separated {B : Rat} (h : PlainInput poly ops) (hs : WellSeparated32 B (allPoints (piecesOf poly ops))) : Admissible n poly ops :=
  .mk (h.toSimpleInput.soundOf (F32.WellSeparated32.fine n hs h.distinct (two_points h.three) h.size)) h.noDip

/-- **C56.**  Total correctness for `f32` without any assumption on the arithmetic.  For every plain input whose coordinates are multiples of `2 ^ e` by
integers of absolute value at most `M ≤ 1024`, and lower corners of the enlarged bounding box that are not too close to a line through two points (on a grid with `M ≤ 64`:
not on such a line) or on the grid, triangulating with `f32` terminates without panic; the result is a
constrained Delaunay triangulation of the polygon minus the holes, all edges are in place, and the area and the number of triangles are the right ones.  The arithmetic
is IEEE single precision with subnormal numbers, and `ov`, the answer on overflow, is arbitrary. -/
theorem C56_correct (ov : Rat → Rat) {M e : Int} (h : PlainInput poly ops) (hg : OnGridUpTo M e (allPoints (piecesOf poly ops))) (hM : 1 ≤ M) (hM' : M ≤ 2 ^ 10)
    (he : -8 ≤ e) (he' : e ≤ 38) (hc : CornersFine32 M e (allPoints (piecesOf poly ops))) :
    ∃ N t s, (∀ fuel, N ≤ fuel → program (f32With ov) fuel poly ops = .ok (t, s)) ∧
    TriangulatesRegion poly ops (runPts (f32With ov) poly ops) t.triangles t.result ∧
    ConstrainedDelaunay poly ops (runPts (f32With ov) poly ops) t.triangles t.result ∧
    ConstraintsInPlace (inputEdges poly ops) t.triangles ∧
    (HolesApart ops → resultArea2 (runPts (f32With ov) poly ops) t.triangles t.result = |shoelace2 poly.points| - ((holesOf ops).map fun H => |shoelace2 H|).sum ∧
      t.result.length + 2 = poly.points.length + ((holesOf ops).map fun H => H.length + 2).sum + 2 * (steinersOf ops).countP fun p => decide (InRegion poly ops p)) :=
  (C56_admissible (f32With ov) h hg hM hM' he he' hc).correct

omit [F32Like n] in
theorem OnGridUpTo.mono {M M' e : Int} {pts : List Point} (h : OnGridUpTo M e pts) (hM : M ≤ M') : OnGridUpTo M' e pts := fun p hp => by
  obtain ⟨⟨m, h1, h2⟩, k, h3, h4⟩ := h p hp
  exact ⟨⟨m, h1, h2.trans hM⟩, k, h3, h4.trans hM⟩

theorem CornersFine32.f64 {M e : Int} {pts : List Point} (h : CornersFine32 M e pts) : ClearOfCorners pts ∨ CornersOnGrid e pts := by
  rcases h with h | ⟨-, h⟩ | h
  · exact .inl (F32.far_clear h)
  · exact .inl h
  · exact .inr fun x0 x1 y0 y1 box => (h.grid _ _ _ _ box).mono (by norm_num)

/-- **C57.**  The builds with `f32` and with `f64` return the same triangles: on inputs as in C56, if no four points are on a circle, both terminate without
panic and every triangle of one result is a triangle of the other. -/
theorem C57_builds_agree (ov ov' : Rat → Rat) {M e : Int} (h : PlainInput poly ops) (hg : OnGridUpTo M e (allPoints (piecesOf poly ops))) (hM : 1 ≤ M)
    (hM' : M ≤ 2 ^ 10) (he : -8 ≤ e) (he' : e ≤ 38) (hc : CornersFine32 M e (allPoints (piecesOf poly ops))) (nc : NoFourCocircular (allPoints (piecesOf poly ops))) :
    ∃ N t s t' s', (∀ fuel, N ≤ fuel → program (f32With ov) fuel poly ops = .ok (t, s) ∧ program (f64With ov') fuel poly ops = .ok (t', s')) ∧
      TrianglesAmong (runPts (f32With ov) poly ops) t.triangles t.result (runPts (f64With ov') poly ops) t'.triangles t'.result ∧
      TrianglesAmong (runPts (f64With ov') poly ops) t'.triangles t'.result (runPts (f32With ov) poly ops) t.triangles t.result :=
  C47_total (C56_admissible (f32With ov) h hg hM hM' he he' hc)
    (C48_admissible (f64With ov') h (hg.mono (hM'.trans (by norm_num))) (by omega) (by omega) hc.f64) (sameInput_perm (List.Perm.refl _)) nc

/-- **C57, rounding.**  So do the `f32` build and exact arithmetic. -/
theorem C57_rounding (ov : Rat → Rat) {M e : Int} (h : PlainInput poly ops) (hg : OnGridUpTo M e (allPoints (piecesOf poly ops))) (hM : 1 ≤ M)
    (hM' : M ≤ 2 ^ 10) (he : -8 ≤ e) (he' : e ≤ 38) (hc : CornersFine32 M e (allPoints (piecesOf poly ops))) (nc : NoFourCocircular (allPoints (piecesOf poly ops))) :
    ∃ N t s t' s', (∀ fuel, N ≤ fuel → program (f32With ov) fuel poly ops = .ok (t, s) ∧ program realNum fuel poly ops = .ok (t', s')) ∧
      TrianglesAmong (runPts (f32With ov) poly ops) t.triangles t.result (runPts realNum poly ops) t'.triangles t'.result ∧
      TrianglesAmong (runPts realNum poly ops) t'.triangles t'.result (runPts (f32With ov) poly ops) t.triangles t.result :=
  C47_total (C56_admissible (f32With ov) h hg hM hM' he he' hc)
    (C48_admissible realNum h (hg.mono (hM'.trans (by norm_num))) (by omega) (by omega) hc.f64) (sameInput_perm (List.Perm.refl _)) nc

/-- The conditions of C23 and C24 on rounded arithmetic hold for `f32` points. -/
theorem f32_sane {pts : List Point} (h : ∀ p ∈ pts, IsF32 p.x ∧ IsF32 p.y) : f32.Sane pts := by
  refine ⟨fun _ _ h => roundIEEE_sat_mono (by norm_num) F32.f32Max_nonneg h, F32.f32_zero f32,
    fun p hp => ⟨F32.f32_fix f32 (h p hp).1, F32.f32_fix f32 (h p hp).2⟩, fun p hp => ?_, ?_⟩
  · have k := h p hp
    exact ⟨abs_le.1 (F32.IsF32.le_max k.1), abs_le.1 (F32.IsF32.le_max k.2)⟩
  · have := abs_le.1 (F32.f32_k03 f32)
    norm_num at this
    linarith

/-- **C24, `f32`.**  The artificial points enclose all input points (not strictly, in general). -/
theorem C24_enclose_f32 (pts : List Point) (es : List PointEdges) (hne : pts ≠ [])
    (h : ∀ p ∈ pts, IsF32 p.x ∧ IsF32 p.y) :
    ∃ head tail, (Ctx.new f32 pts es).points = pts ++ [head, tail] ∧ head.y = tail.y ∧ ∀ p ∈ pts, head.x ≤ p.x ∧ p.x ≤ tail.x ∧ head.y ≤ p.y :=
  C24_enclose_rounded f32 pts es (f32_sane h) hne

/-- **C23, `f32`.**  Two or more different points with the same abscissa: triangulating panics. -/
theorem C23_vertical_f32 {D} (pts : List Point) (es : List PointEdges) (d : List D) (fuel : Nat)
    (h : ∀ p ∈ pts, IsF32 p.x ∧ IsF32 p.y) (hn : pts.length + 2 ≤ 2 ^ 32) (hl : es.length = pts.length) (x0 : Rat)
    (hx : ∀ p ∈ pts, p.x = x0) (hd : pts.Nodup) (h2 : 2 ≤ pts.length) :
    CDT.run fuel ⟨Ctx.new f32 pts es, d⟩ = .error (.panic "next unwrap") :=
  C23_vertical f32 pts es d fuel (f32_sane h) hn hl x0 hx hd h2

end

/-! ## Examples -/

theorem grid_upTo_of_check {M : Int} {pts : List Point} (h : ∀ p ∈ pts, (p.x = p.x.num ∧ |p.x.num| ≤ M) ∧ p.y = p.y.num ∧ |p.y.num| ≤ M) : OnGridUpTo M 0 pts :=
  fun p hp => ⟨⟨p.x.num, by rw [zpow_zero, mul_one]; exact (h p hp).1.1, (h p hp).1.2⟩, p.y.num, by rw [zpow_zero, mul_one]; exact (h p hp).2.1, (h p hp).2.2⟩

theorem gp_grid32 : OnGridUpTo 12 0 (allPoints (piecesOf exPoly gpOps)) := grid_upTo_of_check (by decide +kernel)

theorem gp_corners32 : CornersFine32 12 0 (allPoints (piecesOf exPoly gpOps)) := .inr (.inl ⟨by norm_num, gp_clear⟩)

/-- A quadrilateral with a triangular hole and two Steiner points: no float computation is evaluated to establish this. -/
example : ∃ N t s, (∀ fuel, N ≤ fuel → program f32 fuel exPoly gpOps = .ok (t, s)) ∧
    TriangulatesRegion exPoly gpOps (runPts f32 exPoly gpOps) t.triangles t.result ∧
    ConstrainedDelaunay exPoly gpOps (runPts f32 exPoly gpOps) t.triangles t.result := by
  obtain ⟨N, t, s, h1, h2, h3, -⟩ := C56_correct (saturate f32Max) gp_plain gp_grid32 (by norm_num) (by norm_num) (by norm_num) (by norm_num) gp_corners32
  exact ⟨N, t, s, h1, h2, h3⟩

example : ∃ N t s t' s', (∀ fuel, N ≤ fuel → program f32 fuel exPoly gpOps = .ok (t, s) ∧ program f64 fuel exPoly gpOps = .ok (t', s')) ∧
    TrianglesAmong (runPts f32 exPoly gpOps) t.triangles t.result (runPts f64 exPoly gpOps) t'.triangles t'.result ∧
    TrianglesAmong (runPts f64 exPoly gpOps) t'.triangles t'.result (runPts f32 exPoly gpOps) t.triangles t.result :=
  C57_builds_agree (saturate f32Max) (saturate f64Max) gp_plain gp_grid32 (by norm_num) (by norm_num) (by norm_num) (by norm_num) gp_corners32 (by decide +kernel)

/-- The artificial points of the two runs differ: `0.3` is not the same number. -/
example : artLeft f32 (allPoints (piecesOf exPoly gpOps)) ≠ artLeft f64 (allPoints (piecesOf exPoly gpOps)) := by decide +kernel

/-- The square with two square holes (many triples of points on a line): the third case of `CornersFine32`. -/
theorem sq_corners32 : CornersOnGrid32 0 (allPoints (piecesOf sqPoly sqOps)) := by
  have box' : BoundingBox (allPoints (piecesOf sqPoly sqOps)) 0 10 0 10 := by decide +kernel
  refine ⟨fun x0 x1 y0 y1 box => ?_, fun x0 x1 y0 y1 box => ?_⟩
  · obtain ⟨rfl, rfl, rfl, rfl⟩ := box'.unique box
    exact grid_upTo_of_check (by decide +kernel)
  · obtain ⟨rfl, rfl, rfl, rfl⟩ := box'.unique box
    have : ExactTenth (10 - 0) := ⟨1, 0, 1, by norm_num, by norm_num, by norm_num, by norm_num⟩
    exact ⟨this, this⟩

theorem sq_grid32 : OnGridUpTo 10 0 (allPoints (piecesOf sqPoly sqOps)) := grid_upTo_of_check (by decide +kernel)

example : Admissible f32 sqPoly sqOps :=
  C56_admissible f32 sq_plain sq_grid32 (by norm_num) (by norm_num) (by norm_num) (by norm_num) (.inr (.inr sq_corners32))

/-- A thousand pixels: the first case. -/
def pxPoly : Source Nat := ⟨[⟨3, 700⟩, ⟨400, 11⟩, ⟨1000, 523⟩, ⟨630, 999⟩], [1, 2, 3, 4]⟩

theorem px_far : FarFromCorners (1000 * 2 ^ (0 : Int)) (allPoints (piecesOf pxPoly [])) := by
  intro x0 x1 y0 y1 box
  have box' : BoundingBox (allPoints (piecesOf pxPoly [])) 3 1000 11 999 := by decide +kernel
  obtain ⟨rfl, rfl, rfl, rfl⟩ := box'.unique box
  rw [zpow_zero]
  decide +kernel

theorem px_plain : PlainInput pxPoly [] :=
  ⟨⟨by decide, by decide +kernel, by decide +kernel, by decide +kernel, by decide, by decide, inside_of_check (by decide +kernel)⟩, by decide +kernel⟩

example : Admissible f32 pxPoly [] :=
  C56_admissible f32 (M := 1000) (e := 0) px_plain (grid_upTo_of_check (by decide +kernel)) (by norm_num) (by norm_num) (by norm_num) (by norm_num) (.inl px_far)

/-- Coordinates that are not on a coarse grid: `0.1`, `0.7` and `0.2` as `f32`. -/
def sepPoly32 : Source Nat := ⟨[⟨mkRat 13421773 134217728, 0⟩, ⟨3, mkRat 11744051 16777216⟩, ⟨mkRat 13421773 67108864, 4⟩], [1, 2, 3]⟩

theorem isF32_of_check {x : Rat} {m k : Int} (h : x = m * pow2 k) (hm : |m| < 2 ^ 24 ∧ -149 ≤ k ∧ k ≤ 104) : IsF32 x := ⟨m, k, by rw [← pow2_eq]; exact h, hm⟩

theorem sep_separated32 : WellSeparated32 4 (allPoints (piecesOf sepPoly32 [])) := by
  refine ⟨?_, by decide +kernel, by norm_num, by decide +kernel, by decide +kernel, ?_⟩
  · have e : allPoints (piecesOf sepPoly32 []) = sepPoly32.points := by decide +kernel
    rw [e]
    simp only [sepPoly32, List.mem_cons, List.not_mem_nil, or_false, forall_eq_or_imp, forall_eq]
    exact ⟨⟨isF32_of_check (m := 13421773) (k := -27) (by decide +kernel) (by decide), isF32_of_check (m := 0) (k := 0) (by decide +kernel) (by decide)⟩,
      ⟨isF32_of_check (m := 3) (k := 0) (by decide +kernel) (by decide), isF32_of_check (m := 11744051) (k := -24) (by decide +kernel) (by decide)⟩,
      ⟨isF32_of_check (m := 13421773) (k := -26) (by decide +kernel) (by decide), isF32_of_check (m := 4) (k := 0) (by decide +kernel) (by decide)⟩⟩
  · intro x0 x1 y0 y1 box
    have box' : BoundingBox (allPoints (piecesOf sepPoly32 [])) (mkRat 13421773 134217728) 3 0 4 := by decide +kernel
    obtain ⟨rfl, rfl, rfl, rfl⟩ := box'.unique box
    decide +kernel

example : Admissible f32 sepPoly32 [] := C56_separated f32
  ⟨⟨by decide, by decide +kernel, by decide +kernel, by decide +kernel, by decide, by decide, inside_of_check (by decide +kernel)⟩, by decide +kernel⟩ sep_separated32

end P2T
