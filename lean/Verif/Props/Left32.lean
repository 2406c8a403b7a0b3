import Verif.Props.Nesting
import Verif.Proofs.LeftOpen32

/-!
# C60, C64, C65 and C66 for the `f32` feature
-/

namespace P2T.F32

section
variable (n : Num) [F32Like n]

/-- Points on a binary grid: the right artificial point is below the upper hull, if it is not on a line with two of the points. -/
theorem GridFacts.tailBelow {e : Int} {s B : Rat} {pts : List Point} (g : GridFacts e s B pts) (hc : ClearOfCorners pts)
    (hnd : pts.Nodup) (h3 : 3 ≤ pts.length) : TailBelow n pts := by
  have hne : pts ≠ [] := by rintro rfl; simp at h3
  obtain ⟨head, tail, x0, x1, y0, y1, hall, hL, hR, box, nl, nr, np⟩ := run_near n hne g.bnd g.hB
  obtain ⟨ox, oy⟩ := box_open box (ne_pair hnd (by omega)) hc
  obtain ⟨hs, s0, slow, mul, -, -, -, bnd, hB, -, -⟩ := g
  intro z hz w hw hull
  rw [hR]
  have third : ∃ v ∈ pts, v ≠ z ∧ v ≠ w := by
    by_contra hno
    push Not at hno
    have : pts ⊆ [z, w] := fun v hv => by
      by_cases e : v = z
      · simp [e]
      · simp [hno v hv e]
    have := (List.subperm_of_subset hnd this).length_le
    simp at *
    omega
  have hx := hull.right hw third
  have mx0 : Mul s x0 := by obtain ⟨q, m, f⟩ := box.left; rw [← f]; exact (mul q m).1
  have mx1 : Mul s x1 := by obtain ⟨q, m, f⟩ := box.right; rw [← f]; exact (mul q m).1
  have my0 : Mul s y0 := by obtain ⟨q, m, f⟩ := box.bottom; rw [← f]; exact (mul q m).2
  have my1 : Mul s y1 := by obtain ⟨q, m, f⟩ := box.top; rw [← f]; exact (mul q m).2
  have ww : s ≤ x1 - x0 := by have := (mx1.sub mx0).ge s0 (by linarith); rwa [abs_of_pos (by linarith)] at this
  have hh : s ≤ y1 - y0 := by have := (my1.sub my0).ge s0 (by linarith); rwa [abs_of_pos (by linarith)] at this
  have bx := abs_le.1 nr.mx
  have by' := abs_le.1 nr.my
  simp only [cornerRight] at bx by'
  have eB : 2 ^ 10 * s / 2 ^ 22 = s / 2 ^ 12 := by ring
  rw [eB] at bx by'
  have iz := box.inside z hz
  have tx : x1 < tail.x := by norm_num at bx; linarith
  have ty : tail.y < y0 := by norm_num at by'; linarith
  -- it is enough to find some point above the ray to the artificial point
  have via : ∀ v ∈ pts, 0 < det2 z tail v → 0 < det2 z tail w := by
    intro v hv hd
    by_cases e1 : v = z
    · rw [e1] at hd; have : det2 z tail z = 0 := by unfold det2; ring
      linarith
    by_cases e2 : v = w
    · rw [← e2]; exact hd
    have hd' := hull.2 v hv e1 e2
    have hvx : z.x < v.x := by
      rcases hull.1.2 v hv with k | ⟨k1, k2⟩
      · exact k
      · exfalso
        have e : det2 z tail v = (tail.x - z.x) * (v.y - z.y) := by unfold det2; rw [← k1]; ring
        have := mul_nonpos_of_nonneg_of_nonpos (by linarith : 0 ≤ tail.x - z.x) (by linarith : v.y - z.y ≤ 0)
        linarith
    have key : det2 z tail w * (v.x - z.x) = det2 z tail v * (w.x - z.x) + det2 z v w * (tail.x - z.x) := by unfold det2; ring
    have p1 := mul_pos hd (sub_pos.2 hx)
    have p2 := mul_pos hd' (by linarith : 0 < tail.x - z.x)
    by_contra hn
    have := mul_nonpos_of_nonpos_of_nonneg (not_lt.1 hn) (sub_pos.2 hvx).le
    linarith
  obtain ⟨t, ht, et⟩ := box.top
  rcases lt_or_eq_of_le iz.2.2.2 with k | k
  · -- a point above `z`
    refine via t ht ?_
    have e : det2 z tail t = (tail.x - z.x) * (t.y - z.y) + (z.y - tail.y) * (t.x - z.x) := by unfold det2; ring
    rw [e]
    have p1 := mul_pos (by linarith : 0 < tail.x - z.x) (by linarith : 0 < t.y - z.y)
    have p2 := mul_nonneg (by linarith : 0 ≤ z.y - tail.y) (by linarith [(box.inside z hz).1, show z.x ≤ t.x by rcases hull.1.2 t ht with k | k <;> linarith [k]] : 0 ≤ t.x - z.x)
    linarith
  · -- `z` is the upper left corner of the box
    have ezx : z.x = x0 := by
      obtain ⟨l, hl, el⟩ := box.left
      have : z.x ≤ l.x := by rcases hull.1.2 l hl with k | k <;> linarith [k]
      linarith
    obtain ⟨r, hr, er⟩ := box.right
    refine via r hr ?_
    have ir := box.inside r hr
    have hry : y0 < r.y := by
      rcases lt_or_eq_of_le ir.2.2.1 with k' | k'
      · exact k'
      · exfalso
        have := (hc _ _ _ _ box z hz r hr (by rintro rfl; linarith)).2
        apply this
        simp only [det2, cornerRight]
        rw [er, ← k', ezx, k]
        ring
    have gap : s ≤ r.y - y0 := by have := ((mul r hr).2.sub my0).ge s0 (by linarith); rwa [abs_of_pos (by linarith)] at this
    have e : det2 z tail r = (tail.x - x0) * (r.y - y0) + ((tail.x - x0) * (y0 - y1) - (tail.y - y1) * (x1 - x0)) := by unfold det2; rw [er, ezx, k]; ring
    rw [e]
    have p1 : (x1 - x0) * s ≤ (tail.x - x0) * (r.y - y0) := mul_le_mul (by linarith) gap s0.le (by linarith)
    -- the rounding
    have e2 : (tail.x - x0) * (y0 - y1) - (tail.y - y1) * (x1 - x0) =
        -((tail.x - (x1 + 3 / 10 * (x1 - x0))) * (y1 - y0)) - (tail.y - (y0 - 3 / 10 * (y1 - y0))) * (x1 - x0) := by ring
    have b1 : y1 - y0 ≤ 2 ^ 11 * s := by
      obtain ⟨p, hp, ep⟩ := box.bottom
      have k1 := abs_le.1 (bnd p hp).2
      have k2 := abs_le.1 (bnd t ht).2
      norm_num at *; linarith
    have q1 : (tail.x - (x1 + 3 / 10 * (x1 - x0))) * (y1 - y0) ≤ s / 2 ^ 12 * (2 ^ 11 * s) := mul_le_mul bx.2 b1 (by linarith) (by positivity)
    have q2 : (tail.y - (y0 - 3 / 10 * (y1 - y0))) * (x1 - x0) ≤ s / 2 ^ 12 * (x1 - x0) := mul_le_mul_of_nonneg_right by'.2 (by linarith)
    have q3 : s * s ≤ (x1 - x0) * s := mul_le_mul_of_nonneg_right ww s0.le
    have q4 : 0 < s * s := mul_pos s0 s0
    rw [e2]
    have e3 : s / 2 ^ 12 * (2 ^ 11 * s) = s * s / 2 := by ring
    have e4 : s / 2 ^ 12 * (x1 - x0) = (x1 - x0) * s / 2 ^ 12 := by ring
    rw [e3] at q1; rw [e4] at q2
    norm_num at q1 q2
    linarith

end

end P2T.F32

namespace P2T

/-- The corners of the enlarged box are clear of all lines through two points: by some distance, or the grid is small. -/
def CornersClear32 (M e : Int) (pts : List Point) : Prop := FarFromCorners (M * 2 ^ e) pts ∨ M ≤ 2 ^ 6 ∧ ClearOfCorners pts

section
variable {D : Type} {n : Num} {poly : Source D} {ops : List (BuildOp D)} {M e : Int}

theorem CornersClear32.far {pts : List Point} (h : CornersClear32 M e pts) (hg : OnGridUpTo M e pts) (hM : 1 ≤ M) (he : -8 ≤ e) (he' : e ≤ 38)
    (hnd : pts.Nodup) (h2 : 2 ≤ pts.length) : FarFromCorners (M * 2 ^ e) pts := by
  rcases h with h | ⟨hm, h⟩
  · exact h
  · exact F32.small_far hg hM hm he he' h hnd h2

/-- `f32` numbers on a grid: all conditions on the arithmetic. -/
theorem CrossingInput.left32 (ov : Rat → Rat) (h : CrossingInput poly ops) (hg : OnGridUpTo M e (allPoints (piecesOf poly ops))) (hM : 1 ≤ M) (hM' : M ≤ 2 ^ 10)
    (he : -8 ≤ e) (he' : e ≤ 38) (hc : CornersClear32 M e (allPoints (piecesOf poly ops))) :
    LooseInput (f32With ov) poly ops ∧ LeftOpen (f32With ov) (allPoints (piecesOf poly ops)) ∧ TailBelow (f32With ov) (allPoints (piecesOf poly ops)) := by
  have far := hc.far hg hM he he' h.distinct (two_points h.three)
  have g := F32.grid_facts hg hM hM' (by omega) he'
  have h3 : 3 ≤ (allPoints (piecesOf poly ops)).length := by
    have e : allPoints (piecesOf poly ops) = poly.points ++ extraPoints ops := by simp [allPoints, piecesOf, Piece.pts, extraPoints]
    have := h.three
    rw [e, List.length_append]; omega
  exact ⟨h.loose32 ov hg hM hM' he he' (.inl far), g.leftOpen_far (f32With ov) far h.distinct (two_points h.three) h.size,
    g.tailBelow (f32With ov) (F32.far_clear far) h.distinct h3⟩

/-- **C64, `f32`.** -/
theorem C64_f32 (ov : Rat → Rat) (h : CrossingInput poly ops) (hg : OnGridUpTo M e (allPoints (piecesOf poly ops))) (hM : 1 ≤ M) (hM' : M ≤ 2 ^ 10)
    (he : -8 ≤ e) (he' : e ≤ 38) (hc : CornersClear32 M e (allPoints (piecesOf poly ops))) (k : LeftAnchored poly ops) :
    ((∃ N t s, (∀ fuel, N ≤ fuel → program (f32With ov) fuel poly ops = .ok (t, s)) ∧ SafeResult (f32With ov) poly ops t s ∧ t.result ≠ []) ∨
      (∃ N, ∀ fuel, N ≤ fuel → programG no698 (f32With ov) fuel poly ops = .error (.trapped "698")) ∧ HasFreeDip poly ops) ∧
    ∃ N t s, (∀ fuel, N ≤ fuel → repairedProgram (f32With ov) fuel poly ops = .ok (t, s)) ∧ SafeResult (f32With ov) poly ops t s ∧ t.result ≠ [] := by
  obtain ⟨h1, h2, -⟩ := h.left32 ov hg hM hM' he he' hc
  exact C64_crate h1 h2 k

/-- **C65, `f32`.**  A strictly convex polygon, all holes and Steiner points strictly inside. -/
theorem C65_convex_f32 (ov : Rat → Rat) (h : CrossingInput poly ops) (hg : OnGridUpTo M e (allPoints (piecesOf poly ops))) (hM : 1 ≤ M) (hM' : M ≤ 2 ^ 10)
    (he : -8 ≤ e) (he' : e ≤ 38) (hc : CornersClear32 M e (allPoints (piecesOf poly ops))) (k : ConvexOutline poly ops) :
    ((∃ N t s, (∀ fuel, N ≤ fuel → program (f32With ov) fuel poly ops = .ok (t, s)) ∧ SafeResult (f32With ov) poly ops t s ∧ RespectsLoops (f32With ov) poly ops t ∧
        InsideOnly (withArtificial (f32With ov) (allPoints (piecesOf poly ops))) t poly.points ∧ t.result ≠ []) ∨
      (∃ N, ∀ fuel, N ≤ fuel → programG no698 (f32With ov) fuel poly ops = .error (.trapped "698")) ∧ HasFreeDip poly ops) ∧
    ∃ N t s, (∀ fuel, N ≤ fuel → repairedProgram (f32With ov) fuel poly ops = .ok (t, s)) ∧ SafeResult (f32With ov) poly ops t s ∧ RespectsLoops (f32With ov) poly ops t ∧
        InsideOnly (withArtificial (f32With ov) (allPoints (piecesOf poly ops))) t poly.points ∧ t.result ≠ [] := by
  obtain ⟨h1, h2, h3⟩ := h.left32 ov hg hM hM' he he' hc
  exact C65_crate h1 h2 h3 h.three h.three' k.uncrossed (k.anchored h.distinct h.three)

/-- **C66, `f32`.** -/
theorem C66_f32 (ov : Rat → Rat) (h : CrossingInput poly ops) (ap : EdgesApart poly ops) (hg : OnGridUpTo M e (allPoints (piecesOf poly ops))) (hM : 1 ≤ M) (hM' : M ≤ 2 ^ 10)
    (he : -8 ≤ e) (he' : e ≤ 38) (hc : CornersClear32 M e (allPoints (piecesOf poly ops))) :
    ((∃ N t s, (∀ fuel, N ≤ fuel → program (f32With ov) fuel poly ops = .ok (t, s)) ∧ SafeResult (f32With ov) poly ops t s ∧ LeftmostLoop (f32With ov) poly ops t) ∨
      (∃ N, ∀ fuel, N ≤ fuel → programG no698 (f32With ov) fuel poly ops = .error (.trapped "698")) ∧ HasFreeDip poly ops) ∧
    ∃ N t s, (∀ fuel, N ≤ fuel → repairedProgram (f32With ov) fuel poly ops = .ok (t, s)) ∧ SafeResult (f32With ov) poly ops t s ∧ LeftmostLoop (f32With ov) poly ops t := by
  obtain ⟨h1, h2, -⟩ := h.left32 ov hg hM hM' he he' hc
  exact C66_crate h1 ap h.three h.three' h2

/-- **C60, `f32`.**  The exact condition for an empty result. -/
theorem C60_empty_iff_f32 (ov : Rat → Rat) (h : PlainOutline poly ops) (hg : OnGridUpTo M e (allPoints (piecesOf poly ops))) (hM : 1 ≤ M) (hM' : M ≤ 2 ^ 10)
    (he : -8 ≤ e) (he' : e ≤ 38) (hc : CornersClear32 M e (allPoints (piecesOf poly ops))) :
    ∃ N t s, (∀ fuel, N ≤ fuel → program (f32With ov) fuel poly ops = .ok (t, s)) ∧
      (t.result = [] ↔ ∃ z ∈ steinersOf ops, TopLeft (allPoints (piecesOf poly ops)) z) := by
  obtain ⟨h1, h2, -⟩ := CrossingInput.left32 ov ⟨h.size, h.distinct, h.noTouch, h.three, h.three'⟩ hg hM hM' he he' hc
  exact C60_empty_iff ⟨⟨h1.fine, h1.noTouch, h1.scan, h1.up, h.apart, h1.ok, h.three, h.three', h.holes⟩, h.noDip⟩ h2

end

/-! ## Examples -/

/-- The hole beside the triangle (C66), the polygon with two holes that cross (C65), and the kite with a Steiner point to its left (C60). -/
theorem left32_examples :
    (∃ N t s, (∀ fuel, N ≤ fuel → program f32 fuel besidePoly besideOps = .ok (t, s)) ∧
      ReportsRegion (withArtificial f32 (allPoints (piecesOf besidePoly besideOps))) t (LoopRegion besidePoly besideOps [⟨0, 3⟩, ⟨9, 1⟩, ⟨5, 12⟩])) ∧
    (∃ N t s, (∀ fuel, N ≤ fuel → program f32 fuel crossedPoly crossedOps = .ok (t, s)) ∧
      InsideOnly (withArtificial f32 (allPoints (piecesOf crossedPoly crossedOps))) t crossedPoly.points ∧ t.result ≠ []) ∧
    (∃ N t s, (∀ fuel, N ≤ fuel → program f32 fuel bowtie [] = .ok (t, s)) ∧ t.result ≠ []) ∧
    ∃ N t s, (∀ fuel, N ≤ fuel → program f32 fuel kitePoly kiteOps = .ok (t, s)) ∧ t.result = [] := by
  refine ⟨?_, ?_, ?_, ?_⟩
  · rcases (C66_f32 (saturate f32Max) (poly := besidePoly) (ops := besideOps) (M := 30) (e := 0) ⟨by decide, by decide +kernel, by decide +kernel, by decide, by decide⟩ (by decide +kernel)
      (grid_upTo_of_check (by decide +kernel)) (by norm_num) (by norm_num) (by norm_num) (by norm_num)
      (.inr ⟨by norm_num, clear_of_box (x0 := 0) (x1 := 30) (y0 := 0) (y1 := 14) (by decide +kernel) (by decide +kernel)⟩)).1 with ⟨N, t, s, h, -, k⟩ | h
    · exact ⟨N, t, s, h, (k.loop [⟨0, 3⟩, ⟨9, 1⟩, ⟨5, 12⟩] (by decide) ⟨0, 3⟩ (by decide) (by decide +kernel)).2⟩
    · exact absurd h.2 (by decide +kernel)
  · rcases (C65_convex_f32 (saturate f32Max) (poly := crossedPoly) (ops := crossedOps) (M := 41) (e := 0) ⟨by decide, by decide +kernel, by decide +kernel, by decide, by decide⟩
      (grid_upTo_of_check (by decide +kernel)) (by norm_num) (by norm_num) (by norm_num) (by norm_num)
      (.inr ⟨by norm_num, clear_of_box (x0 := -1) (x1 := 41) (y0 := 0) (y1 := 30) (by decide +kernel) (by decide +kernel)⟩) (by decide +kernel)).1 with ⟨N, t, s, h, -, -, k⟩ | h
    · exact ⟨N, t, s, h, k⟩
    · exact absurd h.2 (by decide +kernel)
  · rcases (C64_f32 (saturate f32Max) bowtie_crossing (M := 11) (e := 0)
      (grid_upTo_of_check (by decide +kernel)) (by norm_num) (by norm_num) (by norm_num) (by norm_num)
      (.inr ⟨by norm_num, clear_of_box (x0 := 0) (x1 := 11) (y0 := 0) (y1 := 9) (by decide +kernel) (by decide +kernel)⟩) (by decide +kernel)).1 with ⟨N, t, s, h, -, k⟩ | h
    · exact ⟨N, t, s, h, k⟩
    · exact absurd h.2 (by decide +kernel)
  · obtain ⟨N, t, s, h1, h2⟩ := C60_empty_iff_f32 (saturate f32Max) kite_plain (M := 20) (e := 0) (grid_upTo_of_check (by decide +kernel)) (by norm_num) (by norm_num) (by norm_num) (by norm_num)
      (.inr ⟨by norm_num, clear_of_box (x0 := 5) (x1 := 20) (y0 := 10) (y1 := 20) (by decide +kernel) (by decide +kernel)⟩)
    exact ⟨N, t, s, h1, h2.2 (by decide +kernel)⟩

end P2T
