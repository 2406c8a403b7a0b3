import Verif.Props.Repair
import Verif.Spec.Crossing

/-!
# C62: crossing edges

A user may pass a polygon that crosses itself, or holes that cross the polygon or each other.  C38 to C42 exclude this.  Here: such an input does no harm as long as no input point is inside an
edge.  There is no panic and no endless loop, the mesh is sound at every callback, the reported triangles do not overlap, and every edge that is not crossed is in place.  Only the edges that cross
others may get lost, and with them the border between inside and outside.
-/

namespace P2T

section
variable {D : Type} {n : Num} {poly : Source D} {ops : List (BuildOp D)}

/-- The result of a run without panic. -/
theorem LooseInput.safe {g : Trap} [g.Tame] {fuel t s} (a : LooseInput n poly ops) (h : programG g n fuel poly ops = .ok (t, s)) : SafeResult n poly ops t s := by
  have h' := programG_noCol_gen a.fine a.noTouch a.scan a.up h
  refine ⟨fun i hi => ?_, C19_result a.fine h, ?_, (C12_locally_delaunay a.fine h).2, (C12_symmetric_marks a.fine h').2, (C12_verify_true a.fine h').2, fun ev sn hm => sound_callback a.fine h h' hm⟩
  · obtain ⟨T, hT, -⟩ := C06_indices_different a.fine h i hi
    have hm := List.mem_of_getElem? hT
    refine ⟨T, hT, (C11_no_inverted a.fine h).2 T hm, fun hg => ?_⟩
    have mem : ∀ k, ptOf (withArtificial n (allPoints (piecesOf poly ops))) (T.points.get k) ∈ withArtificial n (allPoints (piecesOf poly ops)) := by
      intro k
      have hl := (C10_adjacency_consistent a.fine h).2.corners T hm k
      have hl' : T.points.get k < (withArtificial n (allPoints (piecesOf poly ops))).length := hl.trans_eq runPts_length.symm
      rw [ptOf, List.getD_eq_getElem?_getD, List.getElem?_eq_getElem hl']
      exact List.getElem_mem hl'
    rcases (C11_no_inverted a.fine h).2 T hm with k | ⟨k, k'⟩
    · exact k
    · have m0 := mem 0
      have m1 := mem 1
      have m2 := mem 2
      generalize ptOf _ (T.points.get 0) = A at *
      generalize ptOf _ (T.points.get 1) = B at *
      generalize ptOf _ (T.points.get 2) = C at *
      refine (hg A m0 B m1 C m2 ?_ ?_ ?_ k).elim <;> rintro rfl <;> simp only [LexLt] at k' <;> grind
  · obtain ⟨c, -, hi, -, -, -, -, hr, hs⟩ := fine_run a.fine h'
    have hm : MeshInv c True (fun _ => False) t.triangles := by rw [hs]; exact hr.inv.mesh.toTrue (fun h h' => hr.inv.mesh.csym rfl h h')
    obtain ⟨b, hb, hr'⟩ := bind_ok.1 h'
    have key := run_marks_gen (g := g) (fuel := fuel) a.fine a.noTouch a.scan a.up hb
    rw [hr'] at key
    have key := key.2
    exact fun e he => conEdge_edge (hm.con (key e he))

/-- **C62, repaired program.**  Whatever the edges do, if no input point is inside an edge the repaired program terminates without panic, and its result and all its callbacks are sound. -/
theorem C62_repaired (a : LooseInput n poly ops) : ∃ N t s, (∀ fuel, N ≤ fuel → repairedProgram n fuel poly ops = .ok (t, s)) ∧ SafeResult n poly ops t s := by
  rcases total_gen (g := .repaired) a.fine a.noTouch a.scan a.up a.ok with ⟨N, t, s, h⟩ | ⟨-, h, -⟩
  · exact ⟨N, t, s, h, a.safe (h N (Nat.le_refl _))⟩
  · cases h

/-- **C62.**  The crate: if no input point is inside an edge, `triangulate` terminates without panic and its result and all its callbacks are sound, however the edges cross each other; the only
exception are runs that take the branch at `sweeper.rs:698`, and these have a dip under an edge. -/
theorem C62_crate (a : LooseInput n poly ops) :
    (∃ N t s, (∀ fuel, N ≤ fuel → program n fuel poly ops = .ok (t, s)) ∧ SafeResult n poly ops t s) ∨
    (∃ N, ∀ fuel, N ≤ fuel → programG no698 n fuel poly ops = .error (.trapped "698")) ∧ HasFreeDip poly ops := by
  rcases total_gen (g := no698) a.fine a.noTouch a.scan a.up a.ok with ⟨N, t, s, h⟩ | ⟨h, -, hd⟩
  · exact .inl ⟨N, t, s, fun fuel hN => programG_program rfl (h fuel hN), a.safe (h N (Nat.le_refl _))⟩
  · exact .inr ⟨h, hd⟩

/-- **C62, without dips.**  Without a dip under an edge the crate terminates without panic, and its result and all its callbacks are sound. -/
theorem C62_no_dip (a : LooseInput n poly ops) (hd : ¬ HasFreeDip poly ops) :
    ∃ N t s, (∀ fuel, N ≤ fuel → program n fuel poly ops = .ok (t, s)) ∧ SafeResult n poly ops t s := by
  rcases C62_crate a with h | h
  · exact h
  · exact (hd h.2).elim

theorem CrossingInput.open_box (h : CrossingInput poly ops) : ∀ x0 x1 y0 y1, BoundingBox (allPoints (piecesOf poly ops)) x0 x1 y0 y1 → x0 < x1 ∧ y0 < y1 := by
  intro x0 x1 y0 y1 box
  constructor
  · by_contra c
    refine not_flat h.distinct h.three h.noTouch Point.y Point.x (.inr ⟨rfl, rfl⟩) (c := x0) fun p hp => ?_
    have := box.inside p hp
    linarith
  · by_contra c
    refine not_flat h.distinct h.three h.noTouch Point.x Point.y (.inl ⟨rfl, rfl⟩) (c := y0) fun p hp => ?_
    have := box.inside p hp
    linarith

theorem CrossingInput.looseOf (h : CrossingInput poly ops)
    (f : FineInput n (allPoints (piecesOf poly ops)) ∧ ScanComplete n (withArtificial n (allPoints (piecesOf poly ops))) ∧ EpsUp n (allPoints (piecesOf poly ops))) :
    LooseInput n poly ops := ⟨f.1, h.noTouch, f.2.1, f.2.2, pieces_ok h.distinct h.three h.three'⟩

/-- Points on a binary grid. -/
theorem CrossingInput.loose (ov : Rat → Rat) {e : Int} (h : CrossingInput poly ops) (hg : OnGrid e (allPoints (piecesOf poly ops))) (he : -20 ≤ e) (he' : e ≤ 220)
    (hc : ClearOfCorners (allPoints (piecesOf poly ops)) ∨ CornersOnGrid e (allPoints (piecesOf poly ops))) : LooseInput (f64With ov) poly ops := by
  refine h.looseOf ?_
  rcases hc with hc | hc
  · obtain ⟨f1, f2, f3, -⟩ := hg.fine (f64With ov) he he' hc h.distinct (two_points h.three) h.size
    exact ⟨f1, f2, f3⟩
  · exact hg.fine_round (f64With ov) he he' hc h.open_box h.distinct (two_points h.three) h.size

theorem CrossingInput.loose_separated (ov : Rat → Rat) {B : Rat} (h : CrossingInput poly ops) (hs : WellSeparated B (allPoints (piecesOf poly ops))) : LooseInput (f64With ov) poly ops := by
  obtain ⟨h1, h2, h3, -⟩ := hs.fine (f64With ov) h.distinct (two_points h.three) h.size
  exact h.looseOf ⟨h1, h2, h3⟩

theorem CrossingInput.loose32 (ov : Rat → Rat) {M e : Int} (h : CrossingInput poly ops) (hg : OnGridUpTo M e (allPoints (piecesOf poly ops))) (hM : 1 ≤ M) (hM' : M ≤ 2 ^ 10)
    (he : -8 ≤ e) (he' : e ≤ 38) (hc : CornersFine32 M e (allPoints (piecesOf poly ops))) : LooseInput (f32With ov) poly ops := by
  have g := F32.grid_facts hg hM hM' (by omega) he'
  refine h.looseOf ?_
  rcases hc with hc | ⟨hm, hc⟩ | hc
  · exact g.fine (f32With ov) hc h.distinct (two_points h.three) h.size
  · exact g.fine (f32With ov) (F32.small_far hg hM hm he he' hc h.distinct (two_points h.three)) h.distinct (two_points h.three) h.size
  · exact g.fine_round (f32With ov) hc h.open_box h.distinct (two_points h.three) h.size

/-- **C62, `f64`.**  With conditions on the exact coordinates only: points on a binary grid, none of them inside an edge. -/
theorem C62_f64 (ov : Rat → Rat) {e : Int} (h : CrossingInput poly ops) (hg : OnGrid e (allPoints (piecesOf poly ops))) (he : -20 ≤ e) (he' : e ≤ 220)
    (hc : ClearOfCorners (allPoints (piecesOf poly ops)) ∨ CornersOnGrid e (allPoints (piecesOf poly ops))) :
    ((∃ N t s, (∀ fuel, N ≤ fuel → program (f64With ov) fuel poly ops = .ok (t, s)) ∧ SafeResult (f64With ov) poly ops t s) ∨
      (∃ N, ∀ fuel, N ≤ fuel → programG no698 (f64With ov) fuel poly ops = .error (.trapped "698")) ∧ HasFreeDip poly ops) ∧
    ∃ N t s, (∀ fuel, N ≤ fuel → repairedProgram (f64With ov) fuel poly ops = .ok (t, s)) ∧ SafeResult (f64With ov) poly ops t s :=
  ⟨C62_crate (h.loose ov hg he he' hc), C62_repaired (h.loose ov hg he he' hc)⟩

/-- **C62, `f64`, well separated points.** -/
theorem C62_separated (ov : Rat → Rat) {B : Rat} (h : CrossingInput poly ops) (hs : WellSeparated B (allPoints (piecesOf poly ops))) :
    ((∃ N t s, (∀ fuel, N ≤ fuel → program (f64With ov) fuel poly ops = .ok (t, s)) ∧ SafeResult (f64With ov) poly ops t s) ∨
      (∃ N, ∀ fuel, N ≤ fuel → programG no698 (f64With ov) fuel poly ops = .error (.trapped "698")) ∧ HasFreeDip poly ops) ∧
    ∃ N t s, (∀ fuel, N ≤ fuel → repairedProgram (f64With ov) fuel poly ops = .ok (t, s)) ∧ SafeResult (f64With ov) poly ops t s :=
  ⟨C62_crate (h.loose_separated ov hs), C62_repaired (h.loose_separated ov hs)⟩

/-- **C62, `f32`.** -/
theorem C62_f32 (ov : Rat → Rat) {M e : Int} (h : CrossingInput poly ops) (hg : OnGridUpTo M e (allPoints (piecesOf poly ops))) (hM : 1 ≤ M) (hM' : M ≤ 2 ^ 10)
    (he : -8 ≤ e) (he' : e ≤ 38) (hc : CornersFine32 M e (allPoints (piecesOf poly ops))) :
    ((∃ N t s, (∀ fuel, N ≤ fuel → program (f32With ov) fuel poly ops = .ok (t, s)) ∧ SafeResult (f32With ov) poly ops t s) ∨
      (∃ N, ∀ fuel, N ≤ fuel → programG no698 (f32With ov) fuel poly ops = .error (.trapped "698")) ∧ HasFreeDip poly ops) ∧
    ∃ N t s, (∀ fuel, N ≤ fuel → repairedProgram (f32With ov) fuel poly ops = .ok (t, s)) ∧ SafeResult (f32With ov) poly ops t s :=
  ⟨C62_crate (h.loose32 ov hg hM hM' he he' hc), C62_repaired (h.loose32 ov hg hM hM' he he' hc)⟩

end

theorem crossingInput_of_check {D} {poly : Source D} (h1 : poly.points.length + 2 ≤ 2 ^ 32) (h2 : poly.points.Nodup) (h3 : NoTouch poly [])
    (h5 : 3 ≤ poly.points.length) : CrossingInput poly [] := by
  have e : allPoints (piecesOf poly []) = poly.points := by simp [allPoints, piecesOf, Piece.pts]
  exact ⟨by rw [e]; exact h1, by rw [e]; exact h2, h3, h5, fun H hH => by simp [holesOf] at hH⟩

/-- A bow tie: the first and the third edge cross. -/
def bowtie : Source Unit := Source.ofPoints [⟨0, 0⟩, ⟨10, 7⟩, ⟨11, 1⟩, ⟨1, 9⟩]

/-- A five-pointed star drawn in one go: every edge crosses two others. -/
def pentagram : Source Unit := Source.ofPoints [⟨0, 61⟩, ⟨100, 63⟩, ⟨21, 2⟩, ⟨52, 101⟩, ⟨80, 0⟩]

theorem bowtie_crossing : CrossingInput bowtie [] := crossingInput_of_check (by decide) (by decide +kernel) (by decide +kernel) (by decide)

theorem pentagram_crossing : CrossingInput pentagram [] := crossingInput_of_check (by decide) (by decide +kernel) (by decide +kernel) (by decide)

theorem bowtie_loose : LooseInput f64 bowtie [] :=
  bowtie_crossing.loose (saturate f64Max) (e := 0) (grid_of_check (by decide +kernel)) (by norm_num) (by norm_num)
    (.inl (clear_of_box (x0 := 0) (x1 := 11) (y0 := 0) (y1 := 9) (by decide +kernel) (by decide +kernel)))

theorem pentagram_loose : LooseInput f64 pentagram [] :=
  pentagram_crossing.loose (saturate f64Max) (e := 0) (grid_of_check (by decide +kernel)) (by norm_num) (by norm_num)
    (.inl (clear_of_box (x0 := 0) (x1 := 100) (y0 := 0) (y1 := 101) (by decide +kernel) (by decide +kernel)))

/-- Neither is a simple polygon, neither has a dip; two edges of the bow tie are not crossed, and none of the star. -/
example : ¬ EdgesApart bowtie [] ∧ ¬ EdgesApart pentagram [] ∧ ¬ HasFreeDip bowtie [] ∧ ¬ HasFreeDip pentagram [] ∧
    freeEdges bowtie [] = [(2, 1), (0, 3)] ∧ freeEdges pentagram [] = [] := by decide +kernel

/-- **C62 at work.** -/
theorem C62_star :
    (∃ N t s, (∀ fuel, N ≤ fuel → program f64 fuel bowtie [] = .ok (t, s)) ∧ SafeResult f64 bowtie [] t s) ∧
    (∃ N t s, (∀ fuel, N ≤ fuel → program f64 fuel pentagram [] = .ok (t, s)) ∧ SafeResult f64 pentagram [] t s) :=
  ⟨C62_no_dip bowtie_loose (by decide +kernel), C62_no_dip pentagram_loose (by decide +kernel)⟩

/-- The run reported a triangle with a corner that is not an input point. -/
def reportsOutside {D} (len : Nat) (m : Except Err (Triangles D × St)) : Bool :=
  match m with
  | .ok (t, _) => t.result.any fun i => match t.triangles[i]? with
    | some T => decide (len ≤ T.points.a ∨ len ≤ T.points.b ∨ len ≤ T.points.c)
    | none => false
  | .error _ => false

/-- The run ended and no triangle has the edge from `u` to `v`. -/
def edgeLost {D} (u v : Nat) (m : Except Err (Triangles D × St)) : Bool :=
  match m with
  | .ok (t, _) => t.triangles.all fun T => decide (¬ ((T.points.a = u ∨ T.points.b = u ∨ T.points.c = u) ∧ (T.points.a = v ∨ T.points.b = v ∨ T.points.c = v)))
  | .error _ => false

/-- What C62 does not promise, and rightly so: the crate reports triangles outside a bow tie, even triangles with an artificial corner, since its edge from corner 0 to corner 1 got lost. -/
theorem C62_leak : ∃ t s, program f64 40 bowtie [] = .ok (t, s) ∧
    (∃ i ∈ t.result, ∃ T, t.triangles[i]? = some T ∧ (4 ≤ T.points.a ∨ 4 ≤ T.points.b ∨ 4 ≤ T.points.c)) ∧
    (0, 1) ∈ inputEdges bowtie [] ∧ (∀ T ∈ t.triangles, ¬ ((T.points.a = 0 ∨ T.points.b = 0 ∨ T.points.c = 0) ∧ (T.points.a = 1 ∨ T.points.b = 1 ∨ T.points.c = 1))) := by
  have h1 : reportsOutside 4 (program f64 40 bowtie []) = true := by decide +kernel
  have h2 : edgeLost 0 1 (program f64 40 bowtie []) = true := by decide +kernel
  have h3 : (0, 1) ∈ inputEdges bowtie [] := by decide +kernel
  generalize program f64 40 bowtie [] = m at *
  match m with
  | .error _ => cases h1
  | .ok (t, s) =>
    refine ⟨t, s, rfl, ?_, h3, fun T hT => ?_⟩
    · simp only [reportsOutside, List.any_eq_true] at h1
      obtain ⟨i, hi, k⟩ := h1
      refine ⟨i, hi, ?_⟩
      cases e : t.triangles[i]? with
      | none => rw [e] at k; cases k
      | some T => rw [e] at k; exact ⟨T, rfl, of_decide_eq_true k⟩
    · exact of_decide_eq_true (List.all_eq_true.1 h2 T hT)

/-- Of a star nothing is reported at all. -/
theorem C62_nothing : ∃ t s, program f64 60 pentagram [] = .ok (t, s) ∧ t.result = [] := by
  have h1 : (match program f64 60 pentagram [] with | .ok (t, _) => t.result.isEmpty | .error _ => false) = true := by decide +kernel
  generalize program f64 60 pentagram [] = m at *
  match m with
  | .error _ => cases h1
  | .ok (t, s) => exact ⟨t, s, rfl, List.isEmpty_iff.1 h1⟩

end P2T
