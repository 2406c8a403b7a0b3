import Verif.Props.Leftmost
import Verif.Props.Observed
import Verif.Props.Float32
import Verif.Props.Endless
import Verif.Spec.Repair

/-!
# C61: with one argument corrected the crate is right on every simple polygon with holes

C33 and C45 give simple polygons on which the crate panics, reports inverted triangles or does not end, and C38 to C42 say that this can only happen after the branch at `sweeper.rs:698` has been
taken.  Here: the recursive call there gets the wrong argument.  With the right one nothing goes wrong on any valid input, dip or not.
-/

namespace P2T

section
variable {D : Type} {n : Num} {poly : Source D} {ops : List (BuildOp D)}

theorem SoundInput.outline (a : SoundInput n poly ops) : SoundOutline n poly ops :=
  ⟨a.fine, a.noTouch, a.scan, a.up, a.apart, a.ok, a.three, a.three', fun _ hH p hp => a.inside p (holes_extra hH p hp)⟩

/-- The repaired program ends without panic, and all edges are in place. -/
theorem SoundOutline.repaired (a : SoundOutline n poly ops) : ∃ N t s, (∀ fuel, N ≤ fuel → repairedProgram n fuel poly ops = .ok (t, s)) ∧
    ConstraintsInPlace (inputEdges poly ops) t.triangles := by
  rcases total_run (g := .repaired) a.fine a.noTouch a.scan a.up a.apart a.ok with ⟨N, t, s, h⟩ | ⟨-, h, -⟩
  · exact ⟨N, t, s, h, C38_constraints_honoured a.fine a.noTouch a.scan a.up a.apart (h N (Nat.le_refl _))⟩
  · cases h

/-- **C61.**  Total correctness of the repaired program: on every input with edges that do not cross, no input point inside an edge, and holes and Steiner points inside the polygon (dips under
an edge or not), `triangulate` terminates without panic and its result is correct in every respect. -/
theorem C61_correct (a : SoundInput n poly ops) : ∃ N t s, (∀ fuel, N ≤ fuel → repairedProgram n fuel poly ops = .ok (t, s)) ∧ CorrectResult n poly ops t := by
  obtain ⟨N, t, s, h1, h4⟩ := a.outline.repaired
  have h := h1 N (Nat.le_refl _)
  have hne := C42_nonempty a.fine h h4 a.three a.three' a.inside
  have hin := a.outline.holes
  exact ⟨N, t, s, h1, (C42_region a.fine a.noTouch a.scan a.up a.apart h a.three a.three' a.inside).1, C46_delaunay a.fine a.noTouch h h4 a.three a.three' hin, h4,
    fun hap => C43_area a.fine h h4 a.three a.three' hin hap hne, fun hap => C44_count a.fine h h4 a.three a.three' hin hap (steiners_off a.fine a.noTouch a.ok a.three a.three') hne⟩

/-- **C61, `f64`.**  The same with conditions on the exact coordinates only: polygons and holes that do not touch or cross anything (`SimpleInput`), on a binary grid. -/
theorem C61_correct_f64 (ov : Rat → Rat) {e : Int} (h : SimpleInput poly ops) (hg : OnGrid e (allPoints (piecesOf poly ops))) (he : -20 ≤ e) (he' : e ≤ 220)
    (hc : ClearOfCorners (allPoints (piecesOf poly ops)) ∨ CornersOnGrid e (allPoints (piecesOf poly ops))) :
    ∃ N t s, (∀ fuel, N ≤ fuel → repairedProgram (f64With ov) fuel poly ops = .ok (t, s)) ∧ CorrectResult (f64With ov) poly ops t :=
  C61_correct (h.sound (f64With ov) hg he he' hc)

/-- **C61, `f64`, well separated points.** -/
theorem C61_correct_separated (ov : Rat → Rat) {B : Rat} (h : SimpleInput poly ops) (hs : WellSeparated B (allPoints (piecesOf poly ops))) :
    ∃ N t s, (∀ fuel, N ≤ fuel → repairedProgram (f64With ov) fuel poly ops = .ok (t, s)) ∧ CorrectResult (f64With ov) poly ops t :=
  C61_correct (h.sound_separated (f64With ov) hs)

/-- **C61, `f32`.** -/
theorem C61_correct_f32 (ov : Rat → Rat) {M e : Int} (h : SimpleInput poly ops) (hg : OnGridUpTo M e (allPoints (piecesOf poly ops))) (hM : 1 ≤ M) (hM' : M ≤ 2 ^ 10)
    (he : -8 ≤ e) (he' : e ≤ 38) (hc : CornersFine32 M e (allPoints (piecesOf poly ops))) :
    ∃ N t s, (∀ fuel, N ≤ fuel → repairedProgram (f32With ov) fuel poly ops = .ok (t, s)) ∧ CorrectResult (f32With ov) poly ops t :=
  C61_correct (h.sound32 (f32With ov) hg hM hM' he he' hc)

/-- **C61, no side effects.**  Whatever the input and however long the run, the repaired program does the same as the crate unless the crate takes the branch at `sweeper.rs:698`. -/
theorem C61_unchanged (n : Num) (fuel : Nat) (poly : Source D) (ops : List (BuildOp D)) :
    programG no698 n fuel poly ops = .error (.trapped "698") ∨ repairedProgram n fuel poly ops = program n fuel poly ops := by
  cases hb : buildChain poly ops with
  | error e => 
    have e1 : program n fuel poly ops = .error e := by rw [program, hb]; rfl
    have e2 : programG .repaired n fuel poly ops = .error e := by rw [programG, hb]; rfl
    exact .inr (e2.trans e1.symm)
  | ok b =>
    have e0 : programG no698 n fuel poly ops = (b.build n).runG no698 fuel := by rw [programG, hb]; rfl
    have e1 : program n fuel poly ops = (b.build n).runG .off fuel := by rw [program, hb]; rfl
    have e2 : programG .repaired n fuel poly ops = (b.build n).runG .repaired fuel := by rw [programG, hb]; rfl
    rcases runG_ap (B := (· = .trapped "698")) (g := no698) (g' := .repaired) (.inr ⟨rfl, rfl, rfl⟩) (.inl rfl) (b.build n) (f := fuel) (f' := fuel) (.inl rfl) with h | ⟨e, rfl, h⟩
    · rcases runG_ap (B := (· = .trapped "698")) (g := no698) (g' := .off) (.inr ⟨rfl, rfl, rfl⟩) (.inl rfl) (b.build n) (f := fuel) (f' := fuel) (.inl rfl) with k | ⟨e, rfl, k⟩
      · exact .inr (e2.trans (h.symm.trans (k.trans e1.symm)))
      · exact .inl (e0.trans k)
    · exact .inl (e0.trans h)

/-- **C61, same result.**  Where the crate was already proved correct (no dip under an edge), the repaired program returns the same result. -/
theorem C61_same (a : Admissible n poly ops) : ∃ N t s, ∀ fuel, N ≤ fuel → program n fuel poly ops = .ok (t, s) ∧ repairedProgram n fuel poly ops = .ok (t, s) := by
  obtain ⟨N, t, s, h1, h2, -⟩ := C41_total a.fine a.noTouch a.scan a.up a.apart a.ok a.noDip
  refine ⟨N, t, s, fun fuel hN => ⟨h1 fuel hN, ?_⟩⟩
  rcases C61_unchanged n fuel poly ops with h | h
  · rw [h2 fuel hN] at h; cases h
  · rw [h, h1 fuel hN]

/-- **C61, callbacks.**  An observer of the repaired program finds a sound mesh at every callback. -/
theorem C61_every_callback (a : SoundOutline n poly ops) : ∃ N t s, ∀ fuel, N ≤ fuel → repairedProgram n fuel poly ops = .ok (t, s) ∧ ∀ ev sn, (ev, sn) ∈ s.trace →
      SoundCallback (runPts n poly ops) (leftId poly ops) (leftId poly ops + 1) ev sn ∧ (ev.isEvent = true → verifyTriangles t.points sn.tris = .ok true) := by
  obtain ⟨N, t, s, h1, -⟩ := a.repaired
  refine ⟨N, t, s, fun fuel hN => ⟨h1 fuel hN, fun ev sn hm => ?_⟩⟩
  have h : programG .repaired n fuel poly ops = .ok (t, s) := h1 fuel hN
  have h' := programG_noCol a.fine a.noTouch a.scan a.up a.apart h
  exact ⟨sound_callback a.fine h h' hm, (C12_verify_true a.fine h').1 ev sn hm⟩

/-- **C61, independence.**  Two descriptions of the same input, no four points on a circle: the repaired program reports the same triangles for both. -/
theorem C61_unique {D' : Type} {n' : Num} {poly' : Source D'} {ops' : List (BuildOp D')} (a : SoundInput n poly ops) (a' : SoundInput n' poly' ops')
    (hs : SameInput poly ops poly' ops') (nc : NoFourCocircular (allPoints (piecesOf poly ops))) :
    ∃ N t s t' s', (∀ fuel, N ≤ fuel → repairedProgram n fuel poly ops = .ok (t, s) ∧ repairedProgram n' fuel poly' ops' = .ok (t', s')) ∧
      TrianglesAmong (runPts n poly ops) t.triangles t.result (runPts n' poly' ops') t'.triangles t'.result ∧
      TrianglesAmong (runPts n' poly' ops') t'.triangles t'.result (runPts n poly ops) t.triangles t.result := by
  obtain ⟨N, t, s, h1, h4⟩ := a.outline.repaired
  obtain ⟨N', t', s', h1', h4'⟩ := a'.outline.repaired
  refine ⟨max N N', t, s, t', s', fun fuel hfu => ⟨h1 fuel (by omega), h1' fuel (by omega)⟩, ?_⟩
  exact C47_unique hs nc a.fine a'.fine a.noTouch a'.noTouch (g := .repaired) (g' := .repaired) (h1 N (Nat.le_refl _)) (h1' N' (Nat.le_refl _)) h4 h4' a.three a.three' a.inside

/-- **C61, Steiner points anywhere.**  The repaired program terminates without panic wherever the Steiner points are; its result is empty if and only if the leftmost input point is a Steiner point, and
otherwise the reported triangles triangulate the polygon minus the holes. -/
theorem C61_outline (a : SoundOutline n poly ops) (lo : LeftOpen n (allPoints (piecesOf poly ops))) :
    ∃ N t s, (∀ fuel, N ≤ fuel → repairedProgram n fuel poly ops = .ok (t, s)) ∧
      (t.result = [] ↔ ∃ z ∈ steinersOf ops, TopLeft (allPoints (piecesOf poly ops)) z) ∧
      (t.result ≠ [] → TriangulatesRegion poly ops (runPts n poly ops) t.triangles t.result) := by
  obtain ⟨N, t, s, h1, h4⟩ := a.repaired
  have h : programG .repaired n N poly ops = .ok (t, s) := h1 N (Nat.le_refl _)
  exact ⟨N, t, s, h1, empty_iff a lo h h4, triangulates_ne a.fine a.noTouch h h4 a.three a.three' a.holes⟩

end

/-! ## Examples: the three polygons on which the crate fails -/

theorem simpleInput_of_check {D} {poly : Source D} (h1 : poly.points.length + 2 ≤ 2 ^ 32) (h2 : poly.points.Nodup) (h3 : NoTouch poly []) (h4 : EdgesApart poly [])
    (h5 : 3 ≤ poly.points.length) : SimpleInput poly [] := by
  have e : allPoints (piecesOf poly []) = poly.points := by simp [allPoints, piecesOf, Piece.pts]
  exact ⟨by rw [e]; exact h1, by rw [e]; exact h2, h3, h4, h5, fun H hH => by simp [holesOf] at hH, fun p hp => by simp [extraPoints, allPoints] at hp⟩

/-- The run panicked, read out of bounds, or reported a triangle that does not exist or is not counter-clockwise. -/
def badOutcome {D} (all : List Point) (m : Except Err (Triangles D × St)) : Bool :=
  match m with
  | .error e => decide (e ≠ .fuel)
  | .ok (t, _) => t.result.any fun i => match t.triangles[i]? with
    | some T => decide (¬ 0 < area2 all T)
    | none => true

/-- The crate does not return a correct result, with any bound on the recursion. -/
def CrateFails {D} (n : Num) (poly : Source D) (ops : List (BuildOp D)) : Prop :=
  ¬ ∃ fuel t s, program n fuel poly ops = .ok (t, s) ∧ CorrectResult n poly ops t

theorem crateFails_of {D} {n : Num} {poly : Source D} {ops : List (BuildOp D)} (f : Nat) (h : badOutcome (runPts n poly ops) (program n f poly ops) = true) : CrateFails n poly ops := by
  rintro ⟨fuel, t, s, h1, h2⟩
  have same : program n f poly ops = .ok (t, s) := by
    obtain ⟨b, hb, hr⟩ := bind_ok.1 h1
    have e1 : ∀ f, program n f poly ops = (b.build n).run f := fun f => by rw [program, hb]; rfl
    rw [e1] at h ⊢
    rcases Nat.le_total f fuel with k | k
    · rcases run_fuel (b.build n) k with q | q
      · rw [q] at h; cases h
      · rw [q]; exact hr
    · rcases run_fuel (b.build n) k with q | q
      · exact nomatch (hr.symm.trans q)
      · rw [← q]; exact hr
  rw [same] at h
  simp only [badOutcome, List.any_eq_true] at h
  obtain ⟨i, hi, k⟩ := h
  obtain ⟨T, hT, hpos, -⟩ := h2.region.proper i hi
  rw [hT] at k
  simp only [decide_eq_true_eq] at k
  exact k hpos

/-- The simple polygons of C33 and C45, with integer coordinates: on the first one the crate panics, on the second one it reports an inverted triangle, on the third one it does not end. -/
theorem C61_crate_fails : CrateFails f64 (Source.ofPoints octagon) [] ∧ CrateFails f64 (Source.ofPoints dodecagon) [] ∧ CrateFails f64 heptagonSrc [] :=
  ⟨crateFails_of 12 (by decide +kernel), crateFails_of 60 (by decide +kernel), fun ⟨fuel, t, s, h, _⟩ => by rw [heptagon_program] at h; cases h⟩

/-- The repaired program returns a correct result on all three. -/
theorem C61_repaired :
    (∃ N t s, (∀ fuel, N ≤ fuel → repairedProgram f64 fuel (Source.ofPoints octagon) [] = .ok (t, s)) ∧ CorrectResult f64 (Source.ofPoints octagon) [] t) ∧
    (∃ N t s, (∀ fuel, N ≤ fuel → repairedProgram f64 fuel (Source.ofPoints dodecagon) [] = .ok (t, s)) ∧ CorrectResult f64 (Source.ofPoints dodecagon) [] t) ∧
    (∃ N t s, (∀ fuel, N ≤ fuel → repairedProgram f64 fuel heptagonSrc [] = .ok (t, s)) ∧ CorrectResult f64 heptagonSrc [] t) := by
  refine ⟨C61_correct_f64 (saturate f64Max) (e := 0) ?_ (grid_of_check (by decide +kernel)) (by norm_num) (by norm_num)
      (.inl (clear_of_box (x0 := 5) (x1 := 20) (y0 := 2) (y1 := 13) (by decide +kernel) (by decide +kernel))),
    C61_correct_f64 (saturate f64Max) (e := 0) ?_ (grid_of_check (by decide +kernel)) (by norm_num) (by norm_num)
      (.inl (clear_of_box (x0 := 1) (x1 := 20) (y0 := 0) (y1 := 20) (by decide +kernel) (by decide +kernel))),
    C61_correct_f64 (saturate f64Max) (e := 0) ?_ (grid_of_check (by decide +kernel)) (by norm_num) (by norm_num)
      (.inl (clear_of_box (x0 := 20) (x1 := 470) (y0 := 100) (y1 := 480) (by decide +kernel) (by decide +kernel)))⟩ <;>
    exact simpleInput_of_check (by decide) (by decide +kernel) (by decide +kernel) (by decide +kernel) (by decide)

/-- All of them have a dip under an edge, of course. -/
example : HasDip (Source.ofPoints octagon) [] ∧ HasDip (Source.ofPoints dodecagon) [] ∧ HasDip heptagonSrc [] := by decide +kernel

end P2T
