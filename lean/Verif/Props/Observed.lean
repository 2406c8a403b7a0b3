import Verif.Props.Float
import Verif.Props.Debug
import Verif.Spec.Observed

/-!
# C54: an observer sees a sound mesh at every callback

C10–C13, C18–C20, C35 and C36 are about successful runs that do not take the defective branch.  Here they are put together for the program as it is, on inputs
for which C41 excludes that branch.
-/

namespace P2T

section
variable {D : Type} {n : Num} {fuel : Nat} {poly : Source D} {ops : List (BuildOp D)} {t : Triangles D} {s : St} {g : Trap} [hg : g.Tame]

theorem sound_callback (hf : FineInput n (allPoints (piecesOf poly ops))) (h : programG g n fuel poly ops = .ok (t, s))
    (h' : programG g.strict n fuel poly ops = .ok (t, s)) {ev : Ev} {sn : Snap} (hm : (ev, sn) ∈ s.trace) :
    SoundCallback (runPts n poly ops) (leftId poly ops) (leftId poly ops + 1) ev sn where
  adjacency := ((callback_mesh hf h).2.2 ev sn hm).1
  oriented := (C11_no_inverted hf h).1 ev sn hm
  marks := (C12_symmetric_marks hf h').1 ev sn hm
  front := (C13_front hf h).1 ev sn hm
  disjoint i j T T' hT hT' q hq hq' := C19_no_overlap hf h hm hT hT' hq hq'
  cover q := C20_covered hf h hm
  within q T := C20_nothing_else hf h hm
  planar u v x y := C36_planar hf h hm
  corners T hT T' hT' i := C35_no_corner_inside hf h hm hT hT' i
  bounds := (C13_front hf h).2 ev sn hm
  delaunay := (C12_locally_delaunay hf h).1 ev sn hm
  edge p q e := C18_edge_inserted hf h' (by rw [← e]; exact hm)

/-- **C54.**  On an input whose edges do not cross, with no input point inside an edge and no dip under an edge, the program returns, and at every callback the
observer finds a sound mesh; `verify_triangles` called in a callback between events returns `true`. -/
theorem C54_every_callback (hf : FineInput n (allPoints (piecesOf poly ops))) (hp : NoTouch poly ops)
    (hx : ScanComplete n (runPts n poly ops)) (hu : EpsUp n (allPoints (piecesOf poly ops))) (ha : EdgesApart poly ops)
    (hok : ∀ p ∈ piecesOf poly ops, p.Ok) (hd : ¬ HasDip poly ops) :
    ∃ N t s, ∀ fuel, N ≤ fuel → program n fuel poly ops = .ok (t, s) ∧ ∀ ev sn, (ev, sn) ∈ s.trace →
      SoundCallback (runPts n poly ops) (leftId poly ops) (leftId poly ops + 1) ev sn ∧
      (ev.isEvent = true → verifyTriangles t.points sn.tris = .ok true) := by
  obtain ⟨N, t, s, h1, h2, -⟩ := C41_total hf hp hx hu ha hok hd
  refine ⟨N, t, s, fun fuel hN => ⟨h1 fuel hN, fun ev sn hm => ?_⟩⟩
  have h := h2 fuel hN
  have h' := programG_noCol hf hp hx hu ha h
  exact ⟨sound_callback hf h h' hm, (C12_verify_true hf h').1 ev sn hm⟩

/-- **C54, `f64`.**  The same without assumptions on the arithmetic, for points on a binary grid; and the debug build runs through as well. -/
theorem C54_f64 (ov : Rat → Rat) {e : Int} (h : PlainInput poly ops) (hg : OnGrid e (allPoints (piecesOf poly ops))) (he : -20 ≤ e) (he' : e ≤ 220)
    (hc : ClearOfCorners (allPoints (piecesOf poly ops)) ∨ CornersOnGrid e (allPoints (piecesOf poly ops))) :
    ∃ N t s, ∀ fuel, N ≤ fuel → program (f64With ov) fuel poly ops = .ok (t, s) ∧ programD (f64With ov) fuel poly ops = .ok (t, s) ∧
      ∀ ev sn, (ev, sn) ∈ s.trace → SoundCallback (runPts (f64With ov) poly ops) (leftId poly ops) (leftId poly ops + 1) ev sn := by
  have a := C48_admissible (f64With ov) h hg he he' hc
  obtain ⟨N, t, s, h1⟩ := C54_every_callback a.fine a.noTouch a.scan a.up a.apart a.ok a.noDip
  obtain ⟨N', t', s', h2⟩ := C53_total a.fine a.noTouch a.scan a.up a.apart a.ok a.noDip
  have e1 := (h1 (max N N') (Nat.le_max_left _ _)).1
  have e2 := (h2 (max N N') (Nat.le_max_right _ _)).2
  rw [e1] at e2; cases e2
  exact ⟨max N N', t, s, fun fuel hN => ⟨(h1 fuel (by omega)).1, (h2 fuel (by omega)).1, fun ev sn hm => ((h1 fuel (by omega)).2 ev sn hm).1⟩⟩

end

/-- A polygon with a hole and Steiner points. -/
example : ∃ N t s, ∀ fuel, N ≤ fuel → program f64 fuel exPoly gpOps = .ok (t, s) ∧ ∀ ev sn, (ev, sn) ∈ s.trace →
    SoundCallback (runPts f64 exPoly gpOps) (leftId exPoly gpOps) (leftId exPoly gpOps + 1) ev sn ∧
      (ev.isEvent = true → verifyTriangles t.points sn.tris = .ok true) :=
  C54_every_callback gp_fine gp_general.1 gp_general.2.1 gp_up.1 gp_general.2.2 gp_up.2 gp_no_dip

/-- Its run has callbacks of every kind. -/
example : (match program f64 200 exPoly gpOps with
    | .ok (_, s) => s.trace.any (fun x => x.1.isEvent) && s.trace.any (fun x => x.1 matches .rotated _ _) && s.trace.any (fun x => x.1 matches .edge _ _)
    | .error _ => false) = true := by decide +kernel

end P2T
