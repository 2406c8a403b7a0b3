import Verif.Proofs.Debug
import Verif.Proofs.DebugRun
import Verif.Props.Unique
import Verif.Spec.Debug

/-!
# C53: debug builds

`cargo build` and `cargo test` compile the crate's `debug_assert!`s: different points in every `orient_2d`, a common edge in every
neighbour link, the right entry in every front update, and `verify_triangles()` after every point.
-/

namespace P2T

section
variable {D : Type} {n : Num} {fuel : Nat} {poly : Source D} {ops : List (BuildOp D)} {t : Triangles D} {s : St}

/-- **C53.**  Whatever the input: if the debug build returns, the release build returns the same mesh, the same triangles and the same sequence of callbacks. -/
theorem C53_same_result (h : programD n fuel poly ops = .ok (t, s)) : program n fuel poly ops = .ok (t, s) := by
  obtain ⟨b, hb, hr⟩ := bind_ok.1 h
  rw [program, hb, ok_bind]
  exact (runD_sim (b.build n) fuel).run _ hr

/-- The input edges join different points. -/
theorem fine_edges (hf : FineInput n (allPoints (piecesOf poly ops))) {b} (hb : buildChain poly ops = .ok b) :
    Input (b.build n).points ∧ ∀ (j : Nat) (es : PointEdges), (b.build n).points.edges[j]? = some es → ∀ p ∈ es.toList, p ≠ j := by
  have hsz := hf.size
  have hok : ∀ p ∈ piecesOf poly ops, p.Ok := by
    rcases buildChain_spec poly ops (by omega) with ⟨hok, -⟩ | ⟨-, h1⟩
    · exact hok
    · rw [hb] at h1; cases h1
  obtain ⟨b', k1, hi, hpts, hE⟩ := fine_build hf hok
  rw [hb] at k1; cases k1
  refine ⟨hi, fun j es hj p hp => ?_⟩
  have hbelow := fun x hx => pieceEdges_below (piecesOf poly ops) [] hok x hx
  simp only [List.length_nil, List.nil_append] at hbelow
  have h5 : (b.build n).points.edges = b.pb.edges ++ [.none] ++ [.none] := rfl
  rw [h5, List.append_assoc] at hj
  by_cases hl : j < b.pb.edges.length
  · rw [List.getElem?_append_left hl] at hj
    rw [hE.get j _ hj] at hp
    simp only [List.mem_map, List.mem_filter, decide_eq_true_eq] at hp
    obtain ⟨⟨a, c⟩, ⟨h1, rfl⟩, rfl⟩ := hp
    obtain ⟨P, Q, e1, e2, e3⟩ := hbelow _ h1
    intro e
    simp only at e
    subst e
    rw [e1] at e2; cases e2
    exact Below.irrefl _ e3
  · rw [List.getElem?_append_right (by omega)] at hj
    have : es = .none := by
      have := List.mem_of_getElem? hj
      simpa using this
    subst this
    simp [PointEdges.toList] at hp

/-- **C53.**  No debug assertion fires in a run that takes neither the branch at `sweeper.rs:698` nor the collinear branches of the edge insertion: the debug
build returns what the release build returns. -/
theorem C53_no_assertion (hf : FineInput n (allPoints (piecesOf poly ops))) (h : programG noCol n fuel poly ops = .ok (t, s)) :
    programD n fuel poly ops = .ok (t, s) ∧ program n fuel poly ops = .ok (t, s) := by
  obtain ⟨b, hb, hr⟩ := bind_ok.1 h
  obtain ⟨hi, hne⟩ := fine_edges hf hb
  have : programD n fuel poly ops = .ok (t, s) := by
    rw [programD, hb, ok_bind]
    exact (runD_ok (b.build n) hi hne (g := noCol) rfl rfl fuel).run _ hr
  exact ⟨this, C53_same_result this⟩

/-- **C53.**  The same, from conditions on the input: edges that do not cross, no input point inside an edge. -/
theorem C53_general (hf : FineInput n (allPoints (piecesOf poly ops))) (hp : NoTouch poly ops)
    (hx : ScanComplete n (runPts n poly ops)) (hu : EpsUp n (allPoints (piecesOf poly ops))) (ha : EdgesApart poly ops)
    (h : programG no698 n fuel poly ops = .ok (t, s)) : programD n fuel poly ops = .ok (t, s) ∧ program n fuel poly ops = .ok (t, s) :=
  C53_no_assertion hf (programG_noCol hf hp hx hu ha h)

/-- **C53.**  If moreover there is no dip under an edge, the debug build and the release build both terminate without panic, with the same result. -/
theorem C53_total (hf : FineInput n (allPoints (piecesOf poly ops))) (hp : NoTouch poly ops)
    (hx : ScanComplete n (runPts n poly ops)) (hu : EpsUp n (allPoints (piecesOf poly ops))) (ha : EdgesApart poly ops)
    (hok : ∀ p ∈ piecesOf poly ops, p.Ok) (hd : ¬ HasDip poly ops) :
    ∃ N t s, ∀ fuel, N ≤ fuel → programD n fuel poly ops = .ok (t, s) ∧ program n fuel poly ops = .ok (t, s) := by
  obtain ⟨N, t, s, -, h, -⟩ := C41_total hf hp hx hu ha hok hd
  exact ⟨N, t, s, fun fuel hN => C53_general hf hp hx hu ha (h fuel hN)⟩

end

/-! ## Examples -/

/-- A polygon with a hole and Steiner points. -/
example : ∃ N t s, ∀ fuel, N ≤ fuel → programD f64 fuel exPoly gpOps = .ok (t, s) ∧ program f64 fuel exPoly gpOps = .ok (t, s) :=
  C53_total gp_fine gp_general.1 gp_general.2.1 gp_up.1 gp_general.2.2 gp_up.2 gp_no_dip

/-- The hypothesis of `C53_same_result` holds for it with 200 rounds. -/
example : (programD f64 200 exPoly gpOps).toBool = true := by decide +kernel

/-- The assertions are not vacuous: `orient_2d` on equal points panics … -/
example (p q : Point) : orientD p p q = .error Dbg.orient.err := by simp [orientD]

/-- … and so does a link between triangles without a common edge. -/
example : Store.markTwoD 0 1 (Tri.new 0 1 2) (Tri.new 0 3 4) = .error Dbg.neighbors.err := by decide

/-- In a whole program: a polygon that passes twice through a point.  The release build panics later, in the front. -/
example : programD f64 50 (Source.ofPoints [⟨3, 6⟩, ⟨6, 6⟩, ⟨5, 6⟩, ⟨6, 6⟩]) [] matches .error (.panic "debug_assert: they are not neighbors") := by
  decide +kernel

end P2T
