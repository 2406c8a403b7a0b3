import Verif.Spec.Safety
import Verif.Props.MeshProps
import Verif.Props.Defects

/-!
# C21, C22: what can go wrong, and where
-/

namespace P2T

section
variable {D : Type} {n : Num} {fuel : Nat} {poly : Source D} {ops : List (BuildOp D)} {e : Err}

/-- **C22.**  A run on a fine input that does not take the branch `sweeper.rs:698` either ends (or
is cut by the recursion bound), or the builder rejected a polyline, or it fails inside the edge event of
an input edge: no point event, no fill of a point event, no legalization outside edge events and no finalization fails. -/
theorem C22_fails_in_edge_event (hf : FineInput n (allPoints (piecesOf poly ops)))
    (hok : ∀ p ∈ piecesOf poly ops, p.Ok) (h : programG no698 n fuel poly ops = .error e) :
    e = .fuel ∨ ∃ b p q, buildChain poly ops = .ok b ∧ (p, q) ∈ pieceEdges 0 (piecesOf poly ops) ∧
      EdgeEventFails no698 (b.build n).points fuel p q e := by
  obtain ⟨b, hb, hi, hp, hE⟩ := fine_build hf hok
  have h' : (b.build n).runG no698 fuel = .error e := by
    rw [programG, hb] at h; exact h
  have := runG_spec (K := False) (g := no698) (b.build n) hi inferInstance (by simp) fuel
  rw [h'] at this
  rcases this with k | ⟨-, s0, items, k1, k2, pre, q, pt, es, post, l1, p, l2, s1, s2, s3, rfl, q2, q3, q4, q5, q6⟩
  · exact .inl k
  · refine .inr ⟨b, p, q, hb, ?_, s0, pre, pt, es, post, s1, s2, l1, l2, s3, k1, k2, q2, q3, q4, q5, q6⟩
    have he := ((iterByY_ok k2).2 (q, pt, es) (by simp)).2
    have hpl : p ∈ es.toList := by rw [q4]; simp
    have eE : (b.build n).points.edges = b.pb.edges ++ [.none] ++ [.none] := rfl
    rw [eE, List.append_assoc] at he
    by_cases hlt : q < b.pb.edges.length
    · rw [List.getElem?_append_left hlt] at he
      rw [hE.get q es he] at hpl
      simp only [List.mem_map, List.mem_filter, decide_eq_true_eq] at hpl
      obtain ⟨⟨x, y⟩, ⟨hx, rfl⟩, rfl⟩ := hpl
      exact hx
    · rw [List.getElem?_append_right (by omega)] at he
      have : es = .none := by
        have := List.mem_of_getElem? he
        simpa using this
      subst this; simp [PointEdges.toList] at hpl

/-- **C21.**  On a fine input the only undefined behaviour that a run avoiding `sweeper.rs:698` can reach
is the unchecked read of a missing neighbour (`triangles[usize::MAX]`): points, triangles, edges and front nodes are read in
bounds, and the simultaneous mutable references of a flip never alias. -/
theorem C21_only_missing_neighbour (hf : FineInput n (allPoints (piecesOf poly ops))) {m : String}
    (h : programG no698 n fuel poly ops = .error (.ub m)) : m = "get_unchecked of INVALID" := by
  have hsz := hf.size
  rcases buildChain_spec poly ops (by omega) with ⟨hok, -⟩ | ⟨-, h1⟩
  · obtain ⟨b, hb, hi, hp, hE⟩ := fine_build hf hok
    have h' : (b.build n).runG no698 fuel = .error (.ub m) := by
      rw [programG, hb] at h; exact h
    have := runG_spec (K := False) (g := no698) (b.build n) hi inferInstance (by simp) fuel
    rw [h'] at this
    rcases this with k | ⟨k, -⟩
    · cases k
    · rcases k with k | ⟨_, k⟩ | ⟨_, k⟩ | k <;> simp_all
  · rw [programG, h1] at h; cases h

/-- **C22.**  Without polygon edges (an empty outline and any Steiner points) a run of the code cannot fail at all, except that the
recursion bound of the model may be too small. -/
theorem C22_no_edges_no_failure (hf : FineInput n (allPoints (piecesOf poly ops)))
    (he : pieceEdges 0 (piecesOf poly ops) = []) (hok : ∀ p ∈ piecesOf poly ops, p.Ok)
    (h : program n fuel poly ops = .error e) : e = .fuel := by
  obtain ⟨b, hb, hi, hp, hE⟩ := fine_build hf hok
  rcases runG_off (b.build n) no698 fuel with ⟨m, k⟩ | k
  · have : programG no698 n fuel poly ops = .error (.trapped m) := by rw [programG, hb]; exact k
    rcases C22_fails_in_edge_event hf hok this with k | ⟨_, p, q, _, k, _⟩
    · cases k
    · rw [he] at k; cases k
  · have : programG no698 n fuel poly ops = .error e := by
      rw [programG, hb]; rw [program, hb] at h
      exact k.trans h
    rcases C22_fails_in_edge_event hf hok this with k | ⟨_, p, q, _, k, _⟩
    · exact k
    · rw [he] at k; cases k

end

/-! ## Concrete cases -/

/-- The input of `C34_undefined_behaviour` is fine and fails with the undefined behaviour of C21, without taking the
branch `sweeper.rs:698`. -/
theorem ex_ub : FineInput f64 (allPoints (piecesOf (Source.ofPoints quad) [.steinerPoints (Source.ofPoints quadSteiner)])) ∧
    (match programG no698 f64 40 (Source.ofPoints quad) [.steinerPoints (Source.ofPoints quadSteiner)] with
      | .error e => decide (e = .ub "get_unchecked of INVALID")
      | .ok _ => false) = true := by
  constructor <;> decide +kernel

/-- A triangle with three Steiner points inside, one of them close to an edge: the run panics in an edge event although it
does not take the branch `sweeper.rs:698`. -/
theorem ex_panic : FineInput f64 (allPoints (piecesOf (Source.ofPoints (pointsOf [(0,50),(60,0),(60,10)]))
      [.steinerPoints (Source.ofPoints (pointsOf [(20,20),(20,40),(30,30)]))])) ∧
    (match programG no698 f64 40 (Source.ofPoints (pointsOf [(0,50),(60,0),(60,10)]))
        [.steinerPoints (Source.ofPoints (pointsOf [(20,20),(20,40),(30,30)]))] with
      | .error e => decide (e = .panic "assert triangle valid")
      | .ok _ => false) = true := by
  constructor <;> decide +kernel

/-- Five Steiner points and no outline: a fine input without edges, and the run succeeds. -/
theorem ex_steiner : FineInput f64 (allPoints (piecesOf (Source.ofPoints [])
      [.steinerPoints (Source.ofPoints quadSteiner)])) ∧
    pieceEdges 0 (piecesOf (Source.ofPoints []) [.steinerPoints (Source.ofPoints quadSteiner)]) = [] ∧
    (match program f64 40 (Source.ofPoints []) [.steinerPoints (Source.ofPoints quadSteiner)] with
      | .error _ => false
      | .ok (t, _) => decide (t.triangles.length = 6)) = true := by
  refine ⟨by decide +kernel, by decide +kernel, by decide +kernel⟩

end P2T
