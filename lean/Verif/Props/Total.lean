import Verif.Proofs.RunHalt
import Verif.Props.Constraints

/-!
# C40: every run comes to an end

The model cuts every loop and every recursion of the code off after `fuel` rounds.  The theorems here say that this bound is not needed:
from some number on the result does not depend on it, and it is a triangulation.
-/

namespace P2T

variable {D : Type} {n : Num} {poly : Source D} {ops : List (BuildOp D)}

/-- Every run in which the branch at `sweeper.rs:698` is excluded or repaired ends; crossing edges are allowed. -/
theorem total_gen {g : Trap} [g.Tame] (hf : FineInput n (allPoints (piecesOf poly ops))) (hp : NoTouch poly ops)
    (hx : ScanComplete n (runPts n poly ops)) (hu : EpsUp n (allPoints (piecesOf poly ops)))
    (hok : ∀ p ∈ piecesOf poly ops, p.Ok) :
    (∃ N t s, ∀ fuel, N ≤ fuel → programG g n fuel poly ops = .ok (t, s)) ∨
    (∃ N, ∀ fuel, N ≤ fuel → programG g n fuel poly ops = .error (.trapped "698")) ∧ g.l698 = true ∧ HasFreeDip poly ops := by
  obtain ⟨b, hb, -⟩ := fine_build hf hok
  have S := run_setup hf hp hx hb
  obtain ⟨N, r, h1, h2⟩ := runG_hal _ S.input S.exact (S.up hu) (g := g.strict) (N := EdgesApart poly ops) inferInstance rfl S.apart (fun u v => Or.symm) S.loose S.mem S.edge
  have hr : ∀ fuel, N ≤ fuel → (b.build n).runG g.strict fuel = r := fun fuel hN => h2 fuel hN fuel hN
  have h698 : ∀ fuel, N ≤ fuel → programG g n fuel poly ops = r := by
    intro fuel hN
    rw [programG, hb]; exact (runG_strict_gen hf hp hx hu hb).symm.trans (hr fuel hN)
  rcases no_panic_gen (g := g) (fuel := N) hf hp hx hu hok with ⟨t, s, k⟩ | k | ⟨k, hd⟩
  · rw [h698 N (Nat.le_refl _)] at k
    exact .inl ⟨N, t, s, fun fuel hN => (h698 fuel hN).trans k⟩
  · rw [h698 N (Nat.le_refl _)] at k; exact (h1 k).elim
  · rw [h698 N (Nat.le_refl _)] at k
    exact .inr ⟨⟨N, fun fuel hN => (h698 fuel hN).trans k⟩, hd⟩

/-- Every run in which the branch at `sweeper.rs:698` is excluded or repaired ends. -/
theorem total_run {g : Trap} [g.Tame] (hf : FineInput n (allPoints (piecesOf poly ops))) (hp : NoTouch poly ops)
    (hx : ScanComplete n (runPts n poly ops)) (hu : EpsUp n (allPoints (piecesOf poly ops))) (ha : EdgesApart poly ops)
    (hok : ∀ p ∈ piecesOf poly ops, p.Ok) :
    (∃ N t s, ∀ fuel, N ≤ fuel → programG g n fuel poly ops = .ok (t, s)) ∨
    (∃ N, ∀ fuel, N ≤ fuel → programG g n fuel poly ops = .error (.trapped "698")) ∧ g.l698 = true ∧ HasDip poly ops :=
  (total_gen (g := g) hf hp hx hu hok).imp id fun h => ⟨h.1, h.2.1, ha.dip h.2.2⟩

/-- **C40.**  Every run ends: with no input point inside an input edge and no two input edges crossing, either the run returns one and the same
triangulation for every large enough recursion bound, or it reaches the branch at `sweeper.rs:698` and there is a dip under an edge. -/
theorem C40_total (hf : FineInput n (allPoints (piecesOf poly ops))) (hp : NoTouch poly ops)
    (hx : ScanComplete n (runPts n poly ops)) (hu : EpsUp n (allPoints (piecesOf poly ops))) (ha : EdgesApart poly ops)
    (hok : ∀ p ∈ piecesOf poly ops, p.Ok) :
    (∃ N t s, ∀ fuel, N ≤ fuel → programG no698 n fuel poly ops = .ok (t, s)) ∨
    (∃ N, ∀ fuel, N ≤ fuel → programG no698 n fuel poly ops = .error (.trapped "698")) ∧ HasDip poly ops := by
  rcases total_run (g := no698) hf hp hx hu ha hok with h | ⟨h, -, hd⟩
  · exact .inl h
  · exact .inr ⟨h, hd⟩

/-- The code as it is: a run that does not end, panics or reads out of bounds reaches the branch at `sweeper.rs:698`, and only if there is
a dip under an edge. -/
theorem C40_program (hf : FineInput n (allPoints (piecesOf poly ops))) (hp : NoTouch poly ops)
    (hx : ScanComplete n (runPts n poly ops)) (hu : EpsUp n (allPoints (piecesOf poly ops))) (ha : EdgesApart poly ops)
    (hok : ∀ p ∈ piecesOf poly ops, p.Ok) :
    (∃ N t s, ∀ fuel, N ≤ fuel → program n fuel poly ops = .ok (t, s)) ∨
    (∃ N, ∀ fuel, N ≤ fuel → programG no698 n fuel poly ops = .error (.trapped "698")) ∧ HasDip poly ops := by
  rcases C40_total hf hp hx hu ha hok with ⟨N, t, s, h⟩ | h
  · left
    refine ⟨N, t, s, fun fuel hN => ?_⟩
    obtain ⟨b, hb, -⟩ := fine_build hf hok
    have e0 : programG no698 n fuel poly ops = (b.build n).runG no698 fuel := by rw [programG, hb]; rfl
    have e1 : program n fuel poly ops = (b.build n).run fuel := by rw [program, hb]; rfl
    rcases runG_off (b.build n) no698 fuel with ⟨m, k⟩ | k
    · have := h fuel hN; rw [e0, k] at this; cases this
    · rw [e1, ← k, ← e0]; exact h fuel hN
  · exact .inr h

/-! ## Without edges -/

theorem sweepLoop_points {c : Ctx} {K : Prop} (gd : Good c) {g : Trap} : ∀ (l : List (Nat × Point × PointEdges)) {done : List Nat} {s : St},
    Coming c done l → Swept c K g done s → (∀ x ∈ l, x.2.2.toList = []) →
    (Hal fun f _ => sweepLoop g c f l s) ∧ ∀ fuel, Spec (sweepLoop g c fuel l s) (· = .fuel) fun s' => Swept c K g (done ++ l.map (·.1)) s'
  | [], done, s, _, h, _ => ⟨Hal.pure, fun _ => Spec.ok (by simpa using h)⟩
  | (q, pt, es) :: l, done, s, hc, h, hl => by
    simp only [sweepLoop]
    obtain ⟨hq, hh, ht, hpt⟩ := hc.lt (q, pt, es) (by simp)
    have hpt' : pt = c.pos q := hpt
    subst hpt'
    have h1 : SInv c K (fun _ => False) NoP (s.emit (.enterPoint q)) := h.inv.emit' (by simp)
    have hb : ∀ a ∈ (s.emit (.enterPoint q)).front.pids, Below (c.pos a) (c.pos q) := by
      intro a ha
      have hu : Uses s.tris s.front a := by
        simp only [Front.pids, List.mem_map] at ha
        obtain ⟨e, he, hk⟩ := ha
        exact .inr ⟨e, he, hk⟩
      rcases h.base.uses a hu with rfl | rfl | hd
      · exact (gd.headBelow hq hh ht).1
      · exact (gd.headBelow hq hh ht).2
      · exact hc.above _ (List.mem_cons_self) a hd
    have sp : ∀ f, Spec (pointEvent c f (s.emit (.enterPoint q)) q (c.pos q)) (· = .fuel) fun s1 => Swept c K g (done ++ [q]) (s1.emit (.exitPoint q)) := by
      intro f
      refine (pointEvent_spec' gd (fuel := f) h1 hq hh ht hb (h.base.fresh hh ht (hc.above _ List.mem_cons_self))).withEq.mono ?_
      rintro s1 ⟨⟨⟨k1, k2, k3, k4⟩, -⟩, k5⟩
      exact h.point hc k5 k1 k2 k3 k4
    have he : es.toList = [] := hl (q, c.pos q, es) (by simp)
    have ih := fun (s1 : St) (k : Swept c K g (done ++ [q]) (s1.emit (.exitPoint q))) => sweepLoop_points gd l hc.next k fun x hx => hl x (by simp [hx])
    constructor
    · refine Hal.bind (pointEvent_hal gd h1 hq hh ht hb (h.base.fresh hh ht (hc.above _ List.mem_cons_self))) (fun f _ => sp f) ?_
      intro s1 k
      simp only [he, edgeEvents, pure_ok, ok_bind]
      exact (ih s1 k).1
    · intro fuel
      refine Spec.bind (sp fuel) ?_
      intro s1 k
      simp only [he, edgeEvents, pure_ok, ok_bind]
      refine ((ih s1 k).2 fuel).mono ?_
      intro s2 h2
      simpa using h2

/-- **C40.**  Points only: if there are no edges, the run always returns a triangulation, general position or not.  (`g` is any choice of traps, so the
theorems about `programG no698` and about `program` both apply.) -/
theorem C40_points (hf : FineInput n (allPoints (piecesOf poly ops))) (hok : ∀ p ∈ piecesOf poly ops, p.Ok) (he : inputEdges poly ops = []) (g : Trap) :
    ∃ N t s, ∀ fuel, N ≤ fuel → programG g n fuel poly ops = .ok (t, s) := by
  obtain ⟨b, hb, h, hpts, hE⟩ := fine_build hf hok
  have hno : ∀ (j : Nat) (es : PointEdges), (b.build n).points.edges[j]? = some es → es.toList = [] := by
    intro j es hj
    have h5 : (b.build n).points.edges = b.pb.edges ++ [.none] ++ [.none] := rfl
    rw [h5, List.append_assoc] at hj
    by_cases hl : j < b.pb.edges.length
    · rw [List.getElem?_append_left hl] at hj
      rw [hE.get j _ hj]
      have : pieceEdges 0 (piecesOf poly ops) = [] := he
      simp [this]
    · rw [List.getElem?_append_right (by omega)] at hj
      have : es = .none := by
        have := List.mem_of_getElem? hj
        simpa using this
      subst this; rfl
  simp only [programG, hb, ok_bind]
  generalize b.build n = cdt at *
  obtain ⟨p0, rest, hy⟩ : ∃ p0 rest, cdt.points.ySorted = p0 :: rest := by
    have := h.perm.length_eq
    rw [List.length_range] at this
    cases hy : cdt.points.ySorted with
    | nil => rw [hy] at this; have := h.ne; simp at *; omega
    | cons a l => exact ⟨a, l, rfl⟩
  have hm : p0 < cdt.points.points.length - 2 := by
    have := h.perm.subset (by rw [hy]; simp : p0 ∈ cdt.points.ySorted)
    exact List.mem_range.1 this
  obtain ⟨s0, i1, i2, i3⟩ := initState_spec (K := False) (g := g) h.good (p0 := p0) (by rw [hy]; rfl) (by omega) (by rw [h.head]; omega) (by rw [h.tail]; omega)
  obtain ⟨items, j1, j2, j3, j4⟩ := h.coming hy
  obtain ⟨k1, k2⟩ := sweepLoop_points h.good items j3 i2 fun x hx => hno _ _ (j4 x hx)
  have fin : ∀ s1, Swept cdt.points False g ([p0] ++ items.map (·.1)) s1 → Swept cdt.points False g ([p0] ++ items.map (·.1)) (s1.emit .sweepDone) := fun s1 hs1 =>
    ⟨hs1.inv.emit' (by simp), hs1.base.emit _, hs1.has, hs1.log.cons (by simp) (by simp), hs1.top,
      hs1.step.cons fun x l e _ => by show KeepL _ _ s1.tris; rw [hs1.head x l e]; exact .refl _ _, .emit _ _⟩
  have hal : Hal fun f _ => cdt.runG g f := by
    simp only [CDT.runG, i1, ok_bind, sweepPoints, j1]
    exact Hal.bind k1 (fun f _ => k2 f) fun s1 hs1 => Hal.bind (finalizePolygon_hal (fin s1 hs1)) (fun f _ => finalize_total (fin s1 hs1) f) fun _ _ => Hal.pure
  have sp : ∀ fuel, Spec (cdt.runG g fuel) (· = .fuel) fun _ => True := by
    intro fuel
    simp only [CDT.runG, i1, ok_bind, sweepPoints, j1]
    exact Spec.bind (k2 fuel) fun s1 hs1 => Spec.bind ((finalize_total (fin s1 hs1) fuel).monoE fun _ k => k.1) fun _ _ => Spec.ok trivial
  obtain ⟨N, r, r1, r2⟩ := hal
  cases r with
  | error e =>
    have := sp N
    have e1 : cdt.runG g N = .error e := r2 N (Nat.le_refl _) N (Nat.le_refl _)
    rw [e1] at this
    exact (r1 (congrArg _ (this : e = .fuel))).elim
  | ok r => exact ⟨N, r.1, r.2, fun fuel hN => r2 fuel hN fuel hN⟩

/-! ## Examples -/

/-- The run of the example of C38 ends, for the code as it is. -/
theorem gp_total : ∃ N t s, ∀ fuel, N ≤ fuel → program f64 fuel exPoly gpOps = .ok (t, s) := by
  rcases C40_program gp_fine gp_general.1 gp_general.2.1 gp_up.1 gp_general.2.2 gp_up.2 with h | ⟨⟨N, h⟩, -⟩
  · exact h
  · have ok : (programG no698 f64 200 exPoly gpOps).toBool = true := by decide +kernel
    exfalso
    cases k : programG no698 f64 200 exPoly gpOps with
    | error e => rw [k] at ok; cases ok
    | ok r =>
      obtain ⟨b, hb, hr⟩ := bind_ok.1 k
      have e1 := h (max N 200) (by omega)
      rw [programG, hb] at e1
      have := (runG_ap (B := (· = .fuel)) (g := no698) (g' := no698) (.inl ⟨rfl, rfl⟩) (.inl rfl) (b.build f64) (f := 200) (f' := max N 200) (.inr ⟨by omega, rfl⟩))
      rcases this with q | ⟨e, -, q⟩
      · rw [hr] at q
        have e1 : (b.build f64).runG no698 (max N 200) = .error (.trapped "698") := e1
        rw [e1] at q; cases q
      · rw [hr] at q; cases q

/-- Points on a grid: many of them on a line. -/
example : ∃ N t s, ∀ fuel, N ≤ fuel →
    programG ⟨false, false, false⟩ f64 fuel (⟨[], []⟩ : Source Nat) [.steinerPoints ⟨[⟨0, 0⟩, ⟨10, 0⟩, ⟨20, 0⟩, ⟨0, 10⟩, ⟨10, 10⟩, ⟨20, 10⟩], [0, 1, 2, 3, 4, 5]⟩] = .ok (t, s) :=
  C40_points (by decide +kernel) (by decide +kernel) (by decide +kernel) _

end P2T
