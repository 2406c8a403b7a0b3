import Verif.Props.Loops
import Verif.Props.Debug

/-!
# C64: when something is reported although edges cross; the debug build
-/

namespace P2T

section
variable {D : Type} {n : Num} {poly : Source D} {ops : List (BuildOp D)}

/-- If an edge at the second node of the front is marked, the search for the interior succeeds. -/
theorem PlaneMesh.start_at {P : Nat → Point} {size left right : Nat} {M : Store} {nodes : List Node} (h : PlaneMesh P size left right M nodes) (hst : Strict P M)
    (hlt : (nodes.map fun e => P e.pid).Pairwise fun a b => a.x < b.x) (hb : FrontBounds left right M nodes) {a b : Node} {l : List Node} (hn : nodes = a :: b :: l)
    (hl : b.pid ≠ left) (hr : b.pid ≠ right) (hlast : ∃ e l', nodes = l' ++ [e] ∧ e.pid = right) {w : Nat} (ha : a.pid ≠ w) (he : MeshEdge M b.pid w)
    (mk : ∀ T ∈ M, ∀ i, (T.from i = w ∧ T.to i = b.pid) ∨ (T.from i = b.pid ∧ T.to i = w) → T.isConstrained i = true) : ¬ StartOf M b.pid b.tri none := by
  intro hs
  cases l with
  | nil =>
    obtain ⟨e, l', he, hp⟩ := hlast
    rw [hn] at he
    have : b = e := by
      have := congrArg List.getLast? he
      simpa using this
    exact hr (by rw [this, hp])
  | cons d l =>
    have hc : Consecutive nodes b d := ⟨[a], l, by simp [hn]⟩
    have hc0 : Consecutive nodes a b := ⟨[], d :: l, hn⟩
    obtain ⟨T, hT, i, hi⟩ := he
    rcases hi with ⟨k1, k2⟩ | ⟨k1, k2⟩
    swap
    · have e1 := h.fan_unmarked hst hlt hb hc hr hs hT k2
      rw [mk T hT i (.inl ⟨k1, k2⟩)] at e1; cases e1
    · obtain ⟨t, ht⟩ := List.mem_iff_getElem?.1 hT
      cases hnb : T.neighbors.get i with
      | none =>
        rcases hb.only T hT i hnb with ⟨e, -⟩ | ⟨a', b', h1, h2, h3⟩
        · exact hl (k1.symm.trans e)
        · have := (h1.prev h.nodup hc0 (h2.symm.trans k1)).1
          subst this
          exact ha (by rw [← h3, k2])
      | some x =>
        obtain ⟨-, j, T', X, h1, h2, h3, h4, h5, h6⟩ := h.cons.linked t T i x ht hnb
        rw [ht] at h1; cases h1
        have hX := List.mem_of_getElem? h2
        have e0 : X.to j = b.pid := by rw [← h5]; exact k1
        have e1 := h.fan_unmarked hst hlt hb hc hr hs hX e0
        rw [mk X hX j (.inl ⟨by rw [← h6]; exact k2, e0⟩)] at e1; cases e1

/-- **C64.**  Something is reported if the leftmost of the input points (the uppermost of them, if there are several) is the end of an edge that no edge crosses. -/
theorem C64_nonempty {g : Trap} [g.Tame] {fuel t s} (a : LooseInput n poly ops) (lo : LeftOpen n (allPoints (piecesOf poly ops)))
    (h : programG g n fuel poly ops = .ok (t, s)) {u v : Nat} (he : (u, v) ∈ freeEdges poly ops)
    {z : Point} (hz : TopLeft (allPoints (piecesOf poly ops)) z) (hv : ptOf (allPoints (piecesOf poly ops)) u = z ∨ ptOf (allPoints (piecesOf poly ops)) v = z) :
    t.result ≠ [] := by
  intro hne
  have safe := a.safe h
  obtain ⟨k1, -, k3⟩ := callback_mesh a.fine h
  obtain ⟨k4, k5⟩ := C13_front a.fine h
  obtain ⟨b0, hb, hr⟩ := bind_ok.1 h
  obtain ⟨sn, hfr, hm, -, -, hres⟩ := run_final' hr
  rcases hres with ⟨same, -, hres⟩ | ⟨node, start, -, -, fl⟩
  swap
  · have := (fl.iff start).2 .refl
    rw [hne] at this; cases this
  obtain ⟨c1, c2, c3, c4⟩ := k3 _ _ hm
  have fb := k5 _ _ hm rfl
  obtain ⟨b, R, q1, q2, q3⟩ := final_left_gen a lo h
  rw [← hfr] at q1
  obtain ⟨a0, nb, l, hn, ha0, hnb⟩ : ∃ (a0 nb : Node) (l : List Node), sn.front.nodes = a0 :: nb :: l ∧ a0.pid = leftId poly ops ∧ nb.pid = b := by
    have q1 : sn.front.nodes.map (·.pid) = leftId poly ops :: b :: R := q1
    match hs : sn.front.nodes with
    | [] => rw [hs] at q1; cases q1
    | [_] => rw [hs] at q1; simp at q1
    | a0 :: nb :: l =>
      rw [hs] at q1
      simp only [List.map_cons, List.cons.injEq] at q1
      exact ⟨a0, nb, l, rfl, q1.1, q1.2.1⟩
  -- the edge is at this node
  have hz' := hz.unique q3
  have bound := pieceEdges_bound (piecesOf poly ops) 0 (u, v) (List.mem_filter.1 he).1
  have inj : ∀ i, i < (allPoints (piecesOf poly ops)).length → ptOf (allPoints (piecesOf poly ops)) i = z → i = b := by
    intro i hi e
    rw [hz', ← ptOf_run (n := n) hi, input_point hi, input_point q2] at e
    exact (List.Nodup.getElem_inj_iff a.fine.distinct).1 e
  obtain ⟨w, hw, con⟩ : ∃ w, w < (allPoints (piecesOf poly ops)).length ∧ ConstrainedEdge t.triangles b w := by
    have := safe.edges _ he
    have b1 : u < (allPoints (piecesOf poly ops)).length := by have := bound.1; omega
    have b2 : v < (allPoints (piecesOf poly ops)).length := by have := bound.2; omega
    rcases hv with k | k
    · rw [← inj u b1 k]; exact ⟨v, b2, this⟩
    · rw [← inj v b2 k]; exact ⟨u, b1, this.symm⟩
  have q : Mk t.triangles b w := by
    obtain ⟨t', T0, j, hT0, e, hc, -⟩ := con
    rcases e with ⟨e, e'⟩ | ⟨e, e'⟩
    · rw [← e, ← e']; exact .of (sl_at hT0 j) hc
    · rw [← e, ← e']; exact (Mk.of (sl_at hT0 j) hc).symm
  have mk : ∀ T ∈ sn.tris, ∀ i, (T.from i = w ∧ T.to i = b) ∨ (T.from i = b ∧ T.to i = w) → T.isConstrained i = true := by
    intro T hT i e
    rw [← same] at hT
    refine marked_all a.fine h (programG_noCol_gen a.fine a.noTouch a.scan a.up h) hT ?_
    rcases e with ⟨e, e'⟩ | ⟨e, e'⟩
    · rw [e, e']; exact q.symm
    · rw [e, e']; exact q
  obtain ⟨P, p1, p2, -, p4, -⟩ := strictMesh' c1 c2 c3 c4 k1
  rcases hres with h4 | ⟨node, hnd, hst⟩
  · simp [Front.nth, hn] at h4
  have e1 : node.pid = nb.pid ∧ node.tri = nb.tri := by
    simp only [Front.nth, hn, List.getElem?_cons_succ, List.getElem?_cons_zero, Option.map_some, Option.some.injEq] at hnd
    rw [← hnd]; exact ⟨rfl, rfl⟩
  rw [e1.1, e1.2] at hst
  subst hnb
  have el : leftId poly ops = (allPoints (piecesOf poly ops)).length := rfl
  refine p1.start_at p2 p4 fb hn (by omega) (by omega) c4.last (w := w) (by omega) ?_ mk hst
  obtain ⟨t', T, i, hT, e, -⟩ := con
  rw [same] at hT
  exact ⟨T, List.mem_of_getElem? hT, i, e⟩

theorem LeftAnchored.nonempty {g : Trap} [g.Tame] {fuel t s} (k : LeftAnchored poly ops) (a : LooseInput n poly ops) (lo : LeftOpen n (allPoints (piecesOf poly ops)))
    (h : programG g n fuel poly ops = .ok (t, s)) : t.result ≠ [] := by
  obtain ⟨⟨u, v⟩, he, hz | hz⟩ := k
  · exact C64_nonempty a lo h he hz (.inl rfl)
  · exact C64_nonempty a lo h he hz (.inr rfl)

/-- **C64, crate and repaired program.** -/
theorem C64_crate (a : LooseInput n poly ops) (lo : LeftOpen n (allPoints (piecesOf poly ops))) (k : LeftAnchored poly ops) :
    ((∃ N t s, (∀ fuel, N ≤ fuel → program n fuel poly ops = .ok (t, s)) ∧ SafeResult n poly ops t s ∧ t.result ≠ []) ∨
      (∃ N, ∀ fuel, N ≤ fuel → programG no698 n fuel poly ops = .error (.trapped "698")) ∧ HasFreeDip poly ops) ∧
    ∃ N t s, (∀ fuel, N ≤ fuel → repairedProgram n fuel poly ops = .ok (t, s)) ∧ SafeResult n poly ops t s ∧ t.result ≠ [] := by
  constructor
  · rcases total_gen (g := no698) a.fine a.noTouch a.scan a.up a.ok with ⟨N, t, s, h⟩ | ⟨h, -, hd⟩
    · exact .inl ⟨N, t, s, fun fuel hN => programG_program rfl (h fuel hN), a.safe (h N (Nat.le_refl _)), k.nonempty a lo (h N (Nat.le_refl _))⟩
    · exact .inr ⟨h, hd⟩
  · rcases total_gen (g := .repaired) a.fine a.noTouch a.scan a.up a.ok with ⟨N, t, s, h⟩ | ⟨-, h, -⟩
    · exact ⟨N, t, s, h, a.safe (h N (Nat.le_refl _)), k.nonempty a lo (h N (Nat.le_refl _))⟩
    · cases h

/-- **C64, `f64`.**  Points on a binary grid, none of them inside an edge, none on a line with an artificial point and another one. -/
theorem C64_f64 (ov : Rat → Rat) {e : Int} (h : CrossingInput poly ops) (hg : OnGrid e (allPoints (piecesOf poly ops))) (he : -20 ≤ e) (he' : e ≤ 220)
    (hc : ClearOfCorners (allPoints (piecesOf poly ops))) (k : LeftAnchored poly ops) :
    ((∃ N t s, (∀ fuel, N ≤ fuel → program (f64With ov) fuel poly ops = .ok (t, s)) ∧ SafeResult (f64With ov) poly ops t s ∧ t.result ≠ []) ∨
      (∃ N, ∀ fuel, N ≤ fuel → programG no698 (f64With ov) fuel poly ops = .error (.trapped "698")) ∧ HasFreeDip poly ops) ∧
    ∃ N t s, (∀ fuel, N ≤ fuel → repairedProgram (f64With ov) fuel poly ops = .ok (t, s)) ∧ SafeResult (f64With ov) poly ops t s ∧ t.result ≠ [] :=
  C64_crate (h.loose ov hg he he' (.inl hc)) (hg.leftOpen (f64With ov) he he' hc h.distinct (two_points h.three) h.size) k

/-- **C64, debug build.**  Crossing edges trigger no `debug_assert!`: without a dip under an edge the debug build terminates, too, with the result of the release build. -/
theorem C64_debug (a : LooseInput n poly ops) (hd : ¬ HasFreeDip poly ops) :
    ∃ N t s, ∀ fuel, N ≤ fuel → programD n fuel poly ops = .ok (t, s) ∧ program n fuel poly ops = .ok (t, s) := by
  rcases total_gen (g := no698) a.fine a.noTouch a.scan a.up a.ok with ⟨N, t, s, h⟩ | ⟨-, -, h⟩
  · exact ⟨N, t, s, fun fuel hN => C53_no_assertion a.fine (programG_noCol_gen a.fine a.noTouch a.scan a.up (h fuel hN))⟩
  · exact (hd h).elim

end

/-- The bow tie is anchored, the star is not (and nothing is reported, `C62_nothing`). -/
example : LeftAnchored bowtie [] ∧ ¬ LeftAnchored pentagram [] ∧ LeftAnchored crossedPoly crossedOps := by decide +kernel

/-- The conditions of `C64_f64` and `C64_debug`: the bow tie. -/
theorem C64_bowtie :
    (∃ N t s, (∀ fuel, N ≤ fuel → program f64 fuel bowtie [] = .ok (t, s)) ∧ SafeResult f64 bowtie [] t s ∧ t.result ≠ []) ∧
    ∃ N t s, ∀ fuel, N ≤ fuel → programD f64 fuel bowtie [] = .ok (t, s) ∧ program f64 fuel bowtie [] = .ok (t, s) := by
  refine ⟨?_, C64_debug bowtie_loose (by decide +kernel)⟩
  rcases (C64_f64 (saturate f64Max) (e := 0) bowtie_crossing (grid_of_check (by decide +kernel)) (by norm_num) (by norm_num)
    (clear_of_box (x0 := 0) (x1 := 11) (y0 := 0) (y1 := 9) (by decide +kernel) (by decide +kernel)) (by decide +kernel)).1 with h | h
  · exact h
  · exact absurd h.2 (by decide +kernel)

end P2T
