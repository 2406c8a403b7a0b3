import Verif.Props.Total

/-!
# C41: total correctness without dips

The branch at `sweeper.rs:698` is reached only if there is a dip under an edge (`HasDip`).  This is a condition on the input alone.  Without dips the
theorems need no condition on the run any more.
-/

namespace P2T

section
variable {D : Type} {n : Num} {poly : Source D} {ops : List (BuildOp D)}

/-- **C41.**  With no input point inside an input edge, no two edges crossing and no dip under an edge, the program returns a triangulation: the same for every large enough
recursion bound.  The trapped program returns it as well, so that all theorems about `programG no698` apply. -/
theorem C41_total (hf : FineInput n (allPoints (piecesOf poly ops))) (hp : NoTouch poly ops)
    (hx : ScanComplete n (runPts n poly ops)) (hu : EpsUp n (allPoints (piecesOf poly ops))) (ha : EdgesApart poly ops)
    (hok : ∀ p ∈ piecesOf poly ops, p.Ok) (hd : ¬ HasDip poly ops) :
    ∃ N t s, (∀ fuel, N ≤ fuel → program n fuel poly ops = .ok (t, s)) ∧ (∀ fuel, N ≤ fuel → programG no698 n fuel poly ops = .ok (t, s)) ∧
      ConstraintsInPlace (inputEdges poly ops) t.triangles := by
  rcases C40_total hf hp hx hu ha hok with ⟨N, t, s, h⟩ | ⟨-, h⟩
  swap
  · exact (hd h).elim
  refine ⟨N, t, s, fun fuel hN => ?_, h, C38_constraints_honoured hf hp hx hu ha (h N (Nat.le_refl _))⟩
  obtain ⟨b, hb, -⟩ := fine_build hf hok
  have e0 : programG no698 n fuel poly ops = (b.build n).runG no698 fuel := by rw [programG, hb]; rfl
  have e1 : program n fuel poly ops = (b.build n).run fuel := by rw [program, hb]; rfl
  rcases runG_off (b.build n) no698 fuel with ⟨m, k⟩ | k
  · have := h fuel hN; rw [e0, k] at this; cases this
  · rw [e1, ← k, ← e0]; exact h fuel hN

end

/-! ## Convex polygons -/

/-- The directed edges of a strictly convex closed polyline, counter-clockwise. -/
structure ConvexEdges (ps : List Point) (E : Point → Point → Prop) : Prop where
  left : ∀ {a b z}, E a b → z ∈ ps → z ≠ a → z ≠ b → 0 < det2 a b z
  mem : ∀ {a b}, E a b → a ∈ ps ∧ b ∈ ps
  at_ : ∀ {a}, a ∈ ps → ∃ b, E a b ∨ E b a
  edge : ∀ {a b}, (a, b) ∈ cyclicPairs ps → E a b ∨ E b a

theorem StrictlyConvex.edges {ps : List Point} (h : StrictlyConvex ps) : ∃ E, ConvexEdges ps E := by
  rcases h with h | h
  · refine ⟨fun a b => (a, b) ∈ cyclicPairs ps, ⟨fun h' hz => h _ h' _ hz, fun h' => ⟨cyclic_mem_left h', cyclic_mem_right h'⟩, fun h' => ?_, .inl⟩⟩
    obtain ⟨b, hb⟩ := cyclic_next h'
    exact ⟨b, .inl hb⟩
  · refine ⟨fun a b => (b, a) ∈ cyclicPairs ps, ⟨fun h' hz h1 h2 => ?_, fun h' => ⟨cyclic_mem_right h', cyclic_mem_left h'⟩, fun h' => ?_, .inr⟩⟩
    · have := h _ h' _ hz h2 h1
      rw [det2_swap]
      simp only at this
      linarith
    · obtain ⟨b, hb⟩ := cyclic_next h'
      exact ⟨b, .inr hb⟩

namespace ConvexEdges
variable {ps : List Point} {E : Point → Point → Prop} (h : ConvexEdges ps E)
include h

theorem nonneg {a b z : Point} (e : E a b) (hz : z ∈ ps) : 0 ≤ det2 a b z := by
  by_cases h1 : z = a
  · subst h1; exact le_of_eq (by unfold det2; ring)
  by_cases h2 : z = b
  · subst h2; exact le_of_eq (by unfold det2; ring)
  exact (h.left e hz h1 h2).le

theorem no_cross {a b u v : Point} (e : E a b ∨ E b a) (hu : u ∈ ps) (hv : v ∈ ps) : ¬ ProperCross a b u v := by
  rintro ⟨k, -⟩
  rcases e with e | e
  · have := mul_nonneg (h.nonneg e hu) (h.nonneg e hv); linarith
  · have := mul_nonneg (h.nonneg e hu) (h.nonneg e hv)
    rw [det2_swap b a, det2_swap b a, neg_mul_neg] at k
    linarith

/-- A corner is not a mean of other corners. -/
theorem extreme {b x y z : Point} (hb : b ∈ ps) (hx : x ∈ ps) (hy : y ∈ ps) (hz : z ∈ ps) (h1 : 0 < det2 y z b) (h2 : 0 < det2 z x b) (h3 : 0 ≤ det2 x y b)
    (hxb : x ≠ b) (hyb : y ≠ b) (hxy : x ≠ y) : False := by
  obtain ⟨b', e⟩ := h.at_ hb
  have key : ∀ {u v}, E u v → (u = b ∨ v = b) → False := by
    intro u v e k
    have id : det2 y z b * det2 u v x + det2 z x b * det2 u v y + det2 x y b * det2 u v z = (det2 y z b + det2 z x b + det2 x y b) * det2 u v b := by
      unfold det2; ring
    have z0 : det2 u v b = 0 := by rcases k with rfl | rfl <;> (unfold det2; ring)
    rw [z0, mul_zero] at id
    have n1 := mul_nonneg h1.le (h.nonneg e hx)
    have n2 := mul_nonneg h2.le (h.nonneg e hy)
    have n3 := mul_nonneg h3 (h.nonneg e hz)
    have m1 : det2 u v x = 0 := by
      have : det2 y z b * det2 u v x = 0 := by linarith
      rcases mul_eq_zero.1 this with k | k
      · linarith
      · exact k
    have m2 : det2 u v y = 0 := by
      have : det2 z x b * det2 u v y = 0 := by linarith
      rcases mul_eq_zero.1 this with k | k
      · linarith
      · exact k
    have on : ∀ {w}, w ∈ ps → det2 u v w = 0 → w = u ∨ w = v := by
      intro w hw h0
      by_contra hn
      rw [not_or] at hn
      have := h.left e hw hn.1 hn.2
      linarith
    rcases on hx m1 with r1 | r1 <;> rcases on hy m2 with r2 | r2 <;> rcases k with k | k <;> grind
  rcases e with e | e
  · exact key e (.inl rfl)
  · exact key e (.inr rfl)

theorem no_dip {p q : Point} {es : List (Point × Point)} (e : E p q ∨ E q p) : ¬ Dip ps es p q := by
  rintro ⟨lt, a, ha, b, hb, d, hd, -, -, -, x1, x2, x3, x4, y1, y2, y3, y4, -⟩
  rcases e with e | e
  swap
  · have := h.nonneg e hb; linarith
  have hp := (h.mem e).1
  have hq := (h.mem e).2
  have aq : a = q := by
    by_contra hn
    have := h.left e ha (by rintro rfl; linarith) hn
    rw [det2_swap] at this
    linarith
  subst aq
  have n1 : b ≠ a := by rintro rfl; exact lt_irrefl _ x2
  have n2 : d ≠ b := by rintro rfl; exact lt_irrefl _ x3
  have n3 : d ≠ a := by rintro rfl; linarith
  -- `b` is in the triangle `a d p`
  have k1 : 0 ≤ det2 a d b := by
    have : det2 a d b = - det2 a b d := by unfold det2; ring
    rw [this]; linarith
  have k2 : 0 < det2 p a b := by rw [det2_swap]; linarith
  have k3 : 0 < det2 d p b := by
    have id : (d.x - a.x) * det2 d p b = (p.x - d.x) * det2 a d b + (b.x - d.x) * det2 a p d := by unfold det2; ring
    have g1 := mul_nonneg (show 0 ≤ p.x - d.x by linarith) k1
    have g2 := mul_pos_of_neg_of_neg (show b.x - d.x < 0 by linarith) y3
    have : 0 < (d.x - a.x) * det2 d p b := by rw [id]; linarith
    exact (pos_iff_pos_of_mul_pos this).1 (by linarith)
  exact h.extreme hb hq hd hp k3 k2 k1 (Ne.symm n1) n2 (Ne.symm n3)

end ConvexEdges

section
variable {D : Type} {n : Num} {poly : Source D}

theorem convex_edge (h : StrictlyConvex poly.points) : ∃ E, ConvexEdges poly.points E ∧
    ∀ e ∈ inputEdges poly [], E (ptOf poly.points e.1) (ptOf poly.points e.2) ∨ E (ptOf poly.points e.2) (ptOf poly.points e.1) := by
  obtain ⟨E, hE⟩ := h.edges
  refine ⟨E, hE, ?_⟩
  intro e he
  have e1 : inputEdges poly [] = polylineEdges 0 poly.points := by simp [inputEdges, piecesOf, pieceEdges]
  rw [e1, polylineEdges, List.mem_map] at he
  obtain ⟨⟨⟨i, u⟩, ⟨j, v⟩⟩, hx, rfl⟩ := he
  have at' : ∀ {i : Nat} {u : Point}, (i, u) ∈ (List.range' 0 poly.points.length).zip poly.points → ptOf poly.points i = u := by
    intro i u hm
    obtain ⟨k, hk, e⟩ := List.getElem_of_mem hm
    simp only [List.getElem_zip, List.getElem_range', Prod.mk.injEq] at e
    obtain ⟨rfl, rfl⟩ := e
    unfold ptOf
    rw [List.getD_eq_getElem?_getD, List.getElem?_eq_getElem (by simp at hk; omega)]
    simp
  have h1 := at' (cyclic_mem_left hx)
  have h2 := at' (cyclic_mem_right hx)
  have hm : (u, v) ∈ cyclicPairs poly.points := by
    have : poly.points = ((List.range' 0 poly.points.length).zip poly.points).map Prod.snd := by
      rw [List.map_snd_zip]; simp
    rw [this, cyclic_map]
    exact List.mem_map.2 ⟨_, hx, rfl⟩
  have := hE.edge hm
  simp only [orientEdge]
  split
  · simp only [h1, h2]; exact this.symm
  · simp only [h1, h2]; exact this

theorem convex_points : allPoints (piecesOf poly []) = poly.points := by simp [allPoints, piecesOf, Piece.pts]

/-- The edges of a strictly convex polygon do not cross, there is no dip under them, and they contain no other corner. -/
theorem convex_fine (h : StrictlyConvex poly.points) : EdgesApart poly [] ∧ ¬ HasDip poly [] ∧ NoTouch poly [] := by
  obtain ⟨E, hE, he⟩ := convex_edge h
  refine ⟨?_, ?_, ?_⟩
  · intro e h1 f h2
    rw [convex_points]
    have := he f h2
    refine hE.no_cross (he e h1) ?_ ?_ <;> rcases this with k | k
    exacts [(hE.mem k).1, (hE.mem k).2, (hE.mem k).2, (hE.mem k).1]
  · rintro ⟨e, h1, h2⟩
    obtain ⟨f, h3, rfl⟩ := List.mem_map.1 h1
    rw [convex_points] at h2
    exact hE.no_dip (he f h3) h2
  · intro e h1 z hz k
    rw [convex_points] at k hz
    obtain ⟨k1, k2⟩ := k
    have n1 : z ≠ ptOf poly.points e.1 := by rintro rfl; simp at k2
    have n2 : z ≠ ptOf poly.points e.2 := by rintro rfl; simp at k2
    rcases he e h1 with q | q
    · exact (hE.left q hz n1 n2).ne' k1
    · have := hE.left q hz n2 n1
      rw [det2_swap, k1] at this
      simp at this

/-- **C41, convex polygons.**  A strictly convex polygon without holes and Steiner points is always triangulated. -/
theorem C41_convex (h : StrictlyConvex poly.points) (hok : NoRepeat poly.points) (hf : FineInput n poly.points)
    (hx : ScanComplete n (runPts n poly [])) (hu : EpsUp n poly.points) :
    ∃ N t s, (∀ fuel, N ≤ fuel → program n fuel poly [] = .ok (t, s)) ∧ (∀ fuel, N ≤ fuel → programG no698 n fuel poly [] = .ok (t, s)) ∧
      ConstraintsInPlace (inputEdges poly []) t.triangles := by
  obtain ⟨h1, h2, h3⟩ := convex_fine h
  refine C41_total (by rw [convex_points]; exact hf) h3 hx (by rw [convex_points]; exact hu) h1 ?_ h2
  intro p hp
  simp only [piecesOf, List.flatMap_nil, List.mem_singleton] at hp
  subst hp
  exact hok

end

/-! ## Examples -/

/-- No dip in the example of C38, which has a hole and Steiner points. -/
theorem gp_no_dip : ¬ HasDip exPoly gpOps := by decide +kernel

example : ∃ N t s, (∀ fuel, N ≤ fuel → program f64 fuel exPoly gpOps = .ok (t, s)) ∧ (∀ fuel, N ≤ fuel → programG no698 f64 fuel exPoly gpOps = .ok (t, s)) ∧
    ConstraintsInPlace (inputEdges exPoly gpOps) t.triangles :=
  C41_total gp_fine gp_general.1 gp_general.2.1 gp_up.1 gp_general.2.2 gp_up.2 gp_no_dip

/-- A convex hexagon. -/
def hexPoly : Source Nat := ⟨[⟨0, 0⟩, ⟨7, -3⟩, ⟨15, 1⟩, ⟨17, 9⟩, ⟨8, 14⟩, ⟨-2, 8⟩], [1, 2, 3, 4, 5, 6]⟩

theorem hex_total : ∃ N t s, (∀ fuel, N ≤ fuel → program f64 fuel hexPoly [] = .ok (t, s)) ∧ (∀ fuel, N ≤ fuel → programG no698 f64 fuel hexPoly [] = .ok (t, s)) ∧
    ConstraintsInPlace (inputEdges hexPoly []) t.triangles :=
  C41_convex (by decide +kernel) (by unfold NoRepeat; decide +kernel) (by decide +kernel) (by decide +kernel) (by decide +kernel)

/-- A dip: from the upper end `(0, 40)` of the edge to `(40, 0)` over `(10, 25)` the path bends down to `(20, 8)`; and no dip, where it bends up. -/
example : Dip [⟨0, 40⟩, ⟨40, 0⟩, ⟨10, 25⟩, ⟨20, 8⟩] [] ⟨40, 0⟩ ⟨0, 40⟩ ∧ ¬ Dip [⟨0, 40⟩, ⟨40, 0⟩, ⟨10, 10⟩, ⟨30, 2⟩] [] ⟨40, 0⟩ ⟨0, 40⟩ := by decide +kernel

/-- No dip either, where an edge that is already in place covers the lowest of the three points. -/
example : ¬ Dip [⟨0, 40⟩, ⟨40, 0⟩, ⟨10, 25⟩, ⟨20, 8⟩] [(⟨40, 0⟩, ⟨10, 25⟩)] ⟨40, 0⟩ ⟨0, 40⟩ := by decide +kernel

end P2T
