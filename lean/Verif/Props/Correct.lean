import Verif.Props.Dip

/-!
# C42: total correctness
-/

namespace P2T

/-- A set of triangles that contains with a flat triangle the neighbour at its long edge contains no flat triangle. -/
theorem SInv.flat_free {c : Ctx} {K : Prop} {Q : Nat → Prop} {P : Nat → Nat → Prop} {s : St} (h : SInv c K Q P s) (lg : LG c.pos s.tris) {R : Nat → Prop}
    (cl : ∀ {t w u v n e}, R t → Sl s.tris t w u v n e → det2 (c.pos w) (c.pos u) (c.pos v) = 0 → keyLt (c.pos v) (c.pos u) → ∃ x, R x ∧ n = some x)
    {t w u v n e} (hR : R t) (a : Sl s.tris t w u v n e) : 0 < det2 (c.pos w) (c.pos u) (c.pos v) := by
  have key : ∀ (m : Nat) {t w u v n e}, c.points.length - keyCount c.pos c.points.length (c.pos v) (c.pos u) = m → R t → Sl s.tris t w u v n e →
      det2 (c.pos w) (c.pos u) (c.pos v) = 0 → ¬ keyLt (c.pos v) (c.pos u) := by
    intro m
    induction m using Nat.strong_induction_on with
    | _ m ih =>
      intro t w u v n e hm hR a h0 k
      obtain ⟨x, hx, rfl⟩ := cl hR a h0 k
      obtain ⟨w', e', b⟩ := h.mesh.sym a
      rcases h.zero_or b with r | h1
      · exact lg a b h0 k r.pos
      obtain ⟨_, _, b1⟩ := b.rot
      obtain ⟨_, _, b2⟩ := b.rot2
      have lt := h.sl_lt b
      rcases h.zero_key b h1 with ⟨-, k' | k'⟩ | ⟨k', k''⟩
      · have e0 : det2 (c.pos v) (c.pos u) (c.pos w') = 0 := by rw [det2_rot]; exact h1
        have lt' := keyCount_lt (P := c.pos) lt.2.1 k' k (.inr k') (.inl rfl) (fun q => keyLt_irrefl _ q.1)
        have := keyCount_le (P := c.pos) (N := c.points.length) (u := c.pos w') (v := c.pos u)
        exact ih _ (by omega) rfl hx b1 e0 (keyLt_trans k' k)
      · have e0 : det2 (c.pos u) (c.pos w') (c.pos v) = 0 := by rw [← det2_rot]; exact h1
        have lt' := keyCount_lt (P := c.pos) lt.2.2 k k' (.inl rfl) (.inr k') (fun q => keyLt_irrefl _ q.2)
        have := keyCount_le (P := c.pos) (N := c.points.length) (u := c.pos v) (v := c.pos w')
        exact ih _ (by omega) rfl hx b2 e0 (keyLt_trans k k')
      · exact keyLt_asymm k (keyLt_trans k' k'')
  rcases h.zero_or a with r | h0
  · exact r.pos
  exfalso
  obtain ⟨_, _, a1⟩ := a.rot
  obtain ⟨_, _, a2⟩ := a.rot2
  rcases h.zero_key a h0 with ⟨k, k' | k'⟩ | ⟨k, k'⟩
  · exact key _ rfl hR a1 (by rw [det2_rot]; exact h0) (keyLt_trans k' k)
  · exact key _ rfl hR a2 (by rw [← det2_rot]; exact h0) (keyLt_trans k k')
  · exact key _ rfl hR a h0 (keyLt_trans k k')

/-- Left of all corners nothing is inside, and right of them neither. -/
theorem inside_range {ps : List Point} {q : Point} (h : InsidePolyline ps q) : (∃ p ∈ ps, p.x ≤ q.x) ∧ ∃ p ∈ ps, q.x < p.x := by
  unfold InsidePolyline crossings at h
  have hpos : 0 < (cyclicPairs ps).countP fun x => decide (EdgeOver q x.1 x.2) := by
    rcases Nat.eq_zero_or_pos ((cyclicPairs ps).countP fun x => decide (EdgeOver q x.1 x.2)) with e | e
    · rw [e] at h; cases h
    · exact e
  obtain ⟨⟨u, v⟩, hx, ho⟩ := List.countP_pos_iff.1 hpos
  rcases of_decide_eq_true ho with ⟨k1, k2, -⟩ | ⟨k1, k2, -⟩
  · exact ⟨⟨u, cyclic_mem_left hx, k1⟩, v, cyclic_mem_right hx, k2⟩
  · exact ⟨⟨v, cyclic_mem_right hx, k1⟩, u, cyclic_mem_left hx, k2⟩

/-- Near every corner of a triangle there are inner points. -/
theorem near_corner {a b c : Point} (h : 0 < det2 a b c) {lo hi : Rat} (h1 : lo < a.x) (h2 : a.x < hi) : ∃ q, Inside a b c q ∧ lo < q.x ∧ q.x < hi := by
  let κ := (b.x - a.x) + (c.x - a.x)
  obtain ⟨s, s0, s1⟩ := small' (l := [(a.x - lo, κ), (hi - a.x, -κ), (1, -2)]) (by
    intro x hx
    simp only [List.mem_cons, List.not_mem_nil, or_false] at hx
    left
    rcases hx with rfl | rfl | rfl
    · simpa using h1
    · simpa using h2
    · norm_num)
  simp only [List.mem_cons, List.not_mem_nil, or_false, forall_eq_or_imp, forall_eq] at s1
  obtain ⟨b1, b2, b3⟩ := s1
  have m := mul_pos s0 h
  have m' := mul_pos (show 0 < 1 - 2 * s by linarith) h
  refine ⟨⟨a.x + s * κ, a.y + s * ((b.y - a.y) + (c.y - a.y))⟩, ⟨?_, ?_, ?_⟩, by simp only; linarith, by simp only; linarith⟩
  · have : det2 a b ⟨a.x + s * κ, a.y + s * ((b.y - a.y) + (c.y - a.y))⟩ = s * det2 a b c := by simp only [det2, κ]; ring
    rw [this]; exact m
  · have : det2 b c ⟨a.x + s * κ, a.y + s * ((b.y - a.y) + (c.y - a.y))⟩ = (1 - 2 * s) * det2 a b c := by simp only [det2, κ]; ring
    rw [this]; exact m'
  · have : det2 c a ⟨a.x + s * κ, a.y + s * ((b.y - a.y) + (c.y - a.y))⟩ = s * det2 a b c := by simp only [det2, κ]; ring
    rw [this]; exact m

section
variable {D : Type} {n : Num} {fuel : Nat} {poly : Source D} {ops : List (BuildOp D)} {t : Triangles D} {s : St} {g : Trap} [hg : g.Tame]

theorem runPts_length : (runPts n poly ops).length = (allPoints (piecesOf poly ops)).length + 2 := by
  obtain ⟨head, tail, xmax, xmin, ymax, ymin, hpts, -⟩ := ctx_points n (allPoints (piecesOf poly ops)) []
  show (Ctx.new n (allPoints (piecesOf poly ops)) []).points.length = _
  rw [hpts]; simp

theorem runPts_nodup (hf : FineInput n (allPoints (piecesOf poly ops))) : (runPts n poly ops).Nodup := by
  obtain ⟨head, tail, xmax, xmin, ymax, ymin, hpts, -⟩ := ctx_points n (allPoints (piecesOf poly ops)) []
  have hpts : runPts n poly ops = allPoints (piecesOf poly ops) ++ [head, tail] := by
    show (Ctx.new n (allPoints (piecesOf poly ops)) []).points = _
    rw [hpts]; simp
  have hl : artLeft n (allPoints (piecesOf poly ops)) = head := by
    show (runPts n poly ops).getD _ _ = _
    rw [hpts]; simp
  have hr : artRight n (allPoints (piecesOf poly ops)) = tail := by
    show (runPts n poly ops).getD _ _ = _
    rw [hpts]; simp
  obtain ⟨p0, hp0⟩ := List.exists_mem_of_ne_nil _ hf.nonempty
  have e0 := hf.enclosed p0 hp0
  rw [hl, hr] at e0
  rw [hpts, List.nodup_append]
  refine ⟨hf.distinct, ?_, ?_⟩
  · simp only [List.nodup_cons, List.mem_singleton, List.not_mem_nil, not_false_eq_true, List.nodup_nil, and_true]
    rintro rfl; linarith
  · intro a ha b hb e
    have := hf.enclosed a ha
    rw [hl, hr] at this
    subst e
    simp only [List.mem_cons, List.not_mem_nil, or_false] at hb
    rcases hb with rfl | rfl <;> linarith

/-- A triangle inside the polygon has no artificial corner. -/
theorem corners_input (hf : FineInput n (allPoints (piecesOf poly ops))) {T : Tri} (ha : 0 < area2 (runPts n poly ops) T)
    (hc : ∀ k, T.points.get k < (runPts n poly ops).length) (hin : ∀ q, T.Inside (runPts n poly ops) q → InRegion poly ops q) (k : Fin 3) :
    T.points.get k < (allPoints (piecesOf poly ops)).length := by
  obtain ⟨head, tail, xmax, xmin, ymax, ymin, hpts, -⟩ := ctx_points n (allPoints (piecesOf poly ops)) []
  have hpts : runPts n poly ops = allPoints (piecesOf poly ops) ++ [head, tail] := by
    show (Ctx.new n (allPoints (piecesOf poly ops)) []).points = _
    rw [hpts]; simp
  by_contra hn
  have hk := hc k
  have hlen : (runPts n poly ops).length = (allPoints (piecesOf poly ops)).length + 2 := by rw [hpts]; simp
  have rot : 0 < det2 (ptOf (runPts n poly ops) (T.points.get k)) (ptOf (runPts n poly ops) (T.from k)) (ptOf (runPts n poly ops) (T.to k)) := by
    match k with
    | 0 => exact ha
    | 1 => show 0 < det2 _ _ (ptOf (runPts n poly ops) (T.points.get 0)); rw [det2_rot]; exact ha
    | 2 => show 0 < det2 _ (ptOf (runPts n poly ops) (T.points.get 0)) _; rw [det2_rot, det2_rot]; exact ha
  have sub : ∀ p ∈ poly.points, p ∈ allPoints (piecesOf poly ops) := fun p hp => by simp [allPoints, piecesOf, Piece.pts, hp]
  have key : ∀ {lo hi : Rat}, lo < (ptOf (runPts n poly ops) (T.points.get k)).x → (ptOf (runPts n poly ops) (T.points.get k)).x < hi →
      ∃ q, (lo < q.x ∧ q.x < hi) ∧ InsidePolyline poly.points q := by
    intro lo hi h1 h2
    obtain ⟨q, q1, q2, q3⟩ := near_corner rot h1 h2
    exact ⟨q, ⟨q2, q3⟩, (hin q ((inside_at k).2 q1.rot)).1⟩
  obtain ⟨p0, hp0⟩ := List.exists_mem_of_ne_nil _ hf.nonempty
  have e0 := hf.enclosed p0 hp0
  rcases (show T.points.get k = (allPoints (piecesOf poly ops)).length ∨ T.points.get k = (allPoints (piecesOf poly ops)).length + 1 by omega) with e | e
  · -- the left one
    have hx : ptOf (runPts n poly ops) (T.points.get k) = artLeft n (allPoints (piecesOf poly ops)) := by rw [e]; rfl
    rw [hx] at key
    obtain ⟨m, hm⟩ : ∃ m : Rat, (artLeft n (allPoints (piecesOf poly ops))).x < m ∧ ∀ p ∈ poly.points, m ≤ p.x := by
      have : ∀ l : List Point, (∀ p ∈ l, (artLeft n (allPoints (piecesOf poly ops))).x < p.x) →
          ∃ m : Rat, (artLeft n (allPoints (piecesOf poly ops))).x < m ∧ ∀ p ∈ l, m ≤ p.x := by
        intro l
        induction l with
        | nil => exact fun _ => ⟨_, lt_add_one _, by simp⟩
        | cons p l ih =>
          intro hl
          obtain ⟨m, m1, m2⟩ := ih fun x hx => hl x (by simp [hx])
          refine ⟨min m p.x, lt_min m1 (hl p (by simp)), fun x hx => ?_⟩
          rcases List.mem_cons.1 hx with rfl | hx
          · exact min_le_right _ _
          · exact (min_le_left _ _).trans (m2 x hx)
      exact this _ fun p hp => (hf.enclosed p (sub p hp)).1
    obtain ⟨q, ⟨-, q2⟩, q3⟩ := key (sub_one_lt _) hm.1
    obtain ⟨⟨p, p1, p2⟩, -⟩ := inside_range q3
    have := hm.2 p p1
    linarith
  · have hx : ptOf (runPts n poly ops) (T.points.get k) = artRight n (allPoints (piecesOf poly ops)) := by rw [e]; rfl
    rw [hx] at key
    obtain ⟨m, hm⟩ : ∃ m : Rat, m < (artRight n (allPoints (piecesOf poly ops))).x ∧ ∀ p ∈ poly.points, p.x ≤ m := by
      have : ∀ l : List Point, (∀ p ∈ l, p.x < (artRight n (allPoints (piecesOf poly ops))).x) →
          ∃ m : Rat, m < (artRight n (allPoints (piecesOf poly ops))).x ∧ ∀ p ∈ l, p.x ≤ m := by
        intro l
        induction l with
        | nil => exact fun _ => ⟨_, sub_one_lt _, by simp⟩
        | cons p l ih =>
          intro hl
          obtain ⟨m, m1, m2⟩ := ih fun x hx => hl x (by simp [hx])
          refine ⟨max m p.x, max_lt m1 (hl p (by simp)), fun x hx => ?_⟩
          rcases List.mem_cons.1 hx with rfl | hx
          · exact le_max_right _ _
          · exact (m2 x hx).trans (le_max_left _ _)
      exact this _ fun p hp => (hf.enclosed p (sub p hp)).2.1
    obtain ⟨q, ⟨q2, -⟩, q3⟩ := key hm.1 (lt_add_one _)
    obtain ⟨-, p, p1, p2⟩ := inside_range q3
    have := hm.2 p p1
    linarith

theorem sl_to {M : Store} {t w u v n e} (h : Sl M t w u v n e) : ∃ T i, M[t]? = some T ∧ T.points.get i = w ∧ T.from i = u ∧ T.to i = v ∧
    T.neighbors.get i = n ∧ T.attrs.get i = e := by
  obtain ⟨T, hT, k⟩ := h
  obtain ⟨i, h1, h2, h3, h4, h5⟩ := k.index
  exact ⟨T, i, hT, h1, h2, h3, h4, h5⟩

/-- Across an unmarked edge of a reported triangle there is a reported triangle. -/
theorem result_closed (hf : FineInput n (allPoints (piecesOf poly ops))) (h : programG g n fuel poly ops = .ok (t, s))
    (hc : ConstraintsInPlace (inputEdges poly ops) t.triangles) (h3 : 3 ≤ poly.points.length) (h3' : ∀ H ∈ holesOf ops, 3 ≤ H.length)
    (hin : ∀ H ∈ holesOf ops, ∀ p ∈ H, StrictlyInside poly.points p) {i : Nat} (hi : i ∈ t.result) {T : Tri} (hT : t.triangles[i]? = some T)
    {k : Fin 3} (hk : T.isConstrained k = false) : ∃ x ∈ t.result, T.neighbors.get k = some x := by
  obtain ⟨M, nodes, Ls, P, F, a, b, l, lab, hids1, hids2, fb, hnodes, he0, hb1, hx, last, hst, -⟩ := final_setup hf h hc h3 h3'
  rcases hst with ⟨h2, -⟩ | ⟨start, hst, fl⟩
  · rw [h2] at hi; cases hi
  obtain ⟨S, j, hS, he, hF, hz⟩ := lab.start_inner fb hnodes he0 hx last (fun L hL v hv => by
    rw [hids1]
    refine hin (L.map (ptOf (runPts n poly ops))) ?_ _ (List.mem_map.2 ⟨v, hv, rfl⟩)
    rw [← hids2]
    exact List.mem_map.2 ⟨L, hL, rfl⟩) hst
  have hl : i < M.length := by rw [← fl.same.1]; exact fl.lt i hi
  have hT0 : M[i]? = some M[i] := List.getElem?_eq_getElem hl
  obtain ⟨e1, e2, e3⟩ := fl.same.2 i _ T hT0 hT
  have hk0 : M[i].isConstrained k = false := by rw [← hk]; simp [Tri.isConstrained, e3]
  cases hn : T.neighbors.get k with
  | some x =>
    refine ⟨x, ?_, rfl⟩
    rcases fl.closed i hi x ⟨M[i], hT0, k, hk0, by rw [← e2, hn]⟩ with q | ⟨_, q, -⟩
    · exact q
    · cases q
  | none =>
    exfalso
    have m := lab.not_marked (List.getElem_mem hl) hk0 (L := List.range poly.points.length) (by simp)
    have o := (lab.faces (List.range poly.points.length) (by simp)).opn i M[i] k hT0 (by rw [← e2, hn])
    rw [m, ← lab.reach_same (fl.reach i hi) (L := List.range poly.points.length) (by simp), hF] at o
    have nd := lab.disj.nodup' (L := List.range poly.points.length) (by simp)
    have l3 := lab.disj.three (List.range poly.points.length) (by simp)
    rcases he with he | he
    · rw [flow_one nd l3 he] at o; norm_num at o
    · rw [flow_swap, flow_one nd l3 he] at o; norm_num at o

theorem input_point {i : Nat} (hi : i < (allPoints (piecesOf poly ops)).length) : ptOf (runPts n poly ops) i = (allPoints (piecesOf poly ops))[i] := by
  obtain ⟨head, tail, xmax, xmin, ymax, ymin, hpts, -⟩ := ctx_points n (allPoints (piecesOf poly ops)) []
  have hpts : runPts n poly ops = allPoints (piecesOf poly ops) ++ [head, tail] := by
    show (Ctx.new n (allPoints (piecesOf poly ops)) []).points = _
    rw [hpts]; simp
  unfold ptOf
  rw [hpts]
  simp only [List.getD_eq_getElem?_getD]
  rw [List.getElem?_append_left hi, List.getElem?_eq_getElem hi]
  simp

/-- No point, artificial or not, is inside an input edge. -/
theorem loose_run (hf : FineInput n (allPoints (piecesOf poly ops))) (hp : NoTouch poly ops) (hok : ∀ p ∈ piecesOf poly ops, p.Ok) {u v : Nat}
    (hE : InEdge poly ops u v) {z : Nat} (hz : z < (runPts n poly ops).length) :
    ¬ OnOpen (ptOf (runPts n poly ops) u) (ptOf (runPts n poly ops) v) (ptOf (runPts n poly ops) z) := by
  have hbelow := fun x hx => pieceEdges_below (piecesOf poly ops) [] hok x hx
  simp only [List.length_nil, List.nil_append] at hbelow
  have key : ∀ {u v}, (u, v) ∈ inputEdges poly ops → ¬ OnOpen (ptOf (runPts n poly ops) u) (ptOf (runPts n poly ops) v) (ptOf (runPts n poly ops) z) := by
    intro u v h k
    obtain ⟨P, Q, h1, h2, h3⟩ := hbelow _ h
    simp only at h1 h2
    obtain ⟨l1, rfl⟩ := List.getElem?_eq_some_iff.1 h1
    obtain ⟨l2, rfl⟩ := List.getElem?_eq_some_iff.1 h2
    have e1 := input_point (n := n) l1
    have e2 := input_point (n := n) l2
    have own : ∀ {i : Nat} (hi : i < (allPoints (piecesOf poly ops)).length), ptOf (allPoints (piecesOf poly ops)) i = (allPoints (piecesOf poly ops))[i] := by
      intro i hi
      unfold ptOf; rw [List.getD_eq_getElem?_getD, List.getElem?_eq_getElem hi]; rfl
    rw [e1, e2] at k
    by_cases hl : z < (allPoints (piecesOf poly ops)).length
    · have := hp (u, v) h _ (List.getElem_mem hl)
      simp only [own l1, own l2] at this
      rw [input_point hl] at k
      exact this (k.between (by intro e; rw [e] at h3; exact Below.irrefl _ h3))
    · have g1 := (hf.enclosed _ (List.getElem_mem l1)).2.2
      have g2 := (hf.enclosed _ (List.getElem_mem l2)).2.2
      have ez : (ptOf (runPts n poly ops) z).y = (artLeft n (allPoints (piecesOf poly ops))).y := by
        rw [runPts_length] at hz
        obtain ⟨head, tail, xmax, xmin, ymax, ymin, hpts, eh, et, -⟩ := ctx_points n (allPoints (piecesOf poly ops)) []
        have hpts : runPts n poly ops = allPoints (piecesOf poly ops) ++ [head, tail] := by
          show (Ctx.new n (allPoints (piecesOf poly ops)) []).points = _
          rw [hpts]; simp
        show _ = ((runPts n poly ops).getD _ _).y
        unfold ptOf
        rcases (show z = (allPoints (piecesOf poly ops)).length ∨ z = (allPoints (piecesOf poly ops)).length + 1 by omega) with rfl | rfl
        · rfl
        · rw [hpts]; simp [eh, et]
      obtain ⟨r, r0, r1, e⟩ := k
      have : (ptOf (runPts n poly ops) z).y = (1 - r) * ((allPoints (piecesOf poly ops))[u]).y + r * ((allPoints (piecesOf poly ops))[v]).y := by
        rw [e]; simp only [mix]; ring
      have := mul_pos (sub_pos.2 r1) (sub_pos.2 g1)
      have := mul_pos r0 (sub_pos.2 g2)
      linarith
  rcases hE with h | h
  · exact key h
  · exact fun k => key h k.symm

theorem programG_pieces (hf : FineInput n (allPoints (piecesOf poly ops))) {g : Trap} (h : programG g n fuel poly ops = .ok (t, s)) :
    ∀ p ∈ piecesOf poly ops, p.Ok := by
  obtain ⟨b, hb, -⟩ := bind_ok.1 h
  have := hf.size
  rcases buildChain_spec poly ops (by omega) with ⟨hok, -⟩ | ⟨-, h1⟩
  · exact hok
  · rw [hb] at h1; cases h1

/-- The final state: across its long edge a flat triangle has no neighbour that is not flat. -/
theorem final_inv (hf : FineInput n (allPoints (piecesOf poly ops))) (hp : NoTouch poly ops) (h : programG g n fuel poly ops = .ok (t, s))
    (hc : ConstraintsInPlace (inputEdges poly ops) t.triangles) : ∃ c : Ctx, c.pos = ptOf (runPts n poly ops) ∧ c.points = runPts n poly ops ∧ Good c ∧ t.triangles = s.tris ∧
      SInv c (g.col = true) (fun _ => False) NoP s ∧ LG c.pos s.tris := by
  obtain ⟨c, -, hi, hpts, -, -, -, hr, hs⟩ := fine_run hf h
  have e : c.pos = ptOf (runPts n poly ops) := by rw [← c.pos_ptOf, hpts]
  refine ⟨c, e, hpts, hi.good, hs, hr.inv, hr.inv.lg_of fun u v k z hz => ?_⟩
  rw [e]
  have hm : InEdge poly ops u v := by
    obtain ⟨y, w, n', a, k, hk⟩ := k
    rw [← hs] at k
    rcases k with k | k
    · obtain ⟨T, i, hT, -, rfl, rfl, -, rfl⟩ := sl_to k
      exact (hc.marked T (List.mem_of_getElem? hT) i).1 hk
    · obtain ⟨T, i, hT, -, rfl, rfl, -, rfl⟩ := sl_to k
      exact ((hc.marked T (List.mem_of_getElem? hT) i).1 hk).symm
  obtain ⟨t', a, b, n', e', hz⟩ := hz
  have := (hr.inv.sl_lt hz).1
  rw [hpts] at this
  exact loose_run hf hp (programG_pieces hf h) hm this

/-- The final mesh in the plane. -/
theorem final_pl (hf : FineInput n (allPoints (piecesOf poly ops))) (hp : NoTouch poly ops)
    (h : programG g n fuel poly ops = .ok (t, s)) (hc : ConstraintsInPlace (inputEdges poly ops) t.triangles) : Pl (ptOf (runPts n poly ops)) t.triangles := by
  obtain ⟨c, e, -, gd, hs, inv, lg⟩ := final_inv hf hp h hc
  rw [← e, hs]
  exact inv.pl gd lg

/-- The reported triangles have positive area. -/
theorem result_pos (hf : FineInput n (allPoints (piecesOf poly ops))) (hp : NoTouch poly ops) (h : programG g n fuel poly ops = .ok (t, s))
    (hc : ConstraintsInPlace (inputEdges poly ops) t.triangles) (h3 : 3 ≤ poly.points.length) (h3' : ∀ H ∈ holesOf ops, 3 ≤ H.length)
    (hin : ∀ H ∈ holesOf ops, ∀ p ∈ H, StrictlyInside poly.points p) {i w u v n' e'} (hi : i ∈ t.result) (hs : Sl t.triangles i w u v n' e') :
    0 < det2 (ptOf (runPts n poly ops) w) (ptOf (runPts n poly ops) u) (ptOf (runPts n poly ops) v) := by
  obtain ⟨c, e, hpts, gd, hst, inv, lg⟩ := final_inv hf hp h hc
  rw [← e]
  rw [hst] at hs
  refine inv.flat_free lg (R := (· ∈ t.result)) ?_ hi hs
  intro t' w u v n1 e1 hR k h0 kk
  obtain ⟨k1, k2⟩ := inv.zero_desc k h0 kk
  have om : OnOpen (c.pos v) (c.pos u) (c.pos w) := open_of_key (by
    have : det2 (c.pos v) (c.pos u) (c.pos w) = - det2 (c.pos w) (c.pos u) (c.pos v) := by unfold det2; ring
    rw [this, h0, neg_zero]) k1 k2
  have lw := (inv.sl_lt k).1
  rw [hpts] at lw
  rw [← hst] at k
  obtain ⟨T, j, hT, rfl, rfl, rfl, rfl, rfl⟩ := sl_to k
  cases hk : T.isConstrained j with
  | true =>
    exfalso
    have := (hc.marked T (List.mem_of_getElem? hT) j).1 hk
    rw [e] at om
    exact loose_run hf hp (programG_pieces hf h) (this.symm : InEdge poly ops _ _) lw om
  | false => exact result_closed hf h hc h3 h3' hin hR hT hk

theorem result_area (hf : FineInput n (allPoints (piecesOf poly ops))) (hp : NoTouch poly ops) (h : programG g n fuel poly ops = .ok (t, s))
    (hc : ConstraintsInPlace (inputEdges poly ops) t.triangles) (h3 : 3 ≤ poly.points.length) (h3' : ∀ H ∈ holesOf ops, 3 ≤ H.length)
    (hin : ∀ H ∈ holesOf ops, ∀ p ∈ H, StrictlyInside poly.points p) {i} (hi : i ∈ t.result) {T} (hT : t.triangles[i]? = some T) : 0 < area2 (runPts n poly ops) T :=
  result_pos hf hp h hc h3 h3' hin hi (sl_at hT 0)

/-- If the input edges are in place and something is reported, the result is a triangulation of the polygon minus the holes, wherever the Steiner points are. -/
theorem triangulates_ne (hf : FineInput n (allPoints (piecesOf poly ops))) (hp : NoTouch poly ops)
    (h : programG g n fuel poly ops = .ok (t, s)) (hc : ConstraintsInPlace (inputEdges poly ops) t.triangles)
    (h3 : 3 ≤ poly.points.length) (h3' : ∀ H ∈ holesOf ops, 3 ≤ H.length) (hin : ∀ H ∈ holesOf ops, ∀ p ∈ H, StrictlyInside poly.points p) (hne : t.result ≠ []) :
    TriangulatesRegion poly ops (runPts n poly ops) t.triangles t.result := by
  have reg := C37_region hf h hc h3 h3' hin hne
  refine ⟨fun i hi => ?_, C19_result hf h, fun i hi T hT q hq => (reg q).1 i hi T hT hq, fun q hq => ?_⟩
  · obtain ⟨T, hT, -⟩ := C06_indices_different hf h i hi
    have hm := List.mem_of_getElem? hT
    have hpos := result_area hf hp h hc h3 h3' hin hi hT
    exact ⟨T, hT, hpos, corners_input hf hpos (fun k => by rw [runPts_length]; exact (C10_adjacency_consistent hf h).2.corners T hm k) fun q hq => (reg q).1 i hi T hT hq⟩
  · obtain ⟨i, hi, T, hT, -, k⟩ := (reg q).2 hq
    exact ⟨i, hi, T, hT, k⟩

/-- If the input edges are in place, the result is a triangulation of the polygon minus the holes. -/
theorem triangulates_of (hf : FineInput n (allPoints (piecesOf poly ops))) (hp : NoTouch poly ops)
    (h : programG g n fuel poly ops = .ok (t, s)) (hc : ConstraintsInPlace (inputEdges poly ops) t.triangles)
    (h3 : 3 ≤ poly.points.length) (h3' : ∀ H ∈ holesOf ops, 3 ≤ H.length) (hin : ∀ p ∈ extraPoints ops, StrictlyInside poly.points p) :
    TriangulatesRegion poly ops (runPts n poly ops) t.triangles t.result ∧ t.result ≠ [] := by
  have hne := C42_nonempty hf h hc h3 h3' hin
  exact ⟨triangulates_ne hf hp h hc h3 h3' (fun H hH p hp => hin p (holes_extra hH p hp)) hne, hne⟩

/-- **C42, partial correctness.**  For every input whose edges do not cross and contain no other input point, and whose hole corners and Steiner points are strictly inside
the polygon: if the run succeeds (without the branch at `sweeper.rs:698`), the result is a triangulation of the polygon minus the holes. -/
theorem C42_region (hf : FineInput n (allPoints (piecesOf poly ops))) (hp : NoTouch poly ops)
    (hx : ScanComplete n (runPts n poly ops)) (hu : EpsUp n (allPoints (piecesOf poly ops))) (ha : EdgesApart poly ops) (h : programG g n fuel poly ops = .ok (t, s))
    (h3 : 3 ≤ poly.points.length) (h3' : ∀ H ∈ holesOf ops, 3 ≤ H.length) (hin : ∀ p ∈ extraPoints ops, StrictlyInside poly.points p) :
    TriangulatesRegion poly ops (runPts n poly ops) t.triangles t.result ∧ t.result ≠ [] :=
  triangulates_of hf hp h (C38_constraints_honoured hf hp hx hu ha h) h3 h3' hin

/-- **C42.**  Total correctness.  For every input with no two edges crossing, no input point inside an edge, the corners of the holes and the Steiner points strictly
inside the polygon, and no dip under an edge: triangulating terminates without panic, the reported triangles triangulate the polygon minus the holes,
every edge of the polygon and the holes is a constraint edge of the mesh, and the mesh is constrained Delaunay. -/
theorem C42_correct (hf : FineInput n (allPoints (piecesOf poly ops))) (hp : NoTouch poly ops)
    (hx : ScanComplete n (runPts n poly ops)) (hu : EpsUp n (allPoints (piecesOf poly ops))) (ha : EdgesApart poly ops)
    (hok : ∀ p ∈ piecesOf poly ops, p.Ok) (hd : ¬ HasDip poly ops)
    (h3 : 3 ≤ poly.points.length) (h3' : ∀ H ∈ holesOf ops, 3 ≤ H.length) (hin : ∀ p ∈ extraPoints ops, StrictlyInside poly.points p) :
    ∃ N t s, (∀ fuel, N ≤ fuel → program n fuel poly ops = .ok (t, s)) ∧
      TriangulatesRegion poly ops (runPts n poly ops) t.triangles t.result ∧ t.result ≠ [] ∧
      ConstraintsInPlace (inputEdges poly ops) t.triangles ∧ LocallyDelaunay (runPts n poly ops) t.triangles := by
  obtain ⟨N, t, s, h1, h2, h4⟩ := C41_total hf hp hx hu ha hok hd
  have h := h2 N (Nat.le_refl _)
  obtain ⟨r1, r2⟩ := C42_region hf hp hx hu ha h h3 h3' hin
  exact ⟨N, t, s, h1, r1, r2, h4, (C12_locally_delaunay hf h).2⟩

/-- **C42, convex polygons.** -/
theorem C42_convex (h : StrictlyConvex poly.points) (hok : NoRepeat poly.points) (hf : FineInput n poly.points)
    (hx : ScanComplete n (runPts n poly [])) (hu : EpsUp n poly.points) (h3 : 3 ≤ poly.points.length) :
    ∃ N t s, (∀ fuel, N ≤ fuel → program n fuel poly [] = .ok (t, s)) ∧
      TriangulatesRegion poly [] (runPts n poly []) t.triangles t.result ∧ t.result ≠ [] ∧
      ConstraintsInPlace (inputEdges poly []) t.triangles ∧ LocallyDelaunay (runPts n poly []) t.triangles := by
  obtain ⟨h1, h2, ht⟩ := convex_fine h
  refine C42_correct (by rw [convex_points]; exact hf) ht hx (by rw [convex_points]; exact hu) h1 ?_ h2 h3 (by simp [holesOf]) (by simp [extraPoints, allPoints])
  intro p hp
  simp only [piecesOf, List.flatMap_nil, List.mem_singleton] at hp
  subst hp
  exact hok

end

/-! ## Examples -/

/-- A quadrilateral with a triangular hole and two Steiner points. -/
theorem gp_correct : ∃ N t s, (∀ fuel, N ≤ fuel → program f64 fuel exPoly gpOps = .ok (t, s)) ∧
    TriangulatesRegion exPoly gpOps (runPts f64 exPoly gpOps) t.triangles t.result ∧ t.result ≠ [] ∧
    ConstraintsInPlace (inputEdges exPoly gpOps) t.triangles ∧ LocallyDelaunay (runPts f64 exPoly gpOps) t.triangles := by
  refine C42_correct gp_fine gp_general.1 gp_general.2.1 gp_up.1 gp_general.2.2 gp_up.2 gp_no_dip (by decide) (by decide) fun p hp => ?_
  have h1 : ∀ p ∈ extraPoints gpOps, InsidePolyline exPoly.points p ∧ ∀ x ∈ cyclicPairs exPoly.points, det2 x.1 x.2 p ≠ 0 := by decide +kernel
  exact strictlyInside_of (h1 p hp).1 (h1 p hp).2

theorem hex_correct : ∃ N t s, (∀ fuel, N ≤ fuel → program f64 fuel hexPoly [] = .ok (t, s)) ∧
    TriangulatesRegion hexPoly [] (runPts f64 hexPoly []) t.triangles t.result ∧ t.result ≠ [] ∧
    ConstraintsInPlace (inputEdges hexPoly []) t.triangles ∧ LocallyDelaunay (runPts f64 hexPoly []) t.triangles :=
  C42_convex (by decide +kernel) (by unfold NoRepeat; decide +kernel) (by decide +kernel) (by decide +kernel) (by decide +kernel) (by decide)

end P2T
