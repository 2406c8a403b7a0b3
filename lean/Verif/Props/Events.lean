import Verif.Proofs.Protocol
import Verif.Props.Builder

/-!
# C04, C05, C14: the callbacks of a run
-/

namespace P2T

theorem flatMap_filter_perm (E : List (Nat × Nat)) : ∀ (L : List Nat), L.Nodup →
    (L.flatMap fun j => E.filter fun x => x.2 = j).Perm (E.filter fun x => x.2 ∈ L)
  | [], _ => by
    rw [show (E.filter fun x => decide (x.2 ∈ ([] : List Nat))) = [] by simp]
    exact .refl _
  | a :: L, h => by
    rw [List.nodup_cons] at h
    rw [List.flatMap_cons]
    refine ((flatMap_filter_perm E L h.2).append_left _).trans ?_
    have := List.filter_append_perm (fun x : Nat × Nat => decide (x.2 = a)) (E.filter fun x => decide (x.2 ∈ a :: L))
    rw [List.filter_filter, List.filter_filter] at this
    refine .trans (.of_eq ?_) this
    congr 1
    · apply List.filter_congr
      intro x _
      by_cases e : x.2 = a <;> simp [e]
    · apply List.filter_congr
      intro x _
      by_cases e : x.2 = a
      · simp [e, h.1]
      · simp [e]

/-- The lower ends of the edges whose upper end is `j`. -/
def lowerEnds (E : List (Nat × Nat)) (j : Nat) : List Nat := (E.filter fun x => x.2 = j).map (·.1)

/-- Everything about the callbacks of a successful program, before polishing. -/
theorem program_calls {D} {n fuel} {poly : Source D} {ops t s}
    (hn : (allPoints (piecesOf poly ops)).length ≤ 2 ^ 32) (h : program n fuel poly ops = .ok (t, s)) :
    ∃ first ids r, (first :: ids).Perm (List.range (allPoints (piecesOf poly ops)).length) ∧
      (first :: ids).Pairwise (fun i j => ∀ p q, (allPoints (piecesOf poly ops))[i]? = some p →
        (allPoints (piecesOf poly ops))[j]? = some q → ¬ Below q p) ∧
      SweepCalls (ids.map fun j => (j, lowerEnds (pieceEdges 0 (piecesOf poly ops)) j)) r ∧
      s.events = r ++ [.sweepDone, .finalized] ∧ (∀ p ∈ piecesOf poly ops, p.Ok) := by
  obtain ⟨b, hb, hr⟩ := program_ok h
  rcases buildChain_spec poly ops hn with ⟨hok, b', h1, h2, h3, -⟩ | ⟨-, h1⟩
  swap
  · rw [hb] at h1; cases h1
  rw [hb] at h1; cases h1
  have hpts : b.pb.points = allPoints (piecesOf poly ops) := by simpa [PointsBuilder.empty] using h3
  have hE : EdgesOk b.pb (pieceEdges 0 (piecesOf poly ops)) := by simpa [PointsBuilder.empty] using h2
  obtain ⟨s0, s1, s2, items, k0, k1, k2, k3, rfl, -⟩ := runG_ok hr
  obtain ⟨p0, y0, -, -, htr⟩ := initState_base k0
  obtain ⟨i1, i2⟩ := iterByY_ok k1
  have hys := ySorted_spec n b.pb.points b.pb.edges (by rw [hpts]; exact hn)
  have hy : (b.build n).points.ySorted = p0 :: items.map (·.1) := by
    rw [i1]
    have hl := (List.getElem?_eq_some_iff.1 y0)
    obtain ⟨hl, e⟩ := hl
    rw [← e, ← List.drop_eq_getElem_cons hl, List.drop_zero]
  have hy' : (Ctx.new n b.pb.points b.pb.edges).ySorted = p0 :: items.map (·.1) := hy
  rw [hy', hpts] at hys
  obtain ⟨r, e1, e2⟩ := sweepLoop_events k2
  refine ⟨p0, items.map (·.1), r, hys.1, hys.2, ?_, ?_, hok⟩
  · have : (items.map (·.1)).map (fun j => (j, lowerEnds (pieceEdges 0 (piecesOf poly ops)) j)) =
        items.map fun x => (x.1, x.2.2.toList) := by
      rw [List.map_map]
      apply List.map_congr_left
      intro x hx
      have h4 := (i2 x hx).2
      have hlt : x.1 < b.pb.edges.length := by
        rw [hE.len, hpts]
        have := hys.1.subset (List.mem_cons_of_mem _ (List.mem_map_of_mem hx))
        simpa using this
      have h5 : (b.build n).points.edges = b.pb.edges ++ [.none] ++ [.none] := rfl
      rw [h5, List.append_assoc, List.getElem?_append_left hlt] at h4
      have := hE.get x.1 _ h4
      simp only [Function.comp]
      rw [this]; rfl
    rw [this]; exact e2
  · have e4 := (finalize_trace k3).1
    have : s2.events = (s1.emit .sweepDone).events := by simp [St.events, e4]
    have e0 : s0.events = [] := by simp [St.events, htr]
    rw [events_emit, this, events_emit, e1, e0]; simp

/-- **C05.**  In a successful run the callbacks are: for every point except one, `enter`, then only
legalization callbacks, then `exit`, then for each of its edges legalization callbacks followed by the
`edge` callback; after the last point one `sweep_done` and one `finalized`.  The points come in the order
of increasing `(y, x)`, and the point left out comes first in that order. -/
theorem C05_protocol {D} {n fuel} {poly : Source D} {ops t s}
    (hn : (allPoints (piecesOf poly ops)).length ≤ 2 ^ 32) (hd : (allPoints (piecesOf poly ops)).Nodup)
    (h : program n fuel poly ops = .ok (t, s)) :
    ∃ first ids r, (first :: ids).Perm (List.range t.pts.length) ∧
      (first :: ids).Pairwise (fun i j => ∃ p q, t.pts[i]? = some p ∧ t.pts[j]? = some q ∧ Below p q) ∧
      SweepCalls (ids.map fun j => (j, lowerEnds (pieceEdges 0 (piecesOf poly ops)) j)) r ∧
      s.events = r ++ [.sweepDone, .finalized] := by
  obtain ⟨first, ids, r, h1, h2, h3, h4, -⟩ := program_calls hn h
  rw [C01_points_in_call_order hn h]
  refine ⟨first, ids, r, h1, ?_, h3, h4⟩
  have hnd : (first :: ids).Nodup := h1.nodup_iff.2 List.nodup_range
  refine (h2.and hnd).imp_of_mem ?_
  rintro i j hi hj ⟨hij, hne⟩
  have li : i < (allPoints (piecesOf poly ops)).length := by simpa using h1.subset hi
  have lj : j < (allPoints (piecesOf poly ops)).length := by simpa using h1.subset hj
  refine ⟨_, _, List.getElem?_eq_getElem li, List.getElem?_eq_getElem lj, ?_⟩
  have := hij _ _ (List.getElem?_eq_getElem li) (List.getElem?_eq_getElem lj)
  rcases Below.total (p := (allPoints (piecesOf poly ops))[i]) (q := (allPoints (piecesOf poly ops))[j])
    (fun e => hne ((List.Nodup.getElem_inj_iff hd).1 e)) with k | k
  · exact k
  · exact (this k).elim

/-- Without the assumption that the points differ: the order is never decreasing. -/
theorem C05_protocol_general {D} {n fuel} {poly : Source D} {ops t s}
    (hn : (allPoints (piecesOf poly ops)).length ≤ 2 ^ 32) (h : program n fuel poly ops = .ok (t, s)) :
    ∃ first ids r, (first :: ids).Perm (List.range t.pts.length) ∧
      (first :: ids).Pairwise (fun i j => ∀ p q, t.pts[i]? = some p → t.pts[j]? = some q → ¬ Below q p) ∧
      SweepCalls (ids.map fun j => (j, lowerEnds (pieceEdges 0 (piecesOf poly ops)) j)) r ∧
      s.events = r ++ [.sweepDone, .finalized] := by
  obtain ⟨first, ids, r, h1, h2, h3, h4, -⟩ := program_calls hn h
  rw [C01_points_in_call_order hn h]
  exact ⟨first, ids, r, h1, h2, h3, h4⟩

theorem mem_range_zip {off : Nat} {ps : List Point} {x : Nat × Point} (h : x ∈ (List.range' off ps.length).zip ps) :
    off ≤ x.1 ∧ ps[x.1 - off]? = some x.2 := by
  rw [List.mem_iff_getElem] at h
  obtain ⟨i, hi, rfl⟩ := h
  simp only [List.length_zip, List.length_range'] at hi
  simp only [List.getElem_zip, List.getElem_range', Nat.one_mul]
  refine ⟨by omega, ?_⟩
  rw [Nat.add_sub_cancel_left]
  exact List.getElem?_eq_getElem _

theorem polylineEdges_below {off : Nat} {ps : List Point} (h : NoRepeat ps) : ∀ x ∈ polylineEdges off ps,
    off ≤ x.1 ∧ off ≤ x.2 ∧ ∃ p q, ps[x.1 - off]? = some p ∧ ps[x.2 - off]? = some q ∧ Below p q := by
  intro x hx
  simp only [polylineEdges, List.mem_map] at hx
  obtain ⟨⟨a, b⟩, hy, rfl⟩ := hx
  have hm := cyclic_mem hy
  have h1 := mem_range_zip hm.1
  have h2 := mem_range_zip hm.2
  have hne : a.2 ≠ b.2 := by
    have e : ps = ((List.range' off ps.length).zip ps).map Prod.snd := by rw [List.map_snd_zip (by simp)]
    unfold NoRepeat at h
    rw [e, cyclic_map] at h
    exact h (a.2, b.2) (List.mem_map.2 ⟨(a, b), hy, rfl⟩)
  unfold orientEdge
  dsimp only at h1 h2 ⊢
  split
  · exact ⟨h2.1, h1.1, b.2, a.2, h2.2, h1.2, ‹_›⟩
  · exact ⟨h1.1, h2.1, a.2, b.2, h1.2, h2.2, (Below.total hne).resolve_right ‹_›⟩

theorem pieceEdges_below : ∀ (ps : List Piece) (pre : List Point), (∀ p ∈ ps, p.Ok) → ∀ x ∈ pieceEdges pre.length ps,
    ∃ p q, (pre ++ allPoints ps)[x.1]? = some p ∧ (pre ++ allPoints ps)[x.2]? = some q ∧ Below p q
  | [], pre, _, x, hx => by cases hx
  | .steiner l :: ps, pre, h, x, hx => by
    have := pieceEdges_below ps (pre ++ l) (fun p hp => h p (by simp [hp])) x (by simpa [pieceEdges] using hx)
    simpa [allPoints, Piece.pts] using this
  | .polyline l :: ps, pre, h, x, hx => by
    simp only [pieceEdges, List.mem_append] at hx
    rcases hx with hx | hx
    · obtain ⟨o1, o2, p, q, h1, h2, h3⟩ := polylineEdges_below (h (.polyline l) (by simp)) x hx
      refine ⟨p, q, ?_, ?_, h3⟩
      · rw [List.getElem?_append_right o1]
        have := (List.getElem?_eq_some_iff.1 h1).1
        simp only [allPoints, List.flatMap_cons, Piece.pts]
        rw [List.getElem?_append_left this, h1]
      · rw [List.getElem?_append_right o2]
        have := (List.getElem?_eq_some_iff.1 h2).1
        simp only [allPoints, List.flatMap_cons, Piece.pts]
        rw [List.getElem?_append_left this, h2]
    · have := pieceEdges_below ps (pre ++ l) (fun p hp => h p (by simp [hp])) x (by simpa using hx)
      simpa [allPoints, Piece.pts] using this

/-- **C04.**  The `edge` callbacks of a successful run are, up to order, exactly the edges of the polygon
and of the holes, once each (the closing edges included); in each call the second end is the upper one. -/
theorem C04_edge_events {D} {n fuel} {poly : Source D} {ops t s}
    (hn : (allPoints (piecesOf poly ops)).length ≤ 2 ^ 32) (h : program n fuel poly ops = .ok (t, s)) :
    (edgesOf s.events).Perm (pieceEdges 0 (piecesOf poly ops)) ∧
    ∀ x ∈ edgesOf s.events, ∃ p q, t.pts[x.1]? = some p ∧ t.pts[x.2]? = some q ∧ Below p q := by
  obtain ⟨first, ids, r, h1, h2, h3, h4, h5⟩ := program_calls hn h
  have hb := fun x hx => pieceEdges_below (piecesOf poly ops) [] h5 x hx
  simp only [List.length_nil, List.nil_append] at hb
  have key : (edgesOf s.events).Perm (pieceEdges 0 (piecesOf poly ops)) := by
    rw [h4, edgesOf_append, h3.edges]
    simp only [edgesOf, List.append_nil, List.flatMap_map, lowerEnds, List.map_map]
    generalize hE : pieceEdges 0 (piecesOf poly ops) = E at *
    have e1 : ∀ j, (E.filter fun x => decide (x.2 = j)).map ((fun p => (p, j)) ∘ fun x => x.1) = E.filter fun x => decide (x.2 = j) := by
      intro j
      conv_rhs => rw [← List.map_id (E.filter fun x => decide (x.2 = j))]
      apply List.map_congr_left
      rintro ⟨a, b⟩ hx
      simp only [List.mem_filter, decide_eq_true_eq] at hx
      simp [hx.2]
    simp only [e1]
    have e2 : (E.filter fun x => decide (x.2 = first)) = [] := by
      rw [List.filter_eq_nil_iff]
      intro x hx
      simp only [decide_eq_true_eq]
      intro e
      obtain ⟨p, q, hp, hq, hpq⟩ := hb x hx
      rw [e] at hq
      have : x.1 ∈ first :: ids := by
        rw [h1.mem_iff, List.mem_range]; exact (List.getElem?_eq_some_iff.1 hp).1
      rcases List.mem_cons.1 this with k | k
      · rw [k, hq] at hp; cases hp; exact Below.irrefl _ hpq
      · exact (List.pairwise_cons.1 h2).1 x.1 k q p hq hp hpq
    have e3 : (ids.flatMap fun j => E.filter fun x => decide (x.2 = j)) =
        (first :: ids).flatMap fun j => E.filter fun x => decide (x.2 = j) := by
      rw [List.flatMap_cons, e2, List.nil_append]
    rw [e3]
    refine (flatMap_filter_perm E (first :: ids) (h1.nodup_iff.2 List.nodup_range)).trans (.of_eq ?_)
    rw [List.filter_eq_self]
    intro x hx
    obtain ⟨p, q, hp, hq, hpq⟩ := hb x hx
    rw [decide_eq_true_eq, h1.mem_iff, List.mem_range]
    exact (List.getElem?_eq_some_iff.1 hq).1
  refine ⟨key, fun x hx => ?_⟩
  rw [C01_points_in_call_order hn h]
  exact hb x (key.subset hx)

theorem c_new_nodup_head {n : Num} {pts : List Point} {es} (hn : pts.length + 2 ≤ 2 ^ 32) :
    (Ctx.new n pts es).head = pts.length ∧ (Ctx.new n pts es).tail = pts.length + 1 :=
  ⟨asU32_of_lt (by omega), asU32_of_lt (by omega)⟩

/-- **C14.**  At every callback of a successful run (legalization callbacks included),
`triangles + front nodes = 4 + 2 · (number of points entered before)`, i.e. `2 n + 2` where `n` counts the
points swept including the initial lowest one.  Assumes that all points, the two artificial ones
included, are different. -/
theorem C14_count {D} {g : Trap} {fuel} {cdt : CDT D} {b : PointsBuilder} {n : Num} {t s}
    (hc : cdt.points = b.build n) (hn : b.points.length + 2 ≤ 2 ^ 32) (hd : cdt.points.points.Nodup)
    (h : cdt.runG g fuel = .ok (t, s)) :
    ∀ later e (sn : Snap) earlier, s.trace = later ++ (e, sn) :: earlier →
      sn.tris.length + sn.front.nodes.length =
        4 + 2 * (earlier.filter fun x => match x.1 with | .enterPoint _ => true | _ => false).length := by
  obtain ⟨s0, s1, s2, items, k0, k1, k2, k3, rfl, -⟩ := runG_ok h
  obtain ⟨p0, y0, b0, c0, htr⟩ := initState_base k0
  obtain ⟨i1, i2⟩ := iterByY_ok k1
  have hys := (ySorted_spec n b.points b.edges (by omega)).1
  have hy : cdt.points.ySorted = p0 :: items.map (·.1) := by
    rw [i1]
    have hl := (List.getElem?_eq_some_iff.1 y0)
    obtain ⟨hl, e⟩ := hl
    rw [← e, ← List.drop_eq_getElem_cons hl, List.drop_zero]
  have hys' : (p0 :: items.map (·.1)).Perm (List.range b.points.length) := by rw [← hy, hc]; exact hys
  obtain ⟨hh, ht⟩ := c_new_nodup_head (n := n) (es := b.edges) hn
  have hh' : cdt.points.head = b.points.length := by rw [hc]; exact hh
  have ht' : cdt.points.tail = b.points.length + 1 := by rw [hc]; exact ht
  have hlt : ∀ i ∈ items.map (·.1), i < b.points.length := by
    intro i hi
    have := hys'.subset (List.mem_cons_of_mem _ hi)
    simpa using this
  obtain ⟨b1, -, hcnt⟩ := sweepLoop_base k2 b0 fun x hx => (i2 x hx).1
  have hcnt := hcnt hd (by simpa using hys'.nodup_iff.2 List.nodup_range)
    (fun k => by have := hlt _ k; omega) (fun k => by have := hlt _ k; omega) c0
  have hcnt2 := hcnt.emit (e := .sweepDone) (by simp)
  intro later e sn earlier htr
  obtain ⟨e4, e5, e6⟩ := finalize_trace k3
  have e7 : s2.tris.length = s1.tris.length := by
    rcases e6 with ⟨e6, -⟩ | ⟨_, _, st, -, -, -, e6⟩
    · rw [e6]; rfl
    · have r0 : (s1.emit .sweepDone).result = [] := b1.result
      rw [r0] at e6
      exact (cleanMesh_spec b1.inter e6).same.1
  simp only [St.emit] at htr
  cases later with
  | nil =>
    simp only [List.nil_append, List.cons.injEq, Prod.mk.injEq] at htr
    obtain ⟨⟨rfl, rfl⟩, rfl⟩ := htr
    have h6 := hcnt2.now
    rw [e4]
    simp only [Snap.size, St.snap, St.emit, entered] at h6 ⊢
    rw [e7, e5]; exact h6
  | cons y later =>
    simp only [List.cons_append, List.cons.injEq] at htr
    rw [e4] at htr
    exact hcnt2.log later e sn earlier htr.2

/-! The hypotheses are met by the example input of `Builder.lean`, in double precision. -/

example : (allPoints (piecesOf exPoly exOps)).Nodup := by decide +kernel

example : ∃ b, buildChain exPoly exOps = .ok b ∧ b.pb.points.length + 2 ≤ 2 ^ 32 ∧
    (b.build f64).points.points.Nodup ∧ ((b.build f64).run 200).toBool = true := by
  refine ⟨_, rfl, by decide, by decide +kernel, by decide +kernel⟩

end P2T
