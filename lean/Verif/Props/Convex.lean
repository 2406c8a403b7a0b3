import Verif.Props.Anchored
import Verif.Proofs.TopEdge

/-!
# C65: a convex outline is respected, whatever the holes do
-/

namespace P2T

section
variable {D : Type} {n : Num} {poly : Source D} {ops : List (BuildOp D)}

/-- The first edge of the upper hull does not go down vertically. -/
theorem FirstHullEdge.right {pts : List Point} {z w : Point} (h : FirstHullEdge pts z w) (hw : w ∈ pts) (h3 : ∃ v ∈ pts, v ≠ z ∧ v ≠ w) : z.x < w.x := by
  obtain ⟨v, hv, v1, v2⟩ := h3
  have hd := h.2 v hv v1 v2
  rcases h.1.2 w hw with k | ⟨k1, k2⟩
  · exact k
  · have e : det2 z v w = (v.x - z.x) * (w.y - z.y) := by unfold det2; rw [← k1]; ring
    have : z.x ≤ v.x := by rcases h.1.2 v hv with k | k <;> linarith [k]
    rw [e] at hd
    have := mul_nonpos_of_nonneg_of_nonpos (sub_nonneg.2 this) (sub_nonpos.2 k2)
    linarith

/-- **C65.**  If the first edge of the upper hull of all input points belongs to the polygon and no edge crosses the polygon, the reported triangles are inside the polygon, and there are some:
the holes may overlap each other. -/
theorem C65_inside {g : Trap} [g.Tame] {fuel t s} (a : LooseInput n poly ops) (lo : LeftOpen n (allPoints (piecesOf poly ops))) (tb : TailBelow n (allPoints (piecesOf poly ops)))
    (h3 : 3 ≤ poly.points.length) (h3' : ∀ H ∈ holesOf ops, 3 ≤ H.length) (h : programG g n fuel poly ops = .ok (t, s))
    (hu : Uncrossed poly ops poly.points) (hh : HullAnchored poly ops) :
    InsideOnly (withArtificial n (allPoints (piecesOf poly ops))) t poly.points ∧ t.result ≠ [] := by
  obtain ⟨I, hI, eI⟩ := loop_ids (poly := poly) (ops := ops) (L := poly.points) (by simp)
  -- the edge of the polygon by number
  have bI : ∀ v ∈ I, v < (allPoints (piecesOf poly ops)).length := fun v hv => by have := (polyIds_bound I hI v hv).2; omega
  have hthree := polyIds_length 0 (piecesOf poly ops) (by rw [polylines_of]; intro ps hps; rcases List.mem_cons.1 hps with rfl | k; exacts [h3, h3' _ k])
  obtain ⟨z, w, hzw, hull⟩ : ∃ z w, ((z, w) ∈ cyclicPairs I ∨ (w, z) ∈ cyclicPairs I) ∧
      FirstHullEdge (allPoints (piecesOf poly ops)) (ptOf (allPoints (piecesOf poly ops)) z) (ptOf (allPoints (piecesOf poly ops)) w) := by
    obtain ⟨x, hx, k⟩ := hh
    rw [eI, cyclic_map] at hx
    obtain ⟨⟨u, v⟩, hx', rfl⟩ := List.mem_map.1 hx
    rcases k with k | k
    · exact ⟨u, v, .inl hx', k⟩
    · exact ⟨v, u, .inr hx', k⟩
  have zI : z ∈ I := by rcases hzw with k | k; exacts [cyclic_mem_left k, cyclic_mem_right k]
  have wI : w ∈ I := by rcases hzw with k | k; exacts [cyclic_mem_right k, cyclic_mem_left k]
  have hz := bI z zI
  have hw := bI w wI
  have hndI : I.Nodup := (List.nodup_flatten.1 (polyIds_nodup 0 (piecesOf poly ops))).1 I hI
  have nb : ∀ {u v}, (u, v) ∈ cyclicPairs I → (v, u) ∉ cyclicPairs I := fun k => cyclic_no_back hndI (hthree I hI) k
  have hne : t.result ≠ [] := by
    rcases hzw with k | k
    · rcases edge_of_loop hI (eI ▸ hu) k with k | k
      · exact C64_nonempty a lo h k hull.1 (.inl rfl)
      · exact C64_nonempty a lo h k hull.1 (.inr rfl)
    · rcases edge_of_loop hI (eI ▸ hu) k with k | k
      · exact C64_nonempty a lo h k hull.1 (.inr rfl)
      · exact C64_nonempty a lo h k hull.1 (.inl rfl)
  refine ⟨?_, hne⟩
  obtain ⟨emap, hres⟩ := loop_label a h3 h3' h hI (eI ▸ hu)
  obtain ⟨sn, F, P, node, start, hfr, hm, hnode, hst, pl, p3, p5, hmark, key⟩ := hres.resolve_left hne
  obtain ⟨k1, -, k3⟩ := callback_mesh a.fine h
  obtain ⟨k4, k5⟩ := C13_front a.fine h
  obtain ⟨c1, c2, c3, c4⟩ := k3 _ _ hm
  have fb := k5 _ _ hm rfl
  obtain ⟨b, R, q1, q2, q3⟩ := final_left_gen a lo h
  rw [← hfr] at q1
  have inj : ∀ i j, i < (allPoints (piecesOf poly ops)).length → j < (allPoints (piecesOf poly ops)).length →
      ptOf (allPoints (piecesOf poly ops)) i = ptOf (allPoints (piecesOf poly ops)) j → i = j := by
    intro i j hi hj e
    rw [← ptOf_run (n := n) hi, ← ptOf_run (n := n) hj, input_point hi, input_point hj] at e
    exact (List.Nodup.getElem_inj_iff a.fine.distinct).1 e
  have ebz : b = z := by
    have := q3.unique hull.1
    rw [ptOf_run q2] at this
    exact inj _ _ q2 hz this
  subst ebz
  have hwz : w ≠ b := by
    rintro rfl
    rcases hzw with k | k <;> exact nb k k
  -- the front starts with `left`, `b` and `d`
  have lenR : (runPts n poly ops).length = (allPoints (piecesOf poly ops)).length + 2 := by rw [runPts_length]
  obtain ⟨a0, nb0, l, hn, ha0, hnb⟩ : ∃ (a0 nb : Node) (l : List Node), sn.front.nodes = a0 :: nb :: l ∧ a0.pid = leftId poly ops ∧ nb.pid = b := by
    have q1 : sn.front.nodes.map (·.pid) = leftId poly ops :: b :: R := q1
    match hs : sn.front.nodes with
    | [] => rw [hs] at q1; cases q1
    | [_] => rw [hs] at q1; simp at q1
    | a0 :: nb :: l =>
      rw [hs] at q1
      simp only [List.map_cons, List.cons.injEq] at q1
      exact ⟨a0, nb, l, rfl, q1.1, q1.2.1⟩
  have el : leftId poly ops = (allPoints (piecesOf poly ops)).length := rfl
  cases l with
  | nil =>
    exfalso
    obtain ⟨e, l', he, hp⟩ := c4.last
    rw [hn] at he
    have : nb0 = e := by
      have := congrArg List.getLast? he
      simpa using this
    rw [← this, hnb] at hp
    omega
  | cons d l =>
    have hc : Consecutive sn.front.nodes nb0 d := ⟨[a0], l, by simp [hn]⟩
    -- the third point of the polygon
    have third : ∃ v ∈ allPoints (piecesOf poly ops), v ≠ ptOf (allPoints (piecesOf poly ops)) b ∧ v ≠ ptOf (allPoints (piecesOf poly ops)) w := by
      obtain ⟨v, hv, v1, v2⟩ : ∃ v ∈ I, v ≠ b ∧ v ≠ w := by
        by_contra hno
        push Not at hno
        have : I ⊆ [b, w] := fun v hv => by
          by_cases e : v = b
          · simp [e]
          · simp [hno v hv e]
        have := (List.subperm_of_subset hndI this).length_le
        have := hthree I hI
        simp at *
        omega
      refine ⟨ptOf (allPoints (piecesOf poly ops)) v, ?_, fun e => v1 (inj _ _ (bI v hv) hz e), fun e => v2 (inj _ _ (bI v hv) hw e)⟩
      simp [ptOf, bI v hv]
    have memw : ptOf (allPoints (piecesOf poly ops)) w ∈ allPoints (piecesOf poly ops) := by simp [ptOf, hw]
    have memb : ptOf (allPoints (piecesOf poly ops)) b ∈ allPoints (piecesOf poly ops) := by simp [ptOf, hz]
    have hx := hull.right memw third
    have hxP : (P b).x < (P w).x := p5 b w (by omega) (by omega) (.inl (by rw [ptOf_run hz, ptOf_run hw]; exact hx))
    have hme : MeshEdge sn.tris b w := by
      rcases hzw with k | k
      · exact pl.along I (by simp) _ k
      · obtain ⟨T, hT, i, hi⟩ := pl.along I (by simp) _ k
        exact ⟨T, hT, i, hi.symm⟩
    have top := pl.mesh.top_edge pl.strict pl.lt hc (w := w) (by rw [hnb]; exact hme) (by rw [hnb]; exact hxP)
    rw [hnb] at top
    have dlen : d.pid < (runPts n poly ops).length := by
      obtain ⟨t', T, i, -, hT, -, e1, -⟩ := fb.below nb0 d hc
      rw [← e1]
      exact c1.corners T (List.mem_of_getElem? hT) _
    have dw : d.pid = w := by
      by_contra hdw
      refine top (p3 b d.pid w (by omega) dlen (by omega) ?_)
      rw [ptOf_run hz, ptOf_run hw]
      have ndl := c4.nodup
      rw [hn] at ndl
      simp only [List.map_cons, List.nodup_cons, List.mem_cons, not_or] at ndl
      by_cases hd : d.pid < (allPoints (piecesOf poly ops)).length
      · rw [ptOf_run hd]
        refine hull.2 _ (by simp [ptOf, hd]) (fun e => ?_) (fun e => hdw (inj _ _ hd hw e))
        have := inj _ _ hd hz e
        exact ndl.2.1.1 (by rw [hnb, this])
      · have : d.pid = (allPoints (piecesOf poly ops)).length + 1 := by
          have : d.pid ≠ (allPoints (piecesOf poly ops)).length := fun e => ndl.1.2.1 (by rw [ha0, e, el])
          omega
        rw [this]
        exact tb _ memb _ memw hull
    -- the search ends in the triangle of the front edge
    obtain ⟨t', T, i, ht, hT, hnn, e1, e2⟩ := fb.below nb0 d hc
    have hTm := List.mem_of_getElem? hT
    have mk : T.isConstrained i = true := by
      rcases hzw with k | k
      · exact hmark _ k T hTm i (.inr ⟨e1.trans dw, e2.trans hnb⟩)
      · exact hmark _ k T hTm i (.inl ⟨e1.trans dw, e2.trans hnb⟩)
    have en : node.pid = nb0.pid ∧ node.tri = nb0.tri := by
      simp only [Front.nth, hn, List.getElem?_cons_succ, List.getElem?_cons_zero, Option.map_some, Option.some.injEq] at hnode
      rw [← hnode]; exact ⟨rfl, rfl⟩
    rw [en.1, en.2, ht] at hst
    have hstart : start = t' := by
      have cw := (cw_at (c1.different T hTm) e2).1
      cases hst with
      | found g1 g2 => rfl
      | step g1 g2 g3 g4 =>
        rw [hT] at g1; cases g1
        rw [cw, mk] at g2; simp at g2
    subst hstart
    have hF : F I start = flow I w b := by
      have := (pl.faces I (by simp)).opn start T i hT hnn
      rw [this, e1, e2, dw, hnb]
    have nd : (cyclicPairs I).Nodup := List.Nodup.of_map Prod.fst (by rw [cyclic_fst]; exact hndI)
    intro i hi T hT q hq
    have w := key i hi T hT q hq
    rw [hF] at w
    unfold flow at w
    rw [eI, emap]
    rcases hzw with he | he
    · rw [List.count_eq_one_of_mem nd he, List.count_eq_zero_of_not_mem (nb he)] at w
      exact odd_inside (k := -1) (by rw [w]; norm_num)
    · rw [List.count_eq_one_of_mem nd he, List.count_eq_zero_of_not_mem (nb he)] at w
      exact odd_inside (k := 0) (by rw [w]; norm_num)

end

section
variable (n : Num) [F64Like n]

/-- Points on a binary grid: the right artificial point is below the upper hull, if it is not on a line with two of the points. -/
theorem OnGrid.tailBelow {e : Int} {pts : List Point} (h : OnGrid e pts) (he : -20 ≤ e) (he' : e ≤ 220) (hc : ClearOfCorners pts)
    (hnd : pts.Nodup) (h3 : 3 ≤ pts.length) : TailBelow n pts := by
  have hne : pts ≠ [] := by rintro rfl; simp at h3
  obtain ⟨s, g⟩ := h.facts he he'
  obtain ⟨head, tail, x0, x1, y0, y1, hall, hL, hR, box, nl, nr, np⟩ := run_near n hne g.bnd g.hB
  obtain ⟨ox, oy⟩ := box_open box (ne_pair hnd (by omega)) hc
  obtain ⟨hs, s0, slow, mul, bnd, hB, -, -⟩ := g
  intro z hz w hw hull
  rw [hR]
  have third : ∃ v ∈ pts, v ≠ z ∧ v ≠ w := by
    by_contra hno
    push Not at hno
    have : pts ⊆ [z, w] := fun v hv => by
      by_cases e : v = z
      · simp [e]
      · simp [hno v hv e]
    have := (List.subperm_of_subset hnd this).length_le
    simp at *
    omega
  have hx := hull.right hw third
  have mx0 : Mul s x0 := by obtain ⟨q, m, f⟩ := box.left; rw [← f]; exact (mul q m).1
  have mx1 : Mul s x1 := by obtain ⟨q, m, f⟩ := box.right; rw [← f]; exact (mul q m).1
  have my0 : Mul s y0 := by obtain ⟨q, m, f⟩ := box.bottom; rw [← f]; exact (mul q m).2
  have my1 : Mul s y1 := by obtain ⟨q, m, f⟩ := box.top; rw [← f]; exact (mul q m).2
  have ww : s ≤ x1 - x0 := by have := (mx1.sub mx0).ge s0 (by linarith); rwa [abs_of_pos (by linarith)] at this
  have hh : s ≤ y1 - y0 := by have := (my1.sub my0).ge s0 (by linarith); rwa [abs_of_pos (by linarith)] at this
  have bx := abs_le.1 nr.mx
  have by' := abs_le.1 nr.my
  simp only [cornerRight] at bx by'
  have eB : 2 ^ 20 * s / 2 ^ 51 = s / 2 ^ 31 := by ring
  rw [eB] at bx by'
  have iz := box.inside z hz
  have tx : x1 < tail.x := by norm_num at bx; linarith
  have ty : tail.y < y0 := by norm_num at by'; linarith
  -- it is enough to find some point above the ray to the artificial point
  have via : ∀ v ∈ pts, 0 < det2 z tail v → 0 < det2 z tail w := by
    intro v hv hd
    by_cases e1 : v = z
    · rw [e1] at hd; have : det2 z tail z = 0 := by unfold det2; ring
      linarith
    by_cases e2 : v = w
    · rw [← e2]; exact hd
    have hd' := hull.2 v hv e1 e2
    have hvx : z.x < v.x := by
      rcases hull.1.2 v hv with k | ⟨k1, k2⟩
      · exact k
      · exfalso
        have e : det2 z tail v = (tail.x - z.x) * (v.y - z.y) := by unfold det2; rw [← k1]; ring
        have := mul_nonpos_of_nonneg_of_nonpos (by linarith : 0 ≤ tail.x - z.x) (by linarith : v.y - z.y ≤ 0)
        linarith
    have key : det2 z tail w * (v.x - z.x) = det2 z tail v * (w.x - z.x) + det2 z v w * (tail.x - z.x) := by unfold det2; ring
    have p1 := mul_pos hd (sub_pos.2 hx)
    have p2 := mul_pos hd' (by linarith : 0 < tail.x - z.x)
    by_contra hn
    have := mul_nonpos_of_nonpos_of_nonneg (not_lt.1 hn) (sub_pos.2 hvx).le
    linarith
  obtain ⟨t, ht, et⟩ := box.top
  rcases lt_or_eq_of_le iz.2.2.2 with k | k
  · -- a point above `z`
    refine via t ht ?_
    have e : det2 z tail t = (tail.x - z.x) * (t.y - z.y) + (z.y - tail.y) * (t.x - z.x) := by unfold det2; ring
    rw [e]
    have p1 := mul_pos (by linarith : 0 < tail.x - z.x) (by linarith : 0 < t.y - z.y)
    have p2 := mul_nonneg (by linarith : 0 ≤ z.y - tail.y) (by linarith [(box.inside z hz).1, show z.x ≤ t.x by rcases hull.1.2 t ht with k | k <;> linarith [k]] : 0 ≤ t.x - z.x)
    linarith
  · -- `z` is the upper left corner of the box
    have ezx : z.x = x0 := by
      obtain ⟨l, hl, el⟩ := box.left
      have : z.x ≤ l.x := by rcases hull.1.2 l hl with k | k <;> linarith [k]
      linarith
    obtain ⟨r, hr, er⟩ := box.right
    refine via r hr ?_
    have ir := box.inside r hr
    have hry : y0 < r.y := by
      rcases lt_or_eq_of_le ir.2.2.1 with k' | k'
      · exact k'
      · exfalso
        have := (hc _ _ _ _ box z hz r hr (by rintro rfl; linarith)).2
        apply this
        simp only [det2, cornerRight]
        rw [er, ← k', ezx, k]
        ring
    have gap : s ≤ r.y - y0 := by have := ((mul r hr).2.sub my0).ge s0 (by linarith); rwa [abs_of_pos (by linarith)] at this
    have e : det2 z tail r = (tail.x - x0) * (r.y - y0) + ((tail.x - x0) * (y0 - y1) - (tail.y - y1) * (x1 - x0)) := by unfold det2; rw [er, ezx, k]; ring
    rw [e]
    have p1 : (x1 - x0) * s ≤ (tail.x - x0) * (r.y - y0) := mul_le_mul (by linarith) gap s0.le (by linarith)
    -- the rounding
    have e2 : (tail.x - x0) * (y0 - y1) - (tail.y - y1) * (x1 - x0) =
        -((tail.x - (x1 + 3 / 10 * (x1 - x0))) * (y1 - y0)) - (tail.y - (y0 - 3 / 10 * (y1 - y0))) * (x1 - x0) := by ring
    have b1 : y1 - y0 ≤ 2 ^ 21 * s := by
      obtain ⟨p, hp, ep⟩ := box.bottom
      have k1 := abs_le.1 (bnd p hp).2
      have k2 := abs_le.1 (bnd t ht).2
      norm_num at *; linarith
    have q1 : (tail.x - (x1 + 3 / 10 * (x1 - x0))) * (y1 - y0) ≤ s / 2 ^ 31 * (2 ^ 21 * s) := mul_le_mul bx.2 b1 (by linarith) (by positivity)
    have q2 : (tail.y - (y0 - 3 / 10 * (y1 - y0))) * (x1 - x0) ≤ s / 2 ^ 31 * (x1 - x0) := mul_le_mul_of_nonneg_right by'.2 (by linarith)
    have q3 : s * s ≤ (x1 - x0) * s := mul_le_mul_of_nonneg_right ww s0.le
    have q4 : 0 < s * s := mul_pos s0 s0
    rw [e2]
    have e3 : s / 2 ^ 31 * (2 ^ 21 * s) = s * s / 2 ^ 10 := by ring
    have e4 : s / 2 ^ 31 * (x1 - x0) = (x1 - x0) * s / 2 ^ 31 := by ring
    rw [e3] at q1; rw [e4] at q2
    norm_num at q1 q2
    linarith

end

section
variable {D : Type} {n : Num} {poly : Source D} {ops : List (BuildOp D)}

theorem topLeft_exists : ∀ {pts : List Point}, pts ≠ [] → ∃ z, TopLeft pts z
  | [], h => (h rfl).elim
  | [p], _ => ⟨p, by simp, fun q hq => by rw [List.mem_singleton.1 hq]; exact .inr ⟨rfl, le_rfl⟩⟩
  | p :: q :: l, _ => by
    obtain ⟨z, h1, h2⟩ := topLeft_exists (pts := q :: l) (by simp)
    by_cases k : z.x < p.x ∨ (z.x = p.x ∧ p.y ≤ z.y)
    · refine ⟨z, List.mem_cons_of_mem _ h1, fun x hx => ?_⟩
      rcases List.mem_cons.1 hx with rfl | hx
      · exact k
      · exact h2 x hx
    · refine ⟨p, List.mem_cons_self, fun x hx => ?_⟩
      rcases List.mem_cons.1 hx with rfl | hx
      · exact .inr ⟨rfl, le_rfl⟩
      · push Not at k
        rcases h2 x hx with m | ⟨m1, m2⟩
        · left; linarith [k.1]
        · rcases lt_or_eq_of_le k.1 with r | r
          · left; linarith
          · right; exact ⟨by linarith, by linarith [k.2 r.symm]⟩

theorem cyclic_no_back' {l : List Point} (h : l.Nodup) (h3 : 3 ≤ l.length) {u v : Point} (h1 : (u, v) ∈ cyclicPairs l) : (v, u) ∉ cyclicPairs l := by
  intro h2
  have e : l = (List.range l.length).map (ptOf l) := by
    refine List.ext_getElem (by simp) fun i h1 h2 => ?_
    simp [ptOf, h1]
  have inj : ∀ {i j}, i ∈ List.range l.length → j ∈ List.range l.length → ptOf l i = ptOf l j → i = j := by
    intro i j hi hj k
    rw [List.mem_range] at hi hj
    simp only [ptOf, List.getD_eq_getElem?_getD, List.getElem?_eq_getElem hi, List.getElem?_eq_getElem hj, Option.getD_some] at k
    exact (List.Nodup.getElem_inj_iff h).1 k
  rw [e, cyclic_map, List.mem_map] at h1 h2
  obtain ⟨⟨i, j⟩, k1, e1⟩ := h1
  obtain ⟨⟨i', j'⟩, k2, e2⟩ := h2
  simp only [Prod.mk.injEq] at e1 e2
  have f1 := inj (cyclic_mem_left k2) (cyclic_mem_right k1) (e2.1.trans e1.2.symm)
  have f2 := inj (cyclic_mem_right k2) (cyclic_mem_left k1) (e2.2.trans e1.1.symm)
  simp only at f1 f2
  subst f1 f2
  exact cyclic_no_back List.nodup_range (by simpa using h3) k1 k2

/-- The leftmost of some points is not inside the cone of a leftmost corner. -/
theorem no_cone {c p q z : Point} (hz : z.x < c.x ∨ (z.x = c.x ∧ c.y ≤ z.y)) (hp : c.x < p.x ∨ (c.x = p.x ∧ p.y ≤ c.y)) (hq : c.x < q.x ∨ (c.x = q.x ∧ q.y ≤ c.y))
    (h1 : 0 < det2 c q z) (h2 : 0 < det2 c z p) (h3 : 0 < det2 c q p) : False := by
  have key : (z.x - c.x) * det2 c q p = (q.x - c.x) * det2 c z p + (p.x - c.x) * det2 c q z := by unfold det2; ring
  have hpx : 0 ≤ p.x - c.x := by rcases hp with k | k <;> linarith [k]
  have hqx : 0 ≤ q.x - c.x := by rcases hq with k | k <;> linarith [k]
  have hzx : z.x - c.x ≤ 0 := by rcases hz with k | k <;> linarith [k]
  have m1 := mul_nonneg hqx h2.le
  have m2 := mul_nonneg hpx h1.le
  have m3 := mul_nonpos_of_nonpos_of_nonneg hzx h3.le
  have e1 : (q.x - c.x) * det2 c z p = 0 := by linarith
  have e2 : (p.x - c.x) * det2 c q z = 0 := by linarith
  have f1 : q.x - c.x = 0 := (mul_eq_zero.1 e1).resolve_right h2.ne'
  have f2 : p.x - c.x = 0 := (mul_eq_zero.1 e2).resolve_right h1.ne'
  have : det2 c q p = 0 := by
    have : det2 c q p = (q.x - c.x) * (p.y - c.y) - (q.y - c.y) * (p.x - c.x) := by unfold det2; ring
    rw [this, f1, f2]; ring
  linarith

theorem ConvexOutline.uncrossed (h : ConvexOutline poly ops) : Uncrossed poly ops poly.points := by
  intro x hx y hy hc
  obtain ⟨f, hf, rfl⟩ := List.mem_map.1 hy
  have bound := pieceEdges_bound (piecesOf poly ops) 0 f hf
  have m1 : ptOf (allPoints (piecesOf poly ops)) f.1 ∈ allPoints (piecesOf poly ops) := by
    have : f.1 < (allPoints (piecesOf poly ops)).length := by have := bound.1; omega
    simp [ptOf, this]
  have m2 : ptOf (allPoints (piecesOf poly ops)) f.2 ∈ allPoints (piecesOf poly ops) := by
    have : f.2 < (allPoints (piecesOf poly ops)).length := by have := bound.2; omega
    simp [ptOf, this]
  have hc := hc.1
  simp only at hc
  rcases h with h | h
  · have nn : ∀ v ∈ allPoints (piecesOf poly ops), 0 ≤ det2 x.1 x.2 v := by
      intro v hv
      by_cases e1 : v = x.1
      · rw [e1]; apply le_of_eq; unfold det2; ring
      by_cases e2 : v = x.2
      · rw [e2]; apply le_of_eq; unfold det2; ring
      exact (h x hx v hv e1 e2).le
    linarith [mul_nonneg (nn _ m1) (nn _ m2)]
  · have nn : ∀ v ∈ allPoints (piecesOf poly ops), det2 x.1 x.2 v ≤ 0 := by
      intro v hv
      by_cases e1 : v = x.1
      · rw [e1]; apply le_of_eq; unfold det2; ring
      by_cases e2 : v = x.2
      · rw [e2]; apply le_of_eq; unfold det2; ring
      have := h x hx v hv e1 e2
      have e : det2 x.2 x.1 v = - det2 x.1 x.2 v := by unfold det2; ring
      linarith
    linarith [mul_nonneg_of_nonpos_of_nonpos (nn _ m1) (nn _ m2)]

theorem ConvexOutline.anchored (h : ConvexOutline poly ops) (hnd : (allPoints (piecesOf poly ops)).Nodup) (h3 : 3 ≤ poly.points.length) : HullAnchored poly ops := by
  have e : allPoints (piecesOf poly ops) = poly.points ++ extraPoints ops := by simp [allPoints, piecesOf, Piece.pts, extraPoints]
  have sub : ∀ p ∈ poly.points, p ∈ allPoints (piecesOf poly ops) := fun p hp => by rw [e]; simp [hp]
  have hnp : poly.points.Nodup := by rw [e] at hnd; exact (List.nodup_append.1 hnd).1
  have hne : poly.points ≠ [] := by intro k; rw [k] at h3; simp at h3
  have hne' : allPoints (piecesOf poly ops) ≠ [] := by intro k; rw [e] at k; simp at k; exact hne k.1
  obtain ⟨z, hz⟩ := topLeft_exists hne'
  obtain ⟨c, hc⟩ := topLeft_exists hne
  obtain ⟨q, hq⟩ := cyclic_next hc.1
  obtain ⟨p, hp⟩ := cyclic_prev hc.1
  have neq : ∀ {u v}, (u, v) ∈ cyclicPairs poly.points → u ≠ v := by
    intro u v k e
    subst e
    exact cyclic_no_back' hnp h3 k k
  have hpq : p ≠ q := by
    rintro rfl
    exact cyclic_no_back' hnp h3 hq hp
  have hzc : z = c := by
    by_contra hne
    have hzp : z ≠ p ∧ z ≠ q := by
      constructor
      · rintro rfl; exact hne (hz.unique ⟨sub _ hc.1, fun x hx => by
          have h1 := hc.2 z (cyclic_mem_left hp)
          have h2 := hz.2 c (sub _ hc.1)
          have h4 := hz.2 x hx
          rcases h1 with h1 | h1 <;> rcases h2 with h2 | h2
          · linarith
          · linarith [h2.1]
          · linarith [h1.1]
          · rcases h4 with h4 | h4
            · left; linarith [h1.1]
            · right; exact ⟨by linarith [h1.1, h4.1], by linarith [h1.2, h2.2, h4.2]⟩⟩)
      · rintro rfl; exact hne (hz.unique ⟨sub _ hc.1, fun x hx => by
          have h1 := hc.2 z (cyclic_mem_right hq)
          have h2 := hz.2 c (sub _ hc.1)
          have h4 := hz.2 x hx
          rcases h1 with h1 | h1 <;> rcases h2 with h2 | h2
          · linarith
          · linarith [h2.1]
          · linarith [h1.1]
          · rcases h4 with h4 | h4
            · left; linarith [h1.1]
            · right; exact ⟨by linarith [h1.1, h4.1], by linarith [h1.2, h2.2, h4.2]⟩⟩)
    have kz := hz.2 c (sub _ hc.1)
    have kp := hc.2 p (cyclic_mem_left hp)
    have kq := hc.2 q (cyclic_mem_right hq)
    have rot : ∀ a b d : Point, det2 a b d = det2 b d a := fun a b d => by unfold det2; ring
    rcases h with h | h
    · have h1 := h _ hq z hz.1 hne hzp.2
      have h2 := h _ hp z hz.1 hzp.1 hne
      have h4 := h _ hp q (sub _ (cyclic_mem_right hq)) hpq.symm (neq hq).symm
      simp only at h1 h2 h4
      rw [rot] at h2 h4
      exact no_cone kz kp kq h1 h2 h4
    · have h1 := h _ hq z hz.1 hne hzp.2
      have h2 := h _ hp z hz.1 hzp.1 hne
      have h4 := h _ hp q (sub _ (cyclic_mem_right hq)) hpq.symm (neq hq).symm
      simp only at h1 h2 h4
      rw [rot] at h1
      exact no_cone kz kq kp h2 h1 h4
  subst hzc
  have rot : ∀ a b d : Point, det2 a b d = det2 b d a := fun a b d => by unfold det2; ring
  rcases h with h | h
  · refine ⟨_, hp, .inr ⟨hz, fun v hv v1 v2 => ?_⟩⟩
    have := h _ hp v hv v2 v1
    simp only at this ⊢
    rw [rot] at this; exact this
  · refine ⟨_, hq, .inl ⟨hz, fun v hv v1 v2 => ?_⟩⟩
    have := h _ hq v hv v1 v2
    simp only at this ⊢
    rw [rot] at this; exact this

/-- **C65, crate and repaired program.** -/
theorem C65_crate (a : LooseInput n poly ops) (lo : LeftOpen n (allPoints (piecesOf poly ops))) (tb : TailBelow n (allPoints (piecesOf poly ops)))
    (h3 : 3 ≤ poly.points.length) (h3' : ∀ H ∈ holesOf ops, 3 ≤ H.length) (hu : Uncrossed poly ops poly.points) (hh : HullAnchored poly ops) :
    ((∃ N t s, (∀ fuel, N ≤ fuel → program n fuel poly ops = .ok (t, s)) ∧ SafeResult n poly ops t s ∧ RespectsLoops n poly ops t ∧
        InsideOnly (withArtificial n (allPoints (piecesOf poly ops))) t poly.points ∧ t.result ≠ []) ∨
      (∃ N, ∀ fuel, N ≤ fuel → programG no698 n fuel poly ops = .error (.trapped "698")) ∧ HasFreeDip poly ops) ∧
    ∃ N t s, (∀ fuel, N ≤ fuel → repairedProgram n fuel poly ops = .ok (t, s)) ∧ SafeResult n poly ops t s ∧ RespectsLoops n poly ops t ∧
        InsideOnly (withArtificial n (allPoints (piecesOf poly ops))) t poly.points ∧ t.result ≠ [] := by
  constructor
  · rcases total_gen (g := no698) a.fine a.noTouch a.scan a.up a.ok with ⟨N, t, s, h⟩ | ⟨h, -, hd⟩
    · have h0 := h N (Nat.le_refl _)
      exact .inl ⟨N, t, s, fun fuel hN => programG_program rfl (h fuel hN), a.safe h0, fun L hL hu => C63_one_side a h3 h3' h0 hL hu, C65_inside a lo tb h3 h3' h0 hu hh⟩
    · exact .inr ⟨h, hd⟩
  · rcases total_gen (g := .repaired) a.fine a.noTouch a.scan a.up a.ok with ⟨N, t, s, h⟩ | ⟨-, h, -⟩
    · have h0 := h N (Nat.le_refl _)
      exact ⟨N, t, s, h, a.safe h0, fun L hL hu => C63_one_side a h3 h3' h0 hL hu, C65_inside a lo tb h3 h3' h0 hu hh⟩
    · cases h

/-- **C65, `f64`.** -/
theorem C65_f64 (ov : Rat → Rat) {e : Int} (h : CrossingInput poly ops) (hg : OnGrid e (allPoints (piecesOf poly ops))) (he : -20 ≤ e) (he' : e ≤ 220)
    (hc : ClearOfCorners (allPoints (piecesOf poly ops))) (hu : Uncrossed poly ops poly.points) (k : HullAnchored poly ops) :
    ((∃ N t s, (∀ fuel, N ≤ fuel → program (f64With ov) fuel poly ops = .ok (t, s)) ∧ SafeResult (f64With ov) poly ops t s ∧ RespectsLoops (f64With ov) poly ops t ∧
        InsideOnly (withArtificial (f64With ov) (allPoints (piecesOf poly ops))) t poly.points ∧ t.result ≠ []) ∨
      (∃ N, ∀ fuel, N ≤ fuel → programG no698 (f64With ov) fuel poly ops = .error (.trapped "698")) ∧ HasFreeDip poly ops) ∧
    ∃ N t s, (∀ fuel, N ≤ fuel → repairedProgram (f64With ov) fuel poly ops = .ok (t, s)) ∧ SafeResult (f64With ov) poly ops t s ∧ RespectsLoops (f64With ov) poly ops t ∧
        InsideOnly (withArtificial (f64With ov) (allPoints (piecesOf poly ops))) t poly.points ∧ t.result ≠ [] := by
  have h3 : 3 ≤ (allPoints (piecesOf poly ops)).length := by
    have e : allPoints (piecesOf poly ops) = poly.points ++ extraPoints ops := by simp [allPoints, piecesOf, Piece.pts, extraPoints]
    have := h.three
    rw [e, List.length_append]; omega
  exact C65_crate (h.loose ov hg he he' (.inl hc)) (hg.leftOpen (f64With ov) he he' hc h.distinct (two_points h.three) h.size)
    (hg.tailBelow (f64With ov) he he' hc h.distinct h3) h.three h.three' hu k

/-- **C65, convex polygon, `f64`.**  A strictly convex polygon, all holes and Steiner points strictly inside, the holes may cross each other and themselves: something is reported, and nothing outside the polygon. -/
theorem C65_convex (ov : Rat → Rat) {e : Int} (h : CrossingInput poly ops) (hg : OnGrid e (allPoints (piecesOf poly ops))) (he : -20 ≤ e) (he' : e ≤ 220)
    (hc : ClearOfCorners (allPoints (piecesOf poly ops))) (k : ConvexOutline poly ops) :
    ((∃ N t s, (∀ fuel, N ≤ fuel → program (f64With ov) fuel poly ops = .ok (t, s)) ∧ SafeResult (f64With ov) poly ops t s ∧ RespectsLoops (f64With ov) poly ops t ∧
        InsideOnly (withArtificial (f64With ov) (allPoints (piecesOf poly ops))) t poly.points ∧ t.result ≠ []) ∨
      (∃ N, ∀ fuel, N ≤ fuel → programG no698 (f64With ov) fuel poly ops = .error (.trapped "698")) ∧ HasFreeDip poly ops) ∧
    ∃ N t s, (∀ fuel, N ≤ fuel → repairedProgram (f64With ov) fuel poly ops = .ok (t, s)) ∧ SafeResult (f64With ov) poly ops t s ∧ RespectsLoops (f64With ov) poly ops t ∧
        InsideOnly (withArtificial (f64With ov) (allPoints (piecesOf poly ops))) t poly.points ∧ t.result ≠ [] :=
  C65_f64 ov h hg he he' hc k.uncrossed (k.anchored h.distinct h.three)

end

/-- The polygon with two holes that cross each other. -/
theorem C65_crossed : (∃ N t s, (∀ fuel, N ≤ fuel → program f64 fuel crossedPoly crossedOps = .ok (t, s)) ∧
    InsideOnly (withArtificial f64 (allPoints (piecesOf crossedPoly crossedOps))) t crossedPoly.points ∧ t.result ≠ []) ∧ ConvexOutline crossedPoly crossedOps := by
  have hcv : ConvexOutline crossedPoly crossedOps := by decide +kernel
  refine ⟨?_, hcv⟩
  rcases (C65_convex (saturate f64Max) (e := 0) ⟨by decide, by decide +kernel, by decide +kernel, by decide, by decide⟩ (grid_of_check (by decide +kernel)) (by norm_num) (by norm_num)
    (clear_of_box (x0 := -1) (x1 := 41) (y0 := 0) (y1 := 30) (by decide +kernel) (by decide +kernel)) hcv).1 with ⟨N, t, s, h, -, -, k⟩ | h
  · exact ⟨N, t, s, h, k⟩
  · exact absurd h.2 (by decide +kernel)

/-- The condition cannot be dropped: the input of `C63_outside` is not anchored. -/
example : ¬ HullAnchored slipPoly slipOps := by decide +kernel

end P2T
