import Verif.Spec.Used
import Verif.Props.Nesting
import Verif.Props.Left32

/-!
# C67: which input points are corners of reported triangles
-/

namespace P2T

namespace Labelled
variable {P R : Nat → Point} {size left right : Nat} {M : Store} {nodes : List Node} {L0 : List Nat} {Ls : List (List Nat)} {F : List Nat → Nat → Rat}

/-- The label of the triangles at a corner off a polyline. -/
theorem at_point (h : Labelled P R size left right M nodes Ls F) (close : Close P R size) (inj : ∀ i j, i < size → j < size → R i = R j → i = j)
    {L : List Nat} (hL : L ∈ Ls) {x : Nat} (hx : x ∉ L) (off : ∀ e ∈ cyclicPairs (L.map R), ¬ OnSeg e.1 e.2 (R x))
    {t : Fin M.length} {i : Fin 3} (ht : M[t].points.get i = x) : F L t ≠ 0 ↔ InsidePolyline (L.map R) (R x) := by
  have e := h.label_at close inj hL (fun v hv => (h.along L hL).lt h.mesh.cons hv) hx (fun e he => by
    refine off (R e.1, R e.2) ?_
    rw [cyclic_map]; exact List.mem_map.2 ⟨e, he, rfl⟩) ht
  obtain ⟨o1, o2⟩ := h.ne_zero hL t
  constructor
  · intro hne
    obtain ⟨k, hk⟩ := o1 hne
    exact odd_inside (by rw [← e, hk])
  · intro hi hz
    rw [hz] at e
    exact zero_outside e.symm hi

/-- Beside a polyline the label is zero. -/
theorem beside_zero (h : Labelled P R size left right M nodes Ls F) (close : Close P R size) (inj : ∀ i j, i < size → j < size → R i = R j → i = j)
    {L : List Nat} (hL : L ∈ Ls) {v : Nat} (out : (∀ u ∈ L, (R v).x < (R u).x) ∨ ∀ u ∈ L, (R u).x < (R v).x)
    {t : Fin M.length} {i : Fin 3} (ht : M[t].points.get i = v) : F L t = 0 := by
  by_contra hne
  have hvL : v ∉ L := by
    intro k
    rcases out with q | q
    · exact lt_irrefl _ (q v k)
    · exact lt_irrefl _ (q v k)
  have out : (∀ p ∈ L.map R, (R v).x < p.x) ∨ ∀ p ∈ L.map R, p.x < (R v).x := by
    rcases out with k | k
    · left; intro p hp; obtain ⟨u, hu, rfl⟩ := List.mem_map.1 hp; exact k u hu
    · right; intro p hp; obtain ⟨u, hu, rfl⟩ := List.mem_map.1 hp; exact k u hu
  have := (h.at_point close inj hL hvL (fun e he ⟨s, s0, s1, e1, _⟩ => by
    have m1 := cyclic_mem_left he
    have m2 := cyclic_mem_right he
    rcases out with k | k
    · have k1 := k _ m1
      have k2 := k _ m2
      have := mul_nonneg s0 (show 0 ≤ e.2.x - (R v).x by linarith)
      have := mul_nonneg (show 0 ≤ 1 - s by linarith) (show 0 ≤ e.1.x - (R v).x by linarith)
      rcases eq_or_lt_of_le s0 with q | q
      · rw [← q] at e1; linarith
      · have := mul_pos q (show 0 < e.2.x - (R v).x by linarith)
        linarith
    · have k1 := k _ m1
      have k2 := k _ m2
      have := mul_nonneg (show 0 ≤ 1 - s by linarith) (show 0 ≤ (R v).x - e.1.x by linarith)
      rcases eq_or_lt_of_le s0 with q | q
      · rw [← q] at e1; linarith
      · have := mul_pos q (show 0 < (R v).x - e.2.x by linarith)
        linarith) ht).1 hne
  obtain ⟨⟨p, p1, p2⟩, p', p1', p2'⟩ := inside_range' this
  rcases out with k | k
  · have := k p p1; linarith
  · have := k p' p1'; linarith

/-- At a corner of a polyline that is inside another one there is a triangle outside the first. -/
theorem touch_out (h : Labelled P R size left right M nodes Ls F) {L L' : List Nat} (hL : L ∈ Ls) (hL' : L' ∈ Ls) {x : Nat} (hx : x ∈ L) (hx' : x ∉ L')
    (hin : ∀ (t : Fin M.length) (i : Fin 3), M[t].points.get i = x → F L' t ≠ 0) : ∃ (t : Fin M.length) (i : Fin 3), M[t].points.get i = x ∧ F L t = 0 := by
  obtain ⟨y, hy⟩ := cyclic_next hx
  obtain ⟨k, hk⟩ := h.edge_jump hL hy
  have at1 : ∀ g : HE M, g.src = x ∨ g.dst = x → ∃ j : Fin 3, M[g.1].points.get j = x := by
    intro g hg
    rcases hg with e | e
    · exact ⟨_, e⟩
    · exact ⟨_, e⟩
  have kx : k.src = x ∨ k.dst = x := by rcases hk with ⟨⟨e, -⟩, -⟩ | ⟨⟨-, e⟩, -⟩; exacts [.inl e, .inr e]
  have kj : k.jump (F L) ≠ 0 := by rcases hk with ⟨-, e⟩ | ⟨-, e⟩ <;> rw [e] <;> norm_num
  obtain ⟨i, hi⟩ := at1 k kx
  by_cases hz : F L k.1 = 0
  · exact ⟨k.1, i, hi, hz⟩
  obtain ⟨σ, hσ, hval, -⟩ := h.jordan hL
  cases hn : k.nbr with
  | none =>
    have n1 : (k.src, k.dst) ∉ cyclicPairs L' := fun z => by
      rcases kx with e | e
      · exact hx' (e ▸ cyclic_mem_left z)
      · exact hx' (e ▸ cyclic_mem_right z)
    have n2 : (k.dst, k.src) ∉ cyclicPairs L' := fun z => by
      rcases kx with e | e
      · exact hx' (e ▸ cyclic_mem_right z)
      · exact hx' (e ▸ cyclic_mem_left z)
    exact absurd ((h.off_edge hL' k n1 n2).1 hn) (hin k.1 i hi)
  | some y =>
    obtain ⟨g, y1, -, -, y4, y5⟩ := HE.twin h.mesh.cons k (by rw [hn]; simp)
    rw [hn] at y1; cases y1
    obtain ⟨j, hj⟩ := at1 g (by rw [y4, y5]; exact kx.symm)
    refine ⟨g.1, j, hj, ?_⟩
    by_contra hg
    unfold HE.jump at kj
    rw [hn] at kj
    have v1 := (hval k.1).resolve_right hz
    have v2 := (hval g.1).resolve_right hg
    simp only [v1, v2, sub_self] at kj
    exact kj rfl

/-- What the search finds, in terms of the labels. -/
theorem found_iff (h : Labelled P R size left right M nodes (L0 :: Ls) F) {s : Nat} {S : Tri} {i : Fin 3} (hS : M[s]? = some S)
    (he : (S.from i, S.to i) ∈ cyclicPairs L0 ∨ (S.to i, S.from i) ∈ cyclicPairs L0) (hF : F L0 s = flow L0 (S.from i) (S.to i))
    (hz : ∀ L ∈ Ls, F L s = 0) (t : Fin M.length) : Reach M s t ↔ F L0 t ≠ 0 ∧ ∀ L ∈ Ls, F L t = 0 := by
  constructor
  · intro hr
    have r0 := h.reach_same hr (L := L0) (by simp)
    refine ⟨?_, fun L hL => by rw [← h.reach_same hr (L := L) (by simp [hL])]; exact hz L hL⟩
    rw [← r0, hF]
    have nd := h.disj.nodup' (L := L0) (by simp)
    have h3 := h.disj.three L0 (by simp)
    rcases he with he | he
    · rw [flow_one nd h3 he]; norm_num
    · rw [flow_swap, flow_one nd h3 he]; norm_num
  · rintro ⟨h1, h2⟩
    refine h.perturbed'.complete (L0 := L0) (by simp) hS he hF (h.chi_centroid t) ((h.ne_zero (by simp) t).1 h1) fun L hL hne => ?_
    rcases List.mem_cons.1 hL with e | hL
    · exact absurd e hne
    · exact ⟨0, by rw [h2 L hL]; norm_num⟩

/-- At which corners there is a triangle inside the polyline `L0` and outside all others. -/
theorem used_iff (h : Labelled P R size left right M nodes (L0 :: Ls) F) (plane : Plane P size left right M nodes F) (close : Close P R size)
    (inj : ∀ i j, i < size → j < size → R i = R j → i = j) {x : Nat} (hx : ∃ (t : Fin M.length) (i : Fin 3), M[t].points.get i = x)
    (off : ∀ L ∈ L0 :: Ls, x ∉ L → ∀ e ∈ cyclicPairs (L.map R), ¬ OnSeg e.1 e.2 (R x)) :
    (∃ (t : Fin M.length) (i : Fin 3), M[t].points.get i = x ∧ F L0 t ≠ 0 ∧ ∀ L ∈ Ls, F L t = 0) ↔
      (x ∈ L0 ∨ InsidePolyline (L0.map R) (R x)) ∧ ∀ L ∈ Ls, x ∉ L → ¬ InsidePolyline (L.map R) (R x) := by
  constructor
  · rintro ⟨t, i, hi, h0, hz⟩
    refine ⟨?_, fun L hL hxL k => ?_⟩
    · by_cases hx0 : x ∈ L0
      · exact .inl hx0
      · exact .inr ((h.at_point close inj (by simp) hx0 (off L0 (by simp) hx0) hi).1 h0)
    · exact (h.at_point close inj (by simp [hL]) hxL (off L (by simp [hL]) hxL) hi).2 k (hz L hL)
  · rintro ⟨h0, hz⟩
    have zero : ∀ L ∈ Ls, x ∉ L → ∀ (t : Fin M.length) (i : Fin 3), M[t].points.get i = x → F L t = 0 := by
      intro L hL hxL t i hi
      by_contra c
      exact hz L hL hxL ((h.at_point close inj (by simp [hL]) hxL (off L (by simp [hL]) hxL) hi).1 c)
    by_cases hx0 : x ∈ L0
    · have loop : Loop M L0 := ⟨h.along L0 (by simp), h.disj.nodup' (by simp), by have := h.disj.three L0 (by simp); omega⟩
      obtain ⟨t, i, hi, hne⟩ := plane.touch loop (h.disj.three L0 (by simp)) hx0
      exact ⟨t, i, hi, hne, fun L hL => zero L hL (h.others hL hx0) t i hi⟩
    have hin := h0.resolve_left hx0
    have ne0 : ∀ (t : Fin M.length) (i : Fin 3), M[t].points.get i = x → F L0 t ≠ 0 := fun t i hi =>
      (h.at_point close inj (by simp) hx0 (off L0 (by simp) hx0) hi).2 hin
    by_cases hex : ∃ L ∈ Ls, x ∈ L
    · obtain ⟨L, hL, hxL⟩ := hex
      obtain ⟨t, i, hi, he⟩ := h.touch_out (L := L) (L' := L0) (by simp [hL]) (by simp) hxL hx0 ne0
      refine ⟨t, i, hi, ne0 t i hi, fun L' hL' => ?_⟩
      by_cases hxL' : x ∈ L'
      · rw [h.disj.same (L := L') (L' := L) (by simp [hL']) (by simp [hL]) hxL' hxL]; exact he
      · exact zero L' hL' hxL' t i hi
    · push Not at hex
      obtain ⟨t, i, hi⟩ := hx
      exact ⟨t, i, hi, ne0 t i hi, fun L hL => zero L hL (hex L hL) t i hi⟩

end Labelled

section
variable {D : Type} {n : Num} {fuel : Nat} {poly : Source D} {ops : List (BuildOp D)} {t : Triangles D} {s : St} {g : Trap} [hg : g.Tame]

/-- No input point is on an edge of a polyline it is not a corner of. -/
theorem points_off (hf : FineInput n (allPoints (piecesOf poly ops))) (hp : NoTouch poly ops) (hok : ∀ p ∈ piecesOf poly ops, p.Ok)
    {L : List Nat} (hL : L ∈ polyIds 0 (piecesOf poly ops)) {v : Nat} (hv : v < (allPoints (piecesOf poly ops)).length) (hvL : v ∉ L) :
    ∀ e ∈ cyclicPairs (L.map (ptOf (runPts n poly ops))), ¬ OnSeg e.1 e.2 (ptOf (runPts n poly ops) v) := by
  have len : (runPts n poly ops).length = (allPoints (piecesOf poly ops)).length + 2 := runPts_length
  intro x hx on
  rw [cyclic_map] at hx
  obtain ⟨⟨a, b⟩, hab, rfl⟩ := List.mem_map.1 hx
  have la := (polyIds_bound L hL a (cyclic_mem_left hab)).2
  have lb := (polyIds_bound L hL b (cyclic_mem_right hab)).2
  have na : a ≠ v := by rintro rfl; exact hvL (cyclic_mem_left hab)
  have nv : b ≠ v := by rintro rfl; exact hvL (cyclic_mem_right hab)
  have inj := runPts_inj hf
  have hE : InEdge poly ops a b := pieceEdges_iff.2 (.inl (mem_allEdges.2 ⟨L, hL, hab⟩))
  obtain ⟨r, r0, r1, ex, ey⟩ := on
  have e : ptOf (runPts n poly ops) v = mix r (ptOf (runPts n poly ops) a) (ptOf (runPts n poly ops) b) := by
    generalize ptOf (runPts n poly ops) v = p at *
    cases p; simp only [mix, Point.mk.injEq]; exact ⟨ex, ey⟩
  rcases r0.lt_or_eq with r0 | rfl
  · rcases r1.lt_or_eq with r1 | rfl
    · exact loose_run hf hp hok hE (by omega) ⟨r, r0, r1, e⟩
    · rw [mix_one] at e; exact nv (inj _ _ (by omega) (by omega) e.symm)
  · rw [mix_zero] at e; exact na (inj _ _ (by omega) (by omega) e.symm)

/-- **C67.**  Edges that do not cross, no input point inside an edge, any arrangement of the outlines (C66): the corners of the reported triangles are exactly the input points on or inside the outline
with the leftmost input point that are inside no other outline. -/
theorem C67_used (a : LooseInput n poly ops) (ap : EdgesApart poly ops) (h3 : 3 ≤ poly.points.length) (h3' : ∀ H ∈ holesOf ops, 3 ≤ H.length)
    (lo : LeftOpen n (allPoints (piecesOf poly ops))) (h : programG g n fuel poly ops = .ok (t, s)) : UsesPoints n poly ops t := by
  have hc := C38_constraints_honoured a.fine a.noTouch a.scan a.up ap h
  obtain ⟨M, nodes, Ls, P, F, a0, b, l, lab, hids1, hids2, fb, hnodes, he0, hb1, hx, last, hst, plane, close, hpi, hfr⟩ := final_setup' a.fine h hc h3 h3'
  obtain ⟨b', R, k1, k2, k3⟩ := final_left_gen a lo h
  have eb : b' = b.pid := by
    rw [k1, hnodes] at hfr
    simp only [List.map_cons, List.cons.injEq] at hfr
    exact hfr.2.1.symm
  subst eb
  have el : leftId poly ops = (allPoints (piecesOf poly ops)).length := rfl
  have len : (runPts n poly ops).length = (allPoints (piecesOf poly ops)).length + 2 := runPts_length
  have hids : (List.range poly.points.length :: Ls).map (·.map (ptOf (runPts n poly ops))) = poly.points :: holesOf ops := by
    rw [List.map_cons, hids1, hids2]
  intro L hL z hz hzT p
  rw [← hids] at hL
  obtain ⟨I, hI, rfl⟩ := List.mem_map.1 hL
  have bound : ∀ J ∈ List.range poly.points.length :: Ls, ∀ v ∈ J, v < (allPoints (piecesOf poly ops)).length := by
    intro J hJ v hv
    have := (polyIds_bound J (by rw [hpi]; exact hJ) v hv).2
    omega
  have inj : ∀ i j, i < (allPoints (piecesOf poly ops)).length → j < (allPoints (piecesOf poly ops)).length → ptOf (runPts n poly ops) i = ptOf (runPts n poly ops) j → i = j :=
    fun i j hi hj e => runPts_inj a.fine i j (by omega) (by omega) e
  have hbI : b.pid ∈ I := by
    obtain ⟨v, hv, rfl⟩ := List.mem_map.1 hz
    rw [← inj v b.pid (bound I hI v hv) k2 (hzT.unique k3)]; exact hv
  have pm := List.perm_cons_erase hI
  have lab' := lab.perm pm
  rcases hst with ⟨-, hst⟩ | ⟨start, hst, fl⟩
  · refine (lab'.start_some fb hnodes (fun k => ?_) (by omega) (by omega) last hbI hst).elim
    have := bound I hI _ k
    omega
  obtain ⟨S, i, hS, he, hF, hz⟩ := lab'.start_at_loop fb hnodes last (by omega) hbI hst
  have found : ∀ u : Fin M.length, u.1 ∈ t.result ↔ F I u ≠ 0 ∧ ∀ L ∈ (List.range poly.points.length :: Ls).erase I, F L u = 0 := fun u => by
    rw [fl.iff u, lab'.found_iff hS he hF hz u]
  have corner : ∀ v, (∃ i ∈ t.result, ∃ T, t.triangles[i]? = some T ∧ ∃ k, T.points.get k = v) ↔
      ∃ (u : Fin M.length) (i : Fin 3), M[u].points.get i = v ∧ F I u ≠ 0 ∧ ∀ L ∈ (List.range poly.points.length :: Ls).erase I, F L u = 0 := by
    intro v
    constructor
    · rintro ⟨i, hi, T, hT, k, hk⟩
      have hl' : i < M.length := by rw [← fl.same.1]; exact (List.getElem?_eq_some_iff.1 hT).1
      have e := (fl.same.2 i _ T (List.getElem?_eq_getElem hl') hT).1
      exact ⟨⟨i, hl'⟩, k, by show M[i].points.get k = v; rw [← e]; exact hk, (found ⟨i, hl'⟩).1 hi⟩
    · rintro ⟨u, k, hk, hu⟩
      have hl' : u.1 < t.triangles.length := by rw [fl.same.1]; exact u.2
      have e := (fl.same.2 u.1 _ _ (List.getElem?_eq_getElem u.2) (List.getElem?_eq_getElem hl')).1
      exact ⟨u.1, (found u).2 hu, _, List.getElem?_eq_getElem hl', k, by rw [e]; exact hk⟩
  have off := fun J (hJ : J ∈ List.range poly.points.length :: Ls) v (hv : v < (allPoints (piecesOf poly ops)).length) (hvJ : v ∉ J) =>
    points_off a.fine a.noTouch a.ok (L := J) (by rw [hpi]; exact hJ) hv hvJ
  have used : ∀ v, v < leftId poly ops → ∃ (t : Fin M.length) (i : Fin 3), M[t].points.get i = v := by
    intro v hv
    obtain ⟨T, hT, i, hi⟩ := (C30_all_points_used a.fine h).1 v hv
    obtain ⟨T', hT', e, -⟩ := fl.same.symm.tri hT
    obtain ⟨j, hj, rfl⟩ := List.getElem_of_mem hT'
    exact ⟨⟨j, hj⟩, i, by show M[j].points.get i = v; rw [e]; exact hi⟩
  have main : ∀ v, v < (allPoints (piecesOf poly ops)).length → ((∃ i ∈ t.result, ∃ T, t.triangles[i]? = some T ∧ ∃ k, T.points.get k = v) ↔
      OfLoopRegion poly ops (I.map (ptOf (runPts n poly ops))) (ptOf (runPts n poly ops) v)) := by
    intro v hv
    rw [corner v, lab'.used_iff plane close (runPts_inj a.fine) (used v hv) (fun J hJ hvJ => off J (pm.mem_iff.2 hJ) v hv hvJ)]
    have mem : ∀ J ∈ List.range poly.points.length :: Ls, (ptOf (runPts n poly ops) v ∈ J.map (ptOf (runPts n poly ops)) ↔ v ∈ J) := by
      intro J hJ
      constructor
      · intro k
        obtain ⟨w, hw, e⟩ := List.mem_map.1 k
        rw [← inj w v (bound J hJ w hw) hv e]; exact hw
      · exact fun k => List.mem_map.2 ⟨v, k, rfl⟩
    unfold OfLoopRegion
    rw [mem I hI]
    refine and_congr_right fun _ => ?_
    constructor
    · intro k H hH hne hvH
      rw [← hids] at hH
      obtain ⟨J, hJ, rfl⟩ := List.mem_map.1 hH
      exact k J ((List.mem_erase_of_ne (fun e => hne (by rw [e]))).2 hJ) fun q => hvH ((mem J hJ).2 q)
    · intro k J hJ hvJ
      have hJ' := List.mem_of_mem_erase hJ
      refine k _ (by rw [← hids]; exact List.mem_map.2 ⟨J, hJ', rfl⟩) (fun e => ?_) fun q => hvJ ((mem J hJ').1 q)
      obtain ⟨w, hw, ew⟩ := List.mem_map.1 (e.symm ▸ List.mem_map.2 ⟨b.pid, hbI, rfl⟩ : ptOf (runPts n poly ops) b.pid ∈ J.map (ptOf (runPts n poly ops)))
      have := inj w b.pid (bound J hJ' w hw) k2 ew
      subst this
      exact lab'.others hJ hbI hw
  constructor
  · rintro ⟨i, hi, T, hT, k, rfl⟩
    have hv : T.points.get k < (allPoints (piecesOf poly ops)).length := by
      by_contra hge
      obtain ⟨u, j, hj, hne, -⟩ := (corner _).1 ⟨i, hi, T, hT, k, rfl⟩
      have lt : T.points.get k < (runPts n poly ops).length := by rw [← hj]; exact lab.mesh.cons.corners M[u] (by simp) j
      refine hne (lab.beside_zero close (runPts_inj a.fine) hI (v := T.points.get k) ?_ hj)
      have enc : ∀ v ∈ I, (ptOf (runPts n poly ops) (leftId poly ops)).x < (ptOf (runPts n poly ops) v).x ∧ (ptOf (runPts n poly ops) v).x < (ptOf (runPts n poly ops) (leftId poly ops + 1)).x := by
        intro v hv
        have hv := bound I hI v hv
        have := a.fine.enclosed (ptOf (runPts n poly ops) v) (by rw [input_point hv]; exact List.getElem_mem hv)
        exact ⟨this.1, this.2.1⟩
      rcases (show T.points.get k = leftId poly ops ∨ T.points.get k = leftId poly ops + 1 by omega) with e | e
      · rw [e]; exact .inl fun v hv => (enc v hv).1
      · rw [e]; exact .inr fun v hv => (enc v hv).2
    refine ⟨?_, (main _ hv).1 ⟨i, hi, T, hT, k, rfl⟩⟩
    show ptOf (runPts n poly ops) _ ∈ _
    rw [input_point hv]; exact List.getElem_mem hv
  · rintro ⟨hp, hr⟩
    obtain ⟨v, hv, rfl⟩ := List.getElem_of_mem hp
    rw [← input_point (n := n) hv] at hr ⊢
    obtain ⟨i, hi, T, hT, k, hk⟩ := (main v hv).2 hr
    exact ⟨i, hi, T, hT, k, by rw [hk]⟩

/-- **C67, as in the crate.**  The crate's program (or it stops at the crate's known panic, which needs a free dip, C61), and the repaired program always. -/
theorem C67_crate (a : LooseInput n poly ops) (ap : EdgesApart poly ops) (h3 : 3 ≤ poly.points.length) (h3' : ∀ H ∈ holesOf ops, 3 ≤ H.length)
    (lo : LeftOpen n (allPoints (piecesOf poly ops))) :
    ((∃ N t s, (∀ fuel, N ≤ fuel → program n fuel poly ops = .ok (t, s)) ∧ UsesPoints n poly ops t) ∨
      (∃ N, ∀ fuel, N ≤ fuel → programG no698 n fuel poly ops = .error (.trapped "698")) ∧ HasFreeDip poly ops) ∧
    ∃ N t s, (∀ fuel, N ≤ fuel → repairedProgram n fuel poly ops = .ok (t, s)) ∧ UsesPoints n poly ops t := by
  constructor
  · rcases total_gen (g := no698) a.fine a.noTouch a.scan a.up a.ok with ⟨N, t, s, h⟩ | ⟨h, -, hd⟩
    · have h0 := h N (Nat.le_refl _)
      exact .inl ⟨N, t, s, fun fuel hN => programG_program rfl (h fuel hN), C67_used a ap h3 h3' lo h0⟩
    · exact .inr ⟨h, hd⟩
  · rcases total_gen (g := .repaired) a.fine a.noTouch a.scan a.up a.ok with ⟨N, t, s, h⟩ | ⟨-, h, -⟩
    · have h0 := h N (Nat.le_refl _)
      exact ⟨N, t, s, h, C67_used a ap h3 h3' lo h0⟩
    · cases h

/-- **C67, `f64`.**  With conditions on the exact coordinates only, for any rounding beyond the largest number. -/
theorem C67_f64 (ov : Rat → Rat) {e : Int} (h : CrossingInput poly ops) (ap : EdgesApart poly ops) (hg : OnGrid e (allPoints (piecesOf poly ops))) (he : -20 ≤ e) (he' : e ≤ 220)
    (hc : ClearOfCorners (allPoints (piecesOf poly ops))) :
    ((∃ N t s, (∀ fuel, N ≤ fuel → program (f64With ov) fuel poly ops = .ok (t, s)) ∧ UsesPoints (f64With ov) poly ops t) ∨
      (∃ N, ∀ fuel, N ≤ fuel → programG no698 (f64With ov) fuel poly ops = .error (.trapped "698")) ∧ HasFreeDip poly ops) ∧
    ∃ N t s, (∀ fuel, N ≤ fuel → repairedProgram (f64With ov) fuel poly ops = .ok (t, s)) ∧ UsesPoints (f64With ov) poly ops t :=
  C67_crate (h.loose ov hg he he' (.inl hc)) ap h.three h.three' (hg.leftOpen (f64With ov) he he' hc h.distinct (two_points h.three) h.size)

/-- **C67, `f32`.** -/
theorem C67_f32 (ov : Rat → Rat) {e M : Int} (h : CrossingInput poly ops) (ap : EdgesApart poly ops) (hg : OnGridUpTo M e (allPoints (piecesOf poly ops))) (hM : 1 ≤ M) (hM' : M ≤ 2 ^ 10)
    (he : -8 ≤ e) (he' : e ≤ 38) (hc : CornersClear32 M e (allPoints (piecesOf poly ops))) :
    ((∃ N t s, (∀ fuel, N ≤ fuel → program (f32With ov) fuel poly ops = .ok (t, s)) ∧ UsesPoints (f32With ov) poly ops t) ∨
      (∃ N, ∀ fuel, N ≤ fuel → programG no698 (f32With ov) fuel poly ops = .error (.trapped "698")) ∧ HasFreeDip poly ops) ∧
    ∃ N t s, (∀ fuel, N ≤ fuel → repairedProgram (f32With ov) fuel poly ops = .ok (t, s)) ∧ UsesPoints (f32With ov) poly ops t := by
  obtain ⟨h1, h2, -⟩ := h.left32 ov hg hM hM' he he' hc
  exact C67_crate h1 ap h.three h.three' h2

/-- The points to be used for an ordinary input: all corners of the polygon and of the holes, and the Steiner points of the region. -/
theorem used_ordinary (hso : SteinersOff poly ops)
    (hin : ∀ H ∈ holesOf ops, ∀ p ∈ H, InsidePolyline poly.points p)
    (hout : ∀ H ∈ holesOf ops, ∀ H' ∈ poly.points :: holesOf ops, ∀ p ∈ H', p ∉ H → ¬ InsidePolyline H p) (p : Point)
    (ne : ∀ H ∈ holesOf ops, H ≠ poly.points) :
    (p ∈ allPoints (piecesOf poly ops) ∧ OfLoopRegion poly ops poly.points p) ↔
      p ∈ poly.points ∨ (∃ H ∈ holesOf ops, p ∈ H) ∨ (p ∈ steinersOf ops ∧ InRegion poly ops p) := by
  rw [mem_allPoints]
  have off : p ∈ steinersOf ops → ∀ H ∈ poly.points :: holesOf ops, p ∉ H := by
    intro hp H hH hpH
    obtain ⟨q, hq⟩ := cyclic_next hpH
    exact hso H hH p hp _ hq ⟨0, le_rfl, zero_le_one, by ring, by ring⟩
  constructor
  · rintro ⟨⟨H, hH, hp⟩ | hp, h1, h2⟩
    · rcases List.mem_cons.1 hH with rfl | hH
      · exact .inl hp
      · exact .inr (.inl ⟨H, hH, hp⟩)
    · refine .inr (.inr ⟨hp, h1.resolve_left (off hp _ (by simp)), fun H hH => h2 H (by simp [hH]) (ne H hH) (off hp H (by simp [hH]))⟩)
  · rintro (hp | ⟨H, hH, hp⟩ | ⟨hp, h1, h2⟩)
    · refine ⟨.inl ⟨_, by simp, hp⟩, .inl hp, fun H hH hne hpH => ?_⟩
      exact hout H ((List.mem_cons.1 hH).resolve_left hne) _ (by simp) p hp hpH
    · refine ⟨.inl ⟨H, by simp [hH], hp⟩, .inr (hin H hH p hp), fun H' hH' hne hpH' => ?_⟩
      exact hout H' ((List.mem_cons.1 hH').resolve_left hne) H (by simp [hH]) p hp hpH'
    · exact ⟨.inr hp, .inr h1, fun H hH hne _ => h2 H ((List.mem_cons.1 hH).resolve_left hne)⟩

/-- **C67, ordinary input.**  The polygon has the leftmost input point, the corners of the holes are inside the polygon, and no corner is inside a hole it does not belong to:
every corner of the polygon and of the holes is a corner of a reported triangle, and the Steiner points that are used are those of the region. -/
theorem C67_ordinary (a : LooseInput n poly ops) (h3 : 3 ≤ poly.points.length) (h3' : ∀ H ∈ holesOf ops, 3 ≤ H.length) (u : UsesPoints n poly ops t)
    {z : Point} (hz : z ∈ poly.points) (hzT : TopLeft (allPoints (piecesOf poly ops)) z)
    (hin : ∀ H ∈ holesOf ops, ∀ p ∈ H, InsidePolyline poly.points p)
    (hout : ∀ H ∈ holesOf ops, ∀ H' ∈ poly.points :: holesOf ops, ∀ p ∈ H', p ∉ H → ¬ InsidePolyline H p) (p : Point) :
    ReportedCorner (withArtificial n (allPoints (piecesOf poly ops))) t p ↔
      p ∈ poly.points ∨ (∃ H ∈ holesOf ops, p ∈ H) ∨ (p ∈ steinersOf ops ∧ InRegion poly ops p) := by
  rw [u poly.points (by simp) z hz hzT p]
  refine used_ordinary (steiners_off a.fine a.noTouch a.ok h3 h3') hin hout p fun H hH e => ?_
  have hd := a.fine.distinct
  have e1 : allPoints (piecesOf poly ops) = poly.points ++ extraPoints ops := by simp [allPoints, piecesOf, Piece.pts, extraPoints]
  rw [e1, List.nodup_append] at hd
  exact hd.2.2 z hz z (holes_extra hH z (e ▸ hz)) rfl

end

/-! ## Examples -/

/-- The polygon with a hole, an island in it, a hole beside the polygon and a Steiner point beside it (C66): the corners of the reported triangles are the corners of the polygon and of the hole in it;
the island, the hole beside the polygon and the Steiner point are not used. -/
theorem C67_island : ∃ N t s, (∀ fuel, N ≤ fuel → program f64 fuel nestPoly nestOps = .ok (t, s)) ∧
    ∀ p, ReportedCorner (withArtificial f64 (allPoints (piecesOf nestPoly nestOps))) t p ↔
      p ∈ [⟨0, 1⟩, ⟨40, 0⟩, ⟨41, 31⟩, ⟨1, 30⟩, ⟨5, 5⟩, ⟨30, 6⟩, ⟨28, 25⟩, ⟨6, 24⟩] := by
  have hin : CrossingInput nestPoly nestOps := ⟨by decide, by decide +kernel, by decide +kernel, by decide, by decide⟩
  rcases (C67_f64 (saturate f64Max) (e := 0) hin (by decide +kernel) (grid_of_check (by decide +kernel)) (by norm_num) (by norm_num)
      (clear_of_box (x0 := 0) (x1 := 70) (y0 := 0) (y1 := 31) (by decide +kernel) (by decide +kernel))).1 with ⟨N, t, s, h, k⟩ | h
  · refine ⟨N, t, s, h, fun p => ?_⟩
    refine (k nestPoly.points (by simp) ⟨0, 1⟩ (by decide) (by decide +kernel) p).trans ?_
    have all : ∀ p ∈ allPoints (piecesOf nestPoly nestOps), OfLoopRegion nestPoly nestOps nestPoly.points p ↔
        p ∈ [⟨0, 1⟩, ⟨40, 0⟩, ⟨41, 31⟩, ⟨1, 30⟩, ⟨5, 5⟩, ⟨30, 6⟩, ⟨28, 25⟩, ⟨6, 24⟩] := by decide +kernel
    have sub : ∀ p ∈ [⟨0, 1⟩, ⟨40, 0⟩, ⟨41, 31⟩, ⟨1, 30⟩, ⟨5, 5⟩, ⟨30, 6⟩, ⟨28, 25⟩, ⟨6, 24⟩], p ∈ allPoints (piecesOf nestPoly nestOps) := by decide +kernel
    exact ⟨fun q => (all p q.1).1 q.2, fun q => ⟨sub p q, (all p (sub p q)).2 q⟩⟩
  · exact absurd h.2 (by decide +kernel)

/-- A polygon with a hole and three Steiner points, in the region, in the hole and beside the polygon. -/
def plainPoly : Source Unit := Source.ofPoints [⟨0, 1⟩, ⟨40, 0⟩, ⟨41, 31⟩, ⟨1, 30⟩]
def plainOps : List (BuildOp Unit) := [.hole (Source.ofPoints [⟨5, 5⟩, ⟨30, 6⟩, ⟨28, 25⟩, ⟨6, 24⟩]), .steinerPoint ⟨35, 17⟩ (), .steinerPoint ⟨15, 16⟩ (), .steinerPoint ⟨50, 18⟩ ()]

/-- All corners of the outlines and the Steiner point of the region are used, the other Steiner points are not. -/
theorem C67_plain : ∃ N t s, (∀ fuel, N ≤ fuel → program f64 fuel plainPoly plainOps = .ok (t, s)) ∧
    (∀ p, ReportedCorner (withArtificial f64 (allPoints (piecesOf plainPoly plainOps))) t p ↔
      p ∈ plainPoly.points ∨ (∃ H ∈ holesOf plainOps, p ∈ H) ∨ (p ∈ steinersOf plainOps ∧ InRegion plainPoly plainOps p)) ∧
    (steinersOf plainOps).filter (fun p => decide (InRegion plainPoly plainOps p)) = [⟨35, 17⟩] := by
  have hin : CrossingInput plainPoly plainOps := ⟨by decide, by decide +kernel, by decide +kernel, by decide, by decide⟩
  have hg : OnGrid 0 (allPoints (piecesOf plainPoly plainOps)) := grid_of_check (by decide +kernel)
  have hc : ClearOfCorners (allPoints (piecesOf plainPoly plainOps)) := clear_of_box (x0 := 0) (x1 := 50) (y0 := 0) (y1 := 31) (by decide +kernel) (by decide +kernel)
  rcases (C67_f64 (saturate f64Max) hin (by decide +kernel) hg (by norm_num) (by norm_num) hc).1 with ⟨N, t, s, h, k⟩ | h
  · refine ⟨N, t, s, h, ?_, by decide +kernel⟩
    exact C67_ordinary (hin.loose (saturate f64Max) hg (by norm_num) (by norm_num) (.inl hc)) hin.three hin.three' k (z := ⟨0, 1⟩) (by decide) (by decide +kernel) (by decide +kernel) (by decide +kernel)
  · exact absurd h.2 (by decide +kernel)

end P2T
