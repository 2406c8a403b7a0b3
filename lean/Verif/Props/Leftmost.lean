import Verif.Props.Outside
import Verif.Proofs.LeftFront
import Verif.Proofs.LeftOpen
import Verif.Props.Steiner
import Verif.Spec.Crossing

/-!
# C60: when the result is empty
-/

namespace P2T

section
variable {D : Type} {n : Num} {fuel : Nat} {poly : Source D} {ops : List (BuildOp D)} {t : Triangles D} {s : St} {g : Trap} [hg : g.Tame]

theorem TopLeft.unique {pts : List Point} {a b : Point} (h : TopLeft pts a) (k : TopLeft pts b) : a = b := by
  have h1 := h.2 b k.1
  have h2 := k.2 a h.1
  have ex : a.x = b.x := by rcases h1 with h1 | h1 <;> rcases h2 with h2 | h2 <;> linarith [h1, h2]
  have ey : a.y = b.y := by
    rcases h1 with h1 | h1
    · linarith
    · rcases h2 with h2 | h2
      · linarith
      · linarith [h1.2, h2.2]
  cases a; cases b; simp_all

theorem StartOf.edge {M : Store} {p : Nat} : ∀ {o r : Option Nat}, StartOf M p o r → ∀ start, r = some start → ∃ T ∈ M, ∃ i, T.isConstrained i = true ∧ (T.from i = p ∨ T.to i = p)
  | _, _, .out, _, h => by cases h
  | _, _, .found (T := T) hT hc, _, _ => by
    refine ⟨T, List.mem_of_getElem? hT, ?_⟩
    unfold Tri.constrainedEdgeCw at hc
    split at hc <;> rename_i k
    · refine ⟨1, by simpa [Tri.isConstrained, V3.get] using hc, ?_⟩
      revert k; unfold Tri.pointIndex Tri.from Tri.to; simp only [V3.get]; grind
    · refine ⟨2, by simpa [Tri.isConstrained, V3.get] using hc, ?_⟩
      revert k; unfold Tri.pointIndex Tri.from Tri.to; simp only [V3.get]; grind
    · refine ⟨0, by simpa [Tri.isConstrained, V3.get] using hc, ?_⟩
      revert k; unfold Tri.pointIndex Tri.from Tri.to; simp only [V3.get]; grind
    · cases hc
  | _, _, .step _ _ _ h, st, e => h.edge st e

theorem leftC_of (hf : FineInput n (allPoints (piecesOf poly ops))) {c : Ctx} (hi : Input c) (hp : c.points = withArtificial n (allPoints (piecesOf poly ops)))
    (hh : c.head = (allPoints (piecesOf poly ops)).length) (ht : c.tail = (allPoints (piecesOf poly ops)).length + 1) (hn : c.num = n)
    (lo : LeftOpen n (allPoints (piecesOf poly ops))) : LeftC c := by
  have hlen : c.points.length = (allPoints (piecesOf poly ops)).length + 2 := by have := hi.head; have := hi.two; omega
  have pos : ∀ i (h : i < (allPoints (piecesOf poly ops)).length), c.pos i = (allPoints (piecesOf poly ops))[i] := by
    intro i h
    rw [← input_point (n := n) h]
    unfold Ctx.pos ptOf; rw [hp]; rw [List.getD_eq_getElem?_getD]
  have eh : c.pos c.head = artLeft n (allPoints (piecesOf poly ops)) := by
    unfold Ctx.pos artLeft; rw [hp, hh, List.getD_eq_getElem?_getD]
  have et : c.pos c.tail = artRight n (allPoints (piecesOf poly ops)) := by
    unfold Ctx.pos artRight; rw [hp, ht, List.getD_eq_getElem?_getD]
  have sweep : ∀ i, InSweep c i ↔ i < (allPoints (piecesOf poly ops)).length := by
    intro i
    constructor
    · rintro ⟨h1, h2, h3⟩; omega
    · intro h; exact ⟨by omega, by omega, by omega⟩
  intro o ho a ha hao hah
  have ho' := (sweep o).1 ho.inp
  rw [eh, hn]
  have key := lo (c.pos o) (by rw [pos o ho']; exact List.getElem_mem _) (by
    intro z hz
    obtain ⟨i, h, rfl⟩ := List.getElem_of_mem hz
    rw [← pos i h]
    exact ho.min i ((sweep i).2 h))
  refine key (c.pos a) ?_ ?_
  · rw [List.mem_append]
    by_cases h : a < (allPoints (piecesOf poly ops)).length
    · left; rw [pos a h]; exact List.getElem_mem _
    · right
      have : a = c.tail := by omega
      rw [this, et]; simp
  · by_cases h : a < (allPoints (piecesOf poly ops)).length
    · rw [pos a h, pos o ho']
      intro e
      exact hao ((List.Nodup.getElem_inj_iff hf.distinct).1 e)
    · have e : a = c.tail := by omega
      have := (hi.good.enclosed o ho.inp.1 ho.inp.2.1 ho.inp.2.2).2.1
      rw [e]; intro e; rw [e] at this; exact lt_irrefl _ this

/-- The second node of the final front is the uppermost of the leftmost input points. -/
theorem final_left_gen (a : LooseInput n poly ops) (lo : LeftOpen n (allPoints (piecesOf poly ops))) (h : programG g n fuel poly ops = .ok (t, s)) :
    ∃ b R, s.front.pids = leftId poly ops :: b :: R ∧ b < leftId poly ops ∧ TopLeft (allPoints (piecesOf poly ops)) (ptOf (runPts n poly ops) b) := by
  have h' := programG_noCol_gen a.fine a.noTouch a.scan a.up h
  obtain ⟨c, hc, hi, e1, e2, e3, e4, -⟩ := fine_run a.fine h'
  obtain ⟨bd, hb, hr⟩ := bind_ok.1 h'
  have hcc : c = (bd.build n).points := by
    rw [← hc]; obtain ⟨_, _, _, _, _, _, _, _, _, e⟩ := runG_ok hr; rw [e]
  subst hcc
  have S := run_setup a.fine a.noTouch a.scan hb
  obtain ⟨b, R, k1, k2, k3⟩ := runG_left (bd.build n) S.input (S.up a.up) (leftC_of a.fine hi e1 e2 e3 e4 lo) S.exact (g := g.strict) (N := EdgesApart poly ops) inferInstance rfl S.apart (fun u v => Or.symm) S.loose S.mem S.edge hr
  have hlen : (bd.build n).points.points.length = (allPoints (piecesOf poly ops)).length + 2 := by have := hi.head; have := hi.two; omega
  have sweep : ∀ i, InSweep (bd.build n).points i ↔ i < (allPoints (piecesOf poly ops)).length := by
    intro i
    constructor
    · rintro ⟨h1, h2, h3⟩; omega
    · intro h; exact ⟨by omega, by omega, by omega⟩
  have pos : ∀ i, (bd.build n).points.pos i = ptOf (runPts n poly ops) i := by
    intro i
    unfold Ctx.pos ptOf; rw [e1, List.getD_eq_getElem?_getD]
  have hb' := (sweep b).1 k2.inp
  refine ⟨b, R, by rw [k1, e2], hb', ?_, ?_⟩
  · rw [input_point hb']; exact List.getElem_mem _
  · intro p hp
    obtain ⟨i, hi', rfl⟩ := List.getElem_of_mem hp
    rw [← input_point (n := n) hi', ← pos, ← pos]
    rcases (k2.min i ((sweep i).2 hi')).lt_or_eq with k | k
    · exact .inl k
    · exact .inr ⟨k, k3 i ((sweep i).2 hi') k.symm⟩

theorem SoundOutline.loose (a : SoundOutline n poly ops) : LooseInput n poly ops := ⟨a.fine, a.noTouch, a.scan, a.up, a.ok⟩

theorem final_left (a : SoundOutline n poly ops) (lo : LeftOpen n (allPoints (piecesOf poly ops))) (h : programG g n fuel poly ops = .ok (t, s)) :
    ∃ b R, s.front.pids = leftId poly ops :: b :: R ∧ b < leftId poly ops ∧ TopLeft (allPoints (piecesOf poly ops)) (ptOf (runPts n poly ops) b) := final_left_gen a.loose lo h

/-- When a result is empty. -/
theorem empty_iff (a : SoundOutline n poly ops) (lo : LeftOpen n (allPoints (piecesOf poly ops))) (h : programG g n fuel poly ops = .ok (t, s))
    (hc : ConstraintsInPlace (inputEdges poly ops) t.triangles) :
    t.result = [] ↔ ∃ z ∈ steinersOf ops, TopLeft (allPoints (piecesOf poly ops)) z := by
  obtain ⟨M, nodes, Ls, P, F, a0, b, l, lab, hids1, hids2, fb, hnodes, he0, hb1, hx, last, hst, -, -, -, hfr⟩ := final_setup' a.fine h hc a.three a.three'
  obtain ⟨b', R, k1, k2, k3⟩ := final_left a lo h
  have eb : b' = b.pid := by
    rw [k1, hnodes] at hfr
    simp only [List.map_cons, List.cons.injEq] at hfr
    exact hfr.2.1.symm
  subst eb
  have hpl : poly.points.length ≤ leftId poly ops := by
    simp [leftId, allPoints, piecesOf, Piece.pts]
  have off := steiners_off a.fine a.noTouch a.ok a.three a.three'
  constructor
  · intro hres
    rcases hst with ⟨-, hst⟩ | ⟨start, hst, fl⟩
    swap
    · have := (fl.iff start).2 .refl
      rw [hres] at this; cases this
    rcases (mem_allPoints _).1 k3.1 with ⟨ps, hps, hm⟩ | hm
    swap
    · exact ⟨_, hm, k3⟩
    exfalso
    rcases List.mem_cons.1 hps with rfl | hH
    · -- a corner of the polygon
      have bmem : b.pid < poly.points.length := by
        obtain ⟨j, hj, e⟩ := List.getElem_of_mem hm
        have hj' : j < (allPoints (piecesOf poly ops)).length := lt_of_lt_of_le hj hpl
        have e2 : (allPoints (piecesOf poly ops))[j] = poly.points[j] := by
          simp only [allPoints, piecesOf, Piece.pts, List.flatMap_cons]
          rw [List.getElem_append_left hj]
        rw [input_point k2, ← e2] at e
        have := (List.Nodup.getElem_inj_iff a.fine.distinct).1 e
        omega
      exact lab.start_some fb hnodes (by rw [he0, List.mem_range]; omega) (by omega) (by omega) last (List.mem_range.2 bmem) hst
    · obtain ⟨i1, i2⟩ := a.holes _ hH _ hm
      have out := lab.front_outside hnodes (by rw [he0]; exact hx) (L := List.range poly.points.length) (by simp) (fun x hx => by
        refine i2 (ptOf (runPts n poly ops) x.1, ptOf (runPts n poly ops) x.2) ?_
        rw [← hids1, cyclic_map]
        exact List.mem_map.2 ⟨x, hx, rfl⟩)
      refine zero_outside out ?_
      rw [hids1]; exact i1
  · rintro ⟨z, hz, hzT⟩
    rcases hst with ⟨h0, -⟩ | ⟨start, hst, fl⟩
    · exact h0
    exfalso
    have ez : z = ptOf (runPts n poly ops) b.pid := hzT.unique k3
    subst ez
    obtain ⟨T, hT, i, hi, hend⟩ := hst.edge start rfl
    have hor := (lab.marks T hT i).1 hi
    have : ∃ L ∈ List.range poly.points.length :: Ls, ∃ x ∈ cyclicPairs L, x.1 = b.pid ∨ x.2 = b.pid := by
      rcases hor with k | k
      · obtain ⟨L, hL, hx⟩ := mem_allEdges.1 k
        exact ⟨L, hL, _, hx, hend⟩
      · obtain ⟨L, hL, hx⟩ := mem_allEdges.1 k
        exact ⟨L, hL, _, hx, hend.symm⟩
    obtain ⟨L, hL, x, hx, hxe⟩ := this
    have hmem : L.map (ptOf (runPts n poly ops)) ∈ poly.points :: holesOf ops := by
      rw [← hids1, ← hids2]
      exact List.mem_map.2 ⟨L, hL, rfl⟩
    have hx' : (ptOf (runPts n poly ops) x.1, ptOf (runPts n poly ops) x.2) ∈ cyclicPairs (L.map (ptOf (runPts n poly ops))) := by
      rw [cyclic_map]; exact List.mem_map.2 ⟨x, hx, rfl⟩
    refine off _ hmem _ hz _ hx' ?_
    rcases hxe with e | e
    · rw [← e]; exact ⟨0, le_refl _, by norm_num, by ring, by ring⟩
    · rw [← e]; exact ⟨1, by norm_num, le_refl _, by ring, by ring⟩

/-- **C60.**  The exact condition for an empty result: let an input have edges that do not cross, no point on an edge, no dip under an edge, holes inside the polygon, and Steiner points
anywhere off the edges (`AdmissibleOutline`, which includes the conditions on the float arithmetic), and let the angle test be right at the leftmost points (`LeftOpen`).  Then `triangulate`
terminates without panic, and reports no triangle if and only if the leftmost input point (the uppermost one if there are several) is a Steiner point. -/
theorem C60_empty_iff (a : AdmissibleOutline n poly ops) (lo : LeftOpen n (allPoints (piecesOf poly ops))) :
    ∃ N t s, (∀ fuel, N ≤ fuel → program n fuel poly ops = .ok (t, s)) ∧
      (t.result = [] ↔ ∃ z ∈ steinersOf ops, TopLeft (allPoints (piecesOf poly ops)) z) := by
  obtain ⟨N, t, s, h1, h2, h4⟩ := C41_total a.fine a.noTouch a.scan a.up a.apart a.ok a.noDip
  exact ⟨N, t, s, h1, empty_iff a.toSoundOutline lo (h2 N (Nat.le_refl _)) h4⟩

/-- **C60, `f64`.**  The same with conditions on the exact coordinates only: they are on a binary grid, and no two input points are on a line with a lower corner of the enlarged bounding box.
It holds no matter how the arithmetic rounds. -/
theorem C60_empty_iff_f64 (n : Num) [F64Like n] [Tenths n] {e : Int} (h : PlainOutline poly ops) (hg : OnGrid e (allPoints (piecesOf poly ops))) (he : -20 ≤ e) (he' : e ≤ 220)
    (hc : ClearOfCorners (allPoints (piecesOf poly ops))) :
    ∃ N t s, (∀ fuel, N ≤ fuel → program n fuel poly ops = .ok (t, s)) ∧
      (t.result = [] ↔ ∃ z ∈ steinersOf ops, TopLeft (allPoints (piecesOf poly ops)) z) :=
  C60_empty_iff (C59_admissible n h hg he he' (.inl hc)) (hg.leftOpen n he he' hc h.distinct (two_points h.three) h.size)

/-- **C60, region.**  If the leftmost input point is not a Steiner point, the reported triangles are a triangulation of the polygon minus the holes, wherever the Steiner points are. -/
theorem C60_correct (a : AdmissibleOutline n poly ops) (lo : LeftOpen n (allPoints (piecesOf poly ops)))
    (hz : ∀ z ∈ steinersOf ops, ¬ TopLeft (allPoints (piecesOf poly ops)) z) :
    ∃ N t s, (∀ fuel, N ≤ fuel → program n fuel poly ops = .ok (t, s)) ∧ t.result ≠ [] ∧
      TriangulatesRegion poly ops (runPts n poly ops) t.triangles t.result := by
  obtain ⟨N, t, s, h1, h2, h4⟩ := C41_total a.fine a.noTouch a.scan a.up a.apart a.ok a.noDip
  have h := h2 N (Nat.le_refl _)
  have ne : t.result ≠ [] := fun k => by
    obtain ⟨z, z1, z2⟩ := (empty_iff a.toSoundOutline lo h h4).1 k
    exact hz z z1 z2
  exact ⟨N, t, s, h1, ne, triangulates_ne a.fine a.noTouch h h4 a.three a.three' a.holes ne⟩

/-- **C60, no effect.**  Two inputs with the same polygon, the same holes and the same Steiner points inside the region, and arbitrary other Steiner points.  If in neither of them the leftmost
input point is a Steiner point (and in one of them no four points are on a circle), both runs report the same triangles: the documented claim that a Steiner point outside the polygon has no effect
holds for all Steiner points that are not the leftmost point. -/
theorem C60_no_effect {D' : Type} {n' : Num} {poly' : Source D'} {ops' : List (BuildOp D')} (a : AdmissibleOutline n poly ops) (a' : AdmissibleOutline n' poly' ops')
    (lo : LeftOpen n (allPoints (piecesOf poly ops))) (lo' : LeftOpen n' (allPoints (piecesOf poly' ops')))
    (hs : SameInside poly ops poly' ops') (nc : NoFourCocircular (allPoints (piecesOf poly ops)))
    (hz : ∀ z ∈ steinersOf ops, ¬ TopLeft (allPoints (piecesOf poly ops)) z) (hz' : ∀ z ∈ steinersOf ops', ¬ TopLeft (allPoints (piecesOf poly' ops')) z) :
    ∃ N t s t' s', (∀ fuel, N ≤ fuel → program n fuel poly ops = .ok (t, s) ∧ program n' fuel poly' ops' = .ok (t', s')) ∧ t.result ≠ [] ∧ t'.result ≠ [] ∧
      TrianglesAmong (runPts n poly ops) t.triangles t.result (runPts n' poly' ops') t'.triangles t'.result ∧
      TrianglesAmong (runPts n' poly' ops') t'.triangles t'.result (runPts n poly ops) t.triangles t.result := by
  obtain ⟨N, t, s, t', s', h1, h2⟩ := C59_no_effect_or_empty a a' hs nc
  obtain ⟨N1, t1, s1, k1, k2, -⟩ := C60_correct a lo hz
  obtain ⟨N2, t2, s2, l1, l2, -⟩ := C60_correct a' lo' hz'
  have e1 := (h1 (max N (max N1 N2)) (by omega)).1
  rw [k1 _ (by omega)] at e1
  cases e1
  have e2 := (h1 (max N (max N1 N2)) (by omega)).2
  rw [l1 _ (by omega)] at e2
  cases e2
  exact ⟨N, t, s, t', s', h1, k2, l2, (h2.resolve_left k2).resolve_left l2⟩

end

/-! ## Examples -/

/-- The input of C59 meets all hypotheses; its leftmost point is a corner of the polygon. -/
theorem out_open : LeftOpen f64 (allPoints (piecesOf exPoly outOps)) :=
  (grid_of_check (by decide +kernel) : OnGrid 0 _).leftOpen f64 (by norm_num) (by norm_num)
    (clear_of_box (x0 := -1) (x1 := 14) (y0 := 0) (y1 := 12) (by decide +kernel) (by decide +kernel)) (by decide +kernel) (by decide) (by decide)

theorem gp_open : LeftOpen f64 (allPoints (piecesOf exPoly gpOps)) :=
  gp_grid.leftOpen f64 (by norm_num) (by norm_num) gp_clear (by decide +kernel) (by decide) (by decide)

theorem gp_outline : AdmissibleOutline f64 exPoly gpOps :=
  ⟨⟨gp_admissible.fine, gp_admissible.noTouch, gp_admissible.scan, gp_admissible.up, gp_admissible.apart, gp_admissible.ok, gp_admissible.three, gp_admissible.three',
    fun _ hH p hp => gp_admissible.inside p (holes_extra hH p hp)⟩, gp_admissible.noDip⟩

theorem out_no_effect : ∃ N t s t' s', (∀ fuel, N ≤ fuel → program f64 fuel exPoly gpOps = .ok (t, s) ∧ program f64 fuel exPoly outOps = .ok (t', s')) ∧ t.result ≠ [] ∧ t'.result ≠ [] ∧
      TrianglesAmong (runPts f64 exPoly gpOps) t.triangles t.result (runPts f64 exPoly outOps) t'.triangles t'.result ∧
      TrianglesAmong (runPts f64 exPoly outOps) t'.triangles t'.result (runPts f64 exPoly gpOps) t.triangles t.result :=
  C60_no_effect gp_outline out_admissible gp_open out_open out_same (by decide +kernel) (by decide +kernel) (by decide +kernel)

/-- The kite of C58 with the Steiner point to its left: the leftmost point is a Steiner point, the result is empty. -/
def kitePoly : Source Nat := ⟨kite, [0, 1, 2, 3]⟩
def kiteOps : List (BuildOp Nat) := [.steinerPoint ⟨5, 15⟩ 4]

theorem kite_plain : PlainOutline kitePoly kiteOps :=
  ⟨⟨by decide, by decide +kernel, by decide +kernel, by decide +kernel, by decide, by decide, fun H hH => by simp [holesOf, kiteOps, BuildOp.holePts] at hH⟩, by decide +kernel⟩

example : ∃ N t s, (∀ fuel, N ≤ fuel → program f64 fuel kitePoly kiteOps = .ok (t, s)) ∧ t.result = [] := by
  obtain ⟨N, t, s, h1, h2⟩ := C60_empty_iff_f64 f64 kite_plain (e := 0) (grid_of_check (by decide +kernel)) (by norm_num) (by norm_num)
    (clear_of_box (x0 := 5) (x1 := 20) (y0 := 10) (y1 := 20) (by decide +kernel) (by decide +kernel))
  exact ⟨N, t, s, h1, h2.2 (by decide +kernel)⟩

end P2T
