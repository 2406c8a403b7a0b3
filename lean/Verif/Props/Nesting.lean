import Verif.Spec.Nesting
import Verif.Props.Convex

/-!
# C66: which region is reported, for any arrangement of polylines that do not cross
-/

namespace P2T

theorem Disjoint3.perm {Ls Ls' : List (List Nat)} (d : Disjoint3 Ls) (h : Ls.Perm Ls') : Disjoint3 Ls' :=
  ⟨h.flatten.nodup_iff.1 d.nodup, fun L hL => d.three L (h.mem_iff.2 hL)⟩

theorem allEdges_perm {Ls Ls' : List (List Nat)} (h : Ls.Perm Ls') {x : Nat × Nat} : x ∈ allEdges Ls ↔ x ∈ allEdges Ls' := by
  rw [mem_allEdges, mem_allEdges]
  constructor
  · rintro ⟨L, hL, k⟩; exact ⟨L, h.mem_iff.1 hL, k⟩
  · rintro ⟨L, hL, k⟩; exact ⟨L, h.mem_iff.2 hL, k⟩

namespace Labelled
variable {P R : Nat → Point} {size left right : Nat} {M : Store} {nodes : List Node}

theorem perm {Ls Ls' : List (List Nat)} {F : List Nat → Nat → Rat} (h : Labelled P R size left right M nodes Ls F) (k : Ls.Perm Ls') :
    Labelled P R size left right M nodes Ls' F :=
  ⟨⟨h.real, h.mesh, h.strict, h.lt, h.disj.perm k, fun L hL => h.along L (k.mem_iff.2 hL), fun L hL => h.faces L (k.mem_iff.2 hL)⟩,
    fun T hT i => by rw [h.marks T hT i, allEdges_perm k, allEdges_perm k]⟩

theorem others {Ls : List (List Nat)} {L0 : List Nat} {F : List Nat → Nat → Rat} (h : Labelled P R size left right M nodes (L0 :: Ls) F)
    {L : List Nat} (hL : L ∈ Ls) {v : Nat} (hv : v ∈ L0) : v ∉ L := by
  intro hv'
  have nd := h.disj.nodup
  rw [List.flatten_cons, List.nodup_append] at nd
  exact nd.2.2 v hv v (List.mem_flatten.2 ⟨L, hL, hv'⟩) rfl

/-- The triangle where the search for the interior ends is on the inner side of an edge of the polyline with the second node of the front. -/
theorem start_at_loop {Ls : List (List Nat)} {L0 : List Nat} {F : List Nat → Nat → Rat} (h : Labelled P R size left right M nodes (L0 :: Ls) F)
    (hb : FrontBounds left right M nodes) {a b : Node} {l : List Node} (hn : nodes = a :: b :: l) (hr : ∃ e l', nodes = l' ++ [e] ∧ e.pid = right)
    (hbr : b.pid ≠ right) (hbL : b.pid ∈ L0) {s : Nat} (hs : StartOf M b.pid b.tri (some s)) :
    ∃ (S : Tri) (i : Fin 3), M[s]? = some S ∧ ((S.from i, S.to i) ∈ cyclicPairs L0 ∨ (S.to i, S.from i) ∈ cyclicPairs L0) ∧
      F L0 s = flow L0 (S.from i) (S.to i) ∧ ∀ L ∈ Ls, F L s = 0 := by
  cases l with
  | nil =>
    obtain ⟨e, l', he, hp⟩ := hr
    rw [hn] at he
    have : b = e := by
      have := congrArg List.getLast? he
      simpa using this
    exact absurd (by rw [this, hp]) hbr
  | cons d l =>
    obtain ⟨t, T, i, ht, hT, hnn, e1, e2⟩ := hb.below b d ⟨[a], l, by simp [hn]⟩
    obtain ⟨S, j, hS, hj, hm, hF⟩ := h.walk hs t T i ht hT e2 (fun L hL => by
      rw [(h.faces L hL).opn t T i hT hnn, e2]) s rfl
    have hSm := List.mem_of_getElem? hS
    have hmk : ∃ L ∈ L0 :: Ls, (S.from j, S.to j) ∈ cyclicPairs L ∨ (S.to j, S.from j) ∈ cyclicPairs L := by
      rcases (h.marks S hSm j).1 hm with k | k
      · obtain ⟨L, hL, k⟩ := mem_allEdges.1 k; exact ⟨L, hL, .inl k⟩
      · obtain ⟨L, hL, k⟩ := mem_allEdges.1 k; exact ⟨L, hL, .inr k⟩
    obtain ⟨L, hL, hk⟩ := hmk
    have hvL : b.pid ∈ L := by
      rw [← hj]
      rcases hk with k | k
      · exact cyclic_mem_right k
      · exact cyclic_mem_left k
    have hL0 : L = L0 := h.disj.same hL (by simp) hvL hbL
    subst hL0
    refine ⟨S, j, hS, hk, by rw [hF L (by simp), hj], fun L' hL' => ?_⟩
    rw [hF L' (by simp [hL'])]
    exact flow_zero (fun k => h.others hL' hvL (cyclic_mem_right k)) (fun k => h.others hL' hvL (cyclic_mem_left k))

end Labelled

section
variable {D : Type} {n : Num} {fuel : Nat} {poly : Source D} {ops : List (BuildOp D)} {t : Triangles D} {s : St} {g : Trap} [hg : g.Tame]

/-- **C66.**  If the edges of the polygon and the holes do not cross and no input point is inside an edge (and the conditions on the arithmetic hold), but the holes may be nested, outside the polygon
or around it, and Steiner points anywhere, a result is the region inside the polyline with the leftmost input point and outside all others, or empty if that is a Steiner point. -/
theorem C66_region (a : LooseInput n poly ops) (ap : EdgesApart poly ops) (h3 : 3 ≤ poly.points.length) (h3' : ∀ H ∈ holesOf ops, 3 ≤ H.length)
    (lo : LeftOpen n (allPoints (piecesOf poly ops))) (h : programG g n fuel poly ops = .ok (t, s)) : LeftmostLoop n poly ops t := by
  have hc := C38_constraints_honoured a.fine a.noTouch a.scan a.up ap h
  obtain ⟨M, nodes, Ls, P, F, a0, b, l, lab, hids1, hids2, fb, hnodes, he0, hb1, hx, last, hst, -, -, hpi, hfr⟩ := final_setup' a.fine h hc h3 h3'
  obtain ⟨b', R, k1, k2, k3⟩ := final_left_gen a lo h
  have eb : b' = b.pid := by
    rw [k1, hnodes] at hfr
    simp only [List.map_cons, List.cons.injEq] at hfr
    exact hfr.2.1.symm
  subst eb
  have off := steiners_off a.fine a.noTouch a.ok h3 h3'
  have el : leftId poly ops = (allPoints (piecesOf poly ops)).length := rfl
  have hids : (List.range poly.points.length :: Ls).map (·.map (ptOf (runPts n poly ops))) = poly.points :: holesOf ops := by
    rw [List.map_cons, hids1, hids2]
  constructor
  · intro z hz hzT
    rcases hst with ⟨h0, -⟩ | ⟨start, hst, fl⟩
    · exact h0
    exfalso
    have ez : z = ptOf (runPts n poly ops) b.pid := hzT.unique k3
    subst ez
    obtain ⟨T, hT, i, hi, hend⟩ := hst.edge start rfl
    have : ∃ L ∈ List.range poly.points.length :: Ls, ∃ x ∈ cyclicPairs L, x.1 = b.pid ∨ x.2 = b.pid := by
      rcases (lab.marks T hT i).1 hi with k | k
      · obtain ⟨L, hL, hx⟩ := mem_allEdges.1 k
        exact ⟨L, hL, _, hx, hend⟩
      · obtain ⟨L, hL, hx⟩ := mem_allEdges.1 k
        exact ⟨L, hL, _, hx, hend.symm⟩
    obtain ⟨L, hL, x, hx, hxe⟩ := this
    have hmem : L.map (ptOf (runPts n poly ops)) ∈ poly.points :: holesOf ops := by
      rw [← hids]
      exact List.mem_map.2 ⟨L, hL, rfl⟩
    have hx' : (ptOf (runPts n poly ops) x.1, ptOf (runPts n poly ops) x.2) ∈ cyclicPairs (L.map (ptOf (runPts n poly ops))) := by
      rw [cyclic_map]; exact List.mem_map.2 ⟨x, hx, rfl⟩
    refine off _ hmem _ hz _ hx' ?_
    rcases hxe with e | e
    · rw [← e]; exact ⟨0, le_refl _, by norm_num, by ring, by ring⟩
    · rw [← e]; exact ⟨1, by norm_num, le_refl _, by ring, by ring⟩
  · intro L hL z hz hzT
    rw [← hids] at hL
    obtain ⟨I, hI, rfl⟩ := List.mem_map.1 hL
    have bound : ∀ J ∈ List.range poly.points.length :: Ls, ∀ v ∈ J, v < (allPoints (piecesOf poly ops)).length := by
      intro J hJ v hv
      have := (polyIds_bound J (by rw [hpi]; exact hJ) v hv).2
      omega
    have inj : ∀ i j, i < (allPoints (piecesOf poly ops)).length → j < (allPoints (piecesOf poly ops)).length → ptOf (runPts n poly ops) i = ptOf (runPts n poly ops) j → i = j := by
      intro i j hi hj e
      rw [input_point hi, input_point hj] at e
      exact (List.Nodup.getElem_inj_iff a.fine.distinct).1 e
    have hbI : b.pid ∈ I := by
      obtain ⟨v, hv, rfl⟩ := List.mem_map.1 hz
      rw [← inj v b.pid (bound I hI v hv) k2 (hzT.unique k3)]; exact hv
    have pm := List.perm_cons_erase hI
    have lab' := lab.perm pm
    rcases hst with ⟨-, hst⟩ | ⟨start, hst, fl⟩
    · refine (lab'.start_some fb hnodes (fun k => ?_) (by omega) (by omega) last hbI hst).elim
      have := bound I hI _ k
      omega
    have ne : t.result ≠ [] := fun k => by
      have := (fl.iff start).2 .refl
      rw [k] at this; cases this
    refine ⟨ne, ?_⟩
    obtain ⟨S, i, hS, he, hF, hz⟩ := lab'.start_at_loop fb hnodes last (by omega) hbI hst
    have hreg := lab'.region hS he hF hz
    have others : ∀ q, (∀ J ∈ (List.range poly.points.length :: Ls).erase I, ¬ InsidePolyline (J.map (ptOf (runPts n poly ops))) q) ↔
        ∀ H ∈ poly.points :: holesOf ops, H ≠ I.map (ptOf (runPts n poly ops)) → ¬ InsidePolyline H q := by
      intro q
      constructor
      · intro k H hH hne
        rw [← hids] at hH
        obtain ⟨J, hJ, rfl⟩ := List.mem_map.1 hH
        exact k J ((List.mem_erase_of_ne (fun e => hne (by rw [e]))).2 hJ)
      · intro k J hJ
        have hJ' := List.mem_of_mem_erase hJ
        refine k _ (by rw [← hids]; exact List.mem_map.2 ⟨J, hJ', rfl⟩) fun e => ?_
        obtain ⟨v, hv, ev⟩ := List.mem_map.1 (e.symm ▸ List.mem_map.2 ⟨b.pid, hbI, rfl⟩ : ptOf (runPts n poly ops) b.pid ∈ J.map (ptOf (runPts n poly ops)))
        have := inj v b.pid (bound J hJ' v hv) k2 ev
        subst this
        exact lab'.others hJ hbI hv
    have sm : ∀ {i : Nat} {T : Tri}, M[i]? = some T → ∃ T' : Tri, t.triangles[i]? = some T' ∧ T'.points = T.points := by
      intro i T hT
      have hl := (List.getElem?_eq_some_iff.1 hT).1
      have hl' : i < t.triangles.length := by rw [fl.same.1]; exact hl
      exact ⟨t.triangles[i], List.getElem?_eq_getElem hl', (fl.same.2 i T _ hT (List.getElem?_eq_getElem hl')).1⟩
    constructor
    · intro i hi T hT q hq
      have hl' : i < M.length := by rw [← fl.same.1]; exact (List.getElem?_eq_some_iff.1 hT).1
      have hT0 : M[i]? = some M[i] := List.getElem?_eq_getElem hl'
      have e := (fl.same.2 i _ T hT0 hT).1
      have := (hreg q).1 i M[i] ((fl.iff i).1 hi) hT0 (by rw [← e]; exact hq)
      exact ⟨this.1, (others q).1 this.2⟩
    · intro q hq
      obtain ⟨i, T, r1, r2, r3, r4⟩ := (hreg q).2 hq.1 ((others q).2 hq.2)
      obtain ⟨T', hT', e⟩ := sm r2
      exact ⟨i, (fl.iff i).2 r1, T', hT', by unfold area2; rw [e]; exact r3, by unfold Tri.InClosed; rw [e]; exact r4⟩

/-- The polygon has the leftmost point: what is reported is the polygon minus the holes. -/
theorem loopRegion_poly (hd : (allPoints (piecesOf poly ops)).Nodup) (h3' : ∀ H ∈ holesOf ops, 3 ≤ H.length) (q : Point) :
    LoopRegion poly ops poly.points q ↔ InRegion poly ops q := by
  have ne : ∀ H ∈ holesOf ops, H ≠ poly.points := by
    intro H hH e
    have e1 : allPoints (piecesOf poly ops) = poly.points ++ extraPoints ops := by simp [allPoints, piecesOf, Piece.pts, extraPoints]
    rw [e1, List.nodup_append] at hd
    have := h3' H hH
    obtain ⟨p, hp⟩ := List.exists_mem_of_length_pos (l := H) (by omega)
    exact hd.2.2 p (e ▸ hp) p (holes_extra hH p hp) rfl
  constructor
  · rintro ⟨h1, h2⟩
    exact ⟨h1, fun H hH => h2 H (by simp [hH]) (ne H hH)⟩
  · rintro ⟨h1, h2⟩
    refine ⟨h1, fun H hH hne => ?_⟩
    rcases List.mem_cons.1 hH with k | k
    · exact absurd k hne
    · exact h2 H k

/-- **C66, crate and repaired program.**  They terminate; the only other outcome of the crate is the panic at a dip under an edge. -/
theorem C66_crate (a : LooseInput n poly ops) (ap : EdgesApart poly ops) (h3 : 3 ≤ poly.points.length) (h3' : ∀ H ∈ holesOf ops, 3 ≤ H.length)
    (lo : LeftOpen n (allPoints (piecesOf poly ops))) :
    ((∃ N t s, (∀ fuel, N ≤ fuel → program n fuel poly ops = .ok (t, s)) ∧ SafeResult n poly ops t s ∧ LeftmostLoop n poly ops t) ∨
      (∃ N, ∀ fuel, N ≤ fuel → programG no698 n fuel poly ops = .error (.trapped "698")) ∧ HasFreeDip poly ops) ∧
    ∃ N t s, (∀ fuel, N ≤ fuel → repairedProgram n fuel poly ops = .ok (t, s)) ∧ SafeResult n poly ops t s ∧ LeftmostLoop n poly ops t := by
  constructor
  · rcases total_gen (g := no698) a.fine a.noTouch a.scan a.up a.ok with ⟨N, t, s, h⟩ | ⟨h, -, hd⟩
    · have h0 := h N (Nat.le_refl _)
      exact .inl ⟨N, t, s, fun fuel hN => programG_program rfl (h fuel hN), a.safe h0, C66_region a ap h3 h3' lo h0⟩
    · exact .inr ⟨h, hd⟩
  · rcases total_gen (g := .repaired) a.fine a.noTouch a.scan a.up a.ok with ⟨N, t, s, h⟩ | ⟨-, h, -⟩
    · have h0 := h N (Nat.le_refl _)
      exact ⟨N, t, s, h, a.safe h0, C66_region a ap h3 h3' lo h0⟩
    · cases h

/-- **C66, `f64`.**  With conditions on the exact coordinates only, for any rounding beyond the largest number. -/
theorem C66_f64 (ov : Rat → Rat) {e : Int} (h : CrossingInput poly ops) (ap : EdgesApart poly ops) (hg : OnGrid e (allPoints (piecesOf poly ops))) (he : -20 ≤ e) (he' : e ≤ 220)
    (hc : ClearOfCorners (allPoints (piecesOf poly ops))) :
    ((∃ N t s, (∀ fuel, N ≤ fuel → program (f64With ov) fuel poly ops = .ok (t, s)) ∧ SafeResult (f64With ov) poly ops t s ∧ LeftmostLoop (f64With ov) poly ops t) ∨
      (∃ N, ∀ fuel, N ≤ fuel → programG no698 (f64With ov) fuel poly ops = .error (.trapped "698")) ∧ HasFreeDip poly ops) ∧
    ∃ N t s, (∀ fuel, N ≤ fuel → repairedProgram (f64With ov) fuel poly ops = .ok (t, s)) ∧ SafeResult (f64With ov) poly ops t s ∧ LeftmostLoop (f64With ov) poly ops t :=
  C66_crate (h.loose ov hg he he' (.inl hc)) ap h.three h.three' (hg.leftOpen (f64With ov) he he' hc h.distinct (two_points h.three) h.size)

/-- **C66, polygon minus holes.**  If the leftmost input point is a corner of the polygon, the region reported is the polygon minus the holes, even if holes are nested or outside the polygon. -/
theorem C66_polygon (h : LeftmostLoop n poly ops t) (hd : (allPoints (piecesOf poly ops)).Nodup) (h3' : ∀ H ∈ holesOf ops, 3 ≤ H.length)
    {z : Point} (hz : z ∈ poly.points) (hzT : TopLeft (allPoints (piecesOf poly ops)) z) :
    t.result ≠ [] ∧ ReportsRegion (withArtificial n (allPoints (piecesOf poly ops))) t (InRegion poly ops) := by
  obtain ⟨h1, h2, h3⟩ := h.loop poly.points (by simp) z hz hzT
  exact ⟨h1, fun i hi T hT q hq => (loopRegion_poly hd h3' q).1 (h2 i hi T hT q hq), fun q hq => h3 q ((loopRegion_poly hd h3' q).2 hq)⟩

end

/-! ## Examples -/

/-- A polygon with a hole, an island in the hole (given as a hole), a hole beside the polygon and a Steiner point beside it. -/
def nestPoly : Source Unit := Source.ofPoints [⟨0, 1⟩, ⟨40, 0⟩, ⟨41, 31⟩, ⟨1, 30⟩]
def nestOps : List (BuildOp Unit) := [.hole (Source.ofPoints [⟨5, 5⟩, ⟨30, 6⟩, ⟨28, 25⟩, ⟨6, 24⟩]), .hole (Source.ofPoints [⟨10, 10⟩, ⟨20, 11⟩, ⟨15, 20⟩]),
  .hole (Source.ofPoints [⟨60, 5⟩, ⟨70, 8⟩, ⟨64, 20⟩]), .steinerPoint ⟨50, 17⟩ ()]

/-- The island is not reported: there is no even-odd rule. -/
theorem C66_island : (∃ N t s, (∀ fuel, N ≤ fuel → program f64 fuel nestPoly nestOps = .ok (t, s)) ∧ t.result ≠ [] ∧
    ReportsRegion (withArtificial f64 (allPoints (piecesOf nestPoly nestOps))) t (InRegion nestPoly nestOps)) ∧ ¬ InRegion nestPoly nestOps ⟨15, 15⟩ ∧ InRegion nestPoly nestOps ⟨35, 15⟩ := by
  refine ⟨?_, ?_, ?_⟩
  · have hin : CrossingInput nestPoly nestOps := ⟨by decide, by decide +kernel, by decide +kernel, by decide, by decide⟩
    rcases (C66_f64 (saturate f64Max) (e := 0) hin (by decide +kernel) (grid_of_check (by decide +kernel)) (by norm_num) (by norm_num)
      (clear_of_box (x0 := 0) (x1 := 70) (y0 := 0) (y1 := 31) (by decide +kernel) (by decide +kernel))).1 with ⟨N, t, s, h, -, k⟩ | h
    · exact ⟨N, t, s, h, C66_polygon k hin.distinct hin.three' (z := ⟨0, 1⟩) (by decide) (by decide +kernel)⟩
    · exact absurd h.2 (by decide +kernel)
  · rintro ⟨-, h⟩
    exact h [⟨5, 5⟩, ⟨30, 6⟩, ⟨28, 25⟩, ⟨6, 24⟩] (by decide) (by decide +kernel)
  · exact (loopRegion_poly (by decide +kernel) (by decide) _).1 (by decide +kernel)

/-- A triangle with a hole to its left. -/
def besidePoly : Source Unit := Source.ofPoints [⟨20, 0⟩, ⟨30, 5⟩, ⟨22, 14⟩]
def besideOps : List (BuildOp Unit) := [.hole (Source.ofPoints [⟨0, 3⟩, ⟨9, 1⟩, ⟨5, 12⟩])]

/-- The hole is reported and the polygon is not. -/
theorem C66_beside : ∃ N t s, (∀ fuel, N ≤ fuel → program f64 fuel besidePoly besideOps = .ok (t, s)) ∧ t.result ≠ [] ∧
    ReportsRegion (withArtificial f64 (allPoints (piecesOf besidePoly besideOps))) t (LoopRegion besidePoly besideOps [⟨0, 3⟩, ⟨9, 1⟩, ⟨5, 12⟩]) ∧
    ∀ i ∈ t.result, ∀ T, t.triangles[i]? = some T → ∀ q, T.Inside (withArtificial f64 (allPoints (piecesOf besidePoly besideOps))) q → ¬ InRegion besidePoly besideOps q := by
  rcases (C66_f64 (saturate f64Max) (poly := besidePoly) (ops := besideOps) (e := 0) ⟨by decide, by decide +kernel, by decide +kernel, by decide, by decide⟩ (by decide +kernel)
    (grid_of_check (by decide +kernel)) (by norm_num) (by norm_num)
    (clear_of_box (x0 := 0) (x1 := 30) (y0 := 0) (y1 := 14) (by decide +kernel) (by decide +kernel))).1 with ⟨N, t, s, h, -, k⟩ | h
  · obtain ⟨k1, k2⟩ := k.loop [⟨0, 3⟩, ⟨9, 1⟩, ⟨5, 12⟩] (by decide) ⟨0, 3⟩ (by decide) (by decide +kernel)
    exact ⟨N, t, s, h, k1, k2, fun i hi T hT q hq hr => hr.2 _ (by decide) (k2.sound i hi T hT q hq).1⟩
  · exact absurd h.2 (by decide +kernel)

/-- A triangle with a hole around it. -/
def aroundPoly : Source Unit := Source.ofPoints [⟨10, 10⟩, ⟨20, 11⟩, ⟨15, 20⟩]
def aroundOps : List (BuildOp Unit) := [.hole (Source.ofPoints [⟨0, 1⟩, ⟨40, 0⟩, ⟨41, 31⟩, ⟨1, 30⟩])]

/-- The space between them is reported: polygon and hole change their roles. -/
theorem C66_around : ∃ N t s, (∀ fuel, N ≤ fuel → program f64 fuel aroundPoly aroundOps = .ok (t, s)) ∧ t.result ≠ [] ∧
    ReportsRegion (withArtificial f64 (allPoints (piecesOf aroundPoly aroundOps))) t (LoopRegion aroundPoly aroundOps [⟨0, 1⟩, ⟨40, 0⟩, ⟨41, 31⟩, ⟨1, 30⟩]) := by
  rcases (C66_f64 (saturate f64Max) (poly := aroundPoly) (ops := aroundOps) (e := 0) ⟨by decide, by decide +kernel, by decide +kernel, by decide, by decide⟩ (by decide +kernel)
    (grid_of_check (by decide +kernel)) (by norm_num) (by norm_num)
    (clear_of_box (x0 := 0) (x1 := 41) (y0 := 0) (y1 := 31) (by decide +kernel) (by decide +kernel))).1 with ⟨N, t, s, h, -, k⟩ | h
  · exact ⟨N, t, s, h, k.loop [⟨0, 1⟩, ⟨40, 0⟩, ⟨41, 31⟩, ⟨1, 30⟩] (by decide) ⟨0, 1⟩ (by decide) (by decide +kernel)⟩
  · exact absurd h.2 (by decide +kernel)

end P2T
