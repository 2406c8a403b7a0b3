import Verif.Proofs.FlipSpec
import Verif.Props.MeshProps

/-!
# C32: flips

`C32_legalize_flip` and `C32_edge_flip` hold for every consistent, non-inverted mesh, not only for those met in a run:
they are about the two places of the code that call `rotate_triangle_pair`.  `C32_observed_flips` is
about the flips an observer sees in a run.
-/

namespace P2T

theorem fin3 (i : Fin 3) : i = 0 ∨ i = 1 ∨ i = 2 := by revert i; decide

/-- A context with given points, for lemmas that do not depend on anything else. -/
def ctxOf (n : Num) (all : List Point) : Ctx := ⟨n, all, [], [], 0, 0⟩

/-- **C32, legalization.**  In a consistent mesh without inverted triangles, let the legalization test select the edge opposite corner
`i` of triangle `t` for a flip, with apex `p`, neighbour `ot` and far apex `op`.  Then the edge is not marked constrained in `t`, it
is the common edge of the two triangles, it violates the Delaunay condition, the quadrilateral is convex, the flip succeeds and has
the effect that is specified in `Flipped`; and the new edge satisfies the Delaunay condition. -/
theorem C32_legalize_flip {c : Ctx} {M : Store} (h1 : Consistent c.points.length M) (h2 : Oriented c.points M) {t : Nat} {i : Fin 3}
    {p ot op : Nat} (h : illegalAt c M t i = .ok (some (p, ot, op))) :
    ∃ a b M' need, (∃ T, M[t]? = some T ∧ T.points.get i = p ∧ T.isConstrained i = false) ∧
      FacingAt M t p a b ot op ∧ ConvexAt c.points p a b op ∧
      0 < inCircleDet (ptOf c.points p) (ptOf c.points a) (ptOf c.points b) (ptOf c.points op) ∧
      Store.rotatePair M t p ot op = .ok (M', need) ∧ Flipped c.points M M' t p a b ot op ∧
      inCircleDet (ptOf c.points b) (ptOf c.points p) (ptOf c.points op) (ptOf c.points a) < 0 := by
  have m := meshOk_of h1 h2
  obtain ⟨T, O, k1, k2, k3, k4, -⟩ := illegalAt_some h
  rcases illegalAt_ok m k1 i with hi | ⟨p', a, b, ot', op', e0, f0, hi, s0, o0, hc, hd⟩
  · rw [h] at hi; cases hi
  · rw [h] at hi; cases hi
    have cv : ConvexAt c.points p a b op := convexAt_iff.2 (illegal_convex (m.wo s0).2.nonneg (m.wo o0).2.nonneg hd)
    have hf := facing_sl.2 ⟨_, _, s0, o0⟩
    obtain ⟨M', need, q1, q2⟩ := flip_spec m hf cv
    simp only [← ptOf_pos] at hd
    refine ⟨a, b, M', need, ⟨T, k1, k2, k4⟩, hf, cv, hd, q1, q2, ?_⟩
    rw [incircle_flip]; linarith

/-- **C32, edge insertion.**  If the float arithmetic gives no wrong sign on the points, an edge accepted by the scan-area test of the
edge insertion is the diagonal of a convex quadrilateral, and the flip succeeds with the effect specified in `Flipped`. -/
theorem C32_edge_flip {n : Num} {all : List Point} (hn : Faithful n all) {M : Store} (h1 : Consistent all.length M) (h2 : Oriented all M)
    {t p a b ot op : Nat} (hf : FacingAt M t p a b ot op)
    (hs : inScanArea n (ptOf all p) (ptOf all a) (ptOf all b) (ptOf all op) = true) :
    ConvexAt all p a b op ∧ ∃ M' need, Store.rotatePair M t p ot op = .ok (M', need) ∧ Flipped all M M' t p a b ot op := by
  have m : MeshOk (ctxOf n all).W M := meshOk_of h1 h2
  have cv : ConvexAt all p a b op := by
    obtain ⟨e, f, s0, o0⟩ := facing_sl.1 hf
    have w1 := (m.wo s0).1
    have w2 := (m.wo o0).1
    have mem : ∀ {i}, i < all.length → ptOf all i ∈ all := by
      intro i hi
      simp only [ptOf, List.getD_eq_getElem?_getD, List.getElem?_eq_getElem hi, Option.getD]
      exact List.getElem_mem hi
    unfold inScanArea at hs
    split at hs
    · cases hs
    · split at hs
      · cases hs
      · rename_i z1 z2
        have k1 := hn.scanNeg _ (mem w1.1) _ (mem w1.2.1) _ (mem w2.1) (not_le.1 z1)
        have k2 := hn.scanPos _ (mem w1.1) _ (mem w1.2.2) _ (mem w2.1) (not_le.1 z2)
        refine ⟨k2, ?_⟩
        rw [det2_swap'] at k1; linarith
  exact ⟨cv, flip_spec (c := ctxOf n all) m hf cv⟩

/-- Setting the Delaunay flags does not change the shape of the mesh. -/
theorem flagDelaunay_shape {ts ts' : Store} {t ot : Nat} (h : Store.flagDelaunay ts t ot = .ok ts') :
    ts'.map (·.points) = ts.map (·.points) ∧ ts'.map (·.neighbors) = ts.map (·.neighbors) := by
  have set1 : ∀ {ts : Store} {t : Nat} {T T' : Tri}, ts[t]? = some T → T'.points = T.points → T'.neighbors = T.neighbors →
      (ts.set t T').map (·.points) = ts.map (·.points) ∧ (ts.set t T').map (·.neighbors) = ts.map (·.neighbors) := by
    intro ts t T T' h1 h2 h3
    constructor <;> refine List.ext_getElem? fun x => ?_ <;> simp only [List.getElem?_map, List.getElem?_set] <;> grind
  simp only [Store.flagDelaunay, bind_ok] at h
  obtain ⟨_, -, T1, hT1, O1, hO1, h⟩ := h
  rw [getU_ok] at hT1 hO1
  split at h
  · cases h
  · rename_i i j _
    simp only [pure_ok, Except.ok.injEq] at h
    subst h
    obtain ⟨a1, a2⟩ := set1 (T' := T1.setDelaunay i true) hT1 rfl rfl
    have hO2 : ∃ O2, (ts.set t (T1.setDelaunay i true))[ot]? = some O2 ∧ O2.points = O1.points ∧ O2.neighbors = O1.neighbors := by
      rw [List.getElem?_set]
      by_cases e : t = ot
      · subst e
        rw [hT1] at hO1; cases hO1
        exact ⟨T1.setDelaunay i true, by simp [(List.getElem?_eq_some_iff.1 hT1).1], rfl, rfl⟩
      · exact ⟨O1, by simp [e, hO1], rfl, rfl⟩
    obtain ⟨O2, z1, z2, z3⟩ := hO2
    obtain ⟨b1, b2⟩ := set1 (T' := O1.setDelaunay j true) z1 z2.symm z3.symm
    exact ⟨b1.trans a1, b2.trans a2⟩

theorem Flipped.flag {all : List Point} {M M1 M2 : Store} {t p a b ot op : Nat} (h : Flipped all M M1 t p a b ot op)
    (h1 : Consistent all.length M2) (h2 : Oriented all M2) (hf : Store.flagDelaunay M1 t ot = .ok M2) :
    Flipped all M M2 t p a b ot op := by
  obtain ⟨e1, e2⟩ := flagDelaunay_shape hf
  have fwd : ∀ (x : Nat) (X : Tri), M1[x]? = some X → ∃ X' : Tri, M2[x]? = some X' ∧ X'.points = X.points ∧ X'.neighbors = X.neighbors := by
    intro x X hx
    have a1 := congrArg (·[x]?) e1
    have a2 := congrArg (·[x]?) e2
    simp only [List.getElem?_map, hx, Option.map_some, Option.map_eq_some_iff] at a1 a2
    obtain ⟨X1, b1, b2⟩ := a1
    obtain ⟨X2, b3, b4⟩ := a2
    rw [b1] at b3; cases b3
    exact ⟨X1, b1, b2, b4⟩
  refine ⟨h1, h2, ?_, ?_, ?_, ?_⟩
  · obtain ⟨i, j, T, O, ⟨T', O', l1, l2, l3, l4, l5, l6⟩, k1, k2, k3, k4, k5, k6⟩ := h.facing
    rw [k1] at l1; cases l1
    rw [k2] at l2; cases l2
    obtain ⟨T2, t1, t2, t3⟩ := fwd _ _ k1
    obtain ⟨O2, o1, o2, o3⟩ := fwd _ _ k2
    refine ⟨i, j, T2, O2, ⟨T2, O2, t1, o1, ?_, ?_, ?_, ?_⟩, t1, o1, ?_, ?_, ?_, ?_⟩ <;>
      simp only [Tri.from, Tri.to, t2, t3, o2, o3] at * <;> assumption
  · intro x n1 n2 u v w hc
    obtain ⟨X, i, k1, k2, k3, k4⟩ := h.others x n1 n2 u v w hc
    obtain ⟨X2, t1, t2, t3⟩ := fwd _ _ k1
    exact ⟨X2, i, t1, by rw [t2]; exact k2, by simp only [Tri.from, t2]; exact k3, by simp only [Tri.to, t2]; exact k4⟩
  · rw [← h.length]
    simpa using congrArg List.length e1
  · rw [← h.area]
    have : ∀ M : Store, meshArea2 all M = ((M.map (·.points)).map fun p => det2 (ptOf all (p.get 0)) (ptOf all (p.get 1)) (ptOf all (p.get 2))).sum := by
      intro M
      rw [List.map_map]; rfl
    rw [this, this, e1]

/-! ## In a run -/

theorem edgeEvents_rot {g : Trap} {c : Ctx} {fuel q : Nat} {pt : Point} : ∀ {l : List Nat} {s s' : St},
    edgeEvents g c fuel q pt l s = .ok s' → RotLog s.trace → RotLog s'.trace
  | [], s, s', h, k => by simp only [edgeEvents, pure_ok, Except.ok.injEq] at h; subst h; exact k
  | p :: l, s, s', h, k => by
    simp only [edgeEvents, bind_ok] at h
    obtain ⟨s1, h1, h⟩ := h
    exact edgeEvents_rot h (RotLog.cons ((edgeEvent_evolve h1).rot k) (by simp))

theorem sweepLoop_rot {g : Trap} {c : Ctx} {fuel : Nat} : ∀ {l} {s s' : St}, sweepLoop g c fuel l s = .ok s' →
    RotLog s.trace → RotLog s'.trace
  | [], s, s', h, k => by simp only [sweepLoop, pure_ok, Except.ok.injEq] at h; subst h; exact k
  | (pid, pt, es) :: l, s, s', h, k => by
    simp only [sweepLoop, bind_ok] at h
    obtain ⟨s1, h1, s2, h2, h⟩ := h
    obtain ⟨node, next, ts, -, -, -, h4, -⟩ := pointEvent_evolve h1
    exact sweepLoop_rot h (edgeEvents_rot h2 (RotLog.cons (h4.rot (RotLog.cons k (by simp))) (by simp)))

theorem runG_rot {D} {g : Trap} {fuel : Nat} {cdt : CDT D} {r} (h : cdt.runG g fuel = .ok r) : RotLog r.2.trace := by
  obtain ⟨s0, s1, s2, items, k0, k1, k2, k3, e, -⟩ := runG_ok h
  rw [e]
  have e0 : s0.trace = [] := by
    simp only [initState, bind_ok, unwrap_ok, pure_ok, Except.ok.injEq] at k0
    obtain ⟨_, _, _, _, rfl⟩ := k0
    rfl
  have e1 := sweepLoop_rot k2 (by rw [e0]; exact .nil)
  have e2 : s2.trace = (.sweepDone, s1.snap) :: s1.trace := by
    simp only [finalizePolygon] at k3
    split at k3
    · cases k3; rfl
    · split at k3
      · cases k3; rfl
      · simp only [bind_ok] at k3
        obtain ⟨o, -, k3⟩ := k3
        split at k3
        · cases k3; rfl
        · simp only [bind_ok, pure_ok, Except.ok.injEq] at k3
          obtain ⟨⟨a, b⟩, -, rfl⟩ := k3
          rfl
  refine RotLog.cons ?_ (by simp)
  rw [e2]
  exact e1.cons (by simp)

/-- **C32, in a run.**  Whenever an observer is called with `triangle_rotated(t, ot)`, the triangles `t` and `ot` are neighbours across an edge
that `t` does not mark as constrained, in a convex quadrilateral; there is a next callback, it is `legalize_step(t)`, and the mesh it sees is
the mesh with exactly that edge flipped. -/
theorem C32_observed_flips {D} {n : Num} {fuel : Nat} {poly : Source D} {ops : List (BuildOp D)} {r : Triangles D} {s : St} {g : Trap} [hg : g.Tame]
    (hf : FineInput n (allPoints (piecesOf poly ops))) (h : programG g n fuel poly ops = .ok (r, s))
    {before after : List (Ev × Snap)} {t ot : Nat} {sn : Snap} (ht : s.trace.reverse = before ++ (.rotated t ot, sn) :: after) :
    ∃ sn' after', after = (.legalizeStep t, sn') :: after' ∧ ∃ p a b op,
      FacingAt sn.tris t p a b ot op ∧ ConvexAt (withArtificial n (allPoints (piecesOf poly ops))) p a b op ∧
      (∃ T i, sn.tris[t]? = some T ∧ T.points.get i = p ∧ T.isConstrained i = false) ∧
      Flipped (withArtificial n (allPoints (piecesOf poly ops))) sn.tris sn'.tris t p a b ot op := by
  obtain ⟨c, -, hi, hp, -, -, -, hr, -⟩ := fine_run hf h
  obtain ⟨b', hb, hrun⟩ := bind_ok.1 h
  have hrot := runG_rot hrun
  have e : s.trace = after.reverse ++ (.rotated t ot, sn) :: before.reverse := by
    have := congrArg List.reverse ht
    rw [List.reverse_reverse] at this
    rw [this]; simp
  have hok := hr.inv.trace (.rotated t ot, sn) (by rw [e]; simp)
  rw [← hp]
  rcases after with _ | ⟨⟨ev, sn'⟩, after'⟩
  · exact (hrot.head _ _ (by simpa using e) t ot rfl).elim
  obtain ⟨rfl, T, i, O, op, ts, need, q1, q2, q3, q4, q5, q6, q7⟩ := hrot.step after'.reverse (ev, sn') (.rotated t ot, sn) before.reverse (by rw [e]; simp) t ot rfl
  refine ⟨sn', after', rfl, ?_⟩
  have m := hok.mesh
  obtain ⟨p', a, b, op', e', f', s0, o0, -, cv, -⟩ := hok.conv rfl
  have s1 := sl_corner q1 i
  rw [q2] at s1
  obtain ⟨u1, u2, u3, -⟩ := m.nbr_uniq s0 s1
  have hop := oppositePoint_sl m s0 o0 q1 q4
  rw [u1, q5] at hop
  cases hop
  have fa : FacingAt sn.tris t p' a b ot op := facing_sl.2 ⟨_, _, s0, o0⟩
  refine ⟨p', a, b, op, fa, convexAt_iff.2 cv, ⟨T, i, q1, u1.symm, q3⟩, ?_⟩
  obtain ⟨M', need', z1, z2⟩ := flip_spec m.ok fa (convexAt_iff.2 cv)
  rw [u1, q6] at z1
  cases z1
  have m' := (hr.inv.trace (.legalizeStep t, sn') (by rw [e]; simp)).mesh
  exact z2.flag m'.consistent m'.oriented q7

/-! ## Concrete cases -/

/-- A quadrilateral with the wrong diagonal. -/
def flipPts : List Point := [⟨0, 0⟩, ⟨2, -3⟩, ⟨2, 3⟩, ⟨3, 0⟩]
def flipMesh : Store := [⟨⟨0, 1, 2⟩, ⟨some 1, none, none⟩, ⟨.default, .default, .default⟩, false⟩,
  ⟨⟨3, 2, 1⟩, ⟨some 0, none, none⟩, ⟨.default, .default, .default⟩, false⟩]

example : (match illegalAt (ctxOf f64 flipPts) flipMesh 0 0 with
    | .ok (some x) => decide (x = (0, 1, 3))
    | _ => false) = true := by decide +kernel

theorem flipMesh_ok : Consistent flipPts.length flipMesh ∧ Oriented flipPts flipMesh := by
  refine ⟨⟨by decide +kernel, by decide +kernel, ?_, by decide +kernel⟩, ?_⟩
  · intro t T i x h1 h2
    rcases t with _ | _ | t
    · simp only [flipMesh, List.getElem?_cons_zero, Option.some.injEq] at h1
      subst h1
      rcases fin3 i with rfl | rfl | rfl <;> simp [V3.get] at h2
      subst h2
      exact ⟨by decide, 0, _, _, rfl, rfl, rfl, rfl, rfl, rfl⟩
    · simp only [flipMesh, List.getElem?_cons_succ, List.getElem?_cons_zero, Option.some.injEq] at h1
      subst h1
      rcases fin3 i with rfl | rfl | rfl <;> simp [V3.get] at h2
      subst h2
      exact ⟨by decide, 0, _, _, rfl, rfl, rfl, rfl, rfl, rfl⟩
    · simp [flipMesh] at h1
  · intro T hT
    simp only [flipMesh, List.mem_cons, List.not_mem_nil, or_false] at hT
    rcases hT with rfl | rfl <;> left <;> decide +kernel

example : FacingAt flipMesh 0 0 1 2 1 3 ∧ inScanArea f64 (ptOf flipPts 0) (ptOf flipPts 1) (ptOf flipPts 2) (ptOf flipPts 3) = true :=
  ⟨⟨0, 0, _, _, ⟨_, _, rfl, rfl, rfl, rfl, rfl, rfl⟩, rfl, rfl, rfl, rfl, rfl, rfl⟩, by decide +kernel⟩

/-- The example run flips edges. -/
example : (match programG no698 f64 200 exPoly exOps with
    | .ok (_, s) => s.trace.any fun x => match x.1 with
      | .rotated _ _ => true
      | _ => false
    | .error _ => false) = true := by decide +kernel

end P2T
