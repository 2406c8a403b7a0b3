import Verif.Spec.Lift
import Verif.Props.Flip
import Verif.Props.Region
import Mathlib.Data.Finset.Prod

/-!
# C70: flips of legalization move the lifted mesh down, so that a flipped edge does not come back
-/

namespace P2T

variable {D : Type} {n : Num} {fuel : Nat} {poly : Source D} {ops : List (BuildOp D)} {t : Triangles D} {s : St} {g : Trap} [hg : g.Tame]

theorem NoEdgeFlips.tail {x : Ev × Snap} {l : List (Ev × Snap)} (h : NoEdgeFlips (x :: l)) : NoEdgeFlips l := by
  rintro a b ⟨L, R, rfl⟩
  exact h a b ⟨x :: L, R, rfl⟩

theorem StepLog.one {c : Ctx} {tr : List (Ev × Snap)} (h : StepLog c tr) {before after : List (Ev × Snap)} {x y : Ev × Snap}
    (e : tr.reverse = before ++ x :: y :: after) (q : ¬ AfterEdgeFlips x y) : NoRise c x.2.tris y.2.tris := by
  have e : tr = after.reverse ++ y :: x :: before.reverse := by
    have := congrArg List.reverse e
    rw [List.reverse_reverse] at this
    rw [this]; simp
  refine (h _ _ _ _ e ⟨fun p r k => q (.inl ⟨p, r, k⟩), fun t k => ?_⟩).2
  by_contra hlt
  exact q (.inr ⟨t, k, by omega⟩)

theorem StepLog.chain {c : Ctx} {tr : List (Ev × Snap)} (h : StepLog c tr) : ∀ {mid before after : List (Ev × Snap)} {x y : Ev × Snap},
    tr.reverse = before ++ x :: mid ++ y :: after → NoEdgeFlips (x :: mid ++ [y]) → NoRise c x.2.tris y.2.tris
  | [], before, after, x, y, e, q => h.one (before := before) (after := after) (by rw [e]; simp) (q x y ⟨[], [], rfl⟩)
  | z :: mid, before, after, x, y, e, q =>
    (h.one (x := x) (y := z) (before := before) (after := mid ++ y :: after) (by rw [e]; simp) (q x z ⟨[], mid ++ [y], rfl⟩)).trans
      (StepLog.chain h (mid := mid) (before := before ++ [x]) (after := after) (by rw [e]; simp) q.tail)

/-- The height of the lifted triangle, from the in-circle determinant. -/
theorem inCircle_height (a b d q : Point) : inCircleDet a b d q =
    det2 b d q * sqNorm a + det2 d a q * sqNorm b + det2 a b q * sqNorm d - sqNorm q * det2 a b d := by
  unfold inCircleDet det2 sqNorm; ring

theorem heightAt_le {all : List Point} {T : Tri} {q : Point} {h : Rat} (k : 0 < area2 all T) : heightAt all T q ≤ h + sqNorm q ↔
    inCircleDet (ptOf all (T.points.get 0)) (ptOf all (T.points.get 1)) (ptOf all (T.points.get 2)) q ≤ h * area2 all T := by
  rw [heightAt, div_le_iff₀ k, inCircle_height]
  have e : det2 (ptOf all (T.points.get 0)) (ptOf all (T.points.get 1)) (ptOf all (T.points.get 2)) = area2 all T := rfl
  rw [e]
  constructor <;> intro k <;> linarith

/-- **C70, the lifted mesh never rises.**  In a part of the log without flips of an edge insertion: wherever a triangle of positive area is at one
callback, one is at every later callback, and the lifted mesh is not higher there. -/
theorem C70_never_rises (hf : FineInput n (allPoints (piecesOf poly ops))) (h : programG g n fuel poly ops = .ok (t, s))
    {before mid after : List (Ev × Snap)} {x y : Ev × Snap} (ht : s.trace.reverse = before ++ x :: mid ++ y :: after)
    (hq : NoEdgeFlips (x :: mid ++ [y])) {T : Tri} (hT : T ∈ x.2.tris) (hp : 0 < area2 (runPts n poly ops) T) {q : Point}
    (hi : T.InClosed (runPts n poly ops) q) :
    ∃ T' ∈ y.2.tris, 0 < area2 (runPts n poly ops) T' ∧ T'.InClosed (runPts n poly ops) q ∧
      heightAt (runPts n poly ops) T' q ≤ heightAt (runPts n poly ops) T q := by
  obtain ⟨c, -, -, hpts, -, -, -, hr, -⟩ := fine_run hf h
  have hpts : c.points = runPts n poly ops := hpts
  rw [← hpts] at hp hi ⊢
  have low := hr.step.chain ht hq
  obtain ⟨i, hi'⟩ := List.getElem?_of_mem hT
  obtain ⟨t', w, u, v, n', e', ⟨T', hT', k⟩, k'⟩ := low q (heightAt c.points T q - sqNorm q) ⟨i, _, _, _, _, _, sl_corner hi' 0, by
    have := (heightAt_le (all := c.points) (T := T) (q := q) (h := heightAt c.points T q - sqNorm q) hp).1 (by linarith)
    simp only [← ptOf_pos]
    exact ⟨hp, hi.1, hi.2.1, hi.2.2, this⟩⟩
  have fin : ∀ {i0 : Point} {i1 i2}, i0 = ptOf c.points (T'.points.get 0) → i1 = ptOf c.points (T'.points.get 1) → i2 = ptOf c.points (T'.points.get 2) →
      LiftLe i0 i1 i2 q (heightAt c.points T q - sqNorm q) →
      0 < area2 c.points T' ∧ T'.InClosed c.points q ∧ heightAt c.points T' q ≤ heightAt c.points T q := by
    rintro _ _ _ rfl rfl rfl ⟨k1, k2, k3, k4, k5⟩
    refine ⟨k1, ⟨k2, k3, k4⟩, ?_⟩
    have := (heightAt_le (all := c.points) (T := T') (q := q) (h := heightAt c.points T q - sqNorm q) k1).2 k5
    linarith
  refine ⟨T', List.mem_of_getElem? hT', ?_⟩
  rcases k with ⟨k, -⟩ | ⟨k, -⟩ | ⟨k, -⟩
  · exact fin (by rw [k, ptOf_pos]; rfl) (by rw [k, ptOf_pos]; rfl) (by rw [k, ptOf_pos]; rfl) k'
  · exact fin (by rw [k, ptOf_pos]; rfl) (by rw [k, ptOf_pos]; rfl) (by rw [k, ptOf_pos]; rfl) (liftLe_rot (liftLe_rot k'))
  · exact fin (by rw [k, ptOf_pos]; rfl) (by rw [k, ptOf_pos]; rfl) (by rw [k, ptOf_pos]; rfl) (liftLe_rot k')

/-- Two half-edges of the same triangle have the same corners up to rotation. -/
theorem LiftLe.same {c : Ctx} {ts : Store} {i w u v n e a b d n' e'} (hs : Sl ts i w u v n e) (hs' : Sl ts i a b d n' e') (d3 : D3 w u v) {x h}
    (k : LiftLe (c.pos w) (c.pos u) (c.pos v) x h) : LiftLe (c.pos a) (c.pos b) (c.pos d) x h := by
  rcases sl_two hs d3 hs' with ⟨rfl, rfl, rfl, -⟩ | ⟨rfl, rfl, rfl⟩ | ⟨rfl, rfl, rfl⟩
  all_goals first | exact k | exact liftLe_rot k | exact liftLe_rot (liftLe_rot k)

/-- Two triangles of one mesh do not overlap, in terms of corners. -/
theorem sl_disjoint {P : Nat → Point} {size left right : Nat} {M : Store} {nodes : List Node} (h : PlaneMesh P size left right M nodes)
    {i w u v n e j a b d n' e'} (hs : Sl M i w u v n e) (hs' : Sl M j a b d n' e') {y : Point}
    (k : Inside (P w) (P u) (P v) y) (k' : Inside (P a) (P b) (P d) y) : i = j := by
  have key : ∀ {i w u v n e}, Sl M i w u v n e → Inside (P w) (P u) (P v) y → ∃ T, M[i]? = some T ∧
      Inside (P (T.points.get 0)) (P (T.points.get 1)) (P (T.points.get 2)) y := by
    rintro i w u v n e ⟨T, hT, k⟩ ⟨k1, k2, k3⟩
    refine ⟨T, hT, ?_⟩
    rcases k with ⟨k, -⟩ | ⟨k, -⟩ | ⟨k, -⟩ <;> rw [k]
    · exact ⟨k1, k2, k3⟩
    · exact ⟨k3, k1, k2⟩
    · exact ⟨k2, k3, k1⟩
  obtain ⟨T, h1, h2⟩ := key hs k
  obtain ⟨T', h3, h4⟩ := key hs' k'
  exact h.disjoint h1 h3 h2 h4

/-- **C70, a flipped edge does not come back.**  An observer is called with `triangle_rotated(t, ot)`; the edge between the two triangles is `a b`, the other
corner of `t` is `p`, the one of `ot` is `op`, and `t` has positive area.  At no later callback, until the next flips of an edge insertion, is there a
triangle of positive area on the same side of the edge `a b` (that has the directed edge from `a` to `b`). -/
theorem C70_no_return (hf : FineInput n (allPoints (piecesOf poly ops))) (h : programG g n fuel poly ops = .ok (t, s))
    {before mid after : List (Ev × Snap)} {i ot : Nat} {sn : Snap} {y : Ev × Snap}
    (ht : s.trace.reverse = before ++ (.rotated i ot, sn) :: mid ++ y :: after) (hq : NoEdgeFlips ((.rotated i ot, sn) :: mid ++ [y]))
    {p a b op : Nat} (fa : FacingAt sn.tris i p a b ot op) {T' : Tri} (hT' : T' ∈ y.2.tris) (hp' : 0 < area2 (runPts n poly ops) T') :
    (0 < det2 (ptOf (runPts n poly ops) p) (ptOf (runPts n poly ops) a) (ptOf (runPts n poly ops) b) → ∀ k, ¬ (T'.from k = a ∧ T'.to k = b)) ∧
    (0 < det2 (ptOf (runPts n poly ops) op) (ptOf (runPts n poly ops) b) (ptOf (runPts n poly ops) a) → ∀ k, ¬ (T'.from k = b ∧ T'.to k = a)) := by
  obtain ⟨c, -, hi, hpts, -, -, -, hr, -⟩ := fine_run hf h
  have hpts : c.points = runPts n poly ops := hpts
  obtain ⟨sn', after', e1, p', a', b', op', fa', cv, -, fl⟩ := C32_observed_flips (n := n) (before := before) (t := i) (ot := ot) (sn := sn) hf h
    (after := mid ++ y :: after) (by rw [ht]; simp)
  have hcv : c.points = withArtificial n (allPoints (piecesOf poly ops)) := hpts
  rw [← hcv] at cv fl
  have hm1 : (Ev.rotated i ot, sn) ∈ s.trace := by rw [← List.mem_reverse, ht]; simp
  have ok1 := hr.inv.trace _ hm1
  -- the flipped edge
  obtain ⟨e0, f0, s0, o0⟩ := facing_sl.1 fa
  obtain ⟨e0', f0', s0', o0'⟩ := facing_sl.1 fa'
  obtain ⟨p2, a2, b2, op2, e2, f2, s2, o2, -, cv2, hi2⟩ := ok1.conv rfl
  have dd := (oriW c).d3 (ok1.mesh.wo s0)
  obtain ⟨rfl, rfl, rfl, -⟩ := ok1.mesh.nbr_uniq s0 s0'
  obtain ⟨rfl, rfl, rfl, -⟩ := ok1.mesh.nbr_uniq s0 s2
  obtain ⟨rfl, -⟩ := ok1.mesh.nbr_uniq o0 o0'
  obtain ⟨rfl, -⟩ := ok1.mesh.nbr_uniq o0 o2
  obtain ⟨c1, c2⟩ := cv2
  have w1 := (ok1.mesh.wo s0).2.nonneg
  have w2 := (ok1.mesh.wo o0).2.nonneg
  obtain ⟨g1, g2, n1, n2⟩ := facing_sl.1 fl.facing
  -- from the next callback on
  have low : NoRise c sn'.tris y.2.tris := by
    cases mid with
    | nil =>
      simp only [List.nil_append, List.cons.injEq] at e1
      rw [e1.1]; exact .refl _ _
    | cons z mid =>
      simp only [List.cons_append, List.cons.injEq] at e1
      have := hr.step.chain (mid := mid) (before := before ++ [(.rotated i ot, sn)]) (after := after) (x := z) (y := y) (by rw [ht]; simp) hq.tail
      rw [e1.1] at this
      exact this
  have hm : y ∈ s.trace := by rw [← List.mem_reverse, ht]; simp
  have my := (hr.inv.trace _ hm).mesh
  obtain ⟨k1, k2, k3⟩ := callback_mesh hf h
  obtain ⟨z1, z2, z3, z4⟩ := k3 y.1 y.2 hm
  have pm := planeMesh_of z1 z2 z3 z4 k1
  obtain ⟨j, hj⟩ := List.getElem?_of_mem hT'
  -- the argument for one side
  have main : ∀ {d a b N E}, Sl y.2.tris j d a b N E → 0 < det2 (c.pos a) (c.pos b) (c.pos d) → ∀ {x H}, LowAt c sn'.tris x H →
      0 < det2 (c.pos a) (c.pos b) x → 0 < det2 (c.pos b) (c.pos d) x → 0 < det2 (c.pos d) (c.pos a) x →
      H * det2 (c.pos a) (c.pos b) (c.pos d) < inCircleDet (c.pos a) (c.pos b) (c.pos d) x → False := by
    intro d a b N E hs hd x H hl q1 q2 q3 q4
    obtain ⟨j', w, u, v, n', e', hs', hl⟩ := low x H hl
    obtain ⟨y', ⟨r1, r2, r3⟩, r4, r5, r6⟩ := inside_both hl.1 hl.2.1 hl.2.2.1 hl.2.2.2.1 q1 q2 q3
    have := sl_disjoint pm hs' hs (y := y') (by simp only [← hpts, ptOf_pos]; exact ⟨r1, r2, r3⟩) (by simp only [← hpts, ptOf_pos]; exact ⟨r6, r4, r5⟩)
    subst this
    have := liftLe_rot (hl.same hs' hs ((oriW c).d3 (my.wo hs')))
    exact absurd this.2.2.2.2 (not_le.2 q4)
  have side : ∀ k : Fin 3, Sl y.2.tris j (T'.points.get k) (T'.from k) (T'.to k) (T'.neighbors.get k) (T'.attrs.get k) ∧
      0 < det2 (c.pos (T'.from k)) (c.pos (T'.to k)) (c.pos (T'.points.get k)) := by
    intro k
    refine ⟨sl_corner hj k, ?_⟩
    rw [← hpts] at hp'
    simp only [area2, ptOf_pos] at hp'
    match k with
    | 0 => exact (det2_rot ..).symm ▸ hp'
    | 1 => exact (det2_rot ..).symm ▸ (det2_rot ..).symm ▸ hp'
    | 2 => exact hp'
  simp only [← hpts, ptOf_pos]
  refine ⟨fun hp k hk => ?_, fun hp k hk => ?_⟩
  · obtain ⟨j1, j2⟩ := side k
    rw [hk.1, hk.2] at j1 j2
    obtain ⟨x, H, q1, q2, q3, q4, q5⟩ := flip_down hp c1 c2 w2 hi2 j2
    refine main j1 j2 (x := x) (H := H) ?_ q2 q3 q4 q5
    rcases q1 with q1 | q1
    · exact ⟨_, _, _, _, _, _, n2, by first | exact q1 | exact liftLe_rot q1⟩
    · exact ⟨_, _, _, _, _, _, n1, by exact liftLe_rot (liftLe_rot q1)⟩
  · obtain ⟨j1, j2⟩ := side k
    rw [hk.1, hk.2] at j1 j2
    have hi' : inCircleDet (c.pos op) (c.pos b) (c.pos a) (c.pos p) = inCircleDet (c.pos p) (c.pos a) (c.pos b) (c.pos op) := by
      unfold inCircleDet; ring
    obtain ⟨x, H, q1, q2, q3, q4, q5⟩ := flip_down hp (by have := c2; unfold det2 at this ⊢; linarith) (by have := c1; unfold det2 at this ⊢; linarith) w1
      (by rw [hi']; exact hi2) j2
    refine main j1 j2 (x := x) (H := H) ?_ q2 q3 q4 q5
    rcases q1 with q1 | q1
    · exact ⟨_, _, _, _, _, _, n1, by first | exact q1 | exact liftLe_rot q1⟩
    · exact ⟨_, _, _, _, _, _, n2, by exact liftLe_rot (liftLe_rot q1)⟩

/-- **C70, only illegal edges are flipped.**  Whenever an observer is called with `triangle_rotated(t, ot)`, the corner `op` of `ot` is strictly inside the
circumcircle of `t` (on its left side, if `t` is flat), and the edge between them is not marked as constrained. -/
theorem C70_flip_illegal (hf : FineInput n (allPoints (piecesOf poly ops))) (h : programG g n fuel poly ops = .ok (t, s))
    {i ot : Nat} {sn : Snap} (hm : (.rotated i ot, sn) ∈ s.trace) :
    ∃ p a b op, FacingAt sn.tris i p a b ot op ∧ (∃ T k, sn.tris[i]? = some T ∧ T.points.get k = p ∧ T.isConstrained k = false) ∧
      0 < inCircleDet (ptOf (runPts n poly ops) p) (ptOf (runPts n poly ops) a) (ptOf (runPts n poly ops) b) (ptOf (runPts n poly ops) op) := by
  obtain ⟨c, -, hi, hpts, -, -, -, hr, -⟩ := fine_run hf h
  have hpts : c.points = runPts n poly ops := hpts
  obtain ⟨p, a, b, op, e, f, s0, o0, hc, -, hi⟩ := (hr.inv.trace _ hm).conv rfl
  rw [← hpts]
  simp only [ptOf_pos]
  refine ⟨p, a, b, op, facing_sl.2 ⟨_, _, s0, o0⟩, ?_, hi⟩
  obtain ⟨T, k, k1, k2, k3, k4, k5, k6⟩ := s0.at
  exact ⟨T, k, k1, k2, by rw [Tri.isConstrained, k6]; exact hc⟩

/-- The flip of this callback removes a triangle of positive area with the directed edge `k`. -/
def Removes (all : List Point) (x : Ev × Snap) (k : Nat × Nat) : Prop := ∃ i ot p op, x.1 = .rotated i ot ∧
  ((FacingAt x.2.tris i p k.1 k.2 ot op ∧ 0 < det2 (ptOf all p) (ptOf all k.1) (ptOf all k.2)) ∨
    (FacingAt x.2.tris i p k.2 k.1 ot op ∧ 0 < det2 (ptOf all op) (ptOf all k.1) (ptOf all k.2)))

/-- A triangle of positive area has the directed edge `k`. -/
def HasDir (all : List Point) (M : Store) (k : Nat × Nat) : Prop := ∃ T ∈ M, 0 < area2 all T ∧ ∃ i, T.from i = k.1 ∧ T.to i = k.2

theorem Sl.hasDir {c : Ctx} {M : Store} {t w u v n e} (h : Sl M t w u v n e) (hp : 0 < det2 (c.pos w) (c.pos u) (c.pos v)) : HasDir c.points M (u, v) := by
  obtain ⟨T, hT, k⟩ := h
  refine ⟨T, List.mem_of_getElem? hT, ?_, ?_⟩
  · simp only [area2, ptOf_pos]
    rcases k with ⟨k, -⟩ | ⟨k, -⟩ | ⟨k, -⟩ <;> rw [k]
    · exact hp
    · exact (det2_rot ..) ▸ hp
    · exact (det2_rot ..).symm ▸ hp
  · rcases k with ⟨k, -⟩ | ⟨k, -⟩ | ⟨k, -⟩
    · exact ⟨0, by simp [Tri.from, Tri.to, k, V3.get]⟩
    · exact ⟨1, by simp [Tri.from, Tri.to, k, V3.get]⟩
    · exact ⟨2, by simp [Tri.from, Tri.to, k, V3.get]⟩

/-- Every flip removes something. -/
theorem removes_some (hf : FineInput n (allPoints (piecesOf poly ops))) (h : programG g n fuel poly ops = .ok (t, s)) {x : Ev × Snap}
    (hx : x ∈ s.trace) (hr : x.1.isRotated = true) : ∃ k, Removes (runPts n poly ops) x k := by
  obtain ⟨c, -, hi, hpts, -, -, -, hr', -⟩ := fine_run hf h
  have hpts : c.points = runPts n poly ops := hpts
  obtain ⟨ev, sn⟩ := x
  cases ev with
  | rotated i ot =>
    obtain ⟨p, a, b, op, e, f, s0, o0, -, ⟨c1, c2⟩, -⟩ := (hr'.inv.trace _ hx).conv rfl
    have m := (hr'.inv.trace _ hx).mesh
    have w1 := (m.wo s0).2.nonneg
    have w2 := (m.wo o0).2.nonneg
    have e : det2 (c.pos p) (c.pos a) (c.pos b) + det2 (c.pos op) (c.pos b) (c.pos a) =
        det2 (c.pos p) (c.pos op) (c.pos b) + det2 (c.pos p) (c.pos a) (c.pos op) := by unfold det2; ring
    rw [← hpts]
    by_cases k : 0 < det2 (c.pos p) (c.pos a) (c.pos b)
    · exact ⟨(a, b), i, ot, p, op, rfl, .inl ⟨facing_sl.2 ⟨_, _, s0, o0⟩, by simpa only [ptOf_pos] using k⟩⟩
    · exact ⟨(b, a), i, ot, p, op, rfl, .inr ⟨facing_sl.2 ⟨_, _, s0, o0⟩, by simp only [ptOf_pos]; linarith⟩⟩
  | _ => cases hr

theorem Removes.has (hf : FineInput n (allPoints (piecesOf poly ops))) (h : programG g n fuel poly ops = .ok (t, s)) {x : Ev × Snap}
    (hx : x ∈ s.trace) {k : Nat × Nat} (hk : Removes (runPts n poly ops) x k) : HasDir (runPts n poly ops) x.2.tris k ∧
      k.1 < (runPts n poly ops).length ∧ k.2 < (runPts n poly ops).length ∧ k.1 ≠ k.2 := by
  obtain ⟨c, -, hi, hpts, -, -, -, hr, -⟩ := fine_run hf h
  have hpts : c.points = runPts n poly ops := hpts
  have m := (hr.inv.trace _ hx).mesh
  rw [← hpts] at hk ⊢
  obtain ⟨i, ot, p, op, -, ⟨fa, hp⟩ | ⟨fa, hp⟩⟩ := hk <;> simp only [ptOf_pos] at hp <;> obtain ⟨e, f, s0, o0⟩ := facing_sl.1 fa
  · have w := (m.wo s0).1
    exact ⟨s0.hasDir hp, w.2.1, w.2.2, ((oriW c).d3 (m.wo s0)).2.1⟩
  · have w := (m.wo o0).1
    exact ⟨o0.hasDir hp, w.2.1, w.2.2, ((oriW c).d3 (m.wo o0)).2.1⟩

/-- `C70_no_return` in terms of `Removes`. -/
theorem Removes.gone (hf : FineInput n (allPoints (piecesOf poly ops))) (h : programG g n fuel poly ops = .ok (t, s))
    {before mid after : List (Ev × Snap)} {x y : Ev × Snap} (ht : s.trace.reverse = before ++ x :: mid ++ y :: after)
    (hq : NoEdgeFlips (x :: mid ++ [y])) {k : Nat × Nat} (hk : Removes (runPts n poly ops) x k) : ¬ HasDir (runPts n poly ops) y.2.tris k := by
  rintro ⟨T, hT, hp, j, hj⟩
  obtain ⟨ev, sn⟩ := x
  obtain ⟨i, ot, p, op, rfl, ⟨fa, hp'⟩ | ⟨fa, hp'⟩⟩ := hk
  · exact (C70_no_return hf h ht hq fa hT hp).1 hp' j hj
  · exact (C70_no_return hf h ht hq fa hT hp).2 hp' j hj

/-- **C70, number of flips.**  In a part of the log without flips of an edge insertion there are at most `N (N - 1)` callbacks `triangle_rotated`, where `N` is the
number of points with the two artificial ones. -/
theorem C70_flip_count (hf : FineInput n (allPoints (piecesOf poly ops))) (h : programG g n fuel poly ops = .ok (t, s))
    {before l after : List (Ev × Snap)} (ht : s.trace.reverse = before ++ l ++ after) (hq : NoEdgeFlips l) :
    (l.filter fun x => x.1.isRotated).length ≤ (runPts n poly ops).length * (runPts n poly ops).length - (runPts n poly ops).length := by
  have mem : ∀ x ∈ l, x ∈ s.trace := fun x hx => by rw [← List.mem_reverse, ht]; simp [hx]
  have ex : ∀ x : Ev × Snap, ∃ k, x ∈ l → x.1.isRotated = true → Removes (runPts n poly ops) x k := by
    intro x
    by_cases hx : x ∈ l ∧ x.1.isRotated = true
    · obtain ⟨k, hk⟩ := removes_some hf h (mem x hx.1) hx.2
      exact ⟨k, fun _ _ => hk⟩
    · exact ⟨(0, 0), fun h1 h2 => (hx ⟨h1, h2⟩).elim⟩
  choose f hf' using ex
  have pw : ∀ r L, l = L ++ r → (r.filter fun x => x.1.isRotated).Pairwise fun x y => f x ≠ f y := by
    intro r
    induction r with
    | nil => intro L _; exact .nil
    | cons x r ih =>
      intro L e
      have ih := ih (L ++ [x]) (by rw [e]; simp)
      by_cases hx : x.1.isRotated = true
      · rw [List.filter_cons_of_pos (by exact hx)]
        refine List.pairwise_cons.2 ⟨?_, ih⟩
        intro y hy he
        obtain ⟨hy, hy'⟩ := List.mem_filter.1 hy
        obtain ⟨mid, rest, rfl⟩ := List.append_of_mem hy
        have hq' : NoEdgeFlips (x :: mid ++ [y]) := by
          rintro a b ⟨A, B, k⟩
          refine hq a b ⟨L ++ A, B ++ rest, ?_⟩
          rw [e]
          have := congrArg (· ++ rest) k
          simpa using this
        have hkx := hf' x (by rw [e]; simp) hx
        have hky := hf' y (by rw [e]; simp) hy'
        rw [← he] at hky
        refine hkx.gone hf h (before := before ++ L) (mid := mid) (after := rest ++ after) (y := y) (by rw [ht, e]; simp) hq' ?_
        exact (hky.has hf h (mem y (by rw [e]; simp))).1
      · rw [List.filter_cons_of_neg (by exact hx)]; exact ih
  have nd : ((l.filter fun x => x.1.isRotated).map f).Nodup := by
    rw [List.Nodup, List.pairwise_map]; exact pw l [] rfl
  have sub : ((l.filter fun x => x.1.isRotated).map f).toFinset ⊆ (Finset.range (runPts n poly ops).length).offDiag := by
    intro k hk
    rw [List.mem_toFinset, List.mem_map] at hk
    obtain ⟨x, hx, rfl⟩ := hk
    obtain ⟨h1, h2⟩ := List.mem_filter.1 hx
    obtain ⟨-, k1, k2, k3⟩ := (hf' x h1 h2).has hf h (mem x h1)
    simp [Finset.mem_offDiag, k1, k2, k3]
  have := Finset.card_le_card sub
  rw [Finset.offDiag_card, Finset.card_range, List.toFinset_card_of_nodup nd, List.length_map] at this
  exact this

theorem Removes.swap (hf : FineInput n (allPoints (piecesOf poly ops))) (h : programG g n fuel poly ops = .ok (t, s)) (hg : NoThreeOnLine (runPts n poly ops))
    {x : Ev × Snap} (hx : x ∈ s.trace) {k : Nat × Nat} (hk : Removes (runPts n poly ops) x k) : Removes (runPts n poly ops) x k.swap := by
  obtain ⟨c, -, hi, hpts, -, -, -, hr, -⟩ := fine_run hf h
  have hpts : c.points = runPts n poly ops := hpts
  have m := (hr.inv.trace _ hx).mesh
  rw [← hpts] at hk hg ⊢
  have pos : ∀ {t w u v n e}, Sl x.2.tris t w u v n e → 0 < det2 (c.pos w) (c.pos u) (c.pos v) := by
    intro t w u v n e h
    have w' := (m.wo h).1
    have d := (oriW c).d3 (m.wo h)
    refine lt_of_le_of_ne (m.wo h).2.nonneg ?_
    have := hg w u v w'.1 w'.2.1 w'.2.2 d.1 d.2.1 d.2.2
    simp only [ptOf_pos] at this
    exact fun e => this e.symm
  obtain ⟨i, ot, p, op, k0, ⟨fa, hp⟩ | ⟨fa, hp⟩⟩ := hk <;> obtain ⟨e, f, s0, o0⟩ := facing_sl.1 fa
  · exact ⟨i, ot, p, op, k0, .inr ⟨fa, by simpa only [ptOf_pos, Prod.fst_swap, Prod.snd_swap] using pos o0⟩⟩
  · exact ⟨i, ot, p, op, k0, .inl ⟨fa, by simpa only [ptOf_pos, Prod.fst_swap, Prod.snd_swap] using pos s0⟩⟩

/-- **C70, number of flips in general position.**  If no three of the points (with the two artificial ones) are on a line, twice the number of callbacks
`triangle_rotated` in a part of the log without flips of an edge insertion is at most `N (N - 1)`: at most one for each pair of points. -/
theorem C70_flip_count_general (hg : NoThreeOnLine (runPts n poly ops)) (hf : FineInput n (allPoints (piecesOf poly ops))) (h : programG g n fuel poly ops = .ok (t, s))
    {before l after : List (Ev × Snap)} (ht : s.trace.reverse = before ++ l ++ after) (hq : NoEdgeFlips l) :
    2 * (l.filter fun x => x.1.isRotated).length ≤ (runPts n poly ops).length * (runPts n poly ops).length - (runPts n poly ops).length := by
  have mem : ∀ x ∈ l, x ∈ s.trace := fun x hx => by rw [← List.mem_reverse, ht]; simp [hx]
  have ex : ∀ x : Ev × Snap, ∃ k : Nat × Nat, x ∈ l → x.1.isRotated = true → Removes (runPts n poly ops) x k ∧ k.1 < k.2 := by
    intro x
    by_cases hx : x ∈ l ∧ x.1.isRotated = true
    · obtain ⟨k, hk⟩ := removes_some hf h (mem x hx.1) hx.2
      obtain ⟨-, -, -, hne⟩ := hk.has hf h (mem x hx.1)
      rcases Nat.lt_or_gt_of_ne hne with k1 | k1
      · exact ⟨k, fun _ _ => ⟨hk, k1⟩⟩
      · exact ⟨k.swap, fun _ _ => ⟨hk.swap hf h hg (mem x hx.1), k1⟩⟩
    · exact ⟨(0, 0), fun h1 h2 => (hx ⟨h1, h2⟩).elim⟩
  choose f hf' using ex
  have pw : ∀ r L, l = L ++ r → (r.filter fun x => x.1.isRotated).Pairwise fun x y => f x ≠ f y := by
    intro r
    induction r with
    | nil => intro L _; exact .nil
    | cons x r ih =>
      intro L e
      have ih := ih (L ++ [x]) (by rw [e]; simp)
      by_cases hx : x.1.isRotated = true
      · rw [List.filter_cons_of_pos (by exact hx)]
        refine List.pairwise_cons.2 ⟨?_, ih⟩
        intro y hy he
        obtain ⟨hy, hy'⟩ := List.mem_filter.1 hy
        obtain ⟨mid, rest, rfl⟩ := List.append_of_mem hy
        have hq' : NoEdgeFlips (x :: mid ++ [y]) := by
          rintro a b ⟨A, B, k⟩
          refine hq a b ⟨L ++ A, B ++ rest, ?_⟩
          rw [e]
          have := congrArg (· ++ rest) k
          simpa using this
        have hkx := (hf' x (by rw [e]; simp) hx).1
        have hky := (hf' y (by rw [e]; simp) hy').1
        rw [← he] at hky
        refine hkx.gone hf h (before := before ++ L) (mid := mid) (after := rest ++ after) (y := y) (by rw [ht, e]; simp) hq' ?_
        exact (hky.has hf h (mem y (by rw [e]; simp))).1
      · rw [List.filter_cons_of_neg (by exact hx)]; exact ih
  have nd : ((l.filter fun x => x.1.isRotated).map f).Nodup := by
    rw [List.Nodup, List.pairwise_map]; exact pw l [] rfl
  have nd2 : ((l.filter fun x => x.1.isRotated).map f ++ ((l.filter fun x => x.1.isRotated).map f).map Prod.swap).Nodup := by
    refine List.nodup_append'.2 ⟨nd, nd.map Prod.swap_injective, ?_⟩
    intro k h1 h2
    obtain ⟨k', h3, rfl⟩ := List.mem_map.1 h2
    obtain ⟨x, hx, e1⟩ := List.mem_map.1 h1
    obtain ⟨y, hy, e2⟩ := List.mem_map.1 h3
    obtain ⟨a1, a2⟩ := List.mem_filter.1 hx
    obtain ⟨b1, b2⟩ := List.mem_filter.1 hy
    have q1 := (hf' x a1 a2).2
    have q2 := (hf' y b1 b2).2
    rw [e1] at q1
    rw [e2] at q2
    exact absurd q1 (Nat.lt_asymm q2)
  have sub : ((l.filter fun x => x.1.isRotated).map f ++ ((l.filter fun x => x.1.isRotated).map f).map Prod.swap).toFinset ⊆
      (Finset.range (runPts n poly ops).length).offDiag := by
    have one : ∀ k ∈ (l.filter fun x => x.1.isRotated).map f, k.1 < (runPts n poly ops).length ∧ k.2 < (runPts n poly ops).length ∧ k.1 ≠ k.2 := by
      intro k hk
      obtain ⟨x, hx, rfl⟩ := List.mem_map.1 hk
      obtain ⟨h1, h2⟩ := List.mem_filter.1 hx
      exact ((hf' x h1 h2).1.has hf h (mem x h1)).2
    intro k hk
    rw [List.mem_toFinset, List.mem_append] at hk
    rw [Finset.mem_offDiag, Finset.mem_range, Finset.mem_range]
    rcases hk with hk | hk
    · exact one k hk
    · obtain ⟨k', hk', rfl⟩ := List.mem_map.1 hk
      obtain ⟨k1, k2, k3⟩ := one k' hk'
      exact ⟨k2, k1, k3.symm⟩
  have := Finset.card_le_card sub
  rw [Finset.offDiag_card, Finset.card_range, List.toFinset_card_of_nodup nd2, List.length_append, List.length_map, List.length_map, List.length_map, ← Nat.two_mul] at this
  exact this

theorem afterEdgeFlips_iff {x y : Ev × Snap} : afterEdgeFlips x y = true ↔ AfterEdgeFlips x y := by
  obtain ⟨ev, sn⟩ := y
  cases ev <;> simp [afterEdgeFlips, AfterEdgeFlips]

theorem consecutive_cons {α} {x y : α} {l : List α} {a b : α} (h : Consecutive (x :: y :: l) a b) : (a = x ∧ b = y) ∨ Consecutive (y :: l) a b := by
  obtain ⟨L, R, e⟩ := h
  cases L with
  | nil => simp only [List.nil_append, List.cons.injEq] at e; exact .inl ⟨e.1.symm, e.2.1.symm⟩
  | cons z L => simp only [List.cons_append, List.cons.injEq] at e; exact .inr ⟨L, R, e.2⟩

theorem breaks_zero : ∀ {l : List (Ev × Snap)}, edgeFlipBreaks l = 0 ↔ NoEdgeFlips l
  | [] => by simp [edgeFlipBreaks, NoEdgeFlips, Consecutive]
  | [x] => by
    simp only [edgeFlipBreaks, true_iff]
    rintro a b ⟨L, R, e⟩
    have := congrArg List.length e
    simp at this; omega
  | x :: y :: l => by
    rw [edgeFlipBreaks, Nat.add_eq_zero_iff, breaks_zero (l := y :: l)]
    constructor
    · rintro ⟨h1, h2⟩ a b k
      rcases consecutive_cons k with ⟨rfl, rfl⟩ | k
      · rw [← afterEdgeFlips_iff]; intro k; simp [k] at h1
      · exact h2 a b k
    · intro h
      refine ⟨?_, h.tail⟩
      have := h x y ⟨[], l, rfl⟩
      rw [← afterEdgeFlips_iff] at this
      simp [this]

theorem NoEdgeFlips.snoc {l : List (Ev × Snap)} {x y : Ev × Snap} (h : NoEdgeFlips (l ++ [x])) (k : ¬ AfterEdgeFlips x y) : NoEdgeFlips (l ++ [x] ++ [y]) := by
  induction l with
  | nil =>
    rintro a b h
    rcases consecutive_cons h with ⟨rfl, rfl⟩ | ⟨L, R, e⟩
    · exact k
    · have := congrArg List.length e
      simp at this; omega
  | cons z l ih =>
    rintro a b q
    have ih := ih h.tail
    cases l with
    | nil =>
      rcases consecutive_cons q with ⟨rfl, rfl⟩ | q
      · exact h _ _ ⟨[], [], rfl⟩
      · exact ih a b q
    | cons w l =>
      rcases consecutive_cons q with ⟨rfl, rfl⟩ | q
      · exact h _ _ ⟨[], l ++ [x], rfl⟩
      · exact ih a b q

theorem flips_total (hf : FineInput n (allPoints (piecesOf poly ops))) (h : programG g n fuel poly ops = .ok (t, s)) :
    ∀ (r : List (Ev × Snap)) {before seg : List (Ev × Snap)} {x : Ev × Snap}, s.trace.reverse = before ++ (seg ++ [x]) ++ r → NoEdgeFlips (seg ++ [x]) →
      ((seg ++ [x]).filter fun x => x.1.isRotated).length + (r.filter fun x => x.1.isRotated).length ≤
        (edgeFlipBreaks (x :: r) + 1) * ((runPts n poly ops).length * (runPts n poly ops).length - (runPts n poly ops).length)
  | [], before, seg, x, ht, hq => by
    have := C70_flip_count hf h ht hq
    simpa [edgeFlipBreaks] using this
  | y :: r, before, seg, x, ht, hq => by
    rw [edgeFlipBreaks]
    by_cases k : afterEdgeFlips x y = true
    · have h1 := C70_flip_count hf h (before := before) (l := seg ++ [x]) (after := y :: r) ht hq
      have h2 := flips_total hf h r (before := before ++ (seg ++ [x])) (seg := []) (x := y) (by rw [ht]; simp) (by
        rintro a b ⟨L, R, e⟩
        have := congrArg List.length e
        simp at this; omega)
      have e : ((y :: r).filter fun x => x.1.isRotated).length = (([] ++ [y]).filter fun x : Ev × Snap => x.1.isRotated).length + (r.filter fun x => x.1.isRotated).length := by
        rw [← List.length_append, ← List.filter_append]; rfl
      rw [e, if_pos k]
      refine (Nat.add_le_add h1 h2).trans (le_of_eq ?_)
      rw [Nat.add_comm, ← Nat.succ_mul, Nat.succ_eq_add_one, Nat.add_comm 1]
    · have h2 := flips_total hf h r (before := before) (seg := seg ++ [x]) (x := y) (by rw [ht]; simp) (hq.snoc (by rw [← afterEdgeFlips_iff]; exact k))
      have e : ((y :: r).filter fun x => x.1.isRotated).length = ([y].filter fun x : Ev × Snap => x.1.isRotated).length + (r.filter fun x => x.1.isRotated).length := by
        rw [← List.length_append, ← List.filter_append]; rfl
      rw [if_neg k, e, ← Nat.add_assoc, ← List.length_append, ← List.filter_append, Nat.zero_add]
      exact h2

/-- **C70, all flips.**  The number of all callbacks `triangle_rotated` of a run is at most `N (N - 1)` times one more than the number of places where an edge
insertion may have flipped edges. -/
theorem C70_total_flips (hf : FineInput n (allPoints (piecesOf poly ops))) (h : programG g n fuel poly ops = .ok (t, s)) :
    (s.trace.filter fun x => x.1.isRotated).length ≤
      (edgeFlipBreaks s.trace.reverse + 1) * ((runPts n poly ops).length * (runPts n poly ops).length - (runPts n poly ops).length) := by
  rw [← List.length_reverse, ← List.filter_reverse]
  cases e : s.trace.reverse with
  | nil => simp
  | cons x r =>
    have := flips_total hf h r (before := []) (seg := []) (x := x) (by rw [e]; simp) (by
      rintro a b ⟨L, R, e⟩
      have := congrArg List.length e
      simp at this; omega)
    rw [← List.length_append, ← List.filter_append] at this
    exact this

/-- The example run has a flip that is followed by callbacks of later events without flips of an edge insertion. -/
theorem C70_example : (match programG no698 f64 200 exPoly exOps with
    | .ok (_, s) =>
      let l := (s.trace.reverse.dropWhile fun x => !x.1.isRotated).take 8
      decide (l.length = 8) && (l.head?.map fun x => x.1.isRotated).getD false && decide (edgeFlipBreaks l = 0) &&
        l.any fun x => match x.1 with
          | .exitPoint _ => true
          | _ => false
    | .error _ => false) = true := by decide +kernel

/-- Three Steiner points for the polygon `exPoly`, without three points on a line. -/
def generalOps : List (BuildOp Nat) := [.steinerPoints ⟨[⟨1, 3⟩, ⟨5, 4⟩, ⟨4, 7⟩], [5, 6, 7]⟩]

/-- This program meets the hypothesis of `C70_flip_count_general`, and its run flips edges. -/
theorem C70_example_general : NoThreeOnLine (runPts f64 exPoly generalOps) ∧ (match programG no698 f64 200 exPoly generalOps with
    | .ok (_, s) => decide (0 < (s.trace.filter fun x : Ev × Snap => x.1.isRotated).length)
    | .error _ => false) = true := by
  refine ⟨?_, by decide +kernel⟩
  have hl : (runPts f64 exPoly generalOps).length = 9 := by decide +kernel
  have : ∀ i j k : Fin 9, i ≠ j → j ≠ k → i ≠ k → det2 (ptOf (runPts f64 exPoly generalOps) i) (ptOf (runPts f64 exPoly generalOps) j)
      (ptOf (runPts f64 exPoly generalOps) k) ≠ 0 := by decide +kernel
  intro i j k h1 h2 h3 n1 n2 n3
  exact this ⟨i, hl ▸ h1⟩ ⟨j, hl ▸ h2⟩ ⟨k, hl ▸ h3⟩ (fun e => n1 (congrArg Fin.val e)) (fun e => n2 (congrArg Fin.val e)) (fun e => n3 (congrArg Fin.val e))

end P2T
