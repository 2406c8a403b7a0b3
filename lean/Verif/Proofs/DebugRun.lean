import Verif.Proofs.DebugFlip
import Verif.Proofs.DebugEdge
import Verif.Proofs.RunInv
import Verif.Props.Verify

/-!
# The debug assertions during the sweep
-/

set_option linter.unusedSectionVars false

namespace P2T

variable {c : Ctx} {K : Prop}

theorem SInv.cur {s : St} (h : SInv c K (fun _ => False) NoP s) : Cur c K s :=
  ⟨h.mesh.mono fun _ _ => trivial, h.bd, h.front⟩

theorem legalizeAllD_ok {fuel : Nat} : ∀ (l : List Nat) {s : St}, SInv c K (fun y => y ∈ l) NoP s → (∀ t ∈ l, t < s.tris.length) →
    Sim (legalizeAll c fuel l s) (legalizeAllD c fuel l s)
  | [], _, _, _ => .refl _
  | t :: l, s, h, hl => by
    simp only [legalizeAll, legalizeAllD]
    refine .bind (legalizeD_ok (h.mesh.mono fun _ _ => trivial) (hl t (by simp))) fun s1 e1 => ?_
    obtain ⟨h1, -, -, h4, -⟩ := (legalize_spec (Q0 := fun y => y ∈ l) (fuel := fuel) (h.mono (by simp; tauto) (by tauto)) (hl t (by simp))).get e1
    exact legalizeAllD_ok l h1 fun x hx => by rw [h4]; exact hl x (by simp [hx])

theorem edgeEventD_ok (gd : Good c) {g : Trap} (hg : g.l698 = true) (hc : g.col = true) {fuel : Nat} {s : St}
    (h : SInv c K (fun _ => False) NoP s) {p q : Nat} (hp : p < c.points.length) (hq : q ∈ s.front.pids) (hqt : q ≠ c.tail) (hpq : p ≠ q) :
    Sim (edgeEvent g c fuel s ⟨p, q⟩ (c.pos q)) (edgeEventD c fuel s ⟨p, q⟩ (c.pos q)) := by
  have hK : K → g.col = true := fun _ => hc
  have rd : ∀ {s : St}, SInv c K (fun _ => False) NoP s → q ∈ s.front.pids → ∃ f' r t, s.front.getNodeWithCache (c.pos q) = .ok (f', some r) ∧
      IdFor c r.id q ∧ r.tri = some t ∧ t < s.tris.length ∧ SInv c K (fun _ => False) NoP { s with front := f' } ∧ f'.nodes = s.front.nodes := by
    intro s h hq
    obtain ⟨L, R, hs⟩ := List.append_of_mem hq
    obtain ⟨f', r, k1, k2, k3, k4⟩ := h.front.pGetCache hs
    have hb : BInv c NoP s.tris f'.nodes := by rw [k2]; exact h.bd
    cases R with
    | nil =>
      obtain ⟨l, hl⟩ := h.front.tailP
      rw [hs] at hl
      have := List.append_inj' hl rfl
      simp only [List.cons.injEq, and_true] at this
      exact (hqt this.2).elim
    | cons x R =>
      obtain ⟨t, k5, w, e, k6⟩ := k4.tri hb
      exact ⟨f', r, t, k1, k4.id, k5, k6.lt, ⟨h.mesh, hb, k3, h.trace, h.one⟩, k2⟩
  have hqL := h.front.pids_lt hq
  unfold edgeEvent edgeEventD
  simp only [Ctx.pt_ok hp, ok_bind]
  obtain ⟨f1, r1, t1, a1, a2, a3, a4, a5, a6⟩ := rd h hq
  simp only [a1, ok_bind, unwrap_some, a3]
  rcases tryMarkEdge_spec a5.mesh a4 p q with k | ⟨ts', k, k1, k2, k3⟩
  swap
  · simp only [k, ok_bind, if_true]
    exact .refl _
  · simp only [k, ok_bind]
    rw [if_neg (by simp), if_neg (by simp)]
    have hq1 : q ∈ f1.pids := by unfold Front.pids; rw [a6]; exact hq
    have eok : EOk c ⟨p, q, c.pos p, c.pos q, decide ((c.pos p).x > (c.pos q).x)⟩ :=
      ⟨hp, rfl, fun k => hpq (gd.inj _ _ hqL hp k).symm⟩
    have F : Sim (fillEdgeEvent g c fuel { s with front := f1 } ⟨p, q, c.pos p, c.pos q, decide ((c.pos p).x > (c.pos q).x)⟩ r1.id)
        (fillEdgeEventD c fuel { s with front := f1 } ⟨p, q, c.pos p, c.pos q, decide ((c.pos p).x > (c.pos q).x)⟩ r1.id) := by
      refine ⟨fun s2 e2 => ?_⟩
      obtain ⟨b1, -, -⟩ := (fillEdgeEvent_spec ⟨.inl hg⟩ (s := { s with front := f1 }) a5 hq1 a2).get e2
      exact ((fillEdgeEventD_ok gd hg eok a5.cur ⟨by rw [a2.1]; exact hqL, by rw [a2.2, a2.1]⟩ a2.2.symm).run s2 e2 b1.trace).1
    refine .bind F fun s2 e2 => ?_
    obtain ⟨b1, b2, b3⟩ := (fillEdgeEvent_spec ⟨.inl hg⟩ (s := { s with front := f1 }) a5 hq1 a2).get e2
    obtain ⟨f2, r2, t2, c1, c2, c3, c4, c5, c6⟩ := rd b1 b3
    simp only [c1, ok_bind, unwrap_some, c3]
    have e0 : EPost c K { s2 with front := f2 } ({ s2 with front := f2 }, []) :=
      ⟨c5.mono (by simp) (fun _ => id), by simp, .refl _⟩
    refine .bind ((flipD_oks gd hc hK fuel).1 e0 hp hqL hpq (by rintro x ⟨⟩; exact c4)) ?_
    rintro ⟨s3, lq⟩ e3
    obtain ⟨d1, -⟩ := ((edge_specs gd hK fuel).1 e0 hp hqL (by rintro x ⟨⟩; exact c4)).get e3
    exact legalizeAllD_ok lq (d1.inv.mono (by simp) (fun _ => id)) d1.lt

theorem edgeEventsD_ok (gd : Good c) {g : Trap} (hg : g.l698 = true) (hc : g.col = true) {fuel : Nat} {q : Nat} (hqt : q ≠ c.tail) :
    ∀ (l : List Nat) {s : St}, (∀ p ∈ l, p < c.points.length ∧ p ≠ q) → SInv c K (fun _ => False) NoP s → q ∈ s.front.pids →
    Sim (edgeEvents g c fuel q (c.pos q) l s) (edgeEventsD c fuel q (c.pos q) l s)
  | [], s, _, h, hq => .refl _
  | p :: l, s, hl, h, hq => by
    simp only [edgeEvents, edgeEventsD]
    obtain ⟨h1, h2⟩ := hl p (by simp)
    refine .bind (edgeEventD_ok gd hg hc h h1 hq hqt h2) fun s1 e1 => ?_
    obtain ⟨k1, k2, -⟩ := (edgeEvent_spec gd ⟨.inl hg⟩ (fun _ => hc) (fuel := fuel) h h1 hq hqt).get e1
    exact edgeEventsD_ok gd hg hc hqt l (fun x hx => hl x (by simp [hx])) (k1.inv.emit' (by simp)) k2

theorem verify_inv (hk : K) {M : Store} (m : MeshInv c K (fun _ => False) M) : verifyTriangles c M = .ok true := by
  obtain ⟨b, h1, h2⟩ := verifyTriangles_spec m
  rw [h1, h2.2]
  intro t i x j T X hl hT hX hcX
  have := m.delaunay t i x j T X hl hT hX (by rw [m.marks hk t i x j T X hl hT hX]; exact hcX) hcX
  simpa only [ptOf_pos] using this

theorem sweepLoopD_ok (gd : Good c) {g : Trap} (hg : g.l698 = true) (hcol : g.col = true) {fuel : Nat} :
    ∀ (l : List (Nat × Point × PointEdges)) {done : List Nat} {s : St}, Coming c done l → (∀ x ∈ l, ∀ p ∈ x.2.2.toList, p ≠ x.1) →
    Swept c True g done s → Sim (sweepLoop g c fuel l s) (sweepLoopD c fuel l s)
  | [], done, s, _, _, h => .refl _
  | (q, pt, es) :: l, done, s, hc, hne, h => by
    simp only [sweepLoop, sweepLoopD]
    obtain ⟨hq, hh, ht, hpt⟩ := hc.lt (q, pt, es) (by simp)
    have hpt' : pt = c.pos q := hpt
    subst hpt'
    have h1 : SInv c True (fun _ => False) NoP (s.emit (.enterPoint q)) := h.inv.emit' (by simp)
    have hb : ∀ a ∈ (s.emit (.enterPoint q)).front.pids, Below (c.pos a) (c.pos q) := by
      intro a ha
      have hu : Uses s.tris s.front a := by
        simp only [Front.pids, List.mem_map] at ha
        obtain ⟨e, he, hk⟩ := ha
        exact .inr ⟨e, he, hk⟩
      rcases h.base.uses a hu with rfl | rfl | hd
      · exact (gd.headBelow hq hh ht).1
      · exact (gd.headBelow hq hh ht).2
      · exact hc.above _ (List.mem_cons_self) a hd
    have ps := fun {fuel} => pointEvent_spec gd (fuel := fuel) h1 hq hh ht hb (h.base.fresh hh ht (hc.above _ List.mem_cons_self))
    have P : Sim (pointEvent c fuel (s.emit (.enterPoint q)) q (c.pos q)) (pointEventD c fuel (s.emit (.enterPoint q)) q (c.pos q)) := by
      refine ⟨fun s1 e1 => ?_⟩
      obtain ⟨k1, -⟩ := ps.get e1
      exact ((pointEventD_ok h1.cur fun hm => Below.irrefl _ (hb q hm)).run s1 e1 k1.trace).1
    refine .bind P fun s1 k5 => ?_
    obtain ⟨k1, k2, k3, k4⟩ := ps.get k5
    have sw := h.point hc k5 k1 k2 k3 k4
    refine .bind (edgeEventsD_ok gd hg hcol ht es.toList (fun p hp => ⟨hc.edges (q, c.pos q, es) (by simp) p hp, hne (q, c.pos q, es) (by simp) p hp⟩) sw.inv k3) fun s2 j2 => ?_
    have j1 := (edgeEvents_spec gd ⟨.inl hg⟩ (fun _ => hcol) hh ht (by simp) es.toList (hc.edges (q, c.pos q, es) (by simp)) sw k3).get j2
    rw [verify_inv trivial j1.inv.mesh, ok_bind, if_pos rfl]
    exact sweepLoopD_ok gd hg hcol l hc.next (fun x hx => hne x (by simp [hx])) j1

theorem runD_ok {D} (cdt : CDT D) (h : Input cdt.points) (hne : ∀ (j : Nat) (es : PointEdges), cdt.points.edges[j]? = some es → ∀ p ∈ es.toList, p ≠ j)
    {g : Trap} (hg : g.l698 = true) (hc : g.col = true) (fuel : Nat) : Sim (cdt.runG g fuel) (cdt.runD fuel) := by
  obtain ⟨p0, rest, hy⟩ : ∃ p0 rest, cdt.points.ySorted = p0 :: rest := by
    have := h.perm.length_eq
    rw [List.length_range] at this
    cases hy : cdt.points.ySorted with
    | nil => rw [hy] at this; have := h.ne; simp at *; omega
    | cons a l => exact ⟨a, l, rfl⟩
  have hm : p0 < cdt.points.points.length - 2 := by
    have := h.perm.subset (by rw [hy]; simp : p0 ∈ cdt.points.ySorted)
    exact List.mem_range.1 this
  obtain ⟨s0, i1, i2, -⟩ := initState_spec (K := True) (g := g) h.good (p0 := p0) (by rw [hy]; rfl) (by omega) (by rw [h.head]; omega) (by rw [h.tail]; omega)
  obtain ⟨items, j1, j2, j3, j4⟩ := h.coming hy
  simp only [CDT.runG, CDT.runD, i1, ok_bind, sweepPoints, sweepPointsD, j1]
  exact .bind (sweepLoopD_ok h.good hg hc items j3 (fun x hx => hne _ _ (j4 x hx)) i2) fun _ _ => .refl _

end P2T
