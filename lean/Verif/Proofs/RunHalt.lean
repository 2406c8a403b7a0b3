import Verif.Proofs.FillHalt
import Verif.Proofs.FlipHalt
import Verif.Proofs.MarkRun

/-!
# Halting of the sweep
-/

set_option linter.unusedSectionVars false

namespace P2T

variable {c : Ctx}

theorem legalizeAll_hal {K : Prop} {Q0 : Nat → Prop} : ∀ (l : List Nat) {s : St},
    SInv c K (fun y => Q0 y ∨ y ∈ l) NoP s → (∀ t ∈ l, t < s.tris.length) → Hal fun f _ => legalizeAll c f l s
  | [], s, h, hl => Hal.pure
  | t :: l, s, h, hl => by
    simp only [legalizeAll]
    have h' : SInv c K (fun y => (Q0 y ∨ y ∈ l) ∨ y = t) (fun y v => NoP y v ∨ y = t) s := h.mono (by simp; tauto) (by tauto)
    refine Hal.bind (legalize_hal (Q0 := fun y => Q0 y ∨ y ∈ l) (P0 := NoP) h' (hl t (by simp)))
      (fun f _ => legalize_spec (Q0 := fun y => Q0 y ∨ y ∈ l) h' (hl t (by simp))) ?_
    rintro s1 ⟨h1, h2, h3, h4, h5, -⟩
    exact legalizeAll_hal l h1 (fun x hx => by rw [h4]; exact hl x (by simp [hx]))

theorem edgeEvent_hal (gd : Good c) (ex : Exact c) {g : Trap} (hg : g.Tame) (hK : g.col = true) {s : St}
    (h : SInv c True (fun _ => False) NoP s) {p q : Nat} (hp : p < c.points.length) (hq : q ∈ s.front.pids) (hqt : q ≠ c.tail) (hqh : q ≠ c.head)
    (hv : Vtx s.tris p) (hpq : q ≠ p)
    (fr : Loose c fun u v => u = q ∧ v = p) {done : List Nat} (lm : LooseD c done s.tris) (hb : Base c done s)
    (hd : ∀ v ∈ done, v = q ∨ Below (c.pos v) (c.pos q)) (kx : XAsc c s.front.pids) (hph : p ≠ c.head) (hpt : p ≠ c.tail)
    (has : ∀ v ∈ done, Vtx s.tris v) : Hal fun f _ => edgeEvent g c f s ⟨p, q⟩ (c.pos q) := by
  have rd : ∀ {s : St}, SInv c True (fun _ => False) NoP s → q ∈ s.front.pids → ∃ f' r t, s.front.getNodeWithCache (c.pos q) = .ok (f', some r) ∧
      IdFor c r.id q ∧ r.tri = some t ∧ (∃ u v, HasTri s.tris t q u v ∧ (∃ n e, Sl s.tris t u v q n e) ∧ keyLt (c.pos q) (c.pos v)) ∧ SInv c True (fun _ => False) NoP { s with front := f' } ∧ f'.nodes = s.front.nodes := by
    intro s h hq
    obtain ⟨L, R, hs⟩ := List.append_of_mem hq
    obtain ⟨f', r, k1, k2, k3, k4⟩ := h.front.pGetCache hs
    have hb : BInv c NoP s.tris f'.nodes := by rw [k2]; exact h.bd
    cases R with
    | nil =>
      obtain ⟨l, hl⟩ := h.front.tailP
      rw [hs] at hl
      have := List.append_inj' hl rfl
      simp only [List.cons.injEq, and_true] at this
      exact (hqt this.2).elim
    | cons x R =>
      obtain ⟨t, k5, w, e, k6⟩ := k4.tri hb
      obtain ⟨n', e', k7⟩ := k6.rot2
      have kqx := h.front.ascP
      rw [hs] at kqx
      have kqx := (List.pairwise_cons.1 (List.pairwise_append.1 kqx).2.1).1 x (by simp)
      exact ⟨f', r, t, k1, k4.id, k5, ⟨_, _, ⟨_, _, k7⟩, ⟨_, _, k6⟩, kqx⟩, ⟨h.mesh, hb, k3, h.trace, h.one⟩, k2⟩
  have hqL := h.front.pids_lt hq
  simp only [edgeEvent, Ctx.pt_ok hp, ok_bind]
  obtain ⟨f1, r1, t1, a1, a2, a3, ⟨u1, v1, ⟨n1, e1, a4⟩, -⟩, a5, a6⟩ := rd h hq
  simp only [a1, ok_bind, unwrap_some, a3]
  rcases tryMarkEdge_spec a5.mesh a4.lt p q with k | ⟨ts', k, -, -, -⟩
  swap
  · simp only [k, ok_bind, if_true]
    exact Hal.pure
  · simp only [k, ok_bind, Bool.false_eq_true, if_false]
    have hq1 : q ∈ f1.pids := by unfold Front.pids; rw [a6]; exact hq
    have fp : f1.pids = s.front.pids := by unfold Front.pids; rw [a6]
    have fx : Fx c (fun _ _ => False) (fun _ => False) p (· ∈ done) { s with front := f1 } := ⟨a5, by show XAsc c f1.pids; rw [fp]; exact kx, hv,
      by show ∀ z ∈ f1.pids, _; rw [fp]; exact hb.low, has, fun _ _ => False.elim⟩
    refine Hal.bind (fillEdgeEvent_hal gd hg fx hp hph hpt hqh hqt hq1 a2)
      (fun f _ => ((fillEdgeEvent_spec hg (fuel := f) (s := { s with front := f1 }) a5 hq1 a2).andL
        (fillEdgeEvent_clear gd hg fx hp hph hpt hqh hqt (Z := True) (fun _ _ => trivial) hq1 a2)).withEq.mono (R := fun s2 =>
        ((SInv c True (fun _ => False) NoP s2 ∧ Ext c { s with front := f1 } s2 ∧ q ∈ s2.front.pids) ∧ Fx c (fun _ _ => False) (fun _ => False) p (· ∈ done) s2 ∧ Above c p q s2.front.pids) ∧
          ∃ f, fillEdgeEvent g c f { s with front := f1 } ⟨p, q, c.pos p, c.pos q, decide ((c.pos p).x > (c.pos q).x)⟩ r1.id = .ok s2)
        fun s2 k => ⟨⟨k.1.1, k.1.2.1, k.1.2.2.1⟩, f, k.2⟩) ?_
    rintro s2 ⟨⟨⟨b1, b2, b3⟩, y1, y2⟩, fb, b4⟩
    obtain ⟨f2, r2, t2, c1, c2, c3, ⟨u2, v2, c4, ⟨n3, e3, c7⟩, c8⟩, c5, c6⟩ := rd b1 b3
    simp only [c1, ok_bind, unwrap_some, c3]
    have e0 : EPost c True { s2 with front := f2 } ({ s2 with front := f2 }, []) :=
      ⟨c5.mono (by simp) (fun _ => id), by simp, .refl _⟩
    have hb0 : Base c done { s with front := f1 } := by
      refine ⟨hb.result, hb.inter, fun v hv => hb.uses v ?_, ?_⟩
      · rcases hv with hv | hv
        · exact .inl hv
        · refine .inr ?_
          have : f1.nodes = s.front.nodes := a6
          simpa [this] using hv
      · have : KeysOk c s.front := hb.keys
        unfold KeysOk at *
        simpa [Front.shape, a6] using this
    have bs2 := (fillEdgeEvent_evolve b4).base hb0
    have hb2 := bs2.topV gd hqL hqh hqt hd
    have m1 := b2.marks a5.mesh
    have lt := c4
    obtain ⟨n2, e2, c4'⟩ := c4
    have tle : ∀ z, Vtx s2.tris z → (c.pos z).y ≤ (c.pos q).y := by
      intro z hz
      rcases hb2 z hz with rfl | k
      · exact le_rfl
      · exact k.y_le
    have vlt : ∀ z, Vtx s2.tris z → z < c.points.length := by
      rintro z ⟨_, _, _, _, _, sz⟩; exact (b1.sl_lt sz).1
    have loose2 : ∀ u v, Mk s2.tris u v → ∀ z, Vtx s2.tris z → ¬ OnOpen (c.pos u) (c.pos v) (c.pos z) := by
      rintro u v k z ⟨_, _, _, _, _, sz⟩
      obtain ⟨x1, x2, x3, -⟩ := b1.mk_ne k
      rcases bs2.uses z (.inl sz.corner) with rfl | rfl | hz
      · exact (gd.no_end x2 x3 x1).1
      · exact (gd.no_end x2 x3 x1).2
      · exact lm u v ((m1 u v).1 k) z hz
    have lg : LG c.pos s2.tris := b1.lg_of fun u v k z hz => loose2 u v k z hz
    have free : ∀ z, Vtx s2.tris z → ¬ OnOpen (c.pos q) (c.pos p) (c.pos z) := fun z hz => fr q p ⟨rfl, rfl⟩ z (vlt z hz)
    have clr : Clr c.pos s2.tris q p .top := y2.clr gd y1 hp hph hpt b3 hqh hqt (tle p (b2.grow _ hv)) tle
    have nice : Nice c.pos s2.tris q p := ⟨fun a h0 => b1.nz_of gd lg (fun t u v k => (clr t u v k).1) a h0, free⟩
    have zk := b1.zok gd lg hb2 (b2.grow _ hv) hpq free c7 c8
    refine Hal.bind (edgeProcess_hal gd ex hK e0 hp hqL hpq lg nice (b2.grow _ hv) rfl rfl hb2 lt zk)
      (fun f _ => (edge_specs gd (fun _ => hK) f).1 (p := q) e0 hp hqL (by rintro x ⟨⟩; exact c4'.lt)) ?_
    rintro ⟨s3, lq⟩ ⟨d1, d2⟩
    exact legalizeAll_hal (Q0 := fun _ => False) lq (d1.inv.mono (by simp) (fun _ => id)) d1.lt

theorem edgeEvents_hal {N : Prop} (gd : Good c) (ex : Exact c) {g : Trap} (hg : g.Tame) (hK : g.col = true) {q : Nat}
    (hqh : q ≠ c.head) (hqt : q ≠ c.tail) {E : Nat → Nat → Prop} (hE : N → ∀ u v u' v', E u v → E u' v' → ¬ ProperCross (c.pos u) (c.pos v) (c.pos u') (c.pos v'))
    (hs : ∀ u v, E u v → E v u) (ln : Loose c E) (hn : ∀ u v, E u v → u ≠ c.head ∧ u ≠ c.tail)
    {done : List Nat} (hqd : q ∈ done) (hd : ∀ v ∈ done, v = q ∨ Below (c.pos v) (c.pos q)) : ∀ (l : List Nat) {s : St}, (∀ p ∈ l, p < c.points.length) →
    Swept c True g done s → q ∈ s.front.pids → (∀ p ∈ l, p ∈ done ∧ p ≠ q ∧ E p q) → Marked c N E done s.tris → XAsc c s.front.pids →
    Hal fun f _ => edgeEvents g c f q (c.pos q) l s
  | [], s, _, h, hq, _, hm, kx => Hal.pure
  | p :: l, s, hl, h, hq, hp, hm, kx => by
    simp only [edgeEvents]
    have hp0 := hp p (by simp)
    have hpl := hl p (by simp)
    have nm : N → NMC c.pos s.tris q p := fun hN u v k => hE hN _ _ _ _ (hm.only hN u v k) (hs _ _ hp0.2.2)
    have fr : Loose c fun u v => u = q ∧ v = p := by rintro _ _ ⟨rfl, rfl⟩; exact ln _ _ (hs _ _ hp0.2.2)
    have hn0 := hn _ _ hp0.2.2
    refine Hal.bind (edgeEvent_hal gd ex hg hK h.inv hpl hq hqt hqh (h.has p hp0.1) (Ne.symm hp0.2.1) fr hm.loose h.base hd kx hn0.1 hn0.2 h.has)
      (fun f _ => ((edgeEvent_marks (K := True) (Z := True) gd (.inr trivial) ex hg hK (fuel := f) h.inv hpl hq hqt hqh (h.has p hp0.1) (Ne.symm hp0.2.1) nm fr hm.loose h.base hd (fun _ => kx)
        hn0.1 hn0.2 h.has (M := fun _ _ => False) (fun _ _ => False.elim) (fun _ _ => trivial)).andL (edgeEvent_spec gd hg (fun _ => hK) (fuel := f) h.inv hpl hq hqt).withEq).mono
        fun s1 k => (⟨k.1, k.2.1, f, k.2.2⟩ : _ ∧ _ ∧ ∃ f, edgeEvent g c f s ⟨p, q⟩ (c.pos q) = .ok s1)) ?_
    rintro s1 ⟨k56, ⟨k1, k2, k3⟩, fk, k4⟩
    have ev := edgeEvent_evolve k4
    have sw : Swept c True g done (s1.emit (.edge p q)) := by
      refine ⟨k1.inv.emit' (by simp), (ev.base h.base).emit _, fun v hv => k1.grow v (h.has v hv), ?_, ⟨q, hqd, k2, hqh, hqt⟩, (k1.step h.step h.head).cons ?_, .emit _ _⟩
      · refine (ev.log h.log).cons ?_ (by simp)
        rintro p' q' h' hc; cases h'; exact k3 hc
      · rintro x l - ⟨q1, -⟩; exact (q1 p q rfl).elim
    refine edgeEvents_hal gd ex hg hK hqh hqt hE hs ln hn hqd hd l (fun x hx => hl x (by simp [hx])) sw k2 (fun x hx => hp x (by simp [hx])) ?_ (ev.xasc kx)
    refine ⟨fun hN u v k => ?_, k56.2.2⟩
    rcases (k56.1 hN).1 u v k with k | ⟨rfl, rfl⟩ | ⟨rfl, rfl⟩
    · exact hm.only hN u v k
    · exact hp0.2.2
    · exact hs _ _ hp0.2.2

theorem sweepLoop_hal {N : Prop} (up : UpC c) (gd : Good c) (ex : Exact c) {g : Trap} (hg : g.Tame) (hK : g.col = true)
    {E : Nat → Nat → Prop} (hE : N → ∀ u v u' v', E u v → E u' v' → ¬ ProperCross (c.pos u) (c.pos v) (c.pos u') (c.pos v'))
    (hs : ∀ u v, E u v → E v u) (ln : Loose c E) (hn : ∀ u v, E u v → u ≠ c.head ∧ u ≠ c.tail) :
    ∀ (l : List (Nat × Point × PointEdges)) {done : List Nat} {s : St}, Coming c done l → Swept c True g done s →
    (∀ x ∈ l, ∀ p ∈ x.2.2.toList, (p ∈ done ∨ ∃ y ∈ l, y.1 = p) ∧ Below (c.pos p) (c.pos x.1) ∧ E p x.1) → Marked c N E done s.tris → XAsc c s.front.pids →
    Hal fun f _ => sweepLoop g c f l s
  | [], done, s, _, h, _, hm, kx => Hal.pure
  | (q, pt, es) :: l, done, s, hc, h, hl, hm, kx => by
    simp only [sweepLoop]
    obtain ⟨hq, hh, ht, hpt⟩ := hc.lt (q, pt, es) (by simp)
    have hpt' : pt = c.pos q := hpt
    subst hpt'
    have h1 : SInv c True (fun _ => False) NoP (s.emit (.enterPoint q)) := h.inv.emit' (by simp)
    have hb : ∀ a ∈ (s.emit (.enterPoint q)).front.pids, Below (c.pos a) (c.pos q) := by
      intro a ha
      have hu : Uses s.tris s.front a := by
        simp only [Front.pids, List.mem_map] at ha
        obtain ⟨e, he, hk⟩ := ha
        exact .inr ⟨e, he, hk⟩
      rcases h.base.uses a hu with rfl | rfl | hd
      · exact (gd.headBelow hq hh ht).1
      · exact (gd.headBelow hq hh ht).2
      · exact hc.above _ (List.mem_cons_self) a hd
    refine Hal.bind (pointEvent_hal gd h1 hq hh ht hb (h.base.fresh hh ht (hc.above _ List.mem_cons_self))) (R := fun s1 => ((SInv c True (fun _ => False) NoP s1 ∧ Ext c (s.emit (.enterPoint q)) s1 ∧ q ∈ s1.front.pids ∧ HasV s1.tris q) ∧
      ∃ s' f, Entered c s.front.pids q s'.front.pids ∧ fillAdvancingFront c f s' (c.pos q) = .ok s1) ∧
      ∃ f, pointEvent c f (s.emit (.enterPoint q)) q (c.pos q) = .ok s1)
      (fun f _ => (pointEvent_spec' gd (fuel := f) h1 hq hh ht hb (h.base.fresh hh ht (hc.above _ List.mem_cons_self))).withEq.mono ?_) ?_
    · rintro s1 ⟨⟨k1, s', k2, k3⟩, k4⟩
      exact ⟨⟨k1, s', f, k2, k3⟩, f, k4⟩
    rintro s1 ⟨⟨⟨k1, k2, k3, k4⟩, s', f7, k6, k7⟩, f5, k5⟩
    have kx1 : XAsc c s1.front.pids := (fillAdvancingFront_evolve k7).xasc
      (kx.enter gd up hq hh ht (fun a ha => h.inv.front.pids_lt ha) k6)
    have sw := h.point hc k5 k1 k2 k3 k4
    have m1 : ∀ u v, Mk s1.tris u v ↔ Mk s.tris u v := k2.marks h1.mesh
    have hbel : ∀ p ∈ es.toList, p ∈ done ∧ p ≠ q ∧ E p q := by
      intro p hp
      obtain ⟨a1, a2, a3⟩ := hl _ (by simp : (q, c.pos q, es) ∈ _) p hp
      refine ⟨?_, ?_, a3⟩
      · rcases a1 with a1 | ⟨y, hy, rfl⟩
        · exact a1
        · exfalso
          rcases List.mem_cons.1 hy with rfl | hy
          · exact Below.irrefl _ a2
          · exact Below.asymm a2 ((List.pairwise_cons.1 hc.sorted).1 y hy)
      · rintro rfl; exact Below.irrefl _ a2
    have hd : ∀ v ∈ done ++ [q], v = q ∨ Below (c.pos v) (c.pos q) := by
      intro v hv
      rcases List.mem_append.1 hv with hv | hv
      · exact .inr (hc.above _ (List.mem_cons_self) v hv)
      · exact .inl (by simpa using hv)
    have hed := hc.edges (q, c.pos q, es) (by simp)
    refine Hal.bind (edgeEvents_hal gd ex hg hK hh ht hE hs ln hn (done := done ++ [q]) (by simp) hd es.toList
      hed sw k3 (fun p hp => ⟨by simp [(hbel p hp).1], (hbel p hp).2⟩) (h.loosen gd hc h1 m1 hm) kx1)
      (fun f _ => edgeEvents_marks (K := True) (Z := True) gd (.inr trivial) ex hg hK hh ht hE hs ln hn (done := done ++ [q]) (by simp) hd es.toList
      hed sw k3 (fun p hp => ⟨by simp [(hbel p hp).1], (hbel p hp).2⟩) (h.loosen gd hc h1 m1 hm) (fun _ => kx1) (M := fun _ _ => False) (fun _ _ => False.elim) (fun _ _ _ _ => trivial)) ?_
    rintro s2 ⟨j0, j1, j2, -⟩
    refine sweepLoop_hal up gd ex hg hK hE hs ln hn l hc.next j1 ?_ j2 (j0 trivial)
    intro x hx p hp
    obtain ⟨a1, a2⟩ := hl x (by simp [hx]) p hp
    refine ⟨?_, a2⟩
    rcases a1 with a1 | ⟨y, hy, rfl⟩
    · exact .inl (by simp [a1])
    · rcases List.mem_cons.1 hy with rfl | hy
      · exact .inl (by simp)
      · exact .inr ⟨y, hy, rfl⟩

theorem finalizePolygon_hal {K : Prop} {s : St} {g : Trap} {done : List Nat} (h : Swept c K g done s) : Hal fun f _ => finalizePolygon f s := by
  have key := finalize_total h (3 * s.tris.length + 1)
  cases k : finalizePolygon (3 * s.tris.length + 1) s with
  | error e => rw [k] at key; have := key.2; omega
  | ok r =>
    refine ⟨3 * s.tris.length + 1, .ok r, by simp, fun a ha b hb => ?_⟩
    rcases finalizePolygon_ap (B := (· = .fuel)) (.inr ⟨ha, rfl⟩) s with h | ⟨e, rfl, h⟩
    · exact h.symm.trans k
    · rw [k] at h; cases h

/-- A whole run halts. -/
theorem runG_hal {D} {N : Prop} (cdt : CDT D) (h : Input cdt.points) (ex : Exact cdt.points) (up : UpC cdt.points) {g : Trap} (hg : g.Tame)
    (hK : g.col = true) {E : Nat → Nat → Prop}
    (hE : N → ∀ u v u' v', E u v → E u' v' → ¬ ProperCross (cdt.points.pos u) (cdt.points.pos v) (cdt.points.pos u') (cdt.points.pos v'))
    (hs : ∀ u v, E u v → E v u) (ln : Loose cdt.points E) (hn : ∀ u v, E u v → u ∈ cdt.points.ySorted)
    (he : ∀ j es, cdt.points.edges[j]? = some es → ∀ p ∈ es.toList, p ∈ cdt.points.ySorted ∧ j ∈ cdt.points.ySorted ∧
      Below (cdt.points.pos p) (cdt.points.pos j) ∧ E p j) :
    Hal fun f _ => cdt.runG g f := by
  obtain ⟨p0, rest, hy⟩ : ∃ p0 rest, cdt.points.ySorted = p0 :: rest := by
    have := h.perm.length_eq
    rw [List.length_range] at this
    cases hy : cdt.points.ySorted with
    | nil => rw [hy] at this; have := h.ne; simp at *; omega
    | cons a l => exact ⟨a, l, rfl⟩
  have hm : p0 < cdt.points.points.length - 2 := by
    have := h.perm.subset (by rw [hy]; simp : p0 ∈ cdt.points.ySorted)
    exact List.mem_range.1 this
  obtain ⟨s0, i1, i2, i3⟩ := initState_spec (K := True) (g := g) h.good (p0 := p0) (by rw [hy]; rfl) (by omega) (by rw [h.head]; omega) (by rw [h.tail]; omega)
  obtain ⟨items, j1, j2, j3, j4⟩ := h.coming hy
  have nomk := initState_marks i1
  simp only [CDT.runG, i1, ok_bind, sweepPoints, j1]
  have ix : XAsc cdt.points s0.front.pids := by
    have en := h.good.enclosed p0 (by omega) (by rw [h.head]; omega) (by rw [h.tail]; omega)
    rw [i3]
    unfold XAsc
    simp only [List.pairwise_cons, List.mem_cons, List.not_mem_nil, or_false]
    refine ⟨?_, ?_, by simp⟩
    · rintro z (rfl | rfl)
      · exact en.1
      · exact h.good.wide
    · rintro z rfl; exact en.2.1
  have hn' : ∀ u v, E u v → u ≠ cdt.points.head ∧ u ≠ cdt.points.tail := by
    intro u v k
    have := List.mem_range.1 (h.perm.subset (hn u v k))
    rw [h.head, h.tail]
    omega
  refine Hal.bind (sweepLoop_hal up h.good ex hg hK hE hs ln hn' items j3 i2 ?_ ⟨fun _ u v k => (nomk u v k).elim, fun u v k => (nomk u v k).elim⟩ ix)
    (fun f _ => sweepLoop_spec h.good hg (fun _ => hK) items j3 i2) ?_
  · intro x hx p hp
    obtain ⟨a1, a2, a3, a4⟩ := he _ _ (j4 x hx) p hp
    refine ⟨?_, a3, a4⟩
    rw [hy, ← j2] at a1
    rcases List.mem_cons.1 a1 with rfl | a1
    · exact .inl (by simp)
    · obtain ⟨y, hy', rfl⟩ := List.mem_map.1 a1
      exact .inr ⟨y, hy', rfl⟩
  · intro s1 hs1
    have hs1' : Swept cdt.points True g ([p0] ++ items.map (·.1)) (s1.emit .sweepDone) :=
      ⟨hs1.inv.emit' (by simp), hs1.base.emit _, hs1.has, hs1.log.cons (by simp) (by simp), hs1.top,
        hs1.step.cons fun x l e _ => by show KeepL _ _ s1.tris; rw [hs1.head x l e]; exact .refl _ _, .emit _ _⟩
    exact Hal.bind (finalizePolygon_hal hs1') (fun f _ => finalize_total hs1' f) fun _ _ => Hal.pure

end P2T
