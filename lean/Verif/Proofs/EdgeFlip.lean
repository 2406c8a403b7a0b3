import Verif.Proofs.EdgeFill

/-!
# Flipping during edge events
-/

set_option linter.unusedSectionVars false

namespace P2T

variable {c : Ctx} {K : Prop} {Q : Nat → Prop} {ts : Store}

/-- `p` is a corner of the triangle, or asking for it panics. -/
theorem vert_cases {t : Nat} {T : Tri} (hT : ts[t]? = some T) (p : Nat) :
    (∃ a b n e, Sl ts t p a b n e) ∨ (T.pointCcw p = .error Tri.notIn ∧ T.pointCw p = .error Tri.notIn ∧
      T.neighborAcross p = .error (.panic "break here") ∧ T.neighborCcw p = .error Tri.notIn ∧ T.neighborCw p = .error Tri.notIn) := by
  by_cases h : ∃ i : Fin 3, T.points.get i = p
  · obtain ⟨i, rfl⟩ := h
    exact .inl ⟨_, _, _, _, sl_at hT i⟩
  · right
    have h0 : T.points.a ≠ p := fun e => h ⟨0, e⟩
    have h1 : T.points.b ≠ p := fun e => h ⟨1, e⟩
    have h2 : T.points.c ≠ p := fun e => h ⟨2, e⟩
    simp [Tri.pointCcw, Tri.pointCw, Tri.neighborAcross, Tri.pointIndex, Tri.neighborCcw, Tri.neighborCw, h0, h1, h2,
      Ne.symm h0, Ne.symm h1, Ne.symm h2]

theorem notIn_E : EErr Tri.notIn := .panic

section
variable (m : MeshInv c K Q ts) {t : Nat} {T : Tri} (hT : ts[t]? = some T)
include m hT

theorem pointCcw_spec (p : Nat) : Spec (T.pointCcw p) EErr fun a => a < c.points.length := by
  rcases vert_cases hT p with ⟨a, b, n, e, hs⟩ | h
  · rw [(hs.pts m hT).1]; exact Spec.ok (m.wo hs).1.2.1
  · rw [h.1]; exact Spec.error notIn_E

theorem pointCw_spec (p : Nat) : Spec (T.pointCw p) EErr fun a => a < c.points.length := by
  rcases vert_cases hT p with ⟨a, b, n, e, hs⟩ | h
  · rw [(hs.pts m hT).2.1]; exact Spec.ok (m.wo hs).1.2.2
  · rw [h.2.1]; exact Spec.error notIn_E

theorem nbr_lt {w u v x e} (h : Sl ts t w u v (some x) e) : x < ts.length := by
  obtain ⟨_, _, k⟩ := m.sym h
  exact k.lt

theorem neighborAcross_spec (p : Nat) : Spec (T.neighborAcross p) EErr fun n => ∀ x, n = some x → x < ts.length := by
  rcases vert_cases hT p with ⟨a, b, n, e, hs⟩ | h
  · rw [(hs.pts m hT).2.2]; refine Spec.ok ?_; rintro x rfl; exact nbr_lt m hT hs
  · rw [h.2.2.1]; exact Spec.error .panic

theorem neighborCcw_spec (p : Nat) : Spec (T.neighborCcw p) EErr fun n => ∀ x, n = some x → x < ts.length := by
  rcases vert_cases hT p with ⟨a, b, n, e, hs⟩ | h
  · obtain ⟨T', n1, n2, e1, e2, k, vT⟩ := hs.view
    rw [hT] at k; cases k
    rw [vT.neighborCcw ((oriW c).d3 (m.wo hs))]; refine Spec.ok ?_; rintro x rfl
    exact nbr_lt m hT ⟨T, hT, vT.slot2⟩
  · rw [h.2.2.2.1]; exact Spec.error notIn_E

theorem neighborCw_spec (p : Nat) : Spec (T.neighborCw p) EErr fun n => ∀ x, n = some x → x < ts.length := by
  rcases vert_cases hT p with ⟨a, b, n, e, hs⟩ | h
  · obtain ⟨T', n1, n2, e1, e2, k, vT⟩ := hs.view
    rw [hT] at k; cases k
    rw [vT.neighborCw ((oriW c).d3 (m.wo hs))]; refine Spec.ok ?_; rintro x rfl
    exact nbr_lt m hT ⟨T, hT, vT.slot1⟩
  · rw [h.2.2.2.2]; exact Spec.error notIn_E

end

/-- What flips keep. -/
structure Same (s s' : St) : Prop where
  len : s'.tris.length = s.tris.length
  grow : Grow s.tris s'.tris
  shape : s'.front.shape = s.front.shape
  trace : s'.trace = s.trace

theorem Same.refl (s : St) : Same s s := ⟨rfl, .refl _, rfl, rfl⟩
theorem Same.trans {s s' s'' : St} (h : Same s s') (h' : Same s' s'') : Same s s'' :=
  ⟨h'.len.trans h.len, h.grow.trans h'.grow, h'.shape.trans h.shape, h'.trace.trans h.trace⟩

/-- Only flags changed. -/
theorem SInv.reflag {P} {s : St} (h : SInv c K Q P s) {ts'} (r : Reflag c s.tris ts') (m : MeshInv c K Q ts') :
    SInv c K Q P { s with tris := ts' } ∧ Same s { s with tris := ts' } :=
  ⟨⟨m, h.bd.congr (r.bd), h.front, h.trace, h.one.mono r.grow r.flat⟩, ⟨r.len, r.grow, rfl, rfl⟩⟩

/-- A flip accepted by `in_scan_area`. -/
theorem scan_flip (g : Good c) {s : St} (h : SInv c K Q NoP s) {t p a b ot op e0 f0} (s0 : Sl s.tris t p a b (some ot) e0)
    (o0 : Sl s.tris ot op b a (some t) f0) (hi : inScanArea c.num (c.pos p) (c.pos a) (c.pos b) (c.pos op) = true) :
    ∃ ts need f', Store.rotatePair s.tris t p ot op = .ok (ts, need) ∧
      (if need then do
          let s ← mapTri c { s with tris := ts } t
          mapTri c s ot
        else .ok { s with tris := ts }) = .ok { s with tris := ts, front := f' } ∧
      SInv c K (fun y => Q y ∨ y = t ∨ y = ot) NoP { s with tris := ts, front := f' } ∧
      Same s { s with tris := ts, front := f' } ∧
      (∃ e, Sl ts t b p op (some ot) e) ∧ (∃ e, Sl ts ot a op p (some t) e) ∧ Convex c p a b op := by
  have w1 := h.mesh.wo s0
  have w2 := h.mesh.wo o0
  have cv : Convex c p a b op := by
    unfold inScanArea at hi
    split at hi
    · cases hi
    · split at hi
      · cases hi
      · rename_i h1 h2
        have k1 := (g.scan p a op w1.1.1 w1.1.2.1 w2.1.1).1 (not_le.1 h1)
        have k2 := (g.scan p b op w1.1.1 w1.1.2.2 w2.1.1).2 (not_le.1 h2)
        refine ⟨k2, ?_⟩
        have : det2 (c.pos p) (c.pos a) (c.pos op) = - det2 (c.pos p) (c.pos op) (c.pos a) := by unfold det2; ring
        rw [this]; linarith
  obtain ⟨F, rfl, rfl, rfl, rfl, rfl, rfl, rfl, rfl, hp⟩ := mkFlip h.mesh.ok s0 o0 (w1 := ⟨⟨w1.1.1, w2.1.1, w1.1.2.2⟩, .inl cv.1⟩)
    (w2 := ⟨⟨w1.1.1, w1.1.2.1, w2.1.1⟩, .inl cv.2⟩)
  obtain ⟨ts1, h1, h2, h3, h4⟩ := rotatePair_spec (oriW c) h.mesh.ok hp
  have m1 := h.mesh.flip hp h2
  have b1 := h.bd.flip h.mesh hp h2
  have gr := h2.grow hp h.mesh
  by_cases hn : (F.n1.isNone || F.n2.isNone || F.n3.isNone || F.n4.isNone) = true
  · obtain ⟨f1, q1, q2, q3, q4⟩ := mapTri_spec (s := { s with tris := ts1 }) m1 (t := F.t) (by show F.t < ts1.length; rw [h3]; exact s0.lt) b1 h.front
    obtain ⟨f2, z1, z2, z3, z4⟩ := mapTri_spec (s := { s with tris := ts1, front := f1 }) m1 (t := F.ot) (by show F.ot < ts1.length; rw [h3]; exact o0.lt) q3 q2
    refine ⟨ts1, _, f2, h1, ?_, ⟨m1, z3.mono ?_, z2, h.trace, h.one.mono gr (h2.flat hp cv)⟩, ⟨h3, gr, z4.trans q4, rfl⟩, ⟨_, h2.r0⟩, ⟨_, h2.r0'⟩, cv⟩
    · rw [if_pos hn, q1]; simp only [ok_bind, z1]
    · rintro t u v - ⟨⟨k1 | k1 | k1, k2⟩, k3⟩
      · exact k1
      · exact (k2 k1).elim
      · exact (k3 k1).elim
  · refine ⟨ts1, _, s.front, h1, ?_, ⟨m1, h.bd.congr (fun t u v => (h2.bd hp h.mesh).2.2 (by simpa only [Bool.not_eq_true] using hn)), h.front, h.trace, h.one.mono gr (h2.flat hp cv)⟩,
      ⟨h3, gr, rfl, rfl⟩, ⟨_, h2.r0⟩, ⟨_, h2.r0'⟩, cv⟩
    rw [if_neg hn]

/-- Result of the flipping part of an edge event. -/
structure EPost (c : Ctx) (K : Prop) (s : St) (r : St × List Nat) : Prop where
  inv : SInv c K (fun y => y ∈ r.2) NoP r.1
  lt : ∀ t ∈ r.2, t < r.1.tris.length
  same : Same s r.1

theorem EPost.trans {s s' : St} {r} (h : Same s s') (h' : EPost c K s' r) : EPost c K s r :=
  ⟨h'.inv, h'.lt, h.trans h'.same⟩

theorem nextFlipPoint_spec (m : MeshInv c K Q ts) {ep eq ot op : Nat} (h1 : ep < c.points.length) (h2 : eq < c.points.length)
    (h3 : op < c.points.length) (h4 : ot < ts.length) : Spec (nextFlipPoint c ts ep eq ot op) EErr fun p => p < c.points.length := by
  obtain ⟨O, hO⟩ : ∃ O, ts[ot]? = some O := ⟨_, List.getElem?_eq_getElem h4⟩
  simp only [nextFlipPoint, Ctx.pt_ok h1, Ctx.pt_ok h2, Ctx.pt_ok h3, ok_bind, getU_ok.2 hO]
  split
  · exact pointCcw_spec m hO _
  · exact pointCw_spec m hO _
  · exact Spec.error .panic

theorem edge_specs (gd : Good c) {g : Trap} (hK : K → g.col = true) : ∀ fuel : Nat,
    (∀ {s : St} {ep eq : Nat} {e : CEdge} {t : Option Nat} {p : Nat} {lq : List Nat}, EPost c K s (s, lq) →
      ep < c.points.length → eq < c.points.length → (∀ x, t = some x → x < s.tris.length) →
      Spec (edgeProcess g c fuel s ep eq e t p lq) EErr fun r => EPost c K s r ∧
        (g.col = true → ep = e.pId → eq = e.qId → ConEdge r.1.tris ep eq)) ∧
    (∀ {s : St} {ep eq : Nat} {e : CEdge} {t p : Nat} {lq : List Nat}, EPost c K s (s, lq) →
      ep < c.points.length → eq < c.points.length → t < s.tris.length →
      Spec (flipEdge g c fuel s ep eq e t p lq) EErr fun r => EPost c K s r ∧
        (g.col = true → ep = e.pId → eq = e.qId → ConEdge r.1.tris ep eq)) ∧
    (∀ {s : St} {ep eq : Nat} {e : CEdge} {flipT t p : Nat} {lq : List Nat}, EPost c K s (s, lq) →
      ep < c.points.length → eq < c.points.length → t < s.tris.length → flipT < s.tris.length →
      Spec (flipScan g c fuel s ep eq e flipT t p lq) EErr fun r => EPost c K s r)
  | 0 => by
    refine ⟨?_, ?_, ?_⟩
    · intros; unfold edgeProcess; exact Spec.error .fuel
    · intros; unfold flipEdge; exact Spec.error .fuel
    · intros; unfold flipScan; exact Spec.error .fuel
  | fuel + 1 => by
    obtain ⟨ihP, ihF, ihS⟩ := edge_specs gd hK fuel
    refine ⟨?_, ?_, ?_⟩
    · intro s ep eq e t p lq h hep heq ht
      unfold edgeProcess
      cases t with
      | none => exact Spec.error .panic
      | some t =>
        have ht := ht t rfl
        simp only [unwrap_some, ok_bind]
        rcases tryMarkEdge_spec h.inv.mesh ht ep eq with k | ⟨ts', k, k1, k2, k3⟩
        · simp only [k, ok_bind]
          obtain ⟨T, hT⟩ : ∃ T, s.tris[t]? = some T := ⟨_, List.getElem?_eq_getElem ht⟩
          have hm := h.inv.mesh
          have e0 : ({ s with tris := s.tris } : St) = s := rfl
          rw [if_neg (by simp)]
          simp only [getU_ok.2 hT, ok_bind]
          refine Spec.bind (pointCcw_spec hm hT p) ?_
          intro p1 hp1
          simp only [Ctx.pt_ok hep, Ctx.pt_ok heq, Ctx.pt_ok hp1, ok_bind]
          -- a collinear point
          have col : ∀ (q : Nat) (i : Fin 3), q < c.points.length → g.col = false →
              Spec (do
                let n ← T.neighborAcross p
                edgeProcess g c fuel { s with tris := s.tris.set t (T.setConstrained i true) } ep q (← e.withQ c q) n q lq) EErr
              fun r => EPost c K s r ∧ (g.col = true → ep = e.pId → eq = e.qId → ConEdge r.1.tris ep eq) := by
            intro q i hq hc
            have r1 := setCon_reflag hm hT i
            have nK : ¬ K := fun k => by rw [hK k] at hc; cases hc
            obtain ⟨i1, i2⟩ := h.inv.reflag r1 (hm.reflag r1 (fun k => (nK k).elim))
            refine Spec.bind (neighborAcross_spec hm hT p) ?_
            intro n hn
            have : e.withQ c q = .ok { pId := e.pId, qId := q, p := e.p, q := c.pos q, right := decide (e.p.x > (c.pos q).x) } := by
              simp [CEdge.withQ, Ctx.pt_ok hq]
            rw [this]
            refine (ihP (s := { s with tris := s.tris.set t (T.setConstrained i true) })
              ⟨i1, fun y hy => by rw [i2.len]; exact h.lt y hy, .refl _⟩ hep hq (fun x hx => by rw [i2.len]; exact hn x hx)).mono ?_
            rintro r ⟨j1, -⟩
            exact ⟨.trans i2 j1, fun k => by rw [hc] at k; cases k⟩
          split
          · by_cases hc : g.col = true
            · rw [if_pos hc]; exact Spec.error .trapped
            · rw [if_neg hc]
              split
              · exact Spec.error .panic
              · exact col p1 _ hp1 (by simpa using hc)
          · refine Spec.bind (pointCw_spec hm hT p) ?_
            intro p2 hp2
            simp only [Ctx.pt_ok hp2, ok_bind]
            split
            · by_cases hc : g.col = true
              · rw [if_pos hc]; exact Spec.error .trapped
              · rw [if_neg hc]
                split
                · exact Spec.error .panic
                · exact col p2 _ hp2 (by simpa using hc)
            · split
              · refine Spec.bind (R := fun n => ∀ x, n = some x → x < s.tris.length) ?_ ?_
                · split
                  · exact neighborCcw_spec hm hT p
                  · exact neighborCw_spec hm hT p
                · intro n hn
                  exact ihP h hep heq hn
              · exact ihF h hep heq ht
        · simp only [k, ok_bind, if_true]
          obtain ⟨i1, i2⟩ := h.inv.reflag k1 k2
          exact Spec.ok ⟨⟨i1, fun y hy => by rw [i2.len]; exact h.lt y hy, i2⟩, fun _ _ _ => k3⟩
    · intro s ep eq e t p lq h hep heq ht
      unfold flipEdge
      obtain ⟨T, hT⟩ : ∃ T, s.tris[t]? = some T := ⟨_, List.getElem?_eq_getElem ht⟩
      have hm := h.inv.mesh
      simp only [getU_ok.2 hT, ok_bind]
      rcases vert_cases hT p with ⟨a, b, n, e0, s0⟩ | k
      swap
      · rw [k.2.2.1]; exact Spec.error .panic
      obtain ⟨k1, k2, k3⟩ := s0.pts hm hT
      simp only [k1, k2, k3, ok_bind]
      cases n with
      | none => exact Spec.error (.inr (.inr (.inr rfl)))
      | some ot =>
        obtain ⟨op, f0, o0⟩ := hm.sym s0
        obtain ⟨O, hO⟩ : ∃ O, s.tris[ot]? = some O := ⟨_, List.getElem?_eq_getElem o0.lt⟩
        have w1 := hm.wo s0
        have w2 := hm.wo o0
        simp only [Store.getUO, getU_ok.2 hO, ok_bind, pure_ok, oppositePoint_sl hm s0 o0 hT hO, Ctx.pt_ok w1.1.1, Ctx.pt_ok w1.1.2.1,
          Ctx.pt_ok w1.1.2.2, Ctx.pt_ok w2.1.1, Ctx.pt_ok hep, Ctx.pt_ok heq]
        split
        · rename_i hi
          obtain ⟨ts, need, f', z1, z2, z3, z4, ⟨g1, z5⟩, ⟨g2, z6⟩, z7⟩ := scan_flip gd h.inv s0 o0 hi
          simp only [z1, ok_bind]
          rw [z2]
          simp only [ok_bind]
          have tlt : t < ts.length := z5.lt
          have olt : ot < ts.length := z6.lt
          have q0 : EPost c K s ({ s with tris := ts, front := f' }, lq ++ [t, ot]) := by
            refine ⟨z3.mono ?_ (fun _ => id), ?_, z4⟩
            · rintro y (hy | rfl | rfl)
              · simp [hy]
              · simp
              · simp
            · intro y hy
              simp only [List.mem_append, List.mem_cons, List.not_mem_nil, or_false] at hy
              rcases hy with hy | rfl | rfl
              · show y < ts.length
                rw [z4.len]; exact h.lt y hy
              · exact tlt
              · exact olt
          by_cases hend : p = eq ∧ op = ep
          · rw [if_pos hend]
            by_cases hfin : eq = e.qId ∧ ep = e.pId
            · rw [if_pos hfin]
              obtain ⟨T1, O1, y1, y2, y3, y4, y5⟩ := setConFor_pair q0.inv.mesh z5 z6 (p := ep) (q := eq) (.inr ⟨hend.2.symm, hend.1.symm⟩)
              simp only at y1 y2 y3 y4 y5
              simp only [getU_ok.2 y1, ok_bind, getU_ok.2 y2]
              obtain ⟨i1, i2⟩ := q0.inv.reflag y3 y4
              exact Spec.ok ⟨⟨i1, fun y hy => by rw [i2.len]; exact q0.lt y hy, q0.same.trans i2⟩, fun _ _ _ => y5⟩
            · rw [if_neg hfin]
              exact Spec.ok ⟨q0, fun _ k1 k2 => (hfin ⟨k2, k1⟩).elim⟩
          · rw [if_neg hend]
            have hnf : ∀ o, ((nextFlipTriangle o t ot).1 = t ∨ (nextFlipTriangle o t ot).1 = ot) ∧
                ((nextFlipTriangle o t ot).2 = t ∨ (nextFlipTriangle o t ot).2 = ot) := by
              intro o; unfold nextFlipTriangle; split <;> simp
            obtain ⟨n1, n2⟩ := hnf (orient2d (c.pos eq) (c.pos op) (c.pos ep))
            generalize nextFlipTriangle (orient2d (c.pos eq) (c.pos op) (c.pos ep)) t ot = nf at n1 n2 ⊢
            refine (ihF (s := { s with tris := ts, front := f' }) (lq := lq ++ [t, ot] ++ [nf.2]) ⟨q0.inv.mono ?_ (fun _ => id), ?_, .refl _⟩ hep heq ?_).mono ?_
            · intro y hy; simp only at hy ⊢; rw [List.mem_append]; exact .inl hy
            · intro y hy
              simp only at hy ⊢
              rw [List.mem_append, List.mem_singleton] at hy
              rcases hy with hy | rfl
              · exact q0.lt y hy
              · rcases n2 with k | k <;> rw [k] <;> assumption
            · show nf.1 < ts.length
              rcases n1 with k | k <;> rw [k] <;> assumption
            · rintro r ⟨j1, j2⟩
              exact ⟨.trans q0.same j1, j2⟩
        · refine Spec.bind (nextFlipPoint_spec hm hep heq w2.1.1 o0.lt) ?_
          intro np hnp
          refine Spec.bind (ihS h hep heq o0.lt ht) ?_
          rintro ⟨s1, lq1⟩ q1
          refine (ihP (s := s1) ⟨q1.inv, q1.lt, .refl _⟩ hep heq (by rintro x ⟨⟩; rw [q1.same.len]; exact ht)).mono ?_
          rintro r ⟨j1, j2⟩
          exact ⟨.trans q1.same j1, j2⟩
    · intro s ep eq e flipT t p lq h hep heq ht hf
      unfold flipScan
      obtain ⟨T, hT⟩ : ∃ T, s.tris[t]? = some T := ⟨_, List.getElem?_eq_getElem ht⟩
      obtain ⟨F, hF⟩ : ∃ T, s.tris[flipT]? = some T := ⟨_, List.getElem?_eq_getElem hf⟩
      have hm := h.inv.mesh
      simp only [getU_ok.2 hT, ok_bind]
      rcases vert_cases hT p with ⟨a, b, n, e0, s0⟩ | k
      swap
      · rw [k.2.2.1]; exact Spec.error .panic
      obtain ⟨k1, k2, k3⟩ := s0.pts hm hT
      simp only [k3, ok_bind]
      cases n with
      | none => exact Spec.error .panic
      | some ot =>
        obtain ⟨op, f0, o0⟩ := hm.sym s0
        obtain ⟨O, hO⟩ : ∃ O, s.tris[ot]? = some O := ⟨_, List.getElem?_eq_getElem o0.lt⟩
        have w2 := hm.wo o0
        simp only [unwrap_some, getU_ok.2 hO, ok_bind, getU_ok.2 hF, oppositePoint_sl hm s0 o0 hT hO]
        refine Spec.bind (pointCcw_spec hm hF eq) ?_
        intro p1 hp1
        refine Spec.bind (pointCw_spec hm hF eq) ?_
        intro p2 hp2
        simp only [Ctx.pt_ok heq, Ctx.pt_ok hp1, Ctx.pt_ok hp2, Ctx.pt_ok w2.1.1, ok_bind]
        split
        · exact (ihF h heq w2.1.1 o0.lt).mono fun _ k => k.1
        · refine Spec.bind (nextFlipPoint_spec hm hep heq w2.1.1 o0.lt) ?_
          intro np hnp
          exact ihS h hep heq o0.lt hf

end P2T
