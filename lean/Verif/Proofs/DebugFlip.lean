import Verif.Proofs.DebugEdge

/-!
# The assertions met by the flips of edge events
-/

set_option linter.unusedSectionVars false

namespace P2T

variable {c : Ctx} {K : Prop}

theorem nextFlipPointD_ok {ts : Store} {ep eq ot op : Nat} : Sim (nextFlipPoint c ts ep eq ot op) (nextFlipPointD c ts ep eq ot op) := by
  unfold nextFlipPoint nextFlipPointD
  refine .bindr _ fun e _ => .bindr _ fun o _ => .bindr _ fun p _ => .bindr _ fun O _ => ?_
  by_cases h : orient2d e o p = .collinear
  · rw [h]; exact .err _ _
  · rw [orientD_ne h, ok_bind]; exact .refl _

/-- The corners of a flippable quadrilateral are different. -/
theorem scan_ne (g : Good c) {p a b op : Nat} (h1 : p < c.points.length) (h2 : a < c.points.length) (h3 : op < c.points.length)
    (hi : inScanArea c.num (c.pos p) (c.pos a) (c.pos b) (c.pos op) = true) : op ≠ p := by
  rintro rfl
  unfold inScanArea at hi
  split at hi
  · cases hi
  · rename_i k
    have := (g.scan op a op h1 h2 h3).1 (not_le.1 k)
    unfold det2 at this
    linarith

theorem flipD_oks (gd : Good c) {g : Trap} (hc : g.col = true) (hK : K → g.col = true) : ∀ fuel : Nat,
    (∀ {s : St} {ep eq : Nat} {e : CEdge} {t : Option Nat} {lq : List Nat}, EPost c K s (s, lq) →
      ep < c.points.length → eq < c.points.length → ep ≠ eq → (∀ x, t = some x → x < s.tris.length) →
      Sim (edgeProcess g c fuel s ep eq e t eq lq) (edgeProcessD c fuel s ep eq e t eq lq)) ∧
    (∀ {s : St} {ep eq : Nat} {e : CEdge} {t : Nat} {lq : List Nat}, EPost c K s (s, lq) →
      ep < c.points.length → eq < c.points.length → ep ≠ eq → t < s.tris.length →
      Sim (flipEdge g c fuel s ep eq e t eq lq) (flipEdgeD c fuel s ep eq e t eq lq)) ∧
    (∀ {s : St} {ep eq : Nat} {e : CEdge} {flipT t p : Nat} {lq : List Nat}, EPost c K s (s, lq) →
      ep < c.points.length → eq < c.points.length → t < s.tris.length → flipT < s.tris.length →
      Sim (flipScan g c fuel s ep eq e flipT t p lq) (flipScanD c fuel s ep eq e flipT t p lq))
  | 0 => by
    refine ⟨?_, ?_, ?_⟩
    · intros; unfold edgeProcess; exact .err _ _
    · intros; unfold flipEdge; exact .err _ _
    · intros; unfold flipScan; exact .err _ _
  | fuel + 1 => by
    obtain ⟨ihP, ihF, ihS⟩ := flipD_oks gd hc hK fuel
    refine ⟨?_, ?_, ?_⟩
    · intro s ep eq e t lq h hep heq hne ht
      unfold edgeProcess edgeProcessD
      cases t with
      | none => exact .err _ _
      | some t =>
        have ht := ht t rfl
        simp only [unwrap_some, ok_bind]
        rcases tryMarkEdge_spec h.inv.mesh ht ep eq with k | ⟨ts', k, k1, k2, k3⟩
        · simp only [k, ok_bind]
          obtain ⟨T, hT⟩ : ∃ T, s.tris[t]? = some T := ⟨_, List.getElem?_eq_getElem ht⟩
          have hm := h.inv.mesh
          rw [if_neg (by simp), if_neg (by simp)]
          simp only [getU_ok.2 hT, ok_bind]
          refine .bindr _ fun p1 hp1' => ?_
          have hp1 := (pointCcw_spec hm hT eq).get hp1'
          simp only [Ctx.pt_ok hep, Ctx.pt_ok heq, Ctx.pt_ok hp1, ok_bind]
          by_cases h1 : orient2d (c.pos eq) (c.pos p1) (c.pos ep) = .collinear
          · rw [if_pos h1, if_pos hc]; exact .err _ _
          rw [if_neg h1, orientD_ne h1, ok_bind, if_neg h1]
          refine .bindr _ fun p2 hp2' => ?_
          have hp2 := (pointCw_spec hm hT eq).get hp2'
          simp only [Ctx.pt_ok hp2, ok_bind]
          by_cases h2 : orient2d (c.pos eq) (c.pos p2) (c.pos ep) = .collinear
          · rw [if_pos h2, if_pos hc]; exact .err _ _
          rw [if_neg h2, orientD_ne h2, ok_bind, if_neg h2]
          refine .ite (fun _ => ?_) fun _ => ihF h hep heq hne ht
          refine .bindr _ fun n hn' => ihP h hep heq hne ?_
          split at hn'
          · exact (neighborCcw_spec hm hT eq).get hn'
          · exact (neighborCw_spec hm hT eq).get hn'
        · simp only [k, ok_bind, if_true]; exact .refl _
    · intro s ep eq e t lq h hep heq hne ht
      unfold flipEdge flipEdgeD
      obtain ⟨T, hT⟩ : ∃ T, s.tris[t]? = some T := ⟨_, List.getElem?_eq_getElem ht⟩
      have hm := h.inv.mesh
      simp only [getU_ok.2 hT, ok_bind]
      rcases vert_cases hT eq with ⟨a, b, n, e0, s0⟩ | k
      swap
      · rw [k.2.2.1]; exact .err _ _
      obtain ⟨k1, k2, k3⟩ := s0.pts hm hT
      simp only [k1, k2, k3, ok_bind]
      cases n with
      | none => exact .err _ _
      | some ot =>
        obtain ⟨op, f0, o0⟩ := hm.sym s0
        obtain ⟨O, hO⟩ : ∃ O, s.tris[ot]? = some O := ⟨_, List.getElem?_eq_getElem o0.lt⟩
        have w1 := hm.wo s0
        have w2 := hm.wo o0
        simp only [Store.getUO, getU_ok.2 hO, ok_bind, pure_ok, oppositePoint_sl hm s0 o0 hT hO, Ctx.pt_ok w1.1.1, Ctx.pt_ok w1.1.2.1,
          Ctx.pt_ok w1.1.2.2, Ctx.pt_ok w2.1.1, Ctx.pt_ok hep, Ctx.pt_ok heq]
        by_cases hi : inScanArea c.num (c.pos eq) (c.pos a) (c.pos b) (c.pos op) = true
        · rw [if_pos hi, if_pos hi]
          obtain ⟨ts, need, f', z1, z2, z3, z4, ⟨g1, z5⟩, ⟨g2, z6⟩, z7⟩ := scan_flip gd h.inv s0 o0 hi
          simp only [z1, flipD_ok hm s0 o0 z7 z1, ok_bind]
          rw [z2]
          simp only [ok_bind]
          have tlt : t < ts.length := z5.lt
          have olt : ot < ts.length := z6.lt
          have q0 : EPost c K s ({ s with tris := ts, front := f' }, lq ++ [t, ot]) := by
            refine ⟨z3.mono ?_ (fun _ => id), ?_, z4⟩
            · rintro y (hy | rfl | rfl)
              · simp [hy]
              · simp
              · simp
            · intro y hy
              simp only [List.mem_append, List.mem_cons, List.not_mem_nil, or_false] at hy
              rcases hy with hy | rfl | rfl
              · show y < ts.length
                rw [z4.len]; exact h.lt y hy
              · exact tlt
              · exact olt
          refine .ite (fun _ => .refl _) fun hend => ?_
          have n1 : c.pos eq ≠ c.pos op := fun k => scan_ne gd w1.1.1 w1.1.2.1 w2.1.1 hi (gd.inj _ _ heq w2.1.1 k).symm
          have n2 : c.pos eq ≠ c.pos ep := fun k => hne (gd.inj _ _ heq hep k).symm
          have n3 : c.pos op ≠ c.pos ep := fun k => hend ⟨trivial, gd.inj _ _ w2.1.1 hep k⟩
          rw [orientD_ok n1 n2 n3, ok_bind]
          have hnf : ∀ o, ((nextFlipTriangle o t ot).1 = t ∨ (nextFlipTriangle o t ot).1 = ot) ∧
              ((nextFlipTriangle o t ot).2 = t ∨ (nextFlipTriangle o t ot).2 = ot) := by
            intro o; unfold nextFlipTriangle; split <;> simp
          obtain ⟨n1, n2⟩ := hnf (orient2d (c.pos eq) (c.pos op) (c.pos ep))
          generalize nextFlipTriangle (orient2d (c.pos eq) (c.pos op) (c.pos ep)) t ot = nf at n1 n2 ⊢
          refine ihF (s := { s with tris := ts, front := f' }) (lq := lq ++ [t, ot] ++ [nf.2]) ⟨q0.inv.mono ?_ (fun _ => id), ?_, .refl _⟩ hep heq hne ?_
          · intro y hy; simp only at hy ⊢; rw [List.mem_append]; exact .inl hy
          · intro y hy
            simp only at hy ⊢
            rw [List.mem_append, List.mem_singleton] at hy
            rcases hy with hy | rfl
            · exact q0.lt y hy
            · rcases n2 with k | k <;> rw [k] <;> assumption
          · show nf.1 < ts.length
            rcases n1 with k | k <;> rw [k] <;> assumption
        · rw [if_neg hi, if_neg hi]
          refine .bind nextFlipPointD_ok fun np hnp => ?_
          refine .bind (ihS h hep heq o0.lt ht) ?_
          rintro ⟨s1, lq1⟩ hs1
          have q1 := ((edge_specs gd hK fuel).2.2 h hep heq o0.lt ht).get hs1
          exact ihP (s := s1) ⟨q1.inv, q1.lt, .refl _⟩ hep heq hne (by rintro x ⟨⟩; rw [q1.same.len]; exact ht)
    · intro s ep eq e flipT t p lq h hep heq ht hf
      unfold flipScan flipScanD
      obtain ⟨T, hT⟩ : ∃ T, s.tris[t]? = some T := ⟨_, List.getElem?_eq_getElem ht⟩
      obtain ⟨F, hF⟩ : ∃ T, s.tris[flipT]? = some T := ⟨_, List.getElem?_eq_getElem hf⟩
      have hm := h.inv.mesh
      simp only [getU_ok.2 hT, ok_bind]
      rcases vert_cases hT p with ⟨a, b, n, e0, s0⟩ | k
      swap
      · rw [k.2.2.1]; exact .err _ _
      obtain ⟨k1, k2, k3⟩ := s0.pts hm hT
      simp only [k3, ok_bind]
      cases n with
      | none => exact .err _ _
      | some ot =>
        obtain ⟨op, f0, o0⟩ := hm.sym s0
        obtain ⟨O, hO⟩ : ∃ O, s.tris[ot]? = some O := ⟨_, List.getElem?_eq_getElem o0.lt⟩
        have w2 := hm.wo o0
        simp only [unwrap_some, getU_ok.2 hO, ok_bind, getU_ok.2 hF, oppositePoint_sl hm s0 o0 hT hO]
        refine .bindr _ fun p1 hp1' => .bindr _ fun p2 hp2' => ?_
        have hp1 := (pointCcw_spec hm hF eq).get hp1'
        have hp2 := (pointCw_spec hm hF eq).get hp2'
        simp only [Ctx.pt_ok heq, Ctx.pt_ok hp1, Ctx.pt_ok hp2, Ctx.pt_ok w2.1.1, ok_bind]
        refine .ite (fun hi => ?_) fun _ => ?_
        · exact ihF h heq w2.1.1 (scan_ne gd heq hp1 w2.1.1 hi).symm o0.lt
        · exact .bind nextFlipPointD_ok fun np hnp => ihS h hep heq o0.lt hf

end P2T
