import Verif.Proofs.Flip
import Verif.Proofs.Geom

/-!
# The mesh invariant

`MeshInv c K Q ts`: the half-edges of `ts` are consistent and weakly counter-clockwise, edges flagged
Delaunay are legal, and an edge that is unconstrained on both sides is legal unless one of its two
triangles satisfies `Q` (is waiting in a legalize queue).
-/

namespace P2T

/-- Position of a point by number. -/
def Ctx.pos (c : Ctx) (i : Nat) : Point := (c.points[i]?).getD ⟨0, 0⟩

theorem Ctx.pt_ok {c : Ctx} {i : Nat} (h : i < c.points.length) : c.pt i = .ok (c.pos i) := by
  simp [Ctx.pt, Ctx.pos, List.getElem?_eq_getElem h]

theorem Ctx.pos_get {c : Ctx} {i : Nat} {p : Point} (h : c.points[i]? = some p) : c.pos i = p := by
  simp [Ctx.pos, h]

/-- Weakly counter-clockwise triple of point numbers. -/
def Ctx.W (c : Ctx) (i j k : Nat) : Prop :=
  (i < c.points.length ∧ j < c.points.length ∧ k < c.points.length) ∧ WO (c.pos i) (c.pos j) (c.pos k)

theorem oriW (c : Ctx) : Ori c.W :=
  ⟨fun h => ⟨⟨h.1.2.1, h.1.2.2, h.1.1⟩, h.2.rot⟩, fun h h' => h.2.anti h'.2⟩

/-- The edge `u v` between the apexes `w` and `w'` is legal: `w'` is not strictly inside the
circumcircle of `w u v`. -/
def Legal (c : Ctx) (w u v w' : Nat) : Prop := inCircleDet (c.pos w) (c.pos u) (c.pos v) (c.pos w') ≤ 0

theorem Legal.symm {c : Ctx} {w u v w'} (h : Legal c w u v w') : Legal c w' v u w := by
  unfold Legal at *; rw [incircle_sym]; exact h

/-- The flip keeps the mesh consistent. -/
theorem MeshOk.flip {c : Ctx} {ts ts' : Store} (h : MeshOk c.W ts) {F : Flip} (p : F.Pre c.W ts) (r : F.Rel ts ts') :
    MeshOk c.W ts' := by
  have d := p.facts (oriW c) h
  have ro := @(oriW c).rot
  refine ⟨?_, ?_⟩
  · intro t w u v n e hs
    rw [r] at hs
    have s1 := h.wo p.s1; have s2 := h.wo p.s2; have o3 := h.wo p.o3; have o4 := h.wo p.o4
    have w1 := p.w1; have w2 := p.w2
    have h1 := fun u hu => h.wo (p.h1 u hu)
    have h2 := fun u hu => h.wo (p.h2 u hu)
    have h3 := fun u hu => h.wo (p.h3 u hu)
    have h4 := fun u hu => h.wo (p.h4 u hu)
    rcases hs with ⟨-, rfl, rfl, rfl, -⟩ | ⟨-, rfl, rfl, rfl, -⟩ | ⟨-, rfl, rfl, rfl, -⟩ | ⟨-, rfl, rfl, rfl, -⟩ |
      ⟨-, rfl, rfl, rfl, -⟩ | ⟨-, rfl, rfl, rfl, -⟩ | ⟨hn, rfl, rfl, rfl, -⟩ | ⟨hn, rfl, rfl, rfl, -⟩ |
      ⟨hn, rfl, rfl, rfl, -⟩ | ⟨hn, rfl, rfl, rfl, -⟩ | ⟨-, -, -, -, hs⟩
    · exact ro (ro w1)
    · exact w1
    · exact ro w1
    · exact ro w2
    · exact ro (ro w2)
    · exact w2
    · exact h1 _ hn
    · exact h2 _ hn
    · exact h3 _ hn
    · exact h4 _ hn
    · exact h.wo hs
  · intro t w u v x e hs
    rw [r] at hs
    have u1 := d.u1; have u2 := d.u2; have u3 := d.u3; have u4 := d.u4
    have tt := d.tot
    rcases hs with ⟨rfl, rfl, rfl, rfl, hn, -⟩ | ⟨rfl, rfl, rfl, rfl, hn, -⟩ | ⟨rfl, rfl, rfl, rfl, hn, -⟩ | ⟨rfl, rfl, rfl, rfl, hn, -⟩ |
      ⟨rfl, rfl, rfl, rfl, hn, -⟩ | ⟨rfl, rfl, rfl, rfl, hn, -⟩ | ⟨hy, rfl, rfl, rfl, hn, -⟩ | ⟨hy, rfl, rfl, rfl, hn, -⟩ |
      ⟨hy, rfl, rfl, rfl, hn, -⟩ | ⟨hy, rfl, rfl, rfl, hn, -⟩ | ⟨h1, h2, h3, h4, hs⟩
    · cases hn; exact ⟨_, _, (r ..).2 (.inr (.inr (.inr (.inl ⟨rfl, rfl, rfl, rfl, rfl, rfl⟩))))⟩
    · exact ⟨_, _, (r ..).2 (.inr (.inr (.inr (.inr (.inr (.inr (.inr (.inr (.inl ⟨hn.symm, rfl, rfl, rfl, rfl, rfl⟩)))))))))⟩
    · exact ⟨_, _, (r ..).2 (.inr (.inr (.inr (.inr (.inr (.inr (.inr (.inl ⟨hn.symm, rfl, rfl, rfl, rfl, rfl⟩))))))))⟩
    · cases hn; exact ⟨_, _, (r ..).2 (.inl ⟨rfl, rfl, rfl, rfl, rfl, rfl⟩)⟩
    · exact ⟨_, _, (r ..).2 (.inr (.inr (.inr (.inr (.inr (.inr (.inl ⟨hn.symm, rfl, rfl, rfl, rfl, rfl⟩)))))))⟩
    · exact ⟨_, _, (r ..).2 (.inr (.inr (.inr (.inr (.inr (.inr (.inr (.inr (.inr (.inl ⟨hn.symm, rfl, rfl, rfl, rfl, rfl⟩))))))))))⟩
    · cases hn; exact ⟨_, _, (r ..).2 (.inr (.inr (.inr (.inr (.inl ⟨rfl, rfl, rfl, rfl, hy.symm, rfl⟩)))))⟩
    · cases hn; exact ⟨_, _, (r ..).2 (.inr (.inr (.inl ⟨rfl, rfl, rfl, rfl, hy.symm, rfl⟩)))⟩
    · cases hn; exact ⟨_, _, (r ..).2 (.inr (.inl ⟨rfl, rfl, rfl, rfl, hy.symm, rfl⟩))⟩
    · cases hn; exact ⟨_, _, (r ..).2 (.inr (.inr (.inr (.inr (.inr (.inl ⟨rfl, rfl, rfl, rfl, hy.symm, rfl⟩))))))⟩
    · obtain ⟨w', e', hs'⟩ := h.sym hs
      refine ⟨w', e', (r ..).2 (.inr (.inr (.inr (.inr (.inr (.inr (.inr (.inr (.inr (.inr ⟨?_, ?_, ?_, ?_, hs'⟩))))))))))⟩
      all_goals grind

/-- `K` switches the symmetry of constraint marks on. -/
structure MeshInv (c : Ctx) (K : Prop) (Q : Nat → Prop) (ts : Store) : Prop where
  wo : ∀ {t w u v n e}, Sl ts t w u v n e → c.W w u v
  sym : ∀ {t w u v x e}, Sl ts t w u v (some x) e → ∃ w' e', Sl ts x w' v u (some t) e'
  del : ∀ {t w u v x e w' e'}, Sl ts t w u v (some x) e → Sl ts x w' v u (some t) e' →
    e.isDelaunay = true → Legal c w u v w'
  leg : ∀ {t w u v x e w' e'}, Sl ts t w u v (some x) e → Sl ts x w' v u (some t) e' →
    e.isConstrained = false → e'.isConstrained = false → Q t ∨ Q x ∨ Legal c w u v w'
  csym : ∀ {t w u v x e w' e'}, K → Sl ts t w u v (some x) e → Sl ts x w' v u (some t) e' →
    e.isConstrained = e'.isConstrained

namespace MeshInv

variable {c : Ctx} {K : Prop} {Q Q' : Nat → Prop} {ts ts' : Store}

theorem ok (h : MeshInv c K Q ts) : MeshOk c.W ts := ⟨h.wo, h.sym⟩

theorem mono (h : MeshInv c K Q ts) (hQ : ∀ t, Q t → Q' t) : MeshInv c K Q' ts :=
  ⟨h.wo, h.sym, h.del, fun a b d d' => by
    rcases h.leg a b d d' with k | k | k
    · exact .inl (hQ _ k)
    · exact .inr (.inl (hQ _ k))
    · exact .inr (.inr k), h.csym⟩

/-- Within one triangle the directed edge determines the half-edge. -/
theorem uniq (h : MeshInv c K Q ts) {t w u v n e w' n' e'} (a : Sl ts t w u v n e)
    (b : Sl ts t w' u v n' e') : w = w' ∧ n = n' ∧ e = e' := by
  have d := (oriW c).d3 (h.wo a)
  have := sl_two a d b
  obtain ⟨d1, d2, d3⟩ := d
  grind

/-- The triangle itself is not its neighbour. -/
theorem ne (h : MeshInv c K Q ts) {t w u v x e} (a : Sl ts t w u v (some x) e) : t ≠ x := by
  rintro rfl
  obtain ⟨w', e', b⟩ := h.sym a
  have d := (oriW c).d3 (h.wo a)
  have := sl_two a d b
  obtain ⟨d1, d2, d3⟩ := d
  grind

/-- Apexes on both sides of an edge differ. -/
theorem apex_ne (h : MeshInv c K Q ts) {t w u v n e t' w' n' e'} (a : Sl ts t w u v n e)
    (b : Sl ts t' w' v u n' e') : w ≠ w' := by
  rintro rfl
  exact (oriW c).anti ((oriW c).rot (h.wo a)) ((oriW c).rot (h.wo b))

/-- Two triangles share at most one edge. -/
theorem nbr_uniq (h : MeshInv c K Q ts) {t w u v x e w' u' v' e'} (a : Sl ts t w u v (some x) e)
    (b : Sl ts t w' u' v' (some x) e') : w = w' ∧ u = u' ∧ v = v' ∧ e = e' := by
  have d := (oriW c).d3 (h.wo a)
  rcases sl_two a d b with k | ⟨rfl, rfl, rfl⟩ | ⟨rfl, rfl, rfl⟩
  · grind
  · obtain ⟨w1, e1, a1⟩ := h.sym a
    obtain ⟨w2, e2, b1⟩ := h.sym b
    have d1 := (oriW c).d3 (h.wo a1)
    have := sl_two a1 d1 b1
    have := h.apex_ne a a1
    obtain ⟨d1, d2, d3⟩ := d
    grind
  · obtain ⟨w1, e1, a1⟩ := h.sym a
    obtain ⟨w2, e2, b1⟩ := h.sym b
    have d1 := (oriW c).d3 (h.wo a1)
    have := sl_two a1 d1 b1
    have := h.apex_ne a a1
    obtain ⟨d1, d2, d3⟩ := d
    grind

/-- The flip keeps the mesh consistent; its two triangles have to be legalized. -/
theorem flip (h : MeshInv c K Q ts) {F : Flip} (p : F.Pre c.W ts) (r : F.Rel ts ts') :
    MeshInv c K (fun t => Q t ∨ t = F.t ∨ t = F.ot) ts' := by
  have d := p.facts (oriW c) h.ok
  have ro := @(oriW c).rot
  refine ⟨(h.ok.flip p r).wo, (h.ok.flip p r).sym, ?_, ?_, ?_⟩
  · intro t w u v x e w' e' hs hs' hd
    have : (t ≠ F.t ∧ t ≠ F.ot ∧ x ≠ F.t ∧ x ≠ F.ot ∧ Sl ts t w u v (some x) e) := by
      rw [r] at hs
      have e1 : ∀ {y a b}, some x = y → (linkA y a b).isDelaunay = true → False := by
        intro y a b hy; subst hy; simp [linkA]
      have e2 := @mkA_del
      grind (splits := 40)
    obtain ⟨k1, k2, k3, k4, hs⟩ := this
    have : Sl ts x w' v u (some t) e' := by
      rw [r] at hs'
      grind (splits := 40)
    exact h.del hs this hd
  · intro t w u v x e w' e' hs hs' hc hc'
    by_cases k1 : t = F.t ∨ t = F.ot
    · exact .inl (.inr k1)
    by_cases k2 : x = F.t ∨ x = F.ot
    · exact .inr (.inl (.inr k2))
    have : Sl ts t w u v (some x) e := by rw [r] at hs; grind (splits := 40)
    have : Sl ts x w' v u (some t) e' := by rw [r] at hs'; grind (splits := 40)
    rcases h.leg ‹Sl ts t w u v (some x) e› this hc hc' with k | k | k
    · exact .inl (.inl k)
    · exact .inr (.inl (.inl k))
    · exact .inr (.inr k)
  · intro t w u v x e w' e' hK hs hs'
    have cs := fun {t w u v x e w' e'} => @MeshInv.csym _ _ _ _ h t w u v x e w' e' hK
    have u1 := d.u1; have u2 := d.u2; have u3 := d.u3; have u4 := d.u4
    have k1 := d.u12 t; have k2 := d.u13 t; have k3 := d.u14 t
    have k4 := d.u23 t; have k5 := d.u24 t; have k6 := d.u34 t
    have l1 := d.u12 x; have l2 := d.u13 x; have l3 := d.u14 x
    have l4 := d.u23 x; have l5 := d.u24 x; have l6 := d.u34 x
    have tt := d.tot
    have j1 := d.pop; have j2 := d.aop; have j3 := d.bop; have j4 := d.pa; have j5 := d.pb; have j6 := d.ab
    have e2 := @mkA_con
    have e1 : ∀ {y a b}, some x = y → (linkA y a b).isConstrained = (b.isConstrained || a.isConstrained) := by
      intro y a b hy; subst hy; simp [linkA]
    have e3 : ∀ {y a b}, some t = y → (linkA y a b).isConstrained = (b.isConstrained || a.isConstrained) := by
      intro y a b hy; subst hy; simp [linkA]
    rw [r] at hs hs'
    clear r p d h
    rcases hs with ⟨rfl, rfl, rfl, rfl, hn, rfl⟩ | ⟨rfl, rfl, rfl, rfl, hn, rfl⟩ | ⟨rfl, rfl, rfl, rfl, hn, rfl⟩ | ⟨rfl, rfl, rfl, rfl, hn, rfl⟩ |
      ⟨rfl, rfl, rfl, rfl, hn, rfl⟩ | ⟨rfl, rfl, rfl, rfl, hn, rfl⟩ | ⟨hy, rfl, rfl, rfl, hn, rfl⟩ | ⟨hy, rfl, rfl, rfl, hn, rfl⟩ |
      ⟨hy, rfl, rfl, rfl, hn, rfl⟩ | ⟨hy, rfl, rfl, rfl, hn, rfl⟩ | ⟨h1, h2, h3, h4, hs⟩
    all_goals grind (splits := 40)

end MeshInv

end P2T
