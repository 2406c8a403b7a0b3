import Verif.Proofs.Reflag

/-!
# Flips: existence, constrained edges, boundary
-/

namespace P2T

variable {c : Ctx} {K : Prop} {Q : Nat → Prop} {ts ts' : Store}

theorem nbr_data (m : MeshOk c.W ts) {t w u v n e} (h : Sl ts t w u v n e) :
    ∃ x g, ∀ y, n = some y → Sl ts y x v u (some t) g := by
  cases n with
  | none => exact ⟨0, e, by simp⟩
  | some y =>
    obtain ⟨x, g, hs⟩ := m.sym h
    exact ⟨x, g, by rintro y' ⟨⟩; exact hs⟩

/-- Two adjacent triangles forming a properly oriented quadrilateral can be flipped. -/
theorem mkFlip (m : MeshOk c.W ts) {t p a b ot op e0 f0} (s0 : Sl ts t p a b (some ot) e0)
    (o0 : Sl ts ot op b a (some t) f0) (w1 : c.W p op b) (w2 : c.W p a op) :
    ∃ F : Flip, F.t = t ∧ F.ot = ot ∧ F.p = p ∧ F.a = a ∧ F.b = b ∧ F.op = op ∧ F.e0 = e0 ∧ F.f0 = f0 ∧
      F.Pre c.W ts := by
  obtain ⟨n2, e2, s2⟩ := s0.rot
  obtain ⟨n1, e1, s1⟩ := s2.rot
  obtain ⟨n4, f4, o4⟩ := o0.rot
  obtain ⟨n3, f3, o3⟩ := o4.rot
  obtain ⟨x1, g1, h1⟩ := nbr_data m s1
  obtain ⟨x2, g2, h2⟩ := nbr_data m s2
  obtain ⟨x3, g3, h3⟩ := nbr_data m o3
  obtain ⟨x4, g4, h4⟩ := nbr_data m o4
  exact ⟨⟨t, ot, p, a, b, op, n1, n2, n3, n4, e0, e1, e2, f0, f3, f4, x1, x2, x3, x4, g1, g2, g3, g4⟩,
    rfl, rfl, rfl, rfl, rfl, rfl, rfl, rfl, ⟨s0, s1, s2, o0, o3, o4, h1, h2, h3, h4, w1, w2⟩⟩

namespace Flip

variable {F : Flip}

/-- The half-edges of the first triangle. -/
theorem Pre.onT (p : F.Pre c.W ts) (m : MeshInv c K Q ts) {w u v n e} (h : Sl ts F.t w u v n e) :
    (w = F.p ∧ u = F.a ∧ v = F.b ∧ n = some F.ot ∧ e = F.e0) ∨ (w = F.b ∧ u = F.p ∧ v = F.a ∧ n = F.n1 ∧ e = F.e1) ∨
    (w = F.a ∧ u = F.b ∧ v = F.p ∧ n = F.n2 ∧ e = F.e2) := by
  have d := (oriW c).d3 (m.wo p.s0)
  rcases sl_two p.s0 d h with k | ⟨rfl, rfl, rfl⟩ | ⟨rfl, rfl, rfl⟩
  · exact .inl k
  · have := m.uniq h p.s2; exact .inr (.inr ⟨rfl, rfl, rfl, this.2⟩)
  · have := m.uniq h p.s1; exact .inr (.inl ⟨rfl, rfl, rfl, this.2⟩)

theorem Pre.onO (p : F.Pre c.W ts) (m : MeshInv c K Q ts) {w u v n e} (h : Sl ts F.ot w u v n e) :
    (w = F.op ∧ u = F.b ∧ v = F.a ∧ n = some F.t ∧ e = F.f0) ∨ (w = F.a ∧ u = F.op ∧ v = F.b ∧ n = F.n3 ∧ e = F.f3) ∨
    (w = F.b ∧ u = F.a ∧ v = F.op ∧ n = F.n4 ∧ e = F.f4) := by
  have d := (oriW c).d3 (m.wo p.o0)
  rcases sl_two p.o0 d h with k | ⟨rfl, rfl, rfl⟩ | ⟨rfl, rfl, rfl⟩
  · exact .inl k
  · have := m.uniq h p.o4; exact .inr (.inr ⟨rfl, rfl, rfl, this.2⟩)
  · have := m.uniq h p.o3; exact .inr (.inl ⟨rfl, rfl, rfl, this.2⟩)

/-- A half-edge towards the quadrilateral from outside. -/
theorem Pre.toward (p : F.Pre c.W ts) (m : MeshInv c K Q ts) {y w u v n e} (h : Sl ts y w u v n e) (h1 : y ≠ F.t) (h2 : y ≠ F.ot)
    (hn : n = some F.t ∨ n = some F.ot) :
    (F.n1 = some y ∧ w = F.x1 ∧ u = F.a ∧ v = F.p ∧ e = F.g1) ∨ (F.n2 = some y ∧ w = F.x2 ∧ u = F.p ∧ v = F.b ∧ e = F.g2) ∨
    (F.n3 = some y ∧ w = F.x3 ∧ u = F.b ∧ v = F.op ∧ e = F.g3) ∨ (F.n4 = some y ∧ w = F.x4 ∧ u = F.op ∧ v = F.a ∧ e = F.g4) := by
  rcases hn with rfl | rfl
  · obtain ⟨w', e', hs⟩ := m.sym h
    rcases p.onT m hs with ⟨-, rfl, rfl, k, -⟩ | ⟨-, rfl, rfl, k, -⟩ | ⟨-, rfl, rfl, k, -⟩
    · cases k; exact (h2 rfl).elim
    · have := m.uniq h (p.h1 y k.symm); exact .inl ⟨k.symm, this.1, rfl, rfl, this.2.2⟩
    · have := m.uniq h (p.h2 y k.symm); exact .inr (.inl ⟨k.symm, this.1, rfl, rfl, this.2.2⟩)
  · obtain ⟨w', e', hs⟩ := m.sym h
    rcases p.onO m hs with ⟨-, rfl, rfl, k, -⟩ | ⟨-, rfl, rfl, k, -⟩ | ⟨-, rfl, rfl, k, -⟩
    · cases k; exact (h1 rfl).elim
    · have := m.uniq h (p.h3 y k.symm); exact .inr (.inr (.inl ⟨k.symm, this.1, rfl, rfl, this.2.2⟩))
    · have := m.uniq h (p.h4 y k.symm); exact .inr (.inr (.inr ⟨k.symm, this.1, rfl, rfl, this.2.2⟩))

section rel
variable (r : F.Rel ts ts')
include r

theorem Rel.r0 : Sl ts' F.t F.b F.p F.op (some F.ot) (mkA (F.e0.isConstrained || F.f0.isConstrained) F.e0) :=
  (r ..).2 (.inl ⟨rfl, rfl, rfl, rfl, rfl, rfl⟩)
theorem Rel.r3 : Sl ts' F.t F.p F.op F.b F.n3 (linkA F.n3 F.g3 F.f3) :=
  (r ..).2 (.inr (.inl ⟨rfl, rfl, rfl, rfl, rfl, rfl⟩))
theorem Rel.r2 : Sl ts' F.t F.op F.b F.p F.n2 (linkA F.n2 F.g2 F.e2) :=
  (r ..).2 (.inr (.inr (.inl ⟨rfl, rfl, rfl, rfl, rfl, rfl⟩)))
theorem Rel.r0' : Sl ts' F.ot F.a F.op F.p (some F.t) (mkA (F.e0.isConstrained || F.f0.isConstrained) F.f0) :=
  (r ..).2 (.inr (.inr (.inr (.inl ⟨rfl, rfl, rfl, rfl, rfl, rfl⟩))))
theorem Rel.r1 : Sl ts' F.ot F.op F.p F.a F.n1 (linkA F.n1 F.g1 F.e1) :=
  (r ..).2 (.inr (.inr (.inr (.inr (.inl ⟨rfl, rfl, rfl, rfl, rfl, rfl⟩)))))
theorem Rel.r4 : Sl ts' F.ot F.p F.a F.op F.n4 (linkA F.n4 F.g4 F.f4) :=
  (r ..).2 (.inr (.inr (.inr (.inr (.inr (.inl ⟨rfl, rfl, rfl, rfl, rfl, rfl⟩))))))
theorem Rel.q1 {y} (h : F.n1 = some y) : Sl ts' y F.x1 F.a F.p (some F.ot) (mkA (F.e1.isConstrained || F.g1.isConstrained) F.g1) :=
  (r ..).2 (.inr (.inr (.inr (.inr (.inr (.inr (.inl ⟨h, rfl, rfl, rfl, rfl, rfl⟩)))))))
theorem Rel.q2 {y} (h : F.n2 = some y) : Sl ts' y F.x2 F.p F.b (some F.t) (mkA (F.e2.isConstrained || F.g2.isConstrained) F.g2) :=
  (r ..).2 (.inr (.inr (.inr (.inr (.inr (.inr (.inr (.inl ⟨h, rfl, rfl, rfl, rfl, rfl⟩))))))))
theorem Rel.q3 {y} (h : F.n3 = some y) : Sl ts' y F.x3 F.b F.op (some F.t) (mkA (F.f3.isConstrained || F.g3.isConstrained) F.g3) :=
  (r ..).2 (.inr (.inr (.inr (.inr (.inr (.inr (.inr (.inr (.inl ⟨h, rfl, rfl, rfl, rfl, rfl⟩)))))))))
theorem Rel.q4 {y} (h : F.n4 = some y) : Sl ts' y F.x4 F.op F.a (some F.ot) (mkA (F.f4.isConstrained || F.g4.isConstrained) F.g4) :=
  (r ..).2 (.inr (.inr (.inr (.inr (.inr (.inr (.inr (.inr (.inr (.inl ⟨h, rfl, rfl, rfl, rfl, rfl⟩))))))))))
theorem Rel.rest {y w u v n e} (h : Sl ts y w u v n e) (h1 : y ≠ F.t) (h2 : y ≠ F.ot) (h3 : n ≠ some F.t) (h4 : n ≠ some F.ot) :
    Sl ts' y w u v n e :=
  (r ..).2 (.inr (.inr (.inr (.inr (.inr (.inr (.inr (.inr (.inr (.inr ⟨h1, h2, h3, h4, h⟩))))))))))

end rel

/-- Constrained edges other than the diagonal survive a flip. -/
theorem Rel.keep (r : F.Rel ts ts') (p : F.Pre c.W ts) (m : MeshInv c K Q ts) (h0 : F.e0.isConstrained = false) : Keep ts ts' := by
  have L : ∀ {n g e}, e.isConstrained = true → (linkA n g e).isConstrained = true := by
    intro n g e h; unfold linkA; split <;> simp [h]
  have B : ∀ {n : Option Nat} {t w u v e}, Sl ts' t w u v n e → e.isConstrained = true →
      (∀ x, n = some x → ∃ w' e', Sl ts' x w' v u (some t) e' ∧ e'.isConstrained = true) → BothCon ts' u v := by
    intro n t w u v e h1 h2 h3
    cases n with
    | none => exact .inl ⟨_, _, _, h1, h2⟩
    | some x =>
      obtain ⟨w', e', k1, k2⟩ := h3 x rfl
      exact .inr ⟨_, _, _, _, _, _, h1, h2, k1, k2⟩
  have main : ∀ {t w u v n e}, Sl ts t w u v n e → e.isConstrained = true →
      (∀ x, n = some x → ∃ w' e', Sl ts x w' v u (some t) e' ∧ e'.isConstrained = true) → BothCon ts' u v := by
    intro t w u v n e hs he hp
    by_cases ht : t = F.t
    · subst ht
      rcases p.onT m hs with ⟨-, rfl, rfl, rfl, rfl⟩ | ⟨-, rfl, rfl, rfl, rfl⟩ | ⟨-, rfl, rfl, rfl, rfl⟩
      · rw [h0] at he; cases he
      · exact B r.r1 (L he) fun x hx => ⟨_, _, r.q1 hx, by simp [he]⟩
      · exact B r.r2 (L he) fun x hx => ⟨_, _, r.q2 hx, by simp [he]⟩
    by_cases ho : t = F.ot
    · subst ho
      rcases p.onO m hs with ⟨-, rfl, rfl, rfl, rfl⟩ | ⟨-, rfl, rfl, rfl, rfl⟩ | ⟨-, rfl, rfl, rfl, rfl⟩
      · obtain ⟨w', e', k1, k2⟩ := hp _ rfl
        have := m.uniq k1 p.s0
        rw [this.2.2, h0] at k2; cases k2
      · exact B r.r3 (L he) fun x hx => ⟨_, _, r.q3 hx, by simp [he]⟩
      · exact B r.r4 (L he) fun x hx => ⟨_, _, r.q4 hx, by simp [he]⟩
    by_cases hn : n = some F.t ∨ n = some F.ot
    · have LL : ∀ {n g e y}, n = some y → g.isConstrained = true → (linkA n g e).isConstrained = true := by
        intro n g e y h h'; subst h; simp [linkA, h']
      rcases p.toward m hs ht ho hn with ⟨k, rfl, rfl, rfl, rfl⟩ | ⟨k, rfl, rfl, rfl, rfl⟩ | ⟨k, rfl, rfl, rfl, rfl⟩ |
        ⟨k, rfl, rfl, rfl, rfl⟩
      · exact .inr ⟨_, _, _, _, _, _, r.q1 k, by simp [he], k ▸ r.r1, LL rfl he⟩
      · exact .inr ⟨_, _, _, _, _, _, r.q2 k, by simp [he], k ▸ r.r2, LL rfl he⟩
      · exact .inr ⟨_, _, _, _, _, _, r.q3 k, by simp [he], k ▸ r.r3, LL rfl he⟩
      · exact .inr ⟨_, _, _, _, _, _, r.q4 k, by simp [he], k ▸ r.r4, LL rfl he⟩
    · have n1 : n ≠ some F.t := fun h => hn (.inl h)
      have n2 : n ≠ some F.ot := fun h => hn (.inr h)
      refine B (r.rest hs ht ho n1 n2) he fun x hx => ?_
      obtain ⟨w', e', k1, k2⟩ := hp x hx
      refine ⟨w', e', r.rest k1 ?_ ?_ (by simpa using ht) (by simpa using ho), k2⟩
      · rintro rfl; exact n1 hx
      · rintro rfl; exact n2 hx
  rintro u v (⟨t, w, e, hs, he⟩ | ⟨t, w, x, e, w', e', hs, he, hs', he'⟩)
  · exact main hs he (by simp)
  · exact main hs he (by rintro x' ⟨⟩; exact ⟨w', e', hs', he'⟩)

end Flip

/-! ## Boundary half-edges -/

/-- Triangle `t` has the directed edge `u v` with no neighbour behind it. -/
def Bd (ts : Store) (t u v : Nat) : Prop := ∃ w e, Sl ts t w u v none e

theorem Reflag.bd (h : Reflag c ts ts') (t u v) : Bd ts' t u v ↔ Bd ts t u v := by
  constructor
  · rintro ⟨w, e, hs⟩; obtain ⟨e', k, -⟩ := h.back hs; exact ⟨_, _, k⟩
  · rintro ⟨w, e, hs⟩; obtain ⟨e', k, -⟩ := h.fwd hs; exact ⟨_, _, k⟩

/-- A flip moves boundary edges at most between its two triangles. -/
theorem Flip.Rel.bd {F : Flip} (r : F.Rel ts ts') (p : F.Pre c.W ts) (m : MeshInv c K Q ts) :
    (∀ {t u v}, Bd ts t u v → ∃ t', Bd ts' t' u v ∧ (t' = t ∨ ((t = F.t ∨ t = F.ot) ∧ (t' = F.t ∨ t' = F.ot)))) ∧
    (∀ {t u v}, Bd ts' t u v → ∃ t', Bd ts t' u v ∧ (t' = t ∨ ((t = F.t ∨ t = F.ot) ∧ (t' = F.t ∨ t' = F.ot)))) ∧
    ((F.n1.isNone || F.n2.isNone || F.n3.isNone || F.n4.isNone) = false → ∀ {t u v}, Bd ts' t u v ↔ Bd ts t u v) := by
  have A : ∀ {t u v}, Bd ts t u v → ∃ t', Bd ts' t' u v ∧ ((t' = t ∧ t ≠ F.t ∧ t ≠ F.ot) ∨ ((F.n1.isNone || F.n2.isNone || F.n3.isNone || F.n4.isNone) = true ∧ (t = F.t ∨ t = F.ot) ∧ (t' = F.t ∨ t' = F.ot))) := by
    rintro t u v ⟨w, e, hs⟩
    by_cases ht : t = F.t
    · subst ht
      rcases p.onT m hs with ⟨-, rfl, rfl, hn, rfl⟩ | ⟨-, rfl, rfl, hn, rfl⟩ | ⟨-, rfl, rfl, hn, rfl⟩
      · cases hn
      · exact ⟨_, ⟨_, _, hn ▸ r.r1⟩, .inr ⟨by simp [← hn], .inl rfl, .inr rfl⟩⟩
      · exact ⟨_, ⟨_, _, hn ▸ r.r2⟩, .inr ⟨by simp [← hn], .inl rfl, .inl rfl⟩⟩
    by_cases ho : t = F.ot
    · subst ho
      rcases p.onO m hs with ⟨-, rfl, rfl, hn, rfl⟩ | ⟨-, rfl, rfl, hn, rfl⟩ | ⟨-, rfl, rfl, hn, rfl⟩
      · cases hn
      · exact ⟨_, ⟨_, _, hn ▸ r.r3⟩, .inr ⟨by simp [← hn], .inr rfl, .inl rfl⟩⟩
      · exact ⟨_, ⟨_, _, hn ▸ r.r4⟩, .inr ⟨by simp [← hn], .inr rfl, .inr rfl⟩⟩
    exact ⟨_, ⟨_, _, r.rest hs ht ho (by simp) (by simp)⟩, .inl ⟨rfl, ht, ho⟩⟩
  have B : ∀ {t u v}, Bd ts' t u v → ∃ t', Bd ts t' u v ∧ ((t' = t ∧ t ≠ F.t ∧ t ≠ F.ot) ∨ ((F.n1.isNone || F.n2.isNone || F.n3.isNone || F.n4.isNone) = true ∧ (t = F.t ∨ t = F.ot) ∧ (t' = F.t ∨ t' = F.ot))) := by
    rintro t u v ⟨w, e, hs⟩
    have s1 := p.s1; have s2 := p.s2; have o3 := p.o3; have o4 := p.o4
    rcases (r ..).1 hs with ⟨rfl, rfl, rfl, rfl, hn, -⟩ | ⟨rfl, rfl, rfl, rfl, hn, -⟩ | ⟨rfl, rfl, rfl, rfl, hn, -⟩ | ⟨rfl, rfl, rfl, rfl, hn, -⟩ |
      ⟨rfl, rfl, rfl, rfl, hn, -⟩ | ⟨rfl, rfl, rfl, rfl, hn, -⟩ | ⟨hy, rfl, rfl, rfl, hn, -⟩ | ⟨hy, rfl, rfl, rfl, hn, -⟩ |
      ⟨hy, rfl, rfl, rfl, hn, -⟩ | ⟨hy, rfl, rfl, rfl, hn, -⟩ | ⟨h1, h2, h3, h4, hs⟩
    · cases hn
    · exact ⟨_, ⟨_, _, hn ▸ o3⟩, .inr ⟨by simp [← hn], .inl rfl, .inr rfl⟩⟩
    · exact ⟨_, ⟨_, _, hn ▸ s2⟩, .inr ⟨by simp [← hn], .inl rfl, .inl rfl⟩⟩
    · cases hn
    · exact ⟨_, ⟨_, _, hn ▸ s1⟩, .inr ⟨by simp [← hn], .inr rfl, .inl rfl⟩⟩
    · exact ⟨_, ⟨_, _, hn ▸ o4⟩, .inr ⟨by simp [← hn], .inr rfl, .inr rfl⟩⟩
    · cases hn
    · cases hn
    · cases hn
    · cases hn
    · exact ⟨_, ⟨_, _, hs⟩, .inl ⟨rfl, h1, h2⟩⟩
  refine ⟨?_, ?_, ?_⟩
  · intro t u v h
    obtain ⟨t', k1, k2⟩ := A h
    exact ⟨t', k1, by grind⟩
  · intro t u v h
    obtain ⟨t', k1, k2⟩ := B h
    exact ⟨t', k1, by grind⟩
  · intro hn t u v
    constructor
    · intro h
      obtain ⟨t', k1, k2⟩ := B h
      rw [hn] at k2
      rcases k2 with ⟨rfl, -⟩ | ⟨k, -⟩
      · exact k1
      · cases k
    · intro h
      obtain ⟨t', k1, k2⟩ := A h
      rw [hn] at k2
      rcases k2 with ⟨rfl, -⟩ | ⟨k, -⟩
      · exact k1
      · cases k

/-- Boundary edges stay unique under a flip. -/
theorem Flip.Rel.bd_uniq {F : Flip} (r : F.Rel ts ts') (p : F.Pre c.W ts) (m : MeshInv c K Q ts)
    (hu : ∀ {t t' u v}, Bd ts t u v → Bd ts t' u v → t = t') {t t' u v} (h : Bd ts' t u v) (h' : Bd ts' t' u v) : t = t' := by
  obtain ⟨a, ha, ka⟩ := (r.bd p m).2.1 h
  obtain ⟨b, hb, kb⟩ := (r.bd p m).2.1 h'
  have e := hu ha hb
  subst e
  have m' := m.flip p r
  have d := p.facts (oriW c) m.ok
  obtain ⟨w, e, hs⟩ := h
  obtain ⟨w', e', hs'⟩ := h'
  -- both owners are in the quadrilateral or unchanged
  have z1 := d.pop; have z2 := d.aop; have z3 := d.bop; have z4 := d.pa; have z5 := d.pb; have z6 := d.ab; have z7 := d.tot
  have hs1 := (r ..).1 hs
  have hs2 := (r ..).1 hs'
  by_contra hne
  have q : (t = F.t ∨ t = F.ot) ∧ (t' = F.t ∨ t' = F.ot) := by
    by_cases q1 : t = F.t ∨ t = F.ot
    · by_cases q2 : t' = F.t ∨ t' = F.ot
      · exact ⟨q1, q2⟩
      · have : a = t' := by rcases kb with h | h; exact h; exact (q2 h.1).elim
        subst this
        rcases ka with h | h
        · exact (hne h.symm).elim
        · exact (q2 h.2).elim
    · have : a = t := by rcases ka with h | h; exact h; exact (q1 h.1).elim
      subst this
      rcases kb with h | h
      · exact (hne h).elim
      · exact (q1 h.2).elim
  clear hs hs' hu ha hb ka kb m' p m r d
  have w1 : ∀ x, F.n1 = some x → (none : Option Nat) ≠ F.n1 := by grind
  grind (splits := 60)

end P2T
