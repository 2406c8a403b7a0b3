import Verif.Proofs.ScanChain

/-!
# Flat triangles

A triangle whose corners are on a line has a middle corner; by the orientation rule of the code its corners go up in the order of the
front, so its long edge goes down.
-/

set_option linter.unusedSectionVars false

namespace P2T

/-! ## Points on a line in the order of the front -/

theorem key_mix {u v : Point} (h : keyLt u v) {a b : Rat} : keyLt (mix a u v) (mix b u v) ↔ a < b := by
  rcases h with h | ⟨h, h'⟩
  · have e : keyLt (mix a u v) (mix b u v) ↔ (mix a u v).x < (mix b u v).x := by
      constructor
      · rintro (k | ⟨k, k'⟩)
        · exact k
        · exfalso
          simp only [mix] at k k'
          have : (a - b) * (v.x - u.x) = 0 := by linarith
          have := (mul_eq_zero.1 this).resolve_right (by linarith)
          have : a = b := by linarith
          subst this; exact lt_irrefl _ k'
      · exact .inl
    rw [e]
    simp only [mix]
    constructor
    · intro k; by_contra hc
      have := mul_le_mul_of_nonneg_right (not_lt.1 hc) (show 0 ≤ v.x - u.x by linarith)
      linarith
    · intro k
      have := mul_lt_mul_of_pos_right k (show 0 < v.x - u.x by linarith)
      linarith
  · have e : keyLt (mix a u v) (mix b u v) ↔ (mix a u v).y < (mix b u v).y := by
      constructor
      · rintro (k | ⟨k, k'⟩)
        · exfalso; simp only [mix, h, sub_self, mul_zero] at k; exact lt_irrefl _ k
        · exact k'
      · intro k; right; refine ⟨by simp only [mix, h]; ring, k⟩
    rw [e]
    simp only [mix]
    constructor
    · intro k; by_contra hc
      have := mul_le_mul_of_nonneg_right (not_lt.1 hc) (show 0 ≤ v.y - u.y by linarith)
      linarith
    · intro k
      have := mul_lt_mul_of_pos_right k (show 0 < v.y - u.y by linarith)
      linarith

theorem OnOpen.key {u v z : Point} (h : OnOpen u v z) (k : keyLt u v) : keyLt u z ∧ keyLt z v := by
  obtain ⟨s, s0, s1, rfl⟩ := h
  have h1 := (key_mix k (a := 0) (b := s)).2 s0
  have h2 := (key_mix k (a := s) (b := 1)).2 s1
  rw [mix_zero] at h1; rw [mix_one] at h2
  exact ⟨h1, h2⟩

theorem open_of_key {u v z : Point} (h : det2 u v z = 0) (h1 : keyLt u z) (h2 : keyLt z v) : OnOpen u v z := by
  have k := keyLt_trans h1 h2
  obtain ⟨s, rfl⟩ := line_mix (keyLt_ne k) h
  refine ⟨s, ?_, ?_, rfl⟩
  · apply (key_mix k).1; rw [mix_zero]; exact h1
  · apply (key_mix k (b := 1)).1; rw [mix_one]; exact h2

/-- A point of a segment that is cut in two. -/
theorem OnOpen.cut {u v m X : Point} (hm : OnOpen u v m) (hX : OnOpen u v X) : X = m ∨ OnOpen u m X ∨ OnOpen m v X := by
  obtain ⟨a, a0, a1, rfl⟩ := hm
  obtain ⟨s, s0, s1, rfl⟩ := hX
  rcases lt_trichotomy s a with k | k | k
  · right; left; have := open_mix (u := u) (v := v) s0 k; rwa [mix_zero] at this
  · left; rw [k]
  · right; right; have := open_mix (u := u) (v := v) k s1; rwa [mix_one] at this

theorem OnSg.symm {u v x : Point} (h : OnSg u v x) : OnSg v u x := by
  rcases h with h | h | h
  · exact .inr (.inl h)
  · exact .inl h
  · exact .inr (.inr h.symm)

theorem onSg_mix (u v : Point) {a : Rat} (h0 : 0 ≤ a) (h1 : a ≤ 1) : OnSg u v (mix a u v) := by
  rcases h0.lt_or_eq with h0 | rfl
  · rcases h1.lt_or_eq with h1 | rfl
    · exact .inr (.inr ⟨a, h0, h1, rfl⟩)
    · right; left; exact mix_one _ _
  · left; exact mix_zero _ _

theorem OnSg.left {u v m x : Point} (hm : OnOpen u v m) (h : OnSg u m x) : OnSg u v x := by
  obtain ⟨s, s0, s1, rfl⟩ := hm
  obtain ⟨a, a0, a1, rfl⟩ := h.mix
  have : P2T.mix a u (P2T.mix s u v) = P2T.mix (a * s) u v := by
    have := mix_mix u v 0 s a; rw [mix_zero] at this; rw [this]; congr 1; ring
  rw [this]
  exact onSg_mix _ _ (by positivity) (by nlinarith)

theorem OnSg.right {u v m x : Point} (hm : OnOpen u v m) (h : OnSg m v x) : OnSg u v x := (h.symm.left hm.symm).symm

theorem OnSg.self (u v : Point) : OnSg u v u ∧ OnSg u v v := ⟨.inl rfl, .inr (.inl rfl)⟩

/-! ## Number of points between two points -/

/-- How many of the first `N` points are strictly between `u` and `v` in the order of the front. -/
noncomputable def keyCount (P : Nat → Point) (N : Nat) (u v : Point) : Nat :=
  open Classical in ((Finset.range N).filter fun k => keyLt u (P k) ∧ keyLt (P k) v).card

theorem keyCount_le {P : Nat → Point} {N : Nat} {u v : Point} : keyCount P N u v ≤ N := by
  classical
  unfold keyCount
  exact (Finset.card_filter_le _ _).trans (by simp)

theorem keyCount_lt {P : Nat → Point} {N : Nat} {u v u' v' : Point} {m : Nat} (hm : m < N) (h1 : keyLt u (P m)) (h2 : keyLt (P m) v)
    (hu : u = u' ∨ keyLt u u') (hv : v' = v ∨ keyLt v' v) (hn : ¬ (keyLt u' (P m) ∧ keyLt (P m) v')) :
    keyCount P N u' v' < keyCount P N u v := by
  classical
  unfold keyCount
  apply Finset.card_lt_card
  rw [Finset.ssubset_iff_of_subset]
  · refine ⟨m, by simp [hm, h1, h2], ?_⟩
    simp only [Finset.mem_filter, not_and] at hn ⊢
    exact fun _ k => hn k
  · intro k
    simp only [Finset.mem_filter]
    rintro ⟨k0, k1, k2⟩
    refine ⟨k0, ?_, ?_⟩
    · rcases hu with rfl | hu
      · exact k1
      · exact keyLt_trans hu k1
    · rcases hv with rfl | hv
      · exact k2
      · exact keyLt_trans k2 hv

/-! ## Meshes -/

/-- Across its long edge a flat triangle has no neighbour that is not flat. -/
def LG (P : Nat → Point) (ts : Store) : Prop := ∀ {t w u v x e w' e'}, Sl ts t w u v (some x) e → Sl ts x w' v u (some t) e' →
  det2 (P w) (P u) (P v) = 0 → keyLt (P v) (P u) → ¬ 0 < det2 (P w') (P v) (P u)

theorem FOk.fedge_lt {c : Ctx} {f : Front} (h : FOk c f) {a τ b} (k : (a, τ, b) ∈ fedges f.nodes) : keyLt (c.pos a) (c.pos b) := by
  obtain ⟨L, x, y, R, e, rfl, -, rfl⟩ := fedges_mem k
  have asc := h.asc
  have hx := h.keys x (by rw [e]; simp)
  have hy := h.keys y (by rw [e]; simp)
  rw [e, Asc, List.pairwise_append] at asc
  have := (List.pairwise_cons.1 asc.2.1).1 y (by simp)
  rw [hx.2, hy.2] at this
  exact this

variable {c : Ctx} {K : Prop} {Q : Nat → Prop} {P : Nat → Nat → Prop} {s : St}

theorem Ctx.pos_ptOf (c : Ctx) : ptOf c.points = c.pos := by
  funext i; simp [ptOf, Ctx.pos]

section
variable (h : SInv c K Q P s) (gd : Good c)
include h

theorem SInv.sl_ne {t w u v n e} (a : Sl s.tris t w u v n e) : w ≠ u ∧ u ≠ v ∧ w ≠ v := by
  obtain ⟨d1, d2, d3⟩ := (oriW c).d3 (h.mesh.wo a)
  exact ⟨by grind, by grind, by grind⟩

theorem SInv.sl_lt {t w u v n e} (a : Sl s.tris t w u v n e) : w < c.points.length ∧ u < c.points.length ∧ v < c.points.length :=
  (h.mesh.wo a).1

theorem SInv.zero_or {t w u v n e} (a : Sl s.tris t w u v n e) : Sp c.pos s.tris t w u v n e ∨ det2 (c.pos w) (c.pos u) (c.pos v) = 0 := by
  rcases (h.mesh.wo a).2 with k | k
  · exact .inl ⟨a, k⟩
  · exact .inr k.1

/-- The order of the corners of a flat triangle. -/
theorem SInv.zero_key {t w u v n e} (a : Sl s.tris t w u v n e) (h0 : det2 (c.pos w) (c.pos u) (c.pos v) = 0) :
    (keyLt (c.pos u) (c.pos v) ∧ (keyLt (c.pos w) (c.pos u) ∨ keyLt (c.pos v) (c.pos w))) ∨
      (keyLt (c.pos v) (c.pos w) ∧ keyLt (c.pos w) (c.pos u)) := by
  rcases (h.mesh.wo a).2 with k | ⟨-, k | k | k⟩
  · rw [h0] at k; exact (lt_irrefl _ k).elim
  · exact .inl ⟨k.2, .inl k.1⟩
  · exact .inl ⟨k.1, .inr k.2⟩
  · exact .inr k

theorem SInv.zero_desc {t w u v n e} (a : Sl s.tris t w u v n e) (h0 : det2 (c.pos w) (c.pos u) (c.pos v) = 0)
    (k : keyLt (c.pos v) (c.pos u)) : keyLt (c.pos v) (c.pos w) ∧ keyLt (c.pos w) (c.pos u) := by
  rcases h.zero_key a h0 with q | q
  · exact (keyLt_asymm k q.1).elim
  · exact q

include gd

/-- The bottom edge has no flat triangle. -/
theorem SInv.bottom_pos {t w n e} (a : Sl s.tris t w c.head c.tail n e) : 0 < det2 (c.pos w) (c.pos c.head) (c.pos c.tail) := by
  have d := h.sl_ne a
  have en := gd.enclosed w (h.sl_lt a).1 d.1 d.2.2
  have : det2 (c.pos w) (c.pos c.head) (c.pos c.tail) = ((c.pos c.tail).x - (c.pos c.head).x) * ((c.pos w).y - (c.pos c.head).y) := by
    unfold det2; rw [← gd.flat]; ring
  rw [this]
  exact mul_pos (by have := gd.wide; linarith) (by linarith [en.2.2])

/-- A rising edge of a flat triangle has a neighbour. -/
theorem SInv.rising {t w u v n e} (a : Sl s.tris t w u v n e) (k : keyLt (c.pos u) (c.pos v)) (hn : ¬ (u = c.head ∧ v = c.tail)) :
    ∃ x, n = some x := by
  cases n with
  | some x => exact ⟨x, rfl⟩
  | none =>
    rcases h.bd.cov ⟨w, e, a⟩ with q | ⟨τ, q, -⟩
    · exact (hn q).elim
    · exact (keyLt_asymm k (h.front.fedge_lt q)).elim

theorem SInv.zero_rising {t w u v n e} (a : Sl s.tris t w u v n e) (h0 : det2 (c.pos w) (c.pos u) (c.pos v) = 0)
    (k : keyLt (c.pos u) (c.pos v)) : ∃ x w' e', Sl s.tris x w' v u (some t) e' := by
  obtain ⟨x, rfl⟩ := h.rising gd a k (by rintro ⟨rfl, rfl⟩; exact (h.bottom_pos gd a).ne' h0)
  obtain ⟨w', e', b⟩ := h.mesh.sym a
  exact ⟨x, w', e', b⟩

theorem SInv.full_aux : ∀ (m : Nat) {t w u v n e}, keyCount c.pos c.points.length (c.pos u) (c.pos v) = m → Sl s.tris t w u v n e →
    keyLt (c.pos u) (c.pos v) → (∃ t' a b n' e', Sp c.pos s.tris t' u a b n' e') ∧ ∃ t' a b n' e', Sp c.pos s.tris t' v a b n' e' := by
  intro m
  induction m using Nat.strong_induction_on with
  | _ m ih =>
    intro t w u v n e hm a k
    have done : ∀ {t w u v n e}, Sp c.pos s.tris t w u v n e → (∃ t' a b n' e', Sp c.pos s.tris t' u a b n' e') ∧
        ∃ t' a b n' e', Sp c.pos s.tris t' v a b n' e' := by
      intro t w u v n e p
      obtain ⟨_, _, p1⟩ := p.rot
      obtain ⟨_, _, p2⟩ := p.rot2
      exact ⟨⟨_, _, _, _, _, p1⟩, _, _, _, _, _, p2⟩
    rcases h.zero_or a with p | h0
    · exact done p
    obtain ⟨x, w', e', b⟩ := h.zero_rising gd a h0 k
    rcases h.zero_or b with p | h1
    · exact (done p).symm
    obtain ⟨k1, k2⟩ := h.zero_desc b h1 k
    obtain ⟨_, _, b1⟩ := b.rot
    obtain ⟨_, _, b2⟩ := b.rot2
    have lt := (h.sl_lt b).1
    have i1 := ih _ (by rw [← hm]; exact keyCount_lt lt k1 k2 (.inl rfl) (.inr k2) (fun q => keyLt_irrefl _ q.2)) rfl b1 k1
    have i2 := ih _ (by rw [← hm]; exact keyCount_lt lt k1 k2 (.inr k1) (.inl rfl) (fun q => keyLt_irrefl _ q.1)) rfl b2 k2
    exact ⟨i1.1, i2.2⟩

theorem SInv.cover_aux : ∀ (m : Nat) {t w u v n e X}, keyCount c.pos c.points.length (c.pos u) (c.pos v) = m → Sl s.tris t w u v n e →
    keyLt (c.pos u) (c.pos v) → OnOpen (c.pos u) (c.pos v) X → (∃ z, Vtx s.tris z ∧ c.pos z = X) ∨
    ∃ u' v', PEdge c.pos s.tris u' v' ∧ OnOpen (c.pos u') (c.pos v') X ∧ OnSg (c.pos u) (c.pos v) (c.pos u') ∧ OnSg (c.pos u) (c.pos v) (c.pos v') := by
  intro m
  induction m using Nat.strong_induction_on with
  | _ m ih =>
    intro t w u v n e X hm a k hX
    rcases h.zero_or a with p | h0
    · exact .inr ⟨u, v, ⟨_, _, _, _, .inl p⟩, hX, (OnSg.self _ _).1, (OnSg.self _ _).2⟩
    obtain ⟨x, w', e', b⟩ := h.zero_rising gd a h0 k
    rcases h.zero_or b with p | h1
    · exact .inr ⟨u, v, ⟨_, _, _, _, .inr p⟩, hX, (OnSg.self _ _).1, (OnSg.self _ _).2⟩
    obtain ⟨k1, k2⟩ := h.zero_desc b h1 k
    obtain ⟨_, _, b1⟩ := b.rot
    obtain ⟨_, _, b2⟩ := b.rot2
    have lt := (h.sl_lt b).1
    have om : OnOpen (c.pos u) (c.pos v) (c.pos w') := open_of_key (by
      have : det2 (c.pos u) (c.pos v) (c.pos w') = - det2 (c.pos w') (c.pos v) (c.pos u) := by unfold det2; ring
      rw [this, h1, neg_zero]) k1 k2
    rcases om.cut hX with rfl | q | q
    · exact .inl ⟨w', b.vtx.1, rfl⟩
    · rcases ih _ (by rw [← hm]; exact keyCount_lt lt k1 k2 (.inl rfl) (.inr k2) (fun q => keyLt_irrefl _ q.2)) rfl b1 k1 q with r | ⟨u', v', r1, r2, r3, r4⟩
      · exact .inl r
      · exact .inr ⟨u', v', r1, r2, r3.left om, r4.left om⟩
    · rcases ih _ (by rw [← hm]; exact keyCount_lt lt k1 k2 (.inr k1) (.inl rfl) (fun q => keyLt_irrefl _ q.1)) rfl b2 k2 q with r | ⟨u', v', r1, r2, r3, r4⟩
      · exact .inl r
      · exact .inr ⟨u', v', r1, r2, r3.right om, r4.right om⟩

theorem SInv.full {z} (hz : Vtx s.tris z) : ∃ t u v n e, Sp c.pos s.tris t z u v n e := by
  obtain ⟨t, u, v, n, e, a⟩ := hz
  rcases h.zero_or a with p | h0
  · exact ⟨_, _, _, _, _, p⟩
  obtain ⟨_, _, a1⟩ := a.rot
  obtain ⟨_, _, a2⟩ := a.rot2
  rcases (h.mesh.wo a).2 with k | ⟨-, k | k | k⟩
  · rw [h0] at k; exact (lt_irrefl _ k).elim
  · exact (h.full_aux gd _ rfl a2 k.1).1
  · exact (h.full_aux gd _ rfl a1 k.2).2
  · exact (h.full_aux gd _ rfl a2 k.2).1

theorem SInv.cover {t w u v n e X} (a : Sl s.tris t w u v n e) (hX : OnOpen (c.pos u) (c.pos v) X) : (∃ z, Vtx s.tris z ∧ c.pos z = X) ∨
    ∃ u' v', PEdge c.pos s.tris u' v' ∧ OnOpen (c.pos u') (c.pos v') X ∧ OnSg (c.pos u) (c.pos v) (c.pos u') ∧ OnSg (c.pos u) (c.pos v) (c.pos v') := by
  rcases h.zero_or a with p | h0
  · exact .inr ⟨u, v, ⟨_, _, _, _, .inl p⟩, hX, (OnSg.self _ _).1, (OnSg.self _ _).2⟩
  rcases h.zero_key a h0 with k | ⟨k1, k2⟩
  · exact h.cover_aux gd _ rfl a k.1 hX
  obtain ⟨_, _, a1⟩ := a.rot
  obtain ⟨_, _, a2⟩ := a.rot2
  have om : OnOpen (c.pos v) (c.pos u) (c.pos w) := open_of_key (by
    have : det2 (c.pos v) (c.pos u) (c.pos w) = - det2 (c.pos w) (c.pos u) (c.pos v) := by unfold det2; ring
    rw [this, h0, neg_zero]) k1 k2
  rcases om.cut hX.symm with rfl | q | q
  · exact .inl ⟨w, a.vtx.1, rfl⟩
  · rcases h.cover_aux gd _ rfl a1 k1 q with r | ⟨u', v', r1, r2, r3, r4⟩
    · exact .inl r
    · exact .inr ⟨u', v', r1, r2, (r3.left om).symm, (r4.left om).symm⟩
  · rcases h.cover_aux gd _ rfl a2 k2 q with r | ⟨u', v', r1, r2, r3, r4⟩
    · exact .inl r
    · exact .inr ⟨u', v', r1, r2, (r3.right om).symm, (r4.right om).symm⟩

/-- No corner is inside an edge of a triangle that is not flat. -/
theorem SInv.noend (lg : LG c.pos s.tris) {t w u v n e z} (a : Sp c.pos s.tris t w u v n e) (hz : Vtx s.tris z) :
    ¬ OnOpen (c.pos u) (c.pos v) (c.pos z) := by
  intro hX
  obtain ⟨P', pm, hp, sg, -, -⟩ := strictMeshW h.mesh.consistent h.mesh.oriented h.bd.bounded h.front.chain (by rw [c.pos_ptOf]; exact gd.wide)
  rw [c.pos_ptOf] at sg
  obtain ⟨tz, uz, vz, nz, ez, sz⟩ := id hz
  have lz := (h.sl_lt sz).1
  -- a corner beyond a falling edge would be moved into the triangle
  have key : ∀ {t w u v n e}, Sp c.pos s.tris t w u v n e → keyLt (c.pos v) (c.pos u) → ¬ OnOpen (c.pos u) (c.pos v) (c.pos z) := by
    intro t w u v n e a k hX
    have hk := hX.symm.key k
    have l := h.sl_lt a.sl
    have hl := hX.line
    obtain ⟨r, r0, r1, e1⟩ := hX
    have i1 : 0 < det2 (c.pos w) (c.pos u) (c.pos z) := by
      rw [e1, det2_mix, (det2_same _ _).2.1]; have := mul_pos r0 a.pos; linarith
    have i3 : 0 < det2 (c.pos v) (c.pos w) (c.pos z) := by
      rw [e1, det2_mix, (det2_same _ _).1]
      have e2 : det2 (c.pos v) (c.pos w) (c.pos u) = det2 (c.pos w) (c.pos u) (c.pos v) := by unfold det2; ring
      rw [e2]; have := mul_pos (sub_pos.2 r1) a.pos; linarith
    have i2 : WO (c.pos u) (c.pos v) (c.pos z) := .inr ⟨hl, .inr (.inl hk)⟩
    have j1 := sg _ _ _ l.1 l.2.1 lz (.inl i1)
    have j2 := sg _ _ _ l.2.1 l.2.2 lz i2
    have j3 := sg _ _ _ l.2.2 l.1 lz (.inl i3)
    obtain ⟨T, i, q1, q2, q3, q4, -⟩ := a.sl.at
    obtain ⟨T', i', r1, r2, -⟩ := sz.at
    refine pm.no_corner hp (List.mem_of_getElem? q1) (List.mem_of_getElem? r1) i' ?_
    rw [inside_at i, q2, q3, q4, r2]
    exact Inside.rot ⟨j1, j2, j3⟩
  have d := h.sl_ne a.sl
  have l := h.sl_lt a.sl
  rcases keyLt_total (p := c.pos u) (q := c.pos v) (fun k => d.2.1 (gd.inj _ _ l.2.1 l.2.2 k)) with k | k
  · obtain ⟨x, rfl⟩ := h.rising gd a.sl k (by
      rintro ⟨rfl, rfl⟩
      have hl := hX.line
      have hzn : z ≠ c.head ∧ z ≠ c.tail := by
        have := hX.key k
        constructor <;> rintro rfl
        · exact keyLt_irrefl _ this.1
        · exact keyLt_irrefl _ this.2
      have en := gd.enclosed z lz hzn.1 hzn.2
      have : det2 (c.pos c.head) (c.pos c.tail) (c.pos z) = ((c.pos c.tail).x - (c.pos c.head).x) * ((c.pos z).y - (c.pos c.head).y) := by
        unfold det2; rw [← gd.flat]; ring
      rw [this] at hl
      have := mul_pos (show 0 < (c.pos c.tail).x - (c.pos c.head).x by have := gd.wide; linarith)
        (show 0 < (c.pos z).y - (c.pos c.head).y by linarith [en.2.2])
      linarith)
    obtain ⟨w', e', b⟩ := h.mesh.sym a.sl
    rcases h.zero_or b with p | h1
    · exact key p k hX.symm
    · exact lg b a.sl h1 k a.pos
  · exact key a k hX

/-- The mesh is a proper triangulation, up to flat triangles. -/
theorem SInv.pl (lg : LG c.pos s.tris) : Pl c.pos s.tris := by
  have pm := planeMesh_of h.mesh.consistent h.mesh.oriented h.bd.bounded h.front.chain (by rw [c.pos_ptOf]; exact gd.wide)
  have ins : ∀ {t w u v n e X} {T : Tri}, s.tris[t]? = some T → Sl s.tris t w u v n e → Inside (c.pos w) (c.pos u) (c.pos v) X →
      Inside (c.pos (T.points.get 0)) (c.pos (T.points.get 1)) (c.pos (T.points.get 2)) X := by
    intro t w u v n e X T hT k hX
    obtain ⟨T', hT', k⟩ := k
    rw [hT] at hT'; cases hT'
    obtain ⟨x1, x2, x3⟩ := hX
    rcases k with ⟨h1, -⟩ | ⟨h1, -⟩ | ⟨h1, -⟩ <;> rw [h1] <;> simp only [V3.get]
    · exact ⟨x1, x2, x3⟩
    · exact ⟨x3, x1, x2⟩
    · exact ⟨x2, x3, x1⟩
  refine ⟨fun a => h.sl_ne a, fun a => (h.mesh.wo a).2.nonneg, ?_, ?_, h.full gd, h.noend gd lg, h.cover gd⟩
  · rintro i j ⟨_, _, _, _, _, h1⟩ ⟨_, _, _, _, _, h2⟩ k
    exact gd.inj _ _ (h.sl_lt h1).1 (h.sl_lt h2).1 k
  · intro t w u v n e t' w' u' v' n' e' X k k' hX hX'
    obtain ⟨T, hT, -⟩ := id k
    obtain ⟨T', hT', -⟩ := id k'
    rw [c.pos_ptOf] at pm
    exact pm.disjoint hT hT' (ins hT k hX) (ins hT' k' hX')

/-- If no open edge crosses a segment then no edge of a flat triangle does. -/
theorem SInv.nz_of (lg : LG c.pos s.tris) {p q : Point} (cl : ∀ t u v, Bd s.tris t u v → ¬ ProperCross (c.pos u) (c.pos v) p q)
    {t w u v n e} (a : Sl s.tris t w u v n e) (h0 : det2 (c.pos w) (c.pos u) (c.pos v) = 0) : ¬ ProperCross (c.pos u) (c.pos v) p q := by
  have key : ∀ (m : Nat) {t w u v n e}, c.points.length - keyCount c.pos c.points.length (c.pos v) (c.pos u) = m → Sl s.tris t w u v n e →
      det2 (c.pos w) (c.pos u) (c.pos v) = 0 → keyLt (c.pos v) (c.pos u) → ¬ ProperCross (c.pos u) (c.pos v) p q := by
    intro m
    induction m using Nat.strong_induction_on with
    | _ m ih =>
      intro t w u v n e hm a h0 k pc
      cases n with
      | none => exact cl _ _ _ ⟨_, _, a⟩ pc
      | some x =>
        obtain ⟨w', e', b⟩ := h.mesh.sym a
        rcases h.zero_or b with r | h1
        · exact lg a b h0 k r.pos
        obtain ⟨_, _, b1⟩ := b.rot
        obtain ⟨_, _, b2⟩ := b.rot2
        have lt := h.sl_lt b
        rcases h.zero_key b h1 with ⟨-, k' | k'⟩ | ⟨k', k''⟩
        · -- `w' < v < u`
          have e0 : det2 (c.pos v) (c.pos u) (c.pos w') = 0 := by rw [det2_rot]; exact h1
          have om : OnOpen (c.pos u) (c.pos w') (c.pos v) := by
            refine (open_of_key ?_ k' k).symm
            rw [det2_swap', h1, neg_zero]
          have lt' := keyCount_lt (P := c.pos) lt.2.1 k' k (.inr k') (.inl rfl) (fun q => keyLt_irrefl _ q.1)
          have := keyCount_le (P := c.pos) (N := c.points.length) (u := c.pos w') (v := c.pos u)
          exact ih _ (by omega) rfl b1 e0 (keyLt_trans k' k) (cross_sup pc (OnSg.self _ _).1 (.inr (.inr om)))
        · -- `v < u < w'`
          have e0 : det2 (c.pos u) (c.pos w') (c.pos v) = 0 := by rw [← det2_rot]; exact h1
          have om : OnOpen (c.pos w') (c.pos v) (c.pos u) := by
            refine (open_of_key ?_ k k').symm
            rw [← det2_rot, det2_swap', det2_rot, e0]; simp
          have lt' := keyCount_lt (P := c.pos) lt.2.2 k k' (.inl rfl) (.inr k') (fun q => keyLt_irrefl _ q.2)
          have := keyCount_le (P := c.pos) (N := c.points.length) (u := c.pos v) (v := c.pos w')
          exact ih _ (by omega) rfl b2 e0 (keyLt_trans k k') (cross_sup pc (.inr (.inr om)) (OnSg.self _ _).2)
        · exact (keyLt_asymm k (keyLt_trans k' k'')).elim
  obtain ⟨_, _, a1⟩ := a.rot
  obtain ⟨_, _, a2⟩ := a.rot2
  intro pc
  rcases h.zero_key a h0 with ⟨k, k' | k'⟩ | ⟨k, k'⟩
  · have e0 : det2 (c.pos u) (c.pos v) (c.pos w) = 0 := by rw [det2_rot]; exact h0
    have om : OnOpen (c.pos v) (c.pos w) (c.pos u) := by
      refine (open_of_key ?_ k' k).symm
      rw [det2_swap', h0, neg_zero]
    exact key _ rfl a1 e0 (keyLt_trans k' k) (cross_sup pc (.inr (.inr om)) (OnSg.self _ _).1)
  · have e0 : det2 (c.pos v) (c.pos w) (c.pos u) = 0 := by rw [← det2_rot]; exact h0
    have om : OnOpen (c.pos w) (c.pos u) (c.pos v) := by
      refine (open_of_key ?_ k k').symm
      rw [← det2_rot, det2_swap', det2_rot, e0]; simp
    exact key _ rfl a2 e0 (keyLt_trans k k') (cross_sup pc (OnSg.self _ _).2 (.inr (.inr om)))
  · exact key _ rfl a h0 (keyLt_trans k k') pc

end

/-- A point inside a chord is inside the circle. -/
theorem incircle_chord (a b d : Point) (r : Rat) :
    inCircleDet a b d (mix r b d) = r * (1 - r) * ((d.x - b.x) ^ 2 + (d.y - b.y) ^ 2) * det2 a b d := by
  simp only [inCircleDet, mix, det2]; ring

/-- After legalisation, if the marked edges contain no corner. -/
theorem SInv.lg_of (h : SInv c K (fun _ => False) P s) (mk : ∀ u v, Mk s.tris u v → ∀ z, Vtx s.tris z → ¬ OnOpen (c.pos u) (c.pos v) (c.pos z)) :
    LG c.pos s.tris := by
  intro t w u v x e w' e' a b h0 k hp
  obtain ⟨k1, k2⟩ := h.zero_desc a h0 k
  have om : OnOpen (c.pos v) (c.pos u) (c.pos w) := open_of_key (by
    have : det2 (c.pos v) (c.pos u) (c.pos w) = - det2 (c.pos w) (c.pos u) (c.pos v) := by unfold det2; ring
    rw [this, h0, neg_zero]) k1 k2
  by_cases c1 : e.isConstrained = true
  · exact mk _ _ (.of a c1) w a.vtx.1 om.symm
  by_cases c2 : e'.isConstrained = true
  · exact mk _ _ (.of b c2) w a.vtx.1 om
  have := (h.mesh.leg a b (by simpa using c1) (by simpa using c2)).resolve_left id |>.resolve_left id
  have := this.symm
  unfold Legal at this
  obtain ⟨r, r0, r1, e1⟩ := om
  rw [e1, incircle_chord] at this
  have d0 : 0 < ((c.pos u).x - (c.pos v).x) ^ 2 + ((c.pos u).y - (c.pos v).y) ^ 2 := by
    rcases k with k | ⟨-, k⟩
    · have : 0 < ((c.pos u).x - (c.pos v).x) ^ 2 := by have : 0 < (c.pos u).x - (c.pos v).x := by linarith
                                                       positivity
      nlinarith [sq_nonneg ((c.pos u).y - (c.pos v).y)]
    · have : 0 < ((c.pos u).y - (c.pos v).y) ^ 2 := by have : 0 < (c.pos u).y - (c.pos v).y := by linarith
                                                       positivity
      nlinarith [sq_nonneg ((c.pos u).x - (c.pos v).x)]
  have := mul_pos (mul_pos (mul_pos r0 (sub_pos.2 r1)) d0) hp
  linarith

end P2T
