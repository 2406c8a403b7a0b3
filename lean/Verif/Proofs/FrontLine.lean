import Verif.Proofs.ScanMesh
import Verif.Proofs.EdgeFill
import Verif.Proofs.Winding

/-!
# The front is above all corners of the mesh
-/

set_option linter.unusedSectionVars false

namespace P2T

variable {c : Ctx} {K : Prop} {Q : Nat → Prop}

/-- The nodes of the front go strictly to the right. -/
def XAsc (c : Ctx) (l : List Nat) : Prop := l.Pairwise fun a b => (c.pos a).x < (c.pos b).x

/-- The point `p` is not above the front. -/
def CovP (c : Ctx) (l : List Nat) (p : Nat) : Prop := ∀ a b, Consecutive l a b → (c.pos a).x ≤ (c.pos p).x → (c.pos p).x ≤ (c.pos b).x →
  det2 (c.pos a) (c.pos b) (c.pos p) ≤ 0

theorem XAsc.step {l : List Nat} (h : XAsc c l) {a b} (k : Consecutive l a b) : (c.pos a).x < (c.pos b).x := by
  obtain ⟨L, R, rfl⟩ := k
  exact (List.pairwise_cons.1 (List.pairwise_append.1 h).2.1).1 b (by simp)

/-- A node of the front is left or right of an edge of the front. -/
theorem XAsc.side {l : List Nat} (h : XAsc c l) {a b} (k : Consecutive l a b) {z} (hz : z ∈ l) :
    z = a ∨ z = b ∨ (c.pos z).x < (c.pos a).x ∨ (c.pos b).x < (c.pos z).x := by
  obtain ⟨L, R, rfl⟩ := k
  have h1 := (List.pairwise_append.1 h)
  have h2 := List.pairwise_cons.1 h1.2.1
  have h3 := List.pairwise_cons.1 h2.2
  rcases List.mem_append.1 hz with hz | hz
  · exact .inr (.inr (.inl (h1.2.2 z hz a (by simp))))
  · rcases List.mem_cons.1 hz with rfl | hz
    · exact .inl rfl
    · rcases List.mem_cons.1 hz with rfl | hz
      · exact .inr (.inl rfl)
      · exact .inr (.inr (.inr (h3.1 z hz)))

theorem XAsc.inj {l : List Nat} (h : XAsc c l) {a b} (ha : a ∈ l) (hb : b ∈ l) (e : (c.pos a).x = (c.pos b).x) : a = b := by
  by_contra hn
  have : ∀ l : List Nat, XAsc c l → a ∈ l → b ∈ l → False := by
    intro l
    induction l with
    | nil => intro _ h; cases h
    | cons z l ih =>
      intro h ha hb
      obtain ⟨h1, h2⟩ := List.pairwise_cons.1 h
      rcases List.mem_cons.1 ha with ea | ha'
      · rcases List.mem_cons.1 hb with eb | hb'
        · exact hn (ea.trans eb.symm)
        · have := h1 _ hb'; rw [← ea] at this; linarith
      · rcases List.mem_cons.1 hb with eb | hb'
        · have := h1 _ ha'; rw [← eb] at this; linarith
        · exact ih h2 ha' hb'
  exact this l h ha hb

theorem Consecutive.mem {α} {l : List α} {a b : α} (h : Consecutive l a b) : a ∈ l ∧ b ∈ l := by
  obtain ⟨L, R, rfl⟩ := h; simp

theorem consecutive_map {α β} (f : α → β) {l : List α} {a b : α} (h : Consecutive l a b) : Consecutive (l.map f) (f a) (f b) := by
  obtain ⟨L, R, rfl⟩ := h
  exact ⟨L.map f, R.map f, by simp⟩

/-- A point strictly above an edge of the front is strictly above all edges of the front over it. -/
theorem XAsc.over {l : List Nat} (hx : XAsc c l) {P : Point} {a b : Nat} (hab : Consecutive l a b) (h1 : (c.pos a).x ≤ P.x) (h2 : P.x ≤ (c.pos b).x)
    (hd : 0 < det2 (c.pos a) (c.pos b) P) : ∀ a' b', Consecutive l a' b' → (c.pos a').x ≤ P.x → P.x ≤ (c.pos b').x →
      0 < det2 (c.pos a') (c.pos b') P := by
  intro a' b' k g1 g2
  have sab := hx.step hab
  have sab' := hx.step k
  have e1 : det2 (c.pos a) (c.pos b) P = ((c.pos b).x - (c.pos a).x) * (P.y - (c.pos a).y) - ((c.pos b).y - (c.pos a).y) * (P.x - (c.pos a).x) := by
    unfold det2; ring
  have e2 : det2 (c.pos a) (c.pos b) P = ((c.pos b).x - (c.pos a).x) * (P.y - (c.pos b).y) - ((c.pos b).y - (c.pos a).y) * (P.x - (c.pos b).x) := by
    unfold det2; ring
  have e3 : det2 (c.pos a') (c.pos b') P = ((c.pos b').x - (c.pos a').x) * (P.y - (c.pos a').y) - ((c.pos b').y - (c.pos a').y) * (P.x - (c.pos a').x) := by
    unfold det2; ring
  have e4 : det2 (c.pos a') (c.pos b') P = ((c.pos b').x - (c.pos a').x) * (P.y - (c.pos b').y) - ((c.pos b').y - (c.pos a').y) * (P.x - (c.pos b').x) := by
    unfold det2; ring
  have pos : ∀ {u v : Rat}, 0 < u → 0 < u * v → 0 < v := fun h h' => (pos_iff_pos_of_mul_pos h').1 h
  have right : a' = b → 0 < det2 (c.pos a') (c.pos b') P := by
    rintro rfl
    have : P.x - (c.pos a').x = 0 := by linarith
    rw [e2, this, mul_zero, sub_zero] at hd
    rw [e3, this, mul_zero, sub_zero]
    exact mul_pos (by linarith) (pos (by linarith) hd)
  have left : b' = a → 0 < det2 (c.pos a') (c.pos b') P := by
    rintro rfl
    have : P.x - (c.pos b').x = 0 := by linarith
    rw [e1, this, mul_zero, sub_zero] at hd
    rw [e4, this, mul_zero, sub_zero]
    exact mul_pos (by linarith) (pos (by linarith) hd)
  rcases hx.side hab k.mem.1 with e | e | e | e
  · rcases hx.side hab k.mem.2 with e' | e' | e' | e'
    · rw [e, e'] at sab'; exact (lt_irrefl _ sab').elim
    · rw [e, e']; exact hd
    · exfalso; rw [e] at sab'; linarith
    · exfalso
      rcases hx.side k hab.mem.2 with e'' | e'' | e'' | e''
      · rw [e'', e] at sab; exact lt_irrefl _ sab
      · rw [e''] at e'; exact lt_irrefl _ e'
      · rw [e] at e''; linarith
      · linarith
  · exact right e
  · rcases hx.side hab k.mem.2 with e' | e' | e' | e'
    · exact left e'
    · exfalso
      rcases hx.side k hab.mem.1 with e'' | e'' | e'' | e''
      · rw [e''] at e; exact lt_irrefl _ e
      · rw [e'', e'] at sab; exact lt_irrefl _ sab
      · linarith
      · rw [e'] at e''; linarith
    · linarith
    · exfalso
      rcases hx.side k hab.mem.1 with e'' | e'' | e'' | e''
      · rw [e''] at e; exact lt_irrefl _ e
      · rw [e''] at sab; linarith
      · linarith
      · linarith
  · linarith

/-- A point strictly above the front is not in a triangle. -/
theorem SInv.above_free {s : St} (h : SInv c K Q NoP s) (gd : Good c) {P : Point}
    (all : ∀ a b, Consecutive s.front.pids a b → (c.pos a).x ≤ P.x → P.x ≤ (c.pos b).x → 0 < det2 (c.pos a) (c.pos b) P)
    {t w u v n e} (k : Sp c.pos s.tris t w u v n e) (c1 : 0 ≤ det2 (c.pos w) (c.pos u) P) (c2 : 0 ≤ det2 (c.pos u) (c.pos v) P) (c3 : 0 ≤ det2 (c.pos v) (c.pos w) P) : False := by
  obtain ⟨k, area⟩ := k
  -- a point of the triangle near `P`
  let V : Point := ⟨((c.pos w).x - P.x) + ((c.pos u).x - P.x) + ((c.pos v).x - P.x), ((c.pos w).y - P.y) + ((c.pos u).y - P.y) + ((c.pos v).y - P.y)⟩
  obtain ⟨δ, d0, d1⟩ := small' (l := (1, -3) ::
      ((s.front.pids.filter fun z => decide (P.x < (c.pos z).x)).map (fun z => ((c.pos z).x - P.x, - V.x)) ++
      ((s.front.pids.filter fun z => decide ((c.pos z).x < P.x)).map (fun z => (P.x - (c.pos z).x, V.x)) ++
      ((s.front.pids.product s.front.pids).filter fun z => decide (0 < det2 (c.pos z.1) (c.pos z.2) P)).map
        (fun z => (det2 (c.pos z.1) (c.pos z.2) P, ((c.pos z.2).x - (c.pos z.1).x) * V.y - ((c.pos z.2).y - (c.pos z.1).y) * V.x))))) (by
    intro y hy
    left
    rcases List.mem_cons.1 hy with rfl | hy
    · norm_num
    rcases List.mem_append.1 hy with hy | hy
    · simp only [List.mem_map, List.mem_filter, decide_eq_true_eq] at hy
      obtain ⟨z, ⟨-, hz⟩, rfl⟩ := hy
      simpa using hz
    rcases List.mem_append.1 hy with hy | hy
    · simp only [List.mem_map, List.mem_filter, decide_eq_true_eq] at hy
      obtain ⟨z, ⟨-, hz⟩, rfl⟩ := hy
      simpa using hz
    · simp only [List.mem_map, List.mem_filter, decide_eq_true_eq] at hy
      obtain ⟨z, ⟨-, hz⟩, rfl⟩ := hy
      exact hz)
  have f0 := d1 (1, -3) (by simp)
  simp only at f0
  have f1 : ∀ z ∈ s.front.pids, P.x < (c.pos z).x → P.x + δ * V.x < (c.pos z).x := by
    intro z hz hl
    have := d1 ((c.pos z).x - P.x, - V.x) (List.mem_cons_of_mem _ (List.mem_append_left _ (List.mem_map.2 ⟨z, by simp [hz, hl], rfl⟩)))
    simp only at this; linarith
  have f2 : ∀ z ∈ s.front.pids, (c.pos z).x < P.x → (c.pos z).x < P.x + δ * V.x := by
    intro z hz hl
    have := d1 (P.x - (c.pos z).x, V.x) (List.mem_cons_of_mem _ (List.mem_append_right _ (List.mem_append_left _ (List.mem_map.2 ⟨z, by simp [hz, hl], rfl⟩))))
    simp only at this; linarith
  have f3 : ∀ z ∈ s.front.pids, ∀ z' ∈ s.front.pids, 0 < det2 (c.pos z) (c.pos z') P →
      0 < det2 (c.pos z) (c.pos z') ⟨P.x + δ * V.x, P.y + δ * V.y⟩ := by
    intro z hz z' hz' hl
    have := d1 (det2 (c.pos z) (c.pos z') P, ((c.pos z').x - (c.pos z).x) * V.y - ((c.pos z').y - (c.pos z).y) * V.x)
      (List.mem_cons_of_mem _ (List.mem_append_right _ (List.mem_append_right _ (List.mem_map.2 ⟨(z, z'), by
        simp only [List.mem_filter, decide_eq_true_eq]
        exact ⟨List.pair_mem_product.2 ⟨hz, hz'⟩, hl⟩, rfl⟩))))
    simp only at this
    have e : det2 (c.pos z) (c.pos z') ⟨P.x + δ * V.x, P.y + δ * V.y⟩ =
      det2 (c.pos z) (c.pos z') P + δ * (((c.pos z').x - (c.pos z).x) * V.y - ((c.pos z').y - (c.pos z).y) * V.x) := by
      unfold det2; ring
    rw [e]; exact this
  -- it is inside the triangle, so under the front
  have ins : Inside (c.pos w) (c.pos u) (c.pos v) ⟨P.x + δ * V.x, P.y + δ * V.y⟩ := by
    have g1 : det2 (c.pos w) (c.pos u) ⟨P.x + δ * V.x, P.y + δ * V.y⟩ = (1 - 3 * δ) * det2 (c.pos w) (c.pos u) P + δ * det2 (c.pos w) (c.pos u) (c.pos v) := by
      simp only [V]; unfold det2; ring
    have g2 : det2 (c.pos u) (c.pos v) ⟨P.x + δ * V.x, P.y + δ * V.y⟩ = (1 - 3 * δ) * det2 (c.pos u) (c.pos v) P + δ * det2 (c.pos w) (c.pos u) (c.pos v) := by
      simp only [V]; unfold det2; ring
    have g3 : det2 (c.pos v) (c.pos w) ⟨P.x + δ * V.x, P.y + δ * V.y⟩ = (1 - 3 * δ) * det2 (c.pos v) (c.pos w) P + δ * det2 (c.pos w) (c.pos u) (c.pos v) := by
      simp only [V]; unfold det2; ring
    have da := mul_pos d0 area
    refine ⟨?_, ?_, ?_⟩
    · rw [g1]; have := mul_nonneg (show 0 ≤ 1 - 3 * δ by linarith) c1; linarith
    · rw [g2]; have := mul_nonneg (show 0 ≤ 1 - 3 * δ by linarith) c2; linarith
    · rw [g3]; have := mul_nonneg (show 0 ≤ 1 - 3 * δ by linarith) c3; linarith
  obtain ⟨T, hT, k'⟩ := id k
  have pm := planeMesh_of h.mesh.consistent h.mesh.oriented h.bd.bounded h.front.chain (by rw [c.pos_ptOf]; exact gd.wide)
  have insT : T.Inside c.points ⟨P.x + δ * V.x, P.y + δ * V.y⟩ := by
    unfold Tri.Inside
    rw [c.pos_ptOf]
    obtain ⟨x1, x2, x3⟩ := ins
    rcases k' with ⟨h1, -⟩ | ⟨h1, -⟩ | ⟨h1, -⟩ <;> rw [h1] <;> simp only [V3.get]
    · exact ⟨x1, x2, x3⟩
    · exact ⟨x3, x1, x2⟩
    · exact ⟨x2, x3, x1⟩
  obtain ⟨⟨na, nb, g1, g2, g3, g4⟩, -⟩ := pm.within h.front.chain (List.mem_of_getElem? hT) insT
  have kc := consecutive_map (·.pid) g1
  have ka := (h.front.keys na g1.mem.1).2
  have kb := (h.front.keys nb g1.mem.2).2
  rw [ka] at g2 g4
  rw [kb] at g3 g4
  have kc : Consecutive s.front.pids na.pid nb.pid := kc
  have r1 : (c.pos na.pid).x ≤ P.x := by
    by_contra q
    have := f1 _ kc.mem.1 (not_le.1 q)
    simp only at g2; linarith
  have r2 : P.x ≤ (c.pos nb.pid).x := by
    by_contra q
    have := f2 _ kc.mem.2 (not_le.1 q)
    simp only at g3; linarith
  have := f3 _ kc.mem.1 _ kc.mem.2 (all _ _ kc r1 r2)
  linarith

/-- A corner of the mesh is in a triangle, so not strictly above the front. -/
theorem SInv.vtx_free {s : St} (h : SInv c K Q NoP s) (gd : Good c) {p : Nat} (hv : Vtx s.tris p)
    (all : ∀ a b, Consecutive s.front.pids a b → (c.pos a).x ≤ (c.pos p).x → (c.pos p).x ≤ (c.pos b).x → 0 < det2 (c.pos a) (c.pos b) (c.pos p)) : False := by
  obtain ⟨t, u, v, n, e, k⟩ := h.full gd hv
  refine h.above_free gd all k ?_ ?_ ?_
  · unfold det2; ring_nf; rfl
  · have := k.2; rw [det2_rot]; exact this.le
  · unfold det2; ring_nf; rfl

/-- Corners of the mesh are not above the front. -/
theorem cov_of {s : St} (h : SInv c K Q NoP s) (gd : Good c) (hx : XAsc c s.front.pids) {p : Nat} (hv : Vtx s.tris p) :
    CovP c s.front.pids p := by
  intro a b hab h1 h2
  by_contra hd
  exact h.vtx_free gd hv (hx.over hab h1 h2 (not_le.1 hd))

/-- A node of the front is not under an edge of the mesh. -/
theorem edge_cov {s : St} (h : SInv c K Q NoP s) (gd : Good c) (hx : XAsc c s.front.pids) {u v z : Nat} (he : EdgeOf s.tris u v) (hz : z ∈ s.front.pids)
    (huv : (c.pos u).x < (c.pos v).x) (h1 : (c.pos u).x ≤ (c.pos z).x) (h2 : (c.pos z).x ≤ (c.pos v).x) : 0 ≤ det2 (c.pos u) (c.pos v) (c.pos z) := by
  by_contra hd
  rw [not_le] at hd
  -- a point above `z` is above the front
  have up : ∀ P : Point, P.x = (c.pos z).x → (c.pos z).y < P.y → ∀ a b, Consecutive s.front.pids a b → (c.pos a).x ≤ P.x → P.x ≤ (c.pos b).x →
      0 < det2 (c.pos a) (c.pos b) P := by
    intro P e1 e2 a b k g1 g2
    have sab := hx.step k
    rcases hx.side k hz with rfl | rfl | q | q
    · have e : det2 (c.pos z) (c.pos b) P = ((c.pos b).x - (c.pos z).x) * (P.y - (c.pos z).y) - ((c.pos b).y - (c.pos z).y) * (P.x - (c.pos z).x) := by
        unfold det2; ring
      rw [e, e1, sub_self, mul_zero, sub_zero]
      exact mul_pos (by linarith) (by linarith)
    · have e : det2 (c.pos a) (c.pos z) P = ((c.pos z).x - (c.pos a).x) * (P.y - (c.pos z).y) - ((c.pos z).y - (c.pos a).y) * (P.x - (c.pos z).x) := by
        unfold det2; ring
      rw [e, e1, sub_self, mul_zero, sub_zero]
      exact mul_pos (by linarith) (by linarith)
    · linarith
    · linarith
  have pos : ∀ {u v : Rat}, 0 < u → 0 < u * v → 0 < v := fun h h' => (pos_iff_pos_of_mul_pos h').1 h
  let r := ((c.pos z).x - (c.pos u).x) / ((c.pos v).x - (c.pos u).x)
  have hr : r * ((c.pos v).x - (c.pos u).x) = (c.pos z).x - (c.pos u).x := div_mul_cancel₀ _ (by linarith)
  have ex : (mix r (c.pos u) (c.pos v)).x = (c.pos z).x := by simp only [mix]; linarith
  have ey : (c.pos z).y < (mix r (c.pos u) (c.pos v)).y := by
    have : 0 < ((c.pos v).x - (c.pos u).x) * ((mix r (c.pos u) (c.pos v)).y - (c.pos z).y) := by
      have : ((c.pos v).x - (c.pos u).x) * ((mix r (c.pos u) (c.pos v)).y - (c.pos z).y) = - det2 (c.pos u) (c.pos v) (c.pos z) := by
        simp only [mix]; unfold det2
        linear_combination ((c.pos v).y - (c.pos u).y) * hr
      linarith
    have := pos (by linarith) this
    linarith
  have vx : ∀ {y}, Vtx s.tris y → c.pos y = mix r (c.pos u) (c.pos v) → False := by
    intro y hy e
    refine h.vtx_free gd hy ?_
    rw [e]; exact up _ ex ey
  have hv : Vtx s.tris u ∧ Vtx s.tris v := by
    obtain ⟨t, w, n, e, k | k⟩ := he
    · exact ⟨k.vtx.2.1, k.vtx.2.2⟩
    · exact ⟨k.vtx.2.2, k.vtx.2.1⟩
  have r0 : 0 ≤ r := div_nonneg (by linarith) (by linarith)
  have r1 : r ≤ 1 := (div_le_one (by linarith)).2 (by linarith)
  rcases eq_or_lt_of_le r0 with r0 | r0
  · refine vx hv.1 ?_
    rw [← r0]; simp [mix]
  rcases eq_or_lt_of_le r1 with r1 | r1
  · refine vx hv.2 ?_
    rw [r1]; simp [mix]
  have cv : (∃ z, Vtx s.tris z ∧ c.pos z = mix r (c.pos u) (c.pos v)) ∨ ∃ u' v', PEdge c.pos s.tris u' v' ∧ OnOpen (c.pos u') (c.pos v') (mix r (c.pos u) (c.pos v)) := by
    obtain ⟨t, w, n, e, k | k⟩ := he
    · rcases h.cover gd k ⟨r, r0, r1, rfl⟩ with q | ⟨u', v', q1, q2, -⟩
      · exact .inl q
      · exact .inr ⟨u', v', q1, q2⟩
    · rcases h.cover gd k (OnOpen.symm ⟨r, r0, r1, rfl⟩) with q | ⟨u', v', q1, q2, -⟩
      · exact .inl q
      · exact .inr ⟨u', v', q1, q2⟩
  have fin : ∀ {t w u' v' n e}, Sp c.pos s.tris t w u' v' n e → OnOpen (c.pos u') (c.pos v') (mix r (c.pos u) (c.pos v)) → False := by
    rintro t w u' v' n e k ⟨q, q0, q1, eq⟩
    have area := k.2
    refine h.above_free gd (up _ ex ey) k ?_ ?_ ?_ <;> rw [eq, det2_mix]
    · have : det2 (c.pos w) (c.pos u') (c.pos u') = 0 := by unfold det2; ring
      rw [this]; have := mul_pos q0 area; linarith
    · have : det2 (c.pos u') (c.pos v') (c.pos u') = 0 := by unfold det2; ring
      rw [this]
      have : det2 (c.pos u') (c.pos v') (c.pos v') = 0 := by unfold det2; ring
      rw [this]; simp
    · have : det2 (c.pos v') (c.pos w) (c.pos v') = 0 := by unfold det2; ring
      rw [this]
      have : det2 (c.pos v') (c.pos w) (c.pos u') = det2 (c.pos w) (c.pos u') (c.pos v') := by unfold det2; ring
      rw [this]
      have := mul_pos (show 0 < 1 - q by linarith) area; linarith
  rcases cv with ⟨y, q1, q2⟩ | ⟨u', v', ⟨t, w, n, e, k | k⟩, q2⟩
  · exact vx q1 q2
  · exact fin k q2
  · exact fin k q2.symm

/-! ## Below a line -/

/-- Two neighbours on the front, both below the line `l r`: the right end `r` is not above the front, so the edge ends before it. -/
theorem below_right {l r a b : Point} (hlr : l.x < r.x) (ha : det2 l r a < 0) (hb : det2 l r b < 0) (hab : a.x < b.x) (har : a.x ≤ r.x)
    (hc : a.x ≤ r.x → r.x ≤ b.x → det2 a b r ≤ 0) : b.x < r.x := by
  by_contra hn
  have h := hc har (not_lt.1 hn)
  have e := line_id' l r a b
  have hn := not_lt.1 hn
  rcases eq_or_lt_of_le hn with q | q
  · have : 0 < (r.x - a.x) * - det2 l r b := mul_pos (by linarith) (by linarith)
    have h3 : (r.x - l.x) * det2 a b r ≤ 0 := mul_nonpos_of_nonneg_of_nonpos (by linarith) h
    have : b.x - r.x = 0 := by linarith
    rw [this] at e; linarith
  · have k1 : 0 < (b.x - r.x) * - det2 l r a := mul_pos (by linarith) (by linarith)
    have k2 : 0 ≤ (r.x - a.x) * - det2 l r b := mul_nonneg (by linarith) (by linarith)
    have h3 : (r.x - l.x) * det2 a b r ≤ 0 := mul_nonpos_of_nonneg_of_nonpos (by linarith) h
    linarith

/-- The mirror image. -/
theorem below_left {l r a b : Point} (hlr : l.x < r.x) (ha : det2 l r a < 0) (hb : det2 l r b < 0) (hab : a.x < b.x) (har : l.x ≤ b.x)
    (hc : a.x ≤ l.x → l.x ≤ b.x → det2 a b l ≤ 0) : l.x < a.x := by
  by_contra hn
  have h := hc (not_lt.1 hn) har
  have e := line_id l r a b
  have hn := not_lt.1 hn
  rcases eq_or_lt_of_le hn with q | q
  · have k1 : 0 < (b.x - l.x) * - det2 l r a := mul_pos (by linarith) (by linarith)
    have h3 : (r.x - l.x) * det2 a b l ≤ 0 := mul_nonpos_of_nonneg_of_nonpos (by linarith) h
    have : l.x - a.x = 0 := by linarith
    rw [this] at e; linarith
  · have k1 : 0 ≤ (b.x - l.x) * - det2 l r a := mul_nonneg (by linarith) (by linarith)
    have k2 : 0 < (l.x - a.x) * - det2 l r b := mul_pos (by linarith) (by linarith)
    have h3 : (r.x - l.x) * det2 a b l ≤ 0 := mul_nonpos_of_nonneg_of_nonpos (by linarith) h
    linarith

theorem slope_id (l r a b d : Point) : (r.x - l.x) * det2 a b d = (b.x - a.x) * (det2 l r d - det2 l r b) - (det2 l r b - det2 l r a) * (d.x - b.x) := by
  unfold det2; ring

/-- A front that turns down goes on going down. -/
theorem down_right {l r a b d : Point} (hlr : l.x < r.x) (hab : a.x < b.x) (hbd : b.x < d.x) (h : det2 a b d ≤ 0) (k : det2 l r b < det2 l r a) :
    det2 l r d < det2 l r b := by
  by_contra hn
  have e := slope_id l r a b d
  have k1 : 0 ≤ (b.x - a.x) * (det2 l r d - det2 l r b) := mul_nonneg (by linarith) (by linarith)
  have k2 : 0 < (det2 l r a - det2 l r b) * (d.x - b.x) := mul_pos (by linarith) (by linarith)
  have h3 : (r.x - l.x) * det2 a b d ≤ 0 := mul_nonpos_of_nonneg_of_nonpos (by linarith) h
  linarith

/-- The mirror image. -/
theorem down_left {l r a b d : Point} (hlr : l.x < r.x) (hab : a.x < b.x) (hbd : b.x < d.x) (h : det2 a b d ≤ 0) (k : det2 l r b < det2 l r d) :
    det2 l r a < det2 l r b := by
  by_contra hn
  have e := slope_id l r a b d
  have k1 : 0 < (b.x - a.x) * (det2 l r d - det2 l r b) := mul_pos (by linarith) (by linarith)
  have k2 : 0 ≤ (det2 l r a - det2 l r b) * (d.x - b.x) := mul_nonneg (by linarith) (by linarith)
  have h3 : (r.x - l.x) * det2 a b d ≤ 0 := mul_nonpos_of_nonneg_of_nonpos (by linarith) h
  linarith

end P2T
