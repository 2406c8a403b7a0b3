import Verif.Proofs.Flat

/-!
# The mesh under the flips of an edge event
-/

set_option linter.unusedSectionVars false

namespace P2T

/-- No three different points of the run are on a line. -/
def GenPos (c : Ctx) : Prop := ∀ i j k, i < c.points.length → j < c.points.length → k < c.points.length →
  i ≠ j → j ≠ k → i ≠ k → det2 (c.pos i) (c.pos j) (c.pos k) ≠ 0

/-- `in_scan_area` sees every point strictly inside the angle. -/
def Exact (c : Ctx) : Prop := ∀ i j k, i < c.points.length → j < c.points.length → k < c.points.length →
  (det2 (c.pos i) (c.pos k) (c.pos j) < 0 → scanDet c.num (c.pos i) (c.pos j) (c.pos k) < -c.num.eps) ∧
  (0 < det2 (c.pos i) (c.pos k) (c.pos j) → c.num.eps < scanDet c.num (c.pos i) (c.pos j) (c.pos k))

variable {c : Ctx} {K : Prop} {Q : Nat → Prop} {P : Nat → Nat → Prop} {s : St}

/-- In general position there are no flat triangles. -/
theorem SInv.lg_gen (h : SInv c K Q P s) (gp : GenPos c) : LG c.pos s.tris := by
  intro t w u v x e w' e' a b h0 k
  have l := h.sl_lt a
  have d := h.sl_ne a
  exact (gp _ _ _ l.1 l.2.1 l.2.2 d.1 d.2.1 d.2.2 h0).elim

/-- In exact arithmetic `in_scan_area` is the wedge test. -/
theorem inScan_iff (gd : Good c) (ex : Exact c) {o a b x : Nat} (ho : o < c.points.length) (ha : a < c.points.length)
    (hb : b < c.points.length) (hx : x < c.points.length) :
    inScanArea c.num (c.pos o) (c.pos a) (c.pos b) (c.pos x) = true ↔ InWedge (c.pos o) (c.pos a) (c.pos b) (c.pos x) := by
  have g1 := gd.scan o a x ho ha hx
  have g2 := gd.scan o b x ho hb hx
  have e1 := ex o a x ho ha hx
  have e2 := ex o b x ho hb hx
  have w : det2 (c.pos o) (c.pos a) (c.pos x) = - det2 (c.pos o) (c.pos x) (c.pos a) := det2_swap' _ _ _
  unfold inScanArea InWedge
  rw [w]
  constructor
  · intro h
    split at h
    · cases h
    · split at h
      · cases h
      · rename_i h1 h2
        exact ⟨by linarith [g1.1 (not_le.1 h1)], g2.2 (not_le.1 h2)⟩
  · rintro ⟨h1, h2⟩
    rw [if_neg (not_le.2 (e1.1 (by linarith))), if_neg (not_le.2 (e2.2 h2))]

/-! ## One flip -/

/-- No corner is inside the segment. -/
def NV (P : Nat → Point) (ts : Store) (u v : Nat) : Prop := ∀ z, Vtx ts z → ¬ OnOpen (P u) (P v) (P z)

/-- From `ts` to `ts'` the same corners, no new open edges and no new flat triangles; under the condition `N` the same marks, and the marks of the edges in `F` are kept. -/
structure Step (N : Prop) (F : Nat → Nat → Prop) (P : Nat → Point) (ts ts' : Store) : Prop where
  vtx : ∀ z, Vtx ts' z ↔ Vtx ts z
  con : N → ∀ u v, Mk ts' u v ↔ Mk ts u v
  keep : ∀ u v, F u v → Mk ts u v → Mk ts' u v
  mark : ∀ u v, Mk ts' u v → Mk ts u v ∨ NV P ts u v
  opn : ∀ {t u v}, Bd ts' t u v → ∃ t', Bd ts t' u v
  flat : ∀ {t w u v n e}, Sl ts' t w u v n e → det2 (P w) (P u) (P v) = 0 → ∃ n' e', Sl ts t w u v n' e'
  lg : LG P ts → LG P ts'

/-- The triangle `y` has the corners `w u v` in this order. -/
def HasTri (ts : Store) (y w u v : Nat) : Prop := ∃ n e, Sl ts y w u v n e

/-- Every triangle no edge of which crosses the segment from `eq` to `ep` keeps its corners. -/
def Frame (P : Nat → Point) (ts ts' : Store) (eq ep : Nat) : Prop := ∀ y w u v, HasTri ts y w u v →
  ¬ ProperCross (P w) (P u) (P eq) (P ep) → ¬ ProperCross (P u) (P v) (P eq) (P ep) → ¬ ProperCross (P v) (P w) (P eq) (P ep) →
  HasTri ts' y w u v

theorem Step.refl (N : Prop) (F : Nat → Nat → Prop) (P : Nat → Point) (ts : Store) : Step N F P ts ts :=
  ⟨fun _ => .rfl, fun _ _ _ => .rfl, fun _ _ _ h => h, fun _ _ h => .inl h, fun h => ⟨_, h⟩, fun h _ => ⟨_, _, h⟩, fun h => h⟩
theorem Step.trans {N F P} {a b d : Store} (h : Step N F P a b) (h' : Step N F P b d) : Step N F P a d :=
  ⟨fun z => (h'.vtx z).trans (h.vtx z), fun n u v => (h'.con n u v).trans (h.con n u v), fun u v f k => h'.keep u v f (h.keep u v f k), fun u v k => (h'.mark u v k).elim (h.mark u v) fun k => .inr fun z hz => k z ((h.vtx z).2 hz), fun k => let ⟨_, k⟩ := h'.opn k; h.opn k,
    fun k k0 => let ⟨_, _, k⟩ := h'.flat k k0; h.flat k k0, fun k => h'.lg (h.lg k)⟩

theorem Nice.step {N F P ts ts' eq ep} (h : Nice P ts eq ep) (k : Step N F P ts ts') : Nice P ts' eq ep :=
  ⟨fun a a0 => let ⟨_, _, a⟩ := k.flat a a0; h.nz a a0, fun z hz => h.free z ((k.vtx z).1 hz)⟩
theorem Frame.refl (P ts eq ep) : Frame P ts ts eq ep := fun _ _ _ _ h _ _ _ => h
theorem Frame.trans {P} {a b d : Store} {eq ep} (h : Frame P a b eq ep) (h' : Frame P b d eq ep) : Frame P a d eq ep :=
  fun y w u v k h1 h2 h3 => h' y w u v (h y w u v k h1 h2 h3) h1 h2 h3

theorem Flip.Rel.back {F : Flip} {ts ts' : Store} (r : F.Rel ts ts') (p : F.Pre c.W ts) (m : MeshInv c K Q ts) (cv : Convex c F.p F.a F.b F.op) {t w u v n e}
    (a : Sl ts' t w u v n e) (h0 : det2 (c.pos w) (c.pos u) (c.pos v) = 0) : ∃ n' e', Sl ts t w u v n' e' ∧
      ((n' = n ∧ e' = e) ∨ (n' = some F.t ∨ n' = some F.ot)) ∧ t ≠ F.t ∧ t ≠ F.ot := by
  have fa := p.facts (oriW c) m.ok
  obtain ⟨c1, c2⟩ := cv
  rcases (r ..).1 a with ⟨rfl, rfl, rfl, rfl, -⟩ | ⟨rfl, rfl, rfl, rfl, -⟩ | ⟨rfl, rfl, rfl, rfl, -⟩ | ⟨rfl, rfl, rfl, rfl, -⟩ |
    ⟨rfl, rfl, rfl, rfl, -⟩ | ⟨rfl, rfl, rfl, rfl, -⟩ | ⟨hn, rfl, rfl, rfl, -⟩ | ⟨hn, rfl, rfl, rfl, -⟩ | ⟨hn, rfl, rfl, rfl, -⟩ |
    ⟨hn, rfl, rfl, rfl, -⟩ | ⟨h1, h2, h3, h4, h5⟩
  · exact (c1.ne' (by rw [← h0]; unfold det2; ring)).elim
  · exact (c1.ne' h0).elim
  · exact (c1.ne' (by rw [← h0]; unfold det2; ring)).elim
  · exact (c2.ne' (by rw [← h0]; unfold det2; ring)).elim
  · exact (c2.ne' (by rw [← h0]; unfold det2; ring)).elim
  · exact (c2.ne' h0).elim
  · exact ⟨_, _, p.h1 _ hn, .inr (.inl rfl), fun k => fa.u1.1 (k ▸ hn), fun k => fa.u1.2 (k ▸ hn)⟩
  · exact ⟨_, _, p.h2 _ hn, .inr (.inl rfl), fun k => fa.u2.1 (k ▸ hn), fun k => fa.u2.2 (k ▸ hn)⟩
  · exact ⟨_, _, p.h3 _ hn, .inr (.inr rfl), fun k => fa.u3.1 (k ▸ hn), fun k => fa.u3.2 (k ▸ hn)⟩
  · exact ⟨_, _, p.h4 _ hn, .inr (.inr rfl), fun k => fa.u4.1 (k ▸ hn), fun k => fa.u4.2 (k ▸ hn)⟩
  · exact ⟨_, _, h5, .inl ⟨rfl, rfl⟩, h1, h2⟩

theorem Flip.Rel.lg {F : Flip} {ts ts' : Store} (r : F.Rel ts ts') (p : F.Pre c.W ts) (m : MeshInv c K Q ts) (cv : Convex c F.p F.a F.b F.op)
    (p1 : 0 < det2 (c.pos F.p) (c.pos F.a) (c.pos F.b)) (p2 : 0 < det2 (c.pos F.op) (c.pos F.b) (c.pos F.a)) (h : LG c.pos ts) : LG c.pos ts' := by
  intro t w u v x e w' e' a b h0 k hp
  obtain ⟨n', e1, a', q, n1, n2⟩ := r.back p m cv a h0
  have hN : n' ≠ some F.t ∧ n' ≠ some F.ot := by
    constructor <;> rintro rfl <;> obtain ⟨w1, e2, b'⟩ := m.sym a'
    · refine h a' b' h0 k ?_
      rcases p.onT m b' with ⟨rfl, rfl, rfl, -⟩ | ⟨rfl, rfl, rfl, -⟩ | ⟨rfl, rfl, rfl, -⟩
      · exact p1
      · have : det2 (c.pos F.b) (c.pos F.p) (c.pos F.a) = det2 (c.pos F.p) (c.pos F.a) (c.pos F.b) := by unfold det2; ring
        rw [this]; exact p1
      · have : det2 (c.pos F.a) (c.pos F.b) (c.pos F.p) = det2 (c.pos F.p) (c.pos F.a) (c.pos F.b) := by unfold det2; ring
        rw [this]; exact p1
    · refine h a' b' h0 k ?_
      rcases p.onO m b' with ⟨rfl, rfl, rfl, -⟩ | ⟨rfl, rfl, rfl, -⟩ | ⟨rfl, rfl, rfl, -⟩
      · exact p2
      · have : det2 (c.pos F.a) (c.pos F.op) (c.pos F.b) = det2 (c.pos F.op) (c.pos F.b) (c.pos F.a) := by unfold det2; ring
        rw [this]; exact p2
      · have : det2 (c.pos F.b) (c.pos F.a) (c.pos F.op) = det2 (c.pos F.op) (c.pos F.b) (c.pos F.a) := by unfold det2; ring
        rw [this]; exact p2
  rcases q with ⟨rfl, rfl⟩ | q | q
  · obtain ⟨w1, e2, b'⟩ := m.sym a'
    have x1 : x ≠ F.t := fun k => hN.1 (by rw [k])
    have x2 : x ≠ F.ot := fun k => hN.2 (by rw [k])
    have b1 := r.rest b' x1 x2 (by simpa using n1) (by simpa using n2)
    -- one triangle, one apex
    have d : D3 w1 v u := (oriW c).d3 (m.wo b')
    obtain ⟨d1, d2, d3⟩ := d
    rcases sl_two b1 ⟨d1, d2, d3⟩ b with ⟨rfl, -⟩ | ⟨-, q, -⟩ | ⟨-, q, -⟩
    · exact h a' b' h0 k hp
    · exact d2 q
    · exact d1 q.symm
  · exact hN.1 q
  · exact hN.2 q

/-- No corner is inside the diagonal of two neighbours that form a convex quadrilateral. -/
theorem Pl.diagonal {P : Nat → Point} {ts : Store} (pl : Pl P ts) {t p a b n e ot op n' e'} (s0 : Sl ts t p a b n e) (o0 : Sl ts ot op b a n' e')
    (p1 : 0 < det2 (P p) (P a) (P b)) (p2 : 0 < det2 (P op) (P b) (P a)) (c1 : 0 < det2 (P p) (P op) (P b)) (c2 : 0 < det2 (P p) (P a) (P op)) {z : Nat} (hz : Vtx ts z) :
    ¬ OnOpen (P p) (P op) (P z) := by
  rintro ⟨r, r0, r1, k⟩
  have e1 : det2 (P p) (P a) (P z) = r * det2 (P p) (P a) (P op) := by rw [k]; simp only [mix, det2]; ring
  have e2 : det2 (P p) (P z) (P b) = r * det2 (P p) (P op) (P b) := by rw [k]; simp only [mix, det2]; ring
  have e3 : det2 (P op) (P b) (P z) = (1 - r) * det2 (P p) (P op) (P b) := by rw [k]; simp only [mix, det2]; ring
  have e4 : det2 (P a) (P op) (P z) = (1 - r) * det2 (P p) (P a) (P op) := by rw [k]; simp only [mix, det2]; ring
  have k1 : 0 < det2 (P p) (P a) (P z) := e1 ▸ mul_pos r0 c2
  have k2 : 0 < det2 (P p) (P z) (P b) := e2 ▸ mul_pos r0 c1
  rcases lt_trichotomy (det2 (P a) (P b) (P z)) 0 with x | x | x
  · exact pl.nocorner o0 hz ⟨e3 ▸ mul_pos (by linarith) c1, by rw [det2_swap]; linarith, e4 ▸ mul_pos (by linarith) c2⟩
  · exact pl.noend ⟨_, _, _, _, .inl ⟨s0, p1⟩⟩ hz (scan_on_edge k1 k2 x)
  · exact pl.nocorner s0 hz ⟨k1, x, by rw [← det2_rot]; exact k2⟩

/-- The flip of an edge accepted by `in_scan_area`; under the condition `N` the edge is not marked. -/
theorem scan_flip' {N : Prop} {F' : Nat → Nat → Prop} {s : St} (h : SInv c K Q NoP s) {t p a b ot op e0 f0} (s0 : Sl s.tris t p a b (some ot) e0)
    (o0 : Sl s.tris ot op b a (some t) f0) (cv : Convex c p a b op) (hm : N → ¬ Mk s.tris a b) (hf : ¬ F' a b ∧ ¬ F' b a)
    (p1 : 0 < det2 (c.pos p) (c.pos a) (c.pos b)) (p2 : 0 < det2 (c.pos op) (c.pos b) (c.pos a)) (pl : Pl c.pos s.tris) {ts need}
    (hr : Store.rotatePair s.tris t p ot op = .ok (ts, need)) :
    Step N F' c.pos s.tris ts ∧ (∀ y w u v, HasTri s.tris y w u v → y ≠ t → y ≠ ot → HasTri ts y w u v) := by
  have w1 := h.mesh.wo s0
  have w2 := h.mesh.wo o0
  obtain ⟨F, rfl, rfl, rfl, rfl, rfl, rfl, rfl, rfl, hp⟩ := mkFlip h.mesh.ok s0 o0 (w1 := ⟨⟨w1.1.1, w2.1.1, w1.1.2.2⟩, .inl cv.1⟩)
    (w2 := ⟨⟨w1.1.1, w1.1.2.1, w2.1.1⟩, .inl cv.2⟩)
  obtain ⟨ts1, h1, h2, h3, h4⟩ := rotatePair_spec (oriW c) h.mesh.ok hp
  rw [hr] at h1; cases h1
  have c0 : N → F.e0.isConstrained = false := by
    intro hN; by_contra k; exact hm hN (.of s0 (by simpa using k))
  have c1 : N → F.f0.isConstrained = false := by
    intro hN; by_contra k; exact hm hN (Mk.of o0 (by simpa using k)).symm
  have kp : ∀ u v, Mk s.tris u v → ¬ (u = F.a ∧ v = F.b) → ¬ (u = F.b ∧ v = F.a) → Mk ts u v := by
    have L : ∀ {n g e}, e.isConstrained = true → (linkA n g e).isConstrained = true := by
      intro n g e h; unfold linkA; split <;> simp [h]
    have main : ∀ {t w u v n e}, Sl s.tris t w u v n e → e.isConstrained = true → ¬ (u = F.a ∧ v = F.b) → ¬ (u = F.b ∧ v = F.a) → Mk ts u v := by
      intro t w u v n e hs he x1 x2
      by_cases ht : t = F.t
      · subst ht
        rcases hp.onT h.mesh hs with ⟨-, rfl, rfl, rfl, rfl⟩ | ⟨-, rfl, rfl, rfl, rfl⟩ | ⟨-, rfl, rfl, rfl, rfl⟩
        · exact (x1 ⟨rfl, rfl⟩).elim
        · exact .of h2.r1 (L he)
        · exact .of h2.r2 (L he)
      by_cases ho : t = F.ot
      · subst ho
        rcases hp.onO h.mesh hs with ⟨-, rfl, rfl, rfl, rfl⟩ | ⟨-, rfl, rfl, rfl, rfl⟩ | ⟨-, rfl, rfl, rfl, rfl⟩
        · exact (x2 ⟨rfl, rfl⟩).elim
        · exact .of h2.r3 (L he)
        · exact .of h2.r4 (L he)
      by_cases hn : n = some F.t ∨ n = some F.ot
      · rcases hp.toward h.mesh hs ht ho hn with ⟨k, rfl, rfl, rfl, rfl⟩ | ⟨k, rfl, rfl, rfl, rfl⟩ | ⟨k, rfl, rfl, rfl, rfl⟩ |
          ⟨k, rfl, rfl, rfl, rfl⟩
        · exact .of (h2.q1 k) (by simp [he])
        · exact .of (h2.q2 k) (by simp [he])
        · exact .of (h2.q3 k) (by simp [he])
        · exact .of (h2.q4 k) (by simp [he])
      · exact .of (h2.rest hs ht ho (fun h => hn (.inl h)) (fun h => hn (.inr h))) he
    rintro u v ⟨t, w, n, e, k | k, he⟩ x1 x2
    · exact main k he x1 x2
    · exact (main k he (fun q => x2 ⟨q.2, q.1⟩) (fun q => x1 ⟨q.2, q.1⟩)).symm
  refine ⟨⟨h2.vtx hp h.mesh, fun hN u v => ⟨h2.nonew hp h.mesh (c0 hN) (c1 hN) u v, fun k => kp u v k ?_ ?_⟩, fun u v f k => kp u v k ?_ ?_, fun u v k => ?_, fun k => ((h2.bd hp h.mesh).2.1 k).imp fun _ k => k.1,
    fun k k0 => let ⟨n, e, k, _⟩ := h2.back hp h.mesh cv k k0; ⟨n, e, k⟩, h2.lg hp h.mesh cv p1 p2⟩, ?_⟩
  · rintro ⟨rfl, rfl⟩; exact hm hN k
  · rintro ⟨rfl, rfl⟩; exact hm hN k.symm
  · rintro ⟨rfl, rfl⟩; exact hf.1 f
  · rintro ⟨rfl, rfl⟩; exact hf.2 f
  · rcases h2.newmark hp h.mesh u v k with k | ⟨rfl, rfl⟩ | ⟨rfl, rfl⟩
    · exact .inl k
    · exact .inr fun z hz k => pl.diagonal s0 o0 p1 p2 cv.1 cv.2 hz k
    · exact .inr fun z hz k => pl.diagonal s0 o0 p1 p2 cv.1 cv.2 hz k.symm
  · rintro y w u v ⟨n, e, k⟩ n1 n2
    exact h2.frame hp h.mesh k n1 n2

end P2T
