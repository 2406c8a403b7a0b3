import Verif.Proofs.Halt
import Verif.Proofs.ScanRun
import Mathlib.Data.Finset.Card
import Mathlib.Data.Finset.Prod

/-!
# Halting of edge insertion

Inserting a segment is a triple recursion: `edge_event_process` rotates around the start of the segment, `flip_edge_event` flips or looks
for a corner to insert another segment first, `flip_scan_edge_event` walks along the segment.  In general position every one of these
makes progress.
-/

set_option linter.unusedSectionVars false

namespace P2T

open Classical in
/-- How many of the numbers below `n` have the property. -/
noncomputable def cnt (n : Nat) (p : Nat → Prop) : Nat := ((Finset.range n).filter p).card

theorem cnt_le {n : Nat} {p q : Nat → Prop} (h : ∀ z, z < n → p z → q z) : cnt n p ≤ cnt n q := by
  classical
  refine Finset.card_le_card fun z hz => ?_
  simp only [Finset.mem_filter, Finset.mem_range] at hz ⊢
  exact ⟨hz.1, h z hz.1 hz.2⟩

theorem cnt_lt {n : Nat} {p q : Nat → Prop} (h : ∀ z, z < n → p z → q z) {x : Nat} (hx : x < n) (hq : q x) (hp : ¬ p x) : cnt n p < cnt n q := by
  classical
  refine Finset.card_lt_card ⟨fun z hz => ?_, fun k => ?_⟩
  · simp only [Finset.mem_filter, Finset.mem_range] at hz ⊢
    exact ⟨hz.1, h z hz.1 hz.2⟩
  · have : x ∈ (Finset.range n).filter q := by simp [hx, hq]
    exact hp (by simpa using (Finset.mem_filter.1 (k this)).2)

open Classical in
/-- How many of the pairs below `n` have the property. -/
noncomputable def cnt2 (n : Nat) (p : Nat → Nat → Prop) : Nat := ((Finset.range n ×ˢ Finset.range n).filter fun z => p z.1 z.2).card

theorem cnt2_lt {n : Nat} {p q : Nat → Nat → Prop} (h : ∀ u v, p u v → q u v) {x y : Nat} (hx : x < n) (hy : y < n) (hq : q x y)
    (hp : ¬ p x y) : cnt2 n p < cnt2 n q := by
  classical
  refine Finset.card_lt_card ⟨fun z hz => ?_, fun k => ?_⟩
  · simp only [Finset.mem_filter] at hz ⊢
    exact ⟨hz.1, h _ _ hz.2⟩
  · have : (x, y) ∈ (Finset.range n ×ˢ Finset.range n).filter fun z => q z.1 z.2 := by simp [hx, hy, hq]
    exact hp (Finset.mem_filter.1 (k this)).2

/-! ## The walk along the segment -/

/-- The edges crossing the segment behind the line of `x y`. -/
def Ahead (P : Nat → Point) (eq ep x y u v : Nat) : Prop :=
  ∃ X, OnOpen (P u) (P v) X ∧ OnOpen (P eq) (P ep) X ∧ det2 (P x) (P y) X < 0

theorem ahead_sub {o e x y x' y' X Y : Point} (h0 : 0 < det2 x y o) (h1 : 0 < det2 x' y' o) (hX : OnOpen o e X) (kX : det2 x' y' X = 0)
    (kX' : det2 x y X < 0) (hY : OnOpen o e Y) (kY : det2 x' y' Y < 0) : det2 x y Y < 0 := by
  obtain ⟨r, r0, r1, rfl⟩ := hX
  obtain ⟨q, q0, q1, rfl⟩ := hY
  rw [det2_mix] at *
  generalize det2 x y o = A at *
  generalize det2 x y e = B at *
  generalize det2 x' y' o = A' at *
  generalize det2 x' y' e = B' at *
  have hrq : r < q := by
    by_contra hc
    have hc := not_lt.1 hc
    have : 0 ≤ (r - q) * A' := mul_nonneg (by linarith) h1.le
    have h5 : r * ((1 - q) * A' + q * B') = (r - q) * A' + q * ((1 - r) * A' + r * B') := by ring
    rw [kX, mul_zero, add_zero] at h5
    have := mul_neg_of_pos_of_neg r0 kY
    linarith
  have h5 : r * ((1 - q) * A + q * B) = (r - q) * A + q * ((1 - r) * A + r * B) := by ring
  have h6 := mul_neg_of_neg_of_pos (sub_neg.2 hrq) h0
  have h7 := mul_neg_of_pos_of_neg q0 kX'
  by_contra hc
  have := mul_nonneg r0.le (not_lt.1 hc)
  linarith

namespace Chain
variable {P : Nat → Point} {ts : Store} {eq ep a b f t w x y : Nat}

theorem front (c : Chain P ts eq ep a b f t w x y) : 0 < det2 (P x) (P y) (P eq) := by rw [det2_rot]; exact c.xy

/-- The next edge of the chain is further away. -/
theorem ahead {t' w' x' y' : Nat} (c : Chain P ts eq ep a b f t w x y) (c' : Chain P ts eq ep a b f t' w' x' y') (h : Pl P ts)
    (hlt : ∀ X, OnOpen (P x') (P y') X → det2 (P x) (P y) X < 0) :
    (∀ u v, Ahead P eq ep x' y' u v → Ahead P eq ep x y u v) ∧ Ahead P eq ep x y x' y' ∧ ¬ Ahead P eq ep x' y' x' y' := by
  obtain ⟨X, hX, hX'⟩ := (c'.cross h).point
  refine ⟨?_, ⟨X, hX, hX', hlt X hX⟩, ?_⟩
  · rintro u v ⟨Y, h1, h2, h3⟩
    exact ⟨Y, h1, h2, ahead_sub c.front c'.front hX' hX.line (hlt X hX) h2 h3⟩
  · rintro ⟨Y, h1, -, h3⟩
    rw [h1.line] at h3; exact lt_irrefl _ h3

theorem ahead_right (c : Chain P ts eq ep a b f t w x y) (h : Pl P ts) {ot op m e} (s : Sp P ts ot op y x m e) {w'}
    (c' : Chain P ts eq ep a b f ot w' op y) :
    (∀ u v, Ahead P eq ep op y u v → Ahead P eq ep x y u v) ∧ Ahead P eq ep x y op y ∧ ¬ Ahead P eq ep op y op y := by
  refine c.ahead c' h ?_
  rintro X ⟨r, r0, r1, rfl⟩
  have := s.pos
  rw [det2_mix, (det2_same _ _).2.1]
  have e1 : det2 (P x) (P y) (P op) = - det2 (P op) (P y) (P x) := by unfold det2; ring
  rw [e1]
  have := mul_pos (sub_pos.2 r1) this
  linarith

theorem ahead_left (c : Chain P ts eq ep a b f t w x y) (h : Pl P ts) {ot op m e} (s : Sp P ts ot op y x m e) {w'}
    (c' : Chain P ts eq ep a b f ot w' x op) :
    (∀ u v, Ahead P eq ep x op u v → Ahead P eq ep x y u v) ∧ Ahead P eq ep x y x op ∧ ¬ Ahead P eq ep x op x op := by
  refine c.ahead c' h ?_
  rintro X ⟨r, r0, r1, rfl⟩
  have := s.pos
  rw [det2_mix, (det2_same _ _).1]
  have e1 : det2 (P x) (P y) (P op) = - det2 (P op) (P y) (P x) := by unfold det2; ring
  rw [e1]
  have := mul_pos r0 this
  linarith

end Chain

/-! ## What gets smaller -/

/-- An edge of the triangle `y` crosses the segment. -/
def Crossed (P : Nat → Point) (ts : Store) (eq ep y : Nat) : Prop := ∃ w u v, HasTri ts y w u v ∧ ProperCross (P u) (P v) (P eq) (P ep)

/-- How many triangles the segment crosses. -/
noncomputable def tau (P : Nat → Point) (ts : Store) (eq ep : Nat) : Nat := cnt ts.length (Crossed P ts eq ep)

/-- How many points there are in the angle. -/
noncomputable def nu (c : Ctx) (eq p1 p2 : Nat) : Nat := cnt c.points.length fun z => InWedge (c.pos eq) (c.pos p1) (c.pos p2) (c.pos z)

theorem HasTri.rot {ts y w u v} (h : HasTri ts y w u v) : HasTri ts y u v w := by
  obtain ⟨_, _, h⟩ := h
  obtain ⟨n, e, h⟩ := h.rot
  exact ⟨n, e, h⟩

theorem hasTri_some {ts : Store} {y : Nat} (h : y < ts.length) : ∃ w u v, HasTri ts y w u v := by
  obtain ⟨T, hT⟩ : ∃ T, ts[y]? = some T := ⟨_, List.getElem?_eq_getElem h⟩
  exact ⟨_, _, _, _, _, T, hT, .inl ⟨rfl, rfl, rfl⟩⟩

theorem tau_frame {P : Nat → Point} {ts ts' : Store} (pl' : Pl P ts') {eq ep : Nat} (fr : Frame P ts ts' eq ep) (hl : ts'.length = ts.length) :
    tau P ts' eq ep ≤ tau P ts eq ep := by
  unfold tau
  rw [hl]
  refine cnt_le fun y hy => ?_
  rintro ⟨w', u', v', h', hc⟩
  by_contra hn
  obtain ⟨w, u, v, h⟩ := hasTri_some hy
  have k := fr y w u v h (fun q => hn ⟨_, _, _, h.rot.rot, q⟩) (fun q => hn ⟨_, _, _, h, q⟩) (fun q => hn ⟨_, _, _, h.rot, q⟩)
  obtain ⟨_, _, s⟩ := k
  obtain ⟨_, _, s'⟩ := h'
  rcases pl'.tri_cases s s' with ⟨rfl, rfl, rfl⟩ | ⟨rfl, rfl, rfl⟩ | ⟨rfl, rfl, rfl⟩
  · exact hn ⟨_, _, _, h, hc⟩
  · exact hn ⟨_, _, _, h.rot, hc⟩
  · exact hn ⟨_, _, _, h.rot.rot, hc⟩

/-- A nested segment crosses fewer triangles. -/
theorem tau_nested {P : Nat → Point} {ts : Store} (h : Pl P ts) {eq ep p1 p2 f t w x y : Nat} (c : Chain P ts eq ep p1 p2 f t w x y)
    {ot op m e} (s : Sp P ts ot op y x m e) (hw : InWedge (P eq) (P p1) (P p2) (P op)) {f0 a b : Nat} (l : Level P ts eq ep p1 p2 f0 a b) (hm : w ≠ eq)
    (nc : Nice P ts eq ep) : tau P ts op eq < tau P ts eq ep := by
  obtain ⟨u1, u2, u3⟩ := c.found_up h s hw l hm
  obtain ⟨n, e, sf⟩ := l.tri
  obtain ⟨nq, eq', sq⟩ := c.tri
  refine cnt_lt (x := f0) ?_ sf.lt ⟨_, _, _, l.tri, ((Chain.start h ⟨sf, l.pos⟩ l.w sq.sl.vtx.1).cross h).swap'⟩ ?_
  · rintro z - ⟨w', u, v, k, hc⟩
    exact ⟨w', u, v, k, c.found_cross' h s hw nc k.edges.2.1 hc⟩
  · rintro ⟨w', u, v, ⟨_, _, k⟩, hc⟩
    rcases h.tri_cases sf k with ⟨rfl, rfl, rfl⟩ | ⟨rfl, rfl, rfl⟩ | ⟨rfl, rfl, rfl⟩
    · exact u2 hc
    · exact u3 hc
    · exact u1 hc

theorem nu_right {c : Ctx} {eq p1 p2 z : Nat} (ab : 0 < det2 (c.pos eq) (c.pos p1) (c.pos p2)) (hz : InWedge (c.pos eq) (c.pos p1) (c.pos p2) (c.pos z))
    (hn : z < c.points.length) : nu c eq p1 z < nu c eq p1 p2 :=
  cnt_lt (fun _ _ k => wedge_right ab hz k) hn hz fun k => k.ne.2.2 rfl

theorem nu_left {c : Ctx} {eq p1 p2 z : Nat} (ab : 0 < det2 (c.pos eq) (c.pos p1) (c.pos p2)) (hz : InWedge (c.pos eq) (c.pos p1) (c.pos p2) (c.pos z))
    (hn : z < c.points.length) : nu c eq z p2 < nu c eq p1 p2 :=
  cnt_lt (fun _ _ k => wedge_left ab hz k) hn hz fun k => k.ne.2.1 rfl


/-! ## Directions -/

/-- Directions below a point are ordered. -/
theorem below_trans {o a b z : Point} (ha : Below a o) (hb : Below b o) (hz : Below z o) (h1 : 0 < det2 o a b) (h2 : 0 ≤ det2 o z a) :
    0 < det2 o z b := by
  by_contra hc
  have hc := not_lt.1 hc
  have e1 : det2 o a z = - det2 o z a := det2_swap' _ _ _
  have e2 : det2 o b z = - det2 o z b := det2_swap' _ _ _
  have id : det2 o a b * (z.y - o.y) - det2 o a z * (b.y - o.y) + det2 o b z * (a.y - o.y) = 0 := by unfold det2; ring
  have ya : a.y - o.y ≤ 0 := by rcases ha with k | ⟨k, -⟩ <;> linarith
  have yb : b.y - o.y ≤ 0 := by rcases hb with k | ⟨k, -⟩ <;> linarith
  have yz : z.y - o.y ≤ 0 := by rcases hz with k | ⟨k, -⟩ <;> linarith
  have k1 := mul_nonpos_of_nonneg_of_nonpos h1.le yz
  have k2 := mul_nonneg_of_nonpos_of_nonpos (show det2 o a z ≤ 0 by linarith) yb
  have k3 := mul_nonpos_of_nonneg_of_nonpos (show 0 ≤ det2 o b z by linarith) ya
  have e3 : det2 o a b * (z.y - o.y) = 0 := by linarith
  have e3 := (mul_eq_zero.1 e3).resolve_left h1.ne'
  have zx : z.x < o.x := by rcases hz with k | ⟨-, k⟩; · linarith
                            · exact k
  have f1 : det2 o z b = (z.x - o.x) * (b.y - o.y) := by
    have : det2 o z b = (z.x - o.x) * (b.y - o.y) - (z.y - o.y) * (b.x - o.x) := by unfold det2; ring
    rw [this, e3]; ring
  have yb' : b.y = o.y := by
    rw [f1] at hc
    by_contra k
    have : b.y - o.y < 0 := lt_of_le_of_ne yb (sub_ne_zero.2 k)
    have := mul_pos_of_neg_of_neg (show z.x - o.x < 0 by linarith) this
    linarith
  have bx : b.x < o.x := by rcases hb with k | ⟨-, k⟩; · linarith
                            · exact k
  have f2 : det2 o a b = - ((a.y - o.y) * (b.x - o.x)) := by unfold det2; rw [yb']; ring
  have := mul_nonneg_of_nonpos_of_nonpos ya (show b.x - o.x ≤ 0 by linarith)
  linarith

/-- `z` is right of `q` as seen from `o`, or earlier on the same line. -/
def Rt (o q z : Point) : Prop := 0 < det2 o z q ∨ (det2 o z q = 0 ∧ keyLt z q)

theorem rt_trans {o a b z : Point} (ha : Below a o) (hb : Below b o) (hz : Below z o) (h1 : Rt o b a) (h2 : Rt o a z) : Rt o b z := by
  rcases h1 with h1 | ⟨h1, k1⟩
  · exact .inl (below_trans ha hb hz h1 (h2.elim le_of_lt fun k => k.1.ge))
  · have key : ∃ r : Rat, 0 < r ∧ det2 o z b = r * det2 o z a := by
      rcases below_ray ha hb h1 with ⟨r, r0, -, rfl⟩ | rfl | ⟨r, r0, -, j⟩
      · exact ⟨r, r0, by simp only [det2, mix]; ring⟩
      · exact ⟨1, one_pos, by ring⟩
      · refine ⟨1 / r, by positivity, ?_⟩
        have : det2 o z a = r * det2 o z b := by rw [j]; simp only [det2, mix]; ring
        rw [this]; field_simp
    obtain ⟨r, r0, j⟩ := key
    rcases h2 with h2 | ⟨h2, k2⟩
    · exact .inl (by rw [j]; exact mul_pos r0 h2)
    · exact .inr ⟨by rw [j, h2, mul_zero], keyLt_trans k2 k1⟩

/-! ## The recursion -/

theorem nextFlip_ne {c : Ctx} {K Q} {ts : Store} (m : MeshInv c K Q ts) {ep eq ot op u v n e} (h1 : ep < c.points.length) (h2 : eq < c.points.length)
    (s : Sl ts ot op u v n e) (hK : det2 (c.pos eq) (c.pos op) (c.pos ep) ≠ 0) : nextFlipPoint c ts ep eq ot op ≠ .error .fuel := by
  obtain ⟨O, hO⟩ : ∃ O, ts[ot]? = some O := ⟨_, List.getElem?_eq_getElem s.lt⟩
  obtain ⟨k1, k2, -⟩ := s.pts m hO
  simp only [nextFlipPoint, Ctx.pt_ok h1, Ctx.pt_ok h2, Ctx.pt_ok (m.wo s).1.1, ok_bind, getU_ok.2 hO]
  split
  · rw [k1]; simp
  · rw [k2]; simp
  · rename_i k; exact (hK (orient_collinear.1 k)).elim

def Lv.rank : Lv → Nat
  | .top => 1
  | .sub _ _ _ => 0

/-- What `flip_edge_event` starts with. -/
structure FIn (c : Ctx) (e : CEdge) (L : Lv) (s : St) (lq : List Nat) (ep eq t p1 p2 : Nat) : Prop where
  post : EPost c True s (s, lq)
  hep : ep < c.points.length
  heq : eq < c.points.length
  lg : LG c.pos s.tris
  nc : Nice c.pos s.tris eq ep
  hv : Vtx s.tris ep
  tri : HasTri s.tris t eq p1 p2
  pos : 0 < det2 (c.pos eq) (c.pos p1) (c.pos p2)
  we : InWedge (c.pos eq) (c.pos p1) (c.pos p2) (c.pos ep)
  pre : L.Pre c.pos s.tris e.qId e.pId eq ep p1 p2

/-- `flip_edge_event` halts on everything smaller. -/
def Halts (g : Trap) (c : Ctx) (e : CEdge) (i k m : Nat) : Prop := ∀ {s : St} {ep eq t p1 p2 : Nat} {lq : List Nat} {L : Lv},
  FIn c e L s lq ep eq t p1 p2 →
  (L.rank < i ∨ (L.rank = i ∧ (tau c.pos s.tris eq ep < k ∨ (tau c.pos s.tris eq ep ≤ k ∧ nu c eq p1 p2 < m)))) →
  Hal fun f _ => flipEdge g c f s ep eq e t eq lq

section
variable {c : Ctx} (gd : Good c) (ex : Exact c) {g : Trap} (hg : g.col = true) {e : CEdge}
include gd

theorem edgeProcess_hal_none {s : St} {ep eq p : Nat} {lq : List Nat} : Hal fun f _ => edgeProcess g c f s ep eq e none p lq := by
  refine Hal.succ1 ?_
  simp only [edgeProcess]
  exact Hal.error (by simp)

/-- One round of `edge_event_process`. -/
theorem edgeProcess_round {s : St} {ep eq t q1 q2 : Nat} {lq : List Nat} (h : EPost c True s (s, lq)) (hep : ep < c.points.length)
    (heq : eq < c.points.length) (ht : HasTri s.tris t eq q1 q2)
    (hc : q1 ≠ ep → q2 ≠ ep → det2 (c.pos eq) (c.pos q1) (c.pos ep) ≠ 0 ∧ det2 (c.pos eq) (c.pos q2) (c.pos ep) ≠ 0)
    (hno : ¬ (det2 (c.pos eq) (c.pos q1) (c.pos ep) < 0 ∧ 0 < det2 (c.pos eq) (c.pos q2) (c.pos ep)))
    (hin : InWedge (c.pos eq) (c.pos q1) (c.pos q2) (c.pos ep) → Hal fun f _ => flipEdge g c f s ep eq e t eq lq)
    (hr : det2 (c.pos eq) (c.pos q1) (c.pos ep) < 0 → ∀ t' e', Sl s.tris t q2 eq q1 (some t') e' →
      Hal fun f _ => edgeProcess g c f s ep eq e (some t') eq lq)
    (hl : 0 < det2 (c.pos eq) (c.pos q2) (c.pos ep) → ∀ t' e', Sl s.tris t q1 q2 eq (some t') e' →
      Hal fun f _ => edgeProcess g c f s ep eq e (some t') eq lq) :
    Hal fun f _ => edgeProcess g c f s ep eq e (some t) eq lq := by
  have hm := h.inv.mesh
  obtain ⟨n, a0, sl⟩ := ht
  obtain ⟨T, hT⟩ : ∃ T, s.tris[t]? = some T := ⟨_, List.getElem?_eq_getElem sl.lt⟩
  refine Hal.succ1 ?_
  simp only [edgeProcess, unwrap_some, ok_bind]
  rcases tryMarkEdge_spec hm sl.lt ep eq with k | ⟨ts', k, -, -, -⟩
  · simp only [k, ok_bind]
    obtain ⟨k1, k2, -⟩ := sl.pts hm hT
    obtain ⟨n1, e1, n2, e2, k3, k4, k5, k6⟩ := sl.nbrs hm hT
    have w := hm.wo sl
    simp only [getU_ok.2 hT, ok_bind, k1, k2, Ctx.pt_ok hep, Ctx.pt_ok heq, Ctx.pt_ok w.1.2.1, Ctx.pt_ok w.1.2.2, k3, k5]
    obtain ⟨-, nf, -⟩ := tryMarkEdge_one hm k
    obtain ⟨-, nf1, nf2⟩ := nf rfl
    have x1 : q1 ≠ ep := by
      rintro rfl
      obtain ⟨n3, e3, j3⟩ := sl.rot2
      exact nf2 _ _ _ j3
    have x2 : q2 ≠ ep := by
      rintro rfl
      obtain ⟨n3, e3, j3⟩ := sl.rot
      exact nf1 _ _ _ j3
    obtain ⟨c1, c2⟩ := hc x1 x2
    have o1 : orient2d (c.pos eq) (c.pos q1) (c.pos ep) ≠ .collinear := fun q => c1 (orient_collinear.1 q)
    have o2 : orient2d (c.pos eq) (c.pos q2) (c.pos ep) ≠ .collinear := fun q => c2 (orient_collinear.1 q)
    simp only [if_neg o1, if_neg o2, Bool.false_eq_true, if_false]
    rcases lt_or_gt_of_ne c1 with d1 | d1 <;> rcases lt_or_gt_of_ne c2 with d2 | d2
    · simp only [orient_cw.2 d1, orient_cw.2 d2, if_true, ok_bind]
      cases n2 with
      | none => exact edgeProcess_hal_none gd
      | some t' => exact hr d1 t' e2 k6
    · exact (hno ⟨d1, d2⟩).elim
    · simp only [orient_ccw.2 d1, orient_cw.2 d2, reduceCtorEq, if_false]
      exact hin ⟨d1, by rw [det2_swap']; linarith⟩
    · simp only [orient_ccw.2 d1, orient_ccw.2 d2, reduceCtorEq, if_true, if_false, ok_bind]
      cases n1 with
      | none => exact edgeProcess_hal_none gd
      | some t' => exact hl d2 t' e1 k4
  · simp only [k, ok_bind, if_true]
    exact Hal.pure

/-- The restart after a scan. -/
theorem edgeProcess_two {i k m : Nat} (hF : Halts g c e i k m) {s : St} {ep eq t p1 p2 z : Nat} {lq : List Nat} {L : Lv}
    (h : EPost c True s (s, lq)) (hep : ep < c.points.length)
    (heq : eq < c.points.length) (lg : LG c.pos s.tris) (nc : Nice c.pos s.tris eq ep) (hv : Vtx s.tris ep) (tw : Two s.tris t p1 p2 eq z)
    (ab : 0 < det2 (c.pos eq) (c.pos p1) (c.pos p2)) (we : InWedge (c.pos eq) (c.pos p1) (c.pos p2) (c.pos ep))
    (wz : InWedge (c.pos eq) (c.pos p1) (c.pos p2) (c.pos z)) (l : L.Pre c.pos s.tris e.qId e.pId eq ep p1 p2)
    (hi : L.rank = i) (hk : tau c.pos s.tris eq ep ≤ k) (hm : nu c eq p1 p2 ≤ m) :
    Hal fun f _ => edgeProcess g c f s ep eq e (some t) eq lq := by
  have pl := h.inv.pl gd lg
  obtain ⟨a, b, e1, e2, hij, sa, sb⟩ := tw
  obtain ⟨n3, e3, sa1⟩ := sa.rot2
  obtain ⟨n4, e4, sb1⟩ := sb.rot
  have zn := (h.inv.mesh.wo sa).1.2.1
  have r2 : det2 (c.pos eq) (c.pos p2) (c.pos ep) < 0 := by rw [det2_swap']; linarith [we.2]
  have pz : z ≠ ep → det2 (c.pos eq) (c.pos z) (c.pos ep) ≠ 0 := by
    intro zne k
    have E : PEdge c.pos s.tris eq z := (Sp.sides (P := c.pos) ⟨sa1, wz.1⟩).2.symm
    exact zne (pl.ray_end nc hv sa.vtx.2.1 E (wedge_line wz we k)).symm
  have ca := fun (_ : p1 ≠ ep) (q : z ≠ ep) => And.intro we.1.ne' (pz q)
  have cb := fun (q : z ≠ ep) (_ : p2 ≠ ep) => And.intro (pz q) r2.ne
  have ia : InWedge (c.pos eq) (c.pos p1) (c.pos z) (c.pos ep) → Hal fun f _ => flipEdge g c f s ep eq e a eq lq := by
    intro q
    exact hF ⟨h, hep, heq, lg, nc, hv, ⟨_, _, sa1⟩, wz.1, q, l.right ab sa.vtx.2.1 wz q.2⟩
      (.inr ⟨hi, .inr ⟨hk, lt_of_lt_of_le (nu_right ab wz zn) hm⟩⟩)
  have ib : InWedge (c.pos eq) (c.pos z) (c.pos p2) (c.pos ep) → Hal fun f _ => flipEdge g c f s ep eq e b eq lq := by
    intro q
    exact hF ⟨h, hep, heq, lg, nc, hv, ⟨_, _, sb1⟩, wz.2, q, l.left ab sa.vtx.2.1 wz (by rw [det2_swap']; linarith [q.1])⟩
      (.inr ⟨hi, .inr ⟨hk, lt_of_lt_of_le (nu_left ab wz zn) hm⟩⟩)
  have b0 : 0 < det2 (c.pos eq) (c.pos z) (c.pos ep) → Hal fun f _ => edgeProcess g c f s ep eq e (some b) eq lq := fun d =>
    edgeProcess_round gd h hep heq ⟨_, _, sb1⟩ cb (fun q => lt_asymm q.1 d) ib (fun q => (lt_asymm q d).elim) (fun q => (lt_asymm q r2).elim)
  have a0 : det2 (c.pos eq) (c.pos z) (c.pos ep) < 0 → Hal fun f _ => edgeProcess g c f s ep eq e (some a) eq lq := fun d =>
    edgeProcess_round gd h hep heq ⟨_, _, sa1⟩ ca (fun q => lt_asymm q.1 we.1) ia (fun q => (lt_asymm q we.1).elim) (fun q => (lt_asymm q d).elim)
  rcases hij with rfl | rfl
  · refine edgeProcess_round gd h hep heq ⟨_, _, sa1⟩ ca (fun q => lt_asymm q.1 we.1) ia (fun q => (lt_asymm q we.1).elim) ?_
    intro d t' e' s'
    obtain ⟨-, k, -⟩ := pl.at_edge sa s'
    cases k
    exact b0 d
  · refine edgeProcess_round gd h hep heq ⟨_, _, sb1⟩ cb (fun q => lt_asymm q.2 r2) ib ?_ (fun q => (lt_asymm q r2).elim)
    intro d t' e' s'
    obtain ⟨-, k, -⟩ := pl.at_edge sb s'
    cases k
    exact a0 d

include ex hg

/-- The scan. -/
theorem flipScan_hal {i k m : Nat} (hF : Halts g c e i k m) : ∀ (M : Nat) {s : St} {ep eq flipT t p p1 p2 x y : Nat} {lq : List Nat} {L : Lv},
    EPost c True s (s, lq) → ep < c.points.length → eq < c.points.length →
    LG c.pos s.tris → Nice c.pos s.tris eq ep → Chain c.pos s.tris eq ep p1 p2 flipT t p x y → p ≠ eq → L.Pre c.pos s.tris e.qId e.pId eq ep p1 p2 →
    L.rank = i → tau c.pos s.tris eq ep ≤ k → cnt2 c.points.length (Ahead c.pos eq ep x y) ≤ M →
    Hal fun f _ => flipScan g c f s ep eq e flipT t p lq := by
  intro M
  induction M using Nat.strong_induction_on with
  | _ M ih =>
  intro s ep eq flipT t p p1 p2 x y lq L h hep heq lg nc ch pne hl hi hk hM
  have pl := h.inv.pl gd lg
  have hm := h.inv.mesh
  obtain ⟨n, e0, s0, ps⟩ := ch.wx
  obtain ⟨nf, ef, sf, pf⟩ := ch.tri
  obtain ⟨T, hT⟩ : ∃ T, s.tris[t]? = some T := ⟨_, List.getElem?_eq_getElem s0.lt⟩
  obtain ⟨F, hF'⟩ : ∃ T, s.tris[flipT]? = some T := ⟨_, List.getElem?_eq_getElem sf.lt⟩
  refine Hal.succ1 ?_
  obtain ⟨k1, k2, k3⟩ := s0.pts hm hT
  simp only [flipScan, getU_ok.2 hT, ok_bind, k3]
  cases n with
  | none => exact Hal.error (by simp)
  | some ot =>
    obtain ⟨op, f0, o0⟩ := hm.sym s0
    obtain ⟨O, hO⟩ : ∃ O, s.tris[ot]? = some O := ⟨_, List.getElem?_eq_getElem o0.lt⟩
    have pt : 0 < det2 (c.pos op) (c.pos y) (c.pos x) :=
      lt_of_le_of_ne (pl.nn o0) fun k => nc.nz o0 k.symm (ch.cross pl).swap
    have o1 : Sp c.pos s.tris ot op y x (some t) f0 := ⟨o0, pt⟩
    have w1 := hm.wo sf
    have w2 := hm.wo o0
    have w3 := hm.wo s0
    obtain ⟨j1, j2, -⟩ := sf.pts hm hF'
    simp only [unwrap_some, getU_ok.2 hO, ok_bind, getU_ok.2 hF', oppositePoint_sl hm s0 o0 hT hO, j1, j2, Ctx.pt_ok heq,
      Ctx.pt_ok w1.1.2.1, Ctx.pt_ok w1.1.2.2, Ctx.pt_ok w2.1.1]
    refine Hal.ite (fun hi' => ?_) (fun hi' => ?_)
    · have wo := (inScan_iff gd ex w1.1.1 w1.1.2.1 w1.1.2.2 w2.1.1).1 hi'
      obtain ⟨l1, l2, l3⟩ := ch.nested pl o1 wo nc hl pne
      refine hF (L := .sub flipT p1 p2) ⟨h, heq, w2.1.1, lg, ch.found_nice pl o1 wo nc, sf.vtx.1, ⟨_, _, o0⟩, pt, ch.found_wedge pl o1 wo, l1⟩ ?_
      · cases L with
        | top => left; rw [← hi]; exact Nat.zero_lt_one
        | sub f a b => right; exact ⟨hi, .inl (lt_of_lt_of_le (tau_nested pl ch o1 wo hl.1 pne nc) hk)⟩
    · have hw : ¬ InWedge (c.pos eq) (c.pos p1) (c.pos p2) (c.pos op) := fun k => hi' ((inScan_iff gd ex w1.1.1 w1.1.2.1 w1.1.2.2 w2.1.1).2 k)
      have sp := nextFlip_spec hm hep heq o0 (K' := True) fun _ => ch.op_ne pl o1 hw
      refine Hal.bindr ?_ ?_
      · exact nextFlip_ne hm hep heq o0 (ch.op_ne pl o1 hw)
      · intro q q0
        rcases sp.get q0 with ⟨d, rfl⟩ | ⟨d, rfl⟩
        · have c' := ch.right pl o1 hw d
          obtain ⟨z1, z2, z3⟩ := ch.ahead_right pl o1 c'
          exact ih _ (lt_of_lt_of_le (cnt2_lt z1 w2.1.1 w3.1.2.2 z2 z3) hM) h hep heq lg nc c' (ch.x_ne pl).2 hl hi hk (Nat.le_refl _)
        · have c' := ch.left pl o1 hw d
          obtain ⟨z1, z2, z3⟩ := ch.ahead_left pl o1 c'
          exact ih _ (lt_of_lt_of_le (cnt2_lt z1 w3.1.2.1 w2.1.1 z2 z3) hM) h hep heq lg nc c' (ch.y_ne pl).2 hl hi hk (Nat.le_refl _)

/-- One round of `flip_edge_event`. -/
theorem flipEdge_round {i k m : Nat} (hF : Halts g c e i k m) {s : St} {ep eq t p1 p2 : Nat} {lq : List Nat} {L : Lv}
    (H : FIn c e L s lq ep eq t p1 p2) (hi : L.rank = i) (hk : tau c.pos s.tris eq ep ≤ k) (hm' : nu c eq p1 p2 ≤ m) :
    Hal fun f _ => flipEdge g c f s ep eq e t eq lq := by
  obtain ⟨h, hep, heq, lg, nc, hv, ⟨n, e0, s0⟩, ps, we, hl⟩ := H
  have pl := h.inv.pl gd lg
  have hm := h.inv.mesh
  obtain ⟨T, hT⟩ : ∃ T, s.tris[t]? = some T := ⟨_, List.getElem?_eq_getElem s0.lt⟩
  refine Hal.succ1 ?_
  obtain ⟨k1, k2, k3⟩ := s0.pts hm hT
  simp only [flipEdge, getU_ok.2 hT, ok_bind, k1, k2, k3]
  cases n with
  | none => exact Hal.error (by simp)
  | some ot =>
    obtain ⟨op, f0, o0⟩ := hm.sym s0
    obtain ⟨O, hO⟩ : ∃ O, s.tris[ot]? = some O := ⟨_, List.getElem?_eq_getElem o0.lt⟩
    have w1 := hm.wo s0
    have w2 := hm.wo o0
    have ch := Chain.start pl ⟨s0, ps⟩ we hv
    have pt : 0 < det2 (c.pos op) (c.pos p2) (c.pos p1) :=
      lt_of_le_of_ne (pl.nn o0) fun k => nc.nz o0 k.symm (ch.cross pl).swap
    have o1 : Sp c.pos s.tris ot op p2 p1 (some t) f0 := ⟨o0, pt⟩
    have hn := we.ne
    simp only [Store.getUO, getU_ok.2 hO, ok_bind, pure_ok, oppositePoint_sl hm s0 o0 hT hO, Ctx.pt_ok w1.1.1, Ctx.pt_ok w1.1.2.1,
      Ctx.pt_ok w1.1.2.2, Ctx.pt_ok w2.1.1, Ctx.pt_ok hep]
    refine Hal.ite (fun hi' => ?_) (fun hi' => ?_)
    · have wo := (inScan_iff gd ex w1.1.1 w1.1.2.1 w1.1.2.2 w2.1.1).1 hi'
      obtain ⟨ts, need, f', z1, z2, z3, z4, ⟨g1, z5⟩, ⟨g2, z6⟩, z7⟩ := scan_flip gd h.inv s0 o0 hi'
      obtain ⟨st, fr0⟩ := scan_flip' (N := False) (F' := fun _ _ => False) h.inv s0 o0 z7 (fun k => k.elim) ⟨id, id⟩ ps pt pl z1
      have fr : Frame c.pos s.tris ts eq ep := by
        rintro y w u v ⟨n', e', k⟩ c1 c2 c3
        refine fr0 y w u v ⟨n', e', k⟩ ?_ ?_
        · rintro rfl
          rcases pl.tri_cases s0 k with ⟨rfl, rfl, rfl⟩ | ⟨rfl, rfl, rfl⟩ | ⟨rfl, rfl, rfl⟩
          · exact c2 (ch.cross pl)
          · exact c1 (ch.cross pl)
          · exact c3 (ch.cross pl)
        · rintro rfl
          rcases pl.tri_cases o0 k with ⟨rfl, rfl, rfl⟩ | ⟨rfl, rfl, rfl⟩ | ⟨rfl, rfl, rfl⟩
          · exact c2 (ch.cross pl).swap
          · exact c1 (ch.cross pl).swap
          · exact c3 (ch.cross pl).swap
      simp only [z1, ok_bind]
      rw [z2]
      simp only [ok_bind]
      have q0 : EPost c True s ({ s with tris := ts, front := f' }, lq ++ [t, ot]) := by
        refine ⟨z3.mono ?_ (fun _ => id), ?_, z4⟩
        · rintro y (hy | rfl | rfl)
          · simp [hy]
          · simp
          · simp
        · intro y hy
          simp only [List.mem_append, List.mem_cons, List.not_mem_nil, or_false] at hy
          rcases hy with hy | rfl | rfl
          · show y < ts.length
            rw [z4.len]; exact h.lt y hy
          · exact z5.lt
          · exact z6.lt
      by_cases hend : op = ep
      · subst hend
        simp only [and_self, if_true]
        refine Hal.ite (fun _ => ?_) (fun _ => Hal.pure)
        obtain ⟨T1, hT1⟩ : ∃ T, ts[t]? = some T := ⟨_, List.getElem?_eq_getElem z5.lt⟩
        have : ot < (ts.set t (T1.setConstrainedForEdge op eq)).length := by rw [List.length_set]; exact z6.lt
        obtain ⟨O1, hO1⟩ : ∃ T, (ts.set t (T1.setConstrainedForEdge op eq))[ot]? = some T := ⟨_, List.getElem?_eq_getElem this⟩
        simp only [getU_ok.2 hT1, ok_bind, getU_ok.2 hO1]
        exact Hal.pure
      · simp only [hend, and_false, if_false]
        have al : L.Alive ts ep := by
          cases L with
          | top => trivial
          | sub f a b =>
            obtain ⟨n1, e1, sf⟩ := hl.1.tri
            refine fr0 _ _ _ _ ⟨_, _, sf⟩ ?_ ?_
            · rintro rfl
              rcases pl.tri_cases s0 sf with ⟨k, -⟩ | ⟨k, -⟩ | ⟨k, -⟩
              · exact hn.1 k.symm
              · exact hn.2.1 k.symm
              · exact hn.2.2 k.symm
            · rintro rfl
              rcases pl.tri_cases o0 sf with ⟨k, -⟩ | ⟨k, -⟩ | ⟨k, -⟩
              · exact hend k.symm
              · exact hn.2.2 k.symm
              · exact hn.2.1 k.symm
        have pl' := z3.pl gd (st.lg lg)
        have nz := ch.op_line pl o1 wo nc hend
        have hl' := hl.step st fr al
        have vo : Vtx ts op := (st.vtx op).2 o0.vtx.1
        have push : ∀ q, q = t ∨ q = ot → EPost c True { s with tris := ts, front := f' } ({ s with tris := ts, front := f' }, lq ++ [t, ot] ++ [q]) := by
          intro q hq
          refine ⟨q0.inv.mono ?_ (fun _ => id), ?_, .refl _⟩
          · intro y hy; simp only at hy ⊢; rw [List.mem_append]; exact .inl hy
          · intro y hy
            simp only at hy ⊢
            rw [List.mem_append, List.mem_singleton] at hy
            rcases hy with hy | rfl
            · exact q0.lt y hy
            · rcases hq with rfl | rfl
              · exact z5.lt
              · exact z6.lt
        have tk : tau c.pos ts eq ep ≤ k := le_trans (tau_frame pl' fr z4.len) hk
        rcases lt_or_gt_of_ne nz with d | d
        · simp only [nextFlipTriangle, orient_cw.2 d, reduceCtorEq, if_false]
          obtain ⟨n1, e1, y⟩ := z6.rot2
          have d' : 0 < det2 (c.pos eq) (c.pos ep) (c.pos op) := by rw [det2_swap']; linarith
          exact hF ⟨push t (.inl rfl), hep, heq, st.lg lg, nc.step st, (st.vtx ep).2 hv, ⟨_, _, y⟩, wo.1, ⟨we.1, d'⟩,
            hl'.right ps vo wo d'⟩ (.inr ⟨hi, .inr ⟨tk, lt_of_lt_of_le (nu_right ps wo w2.1.1) hm'⟩⟩)
        · simp only [nextFlipTriangle, orient_ccw.2 d, if_true]
          obtain ⟨n1, e1, y⟩ := z5.rot
          exact hF ⟨push ot (.inr rfl), hep, heq, st.lg lg, nc.step st, (st.vtx ep).2 hv, ⟨_, _, y⟩, wo.2, ⟨d, we.2⟩,
            hl'.left ps vo wo (by rw [det2_swap']; linarith)⟩
            (.inr ⟨hi, .inr ⟨tk, lt_of_lt_of_le (nu_left ps wo w2.1.1) hm'⟩⟩)
    · have hw : ¬ InWedge (c.pos eq) (c.pos p1) (c.pos p2) (c.pos op) := fun k => hi' ((inScan_iff gd ex w1.1.1 w1.1.2.1 w1.1.2.2 w2.1.1).2 k)
      have sp := nextFlip_spec hm hep heq o0 (K' := True) fun _ => ch.op_ne pl o1 hw
      refine Hal.bindr (nextFlip_ne hm hep heq o0 (ch.op_ne pl o1 hw)) ?_
      intro q hq
      have : ∃ x y, Chain c.pos s.tris eq ep p1 p2 t ot q x y ∧ q ≠ eq := by
        rcases sp.get hq with ⟨d, rfl⟩ | ⟨d, rfl⟩
        · exact ⟨_, _, ch.right pl o1 hw d, (ch.x_ne pl).2⟩
        · exact ⟨_, _, ch.left pl o1 hw d, (ch.y_ne pl).2⟩
      obtain ⟨x, y, ch', qne⟩ := this
      refine Hal.bind (flipScan_hal gd ex hg hF _ h hep heq lg nc ch' qne hl hi hk (Nat.le_refl _))
        (fun fuel _ => ((flip_main gd ex hg (K := False) (N := False) (F := fun _ _ => False) e fuel).2.2 h hep heq lg nc (fun k => k.elim) (fun _ _ k => k.elim) (fun x => x.elim) ch' qne hl).andL
          ((edge_specs gd (fun _ => hg) fuel).2.2 h hep heq o0.lt s0.lt)) ?_
      rintro ⟨s1, lq1⟩ ⟨⟨st, fr, al, z, tw, wz, -⟩, q1⟩
      have pl1 := q1.inv.pl gd (st.lg lg)
      exact edgeProcess_two gd hF (L := L) ⟨q1.inv, q1.lt, .refl _⟩ hep heq (st.lg lg) (nc.step st) ((st.vtx ep).2 hv) tw ps we wz
        (hl.step st fr al) hi (le_trans (tau_frame pl1 fr q1.same.len) hk) hm'

theorem halts_all : ∀ i k m, Halts g c e i k m := by
  intro i
  induction i using Nat.strong_induction_on with
  | _ i ihi =>
  intro k
  induction k using Nat.strong_induction_on with
  | _ k ihk =>
  intro m
  induction m using Nat.strong_induction_on with
  | _ m ihm =>
  intro s ep eq t p1 p2 lq L H h
  rcases h with h | ⟨h1, h | ⟨h2, h⟩⟩
  · exact flipEdge_round gd ex hg (ihi _ h _ _) H rfl (Nat.le_refl _) (Nat.le_refl _)
  · exact flipEdge_round gd ex hg (ihk _ h _) H h1 (Nat.le_refl _) (Nat.le_refl _)
  · exact flipEdge_round gd ex hg (ihm _ h) H h1 h2 (Nat.le_refl _)

theorem flipEdge_hal {s : St} {ep eq t p1 p2 : Nat} {lq : List Nat} {L : Lv}
    (H : FIn c e L s lq ep eq t p1 p2) : Hal fun f _ => flipEdge g c f s ep eq e t eq lq :=
  halts_all gd ex hg (L.rank + 1) 0 0 H (.inl (Nat.lt_succ_self _))

/-! ## The search for the first triangle -/

section
variable {s : St} {ep eq : Nat} {lq : List Nat} (h : EPost c True s (s, lq)) (hep : ep < c.points.length)
  (heq : eq < c.points.length) (hne : eq ≠ ep) (lg : LG c.pos s.tris) (nc : Nice c.pos s.tris eq ep) (hv : Vtx s.tris ep)
  (h1 : eq = e.qId) (h2 : ep = e.pId)
  (low : ∀ z, Vtx s.tris z → z = eq ∨ Below (c.pos z) (c.pos eq))
include h hep heq hne lg nc hv h1 h2 low

theorem edgeProcess_step {t q1 q2 : Nat} (ht : HasTri s.tris t eq q1 q2) (zk : Zok c.pos eq ep q1 q2)
    (hr : det2 (c.pos eq) (c.pos q1) (c.pos ep) < 0 → ∀ t' w, HasTri s.tris t' eq w q1 → Zok c.pos eq ep w q1 →
      Hal fun f _ => edgeProcess g c f s ep eq e (some t') eq lq)
    (hl : 0 < det2 (c.pos eq) (c.pos q2) (c.pos ep) → ∀ t' w, HasTri s.tris t' eq q2 w → Zok c.pos eq ep q2 w →
      Hal fun f _ => edgeProcess g c f s ep eq e (some t') eq lq) :
    Hal fun f _ => edgeProcess g c f s ep eq e (some t) eq lq := by
  have pl := h.inv.pl gd lg
  obtain ⟨n, a0, sl⟩ := ht
  obtain ⟨x1, x2, ⟨_, _, sl'⟩, r1, rc, r2, r3, r4, r5, r6, r7⟩ :=
    Lv.Restart.spec (L := .top) (EQ := e.qId) (EP := e.pId) ⟨q1, q2, ⟨_, _, sl⟩, zk, h1, h2, low⟩ pl nc hv hne
  obtain ⟨rfl, rfl, -⟩ := pl.at_apex sl sl'
  refine edgeProcess_round gd h hep heq ⟨_, _, sl⟩ rc r5
    (fun we => flipEdge_hal gd ex hg (L := .top) ⟨h, hep, heq, lg, nc, hv, ⟨_, _, sl⟩, (r2 we).2, we, h1, h2, low⟩) ?_ ?_
  · intro d1 t' e' s'
    obtain ⟨w, e2, k⟩ := h.inv.mesh.sym s'
    obtain ⟨_, _, k1⟩ := k.rot2
    refine hr d1 t' w ⟨_, _, k1⟩ (zok_right ?_ d1.ne)
    exact fun q => (pl.ne k1).1 (pl.inj k1.vtx.1 k1.vtx.2.1 q)
  · intro d1 t' e' s'
    obtain ⟨w, e2, k⟩ := h.inv.mesh.sym s'
    obtain ⟨_, _, k1⟩ := k.rot
    exact hl d1 t' w ⟨_, _, k1⟩ fun _ q => (d1.ne' q).elim

omit hep heq hne nc hv h1 h2 in
/-- Going right around the top makes progress. -/
theorem rt_lt {t q w : Nat} (ht : HasTri s.tris t eq w q) :
    cnt c.points.length (fun z => Below (c.pos z) (c.pos eq) ∧ Rt (c.pos eq) (c.pos w) (c.pos z)) <
    cnt c.points.length (fun z => Below (c.pos z) (c.pos eq) ∧ Rt (c.pos eq) (c.pos q) (c.pos z)) ∧
    cnt c.points.length (fun z => Below (c.pos z) (c.pos eq) ∧ Rt (c.pos eq) (c.pos z) (c.pos q)) <
    cnt c.points.length (fun z => Below (c.pos z) (c.pos eq) ∧ Rt (c.pos eq) (c.pos z) (c.pos w)) := by
  have pl := h.inv.pl gd lg
  obtain ⟨n, a0, sl⟩ := ht
  have dd := pl.ne sl
  have b1 := (low _ sl.vtx.2.1).resolve_left dd.1.symm
  have b2 := (low _ sl.vtx.2.2).resolve_left dd.2.2.symm
  have wn := (h.inv.mesh.wo sl).1
  have irr : ∀ x : Nat, ¬ Rt (c.pos eq) (c.pos x) (c.pos x) := by
    rintro x (k | ⟨-, k⟩)
    · rw [(det2_same _ _).2.1] at k; exact lt_irrefl _ k
    · exact keyLt_irrefl _ k
  have rt : Rt (c.pos eq) (c.pos q) (c.pos w) := by
    rcases h.inv.zero_or sl with p | p
    · exact .inl p.pos
    · refine .inr ⟨p, ?_⟩
      rcases h.inv.zero_key sl p with k | ⟨k1, k2⟩
      · exact k.1
      · exfalso
        rcases below_ray b1 b2 p with q | q | q
        · exact keyLt_asymm k1 (q.key k2).1
        · rw [q] at k1; exact keyLt_asymm k1 k2
        · exact keyLt_asymm k2 (q.symm.key k1).2
  exact ⟨cnt_lt (x := w) (fun z _ k => ⟨k.1, rt_trans b1 b2 k.1 rt k.2⟩) wn.2.1 ⟨b1, rt⟩ fun k => irr _ k.2,
    cnt_lt (x := q) (fun z _ k => ⟨k.1, rt_trans b2 k.1 b1 k.2 rt⟩) wn.2.2 ⟨b2, rt⟩ fun k => irr _ k.2⟩

theorem edgeProcess_right : ∀ (M : Nat) {t q1 q2 : Nat}, HasTri s.tris t eq q1 q2 → Zok c.pos eq ep q1 q2 → det2 (c.pos eq) (c.pos q2) (c.pos ep) < 0 →
    cnt c.points.length (fun z => Below (c.pos z) (c.pos eq) ∧ Rt (c.pos eq) (c.pos q1) (c.pos z)) ≤ M →
    Hal fun f _ => edgeProcess g c f s ep eq e (some t) eq lq := by
  intro M
  induction M using Nat.strong_induction_on with
  | _ M ih =>
  intro t q1 q2 ht zk d hM
  refine edgeProcess_step gd ex hg h hep heq hne lg nc hv h1 h2 low ht zk ?_ (fun q => (lt_asymm q d).elim)
  intro d1 t' w ht' zk'
  exact ih _ (lt_of_lt_of_le (rt_lt gd ex hg h lg low ht').1 hM) ht' zk' d1 (Nat.le_refl _)

theorem edgeProcess_left : ∀ (M : Nat) {t q1 q2 : Nat}, HasTri s.tris t eq q1 q2 → Zok c.pos eq ep q1 q2 → 0 < det2 (c.pos eq) (c.pos q1) (c.pos ep) →
    cnt c.points.length (fun z => Below (c.pos z) (c.pos eq) ∧ Rt (c.pos eq) (c.pos z) (c.pos q2)) ≤ M →
    Hal fun f _ => edgeProcess g c f s ep eq e (some t) eq lq := by
  intro M
  induction M using Nat.strong_induction_on with
  | _ M ih =>
  intro t q1 q2 ht zk d hM
  refine edgeProcess_step gd ex hg h hep heq hne lg nc hv h1 h2 low ht zk (fun q => (lt_asymm q d).elim) ?_
  intro d1 t' w ht' zk'
  exact ih _ (lt_of_lt_of_le (rt_lt gd ex hg h lg low ht').2 hM) ht' zk' d1 (Nat.le_refl _)

theorem edgeProcess_hal {t q1 q2 : Nat} (ht : HasTri s.tris t eq q1 q2) (zk : Zok c.pos eq ep q1 q2) :
    Hal fun f _ => edgeProcess g c f s ep eq e (some t) eq lq :=
  edgeProcess_step gd ex hg h hep heq hne lg nc hv h1 h2 low ht zk
    (fun d _ _ k z => edgeProcess_right gd ex hg h hep heq hne lg nc hv h1 h2 low _ k z d (Nat.le_refl _))
    (fun d _ _ k z => edgeProcess_left gd ex hg h hep heq hne lg nc hv h1 h2 low _ k z d (Nat.le_refl _))

end

end

end P2T
