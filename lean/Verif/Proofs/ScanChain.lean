import Verif.Proofs.ScanGeom

/-!
# The chain of edges walked by `flip_scan_edge_event`

`eq` is the start of the segment to be inserted, `ep` its end, `(eq, a, b)` the triangle at `eq` it leaves through the edge `a b`.
The scan walks along the edges `x y` that the segment crosses, as long as the corner behind the edge is not in the wedge of the triangle.
-/

set_option linter.unusedSectionVars false

namespace P2T

/-- The edge `u v` crosses the segment from `eq` to `ep`, and no triangle over it has the corner `ep`. -/
def Passed (P : Nat → Point) (ts : Store) (eq ep u v : Nat) : Prop :=
  ProperCross (P u) (P v) (P eq) (P ep) ∧ ∀ t z n e, Sp P ts t z u v n e ∨ Sp P ts t z v u n e → z ≠ ep

theorem Passed.symm {P ts eq ep u v} (h : Passed P ts eq ep u v) : Passed P ts eq ep v u :=
  ⟨h.1.swap, fun t z n e k => h.2 t z n e k.symm⟩

/-- `X` is strictly inside the angle at `o` from `a` to `b`. -/
def InWedge (o a b X : Point) : Prop := 0 < det2 o a X ∧ 0 < det2 o X b

theorem InWedge.ray {o a b e : Point} (h : InWedge o a b e) {r : Rat} (r0 : 0 < r) : InWedge o a b (mix r o e) := by
  refine ⟨?_, ?_⟩
  · rw [det2_mix, (det2_same _ _).1]; have := mul_pos r0 h.1; linarith
  · have e1 : det2 o (mix r o e) b = det2 b o (mix r o e) := by unfold det2; ring
    have e2 : det2 b o e = det2 o e b := by unfold det2; ring
    rw [e1, det2_mix, (det2_same _ _).2.1, e2]; have := mul_pos r0 h.2; linarith

structure Chain (P : Nat → Point) (ts : Store) (eq ep a b f t w x y : Nat) : Prop where
  tri : ∃ n e, Sp P ts f eq a b n e
  wx : ∃ n e, Sp P ts t w x y n e
  wne : w ≠ ep
  vtx : Vtx ts ep
  we : InWedge (P eq) (P a) (P b) (P ep)
  hx : det2 (P eq) (P a) (P x) ≤ 0
  hy : 0 ≤ det2 (P eq) (P b) (P y)
  xe : 0 < det2 (P eq) (P x) (P ep)
  ey : 0 < det2 (P eq) (P ep) (P y)
  xy : 0 < det2 (P eq) (P x) (P y)
  cov : ∀ X, InWedge (P eq) (P a) (P b) X → 0 < det2 (P x) (P y) X → (∀ z, Vtx ts z → P z ≠ X) ∧
    ∀ u v, PEdge P ts u v → OnOpen (P u) (P v) X → Passed P ts eq ep u v

/-- No flat triangle reaches across the segment, and no corner is inside it. -/
structure Nice (P : Nat → Point) (ts : Store) (eq ep : Nat) : Prop where
  nz : ∀ {t w u v n e}, Sl ts t w u v n e → det2 (P w) (P u) (P v) = 0 → ¬ ProperCross (P u) (P v) (P eq) (P ep)
  free : ∀ z, Vtx ts z → ¬ OnOpen (P eq) (P ep) (P z)

/-! ## Algebra -/

section
variable {o a b e x y p X : Point}

theorem wedge_ay (hx : det2 o a x ≤ 0) (ae : 0 < det2 o a e) (xe : 0 < det2 o x e) (ey : 0 < det2 o e y) (xy : 0 < det2 o x y) :
    0 < det2 o a y := by
  have := plucker o a y x e
  have e1 : det2 o y e = - det2 o e y := det2_swap' _ _ _
  have e2 : det2 o y x = - det2 o x y := det2_swap' _ _ _
  rw [e1, e2] at this
  have k1 := mul_pos ae xy
  have k2 := mul_nonneg_of_nonpos_of_nonpos hx (neg_neg_of_pos ey).le
  by_contra hc
  have := mul_nonpos_of_nonpos_of_nonneg (not_lt.1 hc) xe.le
  nlinarith

theorem wedge_xb (hy : 0 ≤ det2 o b y) (eb : 0 < det2 o e b) (xe : 0 < det2 o x e) (ey : 0 < det2 o e y) (xy : 0 < det2 o x y) :
    0 < det2 o x b := by
  have := plucker o x b e y
  have e1 : det2 o b e = - det2 o e b := det2_swap' _ _ _
  rw [e1] at this
  have k1 := mul_nonneg xe.le hy
  have k2 := mul_pos xy eb
  by_contra hc
  have := mul_nonpos_of_nonpos_of_nonneg (not_lt.1 hc) ey.le
  nlinarith

/-- A point right of the segment and not in the wedge is right of the wedge. -/
theorem right_out (we : InWedge o a b e) (ab : 0 < det2 o a b) (pe : 0 < det2 o p e) (hn : ¬ InWedge o a b p) : det2 o a p ≤ 0 := by
  by_contra hc
  refine hn ⟨not_le.1 hc, ?_⟩
  have := plucker o a p e b
  have e1 : det2 o p b * det2 o a e = det2 o a p * det2 o e b + det2 o a b * det2 o p e := by linarith
  have : 0 < det2 o p b * det2 o a e := by rw [e1]; exact add_pos (mul_pos (not_le.1 hc) we.2) (mul_pos ab pe)
  exact pos_of_mul_pos_left this we.1.le

theorem left_out (we : InWedge o a b e) (ab : 0 < det2 o a b) (ep : 0 < det2 o e p) (hn : ¬ InWedge o a b p) : 0 ≤ det2 o b p := by
  by_contra hc
  have hc' : 0 < det2 o p b := by rw [det2_swap']; linarith
  refine hn ⟨?_, hc'⟩
  have := plucker o a e p b
  have e1 : det2 o a p * det2 o e b = det2 o a e * det2 o p b + det2 o a b * det2 o e p := by linarith
  have : 0 < det2 o a p * det2 o e b := by rw [e1]; exact add_pos (mul_pos we.1 hc') (mul_pos ab ep)
  exact pos_of_mul_pos_left this we.2.le

/-- The next edge still has the start in front of it. -/
theorem next_right (xe : 0 < det2 o x e) (ey : 0 < det2 o e y) (xy : 0 < det2 o x y) (pe : 0 < det2 o p e) (tri : 0 < det2 p y x) :
    0 < det2 o p y := by
  rw [det2_split o] at tri
  have e2 : det2 o y x = - det2 o x y := det2_swap' _ _ _
  have e3 : det2 o x p = - det2 o p x := det2_swap' _ _ _
  rw [e2, e3] at tri
  rcases le_or_gt (det2 o p x) 0 with k | k
  · have := plucker o p y x e
    have e1 : det2 o y e = - det2 o e y := det2_swap' _ _ _
    rw [e1, e2] at this
    have k1 := mul_pos pe xy
    have k2 := mul_nonneg_of_nonpos_of_nonpos k (neg_neg_of_pos ey).le
    have : 0 < det2 o p y * det2 o x e := by linarith
    exact pos_of_mul_pos_left this xe.le
  · linarith

theorem next_left (xe : 0 < det2 o x e) (ey : 0 < det2 o e y) (xy : 0 < det2 o x y) (ep : 0 < det2 o e p) (tri : 0 < det2 p y x) :
    0 < det2 o x p := by
  rw [det2_split o] at tri
  have e2 : det2 o y x = - det2 o x y := det2_swap' _ _ _
  have e3 : det2 o p y = - det2 o y p := det2_swap' _ _ _
  rw [e2, e3] at tri
  rcases le_or_gt (det2 o y p) 0 with k | k
  · have := plucker o x p e y
    have e1 : det2 o p e = - det2 o e p := det2_swap' _ _ _
    have e4 : det2 o p y = - det2 o y p := det2_swap' _ _ _
    rw [e1, e4] at this
    have k1 := mul_pos ep xy
    have k2 := mul_nonneg_of_nonpos_of_nonpos k (neg_neg_of_pos xe).le
    have : 0 < det2 o x p * det2 o e y := by linarith
    exact pos_of_mul_pos_left this ey.le
  · linarith

/-- A point of the wedge between two consecutive chain edges is in the triangle between them. -/
theorem between_right (tri : 0 < det2 p y x) (hx : det2 o a x ≤ 0) (ap : det2 o a p ≤ 0) (ay : 0 < det2 o a y) (aX : 0 < det2 o a X)
    (h1 : det2 x y X < 0) (h2 : 0 < det2 p y X) : Inside p y x X := by
  have h1' : 0 < det2 y x X := by rw [det2_swap]; linarith
  refine ⟨h2, h1', ?_⟩
  by_contra hc
  have id : det2 p y x * det2 o a X = det2 y x X * det2 o a p + det2 p y X * det2 o a x + det2 x p X * det2 o a y := by
    unfold det2; ring
  have k1 := mul_nonpos_of_nonneg_of_nonpos h1'.le ap
  have k2 := mul_nonpos_of_nonneg_of_nonpos h2.le hx
  have k3 := mul_nonpos_of_nonpos_of_nonneg (not_lt.1 hc) ay.le
  have := mul_pos tri aX
  linarith

theorem between_left (tri : 0 < det2 p y x) (hy : 0 ≤ det2 o b y) (bp : 0 ≤ det2 o b p) (xb : 0 < det2 o x b) (Xb : 0 < det2 o X b)
    (h1 : det2 x y X < 0) (h2 : 0 < det2 x p X) : Inside p y x X := by
  have h1' : 0 < det2 y x X := by rw [det2_swap]; linarith
  refine ⟨?_, h1', h2⟩
  by_contra hc
  have id : det2 p y x * det2 o X b = - (det2 y x X * det2 o b p) + det2 p y X * det2 o x b - (det2 x p X * det2 o b y) := by
    unfold det2; ring
  have k1 := mul_nonneg h1'.le bp
  have k2 := mul_nonneg h2.le hy
  have k3 := mul_nonpos_of_nonpos_of_nonneg (not_lt.1 hc) xb.le
  have := mul_pos tri Xb
  linarith

theorem wedge_xX (hx : det2 o a x ≤ 0) (ab : 0 < det2 o a b) (xb : 0 < det2 o x b) (hX : InWedge o a b X) : 0 < det2 o x X := by
  have := plucker o x a X b
  have k1 : 0 ≤ det2 o x a := by rw [det2_swap']; linarith
  have k2 := mul_nonneg k1 hX.2.le
  have k3 := mul_pos xb hX.1
  have : 0 < det2 o x X * det2 o a b := by linarith
  exact pos_of_mul_pos_left this ab.le

theorem wedge_Xy (hy : 0 ≤ det2 o b y) (ab : 0 < det2 o a b) (ay : 0 < det2 o a y) (hX : InWedge o a b X) : 0 < det2 o X y := by
  have := plucker o a b X y
  have k1 := hy
  have e1 : det2 o b X = - det2 o X b := det2_swap' _ _ _
  rw [e1] at this
  have k2 := mul_nonneg hX.1.le k1
  have k3 := mul_pos ay hX.2
  have : 0 < det2 o X y * det2 o a b := by linarith
  exact pos_of_mul_pos_left this ab.le

/-- A point of the wedge on the line of a chain edge is on the edge. -/
theorem scan_on_edge (h1 : 0 < det2 o x X) (h2 : 0 < det2 o X y) (h0 : det2 x y X = 0) : OnOpen x y X := by
  rw [det2_split o] at h0
  have e1 : det2 o y X = - det2 o X y := det2_swap' _ _ _
  have e2 : det2 o X x = - det2 o x X := det2_swap' _ _ _
  have e : det2 o x y = det2 o x X + det2 o X y := by linarith
  have n0 : 0 < det2 o x y := by linarith
  let s := det2 o x X / det2 o x y
  have es : s * det2 o x y = det2 o x X := div_mul_cancel₀ _ n0.ne'
  refine ⟨s, div_pos h1 n0, (div_lt_one n0).2 (by linarith), ?_⟩
  have px : (X.x - (x.x + s * (y.x - x.x))) * det2 o x y = 0 := by
    have : (X.x - (x.x + s * (y.x - x.x))) * det2 o x y = (X.x - x.x) * det2 o x y - (s * det2 o x y) * (y.x - x.x) := by ring
    rw [this, es, e]
    have : (X.x - x.x) * (det2 o x X + det2 o X y) - det2 o x X * (y.x - x.x) = (X.x - o.x) * (det2 o x X + det2 o X y - det2 o x y) := by
      unfold det2; ring
    rw [this, e]; ring
  have py : (X.y - (x.y + s * (y.y - x.y))) * det2 o x y = 0 := by
    have : (X.y - (x.y + s * (y.y - x.y))) * det2 o x y = (X.y - x.y) * det2 o x y - (s * det2 o x y) * (y.y - x.y) := by ring
    rw [this, es, e]
    have : (X.y - x.y) * (det2 o x X + det2 o X y) - det2 o x X * (y.y - x.y) = (X.y - o.y) * (det2 o x X + det2 o X y - det2 o x y) := by
      unfold det2; ring
    rw [this, e]; ring
  have px := (mul_eq_zero.1 px).resolve_right n0.ne'
  have py := (mul_eq_zero.1 py).resolve_right n0.ne'
  have : X = ⟨X.x, X.y⟩ := rfl
  rw [this]
  simp only [mix, Point.mk.injEq]
  constructor <;> linarith

end

theorem det2_mix2 (u v z : Point) (a b : Rat) : det2 (mix a u v) (mix b u v) z = (b - a) * det2 u v z := by
  simp only [det2, mix]; ring

theorem OnSg.mix {u v x : Point} (h : OnSg u v x) : ∃ a : Rat, 0 ≤ a ∧ a ≤ 1 ∧ x = mix a u v := by
  rcases h with rfl | rfl | ⟨a, h0, h1, rfl⟩
  · exact ⟨0, le_rfl, zero_le_one, (mix_zero _ _).symm⟩
  · exact ⟨1, zero_le_one, le_rfl, (mix_one _ _).symm⟩
  · exact ⟨a, h0.le, h1.le, rfl⟩

/-- A part of a crossing segment around the common point crosses too. -/
theorem cross_sub {u v u' v' p q X : Point} (h : ProperCross u v p q) (x1 : OnOpen u v X) (x2 : OnOpen p q X) (x3 : OnOpen u' v' X)
    (o1 : OnSg u v u') (o2 : OnSg u v v') (hne : u' ≠ v') : ProperCross u' v' p q := by
  obtain ⟨a, a0, a1, rfl⟩ := o1.mix
  obtain ⟨b, b0, b1, rfl⟩ := o2.mix
  obtain ⟨h1, h2⟩ := h
  have n0 : b - a ≠ 0 := by
    intro k; apply hne; have : b = a := by linarith
    rw [this]
  have ne : u ≠ v := by rintro rfl; rw [(det2_same _ _).2.2] at h1; linarith
  have sq : 0 < (b - a) ^ 2 := by positivity
  obtain ⟨s, s0, s1, rfl⟩ := x1
  obtain ⟨r, r0, r1, e⟩ := x3
  rw [mix_mix] at e
  have e := mix_inj ne e
  have l := x2.line
  rw [det2_mix] at l
  refine ⟨?_, ?_⟩
  · rw [det2_mix2, det2_mix2]; nlinarith
  · rw [det2_mix, det2_mix]
    have e1 : (1 - a) * det2 p q u + a * det2 p q v = (a - s) * (det2 p q v - det2 p q u) := by linarith
    have e2 : (1 - b) * det2 p q u + b * det2 p q v = (b - s) * (det2 p q v - det2 p q u) := by linarith
    rw [e1, e2]
    have n1 : det2 p q v - det2 p q u ≠ 0 := by
      intro k
      have : det2 p q v = det2 p q u := by linarith
      rw [this] at h2; nlinarith [mul_self_nonneg (det2 p q u)]
    have sq1 : 0 < (det2 p q v - det2 p q u) ^ 2 := by positivity
    have : (a - s) * (b - s) < 0 := by
      have : (a - s) * (b - s) = - (r * (1 - r) * (b - a) ^ 2) := by rw [e]; ring
      rw [this]
      have := mul_pos (mul_pos r0 (show 0 < 1 - r by linarith)) sq
      linarith
    nlinarith

/-- A segment with a crossing part crosses too. -/
theorem cross_sup {u v u' v' p q : Point} (h : ProperCross u' v' p q) (o1 : OnSg u v u') (o2 : OnSg u v v') : ProperCross u v p q := by
  obtain ⟨a, a0, a1, rfl⟩ := o1.mix
  obtain ⟨b, b0, b1, rfl⟩ := o2.mix
  obtain ⟨h1, h2⟩ := h
  rw [det2_mix2, det2_mix2] at h1
  rw [det2_mix, det2_mix] at h2
  refine ⟨?_, ?_⟩
  · by_contra hc
    have := mul_nonneg (sq_nonneg (b - a)) (not_lt.1 hc)
    nlinarith
  · by_contra hc
    have hc := not_lt.1 hc
    have k1 := mul_nonneg (mul_nonneg (sub_nonneg.2 a1) (sub_nonneg.2 b1)) (mul_self_nonneg (det2 p q u))
    have k2 := mul_nonneg (mul_nonneg a0 b0) (mul_self_nonneg (det2 p q v))
    have k3 := mul_nonneg (mul_nonneg (sub_nonneg.2 a1) b0) hc
    have k4 := mul_nonneg (mul_nonneg a0 (sub_nonneg.2 b1)) hc
    nlinarith

/-! ## The chain -/

namespace Chain
variable {P : Nat → Point} {ts : Store} {eq ep a b f t w x y : Nat}

theorem start (h : Pl P ts) {n e} (s : Sp P ts f eq a b n e) (we : InWedge (P eq) (P a) (P b) (P ep)) (hv : Vtx ts ep) :
    Chain P ts eq ep a b f f eq a b := by
  have p := s.pos
  refine ⟨⟨_, _, s⟩, ⟨_, _, s⟩, ?_, hv, we, (det2_same _ _).2.1.le, (det2_same _ _).2.1.ge, we.1, we.2, p, ?_⟩
  · rintro rfl
    have := we.1; rw [(det2_same _ _).1] at this; exact lt_irrefl _ this
  · intro X hX k
    have hi : Inside (P eq) (P a) (P b) X := ⟨hX.1, k, by
      have : det2 (P b) (P eq) X = det2 (P eq) X (P b) := by unfold det2; ring
      rw [this]; exact hX.2⟩
    refine ⟨fun z hz e => ?_, fun u v huv ho => (h.noedge s.sl huv ho hi).elim⟩
    rw [← e] at hi
    exact h.nocorner s.sl hz hi

variable (c : Chain P ts eq ep a b f t w x y) (h : Pl P ts)
include c h

theorem ab : 0 < det2 (P eq) (P a) (P b) := by
  obtain ⟨n, e, s⟩ := c.tri; exact s.pos

theorem ay : 0 < det2 (P eq) (P a) (P y) := wedge_ay (x := P x) c.hx c.we.1 c.xe c.ey c.xy
theorem xb : 0 < det2 (P eq) (P x) (P b) := wedge_xb (y := P y) c.hy c.we.2 c.xe c.ey c.xy

theorem x_ne : x ≠ ep ∧ x ≠ eq := by
  have k := c.xe
  constructor <;> rintro rfl
  · rw [(det2_same _ _).2.1] at k; exact lt_irrefl _ k
  · rw [(det2_same _ _).2.2] at k; exact lt_irrefl _ k

theorem y_ne : y ≠ ep ∧ y ≠ eq := by
  have k := c.ey
  constructor <;> rintro rfl
  · rw [(det2_same _ _).2.1] at k; exact lt_irrefl _ k
  · rw [(det2_same _ _).1] at k; exact lt_irrefl _ k

theorem edge : PEdge P ts x y := by
  obtain ⟨n, e, s⟩ := c.wx; exact ⟨_, _, _, _, .inl s⟩

/-- The end is behind the edge. -/
theorem behind : det2 (P x) (P y) (P ep) < 0 := by
  rcases lt_trichotomy (det2 (P x) (P y) (P ep)) 0 with k | k | k
  · exact k
  · exact (h.noend (c.edge h) c.vtx (scan_on_edge c.xe c.ey k)).elim
  · exact ((c.cov _ c.we k).1 ep c.vtx rfl).elim

theorem cross : ProperCross (P x) (P y) (P eq) (P ep) := by
  have k1 := c.behind h
  have k2 : 0 < det2 (P x) (P y) (P eq) := by rw [det2_rot]; exact c.xy
  have e1 : det2 (P eq) (P ep) (P x) = - det2 (P eq) (P x) (P ep) := det2_swap' _ _ _
  refine ⟨mul_neg_of_pos_of_neg k2 k1, ?_⟩
  rw [e1]
  exact mul_neg_of_neg_of_pos (neg_neg_of_pos c.xe) c.ey

theorem passed {ot op m e} (s : Sp P ts ot op y x m e) (hop : op ≠ ep) : Passed P ts eq ep x y := by
  refine ⟨c.cross h, ?_⟩
  obtain ⟨n', e', s0⟩ := c.wx
  rintro t' z n e (k | k)
  · rw [(h.once s0 k).2]; exact c.wne
  · rw [(h.once s k).2]; exact hop

/-- Points of the wedge on or before the chain edge. -/
theorem cov_le {ot op m e} (s : Sp P ts ot op y x m e) (hop : op ≠ ep) {X} (hX : InWedge (P eq) (P a) (P b) X) (k : 0 ≤ det2 (P x) (P y) X) :
    (∀ z, Vtx ts z → P z ≠ X) ∧ ∀ u v, PEdge P ts u v → OnOpen (P u) (P v) X → Passed P ts eq ep u v := by
  rcases k.lt_or_eq with k | k
  · exact c.cov X hX k
  · have ho : OnOpen (P x) (P y) X := scan_on_edge (wedge_xX c.hx (c.ab h) (c.xb h) hX)
      (wedge_Xy c.hy (c.ab h) (c.ay h) hX) k.symm
    refine ⟨fun z hz e => ?_, fun u v huv ho' => ?_⟩
    · rw [← e] at ho; exact h.noend (c.edge h) hz ho
    · rcases h.same_edge huv (c.edge h) ho' ho with ⟨rfl, rfl⟩ | ⟨rfl, rfl⟩
      · exact c.passed h s hop
      · exact (c.passed h s hop).symm

/-- Without the condition on the far corner. -/
theorem cov_le' {ot op m e} (s : Sp P ts ot op y x m e) {X} (hX : InWedge (P eq) (P a) (P b) X) (k : 0 ≤ det2 (P x) (P y) X) :
    (∀ z, Vtx ts z → P z ≠ X) ∧ ∀ u v, PEdge P ts u v → OnOpen (P u) (P v) X →
      ProperCross (P u) (P v) (P eq) (P ep) ∧ (op ≠ ep → Passed P ts eq ep u v) := by
  rcases k.lt_or_eq with k | k
  · have := c.cov X hX k
    exact ⟨this.1, fun u v huv ho => ⟨(this.2 u v huv ho).1, fun _ => this.2 u v huv ho⟩⟩
  · have ho : OnOpen (P x) (P y) X := scan_on_edge (wedge_xX c.hx (c.ab h) (c.xb h) hX)
      (wedge_Xy c.hy (c.ab h) (c.ay h) hX) k.symm
    refine ⟨fun z hz e => ?_, fun u v huv ho' => ?_⟩
    · rw [← e] at ho; exact h.noend (c.edge h) hz ho
    · rcases h.same_edge huv (c.edge h) ho' ho with ⟨rfl, rfl⟩ | ⟨rfl, rfl⟩
      · exact ⟨c.cross h, c.passed h s⟩
      · exact ⟨(c.cross h).swap, fun q => (c.passed h s q).symm⟩

theorem out_ne {op} (hn : ¬ InWedge (P eq) (P a) (P b) (P op)) : op ≠ ep := by
  rintro rfl; exact hn c.we

/-- The corner behind the edge is not on the line of the segment. -/
theorem op_ne {ot op m e} (s : Sp P ts ot op y x m e) (hn : ¬ InWedge (P eq) (P a) (P b) (P op)) : det2 (P eq) (P op) (P ep) ≠ 0 := by
  intro h0
  have bh := c.behind h
  have tri := s.pos
  have k2 : 0 < det2 (P x) (P y) (P eq) := by rw [det2_rot]; exact c.xy
  have k3 : det2 (P x) (P y) (P op) < 0 := by
    have : det2 (P op) (P y) (P x) = - det2 (P x) (P y) (P op) := by unfold det2; ring
    linarith
  have hne : P eq ≠ P ep := by
    intro k; have := c.we.1; rw [← k, (det2_same _ _).1] at this; exact lt_irrefl _ this
  obtain ⟨r, hr⟩ := line_mix hne (x := P op) (by rw [det2_swap', h0, neg_zero])
  have r0 : 0 < r := by
    by_contra hc
    rw [hr, det2_mix] at k3
    have := mul_nonneg_of_nonpos_of_nonpos (not_lt.1 hc) bh.le
    have := mul_pos (show 0 < 1 - r by linarith) k2
    linarith
  apply hn
  rw [hr]
  exact c.we.ray r0

/-- The corner behind the edge is right of the wedge. -/
theorem right {ot op m e} (s : Sp P ts ot op y x m e) (hn : ¬ InWedge (P eq) (P a) (P b) (P op)) (pe : 0 < det2 (P eq) (P op) (P ep)) :
    Chain P ts eq ep a b f ot x op y := by
  have hop := c.out_ne h hn
  have tri := s.pos
  obtain ⟨n1, e1, s1⟩ := s.rot
  obtain ⟨n2, e2, s2⟩ := s1.rot
  have ap := right_out c.we (c.ab h) pe hn
  refine ⟨c.tri, ⟨_, _, s2⟩, (c.x_ne h).1, c.vtx, c.we, ap, c.hy, pe, c.ey, next_right c.xe c.ey c.xy pe tri, ?_⟩
  intro X hX k
  rcases le_or_gt 0 (det2 (P x) (P y) X) with q | q
  · exact c.cov_le h s hop hX q
  · have hi := between_right tri c.hx ap (c.ay h) hX.1 q k
    refine ⟨fun z hz e => ?_, fun u v huv ho => (h.noedge s.sl huv ho hi).elim⟩
    rw [← e] at hi
    exact h.nocorner s.sl hz hi

/-- The corner behind the edge is left of the wedge. -/
theorem left {ot op m e} (s : Sp P ts ot op y x m e) (hn : ¬ InWedge (P eq) (P a) (P b) (P op)) (pe : det2 (P eq) (P op) (P ep) < 0) :
    Chain P ts eq ep a b f ot y x op := by
  have pe' : 0 < det2 (P eq) (P ep) (P op) := by rw [det2_swap']; linarith
  have hop := c.out_ne h hn
  have tri := s.pos
  obtain ⟨n1, e1, s1⟩ := s.rot
  obtain ⟨n2, e2, s2⟩ := s1.rot
  have bp := left_out c.we (c.ab h) pe' hn
  refine ⟨c.tri, ⟨_, _, s1⟩, (c.y_ne h).1, c.vtx, c.we, c.hx, bp, c.xe, pe', next_left c.xe c.ey c.xy pe' tri, ?_⟩
  intro X hX k
  rcases le_or_gt 0 (det2 (P x) (P y) X) with q | q
  · exact c.cov_le h s hop hX q
  · have hi := between_left tri c.hy bp (c.xb h) hX.2 q k
    refine ⟨fun z hz e => ?_, fun u v huv ho => (h.noedge s.sl huv ho hi).elim⟩
    rw [← e] at hi
    exact h.nocorner s.sl hz hi

/-! The corner behind the edge is in the wedge: the scan has found it. -/

section
variable {ot op : Nat} {m : Option Nat} {e : EdgeAttr} (s : Sp P ts ot op y x m e) (hw : InWedge (P eq) (P a) (P b) (P op))
include s hw

theorem found_wedge : InWedge (P op) (P y) (P x) (P eq) := by
  have k1 := wedge_xX c.hx (c.ab h) (c.xb h) hw
  have k2 := wedge_Xy c.hy (c.ab h) (c.ay h) hw
  refine ⟨?_, ?_⟩
  · rw [det2_rot]; exact k2
  · have : det2 (P op) (P eq) (P x) = det2 (P eq) (P x) (P op) := by unfold det2; ring
    rw [this]; exact k1

/-- Every edge that crosses the segment to the found corner crosses the given segment. -/
theorem found_cross {u v} (huv : PEdge P ts u v) (hc : ProperCross (P u) (P v) (P op) (P eq)) :
    ProperCross (P u) (P v) (P eq) (P ep) ∧ (op ≠ ep → Passed P ts eq ep u v) := by
  obtain ⟨X, h1, r, r0, r1, e1⟩ := hc.point
  have r1' : 0 < 1 - r := by linarith
  have hX : InWedge (P eq) (P a) (P b) X := by
    rw [e1]
    refine ⟨?_, ?_⟩
    · rw [det2_mix, (det2_same _ _).1]; have := mul_pos r1' hw.1; linarith
    · have : det2 (P eq) (mix r (P op) (P eq)) (P b) = det2 (P b) (P eq) (mix r (P op) (P eq)) := by unfold det2; ring
      rw [this, det2_mix, (det2_same _ _).2.1]
      have e2 : det2 (P b) (P eq) (P op) = det2 (P eq) (P op) (P b) := by unfold det2; ring
      rw [e2]; have := mul_pos r1' hw.2; linarith
  rcases le_or_gt 0 (det2 (P x) (P y) X) with q | q
  · exact (c.cov_le' h s hX q).2 u v huv h1
  · refine (h.noedge s.sl huv h1 ⟨?_, by rw [det2_swap]; linarith, ?_⟩).elim
    · have k := (c.found_wedge h s hw).1
      rw [e1, det2_mix, (det2_same _ _).1]; have := mul_pos r0 k; linarith
    · have k := (c.found_wedge h s hw).2
      rw [e1, det2_mix, (det2_same _ _).2.1]
      have e2 : det2 (P x) (P op) (P eq) = det2 (P op) (P eq) (P x) := by unfold det2; ring
      rw [e2]; have := mul_pos r0 k; linarith

/-- No corner is in both wedges. -/
theorem found_empty {z} (hz : Vtx ts z) (h1 : InWedge (P op) (P y) (P x) (P z)) : ¬ InWedge (P eq) (P a) (P b) (P z) := by
  intro hX
  rcases le_or_gt 0 (det2 (P x) (P y) (P z)) with q | q
  · exact (c.cov_le' h s hX q).1 z hz rfl
  · refine h.nocorner s.sl hz ⟨h1.1, by rw [det2_swap]; linarith, ?_⟩
    have e2 : det2 (P x) (P op) (P z) = det2 (P op) (P z) (P x) := by unfold det2; ring
    rw [e2]; exact h1.2

/-- The same for every segment that no flat triangle reaches across. -/
theorem found_nice (nc : Nice P ts eq ep) : Nice P ts op eq := by
  have free : ∀ z, Vtx ts z → ¬ OnOpen (P op) (P eq) (P z) := by
    rintro z hz k
    refine c.found_empty h s hw hz ?_ ?_
    · obtain ⟨r, r0, r1, e1⟩ := k
      rw [e1]; exact (c.found_wedge h s hw).ray r0
    · obtain ⟨r, r0, r1, e1⟩ := k.symm
      rw [e1]; exact hw.ray r0
  refine ⟨?_, free⟩
  intro t w u v n e sl h0 pc
  obtain ⟨X, x1, x2⟩ := pc.point
  rcases h.cover sl x1 with ⟨z, hz, rfl⟩ | ⟨u', v', pe, x3, o1, o2⟩
  · exact free z hz x2
  · have := cross_sub pc x1 x2 x3 o1 o2 (h.pedge_ne pe)
    exact nc.nz sl h0 (cross_sup (c.found_cross h s hw pe this).1 o1 o2)

end

end Chain

end P2T
