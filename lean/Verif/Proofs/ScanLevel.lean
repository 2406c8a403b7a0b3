import Verif.Proofs.ScanMesh

/-!
# Nested flips of an edge event

Inserting the segment from `eq` to `ep` starts with a triangle at `eq`.  If an edge it crosses cannot be flipped, the code looks for a
corner `op` inside the angle of this triangle and first inserts the segment from `op` to `eq`, and so on.  What has to be known
about the segment one level up is kept in `Level`.
-/

set_option linter.unusedSectionVars false

namespace P2T

/-- No marked edge crosses the segment. -/
def NMC (P : Nat → Point) (ts : Store) (eq ep : Nat) : Prop := ∀ u v, Mk ts u v → ¬ ProperCross (P u) (P v) (P eq) (P ep)

/-- The triangle `f` at `ep`, looking through `a b` at `eq`. -/
structure Level (P : Nat → Point) (ts : Store) (eq ep p1 p2 f a b : Nat) : Prop where
  tri : HasTri ts f ep a b
  pos : 0 < det2 (P ep) (P a) (P b)
  w : InWedge (P ep) (P a) (P b) (P eq)
  h1 : 0 ≤ det2 (P ep) (P b) (P p1)
  h2 : det2 (P ep) (P a) (P p2) ≤ 0
  ke : ∀ z, Vtx ts z → InWedge (P eq) (P p1) (P p2) (P z) → ¬ InWedge (P ep) (P a) (P b) (P z)

/-- The edge `ep eq` between the triangles over `a` and `b`, one of which is `f`. -/
def Two (ts : Store) (f a b ep eq : Nat) : Prop := ∃ i j e1 e2, (f = i ∨ f = j) ∧ Sl ts i a eq ep (some j) e1 ∧ Sl ts j b ep eq (some i) e2

/-- Keeps nested levels from inserting the whole edge. -/
def Guard (P : Nat → Point) (ts : Store) (EQ EP eq ep a b : Nat) : Prop :=
  (ep = EQ ∧ ProperCross (P a) (P b) (P EQ) (P EP)) ∨
  ∃ f0 a0 b0, HasTri ts f0 EQ a0 b0 ∧ ProperCross (P a0) (P b0) (P EQ) (P EP) ∧ ¬ ProperCross (P EQ) (P a0) (P eq) (P ep) ∧
    ¬ ProperCross (P a0) (P b0) (P eq) (P ep) ∧ ¬ ProperCross (P b0) (P EQ) (P eq) (P ep)

inductive Lv
  | top
  | sub (f a b : Nat)

def Lv.Pre (P : Nat → Point) (ts : Store) (EQ EP eq ep p1 p2 : Nat) : Lv → Prop
  | .top => eq = EQ ∧ ep = EP ∧ ∀ z, Vtx ts z → z = eq ∨ Below (P z) (P eq)
  | .sub f a b => Level P ts eq ep p1 p2 f a b ∧ Guard P ts EQ EP eq ep a b

def Lv.Post (N : Prop) (F : Nat → Nat → Prop) (P : Nat → Point) (ts ts' : Store) (EQ EP eq ep : Nat) : Lv → Prop
  | .top => (N → (∀ u v, Mk ts' u v → Mk ts u v ∨ (u = EP ∧ v = EQ) ∨ (u = EQ ∧ v = EP)) ∧ ∀ u v, Mk ts u v → Mk ts' u v) ∧
    (∀ u v, F u v → Mk ts u v → Mk ts' u v) ∧ ∀ u v, Mk ts' u v → Mk ts u v ∨ NV P ts u v ∨ (u = EP ∧ v = EQ) ∨ (u = EQ ∧ v = EP)
  | .sub f a b => Step N F P ts ts' ∧ Frame P ts ts' eq ep ∧ Two ts' f a b ep eq

variable {N : Prop} {F : Nat → Nat → Prop} {P : Nat → Point} {ts ts' : Store} {EQ EP eq ep p1 p2 f a b : Nat}

theorem NMC.step (h : N → NMC P ts eq ep) (k : Step N F P ts ts') : N → NMC P ts' eq ep := fun n u v m => h n u v ((k.con n u v).1 m)

/-- All edges in `F` are marked, and none of them crosses the segment. -/
def FM (F : Nat → Nat → Prop) (P : Nat → Point) (ts : Store) (eq ep : Nat) : Prop := ∀ u v, F u v → Mk ts u v ∧ ¬ ProperCross (P u) (P v) (P eq) (P ep)

theorem FM.step (h : FM F P ts eq ep) (k : Step N F P ts ts') : FM F P ts' eq ep := fun u v f => ⟨k.keep u v f (h u v f).1, (h u v f).2⟩

theorem FM.off (h : FM F P ts eq ep) (x : ProperCross (P a) (P b) (P eq) (P ep)) : ¬ F a b ∧ ¬ F b a :=
  ⟨fun f => (h _ _ f).2 x, fun f => (h _ _ f).2 x.swap⟩

theorem HasTri.edges {y w u v} (h : HasTri ts y w u v) : EdgeOf ts w u ∧ EdgeOf ts u v ∧ EdgeOf ts v w := by
  obtain ⟨n, e, h⟩ := h
  obtain ⟨_, _, h1⟩ := h.rot
  obtain ⟨_, _, h2⟩ := h1.rot
  exact ⟨⟨_, _, _, _, .inl h2⟩, ⟨_, _, _, _, .inl h⟩, ⟨_, _, _, _, .inl h1⟩⟩

theorem Sp.sides {t w u v n e} (h : Sp P ts t w u v n e) : PEdge P ts w u ∧ PEdge P ts v w := by
  obtain ⟨_, _, h1⟩ := h.rot
  obtain ⟨_, _, h2⟩ := h1.rot
  exact ⟨⟨_, _, _, _, .inl h2⟩, ⟨_, _, _, _, .inl h1⟩⟩

/-- Points on a ray, seen from the other side. -/
theorem ray_cases' {o a x e : Point} (h0 : det2 o a x = 0) (ha : det2 o a e < 0) (hx : det2 o x e < 0) :
    OnOpen o a x ∨ x = a ∨ OnOpen o x a := by
  have key : ∀ z : Point, det2 o z (mix (-1) o e) = - det2 o z e := by intro z; simp only [det2, mix]; ring
  exact ray_cases (e := mix (-1) o e) h0 (by rw [key]; linarith) (by rw [key]; linarith)

theorem Mk.edge {u v} (h : Mk ts u v) : EdgeOf ts u v := by
  obtain ⟨t, w, n, e, h, -⟩ := h; exact ⟨t, w, n, e, h⟩

/-- An edge does not cross a segment that ends at one of its ends. -/
theorem cross_end (u v x : Point) : ¬ ProperCross u v x u ∧ ¬ ProperCross u v x v := by
  constructor <;> rintro ⟨h, -⟩
  · rw [(det2_same _ _).1, mul_zero] at h; exact lt_irrefl _ h
  · rw [(det2_same _ _).2.1, mul_zero] at h; exact lt_irrefl _ h

theorem cross_start (u v x : Point) : ¬ ProperCross u v u x ∧ ¬ ProperCross u v v x :=
  ⟨fun h => (cross_end u v x).1 h.swap', fun h => (cross_end u v x).2 h.swap'⟩

/-! ## Smaller angles -/

theorem wedge_right {o a b z X : Point} (ab : 0 < det2 o a b) (hz : InWedge o a b z) (hX : InWedge o a z X) : InWedge o a b X := by
  refine ⟨hX.1, ?_⟩
  have := plucker o a X z b
  have : 0 < det2 o X b * det2 o a z := by
    have := mul_pos hX.1 hz.2
    have := mul_pos ab hX.2
    linarith
  exact pos_of_mul_pos_left this hz.1.le

theorem wedge_left {o a b z X : Point} (ab : 0 < det2 o a b) (hz : InWedge o a b z) (hX : InWedge o z b X) : InWedge o a b X := by
  refine ⟨?_, hX.2⟩
  have := plucker o a z X b
  have : 0 < det2 o a X * det2 o z b := by
    have := mul_pos hz.1 hX.2
    have := mul_pos ab hX.1
    linarith
  exact pos_of_mul_pos_left this hz.2.le

section
variable (l : Level P ts eq ep p1 p2 f a b) (ab : 0 < det2 (P eq) (P p1) (P p2)) {z : Nat} (hv : Vtx ts z)
  (hz : InWedge (P eq) (P p1) (P p2) (P z))
include l ab hv hz

theorem Level.right (he : 0 < det2 (P eq) (P ep) (P z)) : Level P ts eq ep p1 z f a b :=
  ⟨l.tri, l.pos, l.w, l.h1, right_out l.w l.pos (p := P z) (by rw [det2_rot]; exact he) (l.ke z hv hz), fun x hx k => l.ke x hx (wedge_right ab hz k)⟩

theorem Level.left (he : det2 (P eq) (P ep) (P z) < 0) : Level P ts eq ep z p2 f a b :=
  ⟨l.tri, l.pos, l.w, left_out l.w l.pos (p := P z) (by rw [det2_swap]; linarith) (l.ke z hv hz), l.h2, fun x hx k => l.ke x hx (wedge_left ab hz k)⟩

end

theorem Lv.Pre.right {L : Lv} (l : L.Pre P ts EQ EP eq ep p1 p2) (ab : 0 < det2 (P eq) (P p1) (P p2)) {z : Nat} (hv : Vtx ts z)
    (hz : InWedge (P eq) (P p1) (P p2) (P z)) (he : 0 < det2 (P eq) (P ep) (P z)) : L.Pre P ts EQ EP eq ep p1 z := by
  cases L with
  | top => exact l
  | sub f a b => exact ⟨l.1.right ab hv hz he, l.2⟩

theorem Lv.Pre.left {L : Lv} (l : L.Pre P ts EQ EP eq ep p1 p2) (ab : 0 < det2 (P eq) (P p1) (P p2)) {z : Nat} (hv : Vtx ts z)
    (hz : InWedge (P eq) (P p1) (P p2) (P z)) (he : det2 (P eq) (P ep) (P z) < 0) : L.Pre P ts EQ EP eq ep z p2 := by
  cases L with
  | top => exact l
  | sub f a b => exact ⟨l.1.left ab hv hz he, l.2⟩

/-- The level up survives. -/
def Lv.Alive (ts : Store) (ep : Nat) : Lv → Prop
  | .top => True
  | .sub f a b => HasTri ts f ep a b

theorem Lv.Pre.step {L : Lv} (l : L.Pre P ts EQ EP eq ep p1 p2) (k : Step N F P ts ts') (fr : Frame P ts ts' eq ep) (al : L.Alive ts' ep) :
    L.Pre P ts' EQ EP eq ep p1 p2 := by
  cases L with
  | top => exact ⟨l.1, l.2.1, fun z hz => l.2.2 z ((k.vtx z).1 hz)⟩
  | sub f a b =>
    refine ⟨⟨al, l.1.pos, l.1.w, l.1.h1, l.1.h2, fun z hz => l.1.ke z ((k.vtx z).1 hz)⟩, ?_⟩
    rcases l.2 with g | ⟨f0, a0, b0, g1, g2, g3, g4, g5⟩
    · exact .inl g
    · exact .inr ⟨f0, a0, b0, fr _ _ _ _ g1 g3 g4 g5, g2, g3, g4, g5⟩

theorem Lv.Post.trans {L : Lv} (k : Step N F P ts ts') (fr : Frame P ts ts' eq ep) {ts2} (h : L.Post N F P ts' ts2 EQ EP eq ep) :
    L.Post N F P ts ts2 EQ EP eq ep := by
  cases L with
  | top =>
    refine ⟨fun hN => ⟨fun u v m => ?_, fun u v m => (h.1 hN).2 u v ((k.con hN u v).2 m)⟩, fun u v f m => h.2.1 u v f (k.keep u v f m), fun u v m => ?_⟩
    · rcases (h.1 hN).1 u v m with m | m
      · exact .inl ((k.con hN u v).1 m)
      · exact .inr m
    · rcases h.2.2 u v m with m | m | m
      · exact (k.mark u v m).imp id .inl
      · exact .inr (.inl fun z hz => m z ((k.vtx z).2 hz))
      · exact .inr (.inr m)
  | sub f a b => exact ⟨k.trans h.1, fr.trans h.2.1, h.2.2⟩

/-- Nested levels never insert the whole edge. -/
theorem Guard.not_whole (h : Guard P ts EQ EP eq ep a b) (hne : eq ≠ ep) : ¬ (eq = EQ ∧ ep = EP) := by
  rintro ⟨rfl, rfl⟩
  rcases h with ⟨rfl, -⟩ | ⟨f0, a0, b0, -, h1, -, h2, -⟩
  · exact hne rfl
  · exact h2 h1

/-! ## The scan -/

namespace Chain
variable {t w x y ot op : Nat} {m : Option Nat} {e : EdgeAttr} (c : Chain P ts eq ep p1 p2 f t w x y) (h : Pl P ts)
include c h

/-- After the first step the chain has left the triangle. -/
theorem moved (hw : w ≠ eq) : ¬ (x = p1 ∧ y = p2) := by
  rintro ⟨rfl, rfl⟩
  obtain ⟨_, _, s⟩ := c.tri
  obtain ⟨_, _, s'⟩ := c.wx
  exact hw (h.once s s').2

theorem base : ProperCross (P p1) (P p2) (P eq) (P ep) := by
  obtain ⟨_, _, s⟩ := c.tri
  exact (Chain.start h s c.we c.vtx).cross h

section
variable (s : Sp P ts ot op y x m e) (hw : InWedge (P eq) (P p1) (P p2) (P op)) {f0 a b : Nat} (l : Level P ts eq ep p1 p2 f0 a b) (hm : w ≠ eq)
include s hw l hm

/-- On nested levels the end is not found directly. -/
theorem found_ne : op ≠ ep := by
  rintro rfl
  obtain ⟨n1, e1, sf⟩ := l.tri
  obtain ⟨n2, e2, st⟩ := c.tri
  have k := c.found_wedge h s hw
  obtain ⟨-, rfl, rfl, -⟩ := h.toward s ⟨sf, l.pos⟩ k.1 k.2 l.w.1 l.w.2
  obtain ⟨E1, E2⟩ := st.sides
  obtain ⟨F1, F2⟩ := s.sides
  have V1 := c.edge h
  by_cases hx : b = p1
  · by_cases hy : a = p2
    · exact c.moved h hm ⟨hx, hy⟩
    · have r1 : det2 (P eq) (P p2) (P op) < 0 := by rw [det2_swap']; linarith [c.we.2]
      have r2 := k.1
      rcases c.hy.lt_or_eq with q1 | q1
      · rcases l.h2.lt_or_eq with q2 | q2
        · exact h.nocross E2.symm F1 ⟨mul_neg_of_neg_of_pos r1 q1, mul_neg_of_pos_of_neg r2 q2⟩
        · rcases ray_cases q2 k.1 (x := P p2) (e := P eq) (by rw [det2_rot]; exact c.we.2) with j | j | j
          · exact h.noend F1 E2.edge.vtx.1 j
          · exact hy (h.inj V1.edge.vtx.2 E2.edge.vtx.1 j.symm)
          · obtain ⟨r, r0, r1', j⟩ := j
            rw [j, det2_mix, (det2_same _ _).2.1] at q1
            have := mul_neg_of_pos_of_neg (show 0 < 1 - r by linarith) r1
            linarith
      · rcases ray_cases' q1.symm r1 (x := P a) (e := P op) (by rw [det2_swap']; linarith [c.ey]) with j | j | j
        · exact h.noend E2.symm V1.edge.vtx.2 j
        · exact hy (h.inj V1.edge.vtx.2 E2.edge.vtx.1 j)
        · obtain ⟨r, r0, r1', j⟩ := j
          have q2 := l.h2
          rw [j, det2_mix, (det2_same _ _).2.1] at q2
          have := mul_pos (show 0 < 1 - r by linarith) r2
          linarith
  · have r1 := c.we.1
    have r2 : det2 (P op) (P b) (P eq) < 0 := by rw [det2_swap']; linarith [k.2]
    rcases c.hx.lt_or_eq with q1 | q1
    · rcases l.h1.lt_or_eq with q2 | q2
      · exact h.nocross E1 F2.symm ⟨mul_neg_of_pos_of_neg r1 q1, mul_neg_of_neg_of_pos r2 q2⟩
      · rcases ray_cases' q2.symm r2 (x := P p1) (e := P eq) (by
          have : det2 (P op) (P p1) (P eq) = - det2 (P eq) (P p1) (P op) := by unfold det2; ring
          linarith) with j | j | j
        · exact h.noend F2.symm E1.edge.vtx.2 j
        · exact hx (h.inj V1.edge.vtx.1 E1.edge.vtx.2 j.symm)
        · obtain ⟨r, r0, r1', j⟩ := j
          rw [j, det2_mix, (det2_same _ _).2.1] at q1
          have := mul_pos (show 0 < 1 - r by linarith) r1
          linarith
    · rcases ray_cases q1 r1 (x := P b) (e := P op) c.xe with j | j | j
      · exact h.noend E1 V1.edge.vtx.1 j
      · exact hx (h.inj V1.edge.vtx.1 E1.edge.vtx.2 j)
      · obtain ⟨r, r0, r1', j⟩ := j
        have q2 := l.h1
        rw [j, det2_mix, (det2_same _ _).2.1] at q2
        have := mul_neg_of_pos_of_neg (show 0 < 1 - r by linarith) r2
        linarith

/-- The triangle one level up is not touched. -/
theorem found_up : ¬ ProperCross (P ep) (P a) (P op) (P eq) ∧ ¬ ProperCross (P a) (P b) (P op) (P eq) ∧ ¬ ProperCross (P b) (P ep) (P op) (P eq) := by
  have hne := c.found_ne h s hw l hm
  obtain ⟨n, e, sf⟩ := l.tri
  have sf : Sp P ts f0 ep a b n e := ⟨sf, l.pos⟩
  obtain ⟨E1, E3⟩ := sf.sides
  refine ⟨fun k => ?_, fun k => ?_, fun k => ?_⟩
  · exact (cross_end _ _ _).1 (c.found_cross h s hw E1 k).1
  · exact ((c.found_cross h s hw ⟨_, _, _, _, .inl sf⟩ k).2 hne).2 _ _ _ _ (.inl sf) rfl
  · exact (cross_end _ _ _).2 (c.found_cross h s hw E3 k).1

end

/-- The same for flat triangles. -/
theorem found_cross' (s : Sp P ts ot op y x m e) (hw : InWedge (P eq) (P p1) (P p2) (P op)) (nc : Nice P ts eq ep) {u v} (huv : EdgeOf ts u v)
    (hc : ProperCross (P u) (P v) (P op) (P eq)) : ProperCross (P u) (P v) (P eq) (P ep) := by
  have nn := c.found_nice h s hw nc
  obtain ⟨t, w, n, e, k | k⟩ := huv
  · rcases (h.nn k).lt_or_eq with q | q
    · exact (c.found_cross h s hw ⟨_, _, _, _, .inl ⟨k, q⟩⟩ hc).1
    · exact (nn.nz k q.symm hc).elim
  · rcases (h.nn k).lt_or_eq with q | q
    · exact (c.found_cross h s hw ⟨_, _, _, _, .inr ⟨k, q⟩⟩ hc).1
    · exact (nn.nz k q.symm hc.swap).elim

/-- The level of the nested insertion. -/
theorem nested (s : Sp P ts ot op y x m e) (hw : InWedge (P eq) (P p1) (P p2) (P op)) (nc : Nice P ts eq ep) {L : Lv} (l : L.Pre P ts EQ EP eq ep p1 p2) (hm : w ≠ eq) :
    (Lv.sub f p1 p2).Pre P ts EQ EP op eq y x ∧ L.Alive ts ep ∧
      ∀ ts', Frame P ts ts' op eq → Frame P ts ts' eq ep ∧ L.Alive ts' ep := by
  have lev : Level P ts op eq y x f p1 p2 := ⟨let ⟨n, e, k⟩ := c.tri; ⟨n, e, k.sl⟩, c.ab h, hw, c.hy, c.hx, fun z hz => c.found_empty h s hw hz⟩
  have fr : ∀ ts', Frame P ts ts' op eq → Frame P ts ts' eq ep := by
    intro ts' k u v w' z ht h1 h2 h3
    obtain ⟨E1, E2, E3⟩ := ht.edges
    exact k u v w' z ht (fun q => h1 (c.found_cross' h s hw nc E1 q)) (fun q => h2 (c.found_cross' h s hw nc E2 q))
      (fun q => h3 (c.found_cross' h s hw nc E3 q))
  cases L with
  | top =>
    obtain ⟨rfl, rfl, -⟩ := l
    exact ⟨⟨lev, .inl ⟨rfl, c.base h⟩⟩, trivial, fun ts' k => ⟨fr ts' k, trivial⟩⟩
  | sub f0 a b =>
    obtain ⟨u1, u2, u3⟩ := c.found_up h s hw l.1 hm
    refine ⟨⟨lev, .inr ?_⟩, l.1.tri, fun ts' k => ⟨fr ts' k, k _ _ _ _ l.1.tri u1 u2 u3⟩⟩
    rcases l.2 with ⟨rfl, g⟩ | ⟨f1, a1, b1, g1, g2, g3, g4, g5⟩
    · exact ⟨f0, a, b, l.1.tri, g, u1, u2, u3⟩
    · obtain ⟨E1, E2, E3⟩ := g1.edges
      exact ⟨f1, a1, b1, g1, g2, fun q => g3 (c.found_cross' h s hw nc E1 q), fun q => g4 (c.found_cross' h s hw nc E2 q),
        fun q => g5 (c.found_cross' h s hw nc E3 q)⟩

end Chain

end P2T
