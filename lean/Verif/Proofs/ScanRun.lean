import Verif.Proofs.ScanLevel

/-!
# Inserting an edge marks nothing but this edge
-/

set_option linter.unusedSectionVars false

namespace P2T

variable {c : Ctx} {Q : Nat → Prop}

/-- If the flat triangle `eq q1 q2` points at `ep`, it ends there. -/
def Zok (P : Nat → Point) (eq ep q1 q2 : Nat) : Prop :=
  det2 (P eq) (P q1) (P q2) = 0 → det2 (P eq) (P q1) (P ep) = 0 → q1 = ep ∨ q2 = ep

/-- What `edge_event_process` starts with. -/
def Lv.Restart (P : Nat → Point) (ts : Store) (EQ EP eq ep t : Nat) : Lv → Prop
  | .top => ∃ q1 q2, HasTri ts t eq q1 q2 ∧ Zok P eq ep q1 q2 ∧ Lv.top.Pre P ts EQ EP eq ep q1 q2
  | .sub f a b => ∃ p1 p2 z, Two ts t p1 p2 eq z ∧ 0 < det2 (P eq) (P p1) (P p2) ∧ InWedge (P eq) (P p1) (P p2) (P ep) ∧
      InWedge (P eq) (P p1) (P p2) (P z) ∧ z ≠ ep ∧ (Lv.sub f a b).Pre P ts EQ EP eq ep p1 p2

theorem InWedge.ne {P : Nat → Point} {o a b z : Nat} (h : InWedge (P o) (P a) (P b) (P z)) : o ≠ z ∧ a ≠ z ∧ b ≠ z := by
  obtain ⟨h1, h2⟩ := h
  refine ⟨?_, ?_, ?_⟩ <;> rintro rfl
  · rw [(det2_same _ _).1] at h1; exact lt_irrefl _ h1
  · rw [(det2_same _ _).2.1] at h1; exact lt_irrefl _ h1
  · rw [(det2_same _ _).2.1] at h2; exact lt_irrefl _ h2

theorem not_behind {o a b x : Point} (ha : Below a o) (hb : Below b o) (hx : Below x o) (ab : 0 ≤ det2 o a b) :
    ¬ (det2 o a x < 0 ∧ 0 < det2 o b x) := by
  rintro ⟨h1, h2⟩
  have id : det2 o a b * (x.y - o.y) - det2 o a x * (b.y - o.y) + det2 o b x * (a.y - o.y) = 0 := by unfold det2; ring
  have ya : a.y - o.y ≤ 0 := by rcases ha with k | ⟨k, -⟩ <;> linarith
  have yb : b.y - o.y ≤ 0 := by rcases hb with k | ⟨k, -⟩ <;> linarith
  have yx : x.y - o.y ≤ 0 := by rcases hx with k | ⟨k, -⟩ <;> linarith
  have k1 := mul_nonpos_of_nonneg_of_nonpos ab yx
  have k2 := mul_nonneg_of_nonpos_of_nonpos h1.le yb
  have k3 := mul_nonpos_of_nonneg_of_nonpos h2.le ya
  have e1 : det2 o b x * (a.y - o.y) = 0 := by linarith
  have e2 : det2 o a x * (b.y - o.y) = 0 := by linarith
  have e3 := (mul_eq_zero.1 e1).resolve_left h2.ne'
  have e4 := (mul_eq_zero.1 e2).resolve_left h1.ne
  have ya' : a.y = o.y := by linarith
  have ax : a.x < o.x := by rcases ha with k | ⟨-, k⟩; · linarith
                            · exact k
  have : det2 o a x = (a.x - o.x) * (x.y - o.y) := by unfold det2; rw [ya']; ring
  rw [this] at h1
  have := mul_nonneg_of_nonpos_of_nonpos (show a.x - o.x ≤ 0 by linarith) yx
  linarith

/-- Points below `o` on a line through `o` are on one ray. -/
theorem below_ray {o a x : Point} (ha : Below a o) (hx : Below x o) (h0 : det2 o a x = 0) : OnOpen o a x ∨ x = a ∨ OnOpen o x a := by
  rcases ha with ya | ⟨ya, xa⟩
  · rcases hx with yx | ⟨yx, xx⟩
    · refine ray_cases (e := ⟨o.x + 1, o.y⟩) h0 ?_ ?_ <;> unfold det2 <;> simp only <;> nlinarith
    · exfalso; unfold det2 at h0; rw [yx] at h0; nlinarith
  · rcases hx with yx | ⟨yx, xx⟩
    · exfalso; unfold det2 at h0; rw [ya] at h0; nlinarith
    · refine ray_cases (e := ⟨o.x, o.y - 1⟩) h0 ?_ ?_ <;> unfold det2 <;> simp only <;> nlinarith

/-- On a ray from `eq` there is nothing but the end of an edge and the end of a free segment. -/
theorem Pl.ray_end {P : Nat → Point} {ts : Store} (pl : Pl P ts) {eq ep q : Nat} (nc : Nice P ts eq ep) (hv : Vtx ts ep) (hq : Vtx ts q)
    (hd : PEdge P ts eq q) (h : OnOpen (P eq) (P q) (P ep) ∨ P ep = P q ∨ OnOpen (P eq) (P ep) (P q)) : ep = q := by
  rcases h with h | h | h
  · exact (pl.noend hd hv h).elim
  · exact pl.inj hv hq h
  · exact (nc.free _ hq h).elim

/-- Two points in an angle on a line through its corner are on one ray. -/
theorem wedge_line {o a b x y : Point} (hx : InWedge o a b x) (hy : InWedge o a b y) (h0 : det2 o x y = 0) :
    OnOpen o x y ∨ y = x ∨ OnOpen o y x := by
  have key : ∀ z : Point, det2 o z (mix (-1) o a) = det2 o a z := by intro z; simp only [det2, mix]; ring
  exact ray_cases (e := mix (-1) o a) h0 (by rw [key]; exact hx.1) (by rw [key]; exact hy.1)

theorem line_trans {o u v e : Point} (hn : o ≠ u) (h1 : det2 o u v = 0) (h2 : det2 o u e = 0) : det2 o v e = 0 := by
  obtain ⟨r, r1⟩ := line_mix hn h1
  obtain ⟨r', r2⟩ := line_mix hn h2
  rw [r1, r2]; simp only [det2, mix]; ring

theorem zok_right {P : Nat → Point} {eq ep w q : Nat} (hn : P eq ≠ P w) (h : det2 (P eq) (P q) (P ep) ≠ 0) : Zok P eq ep w q :=
  fun j j' => (h (line_trans hn j j')).elim

/-- The found corner is not on the line of the segment, unless it is its end. -/
theorem Chain.op_line {P : Nat → Point} {ts : Store} {eq ep p1 p2 f t w x y ot op : Nat} {m e} (ch : Chain P ts eq ep p1 p2 f t w x y) (pl : Pl P ts)
    (o1 : Sp P ts ot op y x m e) (wo : InWedge (P eq) (P p1) (P p2) (P op)) (nc : Nice P ts eq ep) (hend : op ≠ ep) :
    det2 (P eq) (P op) (P ep) ≠ 0 := by
  intro k
  rcases wedge_line wo ch.we k with ⟨r, r0, r1, j⟩ | j | j
  · have fw := ch.found_wedge pl o1 wo
    refine pl.nocorner o1.sl ch.vtx ⟨?_, ?_, ?_⟩
    · rw [j, det2_mix, (det2_same _ _).1]
      have := mul_pos (show 0 < 1 - r by linarith) fw.1
      linarith
    · rw [det2_swap]; linarith [ch.behind pl]
    · rw [j, det2_mix, (det2_same _ _).2.1]
      have : det2 (P x) (P op) (P eq) = det2 (P op) (P eq) (P x) := by unfold det2; ring
      have := mul_pos (show 0 < 1 - r by linarith) fw.2
      rw [‹det2 (P x) (P op) (P eq) = _›]
      linarith
  · exact hend (pl.inj o1.sl.vtx.1 ch.vtx j.symm)
  · exact nc.free _ o1.sl.vtx.1 j

/-- What the triangle of a restart looks like. -/
theorem Lv.Restart.spec {P : Nat → Point} {ts : Store} {EQ EP eq ep t : Nat} {L : Lv} (h : L.Restart P ts EQ EP eq ep t) (pl : Pl P ts)
    (nc : Nice P ts eq ep) (hv : Vtx ts ep) (hne : eq ≠ ep) :
    ∃ q1 q2, HasTri ts t eq q1 q2 ∧ (L = .top ∨ q1 ≠ ep ∧ q2 ≠ ep) ∧
      (q1 ≠ ep → q2 ≠ ep → det2 (P eq) (P q1) (P ep) ≠ 0 ∧ det2 (P eq) (P q2) (P ep) ≠ 0) ∧
      (InWedge (P eq) (P q1) (P q2) (P ep) → L.Pre P ts EQ EP eq ep q1 q2 ∧ 0 < det2 (P eq) (P q1) (P q2)) ∧
      (0 < det2 (P eq) (P q1) (P ep) → 0 < det2 (P eq) (P q2) (P ep) → ∀ t' e, Sl ts t q1 q2 eq (some t') e →
        (∃ w' e', Sl ts t' w' eq q2 (some t) e') → L.Restart P ts EQ EP eq ep t') ∧
      (det2 (P eq) (P q1) (P ep) < 0 → det2 (P eq) (P q2) (P ep) < 0 → ∀ t' e, Sl ts t q2 eq q1 (some t') e →
        (∃ w' e', Sl ts t' w' q1 eq (some t) e') → L.Restart P ts EQ EP eq ep t') ∧
      ¬ (det2 (P eq) (P q1) (P ep) < 0 ∧ 0 < det2 (P eq) (P q2) (P ep)) ∧
      (0 < det2 (P eq) (P q1) (P ep) → 0 < det2 (P eq) (P q2) (P ep) → ∀ e, Sl ts t q1 q2 eq none e → L = .top) ∧
      (det2 (P eq) (P q1) (P ep) < 0 → det2 (P eq) (P q2) (P ep) < 0 → ∀ e, Sl ts t q2 eq q1 none e → L = .top) := by
  cases L with
  | top =>
    obtain ⟨q1, q2, ⟨n, e, s⟩, zk, l⟩ := h
    have d := pl.ne s
    have b1 := (l.2.2 _ s.vtx.2.1).resolve_left d.1.symm
    have b2 := (l.2.2 _ s.vtx.2.2).resolve_left d.2.2.symm
    have be := (l.2.2 _ hv).resolve_left hne.symm
    have nP : ∀ {q}, Vtx ts q → eq ≠ q → P eq ≠ P q := fun hq hn k => hn (pl.inj s.vtx.1 hq k)
    -- a corner on the line of a flat triangle
    have line : ∀ {u v}, Vtx ts u → eq ≠ u → det2 (P eq) (P u) (P v) = 0 → det2 (P eq) (P u) (P ep) = 0 → det2 (P eq) (P v) (P ep) = 0 := by
      intro u v hu hn h1 h2
      obtain ⟨r, r1⟩ := line_mix (nP hu hn) h1
      obtain ⟨r', r2⟩ := line_mix (nP hu hn) h2
      rw [r1, r2]; simp only [det2, mix]; ring
    refine ⟨q1, q2, ⟨n, e, s⟩, .inl rfl, ?_, fun iw => ⟨l, ?_⟩, ?_, ?_, ?_, fun _ _ _ _ => rfl, fun _ _ _ _ => rfl⟩
    · intro n1 n2
      rcases (pl.nn s).lt_or_eq with k | k
      · obtain ⟨E1, E2⟩ := Sp.sides ⟨s, k⟩
        exact ⟨fun j => n1 (pl.ray_end nc hv s.vtx.2.1 E1 (below_ray b1 be j)).symm,
          fun j => n2 (pl.ray_end nc hv s.vtx.2.2 E2.symm (below_ray b2 be j)).symm⟩
      · have c1 : det2 (P eq) (P q1) (P ep) ≠ 0 := fun j => (zk k.symm j).elim n1 n2
        refine ⟨c1, fun j => c1 (line s.vtx.2.2 d.2.2 (by rw [det2_swap', ← k, neg_zero]) j)⟩
    · rcases (pl.nn s).lt_or_eq with k | k
      · exact k
      · exfalso
        have key := below_ray b1 b2 k.symm
        have w1 := iw.1
        have w2 := iw.2
        rw [det2_swap'] at w2
        rcases key with ⟨r, r0, -, j⟩ | j | ⟨r, r0, -, j⟩
        · rw [j] at w2
          have : det2 (P eq) (mix r (P eq) (P q1)) (P ep) = r * det2 (P eq) (P q1) (P ep) := by simp only [det2, mix]; ring
          have := mul_pos r0 w1
          linarith
        · rw [j] at w2; linarith
        · rw [j] at w1
          have : det2 (P eq) (mix r (P eq) (P q2)) (P ep) = r * det2 (P eq) (P q2) (P ep) := by simp only [det2, mix]; ring
          have := mul_pos r0 (show 0 < - det2 (P eq) (P q2) (P ep) by linarith)
          linarith
    · rintro - c2 t' e' - ⟨w', e'', k⟩
      obtain ⟨n1, e1, k1⟩ := k.rot
      exact ⟨_, _, ⟨_, _, k1⟩, fun _ j => (c2.ne' j).elim, l⟩
    · rintro c1 - t' e' - ⟨w', e'', k⟩
      obtain ⟨n1, e1, k1⟩ := k.rot2
      exact ⟨_, _, ⟨_, _, k1⟩, fun j j' => (c1.ne (line k.vtx.1 (pl.ne k1).1 j j')).elim, l⟩
    · exact not_behind b1 b2 be (pl.nn s)
  | sub f a b =>
    obtain ⟨p1, p2, z, ⟨i, j, e1, e2, hij, si, sj⟩, ab, we, wz, zne, l⟩ := h
    obtain ⟨n3, e3, si1⟩ := si.rot2
    obtain ⟨n4, e4, sj1⟩ := sj.rot
    have en := we.ne
    have r2 : det2 (P eq) (P p2) (P ep) < 0 := by rw [det2_swap']; linarith [we.2]
    have pz : det2 (P eq) (P z) (P ep) ≠ 0 := by
      intro k
      have E : PEdge P ts eq z := (Sp.sides (P := P) ⟨si1, wz.1⟩).2.symm
      exact zne (pl.ray_end nc hv si.vtx.2.1 E (wedge_line wz we k)).symm
    rcases hij with rfl | rfl
    · refine ⟨p1, z, ⟨_, _, si1⟩, .inr ⟨en.2.1, zne⟩, fun _ _ => ⟨we.1.ne', pz⟩, fun k => ⟨l.right ab si.vtx.2.1 wz k.2, wz.1⟩, ?_, ?_, ?_, ?_, ?_⟩
      · rintro - - t' e' s' -
        obtain ⟨-, k, -⟩ := pl.at_edge si s'
        cases k
        exact ⟨p1, p2, z, ⟨_, _, _, _, .inr rfl, si, sj⟩, ab, we, wz, zne, l⟩
      · intro k; exact (lt_asymm k we.1).elim
      · intro k; exact lt_asymm k.1 we.1
      · rintro - - e' s'
        obtain ⟨-, k, -⟩ := pl.at_edge si s'
        cases k
      · intro k; exact (lt_asymm k we.1).elim
    · refine ⟨z, p2, ⟨_, _, sj1⟩, .inr ⟨zne, en.2.2⟩,
fun _ _ => ⟨pz, r2.ne⟩, 
        fun k => ⟨l.left ab si.vtx.2.1 wz (by rw [det2_swap']; linarith [k.1]), wz.2⟩, ?_, ?_, ?_, ?_, ?_⟩
      · intro _ k; exact (lt_asymm k r2).elim
      · rintro - - t' e' s' -
        obtain ⟨-, k, -⟩ := pl.at_edge sj s'
        cases k
        exact ⟨p1, p2, z, ⟨_, _, _, _, .inl rfl, si, sj⟩, ab, we, wz, zne, l⟩
      · intro k; exact lt_asymm k.2 r2
      · intro _ k; exact (lt_asymm k r2).elim
      · rintro - - e' s'
        obtain ⟨-, k, -⟩ := pl.at_edge sj s'
        cases k

/-- The ghost trap of the collinear branches did not fire. -/
def NotCol (e : Err) : Prop := e ≠ .trapped "collinear"

/-- … and under the condition `K` there was no failure at all. -/
def KErr (K : Prop) (e : Err) : Prop := NotCol e ∧ (K → e = .fuel)

theorem KErr.fuel {K : Prop} : KErr K .fuel := ⟨by simp [NotCol], fun _ => rfl⟩
theorem KErr.never {K : Prop} {e : Err} (h : NotCol e) (k : K → False) : KErr K e := ⟨h, fun x => (k x).elim⟩

/-- No open edge crosses the segment, and at the top level the segment starts inside the mesh. -/
def Clr (P : Nat → Point) (ts : Store) (eq ep : Nat) (L : Lv) : Prop := ∀ t u v, Bd ts t u v → ¬ ProperCross (P u) (P v) (P eq) (P ep) ∧
  (L = .top → u = eq ∨ v = eq → 0 ≤ det2 (P u) (P v) (P ep))

theorem Clr.step {N : Prop} {F : Nat → Nat → Prop} {P : Nat → Point} {ts ts' : Store} {eq ep : Nat} {L : Lv} (h : Clr P ts eq ep L) (k : Step N F P ts ts') : Clr P ts' eq ep L := by
  intro t u v b
  obtain ⟨t', b⟩ := k.opn b
  exact h t' u v b

theorem edgeProcess_none {g : Trap} {c : Ctx} {fuel : Nat} {s : St} {ep eq : Nat} {e : CEdge} {p : Nat} {lq : List Nat} {R : St × List Nat → Prop} {K : Prop}
    (hK : K → False) : Spec (edgeProcess g c fuel s ep eq e none p lq) (KErr K) R := by
  cases fuel with
  | zero => unfold edgeProcess; exact Spec.error .fuel
  | succ n => unfold edgeProcess; exact Spec.error (.never (by simp [NotCol]) hK)

/-- The neighbours at a corner. -/
theorem Sl.nbrs {c : Ctx} {K Q} {ts : Store} (m : MeshInv c K Q ts) {t w u v n e} (h : Sl ts t w u v n e) {T : Tri} (hT : ts[t]? = some T) :
    ∃ n1 e1 n2 e2, T.neighborCw w = .ok n1 ∧ Sl ts t u v w n1 e1 ∧ T.neighborCcw w = .ok n2 ∧ Sl ts t v w u n2 e2 := by
  have d := (oriW c).d3 (m.wo h)
  obtain ⟨T', n1, n2, e1, e2, k, vT⟩ := h.view
  rw [hT] at k; cases k
  exact ⟨n1, e1, n2, e2, vT.neighborCw d, ⟨T, hT, vT.slot1⟩, vT.neighborCcw d, ⟨T, hT, vT.slot2⟩⟩

/-- The next point of the scan. -/
theorem nextFlip_spec {c : Ctx} {K Q} {ts : Store} (m : MeshInv c K Q ts) {ep eq ot op u v n e} (h1 : ep < c.points.length) (h2 : eq < c.points.length)
    (s : Sl ts ot op u v n e) {K' : Prop} (hK : K' → det2 (c.pos eq) (c.pos op) (c.pos ep) ≠ 0) : Spec (nextFlipPoint c ts ep eq ot op) (KErr K') fun q =>
      (0 < det2 (c.pos eq) (c.pos op) (c.pos ep) ∧ q = v) ∨ (det2 (c.pos eq) (c.pos op) (c.pos ep) < 0 ∧ q = u) := by
  obtain ⟨O, hO⟩ : ∃ O, ts[ot]? = some O := ⟨_, List.getElem?_eq_getElem s.lt⟩
  obtain ⟨k1, k2, -⟩ := s.pts m hO
  simp only [nextFlipPoint, Ctx.pt_ok h1, Ctx.pt_ok h2, Ctx.pt_ok (m.wo s).1.1, ok_bind, getU_ok.2 hO]
  split
  · rename_i k; rw [k1]; exact .inr ⟨orient_cw.1 k, rfl⟩
  · rename_i k; rw [k2]; exact .inl ⟨orient_ccw.1 k, rfl⟩
  · rename_i k; exact Spec.error (.never (by simp [NotCol]) fun x => hK x (orient_collinear.1 k))

/-- Two names for the corners of a triangle. -/
theorem Pl.tri_cases {P : Nat → Point} {ts : Store} (h : Pl P ts) {t w u v n e w' u' v' n' e'} (s : Sl ts t w u v n e) (s' : Sl ts t w' u' v' n' e') :
    (w' = w ∧ u' = u ∧ v' = v) ∨ (w' = u ∧ u' = v ∧ v' = w) ∨ (w' = v ∧ u' = w ∧ v' = u) := by
  rcases sl_two s (h.ne s) s' with ⟨h1, h2, h3, -⟩ | k | k
  · exact .inl ⟨h1, h2, h3⟩
  · exact .inr (.inl k)
  · exact .inr (.inr k)

/-- Insertion of `e`.  If no marked edge crosses it (condition `N`), then at the top level only the edge `e` gets marked, and nested levels mark nothing.
The marked edges `F`, which do not cross it, stay. -/
theorem flip_main (gd : Good c) (ex : Exact c) {g : Trap} (hg : g.col = true) {K N : Prop} {F : Nat → Nat → Prop} (e : CEdge) : ∀ fuel : Nat,
    (∀ {s : St} {ep eq t : Nat} {lq : List Nat} {L : Lv}, EPost c True s (s, lq) → ep < c.points.length → eq < c.points.length → eq ≠ ep →
      LG c.pos s.tris → Nice c.pos s.tris eq ep → Vtx s.tris ep → (N → NMC c.pos s.tris eq ep) → FM F c.pos s.tris eq ep → (K → Clr c.pos s.tris eq ep L) → L.Restart c.pos s.tris e.qId e.pId eq ep t →
      Spec (edgeProcess g c fuel s ep eq e (some t) eq lq) (KErr K) fun r => L.Post N F c.pos s.tris r.1.tris e.qId e.pId eq ep) ∧
    (∀ {s : St} {ep eq t p1 p2 : Nat} {lq : List Nat} {L : Lv}, EPost c True s (s, lq) → ep < c.points.length → eq < c.points.length →
      LG c.pos s.tris → Nice c.pos s.tris eq ep → Vtx s.tris ep → (N → NMC c.pos s.tris eq ep) → FM F c.pos s.tris eq ep → (K → Clr c.pos s.tris eq ep L) → HasTri s.tris t eq p1 p2 → 0 < det2 (c.pos eq) (c.pos p1) (c.pos p2) → InWedge (c.pos eq) (c.pos p1) (c.pos p2) (c.pos ep) →
      L.Pre c.pos s.tris e.qId e.pId eq ep p1 p2 →
      Spec (flipEdge g c fuel s ep eq e t eq lq) (KErr K) fun r => L.Post N F c.pos s.tris r.1.tris e.qId e.pId eq ep) ∧
    (∀ {s : St} {ep eq flipT t p p1 p2 x y : Nat} {lq : List Nat} {L : Lv}, EPost c True s (s, lq) → ep < c.points.length → eq < c.points.length →
      LG c.pos s.tris → Nice c.pos s.tris eq ep → (N → NMC c.pos s.tris eq ep) → FM F c.pos s.tris eq ep → (K → Clr c.pos s.tris eq ep L) → Chain c.pos s.tris eq ep p1 p2 flipT t p x y → p ≠ eq → L.Pre c.pos s.tris e.qId e.pId eq ep p1 p2 →
      Spec (flipScan g c fuel s ep eq e flipT t p lq) (KErr K) fun r => Step N F c.pos s.tris r.1.tris ∧ Frame c.pos s.tris r.1.tris eq ep ∧
        L.Alive r.1.tris ep ∧ ∃ z, Two r.1.tris flipT p1 p2 eq z ∧ InWedge (c.pos eq) (c.pos p1) (c.pos p2) (c.pos z) ∧ (L = .top ∨ z ≠ ep))
  | 0 => by
    refine ⟨?_, ?_, ?_⟩
    · intros; unfold edgeProcess; exact Spec.error .fuel
    · intros; unfold flipEdge; exact Spec.error .fuel
    · intros; unfold flipScan; exact Spec.error .fuel
  | fuel + 1 => by
    obtain ⟨ihP, ihF, ihS⟩ := flip_main (N := N) (F := F) gd ex hg e fuel
    refine ⟨?_, ?_, ?_⟩
    · intro s ep eq t lq L h hep heq hne lg nc hv nm fm cl hr
      have pl := h.inv.pl gd lg
      have hm := h.inv.mesh
      obtain ⟨q1, q2, ⟨n, a0, sl⟩, r1, rc, r2, r3, r4, r5, r6, r7⟩ := hr.spec pl nc hv hne
      obtain ⟨T, hT⟩ : ∃ T, s.tris[t]? = some T := ⟨_, List.getElem?_eq_getElem sl.lt⟩
      unfold edgeProcess
      simp only [unwrap_some, ok_bind]
      rcases tryMarkEdge_spec hm sl.lt ep eq with k | ⟨ts', k, -, -, -⟩
      · simp only [k, ok_bind]
        rw [if_neg (by simp)]
        obtain ⟨k1, k2, -⟩ := sl.pts hm hT
        obtain ⟨n1, e1, n2, e2, k3, k4, k5, k6⟩ := sl.nbrs hm hT
        have w := hm.wo sl
        simp only [getU_ok.2 hT, ok_bind, k1, k2, Ctx.pt_ok hep, Ctx.pt_ok heq, Ctx.pt_ok w.1.2.1, Ctx.pt_ok w.1.2.2, k3, k5]
        obtain ⟨-, nf, -⟩ := tryMarkEdge_one hm k
        obtain ⟨-, nf1, nf2⟩ := nf rfl
        have d3 := pl.ne sl
        have x1 : q1 ≠ ep := by
          rintro rfl
          obtain ⟨n3, e3, j3⟩ := sl.rot2
          exact nf2 _ _ _ j3
        have x2 : q2 ≠ ep := by
          rintro rfl
          obtain ⟨n3, e3, j3⟩ := sl.rot
          exact nf1 _ _ _ j3
        obtain ⟨c1, c2⟩ := rc x1 x2
        rw [if_neg (by rw [orient_collinear]; exact c1), if_neg (by rw [orient_collinear]; exact c2)]
        rcases lt_or_gt_of_ne c1 with d1 | d1 <;> rcases lt_or_gt_of_ne c2 with d2 | d2
        · rw [orient_cw.2 d1, orient_cw.2 d2, if_pos rfl, if_pos rfl]
          simp only [ok_bind]
          cases n2 with
          | none => exact edgeProcess_none fun x => not_lt.2 ((cl x _ _ _ ⟨_, _, k6⟩).2 (r7 d1 d2 _ k6) (.inl rfl)) d1
          | some t' => exact ihP h hep heq hne lg nc hv nm fm cl (r4 d1 d2 t' e2 k6 (hm.sym k6))
        · exact (r5 ⟨d1, d2⟩).elim
        · rw [orient_ccw.2 d1, orient_cw.2 d2, if_neg (by simp)]
          have iw : InWedge (c.pos eq) (c.pos q1) (c.pos q2) (c.pos ep) := ⟨d1, by rw [det2_swap']; linarith⟩
          exact ihF h hep heq lg nc hv nm fm cl ⟨_, _, sl⟩ (r2 iw).2 iw (r2 iw).1
        · rw [orient_ccw.2 d1, orient_ccw.2 d2, if_pos rfl, if_neg (by simp)]
          simp only [ok_bind]
          cases n1 with
          | none =>
            refine edgeProcess_none fun x => not_lt.2 ((cl x _ _ _ ⟨_, _, k4⟩).2 (r6 d1 d2 _ k4) (.inr rfl)) ?_
            rw [det2_swap]; linarith
          | some t' => exact ihP h hep heq hne lg nc hv nm fm cl (r3 d1 d2 t' e1 k4 (hm.sym k4))
      · simp only [k, ok_bind, if_true]
        obtain ⟨m1, -, m2⟩ := tryMarkEdge_one hm k
        cases L with
        | top =>
          obtain ⟨_, _, -, -, rfl, rfl, -⟩ := hr
          exact Spec.ok ⟨fun _ => ⟨m1.con, m1.keep⟩, fun u v _ => m1.keep u v, fun u v k => (m1.con u v k).imp id .inr⟩
        | sub f a b =>
          obtain ⟨x1, x2⟩ := r1.resolve_left (by simp)
          obtain ⟨w, n', e', k | k⟩ := m2 rfl
          · rcases pl.tri_cases sl k with ⟨-, k1, k2⟩ | ⟨-, k1, k2⟩ | ⟨-, k1, k2⟩
            · exact (x1 k1.symm).elim
            · exact (x2 k1.symm).elim
            · exact (hne k1.symm).elim
          · rcases pl.tri_cases sl k with ⟨-, k1, k2⟩ | ⟨-, k1, k2⟩ | ⟨-, k1, k2⟩
            · exact (x2 k2.symm).elim
            · exact (hne k2.symm).elim
            · exact (x1 k2.symm).elim
    · intro s ep eq t p1 p2 lq L h hep heq lg nc hv nm fm cl ⟨n, e0, s0⟩ ps we hl
      have pl := h.inv.pl gd lg
      have hm := h.inv.mesh
      obtain ⟨T, hT⟩ : ∃ T, s.tris[t]? = some T := ⟨_, List.getElem?_eq_getElem s0.lt⟩
      unfold flipEdge
      obtain ⟨k1, k2, k3⟩ := s0.pts hm hT
      simp only [getU_ok.2 hT, ok_bind, k1, k2, k3]
      cases n with
      | none => exact Spec.error (.never (by simp [NotCol]) fun x => (cl x _ _ _ ⟨_, _, s0⟩).1 ((Chain.start pl ⟨s0, ps⟩ we hv).cross pl))
      | some ot =>
        obtain ⟨op, f0, o0⟩ := hm.sym s0
        obtain ⟨O, hO⟩ : ∃ O, s.tris[ot]? = some O := ⟨_, List.getElem?_eq_getElem o0.lt⟩
        have w1 := hm.wo s0
        have w2 := hm.wo o0
        have ch := Chain.start pl ⟨s0, ps⟩ we hv
        have pt : 0 < det2 (c.pos op) (c.pos p2) (c.pos p1) :=
          lt_of_le_of_ne (pl.nn o0) fun k => nc.nz o0 k.symm (ch.cross pl).swap
        have o1 : Sp c.pos s.tris ot op p2 p1 (some t) f0 := ⟨o0, pt⟩
        have hn := we.ne
        simp only [Store.getUO, getU_ok.2 hO, ok_bind, pure_ok, oppositePoint_sl hm s0 o0 hT hO, Ctx.pt_ok w1.1.1, Ctx.pt_ok w1.1.2.1,
          Ctx.pt_ok w1.1.2.2, Ctx.pt_ok w2.1.1, Ctx.pt_ok hep]
        split
        · rename_i hi
          have wo := (inScan_iff gd ex w1.1.1 w1.1.2.1 w1.1.2.2 w2.1.1).1 hi
          obtain ⟨ts, need, f', z1, z2, z3, z4, ⟨g1, z5⟩, ⟨g2, z6⟩, z7⟩ := scan_flip gd h.inv s0 o0 hi
          have unm : N → ¬ Mk s.tris p1 p2 := fun hN k => nm hN _ _ k (ch.cross pl)
          obtain ⟨st, fr0⟩ := scan_flip' h.inv s0 o0 z7 unm (fm.off (ch.cross pl)) ps pt pl z1
          have fr : Frame c.pos s.tris ts eq ep := by
            rintro y w u v ⟨n', e', k⟩ c1 c2 c3
            refine fr0 y w u v ⟨n', e', k⟩ ?_ ?_
            · rintro rfl
              rcases pl.tri_cases s0 k with ⟨rfl, rfl, rfl⟩ | ⟨rfl, rfl, rfl⟩ | ⟨rfl, rfl, rfl⟩
              · exact c2 (ch.cross pl)
              · exact c1 (ch.cross pl)
              · exact c3 (ch.cross pl)
            · rintro rfl
              rcases pl.tri_cases o0 k with ⟨rfl, rfl, rfl⟩ | ⟨rfl, rfl, rfl⟩ | ⟨rfl, rfl, rfl⟩
              · exact c2 (ch.cross pl).swap
              · exact c1 (ch.cross pl).swap
              · exact c3 (ch.cross pl).swap
          simp only [z1, ok_bind]
          rw [z2]
          simp only [ok_bind]
          have q0 : EPost c True s ({ s with tris := ts, front := f' }, lq ++ [t, ot]) := by
            refine ⟨z3.mono ?_ (fun _ => id), ?_, z4⟩
            · rintro y (hy | rfl | rfl)
              · simp [hy]
              · simp
              · simp
            · intro y hy
              simp only [List.mem_append, List.mem_cons, List.not_mem_nil, or_false] at hy
              rcases hy with hy | rfl | rfl
              · show y < ts.length
                rw [z4.len]; exact h.lt y hy
              · exact z5.lt
              · exact z6.lt
          by_cases hend : op = ep
          · subst hend
            rw [if_pos ⟨trivial, rfl⟩]
            cases L with
            | top =>
              obtain ⟨rfl, rfl, -⟩ := hl
              rw [if_pos ⟨rfl, rfl⟩]
              obtain ⟨T1, O1, y1, y2, -⟩ := setConFor_pair q0.inv.mesh z5 z6 (p := e.pId) (q := e.qId) (.inr ⟨rfl, rfl⟩)
              have mo := setConFor_one q0.inv.mesh z5 z6 (p := e.pId) (q := e.qId) (.inr ⟨rfl, rfl⟩) y1 y2
              simp only at y1 y2
              simp only [getU_ok.2 y1, ok_bind, getU_ok.2 y2]
              refine Spec.ok ⟨fun hN => ⟨?_, fun u v k => mo.keep u v ((st.con hN u v).2 k)⟩, fun u v f k => mo.keep u v (st.keep u v f k), fun u v k => (mo.con u v k).elim (fun k => (st.mark u v k).elim .inl fun k => .inr (.inl k)) fun k => .inr (.inr k)⟩
              intro u v k
              rcases mo.con u v k with k | k
              · exact .inl ((st.con hN u v).1 k)
              · exact .inr k
            | sub f a b =>
              rw [if_neg (hl.2.not_whole hn.1)]
              refine Spec.ok ⟨st, fr, ?_⟩
              obtain ⟨n1, e1, sf⟩ := hl.1.tri
              obtain ⟨rfl, rfl, rfl, -⟩ := pl.toward o1 ⟨sf, hl.1.pos⟩ (by rw [det2_rot]; exact we.2) (by rw [← det2_rot]; exact we.1) hl.1.w.1 hl.1.w.2
              exact ⟨_, _, _, _, .inr rfl, z5, z6⟩
          · rw [if_neg (fun k => hend k.2)]
            have al : L.Alive ts ep := by
              cases L with
              | top => trivial
              | sub f a b =>
                obtain ⟨n1, e1, sf⟩ := hl.1.tri
                refine fr0 _ _ _ _ ⟨_, _, sf⟩ ?_ ?_
                · rintro rfl
                  rcases pl.tri_cases s0 sf with ⟨k, -⟩ | ⟨k, -⟩ | ⟨k, -⟩
                  · exact hn.1 k.symm
                  · exact hn.2.1 k.symm
                  · exact hn.2.2 k.symm
                · rintro rfl
                  rcases pl.tri_cases o0 sf with ⟨k, -⟩ | ⟨k, -⟩ | ⟨k, -⟩
                  · exact hend k.symm
                  · exact hn.2.2 k.symm
                  · exact hn.2.1 k.symm
            have nz := ch.op_line pl o1 wo nc hend
            have hl' := hl.step st fr al
            have vo : Vtx ts op := (st.vtx op).2 o0.vtx.1
            have push : ∀ q, q = t ∨ q = ot → EPost c True { s with tris := ts, front := f' } ({ s with tris := ts, front := f' }, lq ++ [t, ot] ++ [q]) := by
              intro q hq
              refine ⟨q0.inv.mono ?_ (fun _ => id), ?_, .refl _⟩
              · intro y hy; simp only at hy ⊢; rw [List.mem_append]; exact .inl hy
              · intro y hy
                simp only at hy ⊢
                rw [List.mem_append, List.mem_singleton] at hy
                rcases hy with hy | rfl
                · exact q0.lt y hy
                · rcases hq with rfl | rfl
                  · exact z5.lt
                  · exact z6.lt
            rcases lt_or_gt_of_ne nz with d | d
            · simp only [nextFlipTriangle, orient_cw.2 d]
              rw [if_neg (by simp)]
              obtain ⟨n1, e1, y⟩ := z6.rot2
              have d' : 0 < det2 (c.pos eq) (c.pos ep) (c.pos op) := by rw [det2_swap']; linarith
              refine (ihF (push t (.inl rfl)) hep heq (st.lg lg) (nc.step st) ((st.vtx ep).2 hv) (NMC.step nm st) (fm.step st) (fun x => (cl x).step st) ⟨_, _, y⟩ wo.1 ⟨we.1, d'⟩
                (hl'.right ps vo wo d')).mono ?_
              rintro r k
              exact .trans st fr k
            · simp only [nextFlipTriangle, orient_ccw.2 d]
              rw [if_pos trivial]
              obtain ⟨n1, e1, y⟩ := z5.rot
              refine (ihF (push ot (.inr rfl)) hep heq (st.lg lg) (nc.step st) ((st.vtx ep).2 hv) (NMC.step nm st) (fm.step st) (fun x => (cl x).step st) ⟨_, _, y⟩ wo.2 ⟨d, we.2⟩
                (hl'.left ps vo wo (by rw [det2_swap']; linarith))).mono ?_
              rintro r k
              exact .trans st fr k
        · rename_i hi
          have hw : ¬ InWedge (c.pos eq) (c.pos p1) (c.pos p2) (c.pos op) := fun k => hi ((inScan_iff gd ex w1.1.1 w1.1.2.1 w1.1.2.2 w2.1.1).2 k)
          refine Spec.bind (nextFlip_spec hm hep heq o0 fun _ => ch.op_ne pl o1 hw) ?_
          intro q hq
          have : ∃ x y, Chain c.pos s.tris eq ep p1 p2 t ot q x y ∧ q ≠ eq := by
            rcases hq with ⟨d, rfl⟩ | ⟨d, rfl⟩
            · exact ⟨_, _, ch.right pl o1 hw d, (ch.x_ne pl).2⟩
            · exact ⟨_, _, ch.left pl o1 hw d, (ch.y_ne pl).2⟩
          obtain ⟨x, y, ch', qne⟩ := this
          refine Spec.bind ((ihS h hep heq lg nc nm fm cl ch' qne hl).andL ((edge_specs gd (fun _ => hg) fuel).2.2 h hep heq o0.lt s0.lt)) ?_
          rintro ⟨s1, lq1⟩ ⟨⟨st, fr, al, z, tw, wz, zne⟩, q1⟩
          refine (ihP (s := s1) (L := L) ⟨q1.inv, q1.lt, .refl _⟩ hep heq hn.1 (st.lg lg) (nc.step st) ((st.vtx ep).2 hv) (NMC.step nm st) (fm.step st) (fun x => (cl x).step st) ?_).mono fun r k => .trans st fr k
          have hl' := hl.step st fr al
          cases L with
          | top =>
            obtain ⟨i, j, e1, e2, hij, si, sj⟩ := tw
            rcases hij with rfl | rfl
            · obtain ⟨n3, e3, si1⟩ := si.rot2
              exact ⟨_, _, ⟨_, _, si1⟩, fun j => (wz.1.ne' j).elim, hl'⟩
            · obtain ⟨n4, e4, sj1⟩ := sj.rot
              exact ⟨_, _, ⟨_, _, sj1⟩, fun j => (wz.2.ne' j).elim, hl'⟩
          | sub f a b => exact ⟨p1, p2, z, tw, ps, we, wz, zne.resolve_left (by simp), hl'⟩
    · intro s ep eq flipT t p p1 p2 x y lq L h hep heq lg nc nm fm cl ch pne hl
      have pl := h.inv.pl gd lg
      have hm := h.inv.mesh
      obtain ⟨n, e0, s0, ps⟩ := ch.wx
      obtain ⟨nf, ef, sf, pf⟩ := ch.tri
      obtain ⟨T, hT⟩ : ∃ T, s.tris[t]? = some T := ⟨_, List.getElem?_eq_getElem s0.lt⟩
      obtain ⟨F, hF⟩ : ∃ T, s.tris[flipT]? = some T := ⟨_, List.getElem?_eq_getElem sf.lt⟩
      unfold flipScan
      obtain ⟨k1, k2, k3⟩ := s0.pts hm hT
      simp only [getU_ok.2 hT, ok_bind, k3]
      cases n with
      | none => exact Spec.error (.never (by simp [NotCol]) fun x => (cl x _ _ _ ⟨_, _, s0⟩).1 (ch.cross pl))
      | some ot =>
        obtain ⟨op, f0, o0⟩ := hm.sym s0
        obtain ⟨O, hO⟩ : ∃ O, s.tris[ot]? = some O := ⟨_, List.getElem?_eq_getElem o0.lt⟩
        have pt : 0 < det2 (c.pos op) (c.pos y) (c.pos x) :=
          lt_of_le_of_ne (pl.nn o0) fun k => nc.nz o0 k.symm (ch.cross pl).swap
        have o1 : Sp c.pos s.tris ot op y x (some t) f0 := ⟨o0, pt⟩
        have w1 := hm.wo sf
        have w2 := hm.wo o0
        obtain ⟨j1, j2, -⟩ := sf.pts hm hF
        simp only [unwrap_some, getU_ok.2 hO, ok_bind, getU_ok.2 hF, oppositePoint_sl hm s0 o0 hT hO, j1, j2, Ctx.pt_ok heq,
          Ctx.pt_ok w1.1.2.1, Ctx.pt_ok w1.1.2.2, Ctx.pt_ok w2.1.1]
        split
        · rename_i hi
          have wo := (inScan_iff gd ex w1.1.1 w1.1.2.1 w1.1.2.2 w2.1.1).1 hi
          obtain ⟨l1, l2, l3⟩ := ch.nested pl o1 wo nc hl pne
          refine (ihF (ep := eq) (eq := op) h heq w2.1.1 lg (ch.found_nice pl o1 wo nc) sf.vtx.1 ?_ ?_ ?_ ⟨_, _, o0⟩ pt (ch.found_wedge pl o1 wo) l1).mono ?_
          · intro hN u v k q
            exact nm hN u v k (ch.found_cross' pl o1 wo nc k.edge q)
          · intro u v f
            have k := (fm u v f).1
            exact ⟨k, fun q => (fm u v f).2 (ch.found_cross' pl o1 wo nc k.edge q)⟩
          · intro x t' u v k
            refine ⟨fun q => (cl x t' u v k).1 (ch.found_cross' pl o1 wo nc ?_ q), fun q => by cases q⟩
            obtain ⟨w', e', k⟩ := k
            exact ⟨_, _, _, _, .inl k⟩
          · rintro r ⟨st, fr, tw⟩
            obtain ⟨f1, f2⟩ := l3 _ fr
            refine ⟨st, f1, f2, op, tw, wo, ?_⟩
            cases L with
            | top => exact .inl rfl
            | sub f a b => exact .inr (ch.found_ne pl o1 wo hl.1 pne)
        · rename_i hi
          have hw : ¬ InWedge (c.pos eq) (c.pos p1) (c.pos p2) (c.pos op) := fun k => hi ((inScan_iff gd ex w1.1.1 w1.1.2.1 w1.1.2.2 w2.1.1).2 k)
          refine Spec.bind (nextFlip_spec hm hep heq o0 fun _ => ch.op_ne pl o1 hw) ?_
          intro q hq
          have : ∃ x y, Chain c.pos s.tris eq ep p1 p2 flipT ot q x y ∧ q ≠ eq := by
            rcases hq with ⟨d, rfl⟩ | ⟨d, rfl⟩
            · exact ⟨_, _, ch.right pl o1 hw d, (ch.x_ne pl).2⟩
            · exact ⟨_, _, ch.left pl o1 hw d, (ch.y_ne pl).2⟩
          obtain ⟨x', y', ch', qne⟩ := this
          exact ihS h hep heq lg nc nm fm cl ch' qne hl

end P2T
