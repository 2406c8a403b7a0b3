import Verif.Proofs.Fill

/-!
# Basins and point events
-/

set_option linter.unusedSectionVars false

namespace P2T

variable {c : Ctx} {K : Prop}

theorem fillBasin_spec (g : Good c) {fuel : Nat} {s : St} {Q0 : Nat → Prop} (h : SInv c K Q0 NoP s)
    {L R : List Nat} {a : Nat} {id : NodeId} (hs : s.front.pids = L ++ a :: R) (hid : IdFor c id a)
    {a0 : Nat} (hi : Hi c a0 s) (hR : a0 ∉ R) :
    Spec (fillBasin c fuel s id) (· = .fuel) fun s' =>
      SInv c K Q0 NoP s' ∧ Ext c s s' ∧ ∃ R', s'.front.pids = L ++ a :: R' := by
  unfold fillBasin
  cases R with
  | nil =>
    rw [h.front.pLocNext_nil hs hid]
    exact Spec.ok ⟨h, .refl _, [], hs⟩
  | cons n R =>
    obtain ⟨r, k1, k2⟩ := h.front.pLocNext hs hid
    rw [k1]
    dsimp only
    cases R with
    | nil =>
      rw [h.front.pNext_nil k2]
      exact Spec.ok ⟨h, .refl _, _, hs⟩
    | cons x R =>
      obtain ⟨rx, k3, k4⟩ := h.front.pNext k2
      rw [k3]
      dsimp only
      have hl : ∃ A l B, RefFor c s.front (if orient2d id.pt r.pt rx.pt = .ccw then rx else r) (L ++ a :: A) l B := by
        split
        · exact ⟨[n], x, R, by simpa using k4⟩
        · exact ⟨[], n, x :: R, by simpa using k2⟩
      generalize (if orient2d id.pt r.pt rx.pt = .ccw then rx else r) = left at hl ⊢
      obtain ⟨A, l, B, hl⟩ := hl
      refine Spec.bind (findBottom_spec h.front fuel hl) ?_
      rintro bot ⟨D, b, R1, q1, q2, q3, q4, q5, q6⟩
      by_cases e1 : bot.pid = left.pid
      · rw [if_pos e1]; exact Spec.ok ⟨h, .refl _, _, hs⟩
      rw [if_neg e1]
      refine Spec.bind (findRight_spec h.front fuel q1) ?_
      rintro rt ⟨U, t, R2, z1, z2, z3, z4, z5⟩
      by_cases e2 : rt.pid = bot.pid
      · rw [if_pos e2]; exact Spec.ok ⟨h, .refl _, _, hs⟩
      rw [if_neg e2]
      cases D with
      | nil => exact (e1 (by rw [q1.pid, hl.pid, q5 rfl])).elim
      | cons d D =>
        obtain rfl := q6 d D rfl
        cases U with
        | nil => exact (e2 (by rw [q1.pid, z1.pid, z4 rfl])).elim
        | cons u U =>
          obtain rfl := z5 u U rfl
          have hs1 : s.front.pids = (L ++ a :: A) ++ d :: D ++ u :: U ++ t :: R2 := by
            rw [z1.split]; try simp
          obtain ⟨D', p, hD, -⟩ := snoc_last d D
          obtain ⟨y, U', hU⟩ : ∃ y U', U ++ [t] = y :: U' := by
            cases U with
            | nil => exact ⟨t, [], rfl⟩
            | cons y U => exact ⟨y, U ++ [t], rfl⟩
          have hs2 : s.front.pids = (L ++ a :: A ++ D') ++ p :: u :: y :: (U' ++ R2) := by
            have e1 : (L ++ a :: A) ++ d :: D ++ u :: U ++ t :: R2 = (L ++ a :: A) ++ (d :: D) ++ u :: ((U ++ [t]) ++ R2) := by simp
            rw [hs1, e1, hD, hU]; simp
          have kas := h.front.asc3 hs2
          have hiD : a0 ∉ d :: D := by
            intro k
            apply hR
            have := hs.symm.trans hs1
            simp only [List.append_assoc, List.cons_append] at this
            have := List.append_cancel_left this
            simp only [List.cons.injEq, true_and] at this
            rw [this]
            simp at k ⊢
            tauto
          rw [List.pairwise_append] at q3
          have z3' : (u :: (U ++ [t])).Pairwise (fun u v => (c.pos u).y < (c.pos v).y) := z3
          rw [List.pairwise_cons] at z3'
          have hd := valley kas.1 kas.2 (q3.2.2 p (by rw [hD]; simp) u (by simp)) (z3'.1 y (by rw [hU]; simp))
          refine (fillBasinReq_spec g fuel h hs1 q1.id (p := p) (x := y) hl.pt z1.pt hD hU q3.1 z3'.2 hd hi hiD).mono ?_
          rintro s' ⟨j1, j2, M, j3⟩
          exact ⟨j1, j2, A ++ d :: M ++ t :: R2, by rw [j3]; simp⟩

theorem fillAdvancingFront_spec (g : Good c) {fuel : Nat} {s : St} {Q0 : Nat → Prop} (h : SInv c K Q0 NoP s)
    {L R : List Nat} {a : Nat} (hs : s.front.pids = L ++ a :: R) (hi : Hi c a s) (h0 : ∀ t, ¬ FlatAt c s.tris a t) :
    Spec (fillAdvancingFront c fuel s (c.pos a)) (· = .fuel) fun s' =>
      SInv c K Q0 NoP s' ∧ Ext c s s' ∧ ∃ L' R', s'.front.pids = L' ++ a :: R' := by
  unfold fillAdvancingFront
  obtain ⟨r, k1, k2⟩ := h.front.pGet hs
  simp only [k1, ok_bind, unwrap_some]
  have nR : ∀ {s : St} {L R}, FOk c s.front → s.front.pids = L ++ a :: R → a ∉ R ∧ a ∉ L := by
    intro s L R h hs
    have nd := h.nodupP
    rw [hs, List.nodup_append] at nd
    exact ⟨(List.nodup_cons.1 nd.2.1).1, fun k => nd.2.2 a k a (by simp) rfl⟩
  refine Spec.bind (fillRight_spec g fuel h hs k2.id hi (nR h.front hs).1 fun _ => h0).withEq ?_
  rintro s1 ⟨⟨q1, q2, R', q3⟩, eq1⟩
  have hi1 : Hi c a s1 := hi.next q2 fun z hz => (fillRight_evolve eq1).pids hz
  refine Spec.bind (fillLeft_spec g fuel q1 q3 (by simp) k2.id (.inl ⟨R', rfl⟩) hi1 (nR q1.front q3).2).withEq ?_
  rintro s2 ⟨⟨z1, z2, L', z3⟩, eq2⟩
  have hi2 : Hi c a s2 := hi1.next z2 fun z hz => (fillLeft_evolve eq2).pids hz
  split
  · refine (fillBasin_spec g z1 z3 k2.id hi2 (nR z1.front z3).1).mono ?_
    rintro s3 ⟨j1, j2, R'', j3⟩
    exact ⟨j1, q2.trans (z2.trans j2), L', R'', j3⟩
  · exact Spec.ok ⟨z1, q2.trans z2, L', R', z3⟩

/-- Where a key belongs in an ascending list. -/
theorem key_split {k : Point} : ∀ (l : List Nat) (e t : Nat), keyLt (c.pos e) k → keyLt k (c.pos t) →
    (∀ a ∈ l, keyLt (c.pos a) k ∨ keyLt k (c.pos a)) →
    ∃ L e' x R, e :: (l ++ [t]) = L ++ e' :: x :: R ∧ keyLt (c.pos e') k ∧ keyLt k (c.pos x)
  | [], e, t, h1, h2, _ => ⟨[], e, t, [], rfl, h1, h2⟩
  | a :: l, e, t, h1, h2, h3 => by
    rcases h3 a (by simp) with h | h
    · obtain ⟨L, e', x, R, q1, q2, q3⟩ := key_split l a t h h2 (fun b hb => h3 b (by simp [hb]))
      exact ⟨e :: L, e', x, R, by rw [List.cons_append, List.cons_append, q1], q2, q3⟩
    · exact ⟨[], e, a, l ++ [t], rfl, h1, h⟩

/-- The new triangle over a front edge is strictly counter-clockwise. -/
theorem above_det {p e x : Point} (h1 : keyLt e p) (h2 : keyLt p x) (b1 : Below e p) (b2 : Below x p) : 0 < det2 p e x := by
  have hx : p.x < x.x := by
    rcases h2 with h | ⟨h, h'⟩
    · exact h
    · rcases b2 with b | ⟨b, b'⟩ <;> linarith
  have hy : x.y < p.y := by
    rcases b2 with b | ⟨b, b'⟩
    · exact b
    · linarith
  have e0 : det2 p e x = (p.x - e.x) * (p.y - x.y) + (p.y - e.y) * (x.x - p.x) := by unfold det2; ring
  rw [e0]
  rcases h1 with h | ⟨h, h'⟩
  · have : e.y ≤ p.y := by rcases b1 with b | ⟨b, b'⟩ <;> linarith
    exact add_pos_of_pos_of_nonneg (mul_pos (by linarith) (by linarith)) (mul_nonneg (by linarith) (by linarith))
  · exact add_pos_of_nonneg_of_pos (mul_nonneg (by linarith) (by linarith)) (mul_pos (by linarith) (by linarith))

theorem key_cases {p q : Point} (h : p ≠ q) : keyLt p q ∨ keyLt q p := by
  obtain ⟨x, y⟩ := p
  obtain ⟨x', y'⟩ := q
  unfold keyLt
  rcases lt_trichotomy x x' with k | k | k
  · exact .inl (.inl k)
  · rcases lt_trichotomy y y' with j | j | j
    · exact .inl (.inr ⟨k, j⟩)
    · subst k j; exact (h rfl).elim
    · exact .inr (.inr ⟨k.symm, j⟩)
  · exact .inr (.inl k)

/-- Where the point `i` got into the front, and what became of the node `e` to its left. -/
def Entered (c : Ctx) (l : List Nat) (i : Nat) (l' : List Nat) : Prop :=
  ∃ L e x R, l = L ++ e :: x :: R ∧ keyLt (c.pos e) (c.pos i) ∧ (c.pos i).x < (c.pos x).x ∧
    ((l' = L ++ e :: i :: x :: R ∧ ((c.pos e).x < (c.pos i).x ∨ c.num.rnd ((c.pos e).x + c.num.eps) < (c.pos i).x)) ∨ l' = L ++ i :: x :: R ∧ (c.pos i).x = (c.pos e).x)

/-- A point event legalizes a mesh that already has the new triangle, then fills. -/
theorem pointEvent_pre (g : Good c) {s : St} (h : SInv c K (fun _ => False) NoP s) {i : Nat}
    (hi : i < c.points.length) (hh : i ≠ c.head) (ht : i ≠ c.tail) (hb : ∀ a ∈ s.front.pids, Below (c.pos a) (c.pos i)) :
    ∃ s1 r L e x R, (∀ fuel, pointEvent c fuel s i (c.pos i) = (do
        let s ← legalize c fuel s1 s.tris.length
        let s ← (if (c.pos i).x ≤ c.num.rnd ((c.pos e).x + c.num.eps) then do
            let (s, _) ← fillOne c fuel s r
            pure s
          else pure s)
        fillAdvancingFront c fuel s (c.pos i))) ∧
      SInv c K (fun y => False ∨ y = s.tris.length) (fun y v => NoP y v ∨ y = s.tris.length) s1 ∧ s.tris.length < s1.tris.length ∧
      Ext0 c s s1 ∧ HasV s1.tris i ∧ s.front.pids = L ++ e :: x :: R ∧ s1.front.pids = L ++ e :: i :: x :: R ∧ IdFor c r e ∧
      keyLt (c.pos e) (c.pos i) ∧ keyLt (c.pos i) (c.pos x) ∧ FlatLe c s.tris s1.tris := by
  have hnot : i ∉ s.front.pids := fun k => Below.irrefl _ (hb i k)
  obtain ⟨en1, en2, en3⟩ := g.enclosed i hi hh ht
  -- where it goes
  obtain ⟨L, e, x, R, hs, k1, k2⟩ : ∃ L e x R, s.front.pids = L ++ e :: x :: R ∧ keyLt (c.pos e) (c.pos i) ∧ keyLt (c.pos i) (c.pos x) := by
    obtain ⟨l, hl⟩ := h.front.headP
    obtain ⟨l', hl'⟩ := h.front.tailP
    cases l' with
    | nil =>
      rw [hl] at hl'
      simp only [List.nil_append, List.cons.injEq] at hl'
      have := g.wide
      rw [hl'.1] at this
      exact (lt_irrefl _ this).elim
    | cons y l' =>
      have hy : y = c.head := by
        rw [hl] at hl'
        simp only [List.cons_append, List.cons.injEq] at hl'
        exact hl'.1.symm
      subst hy
      obtain ⟨L, e, x, R, q1, q2, q3⟩ := key_split (c := c) (k := c.pos i) l' c.head c.tail (.inl en1) (.inl en2) (by
        intro a ha
        apply key_cases
        intro e
        exact hnot (by rw [← g.inj a i (h.front.pids_lt (by rw [hl']; simp [ha])) hi e]; rw [hl']; simp [ha]))
      exact ⟨L, e, x, R, by rw [hl', ← q1]; rfl, q2, q3⟩
  have as := h.front.ascP
  rw [hs] at as
  have hse : s.front.pids = (L ++ [e]) ++ x :: R := by rw [hs]; simp
  have hsrch : s.front.searchByKey (c.pos i) = .error (L ++ [e]).length := by
    refine h.front.pSearch_miss hse ?_ ?_
    · intro a ha
      simp only [List.mem_append, List.mem_singleton] at ha
      rcases ha with ha | rfl
      · exact keyLt_trans ((List.pairwise_append.1 as).2.2 a ha e (by simp)) k1
      · exact k1
    · intro a ha
      simp only [List.mem_cons] at ha
      rcases ha with rfl | ha
      · exact k2
      · exact keyLt_trans k2 ((List.pairwise_cons.1 (List.pairwise_cons.1 (List.pairwise_append.1 as).2.1).2).1 a ha)
  obtain ⟨r, r1, r2⟩ := h.front.ref hs
  have hloc : s.front.locateNode (c.pos i) = .ok r := by
    unfold Front.locateNode
    rw [hsrch]
    simp [r2]
  obtain ⟨rx, r3, r4⟩ := h.front.pNext r1
  obtain ⟨t1, r5, r6⟩ := r1.tri h.bd
  have be : Below (c.pos e) (c.pos i) := hb e (by simp [hs])
  have bx : Below (c.pos x) (c.pos i) := hb x (by simp [hs])
  have hW : c.W i e x := ⟨⟨hi, h.front.pids_lt (by simp [hs]), h.front.pids_lt (by simp [hs])⟩, .inl (above_det k1 k2 be bx)⟩
  unfold pointEvent
  simp only [hloc, ok_bind, r3, unwrap_some, r5, r1.pid, r4.pid]
  obtain ⟨m1, c1, g1, b1, v1, -, -, s1, s2, s3⟩ := h.mesh.append hW
  obtain ⟨d1, d2, d3⟩ := (oriW c).d3 hW
  obtain ⟨w1, f1, l1⟩ : Bd (s.tris ++ [Tri.new i e x]) t1 x e := (b1 ..).2 (.inl r6)
  obtain ⟨ts2, q1, m2, c2, g2, len2, b2, keep2⟩ := m1.link (Q' := fun y => False ∨ y = s.tris.length) l1 s1 (fun _ => .inl) (.inr (.inr rfl))
  simp only [q1, ok_bind]
  obtain ⟨L', ne, R', a1, a2, a3, a4, a5⟩ := r1.node
  rw [List.map_eq_cons_iff] at a4
  obtain ⟨nx, R1, rfl, a6, a7⟩ := a4
  have ke : ne.key = c.pos e := by rw [h.front.key a1, a3]
  have kx : nx.key = c.pos x := by
    have := h.front.key (L := L' ++ [ne]) (e := nx) (R := R1) (by rw [a1]; simp)
    rw [this, a6]
  obtain ⟨z1, z2⟩ := h.front.insert a1 (t := s.tris.length) hi (by rw [ke]; exact k1) (by rw [kx]; exact k2)
  have t1n : t1 ≠ s.tris.length := by
    rintro rfl
    obtain ⟨_, _, q⟩ := r6
    exact Nat.lt_irrefl _ q.lt
  have hbd : BInv c (fun y _ => y = s.tris.length) ts2 (L' ++ ne :: ⟨c.pos i, i, some s.tris.length⟩ :: nx :: R1) := by
    refine BInv.insert h.front a1 h.bd (t1 := t1) hnot (by rw [a6, a3]; exact r6) ?_
    intro y u v
    rw [b2, b1, a3, a6]
    clear b1 b2
    have old : Bd s.tris y u v → y ≠ s.tris.length := by
      rintro ⟨_, _, q⟩ rfl
      exact Nat.lt_irrefl _ q.lt
    constructor
    · rintro ⟨k | ⟨rfl, k⟩, q1, q2⟩
      · exact .inl ⟨k, q1⟩
      · right; grind
    · rintro (⟨k, q1⟩ | ⟨rfl, k⟩)
      · exact ⟨.inl k, q1, fun q => old k q.1⟩
      · grind
  have fl : FlatLe c s.tris ts2 := by
    intro q t k
    rcases append_flat ((oriW c).d3 hW) (link_flat m1 l1 s1 q1 _ _ k) with k | ⟨-, k, -⟩
    · exact k
    · exact ((above_det k1 k2 be bx).ne' k).elim
  have inv : SInv c K (fun y => False ∨ y = s.tris.length) (fun y v => NoP y v ∨ y = s.tris.length)
      { s with tris := ts2, front := s.front.insert i (c.pos i) s.tris.length } :=
    ⟨m2, by
      show BInv c _ ts2 (s.front.insert i (c.pos i) s.tris.length).nodes
      rw [z1]; exact hbd.mono (by simp), z2, h.trace, h.one.mono (g1.trans g2) fl⟩
  refine ⟨_, r.id, L, e, x, R, fun fuel => by rw [r1.pt], inv, by show s.tris.length < ts2.length; rw [len2]; simp, ?_, g2 _ v1, hs, ?_, r1.id, k1, k2, fl⟩
  · exact .silent (by show s.tris.length ≤ ts2.length; rw [len2]; simp) (c1.trans c2) ((noRise_append _).trans (noRise_link q1)) (g1.trans g2)
      ((append_nn ((oriW c).d3 hW)).trans (link_nn m1 l1 s1 q1)) rfl
  · show (s.front.insert i (c.pos i) s.tris.length).nodes.map (·.pid) = _
    rw [z1]
    simp [a2, a3, a6, a7]

theorem pointEvent_specE (g : Good c) {fuel : Nat} {s : St} (h : SInv c K (fun _ => False) NoP s) {i : Nat}
    (hi : i < c.points.length) (hh : i ≠ c.head) (ht : i ≠ c.tail) (hb : ∀ a ∈ s.front.pids, Below (c.pos a) (c.pos i))
    (nv : ¬ HasV s.tris i) :
    Spec (pointEvent c fuel s i (c.pos i)) (· = .fuel) fun s' =>
      (SInv c K (fun _ => False) NoP s' ∧ Ext c s s' ∧ i ∈ s'.front.pids ∧ HasV s'.tris i) ∧
      ∃ s1, (Entered c s.front.pids i s1.front.pids ∧ fillAdvancingFront c fuel s1 (c.pos i) = .ok s') ∧
        SInv c K (fun _ => False) NoP s1 ∧ Hi c i s1 ∧ (∀ t, ¬ FlatAt c s1.tris i t) ∧ i ∈ s1.front.pids := by
  obtain ⟨en1, en2, en3⟩ := g.enclosed i hi hh ht
  obtain ⟨s1, r, L, e, x, R, e1, inv, lt, ex, hv1, hs, hs1, hid, k1, k2, fl⟩ := pointEvent_pre g h hi hh ht hb
  have be : Below (c.pos e) (c.pos i) := hb e (by simp [hs])
  have bx : Below (c.pos x) (c.pos i) := hb x (by simp [hs])
  rw [e1]
  refine Spec.bind (legalize_spec inv lt) ?_
  rintro sA ⟨j1, j2, j3, j4, j5, j6⟩
  have hsA : sA.front.pids = L ++ e :: i :: x :: R := by rw [Front.pids_shape j3]; exact hs1
  have extA : Ext c s sA := Ext0.fresh (ex.trans j2.toExt0) j5
  have hv : HasV sA.tris i := j2.grow _ hv1
  have hiA : Hi c i sA := ⟨hv, fun z hz => by
    rw [hsA] at hz
    by_cases e : z = i
    · exact .inl e
    · exact .inr (hb z (by rw [hs]; simp at hz ⊢; tauto))⟩
  have h0A : ∀ t, ¬ FlatAt c sA.tris i t := by
    intro t k
    obtain ⟨_, _, _, _, k, -⟩ := fl _ _ (j6 _ _ k)
    exact nv ⟨_, _, _, _, _, k⟩
  have fin : ∀ {s2 : St} {L2 R2}, SInv c K (fun _ => False) NoP s2 → Ext c sA s2 → Hi c i s2 → (∀ t, ¬ FlatAt c s2.tris i t) → s2.front.pids = L2 ++ i :: R2 →
      Entered c s.front.pids i s2.front.pids →
      Spec (fillAdvancingFront c fuel s2 (c.pos i)) (· = .fuel) fun s' =>
      (SInv c K (fun _ => False) NoP s' ∧ Ext c s s' ∧ i ∈ s'.front.pids ∧ HasV s'.tris i) ∧
      ∃ s1, (Entered c s.front.pids i s1.front.pids ∧ fillAdvancingFront c fuel s1 (c.pos i) = .ok s') ∧
        SInv c K (fun _ => False) NoP s1 ∧ Hi c i s1 ∧ (∀ t, ¬ FlatAt c s1.tris i t) ∧ i ∈ s1.front.pids := by
    intro s2 L2 R2 y1 y2 y5 y6 y3 y4
    refine (fillAdvancingFront_spec g y1 y3 y5 y6).withEq.mono ?_
    rintro s3 ⟨⟨x1, x2, L3, R3, x3⟩, x4⟩
    exact ⟨⟨x1, extA.trans (y2.trans x2), by rw [x3]; simp, x2.grow _ (y2.grow _ hv)⟩, s2, ⟨y4, x4⟩, y1, y5, y6, by rw [y3]; simp⟩
  have kx' : (c.pos i).x < (c.pos x).x := by
    rcases k2 with k | ⟨k, k'⟩
    · exact k
    · rcases bx with b | ⟨b, b'⟩ <;> linarith
  split
  · rename_i hx
    rcases eq_nil_or_snoc L with rfl | ⟨L2, p, rfl⟩
    · rw [fillOne_first j1.front (R := i :: x :: R) (by rw [hsA]; simp) hid]
      simp only [ok_bind]
      have he : e = c.head := by
        obtain ⟨l, hl⟩ := h.front.headP
        rw [hs] at hl
        simp only [List.nil_append, List.cons.injEq] at hl
        exact hl.1
      refine fin (L2 := [e]) (R2 := x :: R) j1 (.refl _) hiA h0A (by rw [hsA]; simp) ⟨[], e, x, R, hs, k1, kx', .inl ⟨hsA, .inl ?_⟩⟩
      rw [he]; exact en1
    · have hsA' : sA.front.pids = L2 ++ p :: e :: i :: (x :: R) := by rw [hsA]; simp
      have kas := j1.front.asc3 hsA'
      have heh : e ≠ c.head := by
        rintro rfl
        obtain ⟨l, hl⟩ := h.front.headP
        have as' := h.front.ascP
        have hp : p ∈ s.front.pids := by simp [hs]
        rw [hl] at hp as'
        rcases List.mem_cons.1 hp with rfl | hp
        · exact keyLt_irrefl _ kas.1
        · exact keyLt_asymm kas.1 ((List.pairwise_cons.1 as').1 p hp)
      have het : e ≠ c.tail := by
        rintro rfl
        exact keyLt_asymm k1 (.inl en2)
      have same := g.same i e hi (h.front.pids_lt (by simp [hs])) hh ht heh het k1 hx
      have hdet : 0 ≤ det2 (c.pos p) (c.pos e) (c.pos i) := by
        have e0 : det2 (c.pos p) (c.pos e) (c.pos i) = ((c.pos e).x - (c.pos p).x) * ((c.pos i).y - (c.pos e).y) := by
          unfold det2; rw [same]; ring
        rw [e0]
        have : (c.pos e).y ≤ (c.pos i).y := by rcases be with b | ⟨b, b'⟩ <;> linarith
        have : (c.pos p).x ≤ (c.pos e).x := by rcases kas.1 with b | ⟨b, b'⟩ <;> linarith
        exact mul_nonneg (by linarith) (by linarith)
      refine Spec.bind (R := fun s2 : St => SInv c K (fun _ => False) NoP s2 ∧ Ext c sA s2 ∧ s2.front.pids = L2 ++ p :: i :: x :: R ∧ ∀ t, ¬ FlatAt c s2.tris i t) ?_ ?_
      · have hpi : p ≠ i := by rintro rfl; exact keyLt_irrefl _ (keyLt_trans kas.1 kas.2)
        have hz : det2 (c.pos p) (c.pos e) (c.pos i) = 0 → TopV c p sA.tris → ∀ t, ¬ FlatAt c sA.tris p t := fun _ ht =>
          (hiA.not (by rw [hsA']; simp) hpi ht).elim
        have hw := j1.front.mkW hsA' hdet
        refine Spec.bind ((fillOne_spec j1 hsA' hid hw hz).andL (fillOne_flat j1 hsA' hid hw hz)) ?_
        rintro ⟨s2, ro⟩ ⟨⟨y1, y2, y3, -⟩, y4⟩
        exact Spec.ok ⟨y1, y2, y3, fun t k => h0A t (y4 i t hpi.symm k)⟩
      · rintro s2 ⟨y1, y2, y3, y4⟩
        exact fin (L2 := L2 ++ [p]) (R2 := x :: R) y1 y2 (hiA.next y2 (by rw [y3, hsA']; simp; tauto)) y4 (by rw [y3]; simp) ⟨L2 ++ [p], e, x, R, hs, k1, kx', .inr ⟨by rw [y3]; simp, same⟩⟩
  · rename_i hx
    exact fin (L2 := L ++ [e]) (R2 := x :: R) j1 (.refl _) hiA h0A (by rw [hsA]; simp) ⟨L, e, x, R, hs, k1, kx', .inl ⟨hsA, .inr (not_le.1 hx)⟩⟩

theorem pointEvent_spec' (g : Good c) {fuel : Nat} {s : St} (h : SInv c K (fun _ => False) NoP s) {i : Nat}
    (hi : i < c.points.length) (hh : i ≠ c.head) (ht : i ≠ c.tail) (hb : ∀ a ∈ s.front.pids, Below (c.pos a) (c.pos i))
    (nv : ¬ HasV s.tris i) :
    Spec (pointEvent c fuel s i (c.pos i)) (· = .fuel) fun s' =>
      (SInv c K (fun _ => False) NoP s' ∧ Ext c s s' ∧ i ∈ s'.front.pids ∧ HasV s'.tris i) ∧
      ∃ s1, Entered c s.front.pids i s1.front.pids ∧ fillAdvancingFront c fuel s1 (c.pos i) = .ok s' :=
  (pointEvent_specE g h hi hh ht hb nv).mono fun _ k => ⟨k.1, by obtain ⟨s1, k2, -⟩ := k.2; exact ⟨s1, k2⟩⟩

theorem pointEvent_spec (g : Good c) {fuel : Nat} {s : St} (h : SInv c K (fun _ => False) NoP s) {i : Nat}
    (hi : i < c.points.length) (hh : i ≠ c.head) (ht : i ≠ c.tail) (hb : ∀ a ∈ s.front.pids, Below (c.pos a) (c.pos i))
    (nv : ¬ HasV s.tris i) :
    Spec (pointEvent c fuel s i (c.pos i)) (· = .fuel) fun s' =>
      SInv c K (fun _ => False) NoP s' ∧ Ext c s s' ∧ i ∈ s'.front.pids ∧ HasV s'.tris i :=
  (pointEvent_spec' g h hi hh ht hb nv).mono fun _ k => k.1

end P2T
