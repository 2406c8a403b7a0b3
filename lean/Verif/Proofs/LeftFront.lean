import Verif.Proofs.RunHalt

/-!
# The leftmost point stays in the front
-/

set_option linter.unusedSectionVars false

namespace P2T

variable {c : Ctx}

/-- A leftmost point of the input. -/
structure Lm (c : Ctx) (b : Nat) : Prop where
  inp : InSweep c b
  min : ∀ z, InSweep c z → (c.pos b).x ≤ (c.pos z).x

/-- Seen from a leftmost point, the angle from any other point to the left artificial point is negative or larger than 90 degrees. -/
def LeftC (c : Ctx) : Prop := ∀ o, Lm c o → ∀ a, a < c.points.length → a ≠ o → a ≠ c.head →
  (Angle.new c.num (c.pos o) (c.pos a) (c.pos c.head)).isNegative = true ∨ (Angle.new c.num (c.pos o) (c.pos a) (c.pos c.head)).exceeds90 = true

/-- The leftmost points of the front stay in the front. -/
def Stays (c : Ctx) (l l' : List Nat) : Prop := ∀ b ∈ l, Lm c b → b ∈ l'

theorem Stays.refl (l : List Nat) : Stays c l l := fun _ h _ => h
theorem Stays.trans {l l' l'' : List Nat} (h : Stays c l l') (h' : Stays c l' l'') : Stays c l l'' := fun b k1 k2 => h' b (h b k1 k2) k2

theorem Angle.not_between {a : Angle} (h : a.isNegative = true ∨ a.exceeds90 = true) : a.between0To90 = false := by
  unfold Angle.isNegative Angle.exceeds90 at h
  unfold Angle.between0To90
  split
  · rename_i k; rw [if_pos k] at h; simp at h; rcases h with h | h <;> simp [k] at h
  · split
    · rename_i k1 k2
      have : a.dx ≥ 0 := k2.le
      simp only [k1, if_false, this, if_true] at h
      simp at h
      simp; linarith
    · rfl

section
variable {f : Front} (h : FOk c f)
include h

/-- Left of a leftmost point there is only the head. -/
theorem Lm.first (gd : Good c) (hx : XAsc c f.pids) {L R : List Nat} {n : Nat} (hn : Lm c n) (hs : f.pids = L ++ n :: R) : L = [c.head] := by
  obtain ⟨l, hl⟩ := h.headP
  cases L with
  | nil =>
    rw [hs] at hl
    simp only [List.nil_append, List.cons.injEq] at hl
    exact (hn.inp.2.1 hl.1).elim
  | cons a L =>
    have e : a = c.head := by rw [hs] at hl; simp at hl; exact hl.1
    subst e
    rcases eq_nil_or_snoc L with rfl | ⟨L, p, rfl⟩
    · rfl
    · exfalso
      unfold XAsc at hx
      rw [hs, show c.head :: (L ++ [p]) ++ n :: R = c.head :: (L ++ p :: n :: R) by simp] at hx
      have h1 := (List.pairwise_cons.1 hx).1 p (by simp)
      have h2 := (List.pairwise_cons.1 (List.pairwise_append.1 (List.pairwise_cons.1 hx).2).2.1).1 n (by simp)
      have hp : p < c.points.length := h.pids_lt (by rw [hs]; simp)
      have e1 : p ≠ c.head := by rintro rfl; exact lt_irrefl _ h1
      have e2 : p ≠ c.tail := by
        rintro rfl
        have := (gd.enclosed n hn.inp.1 hn.inp.2.1 hn.inp.2.2).2.1
        linarith
      have := hn.min p ⟨hp, e1, e2⟩
      linarith

theorem shouldFill_left (lc : LeftC c) {r : NodeRef} {R : List Nat} {n x : Nat} (hn : Lm c n) (hr : RefFor c f r [c.head] n (x :: R)) :
    shouldFill c f r = .ok true := by
  obtain ⟨rn, k1, k2⟩ := h.pNext hr
  obtain ⟨rp, k3, k4⟩ := h.pPrev (L := []) (by simpa using hr)
  have nd := h.nodupP
  have hd : c.head ∉ n :: x :: R := by
    rw [hr.split] at nd
    exact (List.nodup_cons.1 nd).1
  have hnn : n ∉ x :: R := by
    rw [hr.split] at nd
    exact (List.nodup_cons.1 (List.nodup_cons.1 nd).2).1
  have key : ∀ a ∈ x :: R, (Angle.new c.num (c.pos n) (c.pos a) (c.pos c.head)).isNegative = true ∨ (Angle.new c.num (c.pos n) (c.pos a) (c.pos c.head)).exceeds90 = true := by
    intro a ha
    refine lc n hn a (h.pids_lt (by rw [hr.split]; simp at ha ⊢; tauto)) ?_ ?_
    · rintro rfl; exact hnn ha
    · rintro rfl; exact hd (List.mem_cons_of_mem _ ha)
  simp only [shouldFill, k1, k3, unwrap_some, ok_bind]
  rw [hr.pt, k2.pt, k4.pt]
  have k0 := key x (by simp)
  by_cases hneg : (Angle.new c.num (c.pos n) (c.pos x) (c.pos c.head)).isNegative = true
  · rw [if_pos hneg]; rfl
  · rw [if_neg hneg]
    have he := k0.resolve_left hneg
    rw [if_neg (by simp [he])]
    have e2 : f.prev rp = none := h.pPrev_nil k4
    cases R with
    | nil => rw [h.pNext_nil k2, e2]; rfl
    | cons y R =>
      obtain ⟨ry, j1, j2⟩ := h.pNext k2
      rw [j1, e2]
      dsimp only
      have e := Angle.not_between (key y (by simp))
      rw [if_neg (by rw [j2.pt, e]; simp)]
      rfl

end

theorem fillLeft_left {K : Prop} (g : Good c) (lc : LeftC c) {fuel0 : Nat} : ∀ (fuel : Nat) {s : St} {Q0 : Nat → Prop}, SInv c K Q0 NoP s →
    ∀ {L R : List Nat} {a : Nat} {id : NodeId}, s.front.pids = L ++ R → R ≠ [] → IdFor c id a →
    ((∃ R0, R = a :: R0) ∨ (a ∉ s.front.pids ∧ (∀ b ∈ L, keyLt (c.pos b) (c.pos a)) ∧ ∀ b ∈ R, keyLt (c.pos a) (c.pos b))) →
    ∀ {a0 : Nat}, Hi c a0 s → a0 ∉ L → XAsc c s.front.pids →
    Spec (fillLeft c fuel0 fuel s id) (· = .fuel) fun s' => Stays c s.front.pids s'.front.pids
  | 0, s, Q0, h, L, R, a, id, hs, hR, hid, hp, a0, hi, hL, hx => Spec.error rfl
  | fuel + 1, s, Q0, h, L, R, a, id, hs, hR, hid, hp, a0, hi, hL, hx => by
    unfold fillLeft
    rcases eq_nil_or_snoc L with rfl | ⟨L, n, rfl⟩
    · have : s.front.locatePrev id = none := by
        rcases hp with ⟨R0, rfl⟩ | ⟨h1, h2, h3⟩
        · exact h.front.pLocPrev_nil hs hid
        · exact h.front.pLocPrev_gone_nil hs hid h1 h3
      rw [this]
      exact Spec.ok (.refl _)
    · have : ∃ r, s.front.locatePrev id = some r ∧ RefFor c s.front r L n R := by
        rcases hp with ⟨R0, rfl⟩ | ⟨h1, h2, h3⟩
        · exact h.front.pLocPrev hs hid
        · exact h.front.pLocPrev_gone hs hid h1 h2 h3
      obtain ⟨r, k1, k2⟩ := this
      rw [k1]
      dsimp only
      rcases eq_nil_or_snoc L with rfl | ⟨L, p, rfl⟩
      · rw [h.front.pPrev_nil k2]
        exact Spec.ok (.refl _)
      · obtain ⟨rp, k3, k4⟩ := h.front.pPrev k2
        rw [k3]
        dsimp only
        obtain ⟨x, R, rfl⟩ := List.exists_cons_of_ne_nil hR
        by_cases hn : Lm c n
        · have hL0 := hn.first h.front g hx k2.split
          rw [hL0] at k2
          rw [shouldFill_left h.front lc hn k2]
          exact Spec.ok (.refl _)
        obtain ⟨b, k5, k6⟩ := shouldFill_spec h.front g k2
        simp only [k5, ok_bind]
        cases b with
        | true => exact Spec.ok (.refl _)
        | false =>
          have hs' : s.front.pids = L ++ p :: n :: x :: R := by rw [hs]; simp
          refine Spec.bind (fillOne_spec h hs' k2.id (h.front.mkW hs' (k6 rfl)) fun _ ht => (hi.not (by simp [hs']) (by rintro rfl; simp at hL) ht).elim) ?_
          rintro ⟨s1, ro⟩ ⟨q1, q2, q3, fo, rfl, q4, q5⟩
          have hi1 : Hi c a0 s1 := hi.next q2 (by rw [q3, hs']; simp; tauto)
          have hs1 : s1.front.pids = (L ++ [p]) ++ (x :: R) := by rw [q3]; simp
          have nd := h.front.nodupP
          have as := h.front.ascP
          rw [hs'] at nd as
          have st : Stays c s.front.pids s1.front.pids := by
            intro b hb hl
            rw [hs'] at hb
            rw [hs1]
            have : b ≠ n := by rintro rfl; exact hn hl
            simp at hb ⊢; tauto
          refine (fillLeft_left g lc fuel q1 hs1 (by simp) k2.id (.inr ⟨?_, ?_, ?_⟩) hi1 (by simp at hL ⊢; tauto) (hx.sub (by rw [q3, hs']; simp))).mono ?_
          · rw [hs1]
            have := (List.nodup_append.1 nd)
            intro hm
            have nd2 := this.2.1
            simp only [List.nodup_cons, List.mem_cons, not_or] at nd2
            simp only [List.mem_append, List.mem_cons, List.not_mem_nil, or_false] at hm
            rcases hm with (hm | hm) | hm | hm
            · exact this.2.2 n hm n (by simp) rfl
            · exact nd2.1.1 hm.symm
            · exact nd2.2.1.1 hm
            · exact nd2.2.1.2 hm
          · intro b hb
            rw [List.pairwise_append] at as
            simp only [List.mem_append, List.mem_singleton] at hb
            rcases hb with hb | rfl
            · exact as.2.2 b hb n (by simp)
            · exact (List.pairwise_cons.1 as.2.1).1 n (by simp)
          · intro b hb
            rw [List.pairwise_append] at as
            exact (List.pairwise_cons.1 (List.pairwise_cons.1 as.2.1).2).1 b hb
          · intro s2 j
            exact st.trans j

/-- Changes to the right of a point of the input do not affect the leftmost points. -/
theorem Stays.right {l l' : List Nat} (hx : XAsc c l) {L R R' : List Nat} {a : Nat} (hs : l = L ++ a :: R) (hs' : l' = L ++ a :: R') (ha : InSweep c a) : Stays c l l' := by
  intro b hb hl
  unfold XAsc at hx
  rw [hs] at hb hx
  rw [hs']
  simp only [List.mem_append, List.mem_cons] at hb ⊢
  rcases hb with hb | rfl | hb
  · exact .inl hb
  · exact .inr (.inl rfl)
  · have h1 := (List.pairwise_cons.1 (List.pairwise_append.1 hx).2.1).1 b hb
    have h2 := hl.min a ha
    linarith

theorem fillAdvancingFront_left {K : Prop} (g : Good c) (lc : LeftC c) {fuel : Nat} {s : St} {Q0 : Nat → Prop} (h : SInv c K Q0 NoP s)
    {L R : List Nat} {a : Nat} (hs : s.front.pids = L ++ a :: R) (hi : Hi c a s) (h0 : ∀ t, ¬ FlatAt c s.tris a t) (hx : XAsc c s.front.pids) (ha : InSweep c a) :
    Spec (fillAdvancingFront c fuel s (c.pos a)) (· = .fuel) fun s' => Stays c s.front.pids s'.front.pids := by
  unfold fillAdvancingFront
  obtain ⟨r, k1, k2⟩ := h.front.pGet hs
  simp only [k1, ok_bind, unwrap_some]
  have nR : ∀ {s : St} {L R}, FOk c s.front → s.front.pids = L ++ a :: R → a ∉ R ∧ a ∉ L := by
    intro s L R h hs
    have nd := h.nodupP
    rw [hs, List.nodup_append] at nd
    exact ⟨(List.nodup_cons.1 nd.2.1).1, fun k => nd.2.2 a k a (by simp) rfl⟩
  refine Spec.bind (fillRight_spec g fuel h hs k2.id hi (nR h.front hs).1 fun _ => h0).withEq ?_
  rintro s1 ⟨⟨q1, q2, R', q3⟩, eq1⟩
  have hi1 : Hi c a s1 := hi.next q2 fun z hz => (fillRight_evolve eq1).pids hz
  have hx1 : XAsc c s1.front.pids := (fillRight_evolve eq1).xasc hx
  have st1 : Stays c s.front.pids s1.front.pids := .right hx hs q3 ha
  refine Spec.bind ((fillLeft_spec g fuel q1 q3 (by simp) k2.id (.inl ⟨R', rfl⟩) hi1 (nR q1.front q3).2).andL
    (fillLeft_left g lc fuel q1 q3 (by simp) k2.id (.inl ⟨R', rfl⟩) hi1 (nR q1.front q3).2 hx1)).withEq ?_
  rintro s2 ⟨⟨⟨z1, z2, L', z3⟩, st2⟩, eq2⟩
  have hi2 : Hi c a s2 := hi1.next z2 fun z hz => (fillLeft_evolve eq2).pids hz
  have hx2 : XAsc c s2.front.pids := (fillLeft_evolve eq2).xasc hx1
  split
  · refine (fillBasin_spec g z1 z3 k2.id hi2 (nR z1.front z3).1).mono ?_
    rintro s3 ⟨j1, j2, R'', j3⟩
    exact st1.trans (st2.trans (.right hx2 z3 j3 ha))
  · exact Spec.ok (st1.trans st2)

/-- A leftmost point is in the front. -/
def HasL (c : Ctx) (l : List Nat) : Prop := ∃ b ∈ l, Lm c b

theorem Stays.has {l l' : List Nat} (h : Stays c l l') (k : HasL c l) : HasL c l' := by
  obtain ⟨b, k1, k2⟩ := k
  exact ⟨b, h b k1 k2, k2⟩

theorem Entered.left {l l' : List Nat} {i : Nat} (h : Entered c l i l') (hi : InSweep c i) (k : HasL c l ∨ Lm c i) : HasL c l' := by
  obtain ⟨L, e, x, R, rfl, k1, k2, k3⟩ := h
  have him : i ∈ l' := by rcases k3 with ⟨rfl, -⟩ | ⟨rfl, -⟩ <;> simp
  rcases k with ⟨b, hb, hl⟩ | k
  · rcases k3 with ⟨rfl, -⟩ | ⟨rfl, k3⟩
    · exact ⟨b, by simp at hb ⊢; tauto, hl⟩
    · by_cases hbe : b = e
      · exact ⟨i, him, hi, fun z hz => by rw [k3, ← hbe]; exact hl.min z hz⟩
      · exact ⟨b, by simp at hb ⊢; tauto, hl⟩
  · exact ⟨i, him, k⟩

theorem pointEvent_left {K : Prop} (g : Good c) (up : UpC c) (lc : LeftC c) {fuel : Nat} {s : St} (h : SInv c K (fun _ => False) NoP s) {i : Nat}
    (hi : InSweep c i) (hb : ∀ a ∈ s.front.pids, Below (c.pos a) (c.pos i)) (nv : ¬ HasV s.tris i) (hx : XAsc c s.front.pids) (k : HasL c s.front.pids ∨ Lm c i) :
    Spec (pointEvent c fuel s i (c.pos i)) (· = .fuel) fun s' => HasL c s'.front.pids := by
  refine (pointEvent_specE g h hi.1 hi.2.1 hi.2.2 hb nv).mono ?_
  rintro s' ⟨-, s1, ⟨k1, k2⟩, k3, k4, k5, k6⟩
  obtain ⟨L, R, hs⟩ := List.append_of_mem k6
  have hx1 := hx.enter g up hi.1 hi.2.1 hi.2.2 (fun a ha => h.front.pids_lt ha) k1
  have st := (fillAdvancingFront_left g lc (fuel := fuel) k3 hs k4 k5 hx1 hi).get k2
  exact st.has (k1.left hi k)

theorem Spec.any {α} {E : Err → Prop} {m : Except Err α} {Q : α → Prop} (h : Spec m E Q) : Spec m (fun _ => True) Q := h.monoE fun _ _ => trivial

theorem edgeEvent_left (gd : Good c) {g : Trap} (hg : g.Tame) (hK : g.col = true) {fuel : Nat} {s : St}
    (h : SInv c True (fun _ => False) NoP s) {p q : Nat} (hp : InSweep c p) (hq : q ∈ s.front.pids) (hqs : InSweep c q)
    (hv : Vtx s.tris p) {done : List Nat} (hb : Base c done s) (kx : XAsc c s.front.pids) (has : ∀ v ∈ done, Vtx s.tris v) :
    Spec (edgeEvent g c fuel s ⟨p, q⟩ (c.pos q)) (fun _ => True) fun s' => Stays c s.front.pids s'.front.pids := by
  have rd : ∀ {s : St}, SInv c True (fun _ => False) NoP s → q ∈ s.front.pids → ∃ f' r t, s.front.getNodeWithCache (c.pos q) = .ok (f', some r) ∧
      IdFor c r.id q ∧ r.tri = some t ∧ t < s.tris.length ∧ SInv c True (fun _ => False) NoP { s with front := f' } ∧ f'.nodes = s.front.nodes := by
    intro s h hq
    obtain ⟨L, R, hs⟩ := List.append_of_mem hq
    obtain ⟨f', r, k1, k2, k3, k4⟩ := h.front.pGetCache hs
    have hb : BInv c NoP s.tris f'.nodes := by rw [k2]; exact h.bd
    cases R with
    | nil =>
      obtain ⟨l, hl⟩ := h.front.tailP
      rw [hs] at hl
      have := List.append_inj' hl rfl
      simp only [List.cons.injEq, and_true] at this
      exact (hqs.2.2 this.2).elim
    | cons x R =>
      obtain ⟨t, k5, w, e, k6⟩ := k4.tri hb
      exact ⟨f', r, t, k1, k4.id, k5, k6.lt, ⟨h.mesh, hb, k3, h.trace, h.one⟩, k2⟩
  unfold edgeEvent
  simp only [Ctx.pt_ok hp.1, ok_bind]
  obtain ⟨f1, r1, t1, a1, a2, a3, a4, a5, a6⟩ := rd h hq
  simp only [a1, ok_bind, unwrap_some, a3]
  have fp : f1.pids = s.front.pids := by unfold Front.pids; rw [a6]
  rcases tryMarkEdge_spec a5.mesh a4 p q with k | ⟨ts', k, -, -, -⟩
  swap
  · simp only [k, ok_bind, if_true]
    refine Spec.ok ?_
    show Stays c _ f1.pids
    rw [fp]; exact .refl _
  · simp only [k, ok_bind]
    rw [if_neg (by simp)]
    have hq1 : q ∈ f1.pids := by rw [fp]; exact hq
    have fx : Fx c (fun _ _ => False) (fun _ => False) p (· ∈ done) { s with front := f1 } := ⟨a5, by show XAsc c f1.pids; rw [fp]; exact kx, hv,
      by show ∀ z ∈ f1.pids, _; rw [fp]; exact hb.low, has, fun _ _ => False.elim⟩
    refine Spec.bind (((fillEdgeEvent_spec hg (s := { s with front := f1 }) a5 hq1 a2).any.andL
      (fillEdgeEvent_clear gd hg fx hp.1 hp.2.1 hp.2.2 hqs.2.1 hqs.2.2 (Z := True) (fun _ _ => trivial) hq1 a2).any)) ?_
    rintro s2 ⟨⟨b1, b2, b3⟩, -, -, b4⟩
    have st1 : Stays c s.front.pids s2.front.pids := by
      intro b hb hl
      refine b4 b (by show b ∈ f1.pids; rw [fp]; exact hb) (hl.min p hp) (hl.min q hqs)
    obtain ⟨f2, r2, t2, c1, c2, c3, c4, c5, c6⟩ := rd b1 b3
    simp only [c1, ok_bind, unwrap_some, c3]
    have e0 : EPost c True { s2 with front := f2 } ({ s2 with front := f2 }, []) :=
      ⟨c5.mono (by simp) (fun _ => id), by simp, .refl _⟩
    refine Spec.bind ((edge_specs gd (fun _ => hK) fuel).1 (p := q) e0 hp.1 hqs.1 (by rintro x ⟨⟩; exact c4)).any ?_
    rintro ⟨s3, lq⟩ ⟨d1, -⟩
    refine (legalizeAll_spec (Q0 := fun _ => False) lq (d1.inv.mono (by simp) (fun _ => id)) d1.lt).any.mono ?_
    rintro s4 ⟨⟨x1, x2, x3, x4⟩, x5⟩
    have e1 : s4.front.pids = s2.front.pids := by
      rw [Front.pids_shape x3, Front.pids_shape d1.same.shape]
      show f2.pids = _
      unfold Front.pids; rw [c6]
    rw [e1]; exact st1

theorem edgeEvents_left {N : Prop} (gd : Good c) (ex : Exact c) {g : Trap} (hg : g.Tame) (hK : g.col = true) {fuel : Nat} {q : Nat} (hqs : InSweep c q)
    {E : Nat → Nat → Prop} (hE : N → ∀ u v u' v', E u v → E u' v' → ¬ ProperCross (c.pos u) (c.pos v) (c.pos u') (c.pos v'))
    (hs : ∀ u v, E u v → E v u) (ln : Loose c E) (hn : ∀ u v, E u v → u ≠ c.head ∧ u ≠ c.tail)
    {done : List Nat} (hqd : q ∈ done) (hd : ∀ v ∈ done, v = q ∨ Below (c.pos v) (c.pos q)) : ∀ (l : List Nat) {s : St}, (∀ p ∈ l, p < c.points.length) →
    Swept c True g done s → q ∈ s.front.pids → (∀ p ∈ l, p ∈ done ∧ p ≠ q ∧ E p q) → Marked c N E done s.tris → XAsc c s.front.pids →
    Spec (edgeEvents g c fuel q (c.pos q) l s) (fun _ => True) fun s' => Stays c s.front.pids s'.front.pids
  | [], s, _, h, hq, _, hm, kx => Spec.ok (.refl _)
  | p :: l, s, hl, h, hq, hp, hm, kx => by
    simp only [edgeEvents]
    have hp0 := hp p (by simp)
    have hpl := hl p (by simp)
    have hps : InSweep c p := ⟨hpl, hn _ _ hp0.2.2⟩
    have := ((edgeEvent_marks (N := N) (K := True) (Z := True) gd (.inr trivial) ex hg hK (fuel := fuel) h.inv hpl hq hqs.2.2 hqs.2.1 (h.has p hp0.1) (Ne.symm hp0.2.1)
      (fun x u v k => hE x _ _ _ _ (hm.only x u v k) (hs _ _ hp0.2.2)) (by rintro _ _ ⟨rfl, rfl⟩; exact ln _ _ (hs _ _ hp0.2.2)) hm.loose h.base hd (fun _ => kx) (hn _ _ hp0.2.2).1 (hn _ _ hp0.2.2).2 h.has
      (M := fun _ _ => False) (fun _ _ => False.elim) (fun _ _ => trivial)).any.andL
        (edgeEvent_spec gd hg (fun _ => hK) (fuel := fuel) h.inv hpl hq hqs.2.2).withEq.any).andL (edgeEvent_left gd hg hK (fuel := fuel) h.inv hps hq hqs (h.has p hp0.1) h.base kx h.has)
    refine Spec.bind this ?_
    rintro s1 ⟨⟨k56, ⟨k1, k2, k3⟩, k4⟩, st⟩
    have ev := edgeEvent_evolve k4
    have sw : Swept c True g done (s1.emit (.edge p q)) := by
      refine ⟨k1.inv.emit' (by simp), (ev.base h.base).emit _, fun v hv => k1.grow v (h.has v hv), ?_, ⟨q, hqd, k2, hqs.2.1, hqs.2.2⟩, (k1.step h.step h.head).cons ?_, .emit _ _⟩
      · refine (ev.log h.log).cons ?_ (by simp)
        rintro p' q' h' hc; cases h'; exact k3 hc
      · rintro x l - ⟨q1, -⟩; exact (q1 p q rfl).elim
    refine (edgeEvents_left gd ex hg hK hqs hE hs ln hn hqd hd l (fun x hx => hl x (by simp [hx])) sw k2 (fun x hx => hp x (by simp [hx])) ?_ (ev.xasc kx)).mono fun s2 j => st.trans j
    refine ⟨fun hN u v k => ?_, k56.2.2⟩
    rcases (k56.1 hN).1 u v k with k | ⟨rfl, rfl⟩ | ⟨rfl, rfl⟩
    · exact hm.only hN u v k
    · exact hp0.2.2
    · exact hs _ _ hp0.2.2

theorem sweepLoop_left {N : Prop} (up : UpC c) (lc : LeftC c) (gd : Good c) (ex : Exact c) {g : Trap} (hg : g.Tame) (hK : g.col = true) {fuel : Nat}
    {E : Nat → Nat → Prop} (hE : N → ∀ u v u' v', E u v → E u' v' → ¬ ProperCross (c.pos u) (c.pos v) (c.pos u') (c.pos v'))
    (hs : ∀ u v, E u v → E v u) (ln : Loose c E) (hn : ∀ u v, E u v → u ≠ c.head ∧ u ≠ c.tail) :
    ∀ (l : List (Nat × Point × PointEdges)) {done : List Nat} {s : St}, Coming c done l → Swept c True g done s →
    (∀ x ∈ l, ∀ p ∈ x.2.2.toList, (p ∈ done ∨ ∃ y ∈ l, y.1 = p) ∧ Below (c.pos p) (c.pos x.1) ∧ E p x.1) → Marked c N E done s.tris → XAsc c s.front.pids →
    (HasL c s.front.pids ∨ ∃ x ∈ l, Lm c x.1) → Spec (sweepLoop g c fuel l s) (fun _ => True)
      fun s' => HasL c s'.front.pids ∧ XAsc c s'.front.pids ∧ Swept c True g (done ++ l.map (·.1)) s'
  | [], done, s, _, h, _, hm, kx, hL => Spec.ok ⟨by simpa using hL, kx, by simpa using h⟩
  | (q, pt, es) :: l, done, s, hc, h, hl, hm, kx, hL => by
    simp only [sweepLoop]
    obtain ⟨hq, hh, ht, hpt⟩ := hc.lt (q, pt, es) (by simp)
    have hpt' : pt = c.pos q := hpt
    subst hpt'
    have h1 : SInv c True (fun _ => False) NoP (s.emit (.enterPoint q)) := h.inv.emit' (by simp)
    have hb : ∀ a ∈ (s.emit (.enterPoint q)).front.pids, Below (c.pos a) (c.pos q) := by
      intro a ha
      have hu : Uses s.tris s.front a := by
        simp only [Front.pids, List.mem_map] at ha
        obtain ⟨e, he, hk⟩ := ha
        exact .inr ⟨e, he, hk⟩
      rcases h.base.uses a hu with rfl | rfl | hd
      · exact (gd.headBelow hq hh ht).1
      · exact (gd.headBelow hq hh ht).2
      · exact hc.above _ (List.mem_cons_self) a hd
    have nv := h.base.fresh hh ht (hc.above _ List.mem_cons_self)
    have hq : q < c.points.length := hq
    have hh : q ≠ c.head := hh
    have ht : q ≠ c.tail := ht
    have kp : Spec (pointEvent c fuel (s.emit (.enterPoint q)) q (c.pos q)) (fun _ => True) fun s1 => HasL c s.front.pids ∨ Lm c q → HasL c s1.front.pids := by
      by_cases k : HasL c s.front.pids ∨ Lm c q
      · exact (pointEvent_left gd up lc (fuel := fuel) h1 ⟨hq, hh, ht⟩ hb nv kx k).any.mono fun _ j _ => j
      · cases hm : pointEvent c fuel (s.emit (.enterPoint q)) q (c.pos q) with
        | error e => exact Spec.error trivial
        | ok s1 => exact Spec.ok fun j => (k j).elim
    have kq : Spec (pointEvent c fuel (s.emit (.enterPoint q)) q (c.pos q)) (fun _ => True) fun s1 => ((SInv c True (fun _ => False) NoP s1 ∧ Ext c (s.emit (.enterPoint q)) s1 ∧ q ∈ s1.front.pids ∧ HasV s1.tris q) ∧
        ∃ s', Entered c s.front.pids q s'.front.pids ∧ fillAdvancingFront c fuel s' (c.pos q) = .ok s1) ∧
        pointEvent c fuel (s.emit (.enterPoint q)) q (c.pos q) = .ok s1 :=
      (pointEvent_spec' gd (fuel := fuel) h1 hq hh ht hb nv).withEq.any
    refine Spec.bind (kq.andL kp) ?_
    rintro s1 ⟨⟨⟨⟨k1, k2, k3, k4⟩, s', k6, k7⟩, k5⟩, kL⟩
    have kx1 : XAsc c s1.front.pids := (fillAdvancingFront_evolve k7).xasc
      (kx.enter gd up hq hh ht (fun a ha => h.inv.front.pids_lt ha) k6)
    have sw := h.point hc k5 k1 k2 k3 k4
    have m1 : ∀ u v, Mk s1.tris u v ↔ Mk s.tris u v := k2.marks h1.mesh
    have hbel : ∀ p ∈ es.toList, p ∈ done ∧ p ≠ q ∧ E p q := by
      intro p hp
      obtain ⟨a1, a2, a3⟩ := hl _ (by simp : (q, c.pos q, es) ∈ _) p hp
      refine ⟨?_, ?_, a3⟩
      · rcases a1 with a1 | ⟨y, hy, rfl⟩
        · exact a1
        · exfalso
          rcases List.mem_cons.1 hy with rfl | hy
          · exact Below.irrefl _ a2
          · exact Below.asymm a2 ((List.pairwise_cons.1 hc.sorted).1 y hy)
      · rintro rfl; exact Below.irrefl _ a2
    have hd : ∀ v ∈ done ++ [q], v = q ∨ Below (c.pos v) (c.pos q) := by
      intro v hv
      rcases List.mem_append.1 hv with hv | hv
      · exact .inr (hc.above _ (List.mem_cons_self) v hv)
      · exact .inl (by simpa using hv)
    have hed := hc.edges (q, c.pos q, es) (by simp)
    refine Spec.bind ((edgeEvents_marks (K := True) (Z := True) gd (.inr trivial) ex hg hK hh ht hE hs ln hn (done := done ++ [q]) (by simp) hd es.toList
      hed sw k3 (fun p hp => ⟨by simp [(hbel p hp).1], (hbel p hp).2⟩) (h.loosen gd hc h1 m1 hm) (fun _ => kx1) (M := fun _ _ => False) (fun _ _ => False.elim) (fun _ _ _ _ => trivial)).any.andL
      (edgeEvents_left gd ex hg hK ⟨hq, hh, ht⟩ hE hs ln hn (done := done ++ [q]) (by simp) hd es.toList
      hed sw k3 (fun p hp => ⟨by simp [(hbel p hp).1], (hbel p hp).2⟩) (h.loosen gd hc h1 m1 hm) kx1)) ?_
    rintro s2 ⟨⟨j0, j1, j2, -⟩, st⟩
    refine (sweepLoop_left up lc gd ex hg hK hE hs ln hn l hc.next j1 ?_ j2 (j0 trivial) ?_).mono ?_
    · intro x hx p hp
      obtain ⟨a1, a2⟩ := hl x (by simp [hx]) p hp
      refine ⟨?_, a2⟩
      rcases a1 with a1 | ⟨y, hy, rfl⟩
      · exact .inl (by simp [a1])
      · rcases List.mem_cons.1 hy with rfl | hy
        · exact .inl (by simp)
        · exact .inr ⟨y, hy, rfl⟩
    · rcases hL with k | ⟨x, hx, k⟩
      · exact .inl (st.has (kL (.inl k)))
      · rcases List.mem_cons.1 hx with rfl | hx
        · exact .inl (st.has (kL (.inr k)))
        · exact .inr ⟨x, hx, k⟩
    · rintro s3 ⟨y1, y2, y3⟩
      exact ⟨y1, y2, by simpa using y3⟩

/-- The leftmost points exist. -/
theorem exists_lm (h : InSweep c b) : ∃ o, Lm c o := by
  classical
  obtain ⟨m, hm, hk⟩ := Finset.exists_min_image ((Finset.range c.points.length).filter (InSweep c)) (fun i => (c.pos i).x) ⟨b, by simp [h, h.1]⟩
  simp only [Finset.mem_filter, Finset.mem_range] at hm hk
  exact ⟨m, hm.2, fun z hz => hk z ⟨hz.1, hz⟩⟩

end P2T

namespace P2T

/-- A whole run: the second node of the front is the uppermost of the leftmost points. -/
theorem runG_left {D} {N : Prop} (cdt : CDT D) (h : Input cdt.points) (up : UpC cdt.points) (lc : LeftC cdt.points) (ex : Exact cdt.points) {g : Trap} (hg : g.Tame)
    (hK : g.col = true) {fuel : Nat} {E : Nat → Nat → Prop}
    (hE : N → ∀ u v u' v', E u v → E u' v' → ¬ ProperCross (cdt.points.pos u) (cdt.points.pos v) (cdt.points.pos u') (cdt.points.pos v'))
    (hs : ∀ u v, E u v → E v u) (ln : Loose cdt.points E) (hn : ∀ u v, E u v → u ∈ cdt.points.ySorted)
    (he : ∀ j es, cdt.points.edges[j]? = some es → ∀ p ∈ es.toList, p ∈ cdt.points.ySorted ∧ j ∈ cdt.points.ySorted ∧
      Below (cdt.points.pos p) (cdt.points.pos j) ∧ E p j) {t s} (hr : cdt.runG g fuel = .ok (t, s)) :
    ∃ b R, s.front.pids = cdt.points.head :: b :: R ∧ Lm cdt.points b ∧
      ∀ z, InSweep cdt.points z → (cdt.points.pos z).x = (cdt.points.pos b).x → (cdt.points.pos z).y ≤ (cdt.points.pos b).y := by
  obtain ⟨s0', s1, s2, items', k0, k1, k2, k3, rfl, rfl⟩ := runG_ok hr
  obtain ⟨p0, rest, hy⟩ : ∃ p0 rest, cdt.points.ySorted = p0 :: rest := by
    have := h.perm.length_eq
    rw [List.length_range] at this
    cases hy : cdt.points.ySorted with
    | nil => rw [hy] at this; have := h.ne; simp at *; omega
    | cons a l => exact ⟨a, l, rfl⟩
  have hm : p0 < cdt.points.points.length - 2 := by
    have := h.perm.subset (by rw [hy]; simp : p0 ∈ cdt.points.ySorted)
    exact List.mem_range.1 this
  have hp0 : InSweep cdt.points p0 := ⟨by omega, by rw [h.head]; omega, by rw [h.tail]; omega⟩
  obtain ⟨s0, i1, i2, i3⟩ := initState_spec (K := True) (g := g) h.good (p0 := p0) (by rw [hy]; rfl) (by omega) (by rw [h.head]; omega) (by rw [h.tail]; omega)
  obtain ⟨items, j1, j2, j3, j4⟩ := h.coming hy
  obtain rfl : s0 = s0' := Except.ok.inj (i1.symm.trans k0)
  obtain rfl : items = items' := Except.ok.inj (j1.symm.trans k1)
  have nomk := initState_marks i1
  have ix : XAsc cdt.points s0.front.pids := by
    have en := h.good.enclosed p0 (by omega) (by rw [h.head]; omega) (by rw [h.tail]; omega)
    rw [i3]
    unfold XAsc
    simp only [List.pairwise_cons, List.mem_cons, List.not_mem_nil, or_false]
    refine ⟨?_, ?_, by simp⟩
    · rintro z (rfl | rfl)
      · exact en.1
      · exact h.good.wide
    · rintro z rfl; exact en.2.1
  have hn' : ∀ u v, E u v → u ≠ cdt.points.head ∧ u ≠ cdt.points.tail := by
    intro u v k
    have := List.mem_range.1 (h.perm.subset (hn u v k))
    rw [h.head, h.tail]
    omega
  have mem : ∀ z, InSweep cdt.points z → z = p0 ∨ ∃ x ∈ items, x.1 = z := by
    intro z hz
    have a1 : z ∈ cdt.points.ySorted := by
      rw [h.perm.mem_iff, List.mem_range]
      have := hz.1; have := hz.2.1; have := hz.2.2
      rw [h.head] at *; rw [h.tail] at *; omega
    rw [hy, ← j2] at a1
    rcases List.mem_cons.1 a1 with rfl | a1
    · exact .inl rfl
    · obtain ⟨y, hy', rfl⟩ := List.mem_map.1 a1
      exact .inr ⟨y, hy', rfl⟩
  obtain ⟨o, ho⟩ := exists_lm hp0
  have key := (sweepLoop_left up lc h.good ex hg hK (fuel := fuel) hE hs ln hn' items j3 i2 (by
      intro x hx p hp
      obtain ⟨a1, a2, a3, a4⟩ := he _ _ (j4 x hx) p hp
      refine ⟨?_, a3, a4⟩
      rw [hy, ← j2] at a1
      rcases List.mem_cons.1 a1 with rfl | a1
      · exact .inl (by simp)
      · obtain ⟨y, hy', rfl⟩ := List.mem_map.1 a1
        exact .inr ⟨y, hy', rfl⟩) ⟨fun _ u v k => (nomk u v k).elim, fun u v k => (nomk u v k).elim⟩ ix (by
      rcases mem o ho.inp with rfl | ⟨x, hx, rfl⟩
      · exact .inl ⟨o, by rw [i3]; simp, ho⟩
      · exact .inr ⟨x, hx, ho⟩)).get k2
  obtain ⟨⟨b, hb, hL⟩, kx, sw⟩ := key
  have hfr : (s2.emit .finalized).front = s1.front := (finalize_trace k3).2.1
  rw [hfr]
  obtain ⟨L, R, hsplit⟩ := List.append_of_mem hb
  have hL0 := Lm.first sw.inv.front h.good kx hL hsplit
  subst hL0
  refine ⟨b, R, hsplit, hL, fun z hz hzx => ?_⟩
  have hv : Vtx s1.tris z := by
    refine sw.has z ?_
    rcases mem z hz with rfl | ⟨x, hx, rfl⟩
    · simp
    · exact List.mem_append.2 (.inr (List.mem_map.2 ⟨x, hx, rfl⟩))
  have en := h.good.enclosed b hL.inp.1 hL.inp.2.1 hL.inp.2.2
  have cv := cov_of sw.inv h.good kx hv cdt.points.head b ⟨[], R, hsplit⟩ (by rw [hzx]; exact en.1.le) hzx.le
  have : det2 (cdt.points.pos cdt.points.head) (cdt.points.pos b) (cdt.points.pos z) =
      ((cdt.points.pos b).x - (cdt.points.pos cdt.points.head).x) * ((cdt.points.pos z).y - (cdt.points.pos b).y) := by
    unfold det2; rw [hzx]; ring
  rw [this] at cv
  by_contra hlt
  have := mul_pos (sub_pos.2 en.1) (sub_pos.2 (not_le.1 hlt))
  linarith

end P2T
