import Verif.Proofs.FrontInv
import Verif.Proofs.Marks
import Verif.Proofs.Lift
import Verif.Spec.Input

/-!
# Legalization

One round of the loop of `legalize` either finds nothing to do or flips an illegal edge.
-/

set_option linter.unusedSectionVars false

namespace P2T

variable {c : Ctx} {K : Prop} {Q : Nat → Prop} {ts ts' : Store}

/-- `v` is a vertex of some triangle. -/
def HasV (ts : Store) (v : Nat) : Prop := ∃ t u w n e, Sl ts t v u w n e

/-- No vertex gets lost. -/
def Grow (ts ts' : Store) : Prop := ∀ v, HasV ts v → HasV ts' v

theorem Grow.refl (ts : Store) : Grow ts ts := fun _ h => h
theorem Grow.trans {a b d : Store} (h : Grow a b) (h' : Grow b d) : Grow a d := fun v k => h' v (h v k)

theorem Reflag.grow (h : Reflag c ts ts') : Grow ts ts' := by
  rintro v ⟨t, u, w, n, e, hs⟩
  obtain ⟨e', k, -⟩ := h.fwd hs
  exact ⟨t, u, w, n, e', k⟩

theorem HasV.of_sl {t w u v n e} (h : Sl ts t w u v n e) : HasV ts w ∧ HasV ts u ∧ HasV ts v := by
  obtain ⟨n1, e1, h1⟩ := h.rot
  obtain ⟨n2, e2, h2⟩ := h1.rot
  exact ⟨⟨_, _, _, _, _, h⟩, ⟨_, _, _, _, _, h1⟩, ⟨_, _, _, _, _, h2⟩⟩

theorem Flip.Rel.grow {F : Flip} (r : F.Rel ts ts') (p : F.Pre c.W ts) (m : MeshInv c K Q ts) : Grow ts ts' := by
  rintro v ⟨t, u, w, n, e, hs⟩
  obtain ⟨hp, hop, hb⟩ := HasV.of_sl r.r3
  obtain ⟨-, ha, -⟩ := HasV.of_sl r.r4
  by_cases ht : t = F.t
  · subst ht
    rcases p.onT m hs with ⟨rfl, -⟩ | ⟨rfl, -⟩ | ⟨rfl, -⟩ <;> assumption
  by_cases ho : t = F.ot
  · subst ho
    rcases p.onO m hs with ⟨rfl, -⟩ | ⟨rfl, -⟩ | ⟨rfl, -⟩ <;> assumption
  by_cases hn : n = some F.t ∨ n = some F.ot
  · rcases p.toward m hs ht ho hn with ⟨k, rfl, rfl, rfl, rfl⟩ | ⟨k, rfl, rfl, rfl, rfl⟩ | ⟨k, rfl, rfl, rfl, rfl⟩ |
        ⟨k, rfl, rfl, rfl, rfl⟩
    · exact (HasV.of_sl (r.q1 k)).1
    · exact (HasV.of_sl (r.q2 k)).1
    · exact (HasV.of_sl (r.q3 k)).1
    · exact (HasV.of_sl (r.q4 k)).1
  · exact ⟨_, _, _, _, _, r.rest hs ht ho (fun h => hn (.inl h)) (fun h => hn (.inr h))⟩

/-- `opposite_point` of the triangle across an edge. -/
theorem oppositePoint_sl (m : MeshInv c K Q ts) {t w u v x e w' e'} (h : Sl ts t w u v (some x) e)
    (h' : Sl ts x w' v u (some t) e') {T O : Tri} (hT : ts[t]? = some T) (hO : ts[x]? = some O) :
    O.oppositePoint T w = .ok w' := by
  obtain ⟨T', n1, n2, e1, e2, k, vT⟩ := h.view
  obtain ⟨O', m1, m2, f1, f2, k', vO⟩ := h'.view
  rw [hT] at k; cases k
  rw [hO] at k'; cases k'
  have d := (oriW c).d3 (m.wo h)
  have d' := (oriW c).d3 (m.wo h')
  simp only [Tri.oppositePoint, vT.pointCw d, ok_bind]
  have := vO.rot.pointCw (d'.rot)
  exact this

theorem Sl.pts {t w u v n e} (m : MeshInv c K Q ts) (h : Sl ts t w u v n e) {T : Tri} (hT : ts[t]? = some T) :
    T.pointCcw w = .ok u ∧ T.pointCw w = .ok v ∧ T.neighborAcross w = .ok n := by
  obtain ⟨T', n1, n2, e1, e2, k, vT⟩ := h.view
  rw [hT] at k; cases k
  have d := (oriW c).d3 (m.wo h)
  exact ⟨vT.pointCcw d, vT.pointCw d, vT.neighborAcross d⟩

/-- The test of one edge in `legalize`. -/
theorem illegalAt_spec (m : MeshInv c K Q ts) {t : Nat} {T : Tri} (hT : ts[t]? = some T) (i : Fin 3) :
    (illegalAt c ts t i = .ok none ∧ ∀ {x w' e'}, T.neighbors.get i = some x →
        Sl ts x w' (T.points.get (i + 2)) (T.points.get (i + 1)) (some t) e' →
        T.isConstrained i = true ∨ Legal c (T.points.get i) (T.points.get (i + 1)) (T.points.get (i + 2)) w') ∨
    (∃ p a b ot op e0 f0, illegalAt c ts t i = .ok (some (p, ot, op)) ∧ Sl ts t p a b (some ot) e0 ∧
      Sl ts ot op b a (some t) f0 ∧ e0.isConstrained = false ∧
      0 < inCircleDet (c.pos p) (c.pos a) (c.pos b) (c.pos op)) := by
  have a := sl_at hT i
  simp only [illegalAt, getU_ok.2 hT, ok_bind]
  by_cases hc : (T.isConstrained i || T.isDelaunay i) = true
  · left
    rw [if_pos hc]
    refine ⟨rfl, fun {x w' e'} hn hs => ?_⟩
    simp only [Bool.or_eq_true] at hc
    refine hc.imp id fun hd => ?_
    rw [hn] at a
    exact m.del a hs hd
  · rw [if_neg hc]
    cases hn : T.neighbors.get i with
    | none => exact .inl ⟨rfl, by simp⟩
    | some ot =>
      rw [hn] at a
      obtain ⟨op, f0, o⟩ := m.sym a
      obtain ⟨O, hO⟩ : ∃ O, ts[ot]? = some O := ⟨_, List.getElem?_eq_getElem o.lt⟩
      obtain ⟨q1, q2, q3⟩ := a.pts m hT
      have w1 := (m.wo a).1
      have w2 := (m.wo o).1
      simp only [getU_ok.2 hO, ok_bind, oppositePoint_sl m a o hT hO, q1, q2, Ctx.pt_ok w1.1, Ctx.pt_ok w1.2.1,
        Ctx.pt_ok w1.2.2, Ctx.pt_ok w2.1]
      by_cases hi : inCircle (c.pos (T.points.get i)) (c.pos (T.points.get (i + 1))) (c.pos (T.points.get (i + 2))) (c.pos op) = true
      · rw [if_pos hi]
        right
        refine ⟨_, _, _, _, _, _, _, rfl, a, o, ?_, ?_⟩
        · simp only [Bool.or_eq_true, not_or] at hc
          exact Bool.eq_false_iff.2 hc.1
        · simpa [inCircle] using hi
      · rw [if_neg hi]
        left
        refine ⟨rfl, fun {x w' e'} hx hs => ?_⟩
        cases hx
        right
        have := m.uniq hs o
        rw [this.1]
        simpa [inCircle, Legal] using hi

/-- Every edge of `t` is constrained or legal. -/
def Settled (c : Ctx) (ts : Store) (t : Nat) : Prop := ∀ {w u v x e w' e'}, Sl ts t w u v (some x) e →
  Sl ts x w' v u (some t) e' → e.isConstrained = true ∨ Legal c w u v w'

theorem firstIllegal_spec (m : MeshInv c K Q ts) {t : Nat} (ht : t < ts.length) :
    (firstIllegal c ts t [0, 1, 2] = .ok none ∧ Settled c ts t) ∨
    (∃ p a b ot op e0 f0, firstIllegal c ts t [0, 1, 2] = .ok (some (p, ot, op)) ∧ Sl ts t p a b (some ot) e0 ∧
      Sl ts ot op b a (some t) f0 ∧ e0.isConstrained = false ∧
      0 < inCircleDet (c.pos p) (c.pos a) (c.pos b) (c.pos op)) := by
  obtain ⟨T, hT⟩ : ∃ T, ts[t]? = some T := ⟨_, List.getElem?_eq_getElem ht⟩
  have main : ∀ l : List (Fin 3),
    (firstIllegal c ts t l = .ok none ∧ ∀ i ∈ l, ∀ {x w' e'}, T.neighbors.get i = some x →
        Sl ts x w' (T.points.get (i + 2)) (T.points.get (i + 1)) (some t) e' →
        T.isConstrained i = true ∨ Legal c (T.points.get i) (T.points.get (i + 1)) (T.points.get (i + 2)) w') ∨
    (∃ p a b ot op e0 f0, firstIllegal c ts t l = .ok (some (p, ot, op)) ∧ Sl ts t p a b (some ot) e0 ∧
      Sl ts ot op b a (some t) f0 ∧ e0.isConstrained = false ∧
      0 < inCircleDet (c.pos p) (c.pos a) (c.pos b) (c.pos op)) := by
    intro l
    induction l with
    | nil => exact .inl ⟨rfl, by simp⟩
    | cons i l ih =>
      simp only [firstIllegal]
      rcases illegalAt_spec m hT i with ⟨h1, h2⟩ | ⟨p, a, b, ot, op, e0, f0, h1, h2⟩
      · rw [h1]
        simp only [ok_bind]
        rcases ih with ⟨k1, k2⟩ | k
        · refine .inl ⟨k1, ?_⟩
          intro j hj
          simp only [List.mem_cons] at hj
          rcases hj with rfl | hj
          · exact h2
          · exact k2 j hj
        · exact .inr k
      · rw [h1]
        exact .inr ⟨p, a, b, ot, op, e0, f0, rfl, h2⟩
  rcases main [0, 1, 2] with ⟨h1, h2⟩ | h
  · refine .inl ⟨h1, ?_⟩
    intro w u v x e w' e' hs hs'
    obtain ⟨T', hT', hsl⟩ := hs
    rw [hT] at hT'; cases hT'
    obtain ⟨i, q1, q2, q3, q4, q5⟩ := hsl.index
    have hi : i ∈ ([0, 1, 2] : List (Fin 3)) := by
      match i with
      | 0 | 1 | 2 => simp
    subst q1 q2 q3 q5
    exact h2 i hi q4 hs'
  · exact .inr h

/-- A settled triangle leaves the queue. -/
theorem MeshInv.settle {Q' : Nat → Prop} (m : MeshInv c K Q ts) {t : Nat} (h : Settled c ts t) (hQ : ∀ y, Q y → y = t ∨ Q' y) :
    MeshInv c K Q' ts := by
  refine ⟨m.wo, m.sym, m.del, ?_, m.csym⟩
  intro y w u v x e w' e' hs hs' hc hc'
  rcases m.leg hs hs' hc hc' with k | k | k
  · rcases hQ _ k with rfl | k
    · rcases h hs hs' with q | q
      · rw [hc] at q; cases q
      · exact .inr (.inr q)
    · exact .inl k
  · rcases hQ _ k with rfl | k
    · rcases h hs' hs with q | q
      · rw [hc'] at q; cases q
      · exact .inr (.inr q.symm)
    · exact .inr (.inl k)
  · exact .inr (.inr k)

/-- The quadrilateral of two adjacent triangles is strictly convex. -/
def Convex (c : Ctx) (p a b op : Nat) : Prop :=
  0 < det2 (c.pos p) (c.pos op) (c.pos b) ∧ 0 < det2 (c.pos p) (c.pos a) (c.pos op)

/-- The flip of one round. -/
theorem flip_round (m : MeshInv c K Q ts) {t p a b ot op e0 f0} (s0 : Sl ts t p a b (some ot) e0)
    (o0 : Sl ts ot op b a (some t) f0) (hi : 0 < inCircleDet (c.pos p) (c.pos a) (c.pos b) (c.pos op)) :
    Convex c p a b op ∧ ∃ F : Flip, F.t = t ∧ F.ot = ot ∧ F.p = p ∧ F.a = a ∧ F.b = b ∧ F.op = op ∧ F.e0 = e0 ∧ F.f0 = f0 ∧
      F.Pre c.W ts ∧
      ∃ ts1 ts2, Store.rotatePair ts t p ot op = .ok (ts1, F.n1.isNone || F.n2.isNone || F.n3.isNone || F.n4.isNone) ∧
        F.Rel ts ts1 ∧ Store.flagDelaunay ts1 t ot = .ok ts2 ∧ Reflag c ts1 ts2 ∧
        MeshInv c K (fun y => Q y ∨ y = t ∨ y = ot) ts2 ∧ ts2.length = ts.length := by
  have w1 := m.wo s0
  have w2 := m.wo o0
  have cv := illegal_convex w1.2.nonneg w2.2.nonneg hi
  refine ⟨cv, ?_⟩
  obtain ⟨F, hF1, hF2, hF3, hF4, hF5, hF6, hF7, hF8, hp⟩ := mkFlip m.ok s0 o0 (w1 := ⟨⟨w1.1.1, w2.1.1, w1.1.2.2⟩, .inl cv.1⟩)
    (w2 := ⟨⟨w1.1.1, w1.1.2.1, w2.1.1⟩, .inl cv.2⟩)
  refine ⟨F, hF1, hF2, hF3, hF4, hF5, hF6, hF7, hF8, hp, ?_⟩
  obtain ⟨ts1, h1, h2, h3, h4⟩ := rotatePair_spec (oriW c) m.ok hp
  have m1 := m.flip hp h2
  obtain ⟨ts2, k1, k2, k3⟩ := flagDelaunay_spec m1 h2.r0 h2.r0' (by
    unfold Legal
    rw [hF3, hF4, hF5, hF6, incircle_flip]
    linarith)
  subst hF1 hF2 hF3 hF4 hF5 hF6 hF7 hF8
  exact ⟨ts1, ts2, h1, h2, k1, k2, k3, k2.len.trans h3⟩

theorem flip_nn (m : MeshInv c K Q ts) {t p a b ot op e0 f0} (s0 : Sl ts t p a b (some ot) e0)
    (o0 : Sl ts ot op b a (some t) f0) (hi : 0 < inCircleDet (c.pos p) (c.pos a) (c.pos b) (c.pos op)) (h0 : e0.isConstrained = false)
    {ts1 ts2 need} (h1 : Store.rotatePair ts t p ot op = .ok (ts1, need)) (h2 : Store.flagDelaunay ts1 t ot = .ok ts2) : NN ts ts2 := by
  intro hc
  have hne := m.ne s0
  obtain ⟨-, F, hF1, hF2, hF3, hF4, hF5, hF6, hF7, hF8, hp, ts1', ts2', k1, k2, k3, k4, k5, k6⟩ := flip_round (m.toTrue hc) s0 o0 hi
  rw [h1] at k1; cases k1
  rw [h2] at k3; cases k3
  have m1 := m.flip hp k2
  exact ⟨k5.csym', (k2.nonew hp m (by rw [hF7]; exact h0) (by rw [hF8, ← hc s0 o0]; exact h0)).trans (flag_nonew m1 hne h2)⟩

/-! ## Flat triangles that begin at the highest corner -/

/-- Triangle `t` is flat and `q` is its first corner in the order of the front. -/
def FlatAt (c : Ctx) (ts : Store) (q t : Nat) : Prop := ∃ b r n e, Sl ts t q b r n e ∧ det2 (c.pos q) (c.pos b) (c.pos r) = 0 ∧
  keyLt (c.pos q) (c.pos b) ∧ keyLt (c.pos b) (c.pos r)

/-- Every vertex of the mesh is `q` or below it. -/
def TopV (c : Ctx) (q : Nat) (ts : Store) : Prop := ∀ z, HasV ts z → z = q ∨ Below (c.pos z) (c.pos q)

/-- At most one flat triangle begins at the highest corner. -/
def OneFlat (c : Ctx) (ts : Store) : Prop := ∀ q, TopV c q ts → ∀ t t', FlatAt c ts q t → FlatAt c ts q t' → t = t'

/-- Flat triangles are old. -/
def FlatLe (c : Ctx) (ts ts' : Store) : Prop := ∀ q t, FlatAt c ts' q t → FlatAt c ts q t

theorem FlatLe.refl (c : Ctx) (ts : Store) : FlatLe c ts ts := fun _ _ h => h
theorem FlatLe.trans {a b d : Store} (h : FlatLe c a b) (h' : FlatLe c b d) : FlatLe c a d := fun q t k => h q t (h' q t k)

theorem TopV.back {q} (h : TopV c q ts') (g : Grow ts ts') : TopV c q ts := fun z hz => h z (g z hz)

theorem OneFlat.mono (h : OneFlat c ts) (g : Grow ts ts') (f : FlatLe c ts ts') : OneFlat c ts' :=
  fun q hq t t' k k' => h q (hq.back g) t t' (f q t k) (f q t' k')

theorem Reflag.flat (h : Reflag c ts ts') : FlatLe c ts ts' := by
  rintro q t ⟨b, r, n, e, k, k'⟩
  obtain ⟨e', k, -⟩ := h.back k
  exact ⟨b, r, n, e', k, k'⟩

theorem Flip.Rel.flat {F : Flip} (r : F.Rel ts ts') (p : F.Pre c.W ts) (cv : Convex c F.p F.a F.b F.op) : FlatLe c ts ts' := by
  rintro q t ⟨u, v, n, e, a, h0, k⟩
  obtain ⟨c1, c2⟩ := cv
  rcases (r ..).1 a with ⟨rfl, rfl, rfl, rfl, -⟩ | ⟨rfl, rfl, rfl, rfl, -⟩ | ⟨rfl, rfl, rfl, rfl, -⟩ | ⟨rfl, rfl, rfl, rfl, -⟩ |
    ⟨rfl, rfl, rfl, rfl, -⟩ | ⟨rfl, rfl, rfl, rfl, -⟩ | ⟨hn, rfl, rfl, rfl, -⟩ | ⟨hn, rfl, rfl, rfl, -⟩ | ⟨hn, rfl, rfl, rfl, -⟩ |
    ⟨hn, rfl, rfl, rfl, -⟩ | ⟨h1, h2, h3, h4, h5⟩
  · exact (c1.ne' (by rw [← h0]; unfold det2; ring)).elim
  · exact (c1.ne' h0).elim
  · exact (c1.ne' (by rw [← h0]; unfold det2; ring)).elim
  · exact (c2.ne' (by rw [← h0]; unfold det2; ring)).elim
  · exact (c2.ne' (by rw [← h0]; unfold det2; ring)).elim
  · exact (c2.ne' h0).elim
  · exact ⟨_, _, _, _, p.h1 _ hn, h0, k⟩
  · exact ⟨_, _, _, _, p.h2 _ hn, h0, k⟩
  · exact ⟨_, _, _, _, p.h3 _ hn, h0, k⟩
  · exact ⟨_, _, _, _, p.h4 _ hn, h0, k⟩
  · exact ⟨_, _, _, _, h5, h0, k⟩

/-! ## The lifted mesh does not rise -/

/-- The lifted mesh is somewhere over `x` at most `h` above the paraboloid. -/
def LowAt (c : Ctx) (ts : Store) (x : Point) (h : Rat) : Prop := ∃ t w u v n e, Sl ts t w u v n e ∧ LiftLe (c.pos w) (c.pos u) (c.pos v) x h

/-- The lifted mesh does not rise. -/
def NoRise (c : Ctx) (ts ts' : Store) : Prop := ∀ x h, LowAt c ts x h → LowAt c ts' x h

theorem NoRise.refl (c : Ctx) (ts : Store) : NoRise c ts ts := fun _ _ h => h
theorem NoRise.trans {a b d : Store} (h : NoRise c a b) (h' : NoRise c b d) : NoRise c a d := fun x y k => h' x y (h x y k)

/-- All triangles stay. -/
theorem NoRise.of_shape (h : ∀ t w u v n e, Sl ts t w u v n e → ∃ n' e', Sl ts' t w u v n' e') : NoRise c ts ts' := by
  rintro x y ⟨t, w, u, v, n, e, k, k'⟩
  obtain ⟨n', e', k⟩ := h _ _ _ _ _ _ k
  exact ⟨t, w, u, v, n', e', k, k'⟩

theorem Reflag.low (h : Reflag c ts ts') : NoRise c ts ts' := .of_shape fun _ _ _ _ _ _ k => let ⟨e, k, _⟩ := h.fwd k; ⟨_, e, k⟩

theorem noRise_append (T : Tri) : NoRise c ts (ts ++ [T]) := .of_shape fun t w u v n e k => by
  obtain ⟨A, h1, h2⟩ := k
  exact ⟨n, e, A, by rw [List.getElem?_append_left (List.getElem?_eq_some_iff.1 h1).1, h1], h2⟩

theorem Tri.Slot.points {A B : Tri} {w u v n e} (h : A.Slot w u v n e) (k : B.points = A.points) : ∃ n' e', B.Slot w u v n' e' := by
  rcases h with ⟨h, -⟩ | ⟨h, -⟩ | ⟨h, -⟩
  · exact ⟨_, _, .inl ⟨k.trans h, rfl, rfl⟩⟩
  · exact ⟨_, _, .inr (.inl ⟨k.trans h, rfl, rfl⟩)⟩
  · exact ⟨_, _, .inr (.inr ⟨k.trans h, rfl, rfl⟩)⟩

theorem noRise_set {t : Nat} {A B : Tri} (h : ts[t]? = some A) (k : B.points = A.points) : NoRise c ts (ts.set t B) := .of_shape fun y w u v n e q => by
  obtain ⟨D, h1, h2⟩ := q
  by_cases ht : t = y
  · subst ht
    rw [h] at h1; cases h1
    obtain ⟨n', e', q⟩ := h2.points k
    exact ⟨n', e', B, by rw [List.getElem?_set]; simp [(List.getElem?_eq_some_iff.1 h).1], q⟩
  · exact ⟨n, e, D, by rw [List.getElem?_set]; simp [ht, h1], h2⟩

theorem noRise_link {l r : Nat} (h : Store.markNeighbor ts l r = .ok ts') : NoRise c ts ts' := by
  simp only [Store.markNeighbor, bind_ok, pure_ok, Except.ok.injEq] at h
  obtain ⟨_, -, rfl⟩ := h
  unfold Store.markPair
  split
  · rename_i L R hL hR
    have hp := markTwo_points l r L R
    show NoRise c ts ((ts.set l (Store.markTwo l r L R).1).set r (Store.markTwo l r L R).2)
    refine (noRise_set hL hp.1).trans ?_
    by_cases e : l = r
    · subst e
      rw [hL] at hR; cases hR
      exact noRise_set (A := (Store.markTwo l l L L).1) (by rw [List.getElem?_set]; simp [(List.getElem?_eq_some_iff.1 hL).1]) (hp.2.trans hp.1.symm)
    · exact noRise_set (A := R) (by rw [List.getElem?_set]; simp [e, hR]) hp.2
  · exact .refl _ _

theorem Flip.Rel.low {F : Flip} (r : F.Rel ts ts') (p : F.Pre c.W ts) (m : MeshInv c K Q ts) (cv : Convex c F.p F.a F.b F.op)
    (hi : 0 < inCircleDet (c.pos F.p) (c.pos F.a) (c.pos F.b) (c.pos F.op)) : NoRise c ts ts' := by
  obtain ⟨c1, c2⟩ := cv
  have d3 : det2 (c.pos F.op) (c.pos F.p) (c.pos F.a) = det2 (c.pos F.p) (c.pos F.a) (c.pos F.op) := by unfold det2; ring
  have d4 : det2 (c.pos F.op) (c.pos F.b) (c.pos F.p) = det2 (c.pos F.p) (c.pos F.op) (c.pos F.b) := by unfold det2; ring
  have hi' : inCircleDet (c.pos F.op) (c.pos F.b) (c.pos F.a) (c.pos F.p) = inCircleDet (c.pos F.p) (c.pos F.a) (c.pos F.b) (c.pos F.op) := by
    unfold inCircleDet; ring
  have w1 := (m.wo p.s0).2.nonneg
  have w2 := (m.wo p.o0).2.nonneg
  have A : ∀ x h, LiftLe (c.pos F.p) (c.pos F.a) (c.pos F.b) x h → LowAt c ts' x h := by
    intro x h k
    rcases liftLe_flip k c1 c2 w2 hi with k | k
    · exact ⟨_, _, _, _, _, _, r.r4, by first | exact k | exact liftLe_rot k | exact liftLe_rot (liftLe_rot k)⟩
    · exact ⟨_, _, _, _, _, _, r.r3, by first | exact k | exact liftLe_rot k | exact liftLe_rot (liftLe_rot k)⟩
  have B : ∀ x h, LiftLe (c.pos F.op) (c.pos F.b) (c.pos F.a) x h → LowAt c ts' x h := by
    intro x h k
    rcases liftLe_flip k (by rw [d3]; exact c2) (by rw [d4]; exact c1) w1 (by rw [hi']; exact hi) with k | k
    · exact ⟨_, _, _, _, _, _, r.r3, by first | exact k | exact liftLe_rot k | exact liftLe_rot (liftLe_rot k)⟩
    · exact ⟨_, _, _, _, _, _, r.r4, by first | exact k | exact liftLe_rot k | exact liftLe_rot (liftLe_rot k)⟩
  rintro x h ⟨t, w, u, v, n, e, hs, k⟩
  by_cases ht : t = F.t
  · subst ht
    rcases p.onT m hs with ⟨rfl, rfl, rfl, -⟩ | ⟨rfl, rfl, rfl, -⟩ | ⟨rfl, rfl, rfl, -⟩
    · exact A x h k
    · exact A x h (liftLe_rot k)
    · exact A x h (liftLe_rot (liftLe_rot k))
  by_cases ho : t = F.ot
  · subst ho
    rcases p.onO m hs with ⟨rfl, rfl, rfl, -⟩ | ⟨rfl, rfl, rfl, -⟩ | ⟨rfl, rfl, rfl, -⟩
    · exact B x h k
    · exact B x h (liftLe_rot k)
    · exact B x h (liftLe_rot (liftLe_rot k))
  by_cases hn : n = some F.t ∨ n = some F.ot
  · rcases p.toward m hs ht ho hn with ⟨k', rfl, rfl, rfl, rfl⟩ | ⟨k', rfl, rfl, rfl, rfl⟩ | ⟨k', rfl, rfl, rfl, rfl⟩ |
        ⟨k', rfl, rfl, rfl, rfl⟩
    · exact ⟨_, _, _, _, _, _, r.q1 k', k⟩
    · exact ⟨_, _, _, _, _, _, r.q2 k', k⟩
    · exact ⟨_, _, _, _, _, _, r.q3 k', k⟩
    · exact ⟨_, _, _, _, _, _, r.q4 k', k⟩
  · exact ⟨_, _, _, _, _, _, r.rest hs ht ho (fun h => hn (.inl h)) (fun h => hn (.inr h)), k⟩

/-! ## What observers see -/

/-- The front without open questions. -/
abbrev NoP : Nat → Nat → Prop := fun _ _ => False

/-- What a callback may rely on. -/
structure SnapOk (c : Ctx) (K : Prop) (x : Ev × Snap) : Prop where
  mesh : MeshInv c K (fun _ => True) x.2.tris
  front : FOk c x.2.front
  bd : ∃ P, BInv c P x.2.tris x.2.front.nodes
  full : x.1.isLegal = false → MeshInv c K (fun _ => False) x.2.tris ∧ BInv c (fun _ _ => False) x.2.tris x.2.front.nodes
  conv : ∀ {t ot}, x.1 = .rotated t ot → ∃ p a b op e f, Sl x.2.tris t p a b (some ot) e ∧ Sl x.2.tris ot op b a (some t) f ∧
    e.isConstrained = false ∧ Convex c p a b op ∧ 0 < inCircleDet (c.pos p) (c.pos a) (c.pos b) (c.pos op)
  done : ∀ {t}, x.1 = .legalized t → BInv c NoP x.2.tris x.2.front.nodes

/-- All callbacks so far. -/
def TraceOk (c : Ctx) (K : Prop) (s : St) : Prop := ∀ x ∈ s.trace, SnapOk c K x

/-- The state is consistent up to the queue `Q` and the pending front updates `P`. -/
structure SInv (c : Ctx) (K : Prop) (Q : Nat → Prop) (P : Nat → Nat → Prop) (s : St) : Prop where
  mesh : MeshInv c K Q s.tris
  bd : BInv c P s.tris s.front.nodes
  front : FOk c s.front
  trace : TraceOk c K s
  one : OneFlat c s.tris

/-- No constrained edge gets lost and the lifted mesh does not rise. -/
def KeepL (c : Ctx) (ts ts' : Store) : Prop := Keep ts ts' ∧ NoRise c ts ts'

theorem KeepL.refl (c : Ctx) (ts : Store) : KeepL c ts ts := ⟨.refl _, .refl _ _⟩
theorem KeepL.trans {a b d : Store} (h : KeepL c a b) (h' : KeepL c b d) : KeepL c a d := ⟨h.1.trans h'.1, h.2.trans h'.2⟩

/-- From the mesh `M0` through the callbacks `l` (newest first) to the mesh `M` no constraint gets lost and the lifted mesh does not rise. -/
def Steps (c : Ctx) (M0 : Store) : List (Ev × Snap) → Store → Prop
  | [], M => KeepL c M0 M
  | x :: l, M => KeepL c x.2.tris M ∧ Steps c M0 l x.2.tris

theorem Steps.keep {M0 M M' : Store} (h' : KeepL c M M') : ∀ {l : List (Ev × Snap)}, Steps c M0 l M → Steps c M0 l M'
  | [], h => KeepL.trans h h'
  | _ :: _, h => ⟨KeepL.trans h.1 h', h.2⟩

theorem Steps.trans {M0 M1 : Store} {l1 : List (Ev × Snap)} (h : Steps c M0 l1 M1) :
    ∀ {l2 : List (Ev × Snap)} {M2 : Store}, Steps c M1 l2 M2 → Steps c M0 (l2 ++ l1) M2
  | [], _, h' => h.keep h'
  | _ :: _, _, h' => ⟨h'.1, h.trans h'.2⟩

/-- What every step keeps. -/
structure Ext0 (c : Ctx) (s s' : St) : Prop where
  len : s.tris.length ≤ s'.tris.length
  keep : Keep s.tris s'.tris
  low : NoRise c s.tris s'.tris
  grow : Grow s.tris s'.tris
  nn : NN s.tris s'.tris
  log : ∃ l, s'.trace = l ++ s.trace ∧ Steps c s.tris l s'.tris

/-- The last callback saw the present mesh. -/
def Fresh (s : St) : Prop := ∃ x tr, s.trace = x :: tr ∧ x.2.tris = s.tris

/-- Steps that end with a callback (or do nothing to the mesh). -/
structure Ext (c : Ctx) (s s' : St) : Prop extends Ext0 c s s' where
  last : (s'.trace = s.trace ∧ s'.tris = s.tris) ∨ Fresh s'

theorem Ext0.trans {s s' s'' : St} (h : Ext0 c s s') (h' : Ext0 c s' s'') : Ext0 c s s'' := by
  obtain ⟨l, h1, h2⟩ := h.log
  obtain ⟨l', h1', h2'⟩ := h'.log
  exact ⟨h.len.trans h'.len, h.keep.trans h'.keep, h.low.trans h'.low, h.grow.trans h'.grow, h.nn.trans h'.nn, l' ++ l, by rw [h1', h1]; simp, h2.trans h2'⟩

theorem Ext0.fresh {s s' : St} (h : Ext0 c s s') (f : Fresh s') : Ext c s s' := ⟨h, .inr f⟩

theorem Ext.refl (s : St) : Ext c s s := ⟨⟨Nat.le_refl _, .refl _, .refl _ _, .refl _, .refl _, [], rfl, KeepL.refl _ _⟩, .inl ⟨rfl, rfl⟩⟩
theorem Ext.trans {s s' s'' : St} (h : Ext c s s') (h' : Ext c s' s'') : Ext c s s'' := by
  refine ⟨h.toExt0.trans h'.toExt0, ?_⟩
  rcases h'.last with ⟨k1, k2⟩ | k
  · rcases h.last with ⟨l1, l2⟩ | ⟨x, tr, l1, l2⟩
    · exact .inl ⟨k1.trans l1, k2.trans l2⟩
    · exact .inr ⟨x, tr, k1.trans l1, l2.trans k2.symm⟩
  · exact .inr k

/-- A step without callback. -/
theorem Ext0.silent {s s' : St} (h1 : s.tris.length ≤ s'.tris.length) (h2 : Keep s.tris s'.tris) (h6 : NoRise c s.tris s'.tris) (h3 : Grow s.tris s'.tris)
    (h5 : NN s.tris s'.tris) (h4 : s'.trace = s.trace) : Ext0 c s s' := ⟨h1, h2, h6, h3, h5, [], h4, h2, h6⟩

/-- The front plays no role. -/
theorem Ext.silent {s s' : St} (h1 : s'.tris = s.tris) (h2 : s'.trace = s.trace) : Ext c s s' :=
  ⟨.silent (by rw [h1]) (by rw [h1]; exact .refl _) (by rw [h1]; exact .refl _ _) (by rw [h1]; exact .refl _) (by rw [h1]; exact .refl _) h2, .inl ⟨h2, h1⟩⟩

theorem St.fresh_emit (s : St) (e : Ev) : Fresh (s.emit e) := ⟨_, _, rfl, rfl⟩

theorem Ext.emit (s : St) (e : Ev) : Ext c s (s.emit e) :=
  ⟨⟨Nat.le_refl _, .refl _, .refl _ _, .refl _, .refl _, [(e, s.snap)], rfl, KeepL.refl _ _, KeepL.refl _ _⟩, .inr (s.fresh_emit e)⟩

/-- Between these two callbacks no flips of an edge insertion happened. -/
def Quiet (x y : Ev × Snap) : Prop := (∀ p q, y.1 ≠ .edge p q) ∧ ∀ t, y.1 = .willLegalize t → x.2.tris.length ≤ t

/-- No constraint gets lost from one callback to the next, except by edge insertion. -/
def StepLog (c : Ctx) (tr : List (Ev × Snap)) : Prop :=
  ∀ l1 y x l2, tr = l1 ++ y :: x :: l2 → Quiet x y → KeepL c x.2.tris y.2.tris

theorem StepLog.nil : StepLog c [] := by
  intro l1 y x l2 h; simp at h

theorem StepLog.cons {tr : List (Ev × Snap)} (h : StepLog c tr) {y : Ev × Snap}
    (hy : ∀ x l, tr = x :: l → Quiet x y → KeepL c x.2.tris y.2.tris) : StepLog c (y :: tr) := by
  intro l1 y' x l2 e hq
  cases l1 with
  | nil =>
    simp only [List.nil_append, List.cons.injEq] at e
    obtain ⟨rfl, e⟩ := e
    exact hy x l2 e hq
  | cons z l1 =>
    simp only [List.cons_append, List.cons.injEq] at e
    exact h l1 y' x l2 e.2 hq

/-- The last callback saw the present mesh (or there was none). -/
def HeadEq (s : St) : Prop := ∀ x l, s.trace = x :: l → x.2.tris = s.tris

theorem HeadEq.emit (s : St) (e : Ev) : HeadEq (s.emit e) := by
  intro x l h; cases h; rfl

theorem Steps.log {M0 : Store} {tr : List (Ev × Snap)} (h : StepLog c tr) (h0 : ∀ x l, tr = x :: l → KeepL c x.2.tris M0) :
    ∀ {l : List (Ev × Snap)} {M : Store}, Steps c M0 l M → StepLog c (l ++ tr) ∧ ∀ x l', l ++ tr = x :: l' → KeepL c x.2.tris M
  | [], M, hs => ⟨h, fun x l e => (h0 x l e).trans hs⟩
  | y :: l, M, hs => by
    obtain ⟨k1, k2⟩ := Steps.log h h0 hs.2
    refine ⟨k1.cons fun x l' e _ => k2 x l' e, ?_⟩
    intro x l' e
    cases e
    exact hs.1

theorem Ext.steps {s s' : St} (e : Ext c s s') (h : StepLog c s.trace) (hd : HeadEq s) : StepLog c s'.trace ∧ HeadEq s' := by
  obtain ⟨l, h1, h2⟩ := e.log
  refine ⟨?_, ?_⟩
  · rw [h1]
    exact (Steps.log h (fun x l e => by rw [hd x l e]; exact .refl _ _) h2).1
  · rcases e.last with ⟨k1, k2⟩ | ⟨x, tr, k1, k2⟩
    · intro x l e; rw [k2]; exact hd x l (k1.symm.trans e)
    · intro y l e; rw [k1] at e; cases e; exact k2

theorem SInv.emit {P s} (h : SInv c K Q P s) {e : Ev} (he : e.isLegal = true) (hd : ∀ {t}, e = .legalized t → BInv c NoP s.tris s.front.nodes)
    (hr : ∀ {t ot}, e = .rotated t ot → ∃ p a b op e f, Sl s.tris t p a b (some ot) e ∧ Sl s.tris ot op b a (some t) f ∧
    e.isConstrained = false ∧ Convex c p a b op ∧ 0 < inCircleDet (c.pos p) (c.pos a) (c.pos b) (c.pos op)) : SInv c K Q P (s.emit e) := by
  refine ⟨h.mesh, h.bd, h.front, ?_, h.one⟩
  intro x hx
  simp only [St.emit, List.mem_cons] at hx
  rcases hx with rfl | hx
  · exact ⟨h.mesh.mono (fun _ _ => trivial), h.front, ⟨P, h.bd⟩, fun k => by simp [he] at k, hr, hd⟩
  · exact h.trace x hx

theorem SInv.mono {P P'} {Q'} {s} (h : SInv c K Q P s) (hQ : ∀ t, Q t → Q' t) (hP : ∀ {t u v}, Bd s.tris t u v → P t v → P' t v) : SInv c K Q' P' s :=
  ⟨h.mesh.mono hQ, h.bd.mono hP, h.front, h.trace, h.one⟩

theorem legalizeLoop_spec {Q0 : Nat → Prop} {P0 : Nat → Nat → Prop} : ∀ (fuel : Nat) (s : St) (queue remap : List Nat),
    SInv c K (fun t => Q0 t ∨ t ∈ queue) (fun t v => P0 t v ∨ t ∈ remap) s → (∀ t ∈ queue, t < s.tris.length) →
    (∀ t ∈ remap, t < s.tris.length) →
    Spec (legalizeLoop c fuel s queue remap) (· = .fuel) fun (s', remap') =>
      SInv c K Q0 (fun t v => P0 t v ∨ t ∈ remap') s' ∧ Ext c s s' ∧ s'.front = s.front ∧ s'.tris.length = s.tris.length ∧
      (∀ t ∈ remap', t < s'.tris.length) ∧ FlatLe c s.tris s'.tris
  | fuel, s, [], remap, h, hq, hr => by
    rw [legalizeLoop]
    exact Spec.ok ⟨h.mono (by simp) (by simp), .refl _, rfl, rfl, hr, .refl _ _⟩
  | 0, s, t :: queue, remap, h, hq, hr => by
    rw [legalizeLoop]; exact Spec.error rfl
  | fuel + 1, s, t :: queue, remap, h, hq, hr => by
    rw [legalizeLoop]
    rcases firstIllegal_spec h.mesh (hq t (by simp)) with ⟨h1, h2⟩ | ⟨p, a, b, ot, op, e0, f0, h1, s0, o0, hc, hi⟩
    · rw [h1]
      have h' : SInv c K (fun t => Q0 t ∨ t ∈ queue) (fun t v => P0 t v ∨ t ∈ remap) s :=
        ⟨h.mesh.settle h2 (by simp; tauto), h.bd, h.front, h.trace, h.one⟩
      refine (legalizeLoop_spec fuel _ queue remap (h'.emit (e := .legalizeStep t) rfl (by simp) (by simp)) (fun x hx => hq x (by simp [hx])) hr).mono ?_
      rintro ⟨s', remap'⟩ ⟨q1, q2, q3, q4, q5, q6⟩
      exact ⟨q1, (Ext.emit s _).trans q2, q3, q4, q5, q6⟩
    · rw [h1]
      obtain ⟨cv, F, hF1, hF2, hF3, hF4, hF5, hF6, hF7, hF8, hp, ts1, ts2, k1, k2, k3, k4, k5, k6⟩ := flip_round h.mesh s0 o0 hi
      have s1 := h.emit (e := .rotated t ot) rfl (by simp) (by
        rintro t' ot' h'; cases h'; exact ⟨p, a, b, op, e0, f0, s0, o0, hc, cv, hi⟩)
      have hb := h.bd.flip h.mesh hp k2
      have hbn := (k2.bd hp h.mesh).2.2
      generalize hneed : (F.n1.isNone || F.n2.isNone || F.n3.isNone || F.n4.isNone) = need at k1 hbn
      have ext : Ext0 c (s.emit (.rotated t ot)) { (s.emit (.rotated t ot)) with tris := ts2 } :=
        .silent k6.ge ((k2.keep hp h.mesh (by rw [hF7]; exact hc)).trans k4.keep) ((k2.low hp h.mesh (by rw [hF3, hF4, hF5, hF6]; exact cv) (by rw [hF3, hF4, hF5, hF6]; exact hi)).trans k4.low) ((k2.grow hp h.mesh).trans k4.grow)
          (flip_nn h.mesh s0 o0 hi hc k1 k3) rfl
      have lot : ot < s.tris.length := o0.lt
      have fl : FlatLe c s.tris ts2 := (k2.flat hp (by rw [hF3, hF4, hF5, hF6]; exact cv)).trans k4.flat
      have hb2 : BInv c (fun y v => P0 y v ∨ y ∈ (if need then remap ++ [t, ot] else remap)) ts2 s.front.nodes := by
        refine BInv.congr ?_ k4.bd
        cases need with
        | true =>
          refine hb.mono ?_
          rintro y u v - hh
          rw [hF1, hF2] at hh
          simp
          tauto
        | false =>
          exact h.bd.congr fun t u v => hbn rfl
      have hs : SInv c K (fun y => Q0 y ∨ y ∈ ot :: t :: queue)
          (fun y v => P0 y v ∨ y ∈ (if need then remap ++ [t, ot] else remap))
          { (s.emit (.rotated t ot)) with tris := ts2 } :=
        ⟨k5.mono (by simp; tauto), hb2, h.front, s1.trace, h.one.mono ((k2.grow hp h.mesh).trans k4.grow) fl⟩
      have := legalizeLoop_spec fuel _ (ot :: t :: queue) (if need then remap ++ [t, ot] else remap)
        (hs.emit (e := .legalizeStep t) rfl (by simp) (by simp)) (by
          intro x hx
          show x < ts2.length
          rw [k6]
          simp only [List.mem_cons] at hx
          rcases hx with rfl | rfl | hx
          · exact lot
          · exact hq x (by simp)
          · exact hq x (by simp [hx])) (by
          intro x hx
          show x < ts2.length
          rw [k6]
          cases need with
          | true =>
            simp only [if_true, List.mem_append, List.mem_cons, List.not_mem_nil, or_false] at hx
            rcases hx with hx | rfl | rfl
            · exact hr x hx
            · exact hq x (by simp)
            · exact lot
          | false => exact hr x (by simpa using hx))
      have e1 : Store.rotatePair (s.emit (.rotated t ot)).tris t p ot op = .ok (ts1, need) := k1
      simp only [ok_bind, e1, k3]
      refine this.mono ?_
      rintro ⟨s', remap'⟩ ⟨q1, q2, q3, q4, q5, q6⟩
      exact ⟨q1, (Ext.emit s _).trans (((ext.trans (Ext.emit _ _).toExt0).fresh (St.fresh_emit _ _)).trans q2), q3, q4.trans k6, q5, fl.trans q6⟩

theorem legalize_spec {Q0 : Nat → Prop} {fuel : Nat} {s : St} {t : Nat}
    (h : SInv c K (fun y => Q0 y ∨ y = t) (fun y v => NoP y v ∨ y = t) s) (ht : t < s.tris.length) :
    Spec (legalize c fuel s t) (· = .fuel) fun s' =>
      SInv c K Q0 NoP s' ∧ Ext c s s' ∧ s'.front.shape = s.front.shape ∧ s'.tris.length = s.tris.length ∧ Fresh s' ∧ FlatLe c s.tris s'.tris := by
  unfold legalize
  have h1 : SInv c K (fun y => Q0 y ∨ y ∈ [t]) (fun y v => NoP y v ∨ y ∈ [t]) (s.emit (.willLegalize t)) :=
    (h.mono (by simp) (by simp)).emit rfl (by simp) (by simp)
  refine Spec.bind (legalizeLoop_spec fuel _ [t] [t] h1 (by simpa [St.emit] using ht) (by simpa [St.emit] using ht)) ?_
  rintro ⟨s1, remap⟩ ⟨q1, q2, q3, q4, q5, q6⟩
  obtain ⟨f', k1, k2, k3, k4⟩ := mapAll_spec remap q1.mesh q5 q1.bd q1.front
  simp only [k1, ok_bind]
  have fin : SInv c K Q0 NoP { s1 with front := f' } :=
    ⟨q1.mesh, k3.mono (by rintro y u v - ⟨h1, h2⟩; exact h1.resolve_right h2), k2, q1.trace, q1.one⟩
  refine Spec.ok ⟨fin.emit rfl (fun _ => fin.bd) (by simp), (Ext.emit s _).trans (q2.trans ((Ext.silent (s := s1) (s' := { s1 with front := f' }) rfl rfl).trans (Ext.emit _ _))), ?_, q4, St.fresh_emit _ _, q6⟩
  · exact k4.trans (by rw [q3]; rfl)

theorem legalize_first {fuel : Nat} {s s' : St} {t : Nat} (h : legalize c fuel s t = .ok s') :
    ∃ l, s'.trace = l ++ (.willLegalize t, s.snap) :: s.trace := by
  simp only [legalize, bind_ok, pure_ok, Except.ok.injEq] at h
  obtain ⟨⟨s1, r⟩, h1, s2, h2, rfl⟩ := h
  obtain ⟨l1, k1, -⟩ := (legalizeLoop_evolve0 h1).trace
  obtain ⟨l2, k2, -⟩ := (mapAll_evolve h2).trace
  exact ⟨(.legalized t, s2.snap) :: (l2 ++ l1), by simp only [St.emit] at k1 k2 ⊢; rw [k2, k1]; simp [St.snap]⟩

/-- Legalization after an edge insertion. -/
theorem legalize_steps {fuel : Nat} {s s' : St} {t : Nat} (h : legalize c fuel s t = .ok s') (e : Ext c s s') (ht : t < s.tris.length)
    (hl : StepLog c s.trace) (hd : ∀ x l, s.trace = x :: l → x.2.tris.length = s.tris.length) : StepLog c s'.trace := by
  obtain ⟨l, h1, h2⟩ := e.log
  obtain ⟨l', h3⟩ := legalize_first h
  have : l = l' ++ [(.willLegalize t, s.snap)] := by
    have := h1.symm.trans h3
    rw [List.append_cons] at this
    exact List.append_cancel_right this
  subst this
  rw [h1, List.append_assoc]
  have key : StepLog c ((Ev.willLegalize t, s.snap) :: s.trace) := by
    refine hl.cons ?_
    rintro x l e ⟨-, q⟩
    have := q t rfl
    rw [hd x l e] at this
    omega
  have h4 : ∀ {l' : List (Ev × Snap)} {M : Store} {y : Ev × Snap}, Steps c s.tris (l' ++ [y]) M → Steps c y.2.tris l' M := by
    intro l'
    induction l' with
    | nil => intro M y h; exact h.1
    | cons z l' ih => intro M y h; exact ⟨h.1, ih h.2⟩
  exact (Steps.log key (fun x l e => by cases e; exact .refl _ _) (h4 h2)).1

theorem legalizeAll_spec {Q0 : Nat → Prop} {fuel : Nat} : ∀ (l : List Nat) {s : St},
    SInv c K (fun y => Q0 y ∨ y ∈ l) NoP s → (∀ t ∈ l, t < s.tris.length) →
    Spec (legalizeAll c fuel l s) (· = .fuel) fun s' =>
      (SInv c K Q0 NoP s' ∧ Ext c s s' ∧ s'.front.shape = s.front.shape ∧ s'.tris.length = s.tris.length) ∧
      (StepLog c s.trace → (∀ x l, s.trace = x :: l → x.2.tris.length = s.tris.length) → StepLog c s'.trace)
  | [], s, h, hl => Spec.ok ⟨⟨h.mono (by simp) (by tauto), .refl _, rfl, rfl⟩, fun k _ => k⟩
  | t :: l, s, h, hl => by
    simp only [legalizeAll]
    refine Spec.bind (legalize_spec (Q0 := fun y => Q0 y ∨ y ∈ l) (h.mono (by simp; tauto) (by tauto)) (hl t (by simp)) |> Spec.withEq) ?_
    rintro s1 ⟨⟨h1, h2, h3, h4, h5, -⟩, h6⟩
    refine (legalizeAll_spec l h1 (fun x hx => by rw [h4]; exact hl x (by simp [hx]))).mono ?_
    rintro s2 ⟨⟨k1, k2, k3, k4⟩, k5⟩
    refine ⟨⟨k1, h2.trans k2, k3.trans h3, k4.trans h4⟩, fun j1 j2 => k5 (legalize_steps h6 h2 (hl t (by simp)) j1 j2) ?_⟩
    obtain ⟨y, tr, q1, q2⟩ := h5
    intro x l e
    rw [q1] at e; cases e
    rw [q2]

end P2T
