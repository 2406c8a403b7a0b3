import Verif.Proofs.PointEv

/-!
# Filling during edge events
-/

set_option linter.unusedSectionVars false

namespace P2T

variable {c : Ctx} {K : Prop}

/-- How an edge event may fail: a panic, a ghost trap, or the unchecked read of a missing neighbour. -/
def EErr (e : Err) : Prop := e = .fuel ∨ (∃ m, e = .panic m) ∨ (∃ m, e = .trapped m) ∨ e = .ub "get_unchecked of INVALID"

theorem EErr.panic {m} : EErr (.panic m) := .inr (.inl ⟨m, rfl⟩)
theorem EErr.fuel : EErr .fuel := .inl rfl
theorem EErr.trapped {m} : EErr (.trapped m) := .inr (.inr (.inl ⟨m, rfl⟩))
theorem EErr.ofFuel {e} (h : e = Err.fuel) : EErr e := .inl h

theorem unwrap_spec {α} {o : Option α} {m : String} : Spec (unwrap o m) EErr fun a => o = some a := by
  cases o with
  | none => exact Spec.error .panic
  | some a => exact Spec.ok rfl

theorem Spec.fuelE {α} {m : Except Err α} {Q : α → Prop} (h : Spec m (· = .fuel) Q) : Spec m EErr Q :=
  h.monoE fun _ => EErr.ofFuel

/-- How the filling of an edge event may fail. -/
def FErr (e : Err) : Prop := e = .fuel ∨ (∃ m, e = .panic m) ∨ e = .trapped "698" ∨ e = .ub "get_unchecked of INVALID"

theorem FErr.panic {m} : FErr (.panic m) := .inr (.inl ⟨m, rfl⟩)
theorem FErr.fuel : FErr .fuel := .inl rfl
theorem FErr.trapped : FErr (.trapped "698") := .inr (.inr (.inl rfl))
theorem FErr.ofFuel {e} (h : e = Err.fuel) : FErr e := .inl h
theorem FErr.toE {e} (h : FErr e) : EErr e := by
  rcases h with h | h | h | h
  · exact .inl h
  · exact .inr (.inl h)
  · exact .inr (.inr (.inl ⟨_, h⟩))
  · exact .inr (.inr (.inr h))
theorem FErr.notCol {e} (h : FErr e) : e ≠ .trapped "collinear" := by
  rcases h with rfl | ⟨m, rfl⟩ | rfl | rfl <;> simp

theorem unwrapF_spec {α} {o : Option α} {m : String} : Spec (unwrap o m) FErr fun a => o = some a := by
  cases o with
  | none => exact Spec.error .panic
  | some a => exact Spec.ok rfl

theorem Spec.fuelF {α} {m : Except Err α} {Q : α → Prop} (h : Spec m (· = .fuel) Q) : Spec m FErr Q :=
  h.monoE fun _ => FErr.ofFuel

theorem fillRightConcave_spec {fuel0 : Nat} {e : CEdge} : ∀ (fuel : Nat) {s : St} {Q0 : Nat → Prop}, SInv c K Q0 NoP s →
    ∀ {L R : List Nat} {a n x : Nat} {id : NodeId}, s.front.pids = L ++ a :: n :: x :: R → IdFor c id a →
    0 < det2 (c.pos a) (c.pos n) (c.pos x) →
    Spec (fillRightConcave c fuel0 e fuel s id) FErr fun s' =>
      SInv c K Q0 NoP s' ∧ Ext c s s' ∧ ∃ R', s'.front.pids = L ++ a :: R'
  | 0, s, Q0, h, L, R, a, n, x, id, hs, hid, hd => Spec.error .fuel
  | fuel + 1, s, Q0, h, L, R, a, n, x, id, hs, hid, hd => by
    unfold fillRightConcave
    obtain ⟨r, k1, k2⟩ := h.front.pLocNext hs hid
    simp only [k1, unwrap_some, ok_bind]
    refine Spec.bind (fillOne_spec h hs k2.id (h.front.mkW hs hd.le) fun k => (hd.ne' k).elim).fuelF ?_
    rintro ⟨s1, ro⟩ ⟨q1, q2, q3, fo, rfl, q4, q5⟩
    dsimp only
    have fin : Spec (pure s1 : Except Err St) FErr fun s' => SInv c K Q0 NoP s' ∧ Ext c s s' ∧ ∃ R', s'.front.pids = L ++ a :: R' :=
      Spec.ok ⟨q1, q2, _, q3⟩
    split
    · split
      · refine Spec.bind unwrapF_spec ?_
        intro nn hnn
        cases R with
        | nil => rw [q1.front.pLocNext_nil (L := L ++ [a]) (p := x) (by rw [q3]; simp) q5] at hnn; cases hnn
        | cons y R =>
          obtain ⟨ry, j1, j2⟩ := q1.front.pLocNext (L := L ++ [a]) (p := x) (x := y) (R := R) (by rw [q3]; simp) q5
          rw [j1] at hnn; cases hnn
          split
          · rename_i ho
            rw [hid.2, q5.2, j2.pt, orient_ccw] at ho
            refine (fillRightConcave_spec fuel q1 q3 hid ho).mono ?_
            rintro s2 ⟨j1, j2, j3⟩
            exact ⟨j1, q2.trans j2, j3⟩
          · exact fin
      · exact fin
    · exact fin

/-- The right convex scan, with the branch at line 698 excluded or repaired. -/
theorem fillRightConvex_spec {g : Trap} (hg : g.Tame) {fuel0 : Nat} {e : CEdge} : ∀ (fuel : Nat) {s : St} {Q0 : Nat → Prop},
    SInv c K Q0 NoP s → ∀ {L R : List Nat} {a : Nat} {id : NodeId}, s.front.pids = L ++ a :: R → IdFor c id a →
    Spec (fillRightConvex g c fuel0 e fuel s id) FErr fun r =>
      SInv c K Q0 NoP r.1 ∧ Ext c s r.1 ∧ ∃ R', r.1.front.pids = L ++ a :: R'
  | 0, s, Q0, h, L, R, a, id, hs, hid => Spec.error .fuel
  | fuel + 1, s, Q0, h, L, R, a, id, hs, hid => by
    unfold fillRightConvex
    refine Spec.bind unwrapF_spec ?_
    intro n1 hn1
    refine Spec.bind unwrapF_spec ?_
    intro n2 hn2
    have fin : ∀ b, Spec (pure (s, b) : Except Err (St × Bool)) FErr fun r =>
        SInv c K Q0 NoP r.1 ∧ Ext c s r.1 ∧ ∃ R', r.1.front.pids = L ++ a :: R' :=
      fun b => Spec.ok ⟨h, .refl _, _, hs⟩
    cases R with
    | nil => rw [h.front.pLocNext_nil hs hid] at hn1; cases hn1
    | cons n R =>
    obtain ⟨rn, k1, k2⟩ := h.front.pLocNext hs hid
    rw [k1] at hn1; cases hn1
    cases R with
    | nil => rw [h.front.pNext_nil k2] at hn2; cases hn2
    | cons x R =>
    obtain ⟨rx, k3, k4⟩ := h.front.pNext k2
    rw [k3] at hn2; cases hn2
    cases R with
    | nil => rw [h.front.pNext_nil k4]; exact fin _
    | cons y R =>
    obtain ⟨ry, k5, k6⟩ := h.front.pNext k4
    rw [k5]
    dsimp only
    split
    · rename_i ho
      rw [k2.pt, k4.pt, k6.pt, orient_ccw] at ho
      split
      · exact Spec.error .trapped
      rename_i hl
      rw [if_pos (hg.tame.resolve_left hl)]
      refine Spec.bind (fillRightConcave_spec fuel0 h (L := L ++ [a]) (a := n) (n := x) (x := y) (R := R) (by rw [hs]; simp) k2.id ho) ?_
      rintro s1 ⟨j1, j2, R', j3⟩
      exact Spec.ok ⟨j1, j2, n :: R', by rw [j3]; simp⟩
    · split
      · refine (fillRightConvex_spec hg fuel h (L := L ++ [a]) (a := n) (R := x :: y :: R) (by rw [hs]; simp) k2.id).mono ?_
        rintro s1 ⟨j1, j2, R', j3⟩
        exact ⟨j1, j2, n :: R', by rw [j3]; simp⟩
      · exact fin _

theorem fillRightBelow_spec {g : Trap} (hg : g.Tame) {fuel0 : Nat} {e : CEdge} : ∀ (fuel : Nat) {s : St} {Q0 : Nat → Prop},
    SInv c K Q0 NoP s → ∀ {L R : List Nat} {a : Nat} {id : NodeId}, s.front.pids = L ++ a :: R → IdFor c id a →
    Spec (fillRightBelow g c fuel0 e fuel s id) FErr fun s' =>
      SInv c K Q0 NoP s' ∧ Ext c s s' ∧ ∃ R', s'.front.pids = L ++ a :: R'
  | 0, s, Q0, h, L, R, a, id, hs, hid => Spec.error .fuel
  | fuel + 1, s, Q0, h, L, R, a, id, hs, hid => by
    unfold fillRightBelow
    have fin : Spec (pure s : Except Err St) FErr fun s' => SInv c K Q0 NoP s' ∧ Ext c s s' ∧ ∃ R', s'.front.pids = L ++ a :: R' :=
      Spec.ok ⟨h, .refl _, _, hs⟩
    split
    · exact fin
    · obtain ⟨r, k1, k2⟩ := h.front.pGetId hs hid
      simp only [k1, unwrap_some, ok_bind]
      refine Spec.bind unwrapF_spec ?_
      intro n1 hn1
      refine Spec.bind unwrapF_spec ?_
      intro n2 hn2
      cases R with
      | nil => rw [h.front.pNext_nil k2] at hn1; cases hn1
      | cons n R =>
        obtain ⟨rn, k3, k4⟩ := h.front.pNext k2
        rw [k3] at hn1; cases hn1
        cases R with
        | nil => rw [h.front.pNext_nil k4] at hn2; cases hn2
        | cons x R =>
          obtain ⟨rx, k5, k6⟩ := h.front.pNext k4
          rw [k5] at hn2; cases hn2
          split
          · rename_i ho
            rw [k2.pt, k4.pt, k6.pt, orient_ccw] at ho
            exact fillRightConcave_spec fuel0 h hs hid ho
          · refine Spec.bind (fillRightConvex_spec hg fuel0 h hs hid) ?_
            rintro ⟨s1, b⟩ ⟨q1, q2, R', q3⟩
            dsimp only
            split
            · refine (fillRightBelow_spec hg fuel q1 q3 hid).mono ?_
              rintro s2 ⟨j1, j2, j3⟩
              exact ⟨j1, q2.trans j2, j3⟩
            · exact Spec.ok ⟨q1, q2, _, q3⟩

theorem fillRightAbove_spec {g : Trap} (hg : g.Tame) {fuel0 : Nat} {e : CEdge} : ∀ (fuel : Nat) {s : St} {Q0 : Nat → Prop},
    SInv c K Q0 NoP s → ∀ {L R : List Nat} {a : Nat} {id : NodeId}, s.front.pids = L ++ a :: R → IdFor c id a →
    Spec (fillRightAbove g c fuel0 e fuel s id) FErr fun s' =>
      SInv c K Q0 NoP s' ∧ Ext c s s' ∧ ∃ R', s'.front.pids = L ++ a :: R'
  | 0, s, Q0, h, L, R, a, id, hs, hid => Spec.error .fuel
  | fuel + 1, s, Q0, h, L, R, a, id, hs, hid => by
    unfold fillRightAbove
    have fin : Spec (pure s : Except Err St) FErr fun s' => SInv c K Q0 NoP s' ∧ Ext c s s' ∧ ∃ R', s'.front.pids = L ++ a :: R' :=
      Spec.ok ⟨h, .refl _, _, hs⟩
    cases R with
    | nil => rw [h.front.pLocNext_nil hs hid]; exact fin
    | cons n R =>
      obtain ⟨r, k1, k2⟩ := h.front.pLocNext hs hid
      rw [k1]
      dsimp only
      split
      · exact fin
      · split
        · refine Spec.bind (fillRightBelow_spec hg fuel0 h hs hid) ?_
          rintro s1 ⟨q1, q2, R', q3⟩
          refine (fillRightAbove_spec hg fuel q1 q3 hid).mono ?_
          rintro s2 ⟨j1, j2, j3⟩
          exact ⟨j1, q2.trans j2, j3⟩
        · refine (fillRightAbove_spec hg fuel h (L := L ++ [a]) (a := n) (R := R) (by rw [hs]; simp) k2.id).mono ?_
          rintro s2 ⟨j1, j2, R', j3⟩
          exact ⟨j1, j2, n :: R', by rw [j3]; simp⟩

theorem det2_rev (p q r : Point) : det2 p q r = - det2 r q p := by unfold det2; ring

theorem fillLeftConcave_spec {fuel0 : Nat} {e : CEdge} : ∀ (fuel : Nat) {s : St} {Q0 : Nat → Prop}, SInv c K Q0 NoP s →
    ∀ {L R : List Nat} {a n x : Nat} {id : NodeId}, s.front.pids = L ++ x :: n :: a :: R → IdFor c id a →
    0 < det2 (c.pos x) (c.pos n) (c.pos a) →
    Spec (fillLeftConcave c fuel0 e fuel s id) FErr fun s' =>
      SInv c K Q0 NoP s' ∧ Ext c s s' ∧ ∃ L', s'.front.pids = L' ++ a :: R
  | 0, s, Q0, h, L, R, a, n, x, id, hs, hid, hd => Spec.error .fuel
  | fuel + 1, s, Q0, h, L, R, a, n, x, id, hs, hid, hd => by
    unfold fillLeftConcave
    obtain ⟨r, k1, k2⟩ := h.front.pLocPrev (L := L ++ [x]) (x := n) (p := a) (R := R) (by rw [hs]; simp) hid
    simp only [k1, unwrap_some, ok_bind]
    refine Spec.bind (fillOne_spec h hs k2.id (h.front.mkW hs hd.le) fun k => (hd.ne' k).elim).fuelF ?_
    rintro ⟨s1, ro⟩ ⟨q1, q2, q3, fo, rfl, q4, q5⟩
    dsimp only
    have fin : Spec (pure s1 : Except Err St) FErr fun s' => SInv c K Q0 NoP s' ∧ Ext c s s' ∧ ∃ L', s'.front.pids = L' ++ a :: R :=
      Spec.ok ⟨q1, q2, L ++ [x], by rw [q3]; simp⟩
    split
    · split
      · obtain ⟨rx, k3, k4⟩ := q1.front.pGetId q3 q4
        simp only [k3, unwrap_some, ok_bind]
        refine Spec.bind unwrapF_spec ?_
        intro pp hpp
        rcases eq_nil_or_snoc L with rfl | ⟨L, y, rfl⟩
        · rw [q1.front.pPrev_nil k4] at hpp; cases hpp
        · obtain ⟨ry, j1, j2⟩ := q1.front.pPrev k4
          rw [j1] at hpp; cases hpp
          split
          · rename_i ho
            rw [hid.2, k4.pt, j2.pt, orient_cw] at ho
            refine (fillLeftConcave_spec fuel q1 (L := L) (x := y) (n := x) (R := R) (by rw [q3]; simp) hid ?_).mono ?_
            · rw [det2_rev]; linarith
            rintro s2 ⟨j1, j2, j3⟩
            exact ⟨j1, q2.trans j2, j3⟩
          · exact fin
      · exact fin
    · exact fin

theorem fillLeftConvex_spec {fuel0 : Nat} {e : CEdge} : ∀ (fuel : Nat) {s : St} {Q0 : Nat → Prop},
    SInv c K Q0 NoP s → ∀ {L R : List Nat} {a : Nat} {id : NodeId}, s.front.pids = L ++ a :: R → IdFor c id a →
    Spec (fillLeftConvex c fuel0 e fuel s id) FErr fun r =>
      SInv c K Q0 NoP r.1 ∧ Ext c s r.1 ∧ ∃ L', r.1.front.pids = L' ++ a :: R
  | 0, s, Q0, h, L, R, a, id, hs, hid => Spec.error .fuel
  | fuel + 1, s, Q0, h, L, R, a, id, hs, hid => by
    unfold fillLeftConvex
    refine Spec.bind unwrapF_spec ?_
    intro n1 hn1
    refine Spec.bind unwrapF_spec ?_
    intro n2 hn2
    have fin : ∀ b, Spec (pure (s, b) : Except Err (St × Bool)) FErr fun r =>
        SInv c K Q0 NoP r.1 ∧ Ext c s r.1 ∧ ∃ L', r.1.front.pids = L' ++ a :: R :=
      fun b => Spec.ok ⟨h, .refl _, _, hs⟩
    rcases eq_nil_or_snoc L with rfl | ⟨L, n, rfl⟩
    · rw [h.front.pLocPrev_nil hs hid] at hn1; cases hn1
    obtain ⟨rn, k1, k2⟩ := h.front.pLocPrev hs hid
    rw [k1] at hn1; cases hn1
    rcases eq_nil_or_snoc L with rfl | ⟨L, x, rfl⟩
    · rw [h.front.pPrev_nil k2] at hn2; cases hn2
    obtain ⟨rx, k3, k4⟩ := h.front.pPrev k2
    rw [k3] at hn2; cases hn2
    rcases eq_nil_or_snoc L with rfl | ⟨L, y, rfl⟩
    · rw [h.front.pPrev_nil k4]; exact fin _
    obtain ⟨ry, k5, k6⟩ := h.front.pPrev k4
    rw [k5]
    dsimp only
    split
    · rename_i ho
      rw [k2.pt, k4.pt, k6.pt, orient_cw] at ho
      refine Spec.bind (fillLeftConcave_spec fuel0 h (L := L) (x := y) (n := x) (a := n) (R := a :: R) (by rw [hs]; simp) k2.id
        (by rw [det2_rev]; linarith)) ?_
      rintro s1 ⟨j1, j2, L', j3⟩
      exact Spec.ok ⟨j1, j2, L' ++ [n], by rw [j3]; simp⟩
    · split
      · refine (fillLeftConvex_spec fuel h (L := L ++ [y] ++ [x]) (a := n) (R := a :: R) (by rw [hs]; simp) k2.id).mono ?_
        rintro s1 ⟨j1, j2, L', j3⟩
        exact ⟨j1, j2, L' ++ [n], by rw [j3]; simp⟩
      · exact fin _

theorem fillLeftBelow_spec {fuel0 : Nat} {e : CEdge} : ∀ (fuel : Nat) {s : St} {Q0 : Nat → Prop},
    SInv c K Q0 NoP s → ∀ {L R : List Nat} {a : Nat} {id : NodeId}, s.front.pids = L ++ a :: R → IdFor c id a →
    Spec (fillLeftBelow c fuel0 e fuel s id) FErr fun s' =>
      SInv c K Q0 NoP s' ∧ Ext c s s' ∧ ∃ L', s'.front.pids = L' ++ a :: R
  | 0, s, Q0, h, L, R, a, id, hs, hid => Spec.error .fuel
  | fuel + 1, s, Q0, h, L, R, a, id, hs, hid => by
    unfold fillLeftBelow
    have fin : Spec (pure s : Except Err St) FErr fun s' => SInv c K Q0 NoP s' ∧ Ext c s s' ∧ ∃ L', s'.front.pids = L' ++ a :: R :=
      Spec.ok ⟨h, .refl _, _, hs⟩
    split
    · refine Spec.bind unwrapF_spec ?_
      intro n1 hn1
      refine Spec.bind unwrapF_spec ?_
      intro n2 hn2
      rcases eq_nil_or_snoc L with rfl | ⟨L, n, rfl⟩
      · rw [h.front.pLocPrev_nil hs hid] at hn1; cases hn1
      obtain ⟨rn, k1, k2⟩ := h.front.pLocPrev hs hid
      rw [k1] at hn1; cases hn1
      rcases eq_nil_or_snoc L with rfl | ⟨L, x, rfl⟩
      · rw [h.front.pPrev_nil k2] at hn2; cases hn2
      obtain ⟨rx, k3, k4⟩ := h.front.pPrev k2
      rw [k3] at hn2; cases hn2
      split
      · rename_i ho
        rw [hid.2, k2.pt, k4.pt, orient_cw] at ho
        exact fillLeftConcave_spec fuel0 h (L := L) (x := x) (n := n) (by rw [hs]; simp) hid (by rw [det2_rev]; linarith)
      · refine Spec.bind (fillLeftConvex_spec fuel0 h hs hid) ?_
        rintro ⟨s1, b⟩ ⟨q1, q2, L', q3⟩
        dsimp only
        split
        · refine (fillLeftBelow_spec fuel q1 q3 hid).mono ?_
          rintro s2 ⟨j1, j2, j3⟩
          exact ⟨j1, q2.trans j2, j3⟩
        · exact Spec.ok ⟨q1, q2, _, q3⟩
    · exact fin

theorem fillLeftAbove_spec {fuel0 : Nat} {e : CEdge} : ∀ (fuel : Nat) {s : St} {Q0 : Nat → Prop},
    SInv c K Q0 NoP s → ∀ {L R : List Nat} {a : Nat} {id : NodeId}, s.front.pids = L ++ a :: R → IdFor c id a →
    Spec (fillLeftAbove c fuel0 e fuel s id) FErr fun s' =>
      SInv c K Q0 NoP s' ∧ Ext c s s' ∧ ∃ L', s'.front.pids = L' ++ a :: R
  | 0, s, Q0, h, L, R, a, id, hs, hid => Spec.error .fuel
  | fuel + 1, s, Q0, h, L, R, a, id, hs, hid => by
    unfold fillLeftAbove
    have fin : Spec (pure s : Except Err St) FErr fun s' => SInv c K Q0 NoP s' ∧ Ext c s s' ∧ ∃ L', s'.front.pids = L' ++ a :: R :=
      Spec.ok ⟨h, .refl _, _, hs⟩
    rcases eq_nil_or_snoc L with rfl | ⟨L, n, rfl⟩
    · rw [h.front.pLocPrev_nil hs hid]; exact fin
    obtain ⟨r, k1, k2⟩ := h.front.pLocPrev hs hid
    rw [k1]
    dsimp only
    split
    · exact fin
    · split
      · refine Spec.bind (fillLeftBelow_spec fuel0 h hs hid) ?_
        rintro s1 ⟨q1, q2, L', q3⟩
        refine (fillLeftAbove_spec fuel q1 q3 hid).mono ?_
        rintro s2 ⟨j1, j2, j3⟩
        exact ⟨j1, q2.trans j2, j3⟩
      · refine (fillLeftAbove_spec fuel h (L := L) (a := n) (R := a :: R) (by rw [hs]; simp) k2.id).mono ?_
        rintro s2 ⟨j1, j2, L', j3⟩
        exact ⟨j1, j2, L' ++ [n], by rw [j3]; simp⟩

theorem fillEdgeEvent_spec {g : Trap} (hg : g.Tame) {fuel : Nat} {e : CEdge} {s : St} {Q0 : Nat → Prop}
    (h : SInv c K Q0 NoP s) {a : Nat} {id : NodeId} (ha : a ∈ s.front.pids) (hid : IdFor c id a) :
    Spec (fillEdgeEvent g c fuel s e id) FErr fun s' =>
      SInv c K Q0 NoP s' ∧ Ext c s s' ∧ a ∈ s'.front.pids := by
  obtain ⟨L, R, hs⟩ := List.append_of_mem ha
  unfold fillEdgeEvent
  split
  · refine (fillRightAbove_spec hg fuel h hs hid).mono ?_
    rintro s' ⟨j1, j2, R', j3⟩
    exact ⟨j1, j2, by rw [j3]; simp⟩
  · refine (fillLeftAbove_spec fuel h hs hid).mono ?_
    rintro s' ⟨j1, j2, L', j3⟩
    exact ⟨j1, j2, by rw [j3]; simp⟩

end P2T
