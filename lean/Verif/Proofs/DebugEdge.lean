import Verif.Proofs.DebugFill

/-!
# The assertions met by the filling of edge events
-/

set_option linter.unusedSectionVars false

namespace P2T

variable {c : Ctx} {K : Prop}

/-- The constrained edge has two different ends. -/
structure EOk (c : Ctx) (e : CEdge) : Prop where
  lt : e.pId < c.points.length
  p : e.p = c.pos e.pId
  ne : e.q ≠ e.p

/-- At or right of `q`. -/
def Ge (q p : Point) : Prop := q = p ∨ keyLt q p
/-- At or left of `q`. -/
def Le (q p : Point) : Prop := q = p ∨ keyLt p q

theorem Ge.trans {q p r : Point} (h : Ge q p) (h' : keyLt p r) : keyLt q r := by
  rcases h with rfl | h
  · exact h'
  · exact keyLt_trans h h'

theorem Le.trans {q p r : Point} (h : Le q p) (h' : keyLt r p) : keyLt r q := by
  rcases h with rfl | h
  · exact h'
  · exact keyLt_trans h' h

theorem EOk.ne_p {e : CEdge} (he : EOk c e) (g : Good c) {id : NodeId} (hid : IdOk c id) (h : id.pid ≠ e.pId) : id.pt ≠ e.p := by
  intro k
  rw [hid.2, he.p] at k
  exact h (g.inj _ _ hid.1 he.lt k)

theorem fillRightConcaveD_ok (g : Good c) {fuel0 : Nat} {e : CEdge} (he : EOk c e) : ∀ (fuel : Nat) {s : St} {id : NodeId}, Cur c K s → IdOk c id →
    Ge e.q id.pt → SimT c K St.self (fillRightConcave c fuel0 e fuel s id) (fillRightConcaveD c fuel0 e fuel s id)
  | 0, s, id, h, hid, hq => .err _ _
  | fuel + 1, s, id, h, hid, hq => by
    unfold fillRightConcave fillRightConcaveD
    refine .bindr _ fun n hn => ?_
    rw [unwrap_ok] at hn
    obtain ⟨g1, g2, g3⟩ := h.front.locNext hid hn
    refine SimT.bind (fillOneD_ok h) ?_ ?_
    · rintro ⟨s1, r⟩ h2 h3
      obtain ⟨i1, i2⟩ := fillOne_ids h.front g2 h2
      have key : ∀ nid : NodeId, IdOk c nid → keyLt id.pt nid.pt →
        SimT c K St.self (if nid.pid ≠ e.pId then
          if orient2d e.q nid.pt e.p = .ccw then do
            let nn ← unwrap (s1.front.locateNext nid) "concave next next"
            if orient2d id.pt nid.pt nn.pt = .ccw then fillRightConcave c fuel0 e fuel s1 id
            else pure s1
          else pure s1
        else pure s1) (if nid.pid ≠ e.pId then do
          let o ← orientD e.q nid.pt e.p
          if o = .ccw then do
            let nn ← unwrap (s1.front.locateNext nid) "concave next next"
            let o' ← orientD id.pt nid.pt nn.pt
            if o' = .ccw then fillRightConcaveD c fuel0 e fuel s1 id
            else pure s1
          else pure s1
        else pure s1) := by
        intro nid k1 k2
        refine .ite (fun hp => ?_) fun _ => .ok h3
        rw [orientD_ok (keyLt_ne (hq.trans k2)) he.ne (he.ne_p g k1 hp), ok_bind]
        refine .ite (fun _ => ?_) fun _ => .ok h3
        refine .bindr _ fun nn hnn => ?_
        rw [unwrap_ok] at hnn
        obtain ⟨l1, l2, l3⟩ := h3.front.locNext k1 hnn
        rw [orientD_asc k2 l3, ok_bind]
        exact .ite (fun _ => fillRightConcaveD_ok g he fuel h3 hid hq) fun _ => .ok h3
      cases r with
      | none => exact key _ g2 g3
      | some fo =>
        obtain ⟨_, j1, _, j2⟩ := i2 fo rfl
        exact key _ j1 (keyLt_trans g3 j2)
    · rintro ⟨s1, r⟩ b hb
      cases r <;> dsimp only at hb
      all_goals
        split at hb
        · split at hb
          · simp only [bind_ok] at hb
            obtain ⟨nn, -, hb⟩ := hb
            split at hb
            · exact fillRightConcave_evolve hb
            · cases hb; exact .refl _
          · cases hb; exact .refl _
        · cases hb; exact .refl _

theorem fillLeftConcaveD_ok (g : Good c) {fuel0 : Nat} {e : CEdge} (he : EOk c e) : ∀ (fuel : Nat) {s : St} {id : NodeId}, Cur c K s → IdOk c id →
    Le e.q id.pt → SimT c K St.self (fillLeftConcave c fuel0 e fuel s id) (fillLeftConcaveD c fuel0 e fuel s id)
  | 0, s, id, h, hid, hq => .err _ _
  | fuel + 1, s, id, h, hid, hq => by
    unfold fillLeftConcave fillLeftConcaveD
    refine .bindr _ fun n hn => ?_
    rw [unwrap_ok] at hn
    obtain ⟨g1, g2, g3⟩ := h.front.locPrev hid hn
    refine SimT.bind (fillOneD_ok h) ?_ ?_
    · rintro ⟨s1, r⟩ h2 h3
      obtain ⟨i1, i2⟩ := fillOne_ids h.front g2 h2
      have key : ∀ nid : NodeId, IdOk c nid → keyLt nid.pt id.pt →
        SimT c K St.self (if nid.pid ≠ e.pId then
          if orient2d e.q nid.pt e.p = .cw then do
            let prev ← unwrap (s1.front.getNodeWithId nid) "concave prev node"
            let pp ← unwrap (s1.front.prev prev) "concave prev prev"
            if orient2d id.pt prev.pt pp.pt = .cw then fillLeftConcave c fuel0 e fuel s1 id
            else pure s1
          else pure s1
        else pure s1) (if nid.pid ≠ e.pId then do
          let o ← orientD e.q nid.pt e.p
          if o = .cw then do
            let prev ← unwrap (s1.front.getNodeWithId nid) "concave prev node"
            let pp ← unwrap (s1.front.prev prev) "concave prev prev"
            let o' ← orientD id.pt prev.pt pp.pt
            if o' = .cw then fillLeftConcaveD c fuel0 e fuel s1 id
            else pure s1
          else pure s1
        else pure s1) := by
        intro nid k1 k2
        refine .ite (fun hp => ?_) fun _ => .ok h3
        rw [orientD_ok (keyLt_ne (hq.trans k2)).symm he.ne (he.ne_p g k1 hp), ok_bind]
        refine .ite (fun _ => ?_) fun _ => .ok h3
        refine .bindr _ fun pr hpr => .bindr _ fun pp hpp => ?_
        rw [unwrap_ok] at hpr hpp
        obtain ⟨l1, l2, l3⟩ := h3.front.getId k1 hpr
        obtain ⟨m1, m2, m3⟩ := h3.front.prevLt l1 hpp
        rw [orientD_desc (by rw [l3]; exact k2) m3, ok_bind]
        exact .ite (fun _ => fillLeftConcaveD_ok g he fuel h3 hid hq) fun _ => .ok h3
      cases r with
      | none => exact key _ g2 g3
      | some fo =>
        obtain ⟨j1, _, j2, _⟩ := i2 fo rfl
        exact key _ j1 (keyLt_trans j2 g3)
    · rintro ⟨s1, r⟩ b hb
      cases r <;> dsimp only at hb
      all_goals
        split at hb
        · split at hb
          · simp only [bind_ok] at hb
            obtain ⟨nn, -, n3, -, hb⟩ := hb
            split at hb
            · exact fillLeftConcave_evolve hb
            · cases hb; exact .refl _
          · cases hb; exact .refl _
        · cases hb; exact .refl _

/-! ## The convex scans

When a scan ends without having changed anything, its caller repeats it for ever. -/

theorem fillRightConvexD_ok {t : Trap} (ht : t.l698 = true) {fuel0 : Nat} {e : CEdge} : ∀ (fuel : Nat) {s : St} {id : NodeId},
    Cur c K s → IdOk c id → fillRightConvex t c fuel0 e fuel s id ≠ .ok (s, true) →
    SimT c K Prod.fst (fillRightConvex t c fuel0 e fuel s id) (fillRightConvexD c fuel0 e fuel s id)
  | 0, s, id, h, hid, hne => .err _ _
  | fuel + 1, s, id, h, hid, hne => by
    unfold fillRightConvex at hne ⊢
    unfold fillRightConvexD
    cases h1 : s.front.locateNext id with
    | none => exact .err _ _
    | some n1 =>
    simp only [h1, unwrap_some, ok_bind] at hne ⊢
    cases h2 : s.front.next n1 with
    | none => exact .err _ _
    | some n2 =>
    simp only [h2, unwrap_some, ok_bind] at hne ⊢
    cases h3 : s.front.next n2 with
    | none => exact .ok h
    | some n3 =>
      simp only [h3] at hne ⊢
      obtain ⟨g1, g2, g3⟩ := h.front.locNext hid h1
      obtain ⟨j1, j2, j3⟩ := h.front.nextLt g1 h2
      obtain ⟨m1, m2, m3⟩ := h.front.nextLt j1 h3
      rw [orientD_asc j3 m3, ok_bind]
      by_cases ho : orient2d n1.pt n2.pt n3.pt = .ccw
      · rw [if_pos ho, ht]
        exact .err _ _
      rw [if_neg ho] at hne ⊢
      by_cases ho' : orient2d e.q n2.pt e.p = .ccw
      · rw [if_pos ho'] at hne
        rw [orientD_ne (by rw [ho']; simp), ok_bind, if_neg ho, if_pos ho', if_pos ho']
        exact fillRightConvexD_ok ht fuel h g2 hne
      · rw [if_neg ho'] at hne
        exact (hne rfl).elim

theorem fillLeftConvexD_ok (g : Good c) {fuel0 : Nat} {e : CEdge} (he : EOk c e) : ∀ (fuel : Nat) {s : St} {id : NodeId},
    Cur c K s → IdOk c id → Le e.q id.pt → fillLeftConvex c fuel0 e fuel s id ≠ .ok (s, true) →
    SimT c K Prod.fst (fillLeftConvex c fuel0 e fuel s id) (fillLeftConvexD c fuel0 e fuel s id)
  | 0, s, id, h, hid, hq, hne => .err _ _
  | fuel + 1, s, id, h, hid, hq, hne => by
    unfold fillLeftConvex at hne ⊢
    unfold fillLeftConvexD
    cases h1 : s.front.locatePrev id with
    | none => exact .err _ _
    | some n1 =>
    simp only [h1, unwrap_some, ok_bind] at hne ⊢
    cases h2 : s.front.prev n1 with
    | none => exact .err _ _
    | some n2 =>
    simp only [h2, unwrap_some, ok_bind] at hne ⊢
    cases h3 : s.front.prev n2 with
    | none => exact .ok h
    | some n3 =>
      simp only [h3] at hne ⊢
      obtain ⟨g1, g2, g3⟩ := h.front.locPrev hid h1
      obtain ⟨j1, j2, j3⟩ := h.front.prevLt g1 h2
      obtain ⟨m1, m2, m3⟩ := h.front.prevLt j1 h3
      rw [orientD_desc j3 m3, ok_bind]
      by_cases ho : orient2d n1.pt n2.pt n3.pt = .cw
      · rw [if_pos ho, if_pos ho]
        refine SimT.bind (fillLeftConcaveD_ok g he fuel0 h g2 (.inr (hq.trans g3))) (fun s1 _ k1 => .ok k1) ?_
        intro a b hb
        cases hb
        exact .refl _
      rw [if_neg ho] at hne ⊢
      by_cases ho' : orient2d e.q n2.pt e.p = .cw
      · rw [if_pos ho'] at hne
        rw [orientD_ne (by rw [ho']; simp), ok_bind, if_neg ho, if_pos ho', if_pos ho']
        exact fillLeftConvexD_ok g he fuel h g2 (.inr (hq.trans g3)) hne
      · rw [if_neg ho'] at hne
        exact (hne rfl).elim

theorem fillRightBelow_loop {t : Trap} {fuel0 : Nat} {e : CEdge} {s : St} {id : NodeId} (hx : ¬ id.pt.x ≥ e.p.x) {node n1 n2 : NodeRef}
    (h1 : s.front.getNodeWithId id = some node) (h2 : s.front.next node = some n1) (h3 : s.front.next n1 = some n2)
    (ho : ¬ orient2d node.pt n1.pt n2.pt = .ccw) (hc : fillRightConvex t c fuel0 e fuel0 s id = .ok (s, true)) :
    ∀ fuel, fillRightBelow t c fuel0 e fuel s id = .error .fuel
  | 0 => rfl
  | fuel + 1 => by
    unfold fillRightBelow
    rw [if_neg hx]
    simp only [h1, h2, h3, unwrap_some, ok_bind, if_neg ho, hc, if_true]
    exact fillRightBelow_loop hx h1 h2 h3 ho hc fuel

theorem fillLeftBelow_loop {fuel0 : Nat} {e : CEdge} {s : St} {id : NodeId} (hx : id.pt.x > e.p.x) {n1 n2 : NodeRef}
    (h2 : s.front.locatePrev id = some n1) (h3 : s.front.prev n1 = some n2)
    (ho : ¬ orient2d id.pt n1.pt n2.pt = .cw) (hc : fillLeftConvex c fuel0 e fuel0 s id = .ok (s, true)) :
    ∀ fuel, fillLeftBelow c fuel0 e fuel s id = .error .fuel
  | 0 => rfl
  | fuel + 1 => by
    unfold fillLeftBelow
    rw [if_pos hx]
    simp only [h2, h3, unwrap_some, ok_bind, if_neg ho, hc, if_true]
    exact fillLeftBelow_loop hx h2 h3 ho hc fuel

theorem fillRightBelowD_ok (g : Good c) {t : Trap} (ht : t.l698 = true) {fuel0 : Nat} {e : CEdge} (he : EOk c e) : ∀ (fuel : Nat) {s : St} {id : NodeId},
    Cur c K s → IdOk c id → Ge e.q id.pt →
    SimT c K St.self (fillRightBelow t c fuel0 e fuel s id) (fillRightBelowD c fuel0 e fuel s id)
  | 0, s, id, h, hid, hq => .err _ _
  | fuel + 1, s, id, h, hid, hq => by
    have lp := fun hx node n1 n2 h1 h2 h3 ho hc => fillRightBelow_loop (c := c) (t := t) (fuel0 := fuel0) (e := e) (s := s) (id := id) hx (node := node)
      (n1 := n1) (n2 := n2) h1 h2 h3 ho hc (fuel + 1)
    unfold fillRightBelow at lp ⊢
    unfold fillRightBelowD
    by_cases hx : id.pt.x ≥ e.p.x
    · rw [if_pos hx, if_pos hx]; exact .ok h
    replace lp := lp hx
    rw [if_neg hx] at lp ⊢
    rw [if_neg hx]
    cases h1 : s.front.getNodeWithId id with
    | none => exact .err _ _
    | some node =>
    replace lp := fun n1 n2 => lp node n1 n2 h1
    simp only [h1, unwrap_some, ok_bind] at lp ⊢
    cases h2 : s.front.next node with
    | none => exact .err _ _
    | some n1 =>
    replace lp := fun n2 => lp n1 n2 h2
    simp only [h2, unwrap_some, ok_bind] at lp ⊢
    cases h3 : s.front.next n1 with
    | none => exact .err _ _
    | some n2 =>
    replace lp := lp n2 h3
    simp only [h3, unwrap_some, ok_bind] at lp ⊢
    obtain ⟨g1, g2, g3⟩ := h.front.getId hid h1
    obtain ⟨j1, j2, j3⟩ := h.front.nextLt g1 h2
    obtain ⟨m1, m2, m3⟩ := h.front.nextLt j1 h3
    rw [orientD_asc j3 m3, ok_bind]
    by_cases ho : orient2d node.pt n1.pt n2.pt = .ccw
    · rw [if_pos ho, if_pos ho]
      exact fillRightConcaveD_ok g he fuel0 h hid hq
    replace lp := lp ho
    rw [if_neg ho] at lp ⊢
    rw [if_neg ho]
    by_cases hc : fillRightConvex t c fuel0 e fuel0 s id = .ok (s, true)
    · rw [lp hc]; exact .err _ _
    · refine SimT.bind (fillRightConvexD_ok ht fuel0 h hid hc) ?_ ?_
      · rintro ⟨s1, b⟩ _ k1
        exact .ite (fun _ => fillRightBelowD_ok g ht he fuel k1 hid hq) fun _ => .ok k1
      · rintro ⟨s1, b⟩ b' hb
        dsimp only at hb
        split at hb
        · exact fillRightBelow_evolve hb
        · cases hb; exact .refl _

theorem fillLeftBelowD_ok (g : Good c) {fuel0 : Nat} {e : CEdge} (he : EOk c e) : ∀ (fuel : Nat) {s : St} {id : NodeId},
    Cur c K s → IdOk c id → Le e.q id.pt →
    SimT c K St.self (fillLeftBelow c fuel0 e fuel s id) (fillLeftBelowD c fuel0 e fuel s id)
  | 0, s, id, h, hid, hq => .err _ _
  | fuel + 1, s, id, h, hid, hq => by
    have lp := fun hx n1 n2 h2 h3 ho hc => fillLeftBelow_loop (c := c) (fuel0 := fuel0) (e := e) (s := s) (id := id) hx
      (n1 := n1) (n2 := n2) h2 h3 ho hc (fuel + 1)
    unfold fillLeftBelow at lp ⊢
    unfold fillLeftBelowD
    by_cases hx : id.pt.x > e.p.x
    case neg => rw [if_neg hx, if_neg hx]; exact .ok h
    replace lp := lp hx
    rw [if_pos hx] at lp ⊢
    rw [if_pos hx]
    cases h2 : s.front.locatePrev id with
    | none => exact .err _ _
    | some n1 =>
    replace lp := fun n2 => lp n1 n2 h2
    simp only [h2, unwrap_some, ok_bind] at lp ⊢
    cases h3 : s.front.prev n1 with
    | none => exact .err _ _
    | some n2 =>
    replace lp := lp n2 h3
    simp only [h3, unwrap_some, ok_bind] at lp ⊢
    obtain ⟨j1, j2, j3⟩ := h.front.locPrev hid h2
    obtain ⟨m1, m2, m3⟩ := h.front.prevLt j1 h3
    rw [orientD_desc j3 m3, ok_bind]
    by_cases ho : orient2d id.pt n1.pt n2.pt = .cw
    · rw [if_pos ho, if_pos ho]
      exact fillLeftConcaveD_ok g he fuel0 h hid hq
    replace lp := lp ho
    rw [if_neg ho] at lp ⊢
    rw [if_neg ho]
    by_cases hc : fillLeftConvex c fuel0 e fuel0 s id = .ok (s, true)
    · rw [lp hc]; exact .err _ _
    · refine SimT.bind (fillLeftConvexD_ok g he fuel0 h hid hq hc) ?_ ?_
      · rintro ⟨s1, b⟩ _ k1
        exact .ite (fun _ => fillLeftBelowD_ok g he fuel k1 hid hq) fun _ => .ok k1
      · rintro ⟨s1, b⟩ b' hb
        dsimp only at hb
        split at hb
        · exact fillLeftBelow_evolve hb
        · cases hb; exact .refl _

theorem fillRightAboveD_ok (g : Good c) {t : Trap} (ht : t.l698 = true) {fuel0 : Nat} {e : CEdge} (he : EOk c e) : ∀ (fuel : Nat) {s : St} {id : NodeId},
    Cur c K s → IdOk c id → Ge e.q id.pt →
    SimT c K St.self (fillRightAbove t c fuel0 e fuel s id) (fillRightAboveD c fuel0 e fuel s id)
  | 0, s, id, h, hid, hq => .err _ _
  | fuel + 1, s, id, h, hid, hq => by
    unfold fillRightAbove fillRightAboveD
    cases h1 : s.front.locateNext id with
    | none => exact .ok h
    | some n1 =>
      dsimp only
      obtain ⟨g1, g2, g3⟩ := h.front.locNext hid h1
      refine .ite (fun _ => .ok h) fun hx => ?_
      rw [orientD_ok (keyLt_ne (hq.trans g3)) he.ne (by intro k; rw [k] at hx; exact hx le_rfl), ok_bind]
      refine .ite (fun _ => ?_) fun _ => fillRightAboveD_ok g ht he fuel h g2 (.inr (hq.trans g3))
      exact SimT.bind (fillRightBelowD_ok g ht he fuel0 h hid hq) (fun s1 _ k1 => fillRightAboveD_ok g ht he fuel k1 hid hq)
        fun a b hb => fillRightAbove_evolve hb

theorem fillLeftAboveD_ok (g : Good c) {fuel0 : Nat} {e : CEdge} (he : EOk c e) : ∀ (fuel : Nat) {s : St} {id : NodeId},
    Cur c K s → IdOk c id → Le e.q id.pt →
    SimT c K St.self (fillLeftAbove c fuel0 e fuel s id) (fillLeftAboveD c fuel0 e fuel s id)
  | 0, s, id, h, hid, hq => .err _ _
  | fuel + 1, s, id, h, hid, hq => by
    unfold fillLeftAbove fillLeftAboveD
    cases h1 : s.front.locatePrev id with
    | none => exact .ok h
    | some n1 =>
      dsimp only
      obtain ⟨g1, g2, g3⟩ := h.front.locPrev hid h1
      refine .ite (fun _ => .ok h) fun hx => ?_
      rw [orientD_ok (keyLt_ne (hq.trans g3)).symm he.ne (by intro k; rw [k] at hx; exact hx le_rfl), ok_bind]
      refine .ite (fun _ => ?_) fun _ => fillLeftAboveD_ok g he fuel h g2 (.inr (hq.trans g3))
      exact SimT.bind (fillLeftBelowD_ok g he fuel0 h hid hq) (fun s1 _ k1 => fillLeftAboveD_ok g he fuel k1 hid hq)
        fun a b hb => fillLeftAbove_evolve hb

theorem fillEdgeEventD_ok (g : Good c) {t : Trap} (ht : t.l698 = true) {fuel : Nat} {e : CEdge} (he : EOk c e) {s : St} {id : NodeId}
    (h : Cur c K s) (hid : IdOk c id) (hq : e.q = id.pt) :
    SimT c K St.self (fillEdgeEvent t c fuel s e id) (fillEdgeEventD c fuel s e id) :=
  .ite (fun _ => fillRightAboveD_ok g ht he fuel h hid (.inl hq)) fun _ => fillLeftAboveD_ok g he fuel h hid (.inl hq)

end P2T
