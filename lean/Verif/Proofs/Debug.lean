import Verif.Model.Debug
import Verif.Proofs.Mono

/-!
# A debug build that returns, returns what the release build returns
-/

namespace P2T

/-- If `m` returns then `m'` returns the same. -/
structure Sim {α} (m m' : Except Err α) : Prop where
  run : ∀ a, m = .ok a → m' = .ok a

namespace Sim
variable {α β : Type}

theorem refl (m : Except Err α) : Sim m m := ⟨fun _ h => h⟩

theorem err (e : Err) (m' : Except Err α) : Sim (.error e) m' := ⟨fun _ h => by cases h⟩

theorem bind {m m' : Except Err α} {f f' : α → Except Err β} (h : Sim m m') (hf : ∀ a, m = .ok a → Sim (f a) (f' a)) :
    Sim (m >>= f) (m' >>= f') := by
  refine ⟨fun b hb => ?_⟩
  cases hm : m with
  | error e => rw [hm] at hb; cases hb
  | ok a =>
    rw [hm] at hb
    rw [h.run a hm]
    exact (hf a hm).run b hb

theorem bindr (m : Except Err α) {f f' : α → Except Err β} (hf : ∀ a, m = .ok a → Sim (f a) (f' a)) :
    Sim (m >>= f) (m >>= f') := (refl m).bind hf

theorem ite {c : Prop} [Decidable c] {a a' b b' : Except Err α} (h : c → Sim a a') (h' : ¬ c → Sim b b') :
    Sim (if c then a else b) (if c then a' else b') := by
  split
  · exact h ‹_›
  · exact h' ‹_›

theorem bindL {m : Except Err α} {a : α} {f : α → Except Err β} {m' : Except Err β} (h : Sim m (.ok a)) (hf : Sim (f a) m') :
    Sim (m >>= f) m' := by
  refine ⟨fun b hb => ?_⟩
  cases hm : m with
  | error e => rw [hm] at hb; cases hb
  | ok a' =>
    rw [hm] at hb
    cases h.run a' hm
    exact hf.run b hb

/-- The assertion of `orient_2d` left out. -/
theorem orient {a b c : Point} {f : Orientation → Except Err β} {m' : Except Err β} (h : Sim (f (orient2d a b c)) m') :
    Sim (orientD a b c >>= f) m' := by
  unfold orientD
  split
  · exact h
  · exact err _ _

end Sim

theorem markTwoD_sim (l r : Nat) (L R : Tri) : Sim (Store.markTwoD l r L R) (.ok (Store.markTwo l r L R)) := by
  unfold Store.markTwoD
  split
  · exact .err _ _
  · exact .refl _

theorem markPairD_sim (ts : Store) (l r : Nat) : Sim (Store.markPairD ts l r) (.ok (Store.markPair ts l r)) := by
  unfold Store.markPairD Store.markPair
  cases h1 : ts[l]? with
  | none => exact .refl _
  | some L =>
    cases h2 : ts[r]? with
    | none => exact .refl _
    | some R =>
      refine ⟨fun a h => ?_⟩
      simp only [bind_ok, pure_ok] at h
      obtain ⟨x, hx, h⟩ := h
      have := (markTwoD_sim l r L R).run x hx
      cases this
      exact h

theorem markNeighborD_sim (ts : Store) (l r : Nat) : Sim (Store.markNeighborD ts l r) (Store.markNeighbor ts l r) :=
  .bindr _ fun _ _ => markPairD_sim ts l r

theorem markOptD_sim (ts : Store) (l : Nat) (r : Option Nat) : Sim (Store.markOptD ts l r) (.ok (Store.markOpt ts l r)) := by
  unfold Store.markOptD Store.markOpt
  cases r with
  | none => exact .refl _
  | some r => exact markPairD_sim ..

theorem bind_pure_l {α β} (a : α) (f : α → Except Err β) : ((.ok a : Except Err α) >>= f) = f a := rfl

theorem rotatePairD_sim (ts : Store) (t p ot op : Nat) : Sim (Store.rotatePairD ts t p ot op) (Store.rotatePair ts t p ot op) := by
  unfold Store.rotatePairD Store.rotatePair
  refine .bindr _ fun _ _ => .bindr _ fun _ _ => .bindr _ fun _ _ => .bindr _ fun _ _ => .bindr _ fun _ _ => .bindr _ fun _ _ =>
    .bindr _ fun _ _ => .bindr _ fun _ _ => .bindr _ fun _ _ => .bindr _ fun _ _ => .bindr _ fun _ _ => .bindr _ fun _ _ =>
    .bindr _ fun _ _ => .bindr _ fun _ _ => .bindr _ fun _ _ => .bindr _ fun _ _ => .bindr _ fun _ _ => ?_
  exact .bindL (markTwoD_sim ..) (.bindr _ fun _ _ => .bindL (markOptD_sim ..) (.bindL (markOptD_sim ..) (.bindL (markOptD_sim ..)
    (.bindL (markOptD_sim ..) (.refl _)))))

theorem updateAndDeleteD_sim (f : Front) (u p t d : Nat) : Sim (f.updateAndDeleteD u p t d) (f.updateAndDelete u t d) := by
  unfold Front.updateAndDeleteD
  split
  · exact .err _ _
  · split
    · exact .refl _
    · exact .err _ _

theorem legalizeLoopD_sim (c : Ctx) : ∀ (fuel : Nat) (s : St) (q r : List Nat),
    Sim (legalizeLoopD c fuel s q r) (legalizeLoop c fuel s q r)
  | _, s, [], r => by simp only [legalizeLoopD, legalizeLoop]; exact .refl _
  | 0, s, t :: q, r => by rw [legalizeLoopD]; exact .err _ _
  | fuel + 1, s, t :: q, r => by
    rw [legalizeLoopD, legalizeLoop]
    refine .bindr _ fun a _ => ?_
    cases a with
    | none => exact legalizeLoopD_sim c fuel ..
    | some x => exact .bind (rotatePairD_sim ..) fun _ _ => .bindr _ fun _ _ => legalizeLoopD_sim c fuel ..

theorem legalizeD_sim (c : Ctx) (fuel : Nat) (s : St) (t : Nat) : Sim (legalizeD c fuel s t) (legalize c fuel s t) :=
  .bind (legalizeLoopD_sim ..) fun _ _ => .refl _

theorem fillOneD_sim (c : Ctx) (fuel : Nat) (s : St) (id : NodeId) : Sim (fillOneD c fuel s id) (fillOne c fuel s id) := by
  unfold fillOneD fillOne
  refine .bindr _ fun n _ => ?_
  dsimp only
  cases s.front.prev n with
  | none => exact .refl _
  | some a =>
    dsimp only
    cases s.front.next n with
    | none => exact .refl _
    | some b =>
      exact .bindr _ fun _ _ => .bind (markNeighborD_sim ..) fun _ _ => .bindr _ fun _ _ => .bind (markNeighborD_sim ..) fun _ _ =>
        .bind (updateAndDeleteD_sim ..) fun _ _ => .bind (legalizeD_sim ..) fun _ _ => .refl _

theorem fillRightD_sim (c : Ctx) (g : Nat) : ∀ (fuel : Nat) (s : St) (id : NodeId), Sim (fillRightD c g fuel s id) (fillRight c g fuel s id)
  | 0, s, id => by rw [fillRightD]; exact .err _ _
  | fuel + 1, s, id => by
    rw [fillRightD, fillRight]
    cases s.front.locateNext id with
    | none => exact .refl _
    | some n =>
      dsimp only
      cases s.front.next n with
      | none => exact .refl _
      | some n' =>
        refine .bindr _ fun b _ => .ite (fun _ => .refl _) fun _ => ?_
        exact .bind (fillOneD_sim ..) fun _ _ => fillRightD_sim c g fuel ..

theorem fillLeftD_sim (c : Ctx) (g : Nat) : ∀ (fuel : Nat) (s : St) (id : NodeId), Sim (fillLeftD c g fuel s id) (fillLeft c g fuel s id)
  | 0, s, id => by rw [fillLeftD]; exact .err _ _
  | fuel + 1, s, id => by
    rw [fillLeftD, fillLeft]
    cases s.front.locatePrev id with
    | none => exact .refl _
    | some n =>
      dsimp only
      cases s.front.prev n with
      | none => exact .refl _
      | some n' =>
        refine .bindr _ fun b _ => .ite (fun _ => .refl _) fun _ => ?_
        exact .bind (fillOneD_sim ..) fun _ _ => fillLeftD_sim c g fuel ..

theorem fillBasinReqD_sim (c : Ctx) (g : Nat) : ∀ (fuel : Nat) (s : St) (id : NodeId) (b : Basin),
    Sim (fillBasinReqD c g fuel s id b) (fillBasinReq c g fuel s id b)
  | 0, s, id, b => by rw [fillBasinReqD]; exact .err _ _
  | fuel + 1, s, id, b => by
    rw [fillBasinReqD, fillBasinReq]
    refine .ite (fun _ => .refl _) fun _ => .bind (fillOneD_sim ..) fun r _ => .bindr _ fun fo _ => ?_
    refine .ite (fun _ => .refl _) fun _ => .ite (fun _ => .bindr _ fun _ _ => .bindr _ fun _ _ => .orient (.ite (fun _ => .refl _) fun _ => ?_))
      fun _ => .ite (fun _ => .bindr _ fun pv _ => ?_) fun _ => .ite (fun _ => ?_) fun _ => ?_
    · exact fillBasinReqD_sim c g fuel ..
    · cases r.1.front.prev pv with
      | none => exact .refl _
      | some _ => exact .orient (.ite (fun _ => .refl _) fun _ => fillBasinReqD_sim c g fuel ..)
    · exact fillBasinReqD_sim c g fuel ..
    · exact fillBasinReqD_sim c g fuel ..

theorem fillBasinD_sim (c : Ctx) (fuel : Nat) (s : St) (id : NodeId) : Sim (fillBasinD c fuel s id) (fillBasin c fuel s id) := by
  unfold fillBasinD fillBasin
  cases s.front.locateNext id with
  | none => exact .refl _
  | some n =>
    dsimp only
    cases s.front.next n with
    | none => exact .refl _
    | some n' =>
      exact .orient (.bindr _ fun _ _ => .ite (fun _ => .refl _) fun _ => .bindr _ fun _ _ => .ite (fun _ => .refl _) fun _ => fillBasinReqD_sim ..)

theorem fillAdvancingFrontD_sim (c : Ctx) (fuel : Nat) (s : St) (p : Point) :
    Sim (fillAdvancingFrontD c fuel s p) (fillAdvancingFront c fuel s p) := by
  unfold fillAdvancingFrontD fillAdvancingFront
  exact .bindr _ fun _ _ => .bindr _ fun _ _ => .bind (fillRightD_sim ..) fun _ _ => .bind (fillLeftD_sim ..) fun _ _ =>
    .ite (fun _ => fillBasinD_sim ..) fun _ => .refl _

theorem pointEventD_sim (c : Ctx) (fuel : Nat) (s : St) (pid : Nat) (p : Point) :
    Sim (pointEventD c fuel s pid p) (pointEvent c fuel s pid p) := by
  unfold pointEventD pointEvent
  exact .bindr _ fun _ _ => .bindr _ fun _ _ => .bindr _ fun _ _ => .bind (markNeighborD_sim ..) fun _ _ => .bind (legalizeD_sim ..) fun _ _ =>
    .bind (.ite (fun _ => .bind (fillOneD_sim ..) fun _ _ => .refl _) fun _ => .refl _) fun _ _ => fillAdvancingFrontD_sim ..

theorem fillRightConcaveD_sim (c : Ctx) (g : Nat) (e : CEdge) : ∀ (fuel : Nat) (s : St) (id : NodeId),
    Sim (fillRightConcaveD c g e fuel s id) (fillRightConcave c g e fuel s id)
  | 0, s, id => by rw [fillRightConcaveD]; exact .err _ _
  | fuel + 1, s, id => by
    rw [fillRightConcaveD, fillRightConcave]
    exact .bindr _ fun _ _ => .bind (fillOneD_sim ..) fun _ _ => .ite (fun _ => .orient (.ite (fun _ => .bindr _ fun _ _ => .orient (.ite
      (fun _ => fillRightConcaveD_sim c g e fuel ..) fun _ => .refl _)) fun _ => .refl _)) fun _ => .refl _

theorem fillLeftConcaveD_sim (c : Ctx) (g : Nat) (e : CEdge) : ∀ (fuel : Nat) (s : St) (id : NodeId),
    Sim (fillLeftConcaveD c g e fuel s id) (fillLeftConcave c g e fuel s id)
  | 0, s, id => by rw [fillLeftConcaveD]; exact .err _ _
  | fuel + 1, s, id => by
    rw [fillLeftConcaveD, fillLeftConcave]
    exact .bindr _ fun _ _ => .bind (fillOneD_sim ..) fun _ _ => .ite (fun _ => .orient (.ite (fun _ => .bindr _ fun _ _ => .bindr _ fun _ _ =>
      .orient (.ite (fun _ => fillLeftConcaveD_sim c g e fuel ..) fun _ => .refl _)) fun _ => .refl _)) fun _ => .refl _

theorem fillLeftConvexD_sim (c : Ctx) (g : Nat) (e : CEdge) : ∀ (fuel : Nat) (s : St) (id : NodeId),
    Sim (fillLeftConvexD c g e fuel s id) (fillLeftConvex c g e fuel s id)
  | 0, s, id => by rw [fillLeftConvexD]; exact .err _ _
  | fuel + 1, s, id => by
    rw [fillLeftConvexD, fillLeftConvex]
    refine .bindr _ fun _ _ => .bindr _ fun n2 _ => ?_
    cases s.front.prev n2 with
    | none => exact .refl _
    | some _ =>
      exact .orient (.ite (fun _ => .bind (fillLeftConcaveD_sim ..) fun _ _ => .refl _)
        fun _ => .orient (.ite (fun _ => fillLeftConvexD_sim c g e fuel ..) fun _ => .refl _))

theorem fillRightConvexD_sim (c : Ctx) (g : Nat) (e : CEdge) : ∀ (fuel : Nat) (s : St) (id : NodeId),
    Sim (fillRightConvexD c g e fuel s id) (fillRightConvex .off c g e fuel s id)
  | 0, s, id => by rw [fillRightConvexD]; exact .err _ _
  | fuel + 1, s, id => by
    rw [fillRightConvexD, fillRightConvex]
    refine .bindr _ fun _ _ => .bindr _ fun n2 _ => ?_
    cases s.front.next n2 with
    | none => exact .refl _
    | some _ =>
      exact .orient (.ite (fun _ => .bind (fillRightConcaveD_sim ..) fun _ _ => .refl _)
        fun _ => .orient (.ite (fun _ => fillRightConvexD_sim c g e fuel ..) fun _ => .refl _))

theorem fillLeftBelowD_sim (c : Ctx) (g : Nat) (e : CEdge) : ∀ (fuel : Nat) (s : St) (id : NodeId),
    Sim (fillLeftBelowD c g e fuel s id) (fillLeftBelow c g e fuel s id)
  | 0, s, id => by rw [fillLeftBelowD]; exact .err _ _
  | fuel + 1, s, id => by
    rw [fillLeftBelowD, fillLeftBelow]
    exact .ite (fun _ => .bindr _ fun _ _ => .bindr _ fun _ _ => .orient (.ite (fun _ => fillLeftConcaveD_sim ..)
      fun _ => .bind (fillLeftConvexD_sim ..) fun _ _ => .ite (fun _ => fillLeftBelowD_sim c g e fuel ..) fun _ => .refl _))
      fun _ => .refl _

theorem fillLeftAboveD_sim (c : Ctx) (g : Nat) (e : CEdge) : ∀ (fuel : Nat) (s : St) (id : NodeId),
    Sim (fillLeftAboveD c g e fuel s id) (fillLeftAbove c g e fuel s id)
  | 0, s, id => by rw [fillLeftAboveD]; exact .err _ _
  | fuel + 1, s, id => by
    rw [fillLeftAboveD, fillLeftAbove]
    cases s.front.locatePrev id with
    | none => exact .refl _
    | some _ =>
      exact .ite (fun _ => .refl _) fun _ => .orient (.ite (fun _ => .bind (fillLeftBelowD_sim ..) fun _ _ => fillLeftAboveD_sim c g e fuel ..)
        fun _ => fillLeftAboveD_sim c g e fuel ..)

theorem fillRightBelowD_sim (c : Ctx) (g : Nat) (e : CEdge) : ∀ (fuel : Nat) (s : St) (id : NodeId),
    Sim (fillRightBelowD c g e fuel s id) (fillRightBelow .off c g e fuel s id)
  | 0, s, id => by rw [fillRightBelowD]; exact .err _ _
  | fuel + 1, s, id => by
    rw [fillRightBelowD, fillRightBelow]
    exact .ite (fun _ => .refl _) (fun _ => .bindr _ fun _ _ => .bindr _ fun _ _ => .bindr _ fun _ _ => .orient (.ite (fun _ => fillRightConcaveD_sim ..)
      fun _ => .bind (fillRightConvexD_sim ..) fun _ _ => .ite (fun _ => fillRightBelowD_sim c g e fuel ..) fun _ => .refl _))

theorem fillRightAboveD_sim (c : Ctx) (g : Nat) (e : CEdge) : ∀ (fuel : Nat) (s : St) (id : NodeId),
    Sim (fillRightAboveD c g e fuel s id) (fillRightAbove .off c g e fuel s id)
  | 0, s, id => by rw [fillRightAboveD]; exact .err _ _
  | fuel + 1, s, id => by
    rw [fillRightAboveD, fillRightAbove]
    cases s.front.locateNext id with
    | none => exact .refl _
    | some _ =>
      exact .ite (fun _ => .refl _) fun _ => .orient (.ite (fun _ => .bind (fillRightBelowD_sim ..) fun _ _ => fillRightAboveD_sim c g e fuel ..)
        fun _ => fillRightAboveD_sim c g e fuel ..)

theorem fillEdgeEventD_sim (c : Ctx) (fuel : Nat) (s : St) (e : CEdge) (id : NodeId) :
    Sim (fillEdgeEventD c fuel s e id) (fillEdgeEvent .off c fuel s e id) := by
  unfold fillEdgeEventD fillEdgeEvent
  exact .ite (fun _ => fillRightAboveD_sim ..) fun _ => fillLeftAboveD_sim ..

theorem nextFlipPointD_sim (c : Ctx) (ts : Store) (ep eq ot op : Nat) :
    Sim (nextFlipPointD c ts ep eq ot op) (nextFlipPoint c ts ep eq ot op) := by
  unfold nextFlipPointD nextFlipPoint
  exact .bindr _ fun _ _ => .bindr _ fun _ _ => .bindr _ fun _ _ => .bindr _ fun _ _ => .orient (.refl _)

theorem edgeD_sim (c : Ctx) : ∀ (f : Nat),
    (∀ s ep eq e t p lq, Sim (edgeProcessD c f s ep eq e t p lq) (edgeProcess .off c f s ep eq e t p lq)) ∧
    (∀ s ep eq e t p lq, Sim (flipEdgeD c f s ep eq e t p lq) (flipEdge .off c f s ep eq e t p lq)) ∧
    (∀ s ep eq e ft t p lq, Sim (flipScanD c f s ep eq e ft t p lq) (flipScan .off c f s ep eq e ft t p lq))
  | 0 => by
    refine ⟨?_, ?_, ?_⟩ <;> intros
    · rw [edgeProcessD]; exact .err _ _
    · rw [flipEdgeD]; exact .err _ _
    · rw [flipScanD]; exact .err _ _
  | f + 1 => by
    obtain ⟨i1, i2, i3⟩ := edgeD_sim c f
    refine ⟨?_, ?_, ?_⟩ <;> intros
    · rw [edgeProcessD, edgeProcess]
      refine .bindr _ fun _ _ => .bindr _ fun _ _ => .ite (fun _ => .refl _) fun _ => .bindr _ fun _ _ => .bindr _ fun _ _ =>
        .bindr _ fun _ _ => .bindr _ fun _ _ => .bindr _ fun _ _ => .orient (.ite (fun _ => ?_) fun _ => .bindr _ fun _ _ => .bindr _ fun _ _ =>
        .bindr _ fun _ _ => .bindr _ fun _ _ => .orient (.ite (fun _ => ?_) fun _ => .ite (fun _ => .bindr _ fun _ _ => i1 ..) fun _ => i2 ..))
      · simp only [Trap.off, Bool.false_eq_true, if_false]
        split
        · exact .err _ _
        · rename_i h
          simp only [h]
          exact .bindr _ fun _ _ => .bindr _ fun _ _ => i1 ..
      · simp only [Trap.off, Bool.false_eq_true, if_false]
        split
        · exact .err _ _
        · rename_i h
          simp only [h]
          exact .bindr _ fun _ _ => .bindr _ fun _ _ => i1 ..
    · rw [flipEdgeD, flipEdge]
      refine .bindr _ fun _ _ => .bindr _ fun _ _ => .bindr _ fun _ _ => .bindr _ fun _ _ => .bindr _ fun _ _ =>
        .bindr _ fun _ _ => .bindr _ fun _ _ => .bindr _ fun _ _ => .bindr _ fun _ _ => .bindr _ fun _ _ => .ite (fun _ => ?_) fun _ => ?_
      · exact .bind (rotatePairD_sim ..) fun _ _ => .bindr _ fun _ _ => .ite (fun _ => .refl _) fun _ => .bindr _ fun _ _ => .bindr _ fun _ _ =>
          .bindr _ fun _ _ => .orient (i2 ..)
      · exact .bind (nextFlipPointD_sim ..) fun _ _ => .bind (i3 ..) fun _ _ => i1 ..
    · rw [flipScanD, flipScan]
      exact .bindr _ fun _ _ => .bindr _ fun _ _ => .bindr _ fun _ _ => .bindr _ fun _ _ => .bindr _ fun _ _ =>
        .bindr _ fun _ _ => .bindr _ fun _ _ => .bindr _ fun _ _ => .bindr _ fun _ _ => .bindr _ fun _ _ =>
        .bindr _ fun _ _ => .bindr _ fun _ _ => .ite (fun _ => i2 ..) fun _ => .bind (nextFlipPointD_sim ..) fun _ _ => i3 ..

theorem legalizeAllD_sim (c : Ctx) (f : Nat) : ∀ l s, Sim (legalizeAllD c f l s) (legalizeAll c f l s)
  | [], s => .refl _
  | t :: l, s => by
    rw [legalizeAllD, legalizeAll]
    exact .bind (legalizeD_sim ..) fun _ _ => legalizeAllD_sim c f ..

theorem edgeEventD_sim (c : Ctx) (f : Nat) (s : St) (e : Edge) (q : Point) : Sim (edgeEventD c f s e q) (edgeEvent .off c f s e q) := by
  unfold edgeEventD edgeEvent
  exact .bindr _ fun _ _ => .bindr _ fun _ _ => .bindr _ fun _ _ => .bindr _ fun _ _ => .bindr _ fun _ _ =>
    .ite (fun _ => .refl _) fun _ => .bind (fillEdgeEventD_sim ..) fun _ _ => .bindr _ fun _ _ => .bindr _ fun _ _ =>
      .bindr _ fun _ _ => .bind ((edgeD_sim c f).1 ..) fun _ _ => legalizeAllD_sim ..

theorem edgeEventsD_sim (c : Ctx) (f : Nat) (pid : Nat) (pt : Point) : ∀ l s,
    Sim (edgeEventsD c f pid pt l s) (edgeEvents .off c f pid pt l s)
  | [], s => .refl _
  | t :: l, s => by
    rw [edgeEventsD, edgeEvents]
    exact .bind (edgeEventD_sim ..) fun _ _ => edgeEventsD_sim c f pid pt ..

theorem sweepLoopD_sim (c : Ctx) (f : Nat) : ∀ l s, Sim (sweepLoopD c f l s) (sweepLoop .off c f l s)
  | [], s => .refl _
  | (pid, pt, es) :: l, s => by
    rw [sweepLoopD, sweepLoop]
    refine .bind (pointEventD_sim ..) fun _ _ => .bind (edgeEventsD_sim ..) fun s' _ => ?_
    refine ⟨fun a h => ?_⟩
    simp only [bind_ok] at h
    obtain ⟨b, -, h⟩ := h
    split at h
    · exact (sweepLoopD_sim c f l s').run a h
    · cases h

/-- A debug build that returns, returns what the release build returns. -/
theorem runD_sim {D} (cdt : CDT D) (f : Nat) : Sim (cdt.runD f) (cdt.run f) := by
  unfold CDT.runD CDT.run CDT.runG sweepPointsD sweepPoints
  exact .bindr _ fun _ _ => .bind (.bindr _ fun _ _ => sweepLoopD_sim ..) fun _ _ => .refl _

end P2T
