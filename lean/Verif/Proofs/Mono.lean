import Verif.Proofs.Basic

/-!
# Fuel and trap monotonicity

`Ap B m m'`: `m` equals `m'` or `m` stopped with an error of the class `B` (out of fuel, ghost trap).
Every function of the sweep is monotone in its fuel, and switching the ghost traps off changes nothing
unless a trap fired.
-/

namespace P2T

def Ap (B : Err → Prop) {α} (m m' : Except Err α) : Prop := m = m' ∨ ∃ e, B e ∧ m = .error e

/-- The two recursion bounds are equal, or the first is smaller and running out of it is in `B`. -/
def LeB (B : Err → Prop) (f f' : Nat) : Prop := f = f' ∨ (f ≤ f' ∧ B .fuel)
theorem LeB.pred {B f f'} (h : LeB B (f + 1) (f' + 1)) : LeB B f f' := by
  rcases h with h | ⟨h, b⟩
  · exact .inl (by omega)
  · exact .inr ⟨by omega, b⟩
theorem LeB.zero {B f'} (h : LeB B 0 f') : f' = 0 ∨ B .fuel := by
  rcases h with h | ⟨h, b⟩
  · exact .inl h.symm
  · exact .inr b
theorem LeB.absurd {B f} (h : LeB B (f + 1) 0) : False := by
  rcases h with h | ⟨h, b⟩ <;> omega

namespace Ap
variable {B : Err → Prop} {α β : Type}

theorem refl (m : Except Err α) : Ap B m m := .inl rfl
theorem of_err {e : Err} (h : B e) (m : Except Err α) : Ap B (.error e) m := .inr ⟨e, h, rfl⟩
theorem bind {m m' : Except Err α} {f f' : α → Except Err β} (h : Ap B m m')
    (hf : ∀ a, Ap B (f a) (f' a)) : Ap B (m >>= f) (m' >>= f') := by
  rcases h with rfl | ⟨e, he, rfl⟩
  · cases m with
    | ok a => exact hf a
    | error e => exact .inl rfl
  · exact .inr ⟨e, he, rfl⟩
theorem bindr (m : Except Err α) {f f' : α → Except Err β} 
    (hf : ∀ a, Ap B (f a) (f' a)) : Ap B (m >>= f) (m >>= f') := (Ap.refl m).bind hf
theorem ite {c : Prop} [Decidable c] {a a' b b' : Except Err α} (h : Ap B a a') (h' : Ap B b b') :
    Ap B (if c then a else b) (if c then a' else b') := by split <;> assumption
end Ap

section
variable {B : Err → Prop}

theorem legalizeLoop_ap (c : Ctx) : ∀ {f f' : Nat}, LeB B f f' → ∀ s q r,
    Ap B (legalizeLoop c f s q r) (legalizeLoop c f' s q r)
  | _, _, _, s, [], r => by simp only [legalizeLoop]; exact .refl _
  | 0, f', h, s, t :: q, r => by
    rcases h.zero with rfl | hB
    · exact .refl _
    · rw [legalizeLoop]; exact .of_err hB _
  | f + 1, 0, h, s, t :: q, r => (h.absurd).elim
  | f + 1, f' + 1, h, s, t :: q, r => by
    rw [legalizeLoop, legalizeLoop]
    refine .bindr _ fun a => ?_
    cases a with
    | none => exact legalizeLoop_ap c h.pred ..
    | some x =>
      refine .bindr _ fun _ => .bindr _ fun _ => legalizeLoop_ap c h.pred ..

theorem legalize_ap (c : Ctx) {f f' : Nat} (h : LeB B f f') (s t) :
    Ap B (legalize c f s t) (legalize c f' s t) := by
  unfold legalize
  refine .bind (legalizeLoop_ap c h ..) fun _ => .refl _

theorem fillOne_ap (c : Ctx) {f f' : Nat} (h : LeB B f f') (s t) :
    Ap B (fillOne c f s t) (fillOne c f' s t) := by
  unfold fillOne
  refine .bindr _ fun n => ?_
  split
  · exact .refl _
  · split
    · exact .refl _
    · refine .bindr _ fun _ => .bindr _ fun _ => .bindr _ fun _ => .bindr _ fun _ => .bindr _ fun _ => 
        .bind (legalize_ap c h ..) fun _ => .refl _

theorem fillRight_ap (c : Ctx) {g g' : Nat} (hg : LeB B g g') : ∀ {f f' : Nat}, LeB B f f' → ∀ s id,
    Ap B (fillRight c g f s id) (fillRight c g' f' s id)
  | 0, f', h, s, id => by
    rcases h.zero with rfl | hB
    · exact .refl _
    · rw [fillRight]; exact .of_err hB _
  | f + 1, 0, h, s, id => (h.absurd).elim
  | f + 1, f' + 1, h, s, id => by
    rw [fillRight, fillRight]
    split
    · exact .refl _
    · split
      · exact .refl _
      · refine .bindr _ fun b => ?_
        split
        · exact .refl _
        · refine .bind (fillOne_ap c hg ..) fun _ => fillRight_ap c hg h.pred ..

theorem fillLeft_ap (c : Ctx) {g g' : Nat} (hg : LeB B g g') : ∀ {f f' : Nat}, LeB B f f' → ∀ s id,
    Ap B (fillLeft c g f s id) (fillLeft c g' f' s id)
  | 0, f', h, s, id => by
    rcases h.zero with rfl | hB
    · exact .refl _
    · rw [fillLeft]; exact .of_err hB _
  | f + 1, 0, h, s, id => (h.absurd).elim
  | f + 1, f' + 1, h, s, id => by
    rw [fillLeft, fillLeft]
    split
    · exact .refl _
    · split
      · exact .refl _
      · refine .bindr _ fun b => ?_
        split
        · exact .refl _
        · refine .bind (fillOne_ap c hg ..) fun _ => fillLeft_ap c hg h.pred ..

theorem findBottom_ap (F : Front) : ∀ {f f' : Nat}, LeB B f f' → ∀ b,
    Ap B (findBottom F f b) (findBottom F f' b)
  | 0, f', h, b => by
    rcases h.zero with rfl | hB
    · exact .refl _
    · rw [findBottom]; exact .of_err hB _
  | f + 1, 0, h, b => (h.absurd).elim
  | f + 1, f' + 1, h, b => by
    rw [findBottom, findBottom]
    split
    · exact .refl _
    · exact .ite (findBottom_ap F h.pred _) (.refl _)

theorem findRight_ap (F : Front) : ∀ {f f' : Nat}, LeB B f f' → ∀ b,
    Ap B (findRight F f b) (findRight F f' b)
  | 0, f', h, b => by
    rcases h.zero with rfl | hB
    · exact .refl _
    · rw [findRight]; exact .of_err hB _
  | f + 1, 0, h, b => (h.absurd).elim
  | f + 1, f' + 1, h, b => by
    rw [findRight, findRight]
    split
    · exact .refl _
    · exact .ite (findRight_ap F h.pred _) (.refl _)

theorem fillBasinReq_ap (c : Ctx) {g g' : Nat} (hg : LeB B g g') : ∀ {f f' : Nat}, LeB B f f' → ∀ s id b,
    Ap B (fillBasinReq c g f s id b) (fillBasinReq c g' f' s id b)
  | 0, f', h, s, id, b => by
    rcases h.zero with rfl | hB
    · exact .refl _
    · rw [fillBasinReq]; exact .of_err hB _
  | f + 1, 0, h, s, id, b => (h.absurd).elim
  | f + 1, f' + 1, h, s, id, b => by
    rw [fillBasinReq, fillBasinReq]
    refine .ite (.refl _) (.bind (fillOne_ap c hg ..) fun r => .bindr _ fun fo => ?_)
    refine .ite (.refl _) (.ite (.bindr _ fun _ => .bindr _ fun _ => .ite (.refl _) ?_)
      (.ite (.bindr _ fun _ => ?_) (.ite ?_ ?_)))
    · exact fillBasinReq_ap c hg h.pred ..
    · split
      · exact .refl _
      · exact .ite (.refl _) (fillBasinReq_ap c hg h.pred ..)
    · exact fillBasinReq_ap c hg h.pred ..
    · exact fillBasinReq_ap c hg h.pred ..

theorem fillBasin_ap (c : Ctx) {f f' : Nat} (h : LeB B f f') (s id) :
    Ap B (fillBasin c f s id) (fillBasin c f' s id) := by
  unfold fillBasin
  split
  · exact .refl _
  · split
    · exact .refl _
    · refine .bind (findBottom_ap _ h _) fun _ => .ite (.refl _)
        (.bind (findRight_ap _ h _) fun _ => .ite (.refl _) (fillBasinReq_ap c h h ..))

theorem fillAdvancingFront_ap (c : Ctx) {f f' : Nat} (h : LeB B f f') (s p) :
    Ap B (fillAdvancingFront c f s p) (fillAdvancingFront c f' s p) := by
  unfold fillAdvancingFront
  refine .bindr _ fun _ => .bindr _ fun _ => .bind (fillRight_ap c h h ..) fun _ =>
    .bind (fillLeft_ap c h h ..) fun _ => .ite (fillBasin_ap c h ..) (.refl _)

theorem pointEvent_ap (c : Ctx) {f f' : Nat} (h : LeB B f f') (s pid p) :
    Ap B (pointEvent c f s pid p) (pointEvent c f' s pid p) := by
  unfold pointEvent
  refine .bindr _ fun _ => .bindr _ fun _ => .bindr _ fun _ => .bindr _ fun _ =>
    .bind (legalize_ap c h ..) fun _ => .bind (.ite (.bind (fillOne_ap c h ..) fun _ => .refl _) (.refl _))
      fun _ => fillAdvancingFront_ap c h ..

theorem fillRightConcave_ap (c : Ctx) (e : CEdge) {g g' : Nat} (hg : LeB B g g') : ∀ {f f' : Nat}, LeB B f f' → ∀ s id,
    Ap B (fillRightConcave c g e f s id) (fillRightConcave c g' e f' s id)
  | 0, f', h, s, id => by
    rcases h.zero with rfl | hB
    · exact .refl _
    · rw [fillRightConcave]; exact .of_err hB _
  | f + 1, 0, h, s, id => (h.absurd).elim
  | f + 1, f' + 1, h, s, id => by
    rw [fillRightConcave, fillRightConcave]
    refine .bindr _ fun _ => .bind (fillOne_ap c hg ..) fun _ => .ite (.ite (.bindr _ fun _ => .ite
      (fillRightConcave_ap c e hg h.pred ..) (.refl _)) (.refl _)) (.refl _)

theorem fillLeftConcave_ap (c : Ctx) (e : CEdge) {g g' : Nat} (hg : LeB B g g') : ∀ {f f' : Nat}, LeB B f f' → ∀ s id,
    Ap B (fillLeftConcave c g e f s id) (fillLeftConcave c g' e f' s id)
  | 0, f', h, s, id => by
    rcases h.zero with rfl | hB
    · exact .refl _
    · rw [fillLeftConcave]; exact .of_err hB _
  | f + 1, 0, h, s, id => (h.absurd).elim
  | f + 1, f' + 1, h, s, id => by
    rw [fillLeftConcave, fillLeftConcave]
    refine .bindr _ fun _ => .bind (fillOne_ap c hg ..) fun _ => .ite (.ite (.bindr _ fun _ => .bindr _ fun _ => .ite
      (fillLeftConcave_ap c e hg h.pred ..) (.refl _)) (.refl _)) (.refl _)

theorem fillLeftConvex_ap (c : Ctx) (e : CEdge) {g g' : Nat} (hg : LeB B g g') : ∀ {f f' : Nat}, LeB B f f' → ∀ s id,
    Ap B (fillLeftConvex c g e f s id) (fillLeftConvex c g' e f' s id)
  | 0, f', h, s, id => by
    rcases h.zero with rfl | hB
    · exact .refl _
    · rw [fillLeftConvex]; exact .of_err hB _
  | f + 1, 0, h, s, id => (h.absurd).elim
  | f + 1, f' + 1, h, s, id => by
    rw [fillLeftConvex, fillLeftConvex]
    refine .bindr _ fun _ => .bindr _ fun _ => ?_
    split
    · exact .refl _
    · exact .ite (.bind (fillLeftConcave_ap c e hg hg ..) fun _ => .refl _)
        (.ite (fillLeftConvex_ap c e hg h.pred ..) (.refl _))

theorem fillLeftBelow_ap (c : Ctx) (e : CEdge) {g g' : Nat} (hg : LeB B g g') : ∀ {f f' : Nat}, LeB B f f' → ∀ s id,
    Ap B (fillLeftBelow c g e f s id) (fillLeftBelow c g' e f' s id)
  | 0, f', h, s, id => by
    rcases h.zero with rfl | hB
    · exact .refl _
    · rw [fillLeftBelow]; exact .of_err hB _
  | f + 1, 0, h, s, id => (h.absurd).elim
  | f + 1, f' + 1, h, s, id => by
    rw [fillLeftBelow, fillLeftBelow]
    exact .ite (.bindr _ fun _ => .bindr _ fun _ => .ite (fillLeftConcave_ap c e hg hg ..)
      (.bind (fillLeftConvex_ap c e hg hg ..) fun _ => .ite (fillLeftBelow_ap c e hg h.pred ..) (.refl _)))
      (.refl _)

theorem fillLeftAbove_ap (c : Ctx) (e : CEdge) {g g' : Nat} (hg : LeB B g g') : ∀ {f f' : Nat}, LeB B f f' → ∀ s id,
    Ap B (fillLeftAbove c g e f s id) (fillLeftAbove c g' e f' s id)
  | 0, f', h, s, id => by
    rcases h.zero with rfl | hB
    · exact .refl _
    · rw [fillLeftAbove]; exact .of_err hB _
  | f + 1, 0, h, s, id => (h.absurd).elim
  | f + 1, f' + 1, h, s, id => by
    rw [fillLeftAbove, fillLeftAbove]
    split
    · exact .refl _
    · exact .ite (.refl _) (.ite (.bind (fillLeftBelow_ap c e hg hg ..) fun _ => fillLeftAbove_ap c e hg h.pred ..)
        (fillLeftAbove_ap c e hg h.pred ..))

theorem legalizeAll_ap (c : Ctx) {f f' : Nat} (h : LeB B f f') : ∀ l s,
    Ap B (legalizeAll c f l s) (legalizeAll c f' l s)
  | [], s => .refl _
  | t :: l, s => by
    rw [legalizeAll, legalizeAll]
    exact .bind (legalize_ap c h ..) fun _ => legalizeAll_ap c h ..

theorem findInterior_ap (ts : Store) (p : Nat) : ∀ {f f' : Nat}, LeB B f f' → ∀ t,
    Ap B (findInterior ts p f t) (findInterior ts p f' t)
  | 0, f', h, b => by
    rcases h.zero with rfl | hB
    · exact .refl _
    · rw [findInterior]; exact .of_err hB _
  | f + 1, 0, h, b => (h.absurd).elim
  | f + 1, f' + 1, h, b => by
    rw [findInterior, findInterior]
    refine .bindr _ fun o => ?_
    cases o with
    | none => exact .refl _
    | some T =>
      refine .bindr _ fun _ => .ite (.refl _) (.bindr _ fun _ => findInterior_ap ts p h.pred _)

theorem cleanMesh_ap : ∀ {f f' : Nat}, LeB B f f' → ∀ ts r st,
    Ap B (cleanMesh f ts r st) (cleanMesh f' ts r st)
  | _, _, _, ts, r, [] => by simp only [cleanMesh]; exact .refl _
  | 0, f', h, ts, r, _ :: _ => by
    rcases h.zero with rfl | hB
    · exact .refl _
    · rw [cleanMesh]; exact .of_err hB _
  | f + 1, 0, h, ts, r, _ :: _ => (h.absurd).elim
  | f + 1, f' + 1, h, ts, r, (t, fr) :: st => by
    simp only [cleanMesh]
    split
    · exact cleanMesh_ap h.pred ..
    · split
      · exact .refl _
      · exact .ite (cleanMesh_ap h.pred ..) (cleanMesh_ap h.pred ..)

theorem finalizePolygon_ap {f f' : Nat} (h : LeB B f f') (s) :
    Ap B (finalizePolygon f s) (finalizePolygon f' s) := by
  unfold finalizePolygon
  split
  · exact .refl _
  · split
    · exact .refl _
    · refine .bind (findInterior_ap _ _ h _) fun o => ?_
      cases o with
      | none => exact .refl _
      | some t => exact .bind (cleanMesh_ap h ..) fun _ => .refl _

end

section
variable {B : Err → Prop} {g g' : Trap}
  (h1 : (g.l698 = g'.l698 ∧ g.fix = g'.fix) ∨ (g.l698 = true ∧ g'.l698 = false ∧ B (.trapped "698")))
  (h2 : g.col = g'.col ∨ (g'.col = false ∧ B (.trapped "collinear")))
include h1 in
theorem fillRightConvex_ap (c : Ctx) (e : CEdge) {k k' : Nat} (hk : LeB B k k') : ∀ {f f' : Nat}, LeB B f f' → ∀ s id,
    Ap B (fillRightConvex g c k e f s id) (fillRightConvex g' c k' e f' s id)
  | 0, f', h, s, id => by
    rcases h.zero with rfl | hB
    · exact .refl _
    · rw [fillRightConvex]; exact .of_err hB _
  | f + 1, 0, h, s, id => (h.absurd).elim
  | f + 1, f' + 1, h, s, id => by
    rw [fillRightConvex, fillRightConvex]
    refine .bindr _ fun _ => .bindr _ fun _ => ?_
    split
    · exact .refl _
    · refine .ite ?_ (.ite (fillRightConvex_ap c e hk h.pred ..) (.refl _))
      rcases h1 with ⟨h1, h3⟩ | ⟨h0, h1, hb⟩
      · rw [h1, h3]
        exact .ite (.refl _) (.bind (fillRightConcave_ap c e hk hk ..) fun _ => .refl _)
      · rw [h0, h1]
        exact .of_err hb _

include h1 in
theorem fillRightBelow_ap (c : Ctx) (e : CEdge) {k k' : Nat} (hk : LeB B k k') : ∀ {f f' : Nat}, LeB B f f' → ∀ s id,
    Ap B (fillRightBelow g c k e f s id) (fillRightBelow g' c k' e f' s id)
  | 0, f', h, s, id => by
    rcases h.zero with rfl | hB
    · exact .refl _
    · rw [fillRightBelow]; exact .of_err hB _
  | f + 1, 0, h, s, id => (h.absurd).elim
  | f + 1, f' + 1, h, s, id => by
    rw [fillRightBelow, fillRightBelow]
    exact .ite (.refl _) (.bindr _ fun _ => .bindr _ fun _ => .bindr _ fun _ =>
      .ite (fillRightConcave_ap c e hk hk ..) (.bind (fillRightConvex_ap h1 c e hk hk ..) fun _ =>
        .ite (fillRightBelow_ap c e hk h.pred ..) (.refl _)))

include h1 in
theorem fillRightAbove_ap (c : Ctx) (e : CEdge) {k k' : Nat} (hk : LeB B k k') : ∀ {f f' : Nat}, LeB B f f' → ∀ s id,
    Ap B (fillRightAbove g c k e f s id) (fillRightAbove g' c k' e f' s id)
  | 0, f', h, s, id => by
    rcases h.zero with rfl | hB
    · exact .refl _
    · rw [fillRightAbove]; exact .of_err hB _
  | f + 1, 0, h, s, id => (h.absurd).elim
  | f + 1, f' + 1, h, s, id => by
    rw [fillRightAbove, fillRightAbove]
    split
    · exact .refl _
    · exact .ite (.refl _) (.ite (.bind (fillRightBelow_ap h1 c e hk hk ..) fun _ =>
        fillRightAbove_ap c e hk h.pred ..) (fillRightAbove_ap c e hk h.pred ..))

include h1 in
theorem fillEdgeEvent_ap (c : Ctx) {f f' : Nat} (h : LeB B f f') (s e id) :
    Ap B (fillEdgeEvent g c f s e id) (fillEdgeEvent g' c f' s e id) := by
  unfold fillEdgeEvent
  exact .ite (fillRightAbove_ap h1 c e h h ..) (fillLeftAbove_ap c e h h ..)

include h2 in
theorem edge_ap (c : Ctx) : ∀ (f f' : Nat), LeB B f f' →
    (∀ s ep eq e t p lq, Ap B (edgeProcess g c f s ep eq e t p lq) (edgeProcess g' c f' s ep eq e t p lq)) ∧
    (∀ s ep eq e t p lq, Ap B (flipEdge g c f s ep eq e t p lq) (flipEdge g' c f' s ep eq e t p lq)) ∧
    (∀ s ep eq e ft t p lq, Ap B (flipScan g c f s ep eq e ft t p lq) (flipScan g' c f' s ep eq e ft t p lq))
  | 0, f', h => by
    rcases h.zero with rfl | hB
    · refine ⟨?_, ?_, ?_⟩ <;> intros
      · rw [edgeProcess, edgeProcess]; exact .refl _
      · rw [flipEdge, flipEdge]; exact .refl _
      · rw [flipScan, flipScan]; exact .refl _
    refine ⟨?_, ?_, ?_⟩ <;> intros
    · rw [edgeProcess]; exact .of_err hB _
    · rw [flipEdge]; exact .of_err hB _
    · rw [flipScan]; exact .of_err hB _
  | f + 1, 0, h => h.absurd.elim
  | f + 1, f' + 1, h => by
    obtain ⟨i1, i2, i3⟩ := edge_ap c f f' h.pred
    have col : ∀ {α} {x x' : Except Err α}, Ap B x x' →
        Ap B (if g.col = true then .error (.trapped "collinear") else x)
          (if g'.col = true then .error (.trapped "collinear") else x') := by
      intro α x x' hx
      rcases h2 with h2 | ⟨h2, hb⟩
      · rw [h2]; exact .ite (.refl _) hx
      · rw [h2]
        simp only [Bool.false_eq_true, if_false]
        split
        · exact .of_err hb _
        · exact hx
    refine ⟨?_, ?_, ?_⟩ <;> intros
    · rw [edgeProcess, edgeProcess]
      refine .bindr _ fun _ => .bindr _ fun _ => .ite (.refl _) (.bindr _ fun _ => .bindr _ fun _ =>
        .bindr _ fun _ => .bindr _ fun _ => .bindr _ fun _ => .ite (col ?_) (.bindr _ fun _ => .bindr _ fun _ =>
        .bindr _ fun _ => .bindr _ fun _ => .ite (col ?_) (.ite (.bindr _ fun _ => i1 ..) (i2 ..))))
      · split
        · exact .refl _
        · exact .bindr _ fun _ => .bindr _ fun _ => i1 ..
      · split
        · exact .refl _
        · exact .bindr _ fun _ => .bindr _ fun _ => i1 ..
    · rw [flipEdge, flipEdge]
      refine .bindr _ fun _ => .bindr _ fun _ => .bindr _ fun _ => .bindr _ fun _ => .bindr _ fun _ =>
        .bindr _ fun _ => .bindr _ fun _ => .bindr _ fun _ => .bindr _ fun _ => .bindr _ fun _ => .ite ?_ ?_
      · refine .bindr _ fun _ => .bindr _ fun _ => .ite (.refl _) (.bindr _ fun _ => .bindr _ fun _ =>
          .bindr _ fun _ => i2 ..)
      · exact .bindr _ fun _ => .bind (i3 ..) fun _ => i1 ..
    · rw [flipScan, flipScan]
      refine .bindr _ fun _ => .bindr _ fun _ => .bindr _ fun _ => .bindr _ fun _ => .bindr _ fun _ =>
        .bindr _ fun _ => .bindr _ fun _ => .bindr _ fun _ => .bindr _ fun _ => .bindr _ fun _ =>
        .bindr _ fun _ => .bindr _ fun _ => .ite (i2 ..) (.bindr _ fun _ => i3 ..)

include h1 h2

theorem edgeEvent_ap (c : Ctx) {f f' : Nat} (h : LeB B f f') (s e q) :
    Ap B (edgeEvent g c f s e q) (edgeEvent g' c f' s e q) := by
  unfold edgeEvent
  refine .bindr _ fun _ => .bindr _ fun _ => .bindr _ fun _ => .bindr _ fun _ => .bindr _ fun _ =>
    .ite (.refl _) (.bind (fillEdgeEvent_ap h1 c h ..) fun _ => .bindr _ fun _ => .bindr _ fun _ =>
      .bindr _ fun _ => .bind ((edge_ap h2 c f f' h).1 ..) fun _ => legalizeAll_ap c h ..)

theorem edgeEvents_ap (c : Ctx) {f f' : Nat} (h : LeB B f f') (pid pt) : ∀ l s,
    Ap B (edgeEvents g c f pid pt l s) (edgeEvents g' c f' pid pt l s)
  | [], s => .refl _
  | t :: l, s => by
    rw [edgeEvents, edgeEvents]
    exact .bind (edgeEvent_ap h1 h2 c h ..) fun _ => edgeEvents_ap c h ..

theorem sweepLoop_ap (c : Ctx) {f f' : Nat} (h : LeB B f f') : ∀ l s,
    Ap B (sweepLoop g c f l s) (sweepLoop g' c f' l s)
  | [], s => .refl _
  | (pid, pt, es) :: l, s => by
    rw [sweepLoop, sweepLoop]
    exact .bind (pointEvent_ap c h ..) fun _ => .bind (edgeEvents_ap h1 h2 c h ..) fun _ => sweepLoop_ap c h ..

theorem runG_ap {D} (cdt : CDT D) {f f' : Nat} (h : LeB B f f') :
    Ap B (cdt.runG g f) (cdt.runG g' f') := by
  unfold CDT.runG sweepPoints
  refine .bindr _ fun _ => .bind (.bindr _ fun _ => sweepLoop_ap h1 h2 _ h ..) fun _ =>
    .bind (finalizePolygon_ap h _) fun _ => .refl _

end

/-- A run whose recursion bound did not run out is not changed by a larger bound. -/
theorem run_fuel {D} (cdt : CDT D) {f f' : Nat} (h : f ≤ f') :
    cdt.run f = .error .fuel ∨ cdt.run f = cdt.run f' := by
  rcases runG_ap (B := fun e => e = .fuel) (g := Trap.off) (g' := Trap.off) (.inl ⟨rfl, rfl⟩) (.inl rfl) cdt
    (.inr ⟨h, rfl⟩) with h | ⟨e, rfl, h⟩
  · exact .inr h
  · exact .inl h

/-- Ghost traps change nothing unless they fire. -/
theorem runG_off {D} (cdt : CDT D) (g : Trap) (f : Nat) (hf : g.fix = false := by rfl) :
    (∃ s, cdt.runG g f = .error (.trapped s)) ∨ cdt.runG g f = cdt.run f := by
  have h1 : (g.l698 = Trap.off.l698 ∧ g.fix = Trap.off.fix) ∨ (g.l698 = true ∧ Trap.off.l698 = false ∧ ∃ s, Err.trapped "698" = .trapped s) := by
    cases k : g.l698
    · exact .inl ⟨rfl, hf⟩
    · exact .inr ⟨rfl, rfl, _, rfl⟩
  rcases runG_ap (B := fun e => ∃ s, e = .trapped s) (g := g) (g' := Trap.off)
    h1 (.inr ⟨rfl, _, rfl⟩) cdt (f := f) (f' := f) (Or.inl rfl) with h | ⟨e, ⟨s, rfl⟩, h⟩
  · exact .inr h
  · exact .inl ⟨s, h⟩

end P2T
