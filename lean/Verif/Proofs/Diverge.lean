import Verif.Proofs.Mono

/-!
# Runs that never end

`Div k m`: with every recursion bound from `k` on, `m` runs out of it.  `convexAt` and `idleAt` recognize the states in which `fill_right_below_edge_event`
calls itself with unchanged arguments; the other checks follow the code to such a state.
-/

namespace P2T

/-- However large the bound (from `k` on), it runs out. -/
def Div {α} (k : Nat) (m : Nat → Except Err α) : Prop := ∀ f, k ≤ f → m f = .error .fuel

theorem Div.here {α β} {k : Nat} {m : Nat → Except Err α} (h : Div k m) (F : Nat → α → Except Err β) : Div k fun f => m f >>= F f := by
  intro f hf; simp only [h f hf]; rfl

/-- A result reached with the bound `k` is the result with every larger bound. -/
theorem Div.after {α β} {k : Nat} {m : Nat → Except Err α} {F : Nat → α → Except Err β} {a : α} (h : m k = .ok a)
    (hm : ∀ f, k ≤ f → Ap (· = .fuel) (m k) (m f)) (hF : Div k fun f => F f a) : Div k fun f => m f >>= F f := by
  intro f hf
  rcases hm f hf with e | ⟨e, -, e'⟩
  · simp only [← e, h]; exact hF f hf
  · rw [h] at e'; cases e'

/-- `fill_right_below_edge_event` at the node `id` does not return at once and finds that `id` and the next two nodes turn right. -/
def convexAt (e : CEdge) (s : St) (id : NodeId) : Bool :=
  decide (id.pt.x < e.p.x) &&
  match s.front.getNodeWithId id with
  | none => false
  | some node =>
    match s.front.next node with
    | none => false
    | some m1 =>
      match s.front.next m1 with
      | none => false
      | some m2 => decide (orient2d node.pt m1.pt m2.pt ≠ .ccw)

theorem convexAt_step {g : Trap} {c : Ctx} {e : CEdge} {s : St} {id : NodeId} (h : convexAt e s id = true) (f0 f : Nat) :
    fillRightBelow g c f0 e (f + 1) s id = (fillRightConvex g c f0 e f0 s id >>= fun x =>
      if x.2 then fillRightBelow g c f0 e f x.1 id else pure x.1) := by
  rw [fillRightBelow]
  unfold convexAt at h
  rw [Bool.and_eq_true, decide_eq_true_eq] at h
  obtain ⟨hx, h⟩ := h
  rw [if_neg (by exact Rat.not_le.2 hx)]
  split at h
  · cases h
  · rename_i node e1
    split at h
    · cases h
    · rename_i m1 e2
      split at h
      · cases h
      · rename_i m2 e3
        rw [decide_eq_true_eq] at h
        simp only [e1, e2, e3, unwrap, h, if_false, bind, Except.bind]

/-- `fill_right_convex_edge_event` changes nothing: the three nodes after `id` turn right, and the second of them is not below the edge. -/
def idleAt (e : CEdge) (s : St) (id : NodeId) : Bool :=
  match s.front.locateNext id with
  | none => false
  | some n1 =>
    match s.front.next n1 with
    | none => false
    | some n2 =>
      match s.front.next n2 with
      | none => false
      | some n3 => decide (orient2d n1.pt n2.pt n3.pt ≠ .ccw) && decide (orient2d e.q n2.pt e.p ≠ .ccw)

theorem idleAt_step {g : Trap} {c : Ctx} {e : CEdge} {s : St} {id : NodeId} (h : idleAt e s id = true) (f0 f : Nat) :
    fillRightConvex g c f0 e (f + 1) s id = .ok (s, true) := by
  rw [fillRightConvex]
  unfold idleAt at h
  split at h
  · cases h
  · rename_i n1 e1
    split at h
    · cases h
    · rename_i n2 e2
      split at h
      · cases h
      · rename_i n3 e3
        rw [Bool.and_eq_true, decide_eq_true_eq, decide_eq_true_eq] at h
        simp only [e1, e2, e3, unwrap, h.1, h.2, if_false, bind, Except.bind, pure, Except.pure]

/-- In such a state `fill_right_below_edge_event` calls itself with unchanged arguments, for ever. -/
theorem loopsAt_div {g : Trap} {c : Ctx} {e : CEdge} {s : St} {id : NodeId} (h : convexAt e s id = true) (h' : idleAt e s id = true)
    (f0 : Nat) : ∀ f, fillRightBelow g c f0 e f s id = .error .fuel
  | 0 => rfl
  | f + 1 => by
    have ih := loopsAt_div (g := g) (c := c) h h' f0 f
    rw [convexAt_step h]
    cases f0 with
    | zero => rfl
    | succ f0 => rw [idleAt_step h']; exact ih

/-- `fill_right_below_edge_event` gets to such a state. -/
def belowLoops (c : Ctx) (k : Nat) (e : CEdge) : Nat → St → NodeId → Bool
  | 0, _, _ => false
  | n + 1, s, id =>
    convexAt e s id &&
    (idleAt e s id ||
    match fillRightConvex Trap.off c k e k s id with
    | .ok (s, true) => belowLoops c k e n s id
    | _ => false)

theorem belowLoops_div {c : Ctx} {k : Nat} {e : CEdge} : ∀ {n : Nat} {s : St} {id : NodeId}, belowLoops c k e n s id = true →
    ∀ f, k ≤ f → ∀ f', fillRightBelow Trap.off c f e f' s id = .error .fuel
  | 0, _, _, h, _, _, _ => by cases h
  | n + 1, s, id, h, f, hf, f' => by
    cases f' with
    | zero => rfl
    | succ f' =>
    rw [belowLoops, Bool.and_eq_true, Bool.or_eq_true] at h
    obtain ⟨h1, h⟩ := h
    rcases h with h | h
    · exact loopsAt_div h1 h _ _
    · split at h
      · rename_i s' e2
        have ih := belowLoops_div h f hf f'
        have hc : fillRightConvex Trap.off c f e f s id = .ok (s', true) := by
          rcases fillRightConvex_ap (B := (· = .fuel)) (g := Trap.off) (g' := Trap.off) (.inl ⟨rfl, rfl⟩) c e (.inr ⟨hf, rfl⟩) (.inr ⟨hf, rfl⟩) s id with k' | ⟨_, -, k'⟩
          · rw [← k', e2]
          · rw [e2] at k'; cases k'
        rw [convexAt_step h1, hc]; exact ih
      · cases h

/-- `fill_right_above_edge_event` gets to such a state. -/
def aboveLoops (c : Ctx) (k : Nat) (e : CEdge) : Nat → St → NodeId → Bool
  | 0, _, _ => false
  | fuel + 1, s, id =>
    match s.front.locateNext id with
    | none => false
    | some n1 =>
      if n1.pt.x ≥ e.p.x then false
      else if orient2d e.q n1.pt e.p = .ccw then
        if belowLoops c k e k s id then true
        else match fillRightBelow Trap.off c k e k s id with
          | .ok s => aboveLoops c k e fuel s id
          | .error _ => false
      else aboveLoops c k e fuel s n1.id

theorem aboveLoops_div {c : Ctx} {k : Nat} {e : CEdge} : ∀ {n : Nat} {s : St} {id : NodeId}, aboveLoops c k e n s id = true →
    ∀ f, k ≤ f → ∀ f', fillRightAbove Trap.off c f e f' s id = .error .fuel
  | 0, _, _, h, _, _, _ => by cases h
  | n + 1, s, id, h, f, hf, f' => by
    cases f' with
    | zero => rfl
    | succ f' =>
    rw [aboveLoops] at h
    rw [fillRightAbove]
    split at h
    · cases h
    · rename_i n1 e1
      simp only [e1]
      split at h
      · cases h
      · rename_i hx
        rw [if_neg hx]
        split at h
        · rename_i ho
          rw [if_pos ho]
          split at h
          · rename_i hl
            rw [belowLoops_div hl f hf]; rfl
          · split at h
            · rename_i s' e2
              rcases fillRightBelow_ap (B := (· = .fuel)) (g := Trap.off) (g' := Trap.off) (.inl ⟨rfl, rfl⟩) c e (.inr ⟨hf, rfl⟩) (.inr ⟨hf, rfl⟩) s id with k' | ⟨_, -, k'⟩
              · rw [← k', e2]; exact aboveLoops_div h f hf f'
              · rw [e2] at k'; cases k'
            · cases h
        · rename_i ho
          rw [if_neg ho]
          exact aboveLoops_div h f hf f'

/-- `edge_event` gets to such a state. -/
def edgeLoops (c : Ctx) (k : Nat) (s : St) (edge : Edge) (q : Point) : Bool :=
  match c.pt edge.p, s.front.getNodeWithCache q with
  | .ok p, .ok (f, some node) =>
    match node.tri with
    | none => false
    | some t =>
      match Store.tryMarkEdge s.tris edge.p edge.q t with
      | .ok (ts, false) => decide (p.x > q.x) &&
          aboveLoops c k ⟨edge.p, edge.q, p, q, decide (p.x > q.x)⟩ k { s with front := f, tris := ts } node.id
      | _ => false
  | _, _ => false

theorem edgeLoops_div {c : Ctx} {k : Nat} {s : St} {edge : Edge} {q : Point} (h : edgeLoops c k s edge q = true) :
    Div k fun f => edgeEvent Trap.off c f s edge q := by
  intro f hf
  unfold edgeLoops at h
  split at h
  · rename_i p F node e1 e2
    split at h
    · cases h
    · rename_i t e3
      split at h
      · rename_i ts e4
        rw [Bool.and_eq_true] at h
        obtain ⟨h1, h⟩ := h
        have := aboveLoops_div h f hf f
        simp only [edgeEvent, e1, e2, e3, e4, unwrap, bind, Except.bind, fillEdgeEvent, h1, if_true, Bool.false_eq_true, if_false]
        simp only [h1] at this
        rw [this]
      · cases h
  · cases h

def edgesLoop (c : Ctx) (k : Nat) (pid : Nat) (pt : Point) : List Nat → St → Bool
  | [], _ => false
  | p :: ps, s =>
    edgeLoops c k s ⟨p, pid⟩ pt ||
    match edgeEvent Trap.off c k s ⟨p, pid⟩ pt with
    | .ok s => edgesLoop c k pid pt ps (s.emit (.edge p pid))
    | .error _ => false

theorem edgesLoop_div {c : Ctx} {k pid : Nat} {pt : Point} : ∀ {l : List Nat} {s : St}, edgesLoop c k pid pt l s = true →
    Div k fun f => edgeEvents Trap.off c f pid pt l s
  | [], _, h => by cases h
  | p :: ps, s, h => by
    rw [edgesLoop, Bool.or_eq_true] at h
    simp only [edgeEvents]
    rcases h with h | h
    · exact (edgeLoops_div h).here _
    · split at h
      · rename_i s' e
        exact Div.after e (fun f hf => edgeEvent_ap (B := (· = .fuel)) (.inl ⟨rfl, rfl⟩) (.inl rfl) c (.inr ⟨hf, rfl⟩) _ _ _) (edgesLoop_div h)
      · cases h

def sweepLoops (c : Ctx) (k : Nat) : List (Nat × Point × PointEdges) → St → Bool
  | [], _ => false
  | (pid, pt, es) :: rest, s =>
    match pointEvent c k (s.emit (.enterPoint pid)) pid pt with
    | .error _ => false
    | .ok s =>
      edgesLoop c k pid pt es.toList (s.emit (.exitPoint pid)) ||
      match edgeEvents Trap.off c k pid pt es.toList (s.emit (.exitPoint pid)) with
      | .ok s => sweepLoops c k rest s
      | .error _ => false

theorem sweepLoops_div {c : Ctx} {k : Nat} : ∀ {l : List (Nat × Point × PointEdges)} {s : St}, sweepLoops c k l s = true →
    Div k fun f => sweepLoop Trap.off c f l s
  | [], _, h => by cases h
  | (pid, pt, es) :: l, s, h => by
    rw [sweepLoops] at h
    simp only [sweepLoop]
    split at h
    · cases h
    · rename_i s1 e1
      refine Div.after e1 (fun f hf => pointEvent_ap (B := (· = .fuel)) c (.inr ⟨hf, rfl⟩) _ _ _) ?_
      rw [Bool.or_eq_true] at h
      rcases h with h | h
      · exact (edgesLoop_div h).here _
      · split at h
        · rename_i s' e
          exact Div.after e (fun f hf => edgeEvents_ap (B := (· = .fuel)) (.inl ⟨rfl, rfl⟩) (.inl rfl) c (.inr ⟨hf, rfl⟩) _ _ _ _) (sweepLoops_div h)
        · cases h

def runLoops {D} (cdt : CDT D) (k : Nat) : Bool :=
  match initState cdt.points, cdt.points.iterByY 1 with
  | .ok s, .ok l => sweepLoops cdt.points k l s
  | _, _ => false

/-- A run that gets to such a state ends with no recursion bound whatever. -/
theorem runLoops_fuel {D} {cdt : CDT D} {k : Nat} (h : runLoops cdt k = true) : ∀ f, cdt.run f = .error .fuel := by
  have key : Div k fun f => cdt.run f := by
    intro f hf
    unfold runLoops at h
    split at h
    · rename_i s l e1 e2
      have := sweepLoops_div h f hf
      simp only [CDT.run, CDT.runG, sweepPoints, e1, e2, bind, Except.bind] at this ⊢
      rw [this]
    · cases h
  intro f
  rcases run_fuel cdt (Nat.le_max_left f k) with h | h
  · exact h
  · rw [h]; exact key _ (Nat.le_max_right f k)

end P2T
