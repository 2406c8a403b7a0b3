import Verif.Spec.Protocol
import Verif.Proofs.Run

namespace P2T

theorem isLegal_iff (e : Ev) : e.isLegal = true ↔ IsLegalizationCall e := by
  cases e <;> simp [Ev.isLegal, IsLegalizationCall]

theorem Evolve.events {s s' : St} (h : Evolve s s') : ∃ l, s'.events = s.events ++ l ∧ ∀ e ∈ l, IsLegalizationCall e := by
  obtain ⟨l, e, hl⟩ := h.trace
  refine ⟨(l.map Prod.fst).reverse, by simp [St.events, e], fun e he => ?_⟩
  rw [List.mem_reverse, List.mem_map] at he
  obtain ⟨x, hx, rfl⟩ := he
  exact (isLegal_iff _).1 (hl x hx).1

theorem events_emit (s : St) (e : Ev) : (s.emit e).events = s.events ++ [e] := by simp [St.events, St.emit]

theorem edgeEvents_events {g : Trap} {c : Ctx} {f : Nat} {pid : Nat} {pt : Point} : ∀ {l : List Nat} {s s' : St},
    edgeEvents g c f pid pt l s = .ok s' → ∃ r, s'.events = s.events ++ r ∧ EdgeCalls pid l r
  | [], s, s', h => by
    simp only [edgeEvents, pure_ok, Except.ok.injEq] at h; subst h
    exact ⟨[], by simp, .nil⟩
  | p :: l, s, s', h => by
    simp only [edgeEvents, bind_ok] at h
    obtain ⟨s1, h1, h⟩ := h
    obtain ⟨l1, e1, k1⟩ := (edgeEvent_evolve h1).events
    obtain ⟨r, e2, k2⟩ := edgeEvents_events h
    exact ⟨l1 ++ .edge p pid :: r, by rw [e2, events_emit, e1]; simp, .edge k1 k2⟩

theorem pointEvent_events {c : Ctx} {f : Nat} {s s' : St} {pid : Nat} {pt : Point}
    (h : pointEvent c f s pid pt = .ok s') : ∃ l, s'.events = s.events ++ l ∧ ∀ e ∈ l, IsLegalizationCall e := by
  obtain ⟨node, next, ts, -, -, -, h4, -⟩ := pointEvent_evolve h
  exact h4.events

theorem sweepLoop_events {g : Trap} {c : Ctx} {f : Nat} : ∀ {l : List (Nat × Point × PointEdges)} {s s' : St},
    sweepLoop g c f l s = .ok s' →
    ∃ r, s'.events = s.events ++ r ∧ SweepCalls (l.map fun x => (x.1, x.2.2.toList)) r
  | [], s, s', h => by
    simp only [sweepLoop, pure_ok, Except.ok.injEq] at h; subst h
    exact ⟨[], by simp, .nil⟩
  | (pid, pt, es) :: l, s, s', h => by
    simp only [sweepLoop, bind_ok] at h
    obtain ⟨s2, h1, s3, h2, h⟩ := h
    obtain ⟨l1, e1, k1⟩ := pointEvent_events h1
    obtain ⟨m, e2, k2⟩ := edgeEvents_events h2
    obtain ⟨r, e3, k3⟩ := sweepLoop_events h
    refine ⟨_, ?_, .point k1 k2 k3⟩
    rw [e3, e2, events_emit, e1, events_emit]; simp

theorem edgesOf_append : ∀ a b, edgesOf (a ++ b) = edgesOf a ++ edgesOf b
  | [], b => rfl
  | e :: a, b => by cases e <;> simp [edgesOf, edgesOf_append a b]

theorem edgesOf_legal : ∀ {l}, (∀ e ∈ l, IsLegalizationCall e) → edgesOf l = []
  | [], _ => rfl
  | e :: l, h => by
    have h1 := h e (by simp)
    have := edgesOf_legal fun x hx => h x (List.mem_cons_of_mem _ hx)
    cases e <;> simp_all [edgesOf, IsLegalizationCall]

theorem EdgeCalls.edges {q ps r} (h : EdgeCalls q ps r) : edgesOf r = ps.map fun p => (p, q) := by
  induction h with
  | nil => rfl
  | edge h _ ih => rw [edgesOf_append, edgesOf_legal h]; simp [edgesOf, ih]

theorem SweepCalls.edges {L r} (h : SweepCalls L r) : edgesOf r = L.flatMap fun x => x.2.map fun p => (p, x.1) := by
  induction h with
  | nil => rfl
  | point h k _ ih =>
    rw [edgesOf_append, List.cons_append, edgesOf, edgesOf_append, edgesOf_legal h, edgesOf, k.edges, ih]
    · simp
    · simp
    · simp

end P2T
