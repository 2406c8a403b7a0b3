import Verif.Proofs.Run
import Verif.Proofs.FrontOps

/-!
# The front is sorted throughout every run

Without any assumption on the arithmetic: operations on the front keep the keys increasing.
-/

namespace P2T

/-- Increasing keys, now and at every callback so far. -/
def Srt (s : St) : Prop := Asc s.front.nodes ∧ ∀ x ∈ s.trace, Asc x.2.front.nodes

theorem asc_shape {f : Front} : Asc f.nodes ↔ f.shape.Pairwise fun a b => keyLt a.1 b.1 := by
  unfold Asc Front.shape
  rw [List.pairwise_map]

theorem asc_sublist {f f' : Front} (h : f'.shape.Sublist f.shape) (ha : Asc f.nodes) : Asc f'.nodes :=
  asc_shape.2 ((asc_shape.1 ha).sublist h)

theorem Evolve.srt {s s' : St} (e : Evolve s s') (h : Srt s) : Srt s' :=
  ⟨asc_sublist e.front h.1, fun x hx => (e.fronts x hx).elim (h.2 x) fun k => asc_sublist k h.1⟩

theorem Srt.emit {s : St} (h : Srt s) (e : Ev) : Srt (s.emit e) := by
  refine ⟨h.1, fun x hx => ?_⟩
  rcases List.mem_cons.1 hx with rfl | hx
  · exact h.1
  · exact h.2 x hx

theorem pointEvent_srt {c : Ctx} {f : Nat} {s s' : St} {pid : Nat} {pt : Point} (h : pointEvent c f s pid pt = .ok s') (k : Srt s) : Srt s' := by
  obtain ⟨node, next, ts, -, -, -, e, -⟩ := pointEvent_evolve h
  exact e.srt ⟨(insert_asc k.1 ..).1, k.2⟩

theorem edgeEvents_srt {g : Trap} {c : Ctx} {f : Nat} {pid : Nat} {pt : Point} : ∀ {l : List Nat} {s s' : St},
    edgeEvents g c f pid pt l s = .ok s' → Srt s → Srt s'
  | [], s, s', h, k => by
    simp only [edgeEvents, pure_ok, Except.ok.injEq] at h; subst h; exact k
  | p :: l, s, s', h, k => by
    simp only [edgeEvents, bind_ok] at h
    obtain ⟨s1, h1, h⟩ := h
    exact edgeEvents_srt h (((edgeEvent_evolve h1).srt k).emit _)

theorem sweepLoop_srt {g : Trap} {c : Ctx} {f : Nat} : ∀ {l : List (Nat × Point × PointEdges)} {s s' : St},
    sweepLoop g c f l s = .ok s' → Srt s → Srt s'
  | [], s, s', h, k => by
    simp only [sweepLoop, pure_ok, Except.ok.injEq] at h; subst h; exact k
  | (pid, pt, es) :: l, s, s', h, k => by
    simp only [sweepLoop, bind_ok] at h
    obtain ⟨s2, h1, s3, h2, h⟩ := h
    exact sweepLoop_srt h (edgeEvents_srt h2 ((pointEvent_srt h1 (k.emit _)).emit _))

theorem initState_srt {c : Ctx} {s : St} (h : initState c = .ok s) (hd : c.points.Nodup) (h1 : ∀ p ∈ c.ySorted, p ≠ c.head ∧ p ≠ c.tail)
    (h2 : c.head ≠ c.tail) : Srt s := by
  simp only [initState, bind_ok, unwrap_ok, pure_ok, Except.ok.injEq] at h
  obtain ⟨p0, h0, f, hf, rfl⟩ := h
  have := h1 p0 (List.mem_of_getElem? h0)
  exact ⟨(front_new hf hd this.1 h2 this.2).1, by simp⟩

/-- Every run. -/
theorem runG_srt {D} {g : Trap} {fuel : Nat} {cdt : CDT D} {t s} (h : cdt.runG g fuel = .ok (t, s)) (hd : cdt.points.points.Nodup)
    (h1 : ∀ p ∈ cdt.points.ySorted, p ≠ cdt.points.head ∧ p ≠ cdt.points.tail) (h2 : cdt.points.head ≠ cdt.points.tail) : Srt s := by
  obtain ⟨s0, s1, s2, items, k0, k1, k2, k3, rfl, -⟩ := runG_ok h
  have k := (sweepLoop_srt k2 (initState_srt k0 hd h1 h2)).emit .sweepDone
  obtain ⟨e4, e5, -⟩ := finalize_trace k3
  exact Srt.emit ⟨by rw [e5]; exact k.1, by rw [e4]; exact k.2⟩ _

end P2T
