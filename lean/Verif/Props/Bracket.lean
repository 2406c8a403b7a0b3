import Verif.Spec.Bracket
import Verif.Props.Events

/-!
# C69: how the callbacks of legalization are nested, and the triangle ids they get

`C69_calls`: the callbacks of a finished run, with the number of triangles at each.
`C69_brackets`: every `will_legalize` has its `legalized`, with only steps and rotations of the same mesh size between.
`C69_ids`: an id that an observer is given is the id of a triangle, then and at every later callback.
`C69_grow`: the number of triangles never decreases from one callback to the next.
-/

namespace P2T

theorem edgeEvents_counts {g : Trap} {c : Ctx} {f : Nat} {pid : Nat} {pt : Point} : ∀ {l : List Nat} {s s' : St},
    edgeEvents g c f pid pt l s = .ok s' → ∃ r, s'.counts = s.counts ++ r ∧ EdgeBlocks pid l s.tris.length r s'.tris.length
  | [], s, s', h => by
    simp only [edgeEvents, pure_ok, Except.ok.injEq] at h; subst h
    exact ⟨[], by simp, .nil⟩
  | p :: l, s, s', h => by
    simp only [edgeEvents, bind_ok] at h
    obtain ⟨s1, h1, h⟩ := h
    obtain ⟨l1, e1, k1⟩ := (edgeEvent_evolve h1).blocks
    obtain ⟨r, e2, k2⟩ := edgeEvents_counts h
    exact ⟨l1 ++ (.edge p pid, s1.tris.length) :: r, by rw [e2, counts_emit, e1]; simp, .edge k1 k2⟩

theorem sweepLoop_counts {g : Trap} {c : Ctx} {f : Nat} : ∀ {l : List (Nat × Point × PointEdges)} {s s' : St},
    sweepLoop g c f l s = .ok s' →
    ∃ r, s'.counts = s.counts ++ r ∧ SweepBlocks (l.map fun x => (x.1, x.2.2.toList)) s.tris.length r s'.tris.length
  | [], s, s', h => by
    simp only [sweepLoop, pure_ok, Except.ok.injEq] at h; subst h
    exact ⟨[], by simp, .nil⟩
  | (pid, pt, es) :: l, s, s', h => by
    simp only [sweepLoop, bind_ok] at h
    obtain ⟨s2, h1, s3, h2, h⟩ := h
    obtain ⟨-, -, -, -, -, -, -, l1, e1, n1, k1⟩ := pointEvent_evolve h1
    obtain ⟨m, e2, k2⟩ := edgeEvents_counts h2
    obtain ⟨r, e3, k3⟩ := sweepLoop_counts h
    refine ⟨_, ?_, .point k1 n1 k2 k3⟩
    rw [e3, e2, counts_emit, e1, counts_emit]
    simp

theorem cleanMesh_length : ∀ {fuel : Nat} {ts : Store} {res stack} {r},
    cleanMesh fuel ts res stack = .ok r → r.1.length = ts.length
  | f, ts, res, [], r, h => by
    cases f <;> simp only [cleanMesh, pure_ok, Except.ok.injEq] at h <;> subst h <;> rfl
  | 0, ts, res, _ :: _, r, h => by simp [cleanMesh] at h
  | f + 1, ts, res, (none, fr) :: stack, r, h => by
    simp only [cleanMesh] at h
    exact cleanMesh_length h
  | f + 1, ts, res, (some t, fr) :: stack, r, h => by
    simp only [cleanMesh] at h
    split at h
    · cases h
    · split at h
      · exact cleanMesh_length h
      · simpa using cleanMesh_length h

theorem finalize_length {fuel : Nat} {s s' : St} (h : finalizePolygon fuel s = .ok s') : s'.tris.length = s.tris.length := by
  obtain ⟨-, -, ⟨e, -⟩ | ⟨_, _, _, -, -, -, e⟩⟩ := finalize_trace h
  · rw [e]
  · exact cleanMesh_length e

/-! ## Consequences of the shape -/

theorem LegalBlocks.le {n m l} (h : LegalBlocks n l m) : n ≤ m := by
  induction h with
  | nil h => exact h
  | block h1 _ _ _ _ ih => omega

theorem EdgeBlocks.le {q ps n m l} (h : EdgeBlocks q ps n l m) : n ≤ m := by
  induction h with
  | nil => exact Nat.le_refl _
  | edge h _ ih => have := h.le; omega

theorem SweepBlocks.le {L n m l} (h : SweepBlocks L n l m) : n ≤ m := by
  induction h with
  | nil => exact Nat.le_refl _
  | point h _ h' _ ih => have := h.le; have := h'.le; omega

/-- What the parts have in common: numbers between `n` and `m` in increasing order, valid ids. -/
structure Calls (n : Nat) (l : List (Ev × Nat)) (m : Nat) : Prop where
  le : n ≤ m
  ge : ∀ x ∈ l, n ≤ x.2 ∧ x.2 ≤ m
  sorted : l.Pairwise fun x y => x.2 ≤ y.2
  ids : ∀ x ∈ l, ∀ t ∈ x.1.ids, t < x.2

theorem Calls.nil {n m} (h : n ≤ m) : Calls n [] m := ⟨h, by simp, by simp, by simp⟩

theorem Calls.append {n k m l r} (h : Calls n l k) (h' : Calls k r m) : Calls n (l ++ r) m := by
  refine ⟨Nat.le_trans h.le h'.le, fun x hx => ?_, List.pairwise_append.2 ⟨h.sorted, h'.sorted, fun x hx y hy => ?_⟩, fun x hx => ?_⟩
  · have := h.le; have := h'.le
    rcases List.mem_append.1 hx with hx | hx
    · have := h.ge x hx; omega
    · have := h'.ge x hx; omega
  · have := h.ge x hx; have := h'.ge y hy; omega
  · rcases List.mem_append.1 hx with hx | hx
    · exact h.ids x hx
    · exact h'.ids x hx

theorem Calls.one {n e} (h : ∀ t ∈ e.ids, t < n) : Calls n [(e, n)] n := ⟨Nat.le_refl _, by simp, by simp, by simpa using h⟩

theorem Calls.mono {n n' k l} (h : Calls n l k) (hn : n' ≤ n) : Calls n' l k :=
  ⟨Nat.le_trans hn h.le, fun x hx => ⟨Nat.le_trans hn (h.ge x hx).1, (h.ge x hx).2⟩, h.sorted, h.ids⟩

theorem LegalSteps.calls {n l} (h : LegalSteps n l) : Calls n l n := by
  induction h with
  | nil => exact .nil (Nat.le_refl _)
  | checked h _ ih => exact (Calls.one (e := .legalizeStep _) (by simpa [Ev.ids] using h)).append ih
  | flipped h1 h2 _ _ ih =>
    exact (Calls.one (e := .rotated _ _) (by simp [Ev.ids]; omega)).append ((Calls.one (e := .legalizeStep _) (by simpa [Ev.ids] using h1)).append ih)

theorem LegalBlocks.calls {n m l} (h : LegalBlocks n l m) : Calls n l m := by
  induction h with
  | nil h => exact .nil h
  | @block _ _ _ t _ _ h1 h2 h3 _ _ ih =>
    have k := (Calls.one (e := .willLegalize t) (by simpa [Ev.ids] using h2)).append
      (h3.calls.append ((Calls.one (e := .legalized t) (by simpa [Ev.ids] using h2)).append ih))
    simpa using k.mono h1

theorem EdgeBlocks.calls {q ps n m l} (h : EdgeBlocks q ps n l m) : Calls n l m := by
  induction h with
  | nil => exact .nil (Nat.le_refl _)
  | @edge p _ _ _ _ _ _ h _ ih => exact h.calls.append ((Calls.one (e := .edge p q) (by simp [Ev.ids])).append ih)

theorem SweepBlocks.calls {L n m l} (h : SweepBlocks L n l m) : Calls n l m := by
  induction h with
  | nil => exact .nil (Nat.le_refl _)
  | @point q _ _ _ _ _ _ _ _ _ h _ h' _ ih =>
    have k := (Calls.one (e := .enterPoint q) (by simp [Ev.ids])).append ((h.calls.mono (Nat.le_succ _)).append
      ((Calls.one (e := .exitPoint q) (by simp [Ev.ids])).append (h'.calls.append ih)))
    simpa using k

/-- Every `will_legalize` is closed. -/
def ClosedCalls (l : List (Ev × Nat)) : Prop := ∀ a t k b, l = a ++ (.willLegalize t, k) :: b →
  ∃ m r, b = m ++ (.legalized t, k) :: r ∧ LegalSteps k m ∧ m ≠ []

/-- The same from the other end: every `legalized` has been opened. -/
def OpenedCalls (l : List (Ev × Nat)) : Prop := ∀ a t k b, l = a ++ (.legalized t, k) :: b →
  ∃ r m, a = r ++ (.willLegalize t, k) :: m ∧ LegalSteps k m ∧ m ≠ []

/-- Every step and rotation is inside one. -/
def InsideCalls (l : List (Ev × Nat)) : Prop := ∀ a e k b, l = a ++ (e, k) :: b → ((∃ t, e = .legalizeStep t) ∨ ∃ t o, e = .rotated t o) →
  ∃ t a' m m' b', a = a' ++ (.willLegalize t, k) :: m ∧ b = m' ++ (.legalized t, k) :: b' ∧ LegalSteps k (m ++ (e, k) :: m')

theorem append_cons_split {α} {p q a b : List α} {x : α} (h : p ++ q = a ++ x :: b) :
    (∃ b', p = a ++ x :: b' ∧ b = b' ++ q) ∨ ∃ a', a = p ++ a' ∧ q = a' ++ x :: b := by
  rcases List.append_eq_append_iff.1 h with ⟨c, rfl, e⟩ | ⟨c, rfl, e⟩
  · exact .inr ⟨c, rfl, e⟩
  · cases c with
    | nil => exact .inr ⟨[], by simp, by simpa using e.symm⟩
    | cons y c =>
      simp only [List.cons_append, List.cons.injEq] at e
      obtain ⟨rfl, rfl⟩ := e
      exact .inl ⟨c, rfl, rfl⟩

theorem ClosedCalls.append {l r} (h : ClosedCalls l) (h' : ClosedCalls r) : ClosedCalls (l ++ r) := by
  intro a t k b e
  rcases append_cons_split e with ⟨b', rfl, rfl⟩ | ⟨a', rfl, e'⟩
  · obtain ⟨m, r', rfl, k⟩ := h a t k b' rfl
    exact ⟨m, r' ++ r, by simp, k⟩
  · exact h' a' t k b e'

theorem OpenedCalls.append {l r} (h : OpenedCalls l) (h' : OpenedCalls r) : OpenedCalls (l ++ r) := by
  intro a t k b e
  rcases append_cons_split e with ⟨b', rfl, rfl⟩ | ⟨a', rfl, e'⟩
  · exact h a t k b' rfl
  · obtain ⟨r', m, rfl, k⟩ := h' a' t k b e'
    exact ⟨l ++ r', m, by simp, k⟩

theorem InsideCalls.append {l r} (h : InsideCalls l) (h' : InsideCalls r) : InsideCalls (l ++ r) := by
  intro a x k b e hx
  rcases append_cons_split e with ⟨b', rfl, rfl⟩ | ⟨a', rfl, e'⟩
  · obtain ⟨t, a', m, m', b'', k1, rfl, k3⟩ := h a x k b' rfl hx
    exact ⟨t, a', m, m', b'' ++ r, k1, by simp, k3⟩
  · obtain ⟨t, a'', m, m', b'', rfl, k2, k3⟩ := h' a' x k b e' hx
    exact ⟨t, l ++ a'', m, m', b'', by simp, k2, k3⟩

/-- All three. -/
structure NestedCalls (l : List (Ev × Nat)) : Prop where
  closed : ClosedCalls l
  opened : OpenedCalls l
  inside : InsideCalls l

theorem NestedCalls.append {l r} (h : NestedCalls l) (h' : NestedCalls r) : NestedCalls (l ++ r) :=
  ⟨h.closed.append h'.closed, h.opened.append h'.opened, h.inside.append h'.inside⟩

theorem NestedCalls.nil : NestedCalls [] := ⟨by intro a; simp, by intro a; simp, by intro a; simp⟩

theorem NestedCalls.one {e : Ev} {n} (h : ¬ IsLegalizationCall e) : NestedCalls [(e, n)] := by
  have key : ∀ {a b : List (Ev × Nat)} {x : Ev × Nat}, [(e, n)] = a ++ x :: b → x.1 = e := by
    intro a b x h
    cases a with
    | nil => simp at h; rw [← h.1]
    | cons y a => simp at h
  refine ⟨fun a t k b e' => ?_, fun a t k b e' => ?_, fun a x k b e' hx => ?_⟩
  · exact (h (key e' ▸ .inl ⟨t, rfl⟩)).elim
  · exact (h (key e' ▸ .inr (.inr (.inr ⟨t, rfl⟩)))).elim
  · have := key e'
    simp only at this
    subst this
    rcases hx with ⟨t, rfl⟩ | ⟨t, o, rfl⟩
    · exact (h (.inr (.inl ⟨t, rfl⟩))).elim
    · exact (h (.inr (.inr (.inl ⟨t, o, rfl⟩)))).elim

theorem LegalSteps.mem {n l} (h : LegalSteps n l) : ∀ x ∈ l, x.2 = n ∧ ((∃ t, x.1 = .legalizeStep t) ∨ ∃ t o, x.1 = .rotated t o) := by
  induction h with
  | nil => simp
  | checked _ _ ih => simpa using ih
  | flipped _ _ _ _ ih => simpa using ih

theorem LegalSteps.nested {t n l} (h : LegalSteps n l) (h0 : l ≠ []) : NestedCalls ((.willLegalize t, n) :: l ++ [(.legalized t, n)]) := by
  refine ⟨fun a t' k b e => ?_, fun a t' k b e => ?_, fun a x k b e hx => ?_⟩
  · cases a with
    | nil =>
      simp only [List.nil_append, List.cons_append, List.cons.injEq, Prod.mk.injEq, Ev.willLegalize.injEq] at e
      obtain ⟨⟨rfl, rfl⟩, rfl⟩ := e
      exact ⟨l, [], rfl, h, h0⟩
    | cons y a =>
      simp only [List.cons_append, List.cons.injEq] at e
      rcases append_cons_split e.2 with ⟨b', rfl, -⟩ | ⟨a', -, e'⟩
      · have := (h.mem (.willLegalize t', k) (by simp)).2
        simp at this
      · cases a' with
        | nil => simp at e'
        | cons z a' => simp at e'
  · cases a with
    | nil => simp at e
    | cons y a =>
      simp only [List.cons_append, List.cons.injEq] at e
      obtain ⟨rfl, e⟩ := e
      rcases append_cons_split e with ⟨b', rfl, -⟩ | ⟨a', rfl, e'⟩
      · have := (h.mem (.legalized t', k) (by simp)).2
        simp at this
      · cases a' with
        | nil =>
          simp only [List.nil_append, List.cons.injEq, Prod.mk.injEq, Ev.legalized.injEq] at e'
          obtain ⟨⟨rfl, rfl⟩, -⟩ := e'
          exact ⟨[], l, by simp, h, h0⟩
        | cons z a' => simp at e'
  · cases a with
    | nil =>
      simp only [List.nil_append, List.cons_append, List.cons.injEq, Prod.mk.injEq] at e
      rw [← e.1.1] at hx; simp at hx
    | cons y a =>
      simp only [List.cons_append, List.cons.injEq] at e
      obtain ⟨rfl, e⟩ := e
      rcases append_cons_split e with ⟨b', rfl, rfl⟩ | ⟨a', rfl, e'⟩
      · have e2 := (h.mem (x, k) (by simp)).1
        simp only at e2
        subst e2
        exact ⟨t, [], a, b', [], rfl, rfl, h⟩
      · cases a' with
        | nil =>
          simp only [List.nil_append, List.cons.injEq, Prod.mk.injEq] at e'
          rw [← e'.1.1] at hx; simp at hx
        | cons z a' => simp at e'

theorem LegalBlocks.nested {n m l} (h : LegalBlocks n l m) : NestedCalls l := by
  induction h with
  | nil h => exact .nil
  | @block _ _ _ t _ _ h1 h2 h3 h4 _ ih =>
    have := (h3.nested (t := t) h4).append ih
    simpa using this

theorem EdgeBlocks.nested {q ps n m l} (h : EdgeBlocks q ps n l m) : NestedCalls l := by
  induction h with
  | nil => exact .nil
  | @edge p _ _ k _ _ _ h _ ih => exact h.nested.append ((NestedCalls.one (e := .edge p q) (n := k) (by simp [IsLegalizationCall])).append ih)

theorem SweepBlocks.nested {L n m l} (h : SweepBlocks L n l m) : NestedCalls l := by
  induction h with
  | nil => exact .nil
  | @point q _ _ n k _ _ _ _ _ h _ h' _ ih =>
    have k := (NestedCalls.one (e := .enterPoint q) (n := n) (by simp [IsLegalizationCall])).append (h.nested.append
      ((NestedCalls.one (e := .exitPoint q) (n := k) (by simp [IsLegalizationCall])).append (h'.nested.append ih)))
    simpa using k

/-! ## Whole runs -/

theorem St.counts_events (s : St) : s.counts.map Prod.fst = s.events := by
  simp [St.counts, St.events, List.map_reverse, List.map_map, Function.comp_def]

/-- **C69.**  The callbacks of a finished run, with the number of triangles that the observer finds at each: for every point except
one, `enter`; legalizations, at least one, after a triangle has been added; `exit`; then for each edge of the point legalizations
and the `edge` callback; at the end `sweep_done` and `finalized`.  The run starts with one triangle, and ends with those of the result. -/
theorem C69_calls {D} {n fuel} {poly : Source D} {ops t s}
    (hn : (allPoints (piecesOf poly ops)).length ≤ 2 ^ 32) (h : program n fuel poly ops = .ok (t, s)) :
    ∃ first ids r m, (first :: ids).Perm (List.range t.pts.length) ∧
      (first :: ids).Pairwise (fun i j => ∀ p q, t.pts[i]? = some p → t.pts[j]? = some q → ¬ Below q p) ∧
      SweepBlocks (ids.map fun j => (j, lowerEnds (pieceEdges 0 (piecesOf poly ops)) j)) 1 r m ∧
      s.counts = r ++ [(.sweepDone, m), (.finalized, m)] ∧ m = t.triangles.length := by
  rw [C01_points_in_call_order hn h]
  obtain ⟨b, hb, hr⟩ := program_ok h
  rcases buildChain_spec poly ops hn with ⟨hok, b', h1, h2, h3, -⟩ | ⟨-, h1⟩
  swap
  · rw [hb] at h1; cases h1
  rw [hb] at h1; cases h1
  have hpts : b.pb.points = allPoints (piecesOf poly ops) := by simpa [PointsBuilder.empty] using h3
  have hE : EdgesOk b.pb (pieceEdges 0 (piecesOf poly ops)) := by simpa [PointsBuilder.empty] using h2
  obtain ⟨s0, s1, s2, items, k0, k1, k2, k3, rfl, rfl⟩ := runG_ok hr
  obtain ⟨p0, y0, -, -, htr⟩ := initState_base k0
  have hl0 : s0.tris.length = 1 := by
    simp only [initState, bind_ok, unwrap_ok, pure_ok, Except.ok.injEq] at k0
    obtain ⟨-, -, f, -, rfl⟩ := k0
    rfl
  obtain ⟨i1, i2⟩ := iterByY_ok k1
  have hys := ySorted_spec n b.pb.points b.pb.edges (by rw [hpts]; exact hn)
  have hy : (b.build n).points.ySorted = p0 :: items.map (·.1) := by
    rw [i1]
    have hl := (List.getElem?_eq_some_iff.1 y0)
    obtain ⟨hl, e⟩ := hl
    rw [← e, ← List.drop_eq_getElem_cons hl, List.drop_zero]
  have hy' : (Ctx.new n b.pb.points b.pb.edges).ySorted = p0 :: items.map (·.1) := hy
  rw [hy', hpts] at hys
  obtain ⟨r, e1, e2⟩ := sweepLoop_counts k2
  have hl2 : s2.tris.length = s1.tris.length := by
    have e := finalize_length (s := s1.emit .sweepDone) k3
    exact e
  refine ⟨p0, items.map (·.1), r, s1.tris.length, hys.1, hys.2, ?_, ?_, hl2.symm⟩
  · have : (items.map (·.1)).map (fun j => (j, lowerEnds (pieceEdges 0 (piecesOf poly ops)) j)) =
        items.map fun x => (x.1, x.2.2.toList) := by
      rw [List.map_map]
      apply List.map_congr_left
      intro x hx
      have h4 := (i2 x hx).2
      have hlt : x.1 < b.pb.edges.length := by
        rw [hE.len, hpts]
        have := hys.1.subset (List.mem_cons_of_mem _ (List.mem_map_of_mem hx))
        simpa using this
      have h5 : (b.build n).points.edges = b.pb.edges ++ [.none] ++ [.none] := rfl
      rw [h5, List.append_assoc, List.getElem?_append_left hlt] at h4
      have := hE.get x.1 _ h4
      simp only [Function.comp]
      rw [this]; rfl
    rw [this, ← hl0]; exact e2
  · have e4 := (finalize_trace k3).1
    have : s2.counts = (s1.emit .sweepDone).counts := counts_eq e4
    have e0 : s0.counts = [] := by simp [St.counts, htr]
    rw [counts_emit, this, counts_emit, e1, e0, hl2]; simp

/-- The common part of the corollaries. -/
theorem run_nested {D} {n fuel} {poly : Source D} {ops t s}
    (hn : (allPoints (piecesOf poly ops)).length ≤ 2 ^ 32) (h : program n fuel poly ops = .ok (t, s)) :
    NestedCalls s.counts ∧ Calls 1 s.counts t.triangles.length := by
  obtain ⟨-, ids, r, m, -, -, k, e, rfl⟩ := C69_calls hn h
  rw [e]
  refine ⟨k.nested.append ((NestedCalls.one (e := .sweepDone) (by simp [IsLegalizationCall])).append (.one (e := .finalized) (by simp [IsLegalizationCall]))), ?_⟩
  exact k.calls.append ((Calls.one (e := .sweepDone) (by simp [Ev.ids])).append (.one (e := .finalized) (by simp [Ev.ids])))

/-- **C69.**  Legalizations are complete and never one inside another: after `will_legalize` of a triangle come one or more steps and rotations and then `legalized` of
the same triangle; before `legalized` the same; and every step and rotation is between two such callbacks.  The number of triangles is the same at all of these. -/
theorem C69_brackets {D} {n fuel} {poly : Source D} {ops t s}
    (hn : (allPoints (piecesOf poly ops)).length ≤ 2 ^ 32) (h : program n fuel poly ops = .ok (t, s)) :
    (∀ a i k b, s.counts = a ++ (.willLegalize i, k) :: b → ∃ m r, b = m ++ (.legalized i, k) :: r ∧ LegalSteps k m ∧ m ≠ []) ∧
    (∀ a i k b, s.counts = a ++ (.legalized i, k) :: b → ∃ r m, a = r ++ (.willLegalize i, k) :: m ∧ LegalSteps k m ∧ m ≠ []) ∧
    (∀ a e k b, s.counts = a ++ (e, k) :: b → (∃ i, e = .legalizeStep i) ∨ (∃ i o, e = .rotated i o) →
      ∃ i a' m m' b', a = a' ++ (.willLegalize i, k) :: m ∧ b = m' ++ (.legalized i, k) :: b' ∧ LegalSteps k (m ++ (e, k) :: m')) :=
  ⟨(run_nested hn h).1.closed, (run_nested hn h).1.opened, (run_nested hn h).1.inside⟩

/-- The trace, newest callback first, and the counts, oldest first. -/
theorem St.counts_split {s : St} {a b : List (Ev × Snap)} {x : Ev × Snap} (h : s.trace = b ++ x :: a) :
    s.counts = (a.map fun x => (x.1, x.2.tris.length)).reverse ++ (x.1, x.2.tris.length) :: (b.map fun x => (x.1, x.2.tris.length)).reverse := by
  simp [St.counts, h]

/-- **C69.**  A triangle id that a callback gets is the id of a triangle: at that callback, at every later one, and in the finished triangulation. -/
theorem C69_ids {D} {n fuel} {poly : Source D} {ops t s} {later earlier : List (Ev × Snap)} {ev : Ev} {sn : Snap}
    (hn : (allPoints (piecesOf poly ops)).length ≤ 2 ^ 32) (h : program n fuel poly ops = .ok (t, s))
    (hs : s.trace = later ++ (ev, sn) :: earlier) : ∀ i ∈ ev.ids, i < sn.tris.length ∧ (∀ x ∈ later, i < x.2.tris.length) ∧ i < t.triangles.length := by
  have k := (run_nested hn h).2
  rw [St.counts_split hs] at k
  intro i hi
  have h1 := k.ids (ev, sn.tris.length) (by simp) i hi
  refine ⟨h1, fun x hx => ?_, ?_⟩
  · have := (List.pairwise_cons.1 (List.pairwise_append.1 k.sorted).2.1).1 (x.1, x.2.tris.length) (List.mem_reverse.2 (List.mem_map.2 ⟨x, hx, rfl⟩))
    simp only at this h1 ⊢
    omega
  · have := (k.ge (ev, sn.tris.length) (by simp)).2
    simp only at this h1
    omega

/-- **C69.**  The number of triangles never decreases from a callback to a later one. -/
theorem C69_grow {D} {n fuel} {poly : Source D} {ops t s} {later earlier : List (Ev × Snap)} {ev : Ev} {sn : Snap}
    (hn : (allPoints (piecesOf poly ops)).length ≤ 2 ^ 32) (h : program n fuel poly ops = .ok (t, s))
    (hs : s.trace = later ++ (ev, sn) :: earlier) :
    1 ≤ sn.tris.length ∧ (∀ x ∈ later, sn.tris.length ≤ x.2.tris.length) ∧ sn.tris.length ≤ t.triangles.length := by
  have k := (run_nested hn h).2
  rw [St.counts_split hs] at k
  refine ⟨(k.ge (ev, sn.tris.length) (by simp)).1, fun x hx => ?_, (k.ge (ev, sn.tris.length) (by simp)).2⟩
  exact (List.pairwise_cons.1 (List.pairwise_append.1 k.sorted).2.1).1 (x.1, x.2.tris.length) (List.mem_reverse.2 (List.mem_map.2 ⟨x, hx, rfl⟩))

/-- A triangle with two inner points: its run ends, an edge is flipped in a point event, and edge events legalize as well. -/
theorem C69_example : (match program f64 200 (⟨[⟨10, 0⟩, ⟨50, 20⟩, ⟨20, 40⟩], [1, 2, 3]⟩ : Source Nat) [.steinerPoints ⟨[⟨15, 10⟩, ⟨25, 11⟩], [4, 5]⟩] with
  | .ok (_, s) => decide (s.counts = [
    (.enterPoint 3, 1), (.willLegalize 1, 2), (.legalizeStep 1, 2), (.legalized 1, 2), (.exitPoint 3, 2),
    (.enterPoint 4, 2), (.willLegalize 2, 3), (.rotated 2 1, 3), (.legalizeStep 2, 3), (.legalizeStep 1, 3),
    (.legalizeStep 2, 3), (.legalized 2, 3), (.exitPoint 4, 3), (.enterPoint 1, 3), (.willLegalize 3, 4),
    (.legalizeStep 3, 4), (.legalized 3, 4), (.exitPoint 1, 4), (.willLegalize 3, 4), (.legalizeStep 3, 4),
    (.legalized 3, 4), (.willLegalize 2, 4), (.legalizeStep 2, 4), (.legalized 2, 4), (.edge 0 1, 4),
    (.enterPoint 2, 4), (.willLegalize 4, 5), (.legalizeStep 4, 5), (.legalized 4, 5), (.willLegalize 5, 6),
    (.legalizeStep 5, 6), (.legalized 5, 6), (.exitPoint 2, 6), (.edge 1 2, 6), (.willLegalize 6, 7),
    (.legalizeStep 6, 7), (.legalized 6, 7), (.edge 0 2, 7), (.sweepDone, 7), (.finalized, 7)])
  | .error _ => false) = true := by decide +kernel

end P2T
