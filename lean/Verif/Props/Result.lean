import Verif.Props.Events
import Verif.Props.Iter

/-!
# C06, C08, C09: what is reported
-/

namespace P2T

/-- Specification: walking around the point `p`, counter-clockwise neighbour by neighbour, from a
triangle until one whose clockwise edge at `p` is constrained; `none` if the walk leaves the mesh. -/
inductive StartOf (ts : Store) (p : Nat) : Option Nat → Option Nat → Prop
  | out : StartOf ts p none none
  | found {t T} : ts[t]? = some T → T.constrainedEdgeCw p = .ok true → StartOf ts p (some t) (some t)
  | step {t T n r} : ts[t]? = some T → T.constrainedEdgeCw p = .ok false → T.neighborCcw p = .ok n →
      StartOf ts p n r → StartOf ts p (some t) r

theorem findInterior_spec {ts : Store} {p : Nat} : ∀ {fuel : Nat} {o r}, findInterior ts p fuel o = .ok r → StartOf ts p o r
  | 0, o, r, h => by simp [findInterior] at h
  | fuel + 1, none, r, h => by
    simp only [findInterior, Store.get, ok_bind, pure_ok, Except.ok.injEq] at h
    subst h; exact .out
  | fuel + 1, some t, r, h => by
    simp only [findInterior, Store.get, bind_ok, pure_ok, Except.ok.injEq, getU_ok] at h
    obtain ⟨_, ⟨T, hT, rfl⟩, h⟩ := h
    simp only [bind_ok] at h
    obtain ⟨b, hb, h⟩ := h
    cases b with
    | true => simp only [if_true, Except.ok.injEq] at h; subst h; exact .found hT hb
    | false =>
      simp only [Bool.false_eq_true, if_false, bind_ok] at h
      obtain ⟨n, hn, h⟩ := h
      exact .step hT hb hn (findInterior_spec h)

/-- The state before finalization and what finalization did. -/
theorem run_final' {D} {g : Trap} {fuel} {cdt : CDT D} {t s} (h : cdt.runG g fuel = .ok (t, s)) :
    ∃ sn : Snap, sn.front = s.front ∧ (.sweepDone, sn) ∈ s.trace ∧ (∀ T ∈ sn.tris, T.interior = false) ∧
      (∃ done : List Nat, (∀ i ∈ done, i ∈ cdt.points.ySorted) ∧
        ∀ v, Uses sn.tris sn.front v → v = cdt.points.head ∨ v = cdt.points.tail ∨ v ∈ done) ∧
      ((t.triangles = sn.tris ∧ t.result = [] ∧
          (sn.front.nth 1 = none ∨ ∃ node, sn.front.nth 1 = some node ∧ StartOf sn.tris node.pid node.tri none)) ∨
        ∃ node start, sn.front.nth 1 = some node ∧ StartOf sn.tris node.pid node.tri (some start) ∧
          FloodInv sn.tris start t.triangles t.result []) := by
  obtain ⟨s0, s1, s2, items, k0, k1, k2, k3, rfl, rfl⟩ := runG_ok h
  obtain ⟨p0, y0, b0, c0, htr⟩ := initState_base k0
  obtain ⟨i1, i2⟩ := iterByY_ok k1
  obtain ⟨b1, -, -⟩ := sweepLoop_base k2 b0 fun x hx => (i2 x hx).1
  refine ⟨s1.snap, (finalize_trace k3).2.1.symm, ?_, b1.inter, ⟨_, ?_, b1.uses⟩, ?_⟩
  · have e4 := (finalize_trace k3).1
    simp [St.emit, e4]
  · intro i hi
    rcases List.mem_append.1 hi with hi | hi
    · simp only [List.mem_singleton] at hi; subst hi; exact List.mem_of_getElem? y0
    · rw [i1] at hi; exact List.mem_of_mem_drop hi
  · have r0 : (s1.emit .sweepDone).result = [] := b1.result
    unfold finalizePolygon at k3
    split at k3
    · rename_i hn
      simp only [pure_ok, Except.ok.injEq] at k3; subst k3; exact .inl ⟨rfl, r0, .inl hn⟩
    · rename_i node hn
      split at k3
      · rename_i ht
        simp only [pure_ok, Except.ok.injEq] at k3; subst k3
        exact .inl ⟨rfl, r0, .inr ⟨node, hn, by rw [ht]; exact .out⟩⟩
      · rename_i t0 ht0
        simp only [bind_ok] at k3
        obtain ⟨o, ho, h⟩ := k3
        have hso := findInterior_spec ho
        rw [← ht0] at hso
        cases o with
        | none =>
          simp only [pure_ok, Except.ok.injEq] at h; subst h
          exact .inl ⟨rfl, r0, .inr ⟨node, hn, hso⟩⟩
        | some st =>
          simp only [bind_ok, pure_ok, Except.ok.injEq] at h
          obtain ⟨⟨ts, res⟩, h1, rfl⟩ := h
          rw [r0] at h1
          exact .inr ⟨node, st, hn, hso, cleanMesh_spec b1.inter h1⟩

theorem run_final {D} {g : Trap} {fuel} {cdt : CDT D} {t s} (h : cdt.runG g fuel = .ok (t, s)) :
    ∃ sn : Snap, (.sweepDone, sn) ∈ s.trace ∧ (∀ T ∈ sn.tris, T.interior = false) ∧
      (∃ done : List Nat, (∀ i ∈ done, i ∈ cdt.points.ySorted) ∧
        ∀ v, Uses sn.tris sn.front v → v = cdt.points.head ∨ v = cdt.points.tail ∨ v ∈ done) ∧
      ((t.triangles = sn.tris ∧ t.result = [] ∧
          (sn.front.nth 1 = none ∨ ∃ node, sn.front.nth 1 = some node ∧ StartOf sn.tris node.pid node.tri none)) ∨
        ∃ node start, sn.front.nth 1 = some node ∧ StartOf sn.tris node.pid node.tri (some start) ∧
          FloodInv sn.tris start t.triangles t.result []) := by
  obtain ⟨sn, -, k⟩ := run_final' h
  exact ⟨sn, k⟩

/-- **C08.**  No triangle is reported twice. -/
theorem C08_result_nodup {D} {fuel} {cdt : CDT D} {t s} (h : cdt.run fuel = .ok (t, s)) : t.result.Nodup := by
  obtain ⟨sn, -, -, -, ⟨-, h, -⟩ | ⟨_, _, -, -, h⟩⟩ := run_final h
  · rw [h]; exact .nil
  · exact h.nodup

/-- **C09.**  Let `M` be the mesh an observer sees at `sweep_done`.  The final mesh is `M` (up to the
interior marks).  If the walk around the second front node of `M` finds a triangle with a constrained
edge there, the reported triangles are exactly those reachable from it without crossing a constrained
edge; otherwise nothing is reported. -/
theorem C09_result_is_region {D} {fuel} {cdt : CDT D} {t s} (h : cdt.run fuel = .ok (t, s)) :
    ∃ sn : Snap, (.sweepDone, sn) ∈ s.trace ∧ SameMesh sn.tris t.triangles ∧
      ((t.result = [] ∧ (sn.front.nth 1 = none ∨ ∃ node, sn.front.nth 1 = some node ∧ StartOf sn.tris node.pid node.tri none)) ∨
       ∃ node start, sn.front.nth 1 = some node ∧ StartOf sn.tris node.pid node.tri (some start) ∧
         ∀ u, u ∈ t.result ↔ Reach sn.tris start u) := by
  obtain ⟨sn, h1, -, -, ⟨h2, h3, h4⟩ | ⟨node, start, h3, h4, h5⟩⟩ := run_final h
  · exact ⟨sn, h1, by rw [h2]; exact .refl _, .inl ⟨h3, h4⟩⟩
  · exact ⟨sn, h1, h5.same, .inr ⟨node, start, h3, h4, h5.iff⟩⟩

/-- **C09, closure.**  Across an edge of a reported triangle that is not constrained there is no triangle or
another reported one. -/
theorem C09_result_closed {D} {fuel} {cdt : CDT D} {t s} (h : cdt.run fuel = .ok (t, s)) :
    ∀ u ∈ t.result, ∀ U, t.triangles[u]? = some U → ∀ i : Fin 3, U.isConstrained i = false →
      ∀ v, U.neighbors.get i = some v → v ∈ t.result := by
  obtain ⟨sn, h1, -, -, ⟨h2, h3, h4⟩ | ⟨node, start, h3, h4, h5⟩⟩ := run_final h
  · rw [h3]; intro u hu; cases hu
  · intro u hu U hU i hi v hv
    have hl := h5.same.1
    obtain ⟨U0, hU0⟩ : ∃ U0, sn.tris[u]? = some U0 :=
      ⟨_, List.getElem?_eq_getElem (by have := (List.getElem?_eq_some_iff.1 hU).1; omega)⟩
    obtain ⟨e1, e2, e3⟩ := h5.same.2 u U0 U hU0 hU
    rcases h5.closed u hu v ⟨U0, hU0, i, by simpa [Tri.isConstrained, e3] using hi, by rw [← e2]; exact hv⟩ with k | ⟨_, k, _⟩
    · exact k
    · cases k

/-- Every reported id is a triangle of the final mesh, and its corners are points of the run. -/
theorem result_valid {D} {g : Trap} {fuel} {cdt : CDT D} {t s} (h : cdt.runG g fuel = .ok (t, s)) :
    (∀ u ∈ t.result, u < t.triangles.length) ∧
    ∀ T ∈ t.triangles, ∀ v ∈ T.corners, v = cdt.points.head ∨ v = cdt.points.tail ∨ v ∈ cdt.points.ySorted := by
  obtain ⟨sn, h1, -, ⟨done, hd, hu⟩, ⟨h2, h3, h4⟩ | ⟨node, start, h3, h4, h5⟩⟩ := run_final h
  · rw [h3, h2]
    refine ⟨by simp, fun T hT v hv => ?_⟩
    have := hu v (.inl ⟨T, hT, hv⟩)
    have := hd v
    tauto
  · refine ⟨h5.lt, fun T hT v hv => ?_⟩
    rw [List.mem_iff_getElem?] at hT
    obtain ⟨u, hU⟩ := hT
    have hl := h5.same.1
    obtain ⟨U0, hU0⟩ : ∃ U0, sn.tris[u]? = some U0 :=
      ⟨_, List.getElem?_eq_getElem (by have := (List.getElem?_eq_some_iff.1 hU).1; omega)⟩
    obtain ⟨e1, e2, e3⟩ := h5.same.2 u U0 T hU0 hU
    have := hu v (.inl ⟨U0, List.mem_of_getElem? hU0, by simpa [Tri.corners, e1] using hv⟩)
    have := hd v
    tauto

theorem mapM_ok {α β} {f : α → Except Err β} : ∀ {l : List α}, (∀ a ∈ l, ∃ b, f a = .ok b) → ∃ bs, l.mapM f = .ok bs
  | [], _ => ⟨[], rfl⟩
  | a :: l, h => by
    obtain ⟨b, hb⟩ := h a (by simp)
    obtain ⟨bs, hbs⟩ := mapM_ok fun x hx => h x (List.mem_cons_of_mem a hx)
    exact ⟨b :: bs, by rw [List.mapM_cons, hb, hbs]; rfl⟩

/-- **C06, range.**  After every successful run `triangle_list_indices` returns, without any access out of
bounds, three indices per reported triangle, each of them an input point or one of the two artificial
points appended to them. -/
theorem C06_indices_valid {D} {fuel} {cdt : CDT D} {b : PointsBuilder} {n : Num} {t s}
    (hc : cdt.points = b.build n) (hn : b.points.length + 2 ≤ 2 ^ 32) (h : cdt.run fuel = .ok (t, s)) :
    ∃ l, t.triangleListIndices = .ok l ∧ l.length = 3 * t.result.length ∧
      ∀ v ∈ l, v < t.pts.length ∨ v = t.pts.length ∨ v = t.pts.length + 1 := by
  obtain ⟨h1, h2⟩ := result_valid h
  have hpts : t.pts.length = b.points.length := by
    unfold Triangles.pts
    rw [(run_points h).1, hc, pts_build]
  have hv : ∀ T ∈ t.triangles, ∀ v ∈ T.corners, v < t.pts.length ∨ v = t.pts.length ∨ v = t.pts.length + 1 := by
    intro T hT v hv
    obtain ⟨hh, ht⟩ := c_new_nodup_head (n := n) (es := b.edges) hn
    have hh' : cdt.points.head = b.points.length := by rw [hc]; exact hh
    have ht' : cdt.points.tail = b.points.length + 1 := by rw [hc]; exact ht
    rw [hpts]
    rcases h2 T hT v hv with k | k | k
    · exact .inr (.inl (k.trans hh'))
    · exact .inr (.inr (k.trans ht'))
    · left
      rw [hc] at k
      simpa using (ySorted_spec n b.points b.edges (by omega)).1.subset k
  generalize t.pts.length = N at hv
  unfold Triangles.triangleListIndices
  generalize t.result = res at h1
  clear h hpts
  suffices ∃ ls : List (List Nat), (res.mapM fun id => do
      let T ← Store.getU t.triangles id
      pure [T.points.a, T.points.b, T.points.c]) = .ok ls ∧ ls.flatten.length = 3 * res.length ∧
      ∀ v ∈ ls.flatten, v < N ∨ v = N ∨ v = N + 1 by
    obtain ⟨ls, e, k⟩ := this
    exact ⟨ls.flatten, by rw [e]; rfl, k⟩
  induction res with
  | nil => exact ⟨[], rfl, rfl, by simp⟩
  | cons u res ih =>
    obtain ⟨ls, e, k1, k2⟩ := ih fun x hx => h1 x (List.mem_cons_of_mem _ hx)
    have hlt := h1 u (by simp)
    refine ⟨[t.triangles[u].points.a, t.triangles[u].points.b, t.triangles[u].points.c] :: ls, ?_, ?_, ?_⟩
    · rw [List.mapM_cons, getU_ok.2 (List.getElem?_eq_getElem hlt), e]; rfl
    · simp [k1]; omega
    · intro v hv'
      rw [List.flatten_cons, List.mem_append] at hv'
      rcases hv' with k | k
      · exact hv _ (List.getElem_mem hlt) v k
      · exact k2 v k

/-- The result of a run can always be iterated (the premise of `C07_iterator_agrees`). -/
theorem run_readable {D} {fuel} {cdt : CDT D} {b : PointsBuilder} {n : Num} {t s}
    (hc : cdt.points = b.build n) (hn : b.points.length + 2 ≤ 2 ^ 32) (h : cdt.run fuel = .ok (t, s)) : t.Readable := by
  obtain ⟨h1, h2⟩ := result_valid h
  have hp := (run_points h).1
  have hlt : ∀ v, v < b.points.length + 2 → ∃ p, t.points.points[v]? = some p := by
    intro v hv
    have hl : t.points.points.length = b.points.length + 2 := by
      rw [hp, hc]; simp [PointsBuilder.build, Ctx.new]
    exact ⟨_, List.getElem?_eq_getElem (by omega)⟩
  have hv : ∀ T ∈ t.triangles, ∀ v ∈ T.corners, v < b.points.length + 2 := by
    intro T hT v hv
    obtain ⟨hh, ht⟩ := c_new_nodup_head (n := n) (es := b.edges) hn
    have hh' : cdt.points.head = b.points.length := by rw [hc]; exact hh
    have ht' : cdt.points.tail = b.points.length + 1 := by rw [hc]; exact ht
    rcases h2 T hT v hv with k | k | k
    · omega
    · omega
    · rw [hc] at k
      have := (ySorted_spec n b.points b.edges (by omega)).1.subset k
      rw [List.mem_range] at this; omega
  intro id hid
  have hm := List.getElem_mem (h1 id hid)
  exact ⟨t.triangles[id]'(h1 id hid), List.getElem?_eq_getElem _, hlt _ (hv _ hm _ (by simp [Tri.corners])),
    hlt _ (hv _ hm _ (by simp [Tri.corners])), hlt _ (hv _ hm _ (by simp [Tri.corners]))⟩

/-- **C07, for runs.**  Iterating the result of any successful run yields, in order, the points of the index
triples of `triangle_list_indices`, one item per reported triangle. -/
theorem C07_run {D} {fuel} {cdt : CDT D} {b : PointsBuilder} {n : Num} {t s}
    (hc : cdt.points = b.build n) (hn : b.points.length + 2 ≤ 2 ^ 32) (h : cdt.run fuel = .ok (t, s)) :
    ∃ idx xs, t.triangleListIndices = .ok idx ∧ t.collect (t.result.length + 1) = .ok xs ∧
      triplesOf t.points idx = .ok xs ∧ xs.length = t.result.length ∧ idx.length = 3 * t.result.length :=
  C07_iterator_agrees t (C07_starts_at_zero cdt _ fuel _ h) (run_readable hc hn h)

/-- The run on the example input reports something: its region is the region of a constrained start. -/
example : ∃ b, buildChain exPoly exOps = .ok b ∧ b.pb.points.length + 2 ≤ 2 ^ 32 ∧
    (match (b.build f64).run 200 with | .ok (t, _) => decide (t.result.length = 11) | .error _ => false) = true := by
  refine ⟨_, rfl, by decide, by decide +kernel⟩

end P2T
