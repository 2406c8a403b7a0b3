import Verif.Proofs.Final

/-!
# A whole run keeps the mesh consistent
-/

set_option linter.unusedSectionVars false

namespace P2T

variable {c : Ctx} {K : Prop} {Q : Nat → Prop}

theorem new_sl {p a b : Nat} (t w u v : Nat) (n : Option Nat) (e : EdgeAttr) : Sl [Tri.new p a b] t w u v n e ↔
    t = 0 ∧ n = none ∧ e = EdgeAttr.default ∧ ((w = p ∧ u = a ∧ v = b) ∨ (w = a ∧ u = b ∧ v = p) ∨ (w = b ∧ u = p ∧ v = a)) := by
  cases t with
  | zero =>
    rw [sl_iff_of_view (T := Tri.new p a b) rfl (.inl ⟨rfl, rfl, rfl⟩)]
    grind
  | succ t => simp [Sl]

theorem initState_spec (gd : Good c) {g : Trap} {p0 : Nat} (h0 : c.ySorted[0]? = some p0) (hl : p0 < c.points.length)
    (hh : p0 ≠ c.head) (ht : p0 ≠ c.tail) : ∃ s, initState c = .ok s ∧ Swept c K g [p0] s ∧ s.front.pids = [c.head, p0, c.tail] := by
  have hp : ∀ {i : Nat}, i < c.points.length → c.points[i]? = some (c.pos i) := by
    intro i hi; simp [Ctx.pos, List.getElem?_eq_getElem hi]
  have en := gd.enclosed p0 hl hh ht
  have k1 : keyLt (c.pos c.head) (c.pos p0) := .inl en.1
  have k2 : keyLt (c.pos p0) (c.pos c.tail) := .inl en.2.1
  have k3 : keyLt (c.pos c.head) (c.pos c.tail) := .inl gd.wide
  have e1 : (keyCmp (c.pos p0) (c.pos c.head) == .lt) = false := by rw [keyCmp_gt.2 k1]; rfl
  have e2 : (keyCmp (c.pos c.tail) (c.pos c.head) == .lt) = false := by rw [keyCmp_gt.2 k3]; rfl
  have e3 : (keyCmp (c.pos c.tail) (c.pos p0) == .lt) = false := by rw [keyCmp_gt.2 k2]; rfl
  have hs : initState c = .ok ⟨[Tri.new p0 c.head c.tail],
      ⟨[⟨c.pos c.head, c.head, some 0⟩, ⟨c.pos p0, p0, some 0⟩, ⟨c.pos c.tail, c.tail, none⟩], none⟩, [], []⟩ := by
    simp only [initState, h0, unwrap_some, ok_bind, Front.new, Tri.new, hp gd.headLt, hp gd.tailLt, hp hl, pure_ok]
    simp only [sortBy, List.foldl_cons, List.foldl_nil, insertBy, e1, e2, e3, Bool.false_eq_true, if_false]
  obtain ⟨p0', h0', b0, -, -⟩ := initState_base hs
  rw [h0] at h0'; cases h0'
  refine ⟨_, hs, ⟨⟨?_, ?_, ?_, ?_, ?_⟩, b0, ?_, ?_, ?_, StepLog.nil, by intro x l e; cases e⟩, rfl⟩
  · have w : c.W p0 c.head c.tail := by
      refine ⟨⟨hl, gd.headLt, gd.tailLt⟩, .inl ?_⟩
      have : det2 (c.pos p0) (c.pos c.head) (c.pos c.tail) =
          ((c.pos c.tail).x - (c.pos c.head).x) * ((c.pos p0).y - (c.pos c.head).y) := by
        unfold det2; rw [← gd.flat]; ring
      rw [this]
      exact mul_pos (by have := gd.wide; linarith) (by linarith [en.2.2])
    have w1 := (oriW c).rot w
    have w2 := (oriW c).rot w1
    refine ⟨?_, ?_, ?_, ?_, ?_⟩
    · intro t w u v n e hs
      rw [new_sl] at hs
      rcases hs with ⟨-, -, -, ⟨rfl, rfl, rfl⟩ | ⟨rfl, rfl, rfl⟩ | ⟨rfl, rfl, rfl⟩⟩ <;> assumption
    all_goals
      intros
      rename_i hs
      simp_all [new_sl]
  · have hw : c.head ≠ c.tail := by
      intro e; have := gd.wide; rw [e] at this; exact lt_irrefl _ this
    refine ⟨?_, ?_, ?_, ?_⟩
    · intro a τ b hm
      simp only [fedges_cons, fedges_one, List.mem_cons, Prod.mk.injEq, List.not_mem_nil, or_false] at hm
      rcases hm with ⟨rfl, rfl, rfl⟩ | ⟨rfl, rfl, rfl⟩
      · exact ⟨0, ⟨c.tail, .default, by rw [new_sl]; simp⟩, .inl rfl⟩
      · exact ⟨0, ⟨c.head, .default, by rw [new_sl]; simp⟩, .inl rfl⟩
    · exact ⟨0, p0, .default, by rw [new_sl]; simp⟩
    · rintro t u v ⟨w, e, hs⟩
      rw [new_sl] at hs
      rcases hs with ⟨rfl, -, -, ⟨rfl, rfl, rfl⟩ | ⟨rfl, rfl, rfl⟩ | ⟨rfl, rfl, rfl⟩⟩
      · exact .inl ⟨rfl, rfl⟩
      · exact .inr ⟨some 0, by simp, .inl rfl⟩
      · exact .inr ⟨some 0, by simp, .inl rfl⟩
    · rintro t t' u v ⟨w, e, hs⟩ ⟨w', e', hs'⟩
      rw [new_sl] at hs hs'
      rw [hs.1, hs'.1]
  · refine ⟨?_, ?_, ?_, ⟨_, _, rfl, rfl⟩, ⟨⟨c.pos c.tail, c.tail, none⟩, [⟨c.pos c.head, c.head, some 0⟩, ⟨c.pos p0, p0, some 0⟩], rfl, rfl⟩⟩
    · intro e he
      simp only [List.mem_cons, List.not_mem_nil, or_false] at he
      rcases he with rfl | rfl | rfl
      · exact ⟨gd.headLt, rfl⟩
      · exact ⟨hl, rfl⟩
      · exact ⟨gd.tailLt, rfl⟩
    · simp only [Asc, List.pairwise_cons, List.mem_cons, List.not_mem_nil, or_false, forall_eq_or_imp, forall_eq]
      exact ⟨⟨k1, k3⟩, k2, by simp⟩
    · rintro p i ⟨⟩
  · intro x hx; cases hx
  · rintro q - t t' ⟨b, r, n, e, k, -⟩ ⟨b', r', n', e', k', -⟩
    rw [new_sl] at k k'
    rw [k.1, k'.1]
  · intro v hv
    simp only [List.mem_singleton] at hv; subst hv
    exact ⟨0, _, _, none, .default, by rw [new_sl]; exact ⟨rfl, rfl, rfl, .inl ⟨rfl, rfl, rfl⟩⟩⟩
  · exact Log.nil g
  · exact ⟨p0, by simp, by simp [Front.pids], hh, ht⟩

/-- Hypotheses on the points of a run (satisfied by every run on `Builder` output with different points, see
`good_of_exact`). -/
structure Input (c : Ctx) : Prop where
  good : Good c
  perm : c.ySorted.Perm (List.range (c.points.length - 2))
  sorted : c.ySorted.Pairwise fun i j => Below (c.pos i) (c.pos j)
  two : 2 ≤ c.points.length
  head : c.head = c.points.length - 2
  tail : c.tail = c.points.length - 1
  ne : 2 < c.points.length
  edges : ∀ (i : Nat) (e : PointEdges), c.edges[i]? = some e → ∀ p ∈ e.toList, p < c.points.length
  elen : c.edges.length = c.points.length

theorem Input.coming (h : Input c) {p0 : Nat} {rest : List Nat} (hy : c.ySorted = p0 :: rest) :
    ∃ items, c.iterByY 1 = .ok items ∧ items.map (·.1) = rest ∧ Coming c [p0] items ∧
      ∀ x ∈ items, c.edges[x.1]? = some x.2.2 := by
  have mem : ∀ i ∈ c.ySorted, i < c.points.length ∧ i ≠ c.head ∧ i ≠ c.tail := by
    intro i hi
    have := h.perm.subset hi
    rw [List.mem_range] at this
    rw [h.head, h.tail]; omega
  have tot : ∃ items, c.iterByY 1 = .ok items := by
    unfold Ctx.iterByY
    have : ∀ l : List Nat, (∀ i ∈ l, i < c.points.length) → ∃ items, l.mapM (fun id => (do
      let p ← c.pt id
      match c.edges[id]? with
      | some e => pure (id, p, e)
      | none => .error (.ub "edges get_unchecked") : Except Err (Nat × Point × PointEdges))) = .ok items := by
      intro l
      induction l with
      | nil => intro _; exact ⟨[], rfl⟩
      | cons i l ih =>
        intro hl
        obtain ⟨items, hi⟩ := ih fun j hj => hl j (by simp [hj])
        have h1 := hl i (by simp)
        have h2 : i < c.edges.length := by rw [h.elen]; exact h1
        refine ⟨(i, c.pos i, c.edges[i]) :: items, ?_⟩
        rw [List.mapM_cons, Ctx.pt_ok h1, List.getElem?_eq_getElem h2]
        simp only [ok_bind]
        rw [hi]; rfl
    exact this _ fun i hi => (mem i (List.mem_of_mem_drop hi)).1
  obtain ⟨items, hit⟩ := tot
  obtain ⟨i1, i2⟩ := iterByY_ok hit
  rw [hy] at i1
  simp only [List.drop_succ_cons, List.drop_zero] at i1
  have hm : ∀ x ∈ items, x.1 ∈ rest := fun x hx => by rw [← i1]; exact List.mem_map_of_mem hx
  have hs := h.sorted
  rw [hy, List.pairwise_cons] at hs
  refine ⟨items, hit, i1, ⟨?_, ?_, ?_, ?_⟩, fun x hx => (i2 x hx).2⟩
  · intro x hx
    obtain ⟨k1, k2, k3⟩ := mem x.1 (by rw [hy]; simp [hm x hx])
    exact ⟨k1, k2, k3, (Ctx.pos_get (i2 x hx).1).symm⟩
  · intro x hx p hp
    exact h.edges _ _ (i2 x hx).2 p hp
  · intro x hx v hv
    simp only [List.mem_singleton] at hv; subst hv
    exact hs.1 _ (hm x hx)
  · have := hs.2
    rw [← i1, List.pairwise_map] at this
    exact this

/-- Equal up to interior marks: the half-edges are the same. -/
theorem SameMesh.sl {ts ts' : Store} (h : SameMesh ts ts') {t w u v n e} : Sl ts' t w u v n e ↔ Sl ts t w u v n e := by
  constructor
  · rintro ⟨T', h1, h2⟩
    obtain ⟨T, hT⟩ : ∃ T, ts[t]? = some T :=
      ⟨_, List.getElem?_eq_getElem (by have := (List.getElem?_eq_some_iff.1 h1).1; rw [h.1] at this; exact this)⟩
    obtain ⟨q1, q2, q3⟩ := h.2 t T T' hT h1
    exact ⟨T, hT, by simpa [Tri.Slot, q1, q2, q3] using h2⟩
  · rintro ⟨T, h1, h2⟩
    obtain ⟨T', hT⟩ : ∃ T', ts'[t]? = some T' :=
      ⟨_, List.getElem?_eq_getElem (by have := (List.getElem?_eq_some_iff.1 h1).1; rw [h.1]; exact this)⟩
    obtain ⟨q1, q2, q3⟩ := h.2 t T T' h1 hT
    exact ⟨T', hT, by simpa [Tri.Slot, q1, q2, q3] using h2⟩

theorem SameMesh.mesh {ts ts' : Store} (h : SameMesh ts ts') (m : MeshInv c K Q ts) : MeshInv c K Q ts' := by
  refine ⟨fun a => m.wo (h.sl.1 a), fun a => ?_, fun a b => m.del (h.sl.1 a) (h.sl.1 b), fun a b => m.leg (h.sl.1 a) (h.sl.1 b),
    fun k a b => m.csym k (h.sl.1 a) (h.sl.1 b)⟩
  obtain ⟨w', e', k⟩ := m.sym (h.sl.1 a)
  exact ⟨w', e', h.sl.2 k⟩

theorem SameMesh.oneFlat {ts ts' : Store} (h : SameMesh ts ts') (k : OneFlat c ts) : OneFlat c ts' := by
  refine k.mono ?_ ?_
  · rintro v ⟨t, a, b, n, e, k⟩
    exact ⟨t, a, b, n, e, h.sl.2 k⟩
  · rintro q t ⟨b, r, n, e, k, k'⟩
    exact ⟨b, r, n, e, h.sl.1 k, k'⟩

theorem SameMesh.bd {ts ts' : Store} (h : SameMesh ts ts') (t u v : Nat) : Bd ts' t u v ↔ Bd ts t u v := by
  simp only [Bd, h.sl]

theorem SameMesh.keep {ts ts' : Store} (h : SameMesh ts ts') : Keep ts ts' := by
  intro u v k
  simpa only [BothCon, h.sl] using k

/-- What a successful run leaves behind. -/
structure RunPost (c : Ctx) (K : Prop) (g : Trap) (s : St) : Prop where
  inv : SInv c K (fun _ => False) NoP s
  log : Log g s.trace
  has : ∀ v ∈ c.ySorted, HasV s.tris v
  step : StepLog c s.trace

/-- A whole run: it fails only inside edge events (or for lack of rounds), and if it succeeds the mesh is
consistent at every callback. -/
theorem runG_spec {D} (cdt : CDT D) (h : Input cdt.points) {g : Trap} (hg : g.Tame) (hK : K → g.col = true) (fuel : Nat) :
    Spec (cdt.runG g fuel)
      (fun e => e = .fuel ∨ (EErr e ∧ ∃ s0 items, initState cdt.points = .ok s0 ∧ cdt.points.iterByY 1 = .ok items ∧
        FailsInEdge g cdt.points fuel items s0 e))
      fun r => RunPost cdt.points K g r.2 ∧ SInv cdt.points K (fun _ => False) NoP { r.2 with tris := r.1.triangles } ∧ r.1.triangles = r.2.tris := by
  obtain ⟨p0, rest, hy⟩ : ∃ p0 rest, cdt.points.ySorted = p0 :: rest := by
    have := h.perm.length_eq
    rw [List.length_range] at this
    cases hy : cdt.points.ySorted with
    | nil => rw [hy] at this; have := h.ne; simp at *; omega
    | cons a l => exact ⟨a, l, rfl⟩
  have hm : p0 < cdt.points.points.length - 2 := by
    have := h.perm.subset (by rw [hy]; simp : p0 ∈ cdt.points.ySorted)
    exact List.mem_range.1 this
  obtain ⟨s0, i1, i2, -⟩ := initState_spec (K := K) (g := g) h.good (p0 := p0) (by rw [hy]; rfl) (by omega) (by rw [h.head]; omega) (by rw [h.tail]; omega)
  obtain ⟨items, j1, j2, j3, -⟩ := h.coming hy
  simp only [CDT.runG, i1, ok_bind, sweepPoints, j1]
  refine Spec.bind ((sweepLoop_spec h.good hg hK items j3 i2).monoE ?_) ?_
  · rintro e (e1 | ⟨e1, e2⟩)
    · exact .inl e1
    · exact .inr ⟨e1, s0, items, rfl, rfl, e2⟩
  · intro s1 hs1
    have hs1' : Swept cdt.points K g ([p0] ++ items.map (·.1)) (s1.emit .sweepDone) :=
      ⟨hs1.inv.emit' (by simp), hs1.base.emit _, hs1.has, hs1.log.cons (by simp) (by simp), hs1.top,
        hs1.step.cons fun x l e _ => by show KeepL _ _ s1.tris; rw [hs1.head x l e]; exact .refl _ _, .emit _ _⟩
    refine Spec.bind (R := fun s2 => SameMesh s1.tris s2.tris ∧ s2.trace = (s1.emit .sweepDone).trace ∧ s2.front = s1.front) ?_ ?_
    · refine ((finalize_total hs1' fuel).withEq.mono ?_).monoE ?_
      · rintro s2 ⟨k1, k2⟩
        obtain ⟨q1, q2, -⟩ := finalize_trace k2
        exact ⟨k1, q1, q2⟩
      · rintro e ⟨e1, -⟩; exact .inl e1
    · rintro s2 ⟨k1, k2, k3⟩
      have inv2 : SInv cdt.points K (fun _ => False) NoP s2 := by
        refine ⟨k1.mesh hs1.inv.mesh, ?_, ?_, ?_, k1.oneFlat hs1.inv.one⟩
        · rw [k3]; exact hs1.inv.bd.congr k1.bd
        · rw [k3]; exact hs1.inv.front
        · intro x hx; rw [k2] at hx; exact hs1'.inv.trace x hx
      have inv3 : SInv cdt.points K (fun _ => False) NoP (s2.emit .finalized) := inv2.emit' (by simp)
      refine Spec.ok ⟨⟨inv3, ?_, ?_, ?_⟩, inv3, rfl⟩
      · show Log g ((.finalized, s2.snap) :: s2.trace)
        rw [k2]
        exact hs1'.log.cons (by simp) (by simp)
      · intro v hv
        rw [hy] at hv
        have : v ∈ [p0] ++ items.map (·.1) := by rw [j2]; simpa using hv
        obtain ⟨t, u, w, n, e, hs⟩ := hs1.has v this
        exact ⟨t, u, w, n, e, k1.sl.2 hs⟩
      · show StepLog cdt.points ((.finalized, s2.snap) :: s2.trace)
        rw [k2]
        refine hs1'.step.cons fun x l e _ => ?_
        rw [hs1'.head x l e]
        exact ⟨k1.keep, .of_shape fun _ _ _ _ n e k => ⟨n, e, k1.sl.2 k⟩⟩

end P2T
