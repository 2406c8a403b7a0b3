import Verif.Proofs.Basic

/-!
# C07: the iterator and the index list agree
-/

namespace P2T

/-- Specification: the points of consecutive index triples. -/
def triplesOf (c : Ctx) : List Nat → Except Err (List (V3 Point))
  | i :: j :: k :: rest => do
    let a ← c.pt i
    let b ← c.pt j
    let d ← c.pt k
    let xs ← triplesOf c rest
    pure (⟨a, b, d⟩ :: xs)
  | _ => pure []

theorem collect_drop {D} (c : Ctx) (data : List D) (ts : Store) (res : List Nat) :
    ∀ (k n : Nat), n + k = res.length →
    (∀ id ∈ res, ∃ T, ts[id]? = some T ∧ (∃ a, c.points[T.points.a]? = some a) ∧
      (∃ a, c.points[T.points.b]? = some a) ∧ ∃ a, c.points[T.points.c]? = some a) →
    ∃ xs idx, Triangles.collect ⟨c, data, ts, res, n⟩ (k + 1) = .ok xs ∧
      (res.drop n).mapM (fun id => do let T ← Store.getU ts id; pure [T.points.a, T.points.b, T.points.c]) = .ok idx ∧
      triplesOf c idx.flatten = .ok xs ∧ xs.length = k ∧ idx.flatten.length = 3 * k := by
  intro k
  induction k with
  | zero =>
    intro n hn _
    have : res.drop n = [] := by rw [List.drop_eq_nil_iff]; omega
    refine ⟨[], [], ?_, by rw [this]; rfl, rfl, rfl, rfl⟩
    simp [Triangles.collect, Triangles.iterNext, show ¬ n < res.length by omega]
  | succ k ih =>
    intro n hn hv
    have hlt : n < res.length := by omega
    obtain ⟨xs, idx, h1, h2, h3, h4, h5⟩ := ih (n + 1) (by omega) hv
    obtain ⟨T, hT, ⟨a, ha⟩, ⟨b, hb⟩, ⟨d, hd⟩⟩ := hv res[n] (List.getElem_mem hlt)
    refine ⟨⟨a, b, d⟩ :: xs, [T.points.a, T.points.b, T.points.c] :: idx, ?_, ?_, ?_, by simp [h4], by simp [h5]; omega⟩
    · rw [Triangles.collect]
      simp only [Triangles.iterNext, hlt, if_true, List.getElem?_eq_getElem hlt, Store.getU, hT, ok_bind, Ctx.pt,
        ha, hb, hd, pure_ok, h1]
    · rw [List.drop_eq_getElem_cons hlt, List.mapM_cons]
      simp only [Store.getU, hT, ok_bind, pure_ok]
      simp only [Store.getU, pure_ok] at h2
      rw [h2]; rfl
    · simp only [List.flatten_cons, List.cons_append, List.nil_append, triplesOf, Ctx.pt, ha, hb, hd, ok_bind, h3, pure_ok]

/-- The result can be read: every reported triangle exists and its corners are points of the run.
(C06 proves this for the results of `triangulate`.) -/
def Triangles.Readable {D} (t : Triangles D) : Prop :=
  ∀ id ∈ t.result, ∃ T, t.triangles[id]? = some T ∧ (∃ a, t.points.points[T.points.a]? = some a) ∧
      (∃ a, t.points.points[T.points.b]? = some a) ∧ ∃ a, t.points.points[T.points.c]? = some a

/-- **C07** Collecting the iterator of a fresh result yields, in order, the points of the index triples of
`triangle_list_indices`, and nothing else. -/
theorem C07_iterator_agrees {D} (t : Triangles D) (h0 : t.next = 0) (hr : t.Readable) :
    ∃ idx xs, t.triangleListIndices = .ok idx ∧ t.collect (t.result.length + 1) = .ok xs ∧
      triplesOf t.points idx = .ok xs ∧ xs.length = t.result.length ∧ idx.length = 3 * t.result.length := by
  obtain ⟨c, data, ts, res, n⟩ := t
  simp only at h0; subst h0
  obtain ⟨xs, idx, h1, h2, h3, h4, h5⟩ := collect_drop c data ts res res.length 0 (by omega) hr
  refine ⟨idx.flatten, xs, ?_, h1, h3, h4, h5⟩
  simp only [Triangles.triangleListIndices, List.drop_zero] at *
  rw [h2]; rfl

/-- **C07** An exhausted iterator stays exhausted. -/
theorem C07_iterator_fused {D} (t t' : Triangles D) (h : t.iterNext = .ok (none, t')) :
    t' = t ∧ t'.iterNext = .ok (none, t') := by
  have key : t' = t ∧ ¬ t.next < t.result.length := by
    unfold Triangles.iterNext at h
    split at h
    · rename_i hlt
      rw [List.getElem?_eq_getElem hlt] at h
      simp only [bind_ok] at h
      obtain ⟨T, -, a, -, b, -, d, -, h⟩ := h
      simp at h
    · rename_i hlt
      simp only [pure_ok, Except.ok.injEq, Prod.mk.injEq, true_and] at h
      exact ⟨h.symm, hlt⟩
  obtain ⟨rfl, h2⟩ := key
  exact ⟨rfl, h⟩

/-- **C07** A run hands the iterator out at its start. -/
theorem C07_starts_at_zero {D} (cdt : CDT D) (g : Trap) (f : Nat) (r) (h : cdt.runG g f = .ok r) :
    r.1.next = 0 := by
  unfold CDT.runG at h
  simp only [bind_ok, pure_ok, Except.ok.injEq] at h
  obtain ⟨_, -, _, -, _, -, rfl⟩ := h
  rfl

end P2T
