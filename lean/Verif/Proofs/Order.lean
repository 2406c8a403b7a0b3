import Verif.Proofs.Build

/-!
# Sorting, the sweep order and the point context
-/

namespace P2T

section
variable {α : Type} {lt : α → α → Bool}

theorem insertBy_perm (x : α) : ∀ l : List α, (insertBy lt x l).Perm (x :: l)
  | [] => .refl _
  | y :: ys => by
    unfold insertBy
    split
    · exact .refl _
    · exact ((insertBy_perm x ys).cons y).trans (.swap x y ys)

theorem foldl_insert_perm : ∀ (l acc : List α), (l.foldl (fun acc x => insertBy lt x acc) acc).Perm (acc ++ l)
  | [], acc => by simp
  | x :: l, acc => by
    refine (foldl_insert_perm l _).trans ?_
    refine ((insertBy_perm x acc).append_right l).trans ?_
    simpa using (List.perm_middle (a := x) (l₁ := acc) (l₂ := l)).symm

theorem sortBy_perm (l : List α) : (sortBy lt l).Perm l := by
  simpa [sortBy] using foldl_insert_perm (lt := lt) l []

/-- A comparator: a strict weak order. -/
structure Weak (lt : α → α → Bool) : Prop where
  asymm : ∀ {a b}, lt a b = true → lt b a = false
  trans : ∀ {a b c}, lt b a = false → lt c b = false → lt c a = false

theorem insertBy_sorted (w : Weak lt) (x : α) : ∀ l : List α, l.Pairwise (fun a b => lt b a = false) →
    (insertBy lt x l).Pairwise (fun a b => lt b a = false)
  | [], _ => by simp [insertBy]
  | y :: ys, h => by
    unfold insertBy
    rw [List.pairwise_cons] at h
    split
    · rename_i hxy
      refine List.pairwise_cons.2 ⟨?_, List.pairwise_cons.2 h⟩
      intro b hb
      have hy := w.asymm hxy
      rcases List.mem_cons.1 hb with rfl | hb
      · exact hy
      · exact w.trans hy (h.1 b hb)
    · rename_i hxy
      refine List.pairwise_cons.2 ⟨?_, insertBy_sorted w x ys h.2⟩
      intro b hb
      rcases List.mem_cons.1 ((insertBy_perm x ys).subset hb) with rfl | hb
      · simpa using hxy
      · exact h.1 b hb

theorem sortBy_sorted (w : Weak lt) (l : List α) : (sortBy lt l).Pairwise (fun a b => lt b a = false) := by
  unfold sortBy
  suffices ∀ (l acc : List α), acc.Pairwise (fun a b => lt b a = false) →
      (l.foldl (fun acc x => insertBy lt x acc) acc).Pairwise (fun a b => lt b a = false) from this l [] .nil
  intro l
  induction l with
  | nil => intro acc h; exact h
  | cons x l ih => intro acc h; exact ih _ (insertBy_sorted w x acc h)

end

theorem sweepLess_iff (p q : Point) : sweepLess p q = true ↔ Below p q := by
  unfold sweepLess Below
  split
  · simp_all
  · split
    · simp_all
    · simp_all

theorem Below.irrefl (p : Point) : ¬ Below p p := by simp [Below]
theorem Below.asymm {p q : Point} (h : Below p q) : ¬ Below q p := by
  rcases h with h | ⟨h, h'⟩ <;> rintro (k | ⟨k, k'⟩)
  · exact lt_asymm h k
  · rw [k] at h; exact lt_irrefl _ h
  · rw [h] at k; exact lt_irrefl _ k
  · exact lt_asymm h' k'
theorem Below.trans {p q r : Point} (h : Below p q) (k : Below q r) : Below p r := by
  rcases h with h | ⟨h, h'⟩ <;> rcases k with k | ⟨k, k'⟩
  · exact .inl (lt_trans h k)
  · exact .inl (k ▸ h)
  · exact .inl (h ▸ k)
  · exact .inr ⟨h.trans k, lt_trans h' k'⟩
theorem Below.total {p q : Point} (h : p ≠ q) : Below p q ∨ Below q p := by
  obtain ⟨x, y⟩ := p
  obtain ⟨x', y'⟩ := q
  simp only [Below]
  rcases lt_trichotomy y y' with k | k | k
  · exact .inl (.inl k)
  · rcases lt_trichotomy x x' with j | j | j
    · exact .inl (.inr ⟨k, j⟩)
    · subst k; subst j; exact absurd rfl h
    · exact .inr (.inr ⟨k.symm, j⟩)
  · exact .inr (.inl k)

theorem sweepLess_weak : Weak (fun a b : Nat × Point => sweepLess a.2 b.2) := by
  constructor
  · intro a b h
    rw [sweepLess_iff] at h
    by_contra k
    rw [Bool.not_eq_false, sweepLess_iff] at k
    exact h.asymm k
  · intro a b c h k
    rw [Bool.eq_false_iff, ne_eq, sweepLess_iff] at *
    intro j
    by_cases e : b.2 = c.2
    · rw [e] at h; exact h j
    · rcases Below.total e with e | e
      · exact h (e.trans j)
      · exact k e

section
variable (n : Num) (pts : List Point) (es : List PointEdges)

theorem zipIdx_pairs (h : pts.length ≤ 2 ^ 32) :
    pts.zipIdx.map (fun (x : Point × Nat) => (asU32 x.2, x.1)) = (List.range pts.length).zip pts := by
  apply List.ext_getElem
  · simp
  · intro i h1 h2
    simp only [List.length_map, List.length_zipIdx] at h1
    simp [asU32_of_lt (show i < 2 ^ 32 by omega)]

/-- The sweep order: all points once, none below an earlier one. -/
theorem ySorted_spec (h : pts.length ≤ 2 ^ 32) :
    (Ctx.new n pts es).ySorted.Perm (List.range pts.length) ∧
    (Ctx.new n pts es).ySorted.Pairwise (fun i j => ∀ p q, pts[i]? = some p → pts[j]? = some q → ¬ Below q p) := by
  have e : (Ctx.new n pts es).ySorted =
      (sortBy (fun a b : Nat × Point => sweepLess a.2 b.2) ((List.range pts.length).zip pts)).map (·.1) := by
    rw [← zipIdx_pairs pts h]; rfl
  rw [e]
  have hp := sortBy_perm (lt := fun a b : Nat × Point => sweepLess a.2 b.2) ((List.range pts.length).zip pts)
  constructor
  · refine (hp.map _).trans ?_
    rw [List.map_fst_zip (by simp)]
  · have hs := sortBy_sorted sweepLess_weak ((List.range pts.length).zip pts)
    rw [List.pairwise_map]
    refine hs.imp_of_mem ?_
    intro a b ha hb hlt p q hpa hqb hbel
    have mem : ∀ x ∈ sortBy (fun a b : Nat × Point => sweepLess a.2 b.2) ((List.range pts.length).zip pts),
        pts[x.1]? = some x.2 := by
      intro x hx
      have := hp.subset hx
      rw [List.mem_iff_getElem] at this
      obtain ⟨i, hi, rfl⟩ := this
      simp only [List.getElem_zip, List.getElem_range]
      exact List.getElem?_eq_getElem _
    rw [mem a ha] at hpa; cases hpa
    rw [mem b hb] at hqb; cases hqb
    rw [Bool.eq_false_iff, ne_eq, sweepLess_iff] at hlt
    exact hlt hbel

end

end P2T
