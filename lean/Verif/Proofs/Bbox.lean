import Verif.Proofs.Order

/-!
# Bounding box and artificial points
-/

namespace P2T

theorem fmax_ge_left (a b : Rat) : a ≤ fmax a b := by unfold fmax; split; exact le_of_lt ‹_›; exact le_refl _
theorem fmax_ge_right (a b : Rat) : b ≤ fmax a b := by unfold fmax; split; exact le_refl _; exact not_lt.1 ‹_›
theorem fmin_le_left (a b : Rat) : fmin a b ≤ a := by unfold fmin; split; exact le_of_lt ‹_›; exact le_refl _
theorem fmin_le_right (a b : Rat) : fmin a b ≤ b := by unfold fmin; split; exact le_refl _; exact not_lt.1 ‹_›
theorem fmax_cases (a b : Rat) : fmax a b = a ∨ fmax a b = b := by unfold fmax; split; exact .inr rfl; exact .inl rfl
theorem fmin_cases (a b : Rat) : fmin a b = a ∨ fmin a b = b := by unfold fmin; split; exact .inr rfl; exact .inl rfl

theorem foldl_fmax (f : Point → Rat) : ∀ (l : List Point) (m : Rat),
    m ≤ l.foldl (fun m p => fmax m (f p)) m ∧ (∀ p ∈ l, f p ≤ l.foldl (fun m p => fmax m (f p)) m) ∧
    (l.foldl (fun m p => fmax m (f p)) m = m ∨ ∃ p ∈ l, l.foldl (fun m p => fmax m (f p)) m = f p)
  | [], m => ⟨le_refl _, by simp, .inl rfl⟩
  | p :: l, m => by
    obtain ⟨h1, h2, h3⟩ := foldl_fmax f l (fmax m (f p))
    simp only [List.foldl_cons]
    refine ⟨le_trans (fmax_ge_left _ _) h1, ?_, ?_⟩
    · intro q hq
      rcases List.mem_cons.1 hq with rfl | hq
      · exact le_trans (fmax_ge_right _ _) h1
      · exact h2 q hq
    · rcases h3 with h3 | ⟨q, hq, h3⟩
      · rcases fmax_cases m (f p) with e | e
        · exact .inl (h3.trans e)
        · exact .inr ⟨p, by simp, h3.trans e⟩
      · exact .inr ⟨q, by simp [hq], h3⟩

theorem foldl_fmin (f : Point → Rat) : ∀ (l : List Point) (m : Rat),
    l.foldl (fun m p => fmin m (f p)) m ≤ m ∧ (∀ p ∈ l, l.foldl (fun m p => fmin m (f p)) m ≤ f p) ∧
    (l.foldl (fun m p => fmin m (f p)) m = m ∨ ∃ p ∈ l, l.foldl (fun m p => fmin m (f p)) m = f p)
  | [], m => ⟨le_refl _, by simp, .inl rfl⟩
  | p :: l, m => by
    obtain ⟨h1, h2, h3⟩ := foldl_fmin f l (fmin m (f p))
    simp only [List.foldl_cons]
    refine ⟨le_trans h1 (fmin_le_left _ _), ?_, ?_⟩
    · intro q hq
      rcases List.mem_cons.1 hq with rfl | hq
      · exact le_trans h1 (fmin_le_right _ _)
      · exact h2 q hq
    · rcases h3 with h3 | ⟨q, hq, h3⟩
      · rcases fmin_cases m (f p) with e | e
        · exact .inl (h3.trans e)
        · exact .inr ⟨p, by simp, h3.trans e⟩
      · exact .inr ⟨q, by simp [hq], h3⟩

/-- Facts about IEEE arithmetic used for the artificial points: rounding is monotone and keeps zero and
the given coordinates, which are finite; the constant `0.3` is not negative. -/
structure Num.Sane (n : Num) (pts : List Point) : Prop where
  mono : ∀ a b, a ≤ b → n.rnd a ≤ n.rnd b
  zero : n.rnd 0 = 0
  fix : ∀ p ∈ pts, n.rnd p.x = p.x ∧ n.rnd p.y = p.y
  range : ∀ p ∈ pts, (n.lo ≤ p.x ∧ p.x ≤ n.hi) ∧ (n.lo ≤ p.y ∧ p.y ≤ n.hi)
  k03 : 0 ≤ n.k03

/-- The artificial points. -/
theorem ctx_points (n : Num) (pts : List Point) (es : List PointEdges) : ∃ head tail xmax xmin ymax ymin,
    (Ctx.new n pts es).points = pts ++ [head] ++ [tail] ∧
    head = ⟨n.rnd (xmin - n.rnd (n.rnd (xmax - xmin) * n.k03)), n.rnd (ymin - n.rnd (n.rnd (ymax - ymin) * n.k03))⟩ ∧
    tail = ⟨n.rnd (xmax + n.rnd (n.rnd (xmax - xmin) * n.k03)), n.rnd (ymin - n.rnd (n.rnd (ymax - ymin) * n.k03))⟩ ∧
    (∀ p ∈ pts, xmin ≤ p.x ∧ p.x ≤ xmax ∧ ymin ≤ p.y ∧ p.y ≤ ymax) ∧
    (pts ≠ [] → (∀ p ∈ pts, (n.lo ≤ p.x ∧ p.x ≤ n.hi) ∧ (n.lo ≤ p.y ∧ p.y ≤ n.hi)) →
      (∃ p ∈ pts, xmax = p.x) ∧ (∃ p ∈ pts, xmin = p.x) ∧ (∃ p ∈ pts, ymax = p.y) ∧ ∃ p ∈ pts, ymin = p.y) := by
  obtain ⟨a1, a2, a3⟩ := foldl_fmax (·.x) pts n.lo
  obtain ⟨b1, b2, b3⟩ := foldl_fmin (·.x) pts n.hi
  obtain ⟨c1, c2, c3⟩ := foldl_fmax (·.y) pts n.lo
  obtain ⟨d1, d2, d3⟩ := foldl_fmin (·.y) pts n.hi
  refine ⟨_, _, _, _, _, _, rfl, rfl, rfl, fun p hp => ⟨b2 p hp, a2 p hp, d2 p hp, c2 p hp⟩, fun hne hr => ?_⟩
  obtain ⟨p, hp⟩ := List.exists_mem_of_ne_nil _ hne
  have h := hr p hp
  refine ⟨?_, ?_, ?_, ?_⟩
  · rcases a3 with k | k
    · exact ⟨p, hp, le_antisymm (by rw [k]; exact h.1.1) (a2 p hp)⟩
    · exact k
  · rcases b3 with k | k
    · exact ⟨p, hp, le_antisymm (b2 p hp) (by rw [k]; exact h.1.2)⟩
    · exact k
  · rcases c3 with k | k
    · exact ⟨p, hp, le_antisymm (by rw [k]; exact h.2.1) (c2 p hp)⟩
    · exact k
  · rcases d3 with k | k
    · exact ⟨p, hp, le_antisymm (d2 p hp) (by rw [k]; exact h.2.2)⟩
    · exact k

end P2T
