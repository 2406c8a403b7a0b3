import Verif.Proofs.FlipSpec
import Mathlib.Data.Rat.Lemmas
import Mathlib.Algebra.Order.BigOperators.Group.List

/-!
# A potential that every legalization flip lowers

The sum over the triangles of (twice the area) times (the sum of the squared lengths of the corners): up to a factor the volume
below the triangulation lifted to the paraboloid.
-/

namespace P2T

def lift3 (a b c : Point) : Rat := det2 a b c * (a.x ^ 2 + a.y ^ 2 + b.x ^ 2 + b.y ^ 2 + c.x ^ 2 + c.y ^ 2)

def potential (c : Ctx) (M : Store) : Rat := triSum (fun i j k => lift3 (c.pos i) (c.pos j) (c.pos k)) M

theorem lift3_rot (a b c : Point) : lift3 b c a = lift3 a b c := by unfold lift3; rw [det2_rot]; ring

/-- A flip changes the potential by the in-circle determinant. -/
theorem lift3_flip (p a b q : Point) : lift3 p a b + lift3 q b a - lift3 b p q - lift3 a q p = inCircleDet p a b q := by
  unfold lift3 inCircleDet det2; ring

section
variable {c : Ctx} {M M' : Store}

/-- A common denominator. -/
theorem common_den : ∀ l : List Rat, ∃ N : Nat, 0 < N ∧ ∀ x ∈ l, ∃ z : Int, x * N = z
  | [] => ⟨1, one_pos, by simp⟩
  | x :: l => by
    obtain ⟨N, h0, h1⟩ := common_den l
    refine ⟨x.den * N, Nat.mul_pos x.pos h0, fun y hy => ?_⟩
    rcases List.mem_cons.1 hy with rfl | hy
    · refine ⟨y.num * N, ?_⟩
      push_cast
      rw [← mul_assoc, Rat.mul_den_eq_num]
    · obtain ⟨z, hz⟩ := h1 y hy
      refine ⟨x.den * z, ?_⟩
      push_cast
      rw [← hz]; ring

/-- The values of the potential on meshes without inverted triangles are natural numbers, up to a factor that depends on the points only. -/
theorem potential_nat (c : Ctx) : ∃ N : Nat, 0 < N ∧ ∀ M, MeshOk c.W M → ∃ k : Nat, potential c M * N = k := by
  obtain ⟨N, h0, h1⟩ := common_den (c.points.map (·.x) ++ c.points.map (·.y))
  have hx : ∀ i, ∃ z : Int, (c.pos i).x * N = z := by
    intro i
    by_cases hi : i < c.points.length
    · refine h1 _ (List.mem_append.2 (.inl (List.mem_map.2 ⟨c.points[i], List.getElem_mem hi, ?_⟩)))
      simp [Ctx.pos, hi]
    · exact ⟨0, by simp [Ctx.pos, hi]⟩
  have hy : ∀ i, ∃ z : Int, (c.pos i).y * N = z := by
    intro i
    by_cases hi : i < c.points.length
    · refine h1 _ (List.mem_append.2 (.inr (List.mem_map.2 ⟨c.points[i], List.getElem_mem hi, ?_⟩)))
      simp [Ctx.pos, hi]
    · exact ⟨0, by simp [Ctx.pos, hi]⟩
  have hl : ∀ i j k, ∃ z : Int, lift3 (c.pos i) (c.pos j) (c.pos k) * (N ^ 4 : Nat) = z := by
    intro i j k
    obtain ⟨x1, e1⟩ := hx i; obtain ⟨x2, e2⟩ := hx j; obtain ⟨x3, e3⟩ := hx k
    obtain ⟨y1, f1⟩ := hy i; obtain ⟨y2, f2⟩ := hy j; obtain ⟨y3, f3⟩ := hy k
    refine ⟨((x1 - x3) * (y2 - y3) - (y1 - y3) * (x2 - x3)) * (x1 ^ 2 + y1 ^ 2 + x2 ^ 2 + y2 ^ 2 + x3 ^ 2 + y3 ^ 2), ?_⟩
    push_cast
    rw [← e1, ← e2, ← e3, ← f1, ← f2, ← f3]
    unfold lift3 det2; ring
  refine ⟨N ^ 4, Nat.pow_pos h0, fun M m => ?_⟩
  have pos : 0 ≤ potential c M := by
    unfold potential triSum
    refine List.sum_nonneg ?_
    intro x hx
    obtain ⟨T, hT, rfl⟩ := List.mem_map.1 hx
    obtain ⟨t, hT⟩ := List.mem_iff_getElem?.1 hT
    have := (m.wo (sl_corner hT 0)).2.nonneg
    unfold lift3
    refine mul_nonneg this ?_
    nlinarith [sq_nonneg (c.pos T.points.a).x, sq_nonneg (c.pos T.points.a).y, sq_nonneg (c.pos T.points.b).x, sq_nonneg (c.pos T.points.b).y,
      sq_nonneg (c.pos T.points.c).x, sq_nonneg (c.pos T.points.c).y]
  have int : ∃ z : Int, potential c M * (N ^ 4 : Nat) = z := by
    unfold potential triSum
    clear m pos
    induction M with
    | nil => exact ⟨0, by simp⟩
    | cons T M ih =>
      obtain ⟨z, hz⟩ := ih
      obtain ⟨w, hw⟩ := hl T.points.a T.points.b T.points.c
      refine ⟨w + z, ?_⟩
      rw [List.map_cons, List.sum_cons, add_mul, hz, hw]; push_cast; rfl
  obtain ⟨z, hz⟩ := int
  have : (0 : Rat) ≤ z := by rw [← hz]; positivity
  obtain ⟨k, rfl⟩ := Int.eq_ofNat_of_zero_le (Int.cast_nonneg_iff.1 this)
  exact ⟨k, by rw [hz]; simp⟩

/-- Flagging the edge between two facing triangles. -/
theorem flagDelaunay_ok (m : MeshOk c.W M) {t p a b ot op : Nat} (h : FacingAt M t p a b ot op) : ∃ M', Store.flagDelaunay M t ot = .ok M' := by
  obtain ⟨e, f, s1, s2⟩ := facing_sl.1 h
  have hne := m.ne s1
  have hax := m.apex_ne s1 s2
  have d1 := (oriW c).d3 (m.wo s1)
  have d2 := (oriW c).d3 (m.wo s2)
  obtain ⟨T, hT, sT⟩ := s1
  obtain ⟨O, hO, sO⟩ := s2
  obtain ⟨a1, a2, a3, a4, vT⟩ := sT.view
  obtain ⟨b1, b2, b3, b4, vO⟩ := sO.view
  have ci := commonEdgeIndex_view vT vO d1 d2 hax
  refine ⟨(M.set t (T.setDelaunay (idxOf T p) true)).set ot (O.setDelaunay (idxOf O op) true), ?_⟩
  have l1 := (List.getElem?_eq_some_iff.1 hT).1
  have l2 := (List.getElem?_eq_some_iff.1 hO).1
  simp only [Store.flagDelaunay, Store.assertTwo, getU_ok.2 hT, getU_ok.2 hO, ok_bind, ci, if_pos (show t ≠ ot ∧ t < M.length ∧ ot < M.length from ⟨hne, l1, l2⟩)]
  rfl

end

end P2T
