import Verif.Proofs.Fan
import Verif.Proofs.LeftOpen

/-!
# No edge of the mesh is above the front edge at its left end
-/

namespace P2T

/-- A triangle with a side `b w` (in either direction) that is above a given line to the right has an inner point above this line. -/
theorem above_edge {b w v d : Point} (hx : b.x < w.x) (hd : b.x < d.x) (hw : 0 < det2 b d w) (hdet : 0 < det2 b w v) :
    ∃ q, Inside b w v q ∧ b.x ≤ q.x ∧ q.x < d.x ∧ 0 ≤ det2 b d q := by
  obtain ⟨η, h0, h1⟩ := small' (l := [(w.x - b.x, v.x - b.x), (det2 b d w, det2 b d v)]) (by
    intro x hx'
    simp only [List.mem_cons, List.not_mem_nil, or_false] at hx'
    rcases hx' with rfl | rfl
    · left; simpa using hx
    · left; exact hw)
  simp only [List.mem_cons, List.not_mem_nil, or_false, forall_eq_or_imp, forall_eq] at h1
  obtain ⟨a1, a2⟩ := h1
  obtain ⟨s, s0, s1⟩ := small' (l := [(1, -(1 + η)), (d.x - b.x, -(w.x - b.x + η * (v.x - b.x)))]) (by
    intro x hx'
    simp only [List.mem_cons, List.not_mem_nil, or_false] at hx'
    rcases hx' with rfl | rfl
    · left; norm_num
    · left; simpa using hd)
  simp only [List.mem_cons, List.not_mem_nil, or_false, forall_eq_or_imp, forall_eq] at s1
  obtain ⟨b1, b2⟩ := s1
  let q : Point := ⟨b.x + s * (w.x - b.x + η * (v.x - b.x)), b.y + s * (w.y - b.y + η * (v.y - b.y))⟩
  have m1 := mul_pos s0 a1
  refine ⟨q, ⟨?_, ?_, ?_⟩, by simp only [q]; linarith, by simp only [q]; linarith, ?_⟩
  · have : det2 b w q = s * η * det2 b w v := by simp only [det2, q]; ring
    rw [this]; exact mul_pos (mul_pos s0 h0) hdet
  · have : det2 w v q = (1 + s * -(1 + η)) * det2 b w v := by simp only [det2, q]; ring
    rw [this]; exact mul_pos b1 hdet
  · have : det2 v b q = s * det2 b w v := by simp only [det2, q]; ring
    rw [this]; exact mul_pos s0 hdet
  · have : det2 b d q = s * (det2 b d w + η * det2 b d v) := by simp only [det2, q]; ring
    rw [this]; exact (mul_pos s0 a2).le

/-- The same with the triangle on the other side. -/
theorem above_edge' {b w v d : Point} (hx : b.x < w.x) (hd : b.x < d.x) (hw : 0 < det2 b d w) (hdet : 0 < det2 w b v) :
    ∃ q, Inside w b v q ∧ b.x ≤ q.x ∧ q.x < d.x ∧ 0 ≤ det2 b d q := by
  obtain ⟨η, h0, h1⟩ := small' (l := [(w.x - b.x, v.x - b.x), (det2 b d w, det2 b d v)]) (by
    intro x hx'
    simp only [List.mem_cons, List.not_mem_nil, or_false] at hx'
    rcases hx' with rfl | rfl
    · left; simpa using hx
    · left; exact hw)
  simp only [List.mem_cons, List.not_mem_nil, or_false, forall_eq_or_imp, forall_eq] at h1
  obtain ⟨a1, a2⟩ := h1
  obtain ⟨s, s0, s1⟩ := small' (l := [(1, -(1 + η)), (d.x - b.x, -(w.x - b.x + η * (v.x - b.x)))]) (by
    intro x hx'
    simp only [List.mem_cons, List.not_mem_nil, or_false] at hx'
    rcases hx' with rfl | rfl
    · left; norm_num
    · left; simpa using hd)
  simp only [List.mem_cons, List.not_mem_nil, or_false, forall_eq_or_imp, forall_eq] at s1
  obtain ⟨b1, b2⟩ := s1
  let q : Point := ⟨b.x + s * (w.x - b.x + η * (v.x - b.x)), b.y + s * (w.y - b.y + η * (v.y - b.y))⟩
  have m1 := mul_pos s0 a1
  refine ⟨q, ⟨?_, ?_, ?_⟩, by simp only [q]; linarith, by simp only [q]; linarith, ?_⟩
  · have : det2 w b q = s * η * det2 w b v := by simp only [det2, q]; ring
    rw [this]; exact mul_pos (mul_pos s0 h0) hdet
  · have : det2 b v q = s * det2 w b v := by simp only [det2, q]; ring
    rw [this]; exact mul_pos s0 hdet
  · have : det2 v w q = (1 + s * -(1 + η)) * det2 w b v := by simp only [det2, q]; ring
    rw [this]; exact mul_pos b1 hdet
  · have : det2 b d q = s * (det2 b d w + η * det2 b d v) := by simp only [det2, q]; ring
    rw [this]; exact (mul_pos s0 a2).le

theorem PlaneMesh.top_edge {P : Nat → Point} {size left right : Nat} {M : Store} {nodes : List Node} (h : PlaneMesh P size left right M nodes) (hp : Strict P M)
    (hlt : (nodes.map fun e => P e.pid).Pairwise fun a b => a.x < b.x) {b d : Node} (hc : Consecutive nodes b d) {w : Nat} (he : MeshEdge M b.pid w)
    (hx : (P b.pid).x < (P w).x) : ¬ 0 < det2 (P b.pid) (P d.pid) (P w) := by
  intro hw
  rw [List.pairwise_map] at hlt
  have hbd : (P b.pid).x < (P d.pid).x := by
    obtain ⟨l1, l2, rfl⟩ := hc
    rw [List.pairwise_append] at hlt
    exact (List.pairwise_cons.1 hlt.2.1).1 _ (by simp)
  obtain ⟨T, hT, i, hi⟩ := he
  have ht := hp T hT i
  have : ∃ q, Inside (P (T.from i)) (P (T.to i)) (P (T.points.get i)) q ∧ (P b.pid).x ≤ q.x ∧ q.x < (P d.pid).x ∧ 0 ≤ det2 (P b.pid) (P d.pid) q := by
    rw [← det2_rot] at ht
    rcases hi with ⟨k1, k2⟩ | ⟨k1, k2⟩
    · rw [k1, k2] at ht ⊢; exact above_edge hx hbd hw ht
    · rw [k1, k2] at ht ⊢; exact above_edge' hx hbd hw ht
  obtain ⟨q, q1, q2, q3, q4⟩ := this
  obtain ⟨⟨x, x1, x2, x3, x4⟩, -⟩ := h.inside hT ((inside_at i).2 q1)
  rw [pairs_map, List.mem_map] at x1
  obtain ⟨⟨a', b'⟩, y1, rfl⟩ := x1
  have cab := mem_pairs.1 y1
  simp only at x2 x3 x4
  obtain ⟨rfl, rfl⟩ := Consecutive.unique (f := fun e : Node => (P e.pid).x) hlt hc cab q2 q3 x2 x3
  linarith

end P2T
