import Verif.Spec.Region
import Verif.Proofs.Boundary
import Mathlib.Tactic.Positivity

/-!
# Counting triangles over a point

`cross q u v` counts the edge `u v` with a sign if it passes strictly over `q`.
-/

namespace P2T

def cross (q u v : Point) : Rat :=
  if u.x ≤ q.x ∧ q.x < v.x ∧ det2 u v q < 0 then -1
  else if v.x ≤ q.x ∧ q.x < u.x ∧ det2 v u q < 0 then 1 else 0

theorem cross_swap (q u v : Point) : cross q v u = - cross q u v := by
  unfold cross
  have := @lt_irrefl Rat _
  split_ifs <;> grind

/-- Numbers only: `x`, `y` are the abscissas relative to `q`, `l` the orientation. -/
def crossN (x y l : Rat) : Rat := if x ≤ 0 ∧ 0 < y ∧ l < 0 then -1 else if y ≤ 0 ∧ 0 < x ∧ 0 < l then 1 else 0

theorem cross_num (q u v : Point) : cross q u v = crossN (u.x - q.x) (v.x - q.x) (det2 u v q) := by
  unfold cross crossN
  rw [det2_swap u v q]
  simp only [sub_nonpos, sub_pos, Left.neg_neg_iff]

theorem chi_num {xa xb xc la lb lc : Rat} (h1 : la * xa + lb * xb + lc * xc = 0) (h2 : 0 ≤ la + lb + lc)
    (h3 : xa = 0 → xb = 0 → xc = 0 → la + lb + lc = 0) :
    (crossN xa xb lc + crossN xb xc la + crossN xc xa lb = 0 ∨
      (crossN xa xb lc + crossN xb xc la + crossN xc xa lb = 1 ∧ 0 < la + lb + lc ∧ 0 ≤ la ∧ 0 ≤ lb ∧ 0 ≤ lc)) ∧
    (0 < la → 0 < lb → 0 < lc → crossN xa xb lc + crossN xb xc la + crossN xc xa lb = 1) := by
  -- one vertex `a` on the left
  have left : ∀ {xa xb xc la lb lc : Rat}, la * xa + lb * xb + lc * xc = 0 → 0 ≤ la + lb + lc → xa ≤ 0 → 0 < xb → 0 < xc →
      (crossN xa xb lc + crossN xb xc la + crossN xc xa lb = 0 ∨
      (crossN xa xb lc + crossN xb xc la + crossN xc xa lb = 1 ∧ 0 < la + lb + lc ∧ 0 ≤ la ∧ 0 ≤ lb ∧ 0 ≤ lc)) ∧
      (0 < la → 0 < lb → 0 < lc → crossN xa xb lc + crossN xb xc la + crossN xc xa lb = 1) := by
    intro xa xb xc la lb lc h1 h2 ha hb hc
    have e1 : crossN xa xb lc = if lc < 0 then -1 else 0 := by
      unfold crossN; simp [ha, hb, not_le.2 hb]
    have e2 : crossN xb xc la = 0 := by
      unfold crossN; simp [hb, hc, not_le.2 hb, not_le.2 hc]
    have e3 : crossN xc xa lb = if 0 < lb then 1 else 0 := by
      unfold crossN; simp [ha, hc, not_le.2 hc]
    rw [e1, e2, e3]
    have k1 : lc < 0 → 0 < lb := by
      intro hlc
      by_contra hlb
      push Not at hlb
      have : lc * xc < 0 := mul_neg_of_neg_of_pos hlc hc
      have : lb * xb ≤ 0 := mul_nonpos_of_nonpos_of_nonneg hlb hb.le
      have : 0 < la * xa := by linarith
      have : la < 0 := by
        by_contra k
        have := mul_nonpos_of_nonneg_of_nonpos (not_lt.1 k) ha
        linarith
      linarith
    have k2 : 0 ≤ lc → 0 < lb → 0 ≤ la := by
      intro p1 p2
      have : 0 < lb * xb := mul_pos p2 hb
      have : 0 ≤ lc * xc := mul_nonneg p1 hc.le
      have : la * xa < 0 := by linarith
      by_contra k
      have := mul_nonneg_of_nonpos_of_nonpos (not_le.1 k).le ha
      linarith
    constructor
    · split_ifs <;> grind
    · intro q1 q2 q3
      simp [q2, not_lt.2 q3.le]
  -- one vertex `a` on the right
  have right : ∀ {xa xb xc la lb lc : Rat}, la * xa + lb * xb + lc * xc = 0 → 0 ≤ la + lb + lc → 0 < xa → xb ≤ 0 → xc ≤ 0 →
      (crossN xa xb lc + crossN xb xc la + crossN xc xa lb = 0 ∨
      (crossN xa xb lc + crossN xb xc la + crossN xc xa lb = 1 ∧ 0 < la + lb + lc ∧ 0 ≤ la ∧ 0 ≤ lb ∧ 0 ≤ lc)) ∧
      (0 < la → 0 < lb → 0 < lc → crossN xa xb lc + crossN xb xc la + crossN xc xa lb = 1) := by
    intro xa xb xc la lb lc h1 h2 ha hb hc
    have e1 : crossN xa xb lc = if 0 < lc then 1 else 0 := by
      unfold crossN; simp [ha, hb, not_le.2 ha]
    have e2 : crossN xb xc la = 0 := by
      unfold crossN; simp [hb, hc, not_lt.2 hb, not_lt.2 hc]
    have e3 : crossN xc xa lb = if lb < 0 then -1 else 0 := by
      unfold crossN; simp [ha, hc, not_lt.2 hc]
    rw [e1, e2, e3]
    have k1 : lb < 0 → 0 < lc := by
      intro hlb
      by_contra hlc
      push Not at hlc
      have : 0 ≤ lb * xb := mul_nonneg_of_nonpos_of_nonpos hlb.le hb
      have : 0 ≤ lc * xc := mul_nonneg_of_nonpos_of_nonpos hlc hc
      have : la ≤ 0 := by
        by_contra k
        have := mul_pos (not_le.1 k) ha
        linarith
      linarith
    have k2 : 0 ≤ lb → 0 < lc → 0 ≤ la := by
      intro p1 p2
      have : lb * xb ≤ 0 := mul_nonpos_of_nonneg_of_nonpos p1 hb
      have : lc * xc ≤ 0 := mul_nonpos_of_nonneg_of_nonpos p2.le hc
      by_contra k
      have := mul_neg_of_neg_of_pos (not_le.1 k) ha
      linarith
    constructor
    · split_ifs <;> grind
    · intro q1 q2 q3
      simp [q3, not_lt.2 q2.le]
  have rotl : ∀ {x y z : Rat}, x + y + z = y + z + x := by intros; ring
  have rotr : ∀ {x y z : Rat}, x + y + z = z + x + y := by intros; ring
  rcases le_or_gt xa 0 with ha | ha <;> rcases le_or_gt xb 0 with hb | hb <;> rcases le_or_gt xc 0 with hc | hc
  · -- all left
    have z : ∀ {x y l : Rat}, x ≤ 0 → y ≤ 0 → crossN x y l = 0 := by
      intro x y l p1 p2; unfold crossN; simp [not_lt.2 p1, not_lt.2 p2]
    rw [z ha hb, z hb hc, z hc ha]
    refine ⟨.inl (by ring), fun p1 p2 p3 => ?_⟩
    exfalso
    have q1 := mul_nonpos_of_nonneg_of_nonpos p1.le ha
    have q2 := mul_nonpos_of_nonneg_of_nonpos p2.le hb
    have q3 := mul_nonpos_of_nonneg_of_nonpos p3.le hc
    have r1 : la * xa = 0 := by linarith
    have r2 : lb * xb = 0 := by linarith
    have r3 : lc * xc = 0 := by linarith
    have := h3 ((mul_eq_zero.1 r1).resolve_left p1.ne') ((mul_eq_zero.1 r2).resolve_left p2.ne') ((mul_eq_zero.1 r3).resolve_left p3.ne')
    linarith
  · have := @right xc xa xb lc la lb (by linarith) (by linarith) hc ha hb
    grind
  · have := @right xb xc xa lb lc la (by linarith) (by linarith) hb hc ha
    grind
  · have := @left xa xb xc la lb lc h1 h2 ha hb hc
    exact this
  · have := @right xa xb xc la lb lc h1 h2 ha hb hc
    exact this
  · have := @left xb xc xa lb lc la (by linarith) (by linarith) hb hc ha
    grind
  · have := @left xc xa xb lc la lb (by linarith) (by linarith) hc ha hb
    grind
  · have z : ∀ {x y l : Rat}, 0 < x → 0 < y → crossN x y l = 0 := by
      intro x y l p1 p2; unfold crossN; simp [not_le.2 p1, not_le.2 p2]
    rw [z ha hb, z hb hc, z hc ha]
    refine ⟨.inl (by ring), fun p1 p2 p3 => ?_⟩
    have := mul_pos p1 ha; have := mul_pos p2 hb; have := mul_pos p3 hc
    linarith

/-- How often the border of a triangle passes over `q`. -/
def chi (q a b c : Point) : Rat := cross q a b + cross q b c + cross q c a

theorem chi_spec (q : Point) {a b c : Point} (h : 0 ≤ det2 a b c) :
    (chi q a b c = 0 ∨ (chi q a b c = 1 ∧ 0 < det2 a b c ∧ InClosed a b c q)) ∧ (Inside a b c q → chi q a b c = 1) := by
  unfold chi InClosed Inside
  simp only [cross_num]
  have hD : det2 b c q + det2 c a q + det2 a b q = det2 a b c := by unfold det2; ring
  have := @chi_num (a.x - q.x) (b.x - q.x) (c.x - q.x) (det2 b c q) (det2 c a q) (det2 a b q) (by unfold det2; ring)
    (by linarith)
    (by intro h1 h2 h3
        have e1 : a.x = q.x := by linarith
        have e2 : b.x = q.x := by linarith
        have e3 : c.x = q.x := by linarith
        unfold det2; rw [e1, e2, e3]; ring)
  rw [hD] at this
  grind

/-- `q` is strictly below an edge of the chain. -/
def UnderChain (l : List Point) (q : Point) : Prop := ∃ x ∈ pairs l, x.1.x ≤ q.x ∧ q.x < x.2.x ∧ det2 x.1 x.2 q < 0

theorem pairs_cons {α} (x y : α) (l : List α) : pairs (x :: y :: l) = (x, y) :: pairs (y :: l) := rfl

theorem chain_sum (q : Point) : ∀ {l : List Point}, l.Pairwise (fun a b => a.x ≤ b.x) →
    (UnderChain l q ∧ ((pairs l).map fun x => cross q x.2 x.1).sum = 1) ∨
    (¬ UnderChain l q ∧ ((pairs l).map fun x => cross q x.2 x.1).sum = 0)
  | [], _ => by simp [UnderChain, pairs]
  | [x], _ => by simp [UnderChain, pairs]
  | x :: y :: l, h => by
    have h' := (List.pairwise_cons.1 h).2
    have hxy := (List.pairwise_cons.1 h).1 y (by simp)
    have hy := (List.pairwise_cons.1 h').1
    have ih := chain_sum q h'
    have e : UnderChain (x :: y :: l) q ↔ (x.x ≤ q.x ∧ q.x < y.x ∧ det2 x y q < 0) ∨ UnderChain (y :: l) q := by
      simp [UnderChain, pairs_cons]
    have e2 : cross q y x = if x.x ≤ q.x ∧ q.x < y.x ∧ det2 x y q < 0 then 1 else 0 := by
      unfold cross
      rw [if_neg]
      rintro ⟨h1, h2, -⟩
      linarith
    rw [pairs_cons, List.map_cons, List.sum_cons, e, e2]
    by_cases k : x.x ≤ q.x ∧ q.x < y.x ∧ det2 x y q < 0
    · have : ¬ UnderChain (y :: l) q := by
        rintro ⟨⟨a, b⟩, h1, h2, -⟩
        have ha : a ∈ y :: l := (pairs_sub (y :: l)).subset (List.mem_map.2 ⟨_, h1, rfl⟩)
        have : y.x ≤ a.x := by
          rcases List.mem_cons.1 ha with rfl | ha
          · exact le_refl _
          · exact hy a ha
        have := k.2.1
        simp only at h2
        linarith
      rw [if_pos k]
      rcases ih with ih | ih
      · exact absurd ih.1 this
      · exact .inl ⟨.inl k, by rw [ih.2]; ring⟩
    · rw [if_neg k]
      rcases ih with ih | ih
      · exact .inl ⟨.inr ih.1, by rw [ih.2]; ring⟩
      · exact .inr ⟨by tauto, by rw [ih.2]; ring⟩

/-- A mesh in the plane: `P` are the positions of the points. -/
structure PlaneMesh (P : Nat → Point) (size left right : Nat) (M : Store) (nodes : List Node) : Prop where
  cons : Consistent size M
  bd : Bounded left right M nodes
  nodup : (nodes.map (·.pid)).Nodup
  lr : ∀ a b, Consecutive nodes a b → ¬ (b.pid = left ∧ a.pid = right)
  pos : ∀ T ∈ M, 0 ≤ det2 (P (T.points.get 0)) (P (T.points.get 1)) (P (T.points.get 2))
  mono : (nodes.map fun e => P e.pid).Pairwise fun a b => a.x ≤ b.x
  flat : (P left).x < (P right).x

section
variable {P : Nat → Point} {size left right : Nat} {M : Store} {nodes : List Node}

theorem pairs_map {α β} (f : α → β) : ∀ l : List α, pairs (l.map f) = (pairs l).map fun x => (f x.1, f x.2)
  | [] => rfl
  | [x] => rfl
  | x :: y :: l => by
    have := pairs_map f (y :: l)
    rw [List.map_cons] at this
    rw [List.map_cons, List.map_cons, pairs_cons, pairs_cons, this, List.map_cons]

theorem PlaneMesh.sum (h : PlaneMesh P size left right M nodes) (φ : Point → Point → Rat) (hφ : ∀ u v, φ v u = - φ u v) :
    triSum (fun a b d => φ (P a) (P b) + φ (P b) (P d) + φ (P d) (P a)) M = φ (P left) (P right) +
      ((pairs (nodes.map fun e => P e.pid)).map fun x => φ x.2 x.1).sum := by
  have := boundary_sum h.cons h.bd h.nodup h.lr (fun u v => φ (P u) (P v)) (fun u v => hφ _ _)
  rw [this, pairs_map, List.map_map]
  rfl

/-- The number of triangles over `q`. -/
theorem PlaneMesh.count (h : PlaneMesh P size left right M nodes) (q : Point) :
    let U := UnderChain (nodes.map fun e => P e.pid) q
    let D := (P left).x ≤ q.x ∧ q.x < (P right).x ∧ det2 (P left) (P right) q < 0
    let N := triSum (fun a b d => chi q (P a) (P b) (P d)) M
    (U ∧ ¬ D ∧ N = 1) ∨ (U ∧ D ∧ N = 0) ∨ (¬ U ∧ ¬ D ∧ N = 0) := by
  intro U D N
  have e : N = cross q (P left) (P right) + ((pairs (nodes.map fun e => P e.pid)).map fun x => cross q x.2 x.1).sum :=
    h.sum (cross q) (cross_swap q)
  have e2 : cross q (P left) (P right) = if D then -1 else 0 := by
    unfold cross
    have : ¬ ((P right).x ≤ q.x ∧ q.x < (P left).x ∧ det2 (P right) (P left) q < 0) := by
      rintro ⟨h1, h2, -⟩
      have := h.flat
      linarith
    rw [if_neg this]
  have nn : 0 ≤ N := by
    show 0 ≤ triSum _ M
    unfold triSum
    refine List.sum_nonneg ?_
    intro x hx
    obtain ⟨T, hT, rfl⟩ := List.mem_map.1 hx
    rcases (chi_spec q (h.pos T hT)).1 with k | ⟨k, -⟩
    · exact ge_of_eq k
    · exact le_trans zero_le_one (ge_of_eq k)
  rw [e2] at e
  rcases chain_sum q h.mono with ⟨u, k⟩ | ⟨u, k⟩
  · rw [k] at e
    by_cases d : D
    · rw [if_pos d] at e
      exact .inr (.inl ⟨u, d, by rw [e]; ring⟩)
    · rw [if_neg d] at e
      exact .inl ⟨u, d, by rw [e]; ring⟩
  · rw [k] at e
    by_cases d : D
    · rw [if_pos d] at e
      exfalso; linarith
    · rw [if_neg d] at e
      exact .inr (.inr ⟨u, d, by rw [e]; ring⟩)

theorem PlaneMesh.chi01 (h : PlaneMesh P size left right M nodes) (q : Point) {T : Tri} (hT : T ∈ M) :
    0 ≤ chi q (P T.points.a) (P T.points.b) (P T.points.c) := by
  rcases (chi_spec q (h.pos T hT)).1 with k | ⟨k, -⟩
  · exact ge_of_eq k
  · exact le_trans zero_le_one (ge_of_eq k)

/-- No two triangles share an interior point. -/
theorem PlaneMesh.disjoint (h : PlaneMesh P size left right M nodes) {q : Point} {t t' : Nat} {T T' : Tri} (hT : M[t]? = some T)
    (hT' : M[t']? = some T') (k : Inside (P (T.points.get 0)) (P (T.points.get 1)) (P (T.points.get 2)) q)
    (k' : Inside (P (T'.points.get 0)) (P (T'.points.get 1)) (P (T'.points.get 2)) q) : t = t' := by
  by_contra hne
  have c1 := (chi_spec q (h.pos T (List.mem_of_getElem? hT))).2 k
  have c2 := (chi_spec q (h.pos T' (List.mem_of_getElem? hT'))).2 k'
  have hN : triSum (fun a b d => chi q (P a) (P b) (P d)) M ≤ 1 := by
    rcases h.count q with ⟨-, -, e⟩ | ⟨-, -, e⟩ | ⟨-, -, e⟩ <;> rw [e] <;> norm_num
  rw [triSum_fin] at hN
  obtain ⟨l1, e1⟩ := List.getElem?_eq_some_iff.1 hT
  obtain ⟨l2, e2⟩ := List.getElem?_eq_some_iff.1 hT'
  have hs := Finset.sum_le_sum_of_subset_of_nonneg (s := ({⟨t, l1⟩, ⟨t', l2⟩} : Finset (Fin M.length))) (t := Finset.univ)
    (f := fun i : Fin M.length => chi q (P M[i].points.a) (P M[i].points.b) (P M[i].points.c)) (Finset.subset_univ _)
    (fun i _ _ => h.chi01 q (by simp))
  rw [Finset.sum_pair (by intro e; exact hne (congrArg Fin.val e))] at hs
  simp only [Fin.getElem_fin, e1, e2] at hs hN
  simp only [V3.get] at c1 c2
  linarith

/-- Points between the bottom and the front are in a triangle. -/
theorem PlaneMesh.cover (h : PlaneMesh P size left right M nodes) {q : Point} (hu : UnderChain (nodes.map fun e => P e.pid) q)
    (hd : 0 ≤ det2 (P left) (P right) q) : ∃ T ∈ M, 0 < det2 (P (T.points.get 0)) (P (T.points.get 1)) (P (T.points.get 2)) ∧
      InClosed (P (T.points.get 0)) (P (T.points.get 1)) (P (T.points.get 2)) q := by
  have hN : triSum (fun a b d => chi q (P a) (P b) (P d)) M = 1 := by
    rcases h.count q with ⟨-, -, e⟩ | ⟨-, d, e⟩ | ⟨u, -, e⟩
    · exact e
    · exact absurd d.2.2 (not_lt.2 hd)
    · exact absurd hu u
  by_contra hno
  push Not at hno
  have : triSum (fun a b d => chi q (P a) (P b) (P d)) M = 0 := by
    unfold triSum
    refine List.sum_eq_zero ?_
    intro x hx
    obtain ⟨T, hT, rfl⟩ := List.mem_map.1 hx
    rcases (chi_spec q (h.pos T hT)).1 with k | ⟨-, k⟩
    · exact k
    · exact absurd k.2 (hno T hT k.1)
  rw [this] at hN
  norm_num at hN

/-- Interior points of triangles are under the front and not below the bottom. -/
theorem PlaneMesh.inside (h : PlaneMesh P size left right M nodes) {q : Point} {T : Tri} (hT : T ∈ M)
    (k : Inside (P (T.points.get 0)) (P (T.points.get 1)) (P (T.points.get 2)) q) :
    UnderChain (nodes.map fun e => P e.pid) q ∧ ¬ ((P left).x ≤ q.x ∧ q.x < (P right).x ∧ det2 (P left) (P right) q < 0) := by
  have c1 := (chi_spec q (h.pos T hT)).2 k
  have hN : 1 ≤ triSum (fun a b d => chi q (P a) (P b) (P d)) M := by
    obtain ⟨t, l, rfl⟩ := List.getElem_of_mem hT
    rw [triSum_fin]
    have hs := Finset.single_le_sum (f := fun i : Fin M.length => chi q (P M[i].points.a) (P M[i].points.b) (P M[i].points.c))
      (s := Finset.univ) (fun i _ => h.chi01 q (by simp)) (Finset.mem_univ (⟨t, l⟩ : Fin M.length))
    simp only [V3.get] at c1
    simp only [Fin.getElem_fin, c1] at hs ⊢
    exact hs
  rcases h.count q with ⟨u, d, e⟩ | ⟨u, d, e⟩ | ⟨u, d, e⟩
  · exact ⟨u, d⟩
  · rw [e] at hN; norm_num at hN
  · rw [e] at hN; norm_num at hN

end

end P2T
