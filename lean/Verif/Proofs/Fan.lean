import Verif.Proofs.Interior
import Mathlib.Data.Set.Finite.Lemmas

/-!
# The triangles around a point of the front

The triangles around an inner node of the front form one fan: turning counter-clockwise one comes to the front.
-/

namespace P2T

/-- Turning counter-clockwise around `b` for ever, one passes from the right side to the left side. -/
theorem turn_over {ι : Type} [Finite ι] {S : ι → Prop} {f : ι → Point} {b : Point} (hne : ∃ i, S i)
    (hstep : ∀ i, S i → ∃ j, S j ∧ 0 < det2 b (f i) (f j)) : ∃ i, S i ∧ b.x < (f i).x ∧ ∀ j, S j → 0 < det2 b (f i) (f j) → (f j).x ≤ b.x := by
  classical
  have slope : ∀ {i j : ι}, 0 < ((f i).x - b.x) * ((f j).x - b.x) → 0 < det2 b (f i) (f j) →
      ((f i).y - b.y) / ((f i).x - b.x) < ((f j).y - b.y) / ((f j).x - b.x) := by
    intro i j h1 h2
    have n1 : (f i).x - b.x ≠ 0 := left_ne_zero_of_mul h1.ne'
    have n2 : (f j).x - b.x ≠ 0 := right_ne_zero_of_mul h1.ne'
    have : ((f j).y - b.y) / ((f j).x - b.x) - ((f i).y - b.y) / ((f i).x - b.x) = det2 b (f i) (f j) / (((f i).x - b.x) * ((f j).x - b.x)) := by
      unfold det2; field_simp; ring
    have := div_pos h2 h1
    linarith
  by_cases hr : ∃ i, S i ∧ b.x < (f i).x
  · obtain ⟨i, ⟨h1, h2⟩, h3⟩ := Set.exists_max_image {i | S i ∧ b.x < (f i).x} (fun i => ((f i).y - b.y) / ((f i).x - b.x)) (Set.toFinite _) hr
    refine ⟨i, h1, h2, fun j hj hd => ?_⟩
    by_contra hn
    have := h3 j ⟨hj, not_le.1 hn⟩
    have := slope (mul_pos (sub_pos.2 h2) (sub_pos.2 (not_le.1 hn))) hd
    linarith
  exfalso
  have hle : ∀ i, S i → (f i).x ≤ b.x := fun i hi => not_lt.1 fun k => hr ⟨i, hi, k⟩
  have down : ∀ i, S i → (f i).x = b.x → b.y < (f i).y := by
    intro i hi he
    obtain ⟨j, hj, hd⟩ := hstep i hi
    have e : det2 b (f i) (f j) = ((f i).y - b.y) * (b.x - (f j).x) := by unfold det2; rw [he]; ring
    rw [e] at hd
    have := hle j hj
    rcases pos_and_pos_or_neg_and_neg_of_mul_pos hd with k | k <;> linarith
  by_cases hl : ∃ i, S i ∧ (f i).x < b.x
  · obtain ⟨i, ⟨h1, h2⟩, h3⟩ := Set.exists_max_image {i | S i ∧ (f i).x < b.x} (fun i => ((f i).y - b.y) / ((f i).x - b.x)) (Set.toFinite _) hl
    obtain ⟨j, hj, hd⟩ := hstep i h1
    rcases lt_or_eq_of_le (hle j hj) with k | k
    · have := h3 j ⟨hj, k⟩
      have := slope (mul_pos_of_neg_of_neg (sub_neg.2 h2) (sub_neg.2 k)) hd
      linarith
    · have := down j hj k
      have e : det2 b (f i) (f j) = ((f i).x - b.x) * ((f j).y - b.y) := by unfold det2; rw [k]; ring
      rw [e] at hd
      have := mul_neg_of_neg_of_pos (sub_neg.2 h2) (sub_pos.2 this)
      linarith
  · obtain ⟨i, hi⟩ := hne
    obtain ⟨j, hj, hd⟩ := hstep i hi
    have e1 : (f i).x = b.x := le_antisymm (hle i hi) (not_lt.1 fun k => hl ⟨i, hi, k⟩)
    have e2 : (f j).x = b.x := le_antisymm (hle j hj) (not_lt.1 fun k => hl ⟨j, hj, k⟩)
    have : det2 b (f i) (f j) = 0 := by unfold det2; rw [e1, e2]; ring
    linarith

/-- A triangle whose angle at `b` reaches over the vertical has an inner point above a given line to the right. -/
theorem above_line {b u v d : Point} (hu : b.x < u.x) (hv : v.x ≤ b.x) (hd : b.x < d.x) (hdet : 0 < det2 b u v) :
    ∃ q, Inside b u v q ∧ b.x ≤ q.x ∧ q.x < d.x ∧ 0 ≤ det2 b d q := by
  obtain ⟨η, h0, h1⟩ := small' (l := [(u.x - b.x, -(u.y - b.y)), (b.x - v.x, v.y - b.y), (d.x - b.x, -(d.y - b.y))]) (by
    intro x hx
    simp only [List.mem_cons, List.not_mem_nil, or_false] at hx
    rcases hx with rfl | rfl | rfl
    · left; simpa using hu
    · rcases eq_or_lt_of_le hv with e | e
      · right
        refine ⟨by simp only; linarith, ?_⟩
        have : det2 b u v = (u.x - b.x) * (v.y - b.y) := by unfold det2; rw [e]; ring
        rw [this] at hdet
        exact (pos_iff_pos_of_mul_pos hdet).1 (by linarith)
      · left; simpa using e
    · left; simpa using hd)
  simp only [List.mem_cons, List.not_mem_nil, or_false, forall_eq_or_imp, forall_eq] at h1
  obtain ⟨a1, a2, a3⟩ := h1
  let κ := - (v.y - u.y) * η + (v.x - u.x)
  obtain ⟨s, s0, s1⟩ := small' (l := [(det2 b u v, κ), (d.x - b.x, -η)]) (by
    intro x hx
    simp only [List.mem_cons, List.not_mem_nil, or_false] at hx
    rcases hx with rfl | rfl
    · left; exact hdet
    · left; simpa using hd)
  simp only [List.mem_cons, List.not_mem_nil, or_false, forall_eq_or_imp, forall_eq] at s1
  obtain ⟨b1, b2⟩ := s1
  have m1 := mul_pos s0 a1
  have m2 := mul_pos s0 a2
  have m3 := mul_pos s0 a3
  have m0 := mul_pos s0 h0
  refine ⟨⟨b.x + s * η, b.y + s⟩, ⟨?_, ?_, ?_⟩, by simp only; linarith, by simp only; linarith, ?_⟩
  · have : det2 b u ⟨b.x + s * η, b.y + s⟩ = s * (u.x - b.x + η * -(u.y - b.y)) := by simp only [det2]; ring
    rw [this]; exact m1
  · have : det2 u v ⟨b.x + s * η, b.y + s⟩ = det2 b u v + s * κ := by simp only [det2, κ]; ring
    rw [this]; exact b1
  · have : det2 v b ⟨b.x + s * η, b.y + s⟩ = s * (b.x - v.x + η * (v.y - b.y)) := by simp only [det2]; ring
    rw [this]; exact m2
  · have : det2 b d ⟨b.x + s * η, b.y + s⟩ = s * (d.x - b.x + η * -(d.y - b.y)) := by simp only [det2]; ring
    rw [this]; exact m3.le

theorem Consecutive.idx {α} {l : List α} {a b : α} (h : Consecutive l a b) : ∃ (i : Nat) (hi : i + 1 < l.length), l[i] = a ∧ l[i + 1] = b := by
  obtain ⟨L, R, rfl⟩ := h
  exact ⟨L.length, by simp, by simp, by simp⟩

/-- In an increasing list there is at most one pair of neighbours around a number. -/
theorem Consecutive.unique {α} {l : List α} {f : α → Rat} (hp : l.Pairwise fun a b => f a < f b) {a b a' b' : α} (h : Consecutive l a b)
    (h' : Consecutive l a' b') {q : Rat} (h1 : f a ≤ q) (h2 : q < f b) (h3 : f a' ≤ q) (h4 : q < f b') : a = a' ∧ b = b' := by
  obtain ⟨i, hi, rfl, rfl⟩ := h.idx
  obtain ⟨j, hj, rfl, rfl⟩ := h'.idx
  have mono : ∀ (x y : Nat) (hx : x < l.length) (hy : y < l.length), x ≤ y → f l[x] ≤ f l[y] := by
    intro x y hx hy hxy
    rcases lt_or_eq_of_le hxy with k | k
    · exact (List.pairwise_iff_getElem.1 hp x y hx hy k).le
    · subst k; exact le_refl _
  rcases lt_trichotomy i j with k | k | k
  · have := mono (i + 1) j (by omega) (by omega) k; linarith
  · subst k; exact ⟨rfl, rfl⟩
  · have := mono (j + 1) i (by omega) (by omega) k; linarith

theorem Consecutive.next {l : List Node} (hn : (l.map (·.pid)).Nodup) {a b a' b' : Node} (h : Consecutive l a b) (h' : Consecutive l a' b')
    (e : a.pid = a'.pid) : a = a' ∧ b = b' := by
  obtain ⟨i, hi, rfl, rfl⟩ := h.idx
  obtain ⟨j, hj, rfl, rfl⟩ := h'.idx
  have : i = j := by
    have := (List.Nodup.getElem_inj_iff hn (i := i) (j := j) (hi := by simp; omega) (hj := by simp; omega)).1 (by simpa using e)
    exact this
  subst this; exact ⟨rfl, rfl⟩

theorem Consecutive.prev {l : List Node} (hn : (l.map (·.pid)).Nodup) {a b a' b' : Node} (h : Consecutive l a b) (h' : Consecutive l a' b')
    (e : b.pid = b'.pid) : a = a' ∧ b = b' := by
  obtain ⟨i, hi, rfl, rfl⟩ := h.idx
  obtain ⟨j, hj, rfl, rfl⟩ := h'.idx
  have : i + 1 = j + 1 := by
    have := (List.Nodup.getElem_inj_iff hn (i := i + 1) (j := j + 1) (hi := by simp; omega) (hj := by simp; omega)).1 (by simpa using e)
    exact this
  have : i = j := by omega
  subst this; exact ⟨rfl, rfl⟩

namespace PlaneMesh
variable {P : Nat → Point} {size left right : Nat} {M : Store} {nodes : List Node}

/-- Walking around an inner node of the front from the front edge on its right one passes through all triangles at this point. -/
theorem fan (h : PlaneMesh P size left right M nodes) (hp : Strict P M) (hlt : (nodes.map fun e => P e.pid).Pairwise fun a b => a.x < b.x)
    (hb : FrontBounds left right M nodes) {b d : Node} (hc : Consecutive nodes b d) (hr : b.pid ≠ right) (hs : StartOf M b.pid b.tri none)
    {t : Nat} {T : Tri} {i : Fin 3} (hT : M[t]? = some T) (hi : T.to i = b.pid) : StartOf M b.pid (some t) none := by
  by_contra hbad
  let S : HE M → Prop := fun k => k.dst = b.pid ∧ ¬ StartOf M b.pid (some k.1.1) none
  -- the triangle after a bad one is bad
  have next : ∀ k : HE M, S k → ∃ g : HE M, S g ∧ M[g.1].to (g.2 + 1) = k.src := by
    rintro k ⟨k1, k2⟩
    have hk : M[k.1.1]? = some M[k.1] := by simp
    cases hn : M[k.1].neighbors.get k.2 with
    | none =>
      exfalso
      rcases hb.only M[k.1] (by simp) k.2 hn with ⟨-, e⟩ | ⟨a', b', h1, h2, h3⟩
      · exact hr (k1.symm.trans e)
      · have e1 : a'.pid = b.pid := h3.symm.trans k1
        obtain ⟨t', T', i', h4, h5, h6, h7, h8⟩ := hb.below a' b' h1
        obtain ⟨t2, T2, i2, g4, g5, g6, g7, g8⟩ := hb.below b d hc
        have e2 : b'.pid = d.pid := by rw [(h1.next h.nodup hc e1).2]
        have e3 := hb.once k.1 _ k.2 t2 T2 i2 hk g5 hn g6 (by rw [h2, g7, e2]) (by rw [h3, g8, e1])
        rw [g4, ← e3] at hs
        exact k2 hs
    | some x =>
      obtain ⟨-, j, hl⟩ := h.cons.linked k.1 _ k.2 x hk hn
      obtain ⟨T', X, h1, h2, h3, h4, h5, h6⟩ := hl
      rw [hk] at h1; cases h1
      obtain ⟨hx, rfl⟩ := List.getElem?_eq_some_iff.1 h2
      have e1 : M[x].to (j + 2) = b.pid := by
        have : M[x].to (j + 2) = M[x].from j := by unfold Tri.from Tri.to; congr 1; clear * -; revert j; decide
        rw [this, ← h6]; exact k1
      refine ⟨(⟨x, hx⟩, j + 2), ⟨e1, fun hst => k2 ?_⟩, ?_⟩
      · cases hst with
        | step g1 g2 g3 g4 =>
          have g1 : M[x]? = some _ := g1
          rw [h2] at g1; cases g1
          have := (cw_at (h.cons.different _ (List.mem_of_getElem? h2)) e1).2
          rw [this] at g3
          have e2 : j + 2 + 1 = j := by clear * -; revert j; decide
          rw [e2, h4] at g3
          cases g3
          exact g4
      · show M[x].to (j + 2 + 1) = _
        have e2 : j + 2 + 1 = j := by clear * -; revert j; decide
        rw [e2, ← h5]; rfl
  have turn : ∀ g : HE M, g.dst = b.pid → 0 < det2 (P b.pid) (P (M[g.1].to (g.2 + 1))) (P g.src) := by
    intro g hg
    have := hp M[g.1] (by simp) (g.2 + 2)
    have e1 : M[g.1].points.get (g.2 + 2) = b.pid := hg
    have e2 : M[g.1].from (g.2 + 2) = M[g.1].to (g.2 + 1) := by
      unfold Tri.from Tri.to; congr 1; generalize g.2 = j; clear * -; revert j; decide
    have e3 : M[g.1].to (g.2 + 2) = g.src := by
      unfold HE.src Tri.from Tri.to; congr 1; generalize g.2 = j; clear * -; revert j; decide
    rw [e1, e2, e3] at this
    exact this
  obtain ⟨ht, rfl⟩ := List.getElem?_eq_some_iff.1 hT
  obtain ⟨k, k1, k2, k3⟩ := turn_over (S := S) (f := fun k => P k.src) (b := P b.pid) ⟨(⟨t, ht⟩, i), hi, hbad⟩ (by
    intro k hk
    obtain ⟨g, g1, g2⟩ := next k hk
    refine ⟨g, g1, ?_⟩
    have := turn g g1.1
    rw [g2] at this
    exact this)
  obtain ⟨g, g1, g2⟩ := next k k1
  have tg := turn g g1.1
  rw [g2] at tg
  rw [List.pairwise_map] at hlt
  have hbd : (P b.pid).x < (P d.pid).x := by
    obtain ⟨l1, l2, rfl⟩ := hc
    rw [List.pairwise_append] at hlt
    exact (List.pairwise_cons.1 hlt.2.1).1 _ (by simp)
  obtain ⟨q, q1, q2, q3, q4⟩ := above_line k2 (k3 g g1 tg) hbd tg
  have e1 : M[g.1].points.get (g.2 + 2) = b.pid := g1.1
  have ins : Inside (P (M[g.1].points.get 0)) (P (M[g.1].points.get 1)) (P (M[g.1].points.get 2)) q := by
    refine (inside_at (g.2 + 2)).2 ?_
    have e2 : M[g.1].from (g.2 + 2) = k.src := by
      rw [← g2]; unfold Tri.from Tri.to; congr 1; generalize g.2 = j; clear * -; revert j; decide
    have e3 : M[g.1].to (g.2 + 2) = g.src := by
      unfold HE.src Tri.from Tri.to; congr 1; generalize g.2 = j; clear * -; revert j; decide
    rw [e1, e2, e3]
    exact q1.rot
  obtain ⟨⟨x, x1, x2, x3, x4⟩, -⟩ := h.inside (by simp) ins
  rw [pairs_map, List.mem_map] at x1
  obtain ⟨⟨a', b'⟩, y1, rfl⟩ := x1
  have cab := mem_pairs.1 y1
  simp only at x2 x3 x4
  -- the front edge over the point is the one from `b` to `d`
  obtain ⟨rfl, rfl⟩ := Consecutive.unique (f := fun e : Node => (P e.pid).x) hlt hc cab q2 q3 x2 x3
  linarith

/-- … so there is no marked edge at this point but possibly the front edge on its left. -/
theorem fan_unmarked (h : PlaneMesh P size left right M nodes) (hp : Strict P M) (hlt : (nodes.map fun e => P e.pid).Pairwise fun a b => a.x < b.x)
    (hb : FrontBounds left right M nodes) {b d : Node} (hc : Consecutive nodes b d) (hr : b.pid ≠ right) (hs : StartOf M b.pid b.tri none)
    {T : Tri} (hT : T ∈ M) {i : Fin 3} (hi : T.to i = b.pid) : T.isConstrained i = false := by
  obtain ⟨t, ht⟩ := List.mem_iff_getElem?.1 hT
  cases h.fan hp hlt hb hc hr hs ht hi with
  | step g1 g2 g3 g4 =>
    rw [ht] at g1; cases g1
    rw [(cw_at (h.cons.different _ hT) hi).1] at g2
    simpa using g2

end PlaneMesh

namespace Labelled
variable {P R : Nat → Point} {size left right : Nat} {M : Store} {nodes : List Node} {Ls : List (List Nat)} {L0 : List Nat} {F : List Nat → Nat → Rat}
  (h : Labelled P R size left right M nodes (L0 :: Ls) F)
include h

/-- If the second node of the front is a corner of the outer polyline, the search for the interior succeeds. -/
theorem start_some (hb : FrontBounds left right M nodes) {a b : Node} {l : List Node} (hn : nodes = a :: b :: l) (ha : a.pid ∉ L0)
    (hl : b.pid ≠ left) (hr : b.pid ≠ right) (hlast : ∃ e l', nodes = l' ++ [e] ∧ e.pid = right) (hbL : b.pid ∈ L0) : ¬ StartOf M b.pid b.tri none := by
  intro hs
  cases l with
  | nil =>
    obtain ⟨e, l', he, hp⟩ := hlast
    rw [hn] at he
    have : b = e := by
      have := congrArg List.getLast? he
      simpa using this
    exact hr (by rw [this, hp])
  | cons d l =>
    have hc : Consecutive nodes b d := ⟨[a], l, by simp [hn]⟩
    have hc0 : Consecutive nodes a b := ⟨[], d :: l, hn⟩
    obtain ⟨w, hw⟩ := cyclic_next hbL
    have mk : ∀ T ∈ M, ∀ i, (T.from i = w ∧ T.to i = b.pid) ∨ (T.from i = b.pid ∧ T.to i = w) → T.isConstrained i = true := by
      intro T hT i k
      have m : (b.pid, w) ∈ allEdges (L0 :: Ls) := mem_allEdges.2 ⟨L0, List.mem_cons_self, hw⟩
      rw [h.marks T hT i]
      rcases k with ⟨k1, k2⟩ | ⟨k1, k2⟩
      · right; rw [k1, k2]; exact m
      · left; rw [k1, k2]; exact m
    obtain ⟨T, hT, i, hi⟩ := h.along L0 (by simp) _ hw
    rcases hi with ⟨k1, k2⟩ | ⟨k1, k2⟩
    swap
    · have e1 := h.mesh.fan_unmarked h.strict h.lt hb hc hr hs hT k2
      rw [mk T hT i (.inl ⟨k1, k2⟩)] at e1; cases e1
    · obtain ⟨t, ht⟩ := List.mem_iff_getElem?.1 hT
      cases hnb : T.neighbors.get i with
      | none =>
        rcases hb.only T hT i hnb with ⟨e, -⟩ | ⟨a', b', h1, h2, h3⟩
        · exact hl (k1.symm.trans e)
        · have := (h1.prev h.mesh.nodup hc0 (h2.symm.trans k1)).1
          subst this
          exact ha (by rw [← h3, k2]; exact cyclic_mem_right hw)
      | some x =>
        obtain ⟨-, j, T', X, h1, h2, h3, h4, h5, h6⟩ := h.mesh.cons.linked t T i x ht hnb
        rw [ht] at h1; cases h1
        have hX := List.mem_of_getElem? h2
        have e0 : X.to j = b.pid := by rw [← h5]; exact k1
        have e1 := h.mesh.fan_unmarked h.strict h.lt hb hc hr hs hX e0
        rw [mk X hX j (.inl ⟨by rw [← h6]; exact k2, e0⟩)] at e1; cases e1

end Labelled

end P2T
