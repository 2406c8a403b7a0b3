import Verif.Proofs.Labels
import Verif.Props.Result

/-!
# The region around a triangle
-/

namespace P2T

theorem cw_at {T : Tri} {p : Nat} {i : Fin 3} (hd : ∀ i j : Fin 3, i ≠ j → T.points.get i ≠ T.points.get j) (hi : T.to i = p) :
    T.constrainedEdgeCw p = .ok (T.isConstrained i) ∧ T.neighborCcw p = .ok (T.neighbors.get (i + 1)) := by
  have d01 := hd 0 1 (by decide)
  have d02 := hd 0 2 (by decide)
  have d12 := hd 1 2 (by decide)
  obtain ⟨⟨a, b, c⟩, ⟨na, nb, nc⟩, ⟨aa, ab, ac⟩, int⟩ := T
  simp only [V3.get] at d01 d02 d12
  match i with
  | 0 =>
    have : c = p := hi
    subst this
    constructor
    · simp [Tri.constrainedEdgeCw, Tri.pointIndex, d02, d12, Tri.isConstrained, V3.get]
    · simp [Tri.neighborCcw, V3.get, Ne.symm d02, Ne.symm d12]
  | 1 =>
    have : a = p := hi
    subst this
    constructor
    · simp [Tri.constrainedEdgeCw, Tri.pointIndex, Tri.isConstrained, V3.get]
    · simp [Tri.neighborCcw, V3.get]
  | 2 =>
    have : b = p := hi
    subst this
    constructor
    · simp [Tri.constrainedEdgeCw, Tri.pointIndex, d01, Tri.isConstrained, V3.get]
    · simp [Tri.neighborCcw, V3.get, Ne.symm d01]

/-- The jump of `G` across the edge `u v`, from its left to its right side. -/
def edgeJump (M : Store) (G : Nat → Rat) (u v : Nat) : Rat :=
  ∑ g : HE M, g.wt * g.jump G * ((if g.src = u ∧ g.dst = v then 1 else 0) + (-1) * (if g.src = v ∧ g.dst = u then 1 else 0))

theorem edgeJump_swap (M : Store) (G : Nat → Rat) (u v : Nat) : edgeJump M G v u = - edgeJump M G u v := by
  unfold edgeJump
  rw [← Finset.sum_neg_distrib]
  exact Finset.sum_congr rfl fun g _ => by ring

theorem sum_swap {M : Store} {α} (f : α → HE M → Rat) : ∀ l : List α, (l.map fun x => ∑ g : HE M, f x g).sum = ∑ g : HE M, (l.map fun x => f x g).sum
  | [] => by simp
  | x :: l => by
    simp only [List.map_cons, List.sum_cons, sum_swap f l, Finset.sum_add_distrib]

theorem sum_mul_left' {α} (c : Rat) (f : α → Rat) : ∀ l : List α, (l.map fun x => c * f x).sum = c * (l.map f).sum
  | [] => by simp
  | x :: l => by simp only [List.map_cons, List.sum_cons, sum_mul_left' c f l]; ring

/-- What changes only across the edges `E` is a sum over `E`. -/
theorem support_sum {M : Store} {E : List (Nat × Nat)} (hE : E.Nodup) (hb : ∀ u v, (u, v) ∈ E → (v, u) ∉ E) (G : Nat → Rat)
    (hs : ∀ g : HE M, g.jump G ≠ 0 → (g.src, g.dst) ∈ E ∨ (g.dst, g.src) ∈ E) (φ : Nat → Nat → Rat) (hφ : ∀ u v, φ v u = - φ u v) :
    ∑ g : HE M, g.wt * g.jump G * φ g.src g.dst = (E.map fun e => edgeJump M G e.1 e.2 * φ e.1 e.2).sum := by
  have e1 : (E.map fun e => edgeJump M G e.1 e.2 * φ e.1 e.2) = E.map fun e => ∑ g : HE M, (g.wt * g.jump G) *
      (((if g.src = e.1 ∧ g.dst = e.2 then 1 else 0) + (-1) * (if g.src = e.2 ∧ g.dst = e.1 then 1 else 0)) * φ e.1 e.2) := by
    refine List.map_congr_left fun e _ => ?_
    unfold edgeJump
    rw [Finset.sum_mul]
    exact Finset.sum_congr rfl fun g _ => by ring
  rw [e1, sum_swap]
  refine Finset.sum_congr rfl fun g _ => ?_
  rw [sum_mul_left']
  by_cases hz : g.jump G = 0
  · rw [hz]; ring
  · congr 1
    have e2 : ∀ l : List (Nat × Nat), (l.map fun e => ((if g.src = e.1 ∧ g.dst = e.2 then 1 else 0) + (-1) * (if g.src = e.2 ∧ g.dst = e.1 then 1 else 0)) * φ e.1 e.2).sum =
        ((l.count (g.src, g.dst) : Rat) + (l.count (g.dst, g.src) : Rat)) * φ g.src g.dst := by
      intro l
      induction l with
      | nil => simp
      | cons x l ih =>
        rw [List.map_cons, List.sum_cons, ih, List.count_cons, List.count_cons]
        obtain ⟨x1, x2⟩ := x
        have b1 : ((x1, x2) == (g.src, g.dst)) = decide (g.src = x1 ∧ g.dst = x2) := by
          rw [Bool.eq_iff_iff]; simp only [beq_iff_eq, Prod.mk.injEq, decide_eq_true_eq]; tauto
        have b2 : ((x1, x2) == (g.dst, g.src)) = decide (g.src = x2 ∧ g.dst = x1) := by
          rw [Bool.eq_iff_iff]; simp only [beq_iff_eq, Prod.mk.injEq, decide_eq_true_eq]; tauto
        rw [b1, b2]
        simp only [decide_eq_true_eq]
        push_cast
        by_cases c1 : g.src = x1 ∧ g.dst = x2 <;> by_cases c2 : g.src = x2 ∧ g.dst = x1
        · have : φ g.src g.dst = 0 := by
            have y1 : g.src = g.dst := by rw [c1.1, c2.2]
            have := hφ g.src g.dst
            rw [← y1] at this ⊢; linarith
          rw [if_pos c1, if_pos c2, this]; ring
        · rw [if_pos c1, if_neg c2, ← c1.1, ← c1.2]; ring
        · rw [if_neg c1, if_pos c2, ← c2.1, ← c2.2, hφ g.src g.dst]; ring
        · rw [if_neg c1, if_neg c2]; ring
    rw [e2]
    rcases hs g hz with k | k
    · rw [List.count_eq_one_of_mem hE k, List.count_eq_zero_of_not_mem (hb _ _ k)]; norm_num
    · rw [List.count_eq_one_of_mem hE k, List.count_eq_zero_of_not_mem (hb _ _ k)]; norm_num

theorem sum_single {α} {l : List α} (hn : l.Nodup) {a : α} (ha : a ∈ l) {f : α → Rat} (hf : ∀ x ∈ l, x ≠ a → f x = 0) : (l.map f).sum = f a := by
  induction l with
  | nil => cases ha
  | cons x l ih =>
    rw [List.nodup_cons] at hn
    rw [List.map_cons, List.sum_cons]
    rcases List.mem_cons.1 ha with rfl | k
    · have : ∀ m : List α, (∀ y ∈ m, f y = 0) → (m.map f).sum = 0 := by
        intro m hm
        induction m with
        | nil => rfl
        | cons y m ih => rw [List.map_cons, List.sum_cons, hm y (by simp), ih fun z hz => hm z (by simp [hz]), add_zero]
      rw [this l fun y hy => hf y (by simp [hy]) (by rintro rfl; exact hn.1 hy), add_zero]
    · rw [hf x (by simp) (by rintro rfl; exact hn.1 k), zero_add]
      exact ih hn.2 k fun y hy => hf y (by simp [hy])

namespace Labelled
variable {P R : Nat → Point} {size left right : Nat} {M : Store} {nodes : List Node} {Ls : List (List Nat)} {F : List Nat → Nat → Rat}
  (h : Labelled P R size left right M nodes Ls F)
include h

/-- The walk around a point: the labels of the triangle are the flows of the polylines along its edge towards the point. -/
theorem walk {p : Nat} {o r : Option Nat} (hs : StartOf M p o r) : ∀ (t : Nat) (T : Tri) (i : Fin 3), o = some t → M[t]? = some T → T.to i = p →
    (∀ L ∈ Ls, F L t = flow L (T.from i) p) → ∀ s, r = some s →
    ∃ (S : Tri) (i : Fin 3), M[s]? = some S ∧ S.to i = p ∧ S.isConstrained i = true ∧ ∀ L ∈ Ls, F L s = flow L (S.from i) p := by
  induction hs with
  | out => intro t T i ho; cases ho
  | @found t0 T0 hT0 hb =>
    intro t T i ho hT hi hF s hs
    cases ho; cases hs
    rw [hT0] at hT; cases hT
    rw [(cw_at (h.mesh.cons.different T0 (List.mem_of_getElem? hT0)) hi).1] at hb
    exact ⟨T0, i, hT0, hi, by simpa using hb, hF⟩
  | @step t0 T0 n r hT0 hb hn hso ih =>
    intro t T i ho hT hi hF s hs
    cases ho
    rw [hT0] at hT; cases hT
    have hm := List.mem_of_getElem? hT0
    have k := cw_at (h.mesh.cons.different T0 hm) hi
    rw [k.1] at hb; rw [k.2] at hn
    have hb : T0.isConstrained i = false := by simpa using hb
    have hn : T0.neighbors.get (i + 1) = n := by simpa using hn
    clear k
    subst hs
    cases n with
    | none => cases hso
    | some x =>
      obtain ⟨-, j, hl⟩ := h.mesh.cons.linked t0 T0 (i + 1) x hT0 hn
      have hl' := hl
      obtain ⟨T', X, h1, h2, h3, h4, h5, h6⟩ := hl'
      rw [hT0] at h1; cases h1
      have e : T0.from (i + 1) = p := by rw [← hi]; unfold Tri.from Tri.to; congr 1; clear * -; revert i; decide
      refine ih x X j rfl h2 (by rw [← h5, e]) (fun L hL => ?_) s rfl
      have z := h.not_marked hm hb hL
      rw [hi] at z
      have tw := (h.faces L hL).twin t0 (i + 1) x j T0 hl hT0
      rw [hF L hL, z, e, h6, flow_swap] at tw
      linarith

end Labelled

namespace Planar
variable {P R : Nat → Point} {size left right : Nat} {M : Store} {nodes : List Node} {Ls : List (List Nat)} {F : List Nat → Nat → Rat}
  (h : Planar P R size left right M nodes Ls F)
include h

/-- A function of the triangles that changes only across marked edges: its jump is the same along each polyline. -/
theorem jump_const {G : Nat → Rat} (hs : ∀ g : HE M, g.jump G ≠ 0 → (g.src, g.dst) ∈ allEdges Ls ∨ (g.dst, g.src) ∈ allEdges Ls)
    {L : List Nat} (hL : L ∈ Ls) : ∃ c, ∀ x ∈ cyclicPairs L, edgeJump M G x.1 x.2 = c := by
  refine cyclic_const (f := fun x => edgeJump M G x.1 x.2) fun u v w h1 h2 => ?_
  have m1 := mem_allEdges.2 ⟨L, hL, h1⟩
  have m2 := mem_allEdges.2 ⟨L, hL, h2⟩
  have hφ : ∀ a b : Nat, ((if b = v then 1 else 0) - (if a = v then 1 else 0) : Rat) = - ((if a = v then 1 else 0) - (if b = v then 1 else 0)) := by
    intro a b; ring
  have e := support_sum h.disj.edges_nodup (fun _ _ => h.disj.no_back) G hs (fun a b => (if a = v then 1 else 0) - (if b = v then 1 else 0)) hφ
  rw [← stokes h.mesh.cons G _ hφ] at e
  have z : ∑ t : Fin M.length, G t * ((if M[t].points.a = v then 1 else 0) - (if M[t].points.b = v then 1 else 0) +
      ((if M[t].points.b = v then 1 else 0) - (if M[t].points.c = v then 1 else 0)) +
      ((if M[t].points.c = v then 1 else 0) - (if M[t].points.a = v then 1 else 0))) = (0 : Rat) :=
    Finset.sum_eq_zero fun t _ => by ring
  rw [z] at e
  have e2 : ((allEdges Ls).map fun e => edgeJump M G e.1 e.2 * ((if e.1 = v then 1 else 0) - (if e.2 = v then 1 else 0))).sum =
      ((allEdges Ls).map fun e => edgeJump M G e.1 e.2 * (if e.1 = v then 1 else 0)).sum -
      ((allEdges Ls).map fun e => edgeJump M G e.1 e.2 * (if e.2 = v then 1 else 0)).sum := by
    rw [← sum_sub']
    exact congrArg List.sum (List.map_congr_left fun e _ => by ring)
  rw [e2, sum_single h.disj.edges_nodup m2 (fun x hx hne => by
      rw [if_neg (fun k => hne (h.disj.inj1 hx m2 k)), mul_zero]),
    sum_single h.disj.edges_nodup m1 (fun x hx hne => by
      rw [if_neg (fun k => hne (h.disj.inj2 hx m1 k)), mul_zero])] at e
  simp only [if_true, mul_one] at e
  linarith

/-- … so its sum over the triangles is a combination of sums along the polylines. -/
theorem combine {G : Nat → Rat} (hs : ∀ g : HE M, g.jump G ≠ 0 → (g.src, g.dst) ∈ allEdges Ls ∨ (g.dst, g.src) ∈ allEdges Ls) :
    ∃ c : List Nat → Rat, (∀ L ∈ Ls, ∀ x ∈ cyclicPairs L, edgeJump M G x.1 x.2 = c L) ∧
      ∀ φ : Nat → Nat → Rat, (∀ u v, φ v u = - φ u v) →
        ∑ t : Fin M.length, G t * (φ M[t].points.a M[t].points.b + φ M[t].points.b M[t].points.c + φ M[t].points.c M[t].points.a) =
          (Ls.map fun L => c L * ((cyclicPairs L).map fun x => φ x.1 x.2).sum).sum := by
  classical
  refine ⟨fun L => if hL : L ∈ Ls then (h.jump_const hs hL).choose else 0, ?_, ?_⟩
  · intro L hL x hx
    simp only [dif_pos hL]
    exact (h.jump_const hs hL).choose_spec x hx
  · intro φ hφ
    rw [stokes h.mesh.cons G φ hφ, support_sum h.disj.edges_nodup (fun _ _ => h.disj.no_back) G hs φ hφ]
    have : ∀ l : List (List Nat), (∀ L ∈ l, L ∈ Ls) → ((allEdges l).map fun e => edgeJump M G e.1 e.2 * φ e.1 e.2).sum =
        (l.map fun L => (if hL : L ∈ Ls then (h.jump_const hs hL).choose else 0) * ((cyclicPairs L).map fun x => φ x.1 x.2).sum).sum := by
      intro l hl
      induction l with
      | nil => rfl
      | cons L l ih =>
        have hL := hl L (by simp)
        unfold allEdges at *
        rw [List.flatMap_cons, List.map_append, List.sum_append, ih fun x hx => hl x (by simp [hx]), List.map_cons, List.sum_cons, dif_pos hL,
          ← sum_mul_left']
        congr 2
        exact List.map_congr_left fun x hx => by rw [(h.jump_const hs hL).choose_spec x hx]
    exact this Ls fun _ hL => hL

/-- The jump across an edge. -/
theorem edgeJump_eq (G : Nat → Rat) (k : HE M) : edgeJump M G k.src k.dst = k.jump G := by
  unfold edgeJump
  rcases h.mesh.edge_sum h.strict h.lt k (fun g => g.jump G) (-1) with ⟨-, e⟩ | ⟨g, y1, y2, -, -, e⟩
  · exact e
  · rw [e]
    have j1 : k.jump G = G k.1.1 - G g.1.1 := by unfold HE.jump; rw [y1]
    have j2 : g.jump G = G g.1.1 - G k.1.1 := by unfold HE.jump; rw [y2]
    simp only [j1, j2]; ring

omit h in
theorem edge_half {u v : Nat} (he : MeshEdge M u v) : ∃ k : HE M, (k.src = u ∧ k.dst = v) ∨ (k.src = v ∧ k.dst = u) := by
  obtain ⟨T, hT, i, hi⟩ := he
  obtain ⟨t, ht, rfl⟩ := List.getElem_of_mem hT
  exact ⟨(⟨t, ht⟩, i), hi⟩

end Planar

namespace Labelled
variable {P R : Nat → Point} {size left right : Nat} {M : Store} {nodes : List Node} {Ls : List (List Nat)} {F : List Nat → Nat → Rat}
  (h : Labelled P R size left right M nodes Ls F)
include h

/-- Every triangle with an odd label of `L0` and even labels of the other polylines can be reached from the triangle on the inner side of an edge of `L0`. -/
theorem complete {L0 : List Nat} (hL0 : L0 ∈ Ls) {s : Nat} {S : Tri} {i : Fin 3} (hS : M[s]? = some S)
    (he : (S.from i, S.to i) ∈ cyclicPairs L0 ∨ (S.to i, S.from i) ∈ cyclicPairs L0) (hF : F L0 s = flow L0 (S.from i) (S.to i))
    {q : Point} {t1 : Fin M.length} (hq : chiAt R q M[t1] = 1) (hodd : ∃ k : ℤ, F L0 t1 = 2 * k + 1)
    (hev : ∀ L ∈ Ls, L ≠ L0 → ∃ k : ℤ, F L t1 = 2 * k) : Reach M s t1 := by
  classical
  have hne : F L0 t1 ≠ 0 := by
    obtain ⟨k, hk⟩ := hodd
    rw [hk]; intro z
    have : (2 * k + 1 : ℤ) = 0 := by exact_mod_cast z
    omega
  let G : Nat → Rat := fun t => if Reach M t1 t then 1 else 0
  have Gpos : ∀ {t}, G t ≠ 0 → Reach M t1 t := by
    intro t ht
    by_contra k
    exact ht (if_neg k)
  have Gint : ∀ t, ∃ k : ℤ, G t = k := by
    intro t
    by_cases k : Reach M t1 t
    · exact ⟨1, by simp [G, k]⟩
    · exact ⟨0, by simp [G, k]⟩
  have hs : ∀ g : HE M, g.jump G ≠ 0 → (g.src, g.dst) ∈ allEdges Ls ∨ (g.dst, g.src) ∈ allEdges Ls := by
    intro g hg
    by_contra hno
    have hT : M[g.1.1]? = some M[g.1] := by simp
    have hm : M[g.1].isConstrained g.2 = false := by
      rw [Bool.eq_false_iff]
      exact fun k => hno ((h.marks M[g.1] (by simp) g.2).1 k)
    apply hg
    unfold HE.jump
    cases hn : g.nbr with
    | none =>
      simp only [sub_zero]
      by_contra k
      have r := h.reach_same (Gpos k) hL0
      rw [(h.faces L0 hL0).opn g.1 M[g.1] g.2 hT hn, h.not_marked (by simp) hm hL0] at r
      exact hne r
    | some x =>
      have st : OpenStep M g.1 x := ⟨_, hT, g.2, hm, hn⟩
      have : Reach M t1 g.1 ↔ Reach M t1 x := ⟨fun k => .step k st, fun k => .step k (h.step_symm st)⟩
      simp only [G, this]; ring
  obtain ⟨c, hc1, hc2⟩ := h.combine hs
  have hφ : ∀ u v : Nat, cross q (R v) (R u) = - cross q (R u) (R v) := fun u v => cross_swap _ _ _
  have e := hc2 (fun u v => cross q (R u) (R v)) hφ
  have e1 : ∑ t : Fin M.length, G t * chiAt R q M[t] = 1 := by
    rcases h.one_face q with k | ⟨t2, k1, k2⟩
    · rw [k t1] at hq; norm_num at hq
    · have : t1 = t2 := by
        by_contra hne
        rw [k2 t1 hne] at hq; norm_num at hq
      subst this
      rw [Finset.sum_eq_single t1]
      · rw [hq]
        have : G t1 = 1 := if_pos .refl
        rw [this, mul_one]
      · intro t _ ht; rw [k2 t ht, mul_zero]
      · intro z; exact absurd (Finset.mem_univ _) z
  have e2 : (Ls.map fun L => c L * ((cyclicPairs L).map fun x => cross q (R x.1) (R x.2)).sum).sum = 1 := e.symm.trans e1
  have cint : ∀ L ∈ Ls, ∃ k : ℤ, c L = k := by
    intro L hL
    have l3 := h.disj.three L hL
    obtain ⟨a, ha⟩ := List.exists_mem_of_ne_nil L (by rintro rfl; simp at l3)
    obtain ⟨b, hb⟩ := cyclic_next ha
    have ec := hc1 L hL _ hb
    obtain ⟨k, hk⟩ := Planar.edge_half (h.along L hL _ hb)
    have jint : ∃ m : ℤ, k.jump G = m := by
      unfold HE.jump
      obtain ⟨m1, h1⟩ := Gint k.1.1
      cases k.nbr with
      | none => exact ⟨m1, by simpa using h1⟩
      | some x =>
        obtain ⟨m2, h2⟩ := Gint x
        exact ⟨m1 - m2, by simp only [h1, h2]; push_cast; ring⟩
    obtain ⟨m, hm⟩ := jint
    rcases hk with ⟨k1, k2⟩ | ⟨k1, k2⟩
    · refine ⟨m, ?_⟩
      rw [← ec, ← k1, ← k2, h.edgeJump_eq, hm]
    · refine ⟨-m, ?_⟩
      rw [← ec, ← k1, ← k2, edgeJump_swap, h.edgeJump_eq, hm]; push_cast; rfl
  have c0 : c L0 ≠ 0 := by
    intro c0
    have even : ∀ l : List (List Nat), (∀ L ∈ l, L ∈ Ls) → ∃ k : ℤ, (l.map fun L => c L * ((cyclicPairs L).map fun x => cross q (R x.1) (R x.2)).sum).sum = 2 * k := by
      intro l hl
      induction l with
      | nil => exact ⟨0, by simp⟩
      | cons L l ih =>
        obtain ⟨k1, h1⟩ := ih fun x hx => hl x (by simp [hx])
        have hL := hl L (by simp)
        rw [List.map_cons, List.sum_cons, h1]
        by_cases hLe : L = L0
        · rw [hLe, c0]; exact ⟨k1, by ring⟩
        · obtain ⟨k2, h2⟩ := hev L hL hLe
          obtain ⟨k3, h3⟩ := cint L hL
          have hw : ((cyclicPairs L).map fun x => cross q (R x.1) (R x.2)).sum = F L t1 := h.wind_at hL hq
          rw [hw, h2, h3]
          exact ⟨k3 * k2 + k1, by push_cast; ring⟩
    obtain ⟨k, hk⟩ := even Ls fun _ hL => hL
    rw [hk] at e2
    have : (2 * k : ℤ) = 1 := by exact_mod_cast e2
    omega
  -- the jump across the edge of the starting triangle
  have hs1 := (List.getElem?_eq_some_iff.1 hS).1
  have hs2 := (List.getElem?_eq_some_iff.1 hS).2
  let k : HE M := (⟨s, hs1⟩, i)
  have ks : k.src = S.from i := by show M[s].from i = _; rw [hs2]
  have kd : k.dst = S.to i := by show M[s].to i = _; rw [hs2]
  have kj : k.jump G ≠ 0 := by
    intro z
    rw [← h.edgeJump_eq, ks, kd] at z
    rcases he with he | he
    · rw [hc1 L0 hL0 _ he] at z; exact c0 z
    · rw [edgeJump_swap, hc1 L0 hL0 _ he] at z
      exact c0 (by linarith)
  refine h.reach_symm (Gpos fun z => kj ?_)
  unfold HE.jump
  have z : G k.1.1 = 0 := z
  rw [z]
  cases hn : k.nbr with
  | none => simp
  | some x =>
    simp only [zero_sub, neg_eq_zero]
    by_contra hx
    have r := h.reach_same (Gpos hx) hL0
    have hn' : S.neighbors.get i = some x := by
      have : M[s].neighbors.get i = some x := hn
      rwa [hs2] at this
    obtain ⟨-, j, hl⟩ := h.mesh.cons.linked s S i x hS hn'
    have := (h.faces L0 hL0).twin s i x j S hl hS
    apply hne
    rw [r]; linarith

end Labelled

end P2T
