import Verif.Spec.Flip
import Verif.Proofs.MeshSpec
import Mathlib.Algebra.BigOperators.Group.List.Basic
import Mathlib.Algebra.BigOperators.Fin

/-!
# Flips in arbitrary consistent meshes
-/

namespace P2T

section
variable {c : Ctx} {M M' : Store}

theorem notReversed_wo {a b d : Point} : NotReversed a b d ↔ WO a b d := Iff.rfl

theorem meshOk_of (h1 : Consistent c.points.length M) (h2 : Oriented c.points M) : MeshOk c.W M := by
  refine ⟨?_, ?_⟩
  · intro t w u v n e hs
    obtain ⟨T, i, k1, rfl, rfl, rfl, -⟩ := hs.at
    have hm := List.mem_of_getElem? k1
    have ho := h2 T hm
    simp only [ptOf_pos] at ho
    replace ho : WO _ _ _ := ho
    refine ⟨⟨h1.corners T hm _, h1.corners T hm _, h1.corners T hm _⟩, ?_⟩
    match i with
    | 0 => exact ho
    | 1 => exact ho.rot
    | 2 => exact ho.rot.rot
  · intro t w u v x e hs
    obtain ⟨T, i, k1, rfl, rfl, rfl, k2, -⟩ := hs.at
    obtain ⟨-, j, hl⟩ := h1.linked t T i x k1 k2
    obtain ⟨_, X, -, hX, -⟩ := id hl
    exact ⟨_, _, (hl.sl k1 hX).2⟩

theorem MeshOk.idx (m : MeshOk c.W M) {t : Nat} {T : Tri} (hT : M[t]? = some T) {i j : Fin 3} (h : T.points.get i = T.points.get j) : i = j := by
  by_contra hne
  exact ((oriW c).d3 (m.wo (sl_corner hT 0))).at i j hne h

/-- Facts about neighbours that need no Delaunay property (compare `MeshInv`). -/
theorem MeshOk.uniq (h : MeshOk c.W M) {t w u v n e w' n' e'} (a : Sl M t w u v n e)
    (b : Sl M t w' u v n' e') : w = w' ∧ n = n' ∧ e = e' := by
  have d := (oriW c).d3 (h.wo a)
  have := sl_two a d b
  obtain ⟨d1, d2, d3⟩ := d
  grind

theorem MeshOk.ne (h : MeshOk c.W M) {t w u v x e} (a : Sl M t w u v (some x) e) : t ≠ x := by
  rintro rfl
  obtain ⟨w', e', b⟩ := h.sym a
  have d := (oriW c).d3 (h.wo a)
  have := sl_two a d b
  obtain ⟨d1, d2, d3⟩ := d
  grind

theorem MeshOk.apex_ne (h : MeshOk c.W M) {t w u v n e t' w' n' e'} (a : Sl M t w u v n e)
    (b : Sl M t' w' v u n' e') : w ≠ w' := by
  rintro rfl
  exact (oriW c).anti ((oriW c).rot (h.wo a)) ((oriW c).rot (h.wo b))

theorem MeshOk.nbr_uniq (h : MeshOk c.W M) {t w u v x e w' u' v' e'} (a : Sl M t w u v (some x) e)
    (b : Sl M t w' u' v' (some x) e') : w = w' ∧ u = u' ∧ v = v' ∧ e = e' := by
  have d := (oriW c).d3 (h.wo a)
  rcases sl_two a d b with k | ⟨rfl, rfl, rfl⟩ | ⟨rfl, rfl, rfl⟩
  · grind
  · obtain ⟨w1, e1, a1⟩ := h.sym a
    obtain ⟨w2, e2, b1⟩ := h.sym b
    have d1 := (oriW c).d3 (h.wo a1)
    have := sl_two a1 d1 b1
    have := h.apex_ne a a1
    obtain ⟨d1, d2, d3⟩ := d
    grind
  · obtain ⟨w1, e1, a1⟩ := h.sym a
    obtain ⟨w2, e2, b1⟩ := h.sym b
    have d1 := (oriW c).d3 (h.wo a1)
    have := sl_two a1 d1 b1
    have := h.apex_ne a a1
    obtain ⟨d1, d2, d3⟩ := d
    grind

theorem MeshOk.consistent (m : MeshOk c.W M) : Consistent c.points.length M := by
  refine ⟨?_, ?_, fun t T i x hT hn => ?_, ?_⟩
  · intro T hT i
    obtain ⟨t, hT⟩ := List.mem_iff_getElem?.1 hT
    exact (m.wo (sl_corner hT i)).1.1
  · intro T hT i j
    obtain ⟨t, hT⟩ := List.mem_iff_getElem?.1 hT
    exact ((oriW c).d3 (m.wo (sl_corner hT 0))).at i j
  · have s := sl_corner hT i
    rw [hn] at s
    obtain ⟨w', e', s'⟩ := m.sym s
    obtain ⟨X, j, k1, k2, k3, k4, k5, k6⟩ := s'.at
    exact ⟨(m.ne s).symm, j, T, X, hT, k1, hn, k5, k4.symm, k3.symm⟩
  · intro T hT i j x h1 h2
    obtain ⟨t, hT⟩ := List.mem_iff_getElem?.1 hT
    have a := sl_corner hT i; rw [h1] at a
    have b := sl_corner hT j; rw [h2] at b
    exact m.idx hT (m.nbr_uniq a b).1

theorem MeshOk.oriented (m : MeshOk c.W M) : Oriented c.points M := by
  intro T hT
  obtain ⟨t, hT⟩ := List.mem_iff_getElem?.1 hT
  have := (m.wo (sl_corner hT 0)).2
  simp only [ptOf_pos]
  exact this

/-! ## Sums over triangles -/

/-- The value of a rotation invariant function at a triangle can be read off any of its half-edges. -/
theorem tri_val {α} (f : Nat → Nat → Nat → α) (hf : ∀ a b d, f b d a = f a b d) {t w u v n e} (h : Sl M t w u v n e) {T : Tri}
    (hT : M[t]? = some T) : f T.points.a T.points.b T.points.c = f w u v := by
  obtain ⟨T', i, k1, rfl, rfl, rfl, -⟩ := h.at
  rw [hT] at k1; cases k1
  match i with
  | 0 => rfl
  | 1 => exact (hf T.points.a T.points.b T.points.c).symm
  | 2 => exact hf T.points.c T.points.a T.points.b

/-- Sum of a function of the corners over the mesh. -/
def triSum (f : Nat → Nat → Nat → Rat) (M : Store) : Rat := (M.map fun T => f T.points.a T.points.b T.points.c).sum

theorem triSum_fin (f : Nat → Nat → Nat → Rat) (M : Store) : triSum f M = ∑ i : Fin M.length, f M[i].points.a M[i].points.b M[i].points.c := by
  unfold triSum
  rw [← List.sum_ofFn]
  congr 1
  apply List.ext_getElem <;> simp

/-- A flip changes a sum over the triangles only at its two triangles. -/
theorem Flip.Rel.triSum {F : Flip} (r : F.Rel M M') (p : F.Pre c.W M) (m : MeshOk c.W M) (hl : M'.length = M.length)
    (f : Nat → Nat → Nat → Rat) (hf : ∀ a b d, f b d a = f a b d) :
    triSum f M' + f F.p F.a F.b + f F.op F.b F.a = P2T.triSum f M + f F.b F.p F.op + f F.a F.op F.p := by
  have tot := (p.facts (oriW c) m).tot
  let val (N : Store) (t : Nat) : Rat := (N[t]?).elim 0 fun T => f T.points.a T.points.b T.points.c
  have hv : ∀ N : Store, P2T.triSum f N = ∑ t ∈ Finset.range N.length, val N t := by
    intro N
    rw [triSum_fin, ← Fin.sum_univ_eq_sum_range]
    refine Finset.sum_congr rfl fun i _ => ?_
    simp [val]
  have hval : ∀ {N : Store} {t w u v n e}, Sl N t w u v n e → val N t = f w u v := by
    intro N t w u v n e h
    obtain ⟨T, hT, -⟩ := id h
    simp only [val, hT, Option.elim]
    exact tri_val f hf h hT
  have hsame : ∀ t, t < M.length → t ≠ F.t → t ≠ F.ot → val M' t = val M t := by
    intro t ht h1 h2
    obtain ⟨w, u, v, n, e, hs⟩ := exists_sl ht
    rw [hval hs]
    by_cases hn : n = some F.t ∨ n = some F.ot
    · obtain ⟨w', e', hs'⟩ : ∃ w' e', Sl M' t w u v w' e' := by
        rcases hn with rfl | rfl
        · obtain ⟨w1, e1, s1⟩ := m.sym hs
          rcases sl_two p.s0 ((oriW c).d3 (m.wo p.s0)) s1 with k | k | k
          · grind
          · obtain ⟨rfl, rfl, rfl⟩ := k
            have := m.uniq s1 p.s2
            have k := p.h2 t this.2.1.symm
            have := m.uniq hs k
            obtain ⟨rfl, -, -⟩ := this
            exact ⟨_, _, r.q2 (by simp_all)⟩
          · obtain ⟨rfl, rfl, rfl⟩ := k
            have := m.uniq s1 p.s1
            have k := p.h1 t this.2.1.symm
            have := m.uniq hs k
            obtain ⟨rfl, -, -⟩ := this
            exact ⟨_, _, r.q1 (by simp_all)⟩
        · obtain ⟨w1, e1, s1⟩ := m.sym hs
          rcases sl_two p.o0 ((oriW c).d3 (m.wo p.o0)) s1 with k | k | k
          · grind
          · obtain ⟨rfl, rfl, rfl⟩ := k
            have := m.uniq s1 p.o4
            have k := p.h4 t this.2.1.symm
            have := m.uniq hs k
            obtain ⟨rfl, -, -⟩ := this
            exact ⟨_, _, r.q4 (by simp_all)⟩
          · obtain ⟨rfl, rfl, rfl⟩ := k
            have := m.uniq s1 p.o3
            have k := p.h3 t this.2.1.symm
            have := m.uniq hs k
            obtain ⟨rfl, -, -⟩ := this
            exact ⟨_, _, r.q3 (by simp_all)⟩
      exact hval hs'
    · exact hval (r.rest hs h1 h2 (fun h => hn (.inl h)) (fun h => hn (.inr h)))
  rw [hv, hv, hl]
  have lt := p.s0.lt
  have lo := p.o0.lt
  have e1 : ∀ g : Nat → Rat, ∑ t ∈ Finset.range M.length, g t = g F.t + (g F.ot + ∑ t ∈ ((Finset.range M.length).erase F.t).erase F.ot, g t) := by
    intro g
    rw [← Finset.add_sum_erase _ g (Finset.mem_range.2 lt),
      ← Finset.add_sum_erase _ g (Finset.mem_erase.2 ⟨tot.symm, Finset.mem_range.2 lo⟩)]
  rw [e1 (val M'), e1 (val M), hval p.s0, hval p.o0, hval r.r0, hval r.r0']
  have e2 : ∑ t ∈ ((Finset.range M.length).erase F.t).erase F.ot, val M' t = ∑ t ∈ ((Finset.range M.length).erase F.t).erase F.ot, val M t := by
    refine Finset.sum_congr rfl fun t ht => ?_
    simp only [Finset.mem_erase, Finset.mem_range] at ht
    exact hsame t ht.2.2 ht.2.1 ht.1
  rw [e2]; ring

/-- The corners of the other triangles stay. -/
theorem area_sum (M : Store) : meshArea2 c.points M = triSum (fun i j k => det2 (c.pos i) (c.pos j) (c.pos k)) M := by
  unfold meshArea2 triSum area2
  congr 1

theorem corners_sl {t u v w : Nat} : Corners M t u v w ↔ ∃ n e, Sl M t u v w n e := by
  constructor
  · rintro ⟨T, i, h, rfl, rfl, rfl⟩; exact ⟨_, _, sl_corner h i⟩
  · rintro ⟨n, e, h⟩
    obtain ⟨T, i, k1, k2, k3, k4, -⟩ := h.at
    exact ⟨T, i, k1, k2, k3, k4⟩

theorem facing_sl {t p a b ot op : Nat} : FacingAt M t p a b ot op ↔ ∃ e f, Sl M t p a b (some ot) e ∧ Sl M ot op b a (some t) f := by
  constructor
  · rintro ⟨i, j, T, O, hl, hT, hO, rfl, rfl, rfl, rfl⟩
    exact ⟨_, _, hl.sl hT hO⟩
  · rintro ⟨e, f, h, h'⟩
    obtain ⟨T, i, k1, k2, k3, k4, k5, k6⟩ := h.at
    obtain ⟨X, j, l1, l2, l3, l4, l5, l6⟩ := h'.at
    exact ⟨i, j, T, X, ⟨T, X, k1, l1, k5, l5, by rw [k3, l4], by rw [k4, l3]⟩, k1, l1, k2, k3, k4, l2⟩

theorem convexAt_iff {p a b op : Nat} : ConvexAt c.points p a b op ↔ Convex c p a b op := by
  unfold ConvexAt Convex; simp only [ptOf_pos]

/-- Corners of other triangles survive a flip. -/
theorem Flip.Rel.others {F : Flip} (r : F.Rel M M') (p : F.Pre c.W M) (m : MeshOk c.W M) {t w u v : Nat} (h1 : t ≠ F.t) (h2 : t ≠ F.ot)
    (h : Corners M t w u v) : Corners M' t w u v := by
  rw [corners_sl] at *
  obtain ⟨n, e, hs⟩ := h
  by_cases hn : n = some F.t ∨ n = some F.ot
  · rcases hn with rfl | rfl
    · obtain ⟨w1, e1, s1⟩ := m.sym hs
      rcases sl_two p.s0 ((oriW c).d3 (m.wo p.s0)) s1 with k | k | k
      · grind
      · obtain ⟨rfl, rfl, rfl⟩ := k
        have := m.uniq s1 p.s2
        have k := p.h2 t this.2.1.symm
        have := m.uniq hs k
        obtain ⟨rfl, -, -⟩ := this
        exact ⟨_, _, r.q2 (by simp_all)⟩
      · obtain ⟨rfl, rfl, rfl⟩ := k
        have := m.uniq s1 p.s1
        have k := p.h1 t this.2.1.symm
        have := m.uniq hs k
        obtain ⟨rfl, -, -⟩ := this
        exact ⟨_, _, r.q1 (by simp_all)⟩
    · obtain ⟨w1, e1, s1⟩ := m.sym hs
      rcases sl_two p.o0 ((oriW c).d3 (m.wo p.o0)) s1 with k | k | k
      · grind
      · obtain ⟨rfl, rfl, rfl⟩ := k
        have := m.uniq s1 p.o4
        have k := p.h4 t this.2.1.symm
        have := m.uniq hs k
        obtain ⟨rfl, -, -⟩ := this
        exact ⟨_, _, r.q4 (by simp_all)⟩
      · obtain ⟨rfl, rfl, rfl⟩ := k
        have := m.uniq s1 p.o3
        have k := p.h3 t this.2.1.symm
        have := m.uniq hs k
        obtain ⟨rfl, -, -⟩ := this
        exact ⟨_, _, r.q3 (by simp_all)⟩
  · exact ⟨_, _, r.rest hs h1 h2 (fun h => hn (.inl h)) (fun h => hn (.inr h))⟩

/-- Flipping the diagonal of a convex quadrilateral in a consistent mesh. -/
theorem flip_spec (m : MeshOk c.W M) {t p a b ot op : Nat} (h : FacingAt M t p a b ot op) (hc : ConvexAt c.points p a b op) :
    ∃ M' need, Store.rotatePair M t p ot op = .ok (M', need) ∧ Flipped c.points M M' t p a b ot op := by
  obtain ⟨e, f, s0, o0⟩ := facing_sl.1 h
  rw [convexAt_iff] at hc
  have w1 := m.wo s0
  have w2 := m.wo o0
  obtain ⟨F, rfl, rfl, rfl, rfl, rfl, rfl, rfl, rfl, hp⟩ := mkFlip m s0 o0 (w1 := ⟨⟨w1.1.1, w2.1.1, w1.1.2.2⟩, .inl hc.1⟩)
    (w2 := ⟨⟨w1.1.1, w1.1.2.1, w2.1.1⟩, .inl hc.2⟩)
  obtain ⟨M', h1, h2, h3, -⟩ := rotatePair_spec (oriW c) m hp
  have m' := m.flip hp h2
  refine ⟨M', _, h1, m'.consistent, m'.oriented, facing_sl.2 ⟨_, _, h2.r0, h2.r0'⟩, fun x hx hx' u v w => h2.others hp m hx hx', h3, ?_⟩
  rw [area_sum, area_sum]
  have := h2.triSum hp m h3 (fun i j k => det2 (c.pos i) (c.pos j) (c.pos k)) (fun a b d => det2_rot _ _ _)
  have e1 : det2 (c.pos F.p) (c.pos F.a) (c.pos F.b) + det2 (c.pos F.op) (c.pos F.b) (c.pos F.a) =
      det2 (c.pos F.b) (c.pos F.p) (c.pos F.op) + det2 (c.pos F.a) (c.pos F.op) (c.pos F.p) := by unfold det2; ring
  linarith

/-- The test of one edge in `legalize`, for any consistent mesh. -/
theorem illegalAt_ok (m : MeshOk c.W M) {t : Nat} {T : Tri} (hT : M[t]? = some T) (i : Fin 3) :
    illegalAt c M t i = .ok none ∨
    (∃ p a b ot op e0 f0, illegalAt c M t i = .ok (some (p, ot, op)) ∧ Sl M t p a b (some ot) e0 ∧
      Sl M ot op b a (some t) f0 ∧ e0.isConstrained = false ∧
      0 < inCircleDet (c.pos p) (c.pos a) (c.pos b) (c.pos op)) := by
  have a := sl_at hT i
  simp only [illegalAt, getU_ok.2 hT, ok_bind]
  by_cases hc : (T.isConstrained i || T.isDelaunay i) = true
  · left
    rw [if_pos hc]; rfl
  · rw [if_neg hc]
    cases hn : T.neighbors.get i with
    | none => exact .inl rfl
    | some ot =>
      rw [hn] at a
      obtain ⟨op, f0, o⟩ := m.sym a
      obtain ⟨O, hO⟩ : ∃ O, M[ot]? = some O := ⟨_, List.getElem?_eq_getElem o.lt⟩
      obtain ⟨T', n1, n2, e1, e2, k, vT⟩ := a.view
      rw [hT] at k; cases k
      obtain ⟨O', n1', n2', e1', e2', k', vO⟩ := o.view
      rw [hO] at k'; cases k'
      have d := (oriW c).d3 (m.wo a)
      have d' := (oriW c).d3 (m.wo o)
      have q0 : O.oppositePoint T (T.points.get i) = .ok op := by
        simp only [Tri.oppositePoint, vT.pointCw d, ok_bind]
        exact vO.rot.pointCw (d'.rot)
      have w1 := (m.wo a).1
      have w2 := (m.wo o).1
      simp only [getU_ok.2 hO, ok_bind, q0, vT.pointCcw d, vT.pointCw d, Ctx.pt_ok w1.1, Ctx.pt_ok w1.2.1,
        Ctx.pt_ok w1.2.2, Ctx.pt_ok w2.1]
      by_cases hi : inCircle (c.pos (T.points.get i)) (c.pos (T.points.get (i + 1))) (c.pos (T.points.get (i + 2))) (c.pos op) = true
      · rw [if_pos hi]
        right
        refine ⟨_, _, _, _, _, _, _, rfl, a, o, ?_, ?_⟩
        · simp only [Bool.or_eq_true, not_or] at hc
          exact Bool.eq_false_iff.2 hc.1
        · simpa [inCircle] using hi
      · rw [if_neg hi]
        exact .inl rfl

end

end P2T
