import Verif.Proofs.FlipSpec
import Mathlib.Algebra.BigOperators.Group.Finset.Basic
import Mathlib.Algebra.BigOperators.Group.Finset.Sigma
import Mathlib.Data.Fintype.Prod

/-!
# The boundary of a mesh

In a consistent mesh the sum of an antisymmetric function over all half-edges is its sum over the boundary:
the half-edges of the other edges cancel.
-/

namespace P2T

/-- What is left of `FrontBounds` when the triangles that the front nodes record are forgotten. -/
structure Bounded (left right : Nat) (M : Store) (nodes : List Node) : Prop where
  below : ∀ a b, Consecutive nodes a b → ∃ T ∈ M, ∃ i, T.neighbors.get i = none ∧ T.from i = b.pid ∧ T.to i = a.pid
  bottom : ∃ T ∈ M, ∃ i, T.neighbors.get i = none ∧ T.from i = left ∧ T.to i = right
  only : ∀ T ∈ M, ∀ i, T.neighbors.get i = none → (T.from i = left ∧ T.to i = right) ∨
    ∃ a b, Consecutive nodes a b ∧ T.from i = b.pid ∧ T.to i = a.pid
  once : ∀ (t : Nat) (T : Tri) (i : Fin 3) (t' : Nat) (T' : Tri) (i' : Fin 3), M[t]? = some T → M[t']? = some T' → T.neighbors.get i = none → T'.neighbors.get i' = none →
    T.from i = T'.from i' → T.to i = T'.to i' → t = t'

theorem FrontBounds.bounded {left right : Nat} {M : Store} {nodes : List Node} (h : FrontBounds left right M nodes) :
    Bounded left right M nodes := by
  refine ⟨fun a b hab => ?_, h.bottom, h.only, h.once⟩
  obtain ⟨t, T, i, -, h1, h2, h3, h4⟩ := h.below a b hab
  exact ⟨T, List.mem_of_getElem? h1, i, h2, h3, h4⟩

theorem BInv.bounded {c : Ctx} {P} {M : Store} {nodes : List Node} (h : BInv c P M nodes) : Bounded c.head c.tail M nodes := by
  refine ⟨?_, ?_, ?_, ?_⟩
  · intro a b hab
    obtain ⟨t, ⟨w, e, s⟩, -⟩ := h.fr (fedges_consec.2 ⟨a, b, hab, rfl, rfl, rfl⟩)
    obtain ⟨T, i, k1, k2, k3, k4, k5, k6⟩ := s.at
    exact ⟨T, List.mem_of_getElem? k1, i, k5, k3, k4⟩
  · obtain ⟨t, w, e, s⟩ := h.bot
    obtain ⟨T, i, k1, k2, k3, k4, k5, k6⟩ := s.at
    exact ⟨T, List.mem_of_getElem? k1, i, k5, k3, k4⟩
  · intro T hT i hn
    obtain ⟨t, hT⟩ := List.mem_iff_getElem?.1 hT
    have s := sl_corner hT i
    rw [hn] at s
    rcases h.cov ⟨_, _, s⟩ with k | ⟨τ, k, -⟩
    · exact .inl k
    · obtain ⟨a, b, hab, h1, h2, h3⟩ := fedges_consec.1 k
      exact .inr ⟨a, b, hab, h3.symm, h1.symm⟩
  · intro t T i t' T' i' h1 h2 h3 h4 h5 h6
    have s := sl_corner h1 i
    have s' := sl_corner h2 i'
    rw [h3] at s; rw [h4] at s'
    refine h.uniq (u := T.from i) (v := T.to i) ⟨_, _, s⟩ ?_
    rw [h5, h6]
    exact ⟨_, _, s'⟩

/-- The pairs of neighbours in a list. -/
def pairs {α} (l : List α) : List (α × α) := l.zip l.tail

theorem mem_pairs {α} : ∀ {l : List α} {a b : α}, (a, b) ∈ pairs l ↔ Consecutive l a b
  | [], a, b => by simp [pairs, Consecutive]
  | [x], a, b => by
    simp only [pairs, List.tail_cons, List.zip_nil_right, List.not_mem_nil, Consecutive, false_iff]
    rintro ⟨L, R, h⟩
    have := congrArg List.length h
    simp at this
    omega
  | x :: y :: l, a, b => by
    have ih := mem_pairs (l := y :: l) (a := a) (b := b)
    have e : pairs (x :: y :: l) = (x, y) :: pairs (y :: l) := rfl
    rw [e, List.mem_cons, ih]
    constructor
    · rintro (h | ⟨L, R, h⟩)
      · cases h; exact ⟨[], l, rfl⟩
      · exact ⟨x :: L, R, by rw [h]; rfl⟩
    · rintro ⟨L, R, h⟩
      rcases L with _ | ⟨z, L⟩
      · simp only [List.nil_append, List.cons.injEq] at h
        left; rw [h.1, h.2.1]
      · simp only [List.cons_append, List.cons.injEq] at h
        exact .inr ⟨L, R, h.2⟩

theorem pairs_sub {α} : ∀ l : List α, ((pairs l).map Prod.fst).Sublist l
  | [] => by simp [pairs]
  | [x] => by simp [pairs]
  | x :: y :: l => by
    have e : pairs (x :: y :: l) = (x, y) :: pairs (y :: l) := rfl
    rw [e, List.map_cons]
    exact (pairs_sub (y :: l)).cons_cons x

section
variable {size : Nat} {M : Store} {nodes : List Node} {left right : Nat}

/-- The half-edges of a mesh. -/
abbrev HE (M : Store) := Fin M.length × Fin 3

def HE.src (h : HE M) : Nat := M[h.1].from h.2
def HE.dst (h : HE M) : Nat := M[h.1].to h.2
def HE.nbr (h : HE M) : Option Nat := M[h.1].neighbors.get h.2

/-- Every closed half-edge has a twin. -/
theorem HE.twin (hc : Consistent size M) : ∀ h : HE M, h.nbr ≠ none → ∃ g : HE M, h.nbr = some g.1.1 ∧ g.nbr = some h.1.1 ∧ g.1 ≠ h.1 ∧ g.src = h.dst ∧ g.dst = h.src := by
    intro h hn
    obtain ⟨x, hx⟩ := Option.ne_none_iff_exists'.1 hn
    obtain ⟨hne, j, T, X, h1, h2, h3, h4, h5, h6⟩ := hc.linked h.1 M[h.1] h.2 x (by simp) hx
    have lx := (List.getElem?_eq_some_iff.1 h2).1
    have eX : M[x] = X := by simpa [List.getElem?_eq_getElem lx] using h2
    have eT : M[h.1] = T := by simpa using h1
    refine ⟨(⟨x, lx⟩, j), hx, ?_, ?_, ?_, ?_⟩
    · simpa [HE.nbr, eX] using h4
    · intro e; exact hne (congrArg Fin.val e)
    · simp only [HE.src, HE.dst]
      rw [eT]; simpa [eX] using h6.symm
    · simp only [HE.src, HE.dst]
      rw [eT]; simpa [eX] using h5.symm

/-- What changes sign from a half-edge to its twin cancels. -/
theorem closed_cancel (hc : Consistent size M) (ψ : HE M → Rat) (hψ : ∀ h g : HE M, h.nbr = some g.1.1 → g.nbr = some h.1.1 →
      g.src = h.dst → g.dst = h.src → ψ h + ψ g = 0) : ∑ h : HE M with h.nbr ≠ none, ψ h = 0 := by
  have key := HE.twin hc (M := M)
  classical
  let g : HE M → HE M := fun h => if hn : h.nbr ≠ none then (key h hn).choose else h
  have hg : ∀ h : HE M, h.nbr ≠ none → h.nbr = some (g h).1.1 ∧ (g h).nbr = some h.1.1 ∧ (g h).1 ≠ h.1 ∧ (g h).src = h.dst ∧ (g h).dst = h.src := by
    intro h hn
    have := (key h hn).choose_spec
    simp only [g, dif_pos hn]
    exact this
  refine Finset.sum_involution (fun h _ => g h) ?_ ?_ ?_ ?_
  · intro h hh
    have := hg h (by simpa using hh)
    exact hψ _ _ this.1 this.2.1 this.2.2.2.1 this.2.2.2.2
  · intro h hh _ e
    exact (hg h (by simpa using hh)).2.2.1 (congrArg Prod.fst e)
  · intro h hh
    have := hg h (by simpa using hh)
    simp [this.2.1]
  · intro h hh
    have h1 := hg h (by simpa using hh)
    have h2 := hg (g h) (by simp [h1.2.1])
    have e1 : (g (g h)).1 = h.1 := by
      have := h1.2.1.symm.trans h2.1
      simp only [Option.some.injEq] at this
      exact (Fin.ext this).symm
    have e2 : (g (g h)).2 = h.2 := by
      refine hc.once M[h.1] (by simp) _ _ (g h).1 ?_ h1.1
      have := h2.2.1
      unfold HE.nbr at this
      simp only [e1] at this
      exact this
    exact Prod.ext e1 e2

theorem closed_sum (hc : Consistent size M) (φ : Nat → Nat → Rat) (hφ : ∀ u v, φ v u = - φ u v) :
    ∑ h : HE M with h.nbr ≠ none, φ h.src h.dst = 0 :=
  closed_cancel hc (fun h => φ h.src h.dst) fun h g _ _ h1 h2 => by rw [h1, h2, hφ h.src h.dst]; ring

theorem open_sum (hc : Consistent size M) (hb : Bounded left right M nodes) (hn : (nodes.map (·.pid)).Nodup)
    (hlr : ∀ a b, Consecutive nodes a b → ¬ (b.pid = left ∧ a.pid = right)) (φ : Nat → Nat → Rat) :
    ∑ h : HE M with ¬ h.nbr ≠ none, φ h.src h.dst = φ left right + ((pairs nodes).map fun x => φ x.2.pid x.1.pid).sum := by
  classical
  let E : HE M → Nat × Nat := fun h => (h.src, h.dst)
  have inj : Set.InjOn E ((Finset.univ.filter fun h : HE M => ¬ h.nbr ≠ none : Finset (HE M)) : Set (HE M)) := by
    intro h h1 g g1 e
    simp only [Finset.coe_filter, Finset.mem_univ, true_and, not_not, Set.mem_ofPred_eq] at h1 g1
    simp only [E, Prod.mk.injEq] at e
    have e1 : h.1 = g.1 := Fin.ext (hb.once h.1 M[h.1] h.2 g.1 M[g.1] g.2 (by simp) (by simp) h1 g1 e.1 e.2)
    have e2 : h.2 = g.2 := by
      by_contra hne
      have e3 := e.1
      simp only [HE.src, Tri.from, ← e1] at e3
      exact hc.different M[h.1] (by simp) _ _ (by revert hne; generalize h.2 = a; generalize g.2 = b; revert a b; decide) e3
    exact Prod.ext e1 e2
  have img : (Finset.univ.filter fun h : HE M => ¬ h.nbr ≠ none).image E =
      insert (left, right) ((pairs nodes).map fun x => (x.2.pid, x.1.pid)).toFinset := by
    ext ⟨u, v⟩
    simp only [Finset.mem_image, Finset.mem_filter, Finset.mem_univ, true_and, not_not, Finset.mem_insert, List.mem_toFinset, List.mem_map,
      Prod.mk.injEq, Prod.exists, E]
    constructor
    · rintro ⟨t, i, h1, rfl, rfl⟩
      rcases hb.only M[t] (by simp) i h1 with k | ⟨a, b, k1, k2, k3⟩
      · exact .inl k
      · exact .inr ⟨a, b, mem_pairs.2 k1, k2.symm, k3.symm⟩
    · have get : ∀ T ∈ M, ∃ t : Fin M.length, M[t] = T := by
        intro T hT
        obtain ⟨t, ht, e⟩ := List.getElem_of_mem hT
        exact ⟨⟨t, ht⟩, e⟩
      rintro (⟨rfl, rfl⟩ | ⟨a, b, k1, rfl, rfl⟩)
      · obtain ⟨T, hT, i, h1, h2, h3⟩ := hb.bottom
        obtain ⟨t, rfl⟩ := get T hT
        exact ⟨t, i, h1, h2, h3⟩
      · obtain ⟨T, hT, i, h1, h2, h3⟩ := hb.below a b (mem_pairs.1 k1)
        obtain ⟨t, rfl⟩ := get T hT
        exact ⟨t, i, h1, h2, h3⟩
  have nd : ((pairs nodes).map fun x => (x.2.pid, x.1.pid)).Nodup := by
    have : (((pairs nodes).map fun x => (x.2.pid, x.1.pid)).map Prod.snd).Nodup := by
      rw [List.map_map]
      have e : (pairs nodes).map (Prod.snd ∘ fun x => (x.2.pid, x.1.pid)) = ((pairs nodes).map Prod.fst).map (·.pid) := by
        rw [List.map_map]; rfl
      rw [e]
      exact hn.sublist ((pairs_sub nodes).map _)
    exact List.Nodup.of_map _ this
  have nl : (left, right) ∉ ((pairs nodes).map fun x => (x.2.pid, x.1.pid)).toFinset := by
    simp only [List.mem_toFinset, List.mem_map, Prod.mk.injEq, Prod.exists, not_exists]
    rintro a b ⟨h1, h2, h3⟩
    exact hlr a b (mem_pairs.1 h1) ⟨h2, h3⟩
  have s1 : ∑ h : HE M with ¬ h.nbr ≠ none, φ h.src h.dst = ∑ e ∈ (Finset.univ.filter fun h : HE M => ¬ h.nbr ≠ none).image E, φ e.1 e.2 := by
    rw [Finset.sum_image inj]
  rw [s1, img, Finset.sum_insert nl, List.sum_toFinset _ nd, List.map_map]
  rfl

/-- The sum over the triangles is the sum over the boundary. -/
theorem boundary_sum (hc : Consistent size M) (hb : Bounded left right M nodes) (hn : (nodes.map (·.pid)).Nodup)
    (hlr : ∀ a b, Consecutive nodes a b → ¬ (b.pid = left ∧ a.pid = right)) (φ : Nat → Nat → Rat) (hφ : ∀ u v, φ v u = - φ u v) :
    triSum (fun a b d => φ a b + φ b d + φ d a) M = φ left right + ((pairs nodes).map fun x => φ x.2.pid x.1.pid).sum := by
  rw [← open_sum hc hb hn hlr φ]
  have h1 := Finset.sum_filter_add_sum_filter_not (Finset.univ : Finset (HE M)) (fun h => h.nbr ≠ none) (fun h => φ h.src h.dst)
  rw [closed_sum hc φ hφ, zero_add] at h1
  rw [h1, triSum_fin, Fintype.sum_prod_type]
  refine Finset.sum_congr rfl fun t _ => ?_
  rw [Fin.sum_univ_three]
  simp only [HE.src, HE.dst, Tri.from, Tri.to]
  show _ = φ M[t].points.b M[t].points.c + φ M[t].points.c M[t].points.a + φ M[t].points.a M[t].points.b
  ring

end

end P2T
