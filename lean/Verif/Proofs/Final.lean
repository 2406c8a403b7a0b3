import Mathlib.Data.List.Perm.Subperm
import Verif.Proofs.SweepInv

/-!
# Start and end of a run
-/

set_option linter.unusedSectionVars false

namespace P2T

variable {c : Ctx} {K : Prop} {Q : Nat → Prop}

/-! ## Finalization -/

/-- In a triangle that contains `p` the edge ending at `p` is determined. -/
theorem MeshInv.into_uniq {ts : Store} (m : MeshInv c K Q ts) {t p w u n e w' u' n' e'} (a : Sl ts t w u p n e)
    (b : Sl ts t w' u' p n' e') : n = n' := by
  obtain ⟨T, n1, n2, e1, e2, hT, v⟩ := a.view
  have d := (oriW c).d3 (m.wo a)
  have := (sl_iff_of_view hT v ..).1 b
  obtain ⟨d1, d2, d3⟩ := d
  grind

/-- The walk so far around `p`, newest triangle first. -/
inductive Walk (ts : Store) (p : Nat) : List Nat → Prop
  | start {t w u e} : Sl ts t w u p none e → Walk ts p [t]
  | step {t x l w u e} : Walk ts p (t :: l) → Sl ts x w u p (some t) e → Walk ts p (x :: t :: l)

theorem Walk.last {ts : Store} {p : Nat} : ∀ {V : List Nat}, Walk ts p V → ∀ x ∈ V,
    (∃ w u e, Sl ts x w u p none e) ∨ ∃ l1 z l2 w u e, V = l1 ++ x :: z :: l2 ∧ Sl ts x w u p (some z) e
  | _, .start h, x, hx => by
    simp only [List.mem_singleton] at hx; subst hx; exact .inl ⟨_, _, _, h⟩
  | _, .step (t := t) (l := l) h hs, x, hx => by
    rcases List.mem_cons.1 hx with rfl | hx
    · exact .inr ⟨[], t, l, _, _, _, rfl, hs⟩
    · rcases Walk.last h x hx with k | ⟨l1, z, l2, w, u, e, k1, k2⟩
      · exact .inl k
      · exact .inr ⟨_ :: l1, z, l2, w, u, e, by rw [k1]; rfl, k2⟩

theorem nodup_bound {V : List Nat} {n : Nat} (hn : V.Nodup) (hl : ∀ x ∈ V, x < n) : V.length ≤ n := by
  have := (List.Nodup.subperm hn (l₂ := List.range n) fun x hx => List.mem_range.2 (hl x hx)).length_le
  simpa using this

/-- The search for the start triangle finds a triangle or leaves the mesh; it needs no more rounds than there
are triangles. -/
theorem findInterior_total {ts : Store} (m : MeshInv c K Q ts) {p : Nat} : ∀ (fuel : Nat) {t : Nat} {l : List Nat},
    Walk ts p (t :: l) → (t :: l).Nodup → (∀ x ∈ t :: l, x < ts.length) →
    Spec (findInterior ts p fuel (some t)) (fun e => e = .fuel ∧ fuel + l.length ≤ ts.length)
      fun r => ∀ u, r = some u → u < ts.length
  | 0, t, l, hw, hn, hl => by
    have := nodup_bound hn hl
    simp only [List.length_cons] at this
    simp only [findInterior]
    exact Spec.error ⟨rfl, by omega⟩
  | fuel + 1, t, l, hw, hn, hl => by
    have hlen := nodup_bound hn hl
    simp only [List.length_cons] at hlen
    obtain ⟨w, u, n0, e0, hs⟩ : ∃ w u n e, Sl ts t w u p n e := by
      cases hw with
      | start h => exact ⟨_, _, _, _, h⟩
      | step _ h => exact ⟨_, _, _, _, h⟩
    obtain ⟨T, n1, n2, e1, e2, hT, v⟩ := hs.view
    have d := (oriW c).d3 (m.wo hs)
    have v' := v.rot.rot
    have d' := d.rot.rot
    simp only [V3.rot] at v'
    simp only [findInterior, Store.get, getU_ok.2 hT, ok_bind, pure_ok, v'.constrainedEdgeCw d']
    split
    · exact Spec.ok (by rintro u ⟨⟩; exact hl _ (by simp))
    · simp only [v'.neighborCcw d', ok_bind]
      cases hn1 : n1 with
      | none =>
        cases fuel with
        | zero => simp only [findInterior]; exact Spec.error ⟨rfl, by omega⟩
        | succ f => simp only [findInterior, Store.get, ok_bind]; exact Spec.ok (by simp)
      | some x =>
        subst hn1
        obtain ⟨w', e', hx⟩ := m.sym (t := t) (w := u) (u := p) (v := w) ⟨T, hT, v'.slot2⟩
        have hxV : x ∉ t :: l := by
          intro hm
          rcases hw.last x hm with ⟨w1, u1, e3, k⟩ | ⟨l1, z, l2, w1, u1, e3, k1, k2⟩
          · have := m.into_uniq hx k; cases this
          · have := m.into_uniq hx k2
            cases this
            cases l1 with
            | nil =>
              simp only [List.nil_append, List.cons.injEq] at k1
              rw [k1.2, k1.1] at hn
              simp at hn
            | cons y l1 =>
              simp only [List.cons_append, List.cons.injEq] at k1
              rw [k1.2] at hn
              simp at hn
        have := findInterior_total m fuel (Walk.step hw hx) (List.nodup_cons.2 ⟨hxV, hn⟩) (by
          intro y hy
          rcases List.mem_cons.1 hy with rfl | hy
          · exact hx.lt
          · exact hl y hy)
        refine this.monoE ?_
        rintro e ⟨h1, h2⟩
        simp only [List.length_cons] at h2
        exact ⟨h1, by omega⟩

/-- Triangles not yet marked interior. -/
def unmarked (ts : Store) : Nat := (ts.filter fun T => !T.interior).length

theorem unmarked_set {ts : Store} {t : Nat} {T : Tri} (h : ts[t]? = some T) (hi : T.interior = false) :
    unmarked (ts.set t { T with interior := true }) + 1 = unmarked ts := by
  unfold unmarked
  induction ts generalizing t with
  | nil => simp at h
  | cons x ts ih =>
    cases t with
    | zero => simp at h; subst h; simp [hi]
    | succ t =>
      simp only [List.getElem?_cons_succ] at h
      have := ih h
      simp only [List.set_cons_succ, List.filter_cons]
      split <;> [simp only [List.length_cons]; skip] <;> omega

theorem cleanPushes_length (T : Tri) (t : Nat) (f : Option Nat) : (cleanPushes T t f).length ≤ 3 := by
  have := List.length_filterMap_le (fun i => if T.isConstrained i then none
    else if T.neighbors.get i = f then none
    else some (T.neighbors.get i, some t)) ([0, 1, 2] : List (Fin 3))
  exact this

/-- The flood fill never panics and visits every triangle at most once. -/
theorem cleanMesh_total : ∀ (fuel : Nat) {ts : Store} {res : List Nat} {stack : List (Option Nat × Option Nat)},
    (∀ x ∈ stack, ∀ u, x.1 = some u → u < ts.length) →
    (∀ T ∈ ts, ∀ i u, T.neighbors.get i = some u → u < ts.length) →
    Spec (cleanMesh fuel ts res stack) (fun e => e = .fuel ∧ fuel < stack.length + 3 * unmarked ts) fun _ => True
  | fuel, ts, res, [], _, _ => by unfold cleanMesh; exact Spec.ok trivial
  | 0, ts, res, _ :: _, _, _ => by unfold cleanMesh; exact Spec.error ⟨rfl, by simp⟩
  | fuel + 1, ts, res, (t, fromT) :: stack, hst, hnb => by
    unfold cleanMesh
    cases t with
    | none =>
      refine (cleanMesh_total fuel (fun x hx => hst x (by simp [hx])) hnb).monoE ?_
      rintro e ⟨h1, h2⟩; exact ⟨h1, by simp only [List.length_cons]; omega⟩
    | some t =>
      have ht := hst (some t, fromT) (by simp) t rfl
      simp only [List.getElem?_eq_getElem ht]
      cases hi : ts[t].interior with
      | true =>
        simp only [if_true]
        refine (cleanMesh_total fuel (fun x hx => hst x (by simp [hx])) hnb).monoE ?_
        rintro e ⟨h1, h2⟩; exact ⟨h1, by simp only [List.length_cons]; omega⟩
      | false =>
        simp only [Bool.false_eq_true, if_false]
        have hget : ts[t]? = some ts[t] := List.getElem?_eq_getElem ht
        refine (cleanMesh_total fuel ?_ ?_).monoE ?_
        · intro x hx u hu
          rw [List.length_set]
          rcases List.mem_append.1 hx with hx | hx
          · rw [List.mem_reverse, mem_cleanPushes] at hx
            obtain ⟨i, -, -, rfl⟩ := hx
            exact hnb _ (List.getElem_mem ht) i u hu
          · exact hst x (by simp [hx]) u hu
        · intro T hT i u hu
          rw [List.length_set]
          rcases List.mem_or_eq_of_mem_set hT with hT | rfl
          · exact hnb T hT i u hu
          · exact hnb _ (List.getElem_mem ht) i u hu
        · rintro e ⟨h1, h2⟩
          refine ⟨h1, ?_⟩
          have h3 := unmarked_set hget hi
          have h4 := cleanPushes_length ts[t] t fromT
          simp only [List.length_append, List.length_reverse, List.length_cons] at h2 ⊢
          omega

theorem unmarked_le (ts : Store) : unmarked ts ≤ ts.length := List.length_filter_le ..

theorem MeshInv.nbr {ts : Store} (m : MeshInv c K Q ts) {T : Tri} (hT : T ∈ ts) (i : Fin 3) {u : Nat} (h : T.neighbors.get i = some u) :
    u < ts.length := by
  obtain ⟨t, ht⟩ := List.mem_iff_getElem?.1 hT
  have := sl_at ht i
  rw [h] at this
  obtain ⟨_, _, k⟩ := m.sym this
  exact k.lt

/-- Finalization never fails if the bound is large enough. -/
theorem finalize_total {s : St} {g : Trap} {done : List Nat} (h : Swept c K g done s) (fuel : Nat) :
    Spec (finalizePolygon fuel s) (fun e => e = .fuel ∧ fuel ≤ 3 * s.tris.length) fun s' => SameMesh s.tris s'.tris := by
  obtain ⟨l, hl⟩ := h.inv.front.headP
  obtain ⟨l', hl'⟩ := h.inv.front.tailP
  obtain ⟨v, -, hv, hvh, hvt⟩ := h.top
  have : ∃ p x R, s.front.pids = [c.head] ++ p :: x :: R := by
    rw [hl] at hv hl'
    rcases List.mem_cons.1 hv with rfl | hv
    · exact (hvh rfl).elim
    cases l with
    | nil => cases hv
    | cons p l =>
      cases l with
      | nil =>
        simp only [List.mem_singleton] at hv; subst hv
        have := congrArg List.getLast? hl'
        simp only [List.getLast?_append, List.getLast?_singleton] at this
        simp at this
        exact (hvt this).elim
      | cons x R => exact ⟨p, x, R, hl⟩
  obtain ⟨p, x, R, hs⟩ := this
  obtain ⟨r, hr, hn⟩ := h.inv.front.ref hs
  obtain ⟨t, ht, w, e, hbd⟩ := hr.tri h.inv.bd
  unfold finalizePolygon
  have hn1 : s.front.nth 1 = some r := hn
  simp only [hn1, ht]
  have hp := hr.pid
  rw [hp]
  refine Spec.bind ((findInterior_total h.inv.mesh fuel (Walk.start hbd) (by simp) (by simpa using hbd.lt)).monoE ?_) ?_
  · rintro e ⟨h1, h2⟩; simp only [List.length_nil] at h2; exact ⟨h1, by omega⟩
  · intro o ho
    cases o with
    | none => exact Spec.ok (.refl _)
    | some u =>
      have hu := ho u rfl
      refine Spec.bind (R := fun r => SameMesh s.tris r.1) ?_ ?_
      · refine ((cleanMesh_total fuel (ts := s.tris) (res := s.result) (stack := [(some u, none)]) ?_ ?_).withEq.mono ?_).monoE ?_
        · intro y hy z hz
          simp only [List.mem_singleton] at hy; subst hy; cases hz; exact hu
        · intro T hT i z hz
          exact h.inv.mesh.nbr hT i hz
        · rintro r ⟨-, hr⟩
          rw [h.base.result] at hr
          exact (cleanMesh_spec h.base.inter hr).same
        · rintro e ⟨h1, h2⟩
          have := unmarked_le s.tris
          simp only [List.length_singleton] at h2
          exact ⟨h1, by omega⟩
      · rintro ⟨ts, res⟩ h1
        exact Spec.ok h1

end P2T
