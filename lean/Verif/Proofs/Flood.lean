import Verif.Proofs.Evolve

/-!
# The flood fill `clean_mesh`
-/

namespace P2T

/-- Specification: from triangle `t` one can step to `u` across an edge that is not constrained. -/
def OpenStep (ts : Store) (t u : Nat) : Prop :=
  ∃ T, ts[t]? = some T ∧ ∃ i : Fin 3, T.isConstrained i = false ∧ T.neighbors.get i = some u

/-- Specification: reachable from `t` without crossing a constrained edge. -/
inductive Reach (ts : Store) (t : Nat) : Nat → Prop
  | refl : Reach ts t t
  | step {u v : Nat} : Reach ts t u → OpenStep ts u v → Reach ts t v

/-- Equal up to interior marks. -/
def SameMesh (ts ts' : Store) : Prop :=
  ts'.length = ts.length ∧ ∀ (i : Nat) (T T' : Tri), ts[i]? = some T → ts'[i]? = some T' →
    T'.points = T.points ∧ T'.neighbors = T.neighbors ∧ T'.attrs = T.attrs

theorem SameMesh.refl (ts : Store) : SameMesh ts ts := ⟨rfl, fun i T T' h h' => by rw [h] at h'; cases h'; simp⟩

structure FloodInv (ts0 : Store) (start : Nat) (ts : Store) (res : List Nat) (stack : List (Option Nat × Option Nat)) :
    Prop where
  same : SameMesh ts0 ts
  mark : ∀ u T, ts[u]? = some T → (T.interior = true ↔ u ∈ res)
  lt : ∀ u ∈ res, u < ts.length
  nodup : res.Nodup
  reach : ∀ u ∈ res, Reach ts0 start u
  stackReach : ∀ x ∈ stack, ∀ u, x.1 = some u → Reach ts0 start u
  closed : ∀ u ∈ res, ∀ v, OpenStep ts0 u v → v ∈ res ∨ ∃ x ∈ stack, x.1 = some v
  startIn : start ∈ res ∨ ∃ x ∈ stack, x.1 = some start
  fromIn : ∀ x ∈ stack, ∀ f, x.2 = some f → f ∈ res

theorem mem_cleanPushes {T : Tri} {t : Nat} {f : Option Nat} {x} : x ∈ cleanPushes T t f ↔
    ∃ i : Fin 3, T.isConstrained i = false ∧ T.neighbors.get i ≠ f ∧ x = (T.neighbors.get i, some t) := by
  simp only [cleanPushes, List.mem_filterMap]
  constructor
  · rintro ⟨i, -, h⟩
    refine ⟨i, ?_⟩
    split at h
    · cases h
    · split at h
      · cases h
      · simp_all
  · rintro ⟨i, h1, h2, rfl⟩
    refine ⟨i, by match i with | 0 | 1 | 2 => simp, by simp [h1, h2]⟩

theorem cleanMesh_inv {ts0 : Store} {start : Nat} : ∀ {fuel : Nat} {ts : Store} {res stack} {r},
    FloodInv ts0 start ts res stack → cleanMesh fuel ts res stack = .ok r → FloodInv ts0 start r.1 r.2 []
  | f, ts, res, [], r, inv, h => by
    cases f <;> simp only [cleanMesh, pure_ok, Except.ok.injEq] at h <;> subst h <;> exact inv
  | 0, ts, res, _ :: _, r, inv, h => by simp [cleanMesh] at h
  | f + 1, ts, res, (none, fr) :: stack, r, inv, h => by
    simp only [cleanMesh] at h
    refine cleanMesh_inv ?_ h
    refine ⟨inv.same, inv.mark, inv.lt, inv.nodup, inv.reach, fun x hx => inv.stackReach x (by simp [hx]), ?_, ?_,
      fun x hx => inv.fromIn x (by simp [hx])⟩
    · intro u hu v hv
      rcases inv.closed u hu v hv with k | ⟨x, hx, k⟩
      · exact .inl k
      · rcases List.mem_cons.1 hx with rfl | hx
        · cases k
        · exact .inr ⟨x, hx, k⟩
    · rcases inv.startIn with k | ⟨x, hx, k⟩
      · exact .inl k
      · rcases List.mem_cons.1 hx with rfl | hx
        · cases k
        · exact .inr ⟨x, hx, k⟩
  | f + 1, ts, res, (some t, fr) :: stack, r, inv, h => by
    simp only [cleanMesh] at h
    split at h
    · cases h
    · rename_i T hT
      split at h
      · rename_i hint
        have hin : t ∈ res := (inv.mark t T hT).1 hint
        refine cleanMesh_inv ?_ h
        refine ⟨inv.same, inv.mark, inv.lt, inv.nodup, inv.reach, fun x hx => inv.stackReach x (by simp [hx]), ?_, ?_,
          fun x hx => inv.fromIn x (by simp [hx])⟩
        · intro u hu v hv
          rcases inv.closed u hu v hv with k | ⟨x, hx, k⟩
          · exact .inl k
          · rcases List.mem_cons.1 hx with rfl | hx
            · cases k; exact .inl hin
            · exact .inr ⟨x, hx, k⟩
        · rcases inv.startIn with k | ⟨x, hx, k⟩
          · exact .inl k
          · rcases List.mem_cons.1 hx with rfl | hx
            · cases k; exact .inl hin
            · exact .inr ⟨x, hx, k⟩
      · rename_i hint
        have hlt := (List.getElem?_eq_some_iff.1 hT).1
        have hnot : t ∉ res := fun k => hint ((inv.mark t T hT).2 k)
        have hreach : Reach ts0 start t := inv.stackReach (some t, fr) (by simp) t rfl
        have hlen := inv.same.1
        obtain ⟨T0, hT0⟩ : ∃ T0, ts0[t]? = some T0 := ⟨_, List.getElem?_eq_getElem (by omega)⟩
        obtain ⟨e1, e2, e3⟩ := inv.same.2 t T0 T hT0 hT
        have hcon : ∀ i, T.isConstrained i = T0.isConstrained i := by simp [Tri.isConstrained, e3]
        refine cleanMesh_inv ?_ h
        refine ⟨⟨by simp [hlen], ?_⟩, ?_, ?_, ?_, ?_, ?_, ?_, ?_, ?_⟩
        · intro i A A' hA hA'
          rw [List.getElem?_set] at hA'
          split at hA'
          · subst_vars
            simp only [Option.some.injEq] at hA'; subst hA'
            rw [hA] at hT0; cases hT0
            exact ⟨e1, e2, e3⟩
          · exact inv.same.2 i A A' hA hA'
        · intro u U hU
          rw [List.getElem?_set] at hU
          split at hU
          · subst_vars
            simp only [Option.some.injEq] at hU; subst hU
            simp
          · rw [inv.mark u U hU]
            have : u ≠ t := by omega
            simp [this]
        · intro u hu
          rcases List.mem_append.1 hu with k | k
          · simpa using inv.lt u k
          · simp only [List.mem_singleton] at k; subst k; simpa using hlt
        · rw [List.nodup_append]
          refine ⟨inv.nodup, by simp, ?_⟩
          intro a ha b hb
          simp only [List.mem_singleton] at hb; subst hb
          intro e; subst e; exact hnot ha
        · intro u hu
          rcases List.mem_append.1 hu with k | k
          · exact inv.reach u k
          · simp only [List.mem_singleton] at k; subst k; exact hreach
        · intro x hx u hxu
          rcases List.mem_append.1 hx with k | k
          · rw [List.mem_reverse, mem_cleanPushes] at k
            obtain ⟨i, h1, h2, rfl⟩ := k
            exact .step hreach ⟨T0, hT0, i, by rw [← hcon, h1], by rw [← e2]; exact hxu⟩
          · exact inv.stackReach x (by simp [k]) u hxu
        · intro u hu v hv
          have key : u ∈ res → v ∈ res ++ [t] ∨ ∃ x ∈ (cleanPushes T t fr).reverse ++ stack, x.1 = some v := by
            intro hu
            rcases inv.closed u hu v hv with k | ⟨x, hx, k⟩
            · exact .inl (by simp [k])
            · rcases List.mem_cons.1 hx with rfl | hx
              · cases k; exact .inl (by simp)
              · exact .inr ⟨x, by simp [hx], k⟩
          rcases List.mem_append.1 hu with k | k
          · exact key k
          · simp only [List.mem_singleton] at k; subst k
            obtain ⟨U, hU, i, h1, h2⟩ := hv
            rw [hT0] at hU; cases hU
            by_cases hf : some v = fr
            · left
              have := inv.fromIn (some u, fr) (by simp) v (by simp [hf])
              simp [this]
            · right
              refine ⟨(T.neighbors.get i, some u), ?_, by rw [e2]; exact h2⟩
              rw [List.mem_append, List.mem_reverse, mem_cleanPushes]
              exact .inl ⟨i, by rw [hcon, h1], by rw [e2, h2]; exact hf, rfl⟩
        · rcases inv.startIn with k | ⟨x, hx, k⟩
          · exact .inl (by simp [k])
          · rcases List.mem_cons.1 hx with rfl | hx
            · cases k; exact .inl (by simp)
            · exact .inr ⟨x, by simp [hx], k⟩
        · intro x hx f hf
          rcases List.mem_append.1 hx with k | k
          · rw [List.mem_reverse, mem_cleanPushes] at k
            obtain ⟨i, h1, h2, rfl⟩ := k
            cases hf; simp
          · have := inv.fromIn x (by simp [k]) f hf
            simp [this]

theorem cleanMesh_spec {ts : Store} {start fuel : Nat} {r} (h0 : ∀ T ∈ ts, T.interior = false)
    (h : cleanMesh fuel ts [] [(some start, none)] = .ok r) : FloodInv ts start r.1 r.2 [] := by
  refine cleanMesh_inv ?_ h
  refine ⟨.refl _, ?_, by simp, by simp, by simp, ?_, by simp, .inr ⟨_, List.mem_singleton.2 rfl, rfl⟩, by simp⟩
  · intro u T hT
    simp [h0 T (List.mem_of_getElem? hT)]
  · intro x hx u hu
    simp only [List.mem_singleton] at hx; subst hx
    cases hu; exact .refl

theorem FloodInv.iff {ts0 ts : Store} {start : Nat} {res} (h : FloodInv ts0 start ts res []) (u : Nat) :
    u ∈ res ↔ Reach ts0 start u := by
  refine ⟨h.reach u, fun k => ?_⟩
  induction k with
  | refl =>
    rcases h.startIn with k | ⟨x, hx, -⟩
    · exact k
    · cases hx
  | step _ s ih =>
    rcases h.closed _ ih _ s with k | ⟨x, hx, -⟩
    · exact k
    · cases hx

end P2T
