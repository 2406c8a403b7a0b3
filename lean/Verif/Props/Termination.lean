import Verif.Proofs.Potential
import Verif.Props.Flip

/-!
# C15: legalization terminates
-/

namespace P2T

section
variable {c : Ctx} {M M' : Store}

theorem shape_get {M M' : Store} (h1 : M'.map (·.points) = M.map (·.points)) (h2 : M'.map (·.neighbors) = M.map (·.neighbors)) (x : Nat) (X : Tri)
    (hx : M[x]? = some X) : ∃ X' : Tri, M'[x]? = some X' ∧ X'.points = X.points ∧ X'.neighbors = X.neighbors := by
  have a1 := congrArg (·[x]?) h1
  have a2 := congrArg (·[x]?) h2
  simp only [List.getElem?_map, hx, Option.map_some, Option.map_eq_some_iff] at a1 a2
  obtain ⟨X1, b1, b2⟩ := a1
  obtain ⟨X2, b3, b4⟩ := a2
  rw [b1] at b3; cases b3
  exact ⟨X1, b1, b2, b4⟩

/-- Consistency depends on the corners and neighbours only. -/
theorem MeshOk.shape (m : MeshOk c.W M) (h1 : M'.map (·.points) = M.map (·.points)) (h2 : M'.map (·.neighbors) = M.map (·.neighbors)) :
    MeshOk c.W M' := by
  have back : ∀ {t w u v n e}, Sl M' t w u v n e → ∃ e', Sl M t w u v n e' := by
    intro t w u v n e hs
    obtain ⟨T, i, k1, rfl, rfl, rfl, rfl, -⟩ := hs.at
    obtain ⟨T', q1, q2, q3⟩ := shape_get h1.symm h2.symm t T k1
    have := sl_corner q1 i
    unfold Tri.from Tri.to at *
    rw [q2, q3] at this
    exact ⟨_, this⟩
  have fwd : ∀ {t w u v n e}, Sl M t w u v n e → ∃ e', Sl M' t w u v n e' := by
    intro t w u v n e hs
    obtain ⟨T, i, k1, rfl, rfl, rfl, rfl, -⟩ := hs.at
    obtain ⟨T', q1, q2, q3⟩ := shape_get h1 h2 t T k1
    have := sl_corner q1 i
    unfold Tri.from Tri.to at *
    rw [q2, q3] at this
    exact ⟨_, this⟩
  refine ⟨fun hs => ?_, fun hs => ?_⟩
  · obtain ⟨e', k⟩ := back hs; exact m.wo k
  · obtain ⟨e', k⟩ := back hs
    obtain ⟨w', e'', k'⟩ := m.sym k
    obtain ⟨e3, k3⟩ := fwd k'
    exact ⟨w', e3, k3⟩

theorem potential_shape (h1 : M'.map (·.points) = M.map (·.points)) : potential c M' = potential c M := by
  have : ∀ M : Store, potential c M = ((M.map (·.points)).map fun p => lift3 (c.pos p.a) (c.pos p.b) (c.pos p.c)).sum := by
    intro M; rw [List.map_map]; rfl
  rw [this, this, h1]

/-- One flip of the legalization. -/
theorem legalize_flip_step (m : MeshOk c.W M) {t p a b ot op : Nat} {e f} (s0 : Sl M t p a b (some ot) e) (o0 : Sl M ot op b a (some t) f)
    (hd : 0 < inCircleDet (c.pos p) (c.pos a) (c.pos b) (c.pos op)) :
    ∃ M1 M2 need, Store.rotatePair M t p ot op = .ok (M1, need) ∧ Store.flagDelaunay M1 t ot = .ok M2 ∧ MeshOk c.W M2 ∧
      M2.length = M.length ∧ potential c M2 < potential c M := by
  have w1 := m.wo s0
  have w2 := m.wo o0
  have cv := illegal_convex w1.2.nonneg w2.2.nonneg hd
  obtain ⟨F, rfl, rfl, rfl, rfl, rfl, rfl, rfl, rfl, hp⟩ := mkFlip m s0 o0 (w1 := ⟨⟨w1.1.1, w2.1.1, w1.1.2.2⟩, .inl cv.1⟩)
    (w2 := ⟨⟨w1.1.1, w1.1.2.1, w2.1.1⟩, .inl cv.2⟩)
  obtain ⟨M1, h1, h2, h3, -⟩ := rotatePair_spec (oriW c) m hp
  have m1 := m.flip hp h2
  obtain ⟨M2, h4⟩ := flagDelaunay_ok m1 (facing_sl.2 ⟨_, _, h2.r0, h2.r0'⟩)
  obtain ⟨e1, e2⟩ := flagDelaunay_shape h4
  refine ⟨M1, M2, _, h1, h4, m1.shape e1 e2, by rw [← h3]; simpa using congrArg List.length e1, ?_⟩
  rw [potential_shape e1]
  have := h2.triSum hp m h3 (fun i j k => lift3 (c.pos i) (c.pos j) (c.pos k)) (fun a b d => lift3_rot _ _ _)
  have e3 := lift3_flip (c.pos F.p) (c.pos F.a) (c.pos F.b) (c.pos F.op)
  unfold potential
  linarith

theorem firstIllegal_ok (m : MeshOk c.W M) {t : Nat} {T : Tri} (hT : M[t]? = some T) : ∀ l : List (Fin 3),
    firstIllegal c M t l = .ok none ∨
    (∃ p a b ot op e0 f0, firstIllegal c M t l = .ok (some (p, ot, op)) ∧ Sl M t p a b (some ot) e0 ∧
      Sl M ot op b a (some t) f0 ∧ e0.isConstrained = false ∧
      0 < inCircleDet (c.pos p) (c.pos a) (c.pos b) (c.pos op))
  | [] => .inl rfl
  | i :: l => by
    rcases illegalAt_ok m hT i with h | ⟨p, a, b, ot, op, e0, f0, h, k⟩
    · simp only [firstIllegal, h, ok_bind]
      exact firstIllegal_ok m hT l
    · simp only [firstIllegal, h, ok_bind]
      exact .inr ⟨p, a, b, ot, op, e0, f0, rfl, k⟩

/-- The loop needs at most `2 * k + (length of the queue)` rounds, where `k` is the scaled potential. -/
theorem legalizeLoop_total {N : Nat} (hN : 0 < N) (hk : ∀ M, MeshOk c.W M → ∃ k : Nat, potential c M * N = k) :
    ∀ (fuel k : Nat) (s : St) (queue remap : List Nat), MeshOk c.W s.tris → (∀ t ∈ queue, t < s.tris.length) → potential c s.tris * N = k →
      2 * k + queue.length ≤ fuel → ∃ s' r, legalizeLoop c fuel s queue remap = .ok (s', r) ∧ MeshOk c.W s'.tris ∧ s'.tris.length = s.tris.length := by
  intro fuel
  induction fuel with
  | zero =>
    intro k s queue remap m hq hp hf
    have : queue = [] := List.length_eq_zero_iff.1 (by omega)
    subst this
    exact ⟨s, remap, by simp only [legalizeLoop]; rfl, m, rfl⟩
  | succ fuel ih =>
    intro k s queue remap m hq hp hf
    rcases queue with _ | ⟨t, queue⟩
    · exact ⟨s, remap, by simp only [legalizeLoop]; rfl, m, rfl⟩
    · have lt := hq t (by simp)
      have hT : s.tris[t]? = some s.tris[t] := List.getElem?_eq_getElem lt
      rcases firstIllegal_ok m hT [0, 1, 2] with h | ⟨p, a, b, ot, op, e0, f0, h, s0, o0, -, hd⟩
      · obtain ⟨s', r, h1, h2, h3⟩ := ih k (s.emit (.legalizeStep t)) queue remap m (fun x hx => hq x (by simp [hx])) hp
          (by simp only [List.length_cons] at hf; omega)
        exact ⟨s', r, by simp only [legalizeLoop, h, ok_bind]; exact h1, h2, h3⟩
      · obtain ⟨M1, M2, need, k1, k2, k3, k4, k5⟩ := legalize_flip_step m s0 o0 hd
        obtain ⟨k', hk'⟩ := hk M2 k3
        have hlt : k' < k := by
          have : potential c M2 * N < potential c s.tris * N := mul_lt_mul_of_pos_right k5 (by exact_mod_cast hN)
          rw [hk', hp] at this
          exact_mod_cast this
        obtain ⟨s', r, h1, h2, h3⟩ := ih k' ({ s.emit (.rotated t ot) with tris := M2 }.emit (.legalizeStep t)) (ot :: t :: queue)
          (if need then remap ++ [t, ot] else remap) k3
          (by intro x hx
              show x < M2.length
              rw [k4]
              rcases List.mem_cons.1 hx with rfl | hx
              · exact o0.lt
              · exact hq x hx) hk'
          (by simp only [List.length_cons] at hf ⊢; omega)
        refine ⟨s', r, ?_, h2, by rw [h3]; exact k4⟩
        simp only [legalizeLoop, h, ok_bind]
        have k1' : Store.rotatePair (s.emit (.rotated t ot)).tris t p ot op = .ok (M1, need) := k1
        rw [k1']
        simp only [ok_bind, k2]
        exact h1

/-- **C15.**  From every consistent mesh without inverted triangles the legalization loop finishes, whatever triangles of the mesh are in its queue:
there is a number of rounds after which the queue is empty.  (The model gives up with `Err.fuel` after `fuel` rounds; the code has no such limit.)
The mesh is then still consistent and not inverted. -/
theorem C15_legalization_terminates (c : Ctx) (s : St) (queue remap : List Nat) (h1 : Consistent c.points.length s.tris) (h2 : Oriented c.points s.tris)
    (hq : ∀ t ∈ queue, t < s.tris.length) :
    ∃ rounds, ∀ fuel, rounds ≤ fuel → ∃ s' r, legalizeLoop c fuel s queue remap = .ok (s', r) ∧
      Consistent c.points.length s'.tris ∧ Oriented c.points s'.tris := by
  obtain ⟨N, h0, hk⟩ := potential_nat c
  obtain ⟨k, hp⟩ := hk _ (meshOk_of h1 h2)
  refine ⟨2 * k + queue.length, fun fuel hf => ?_⟩
  obtain ⟨s', r, q1, q2, -⟩ := legalizeLoop_total h0 hk fuel k s queue remap (meshOk_of h1 h2) hq hp hf
  exact ⟨s', r, q1, q2.consistent, q2.oriented⟩

/-- The hypotheses are met by a mesh in which there is something to flip. -/
example : ∃ rounds, ∀ fuel, rounds ≤ fuel → ∃ s' r,
    legalizeLoop (ctxOf f64 flipPts) fuel ⟨flipMesh, ⟨[], none⟩, [], []⟩ [0] [0] = .ok (s', r) ∧
      Consistent (ctxOf f64 flipPts).points.length s'.tris ∧ Oriented (ctxOf f64 flipPts).points s'.tris :=
  C15_legalization_terminates _ ⟨flipMesh, ⟨[], none⟩, [], []⟩ [0] [0] flipMesh_ok.1 flipMesh_ok.2 (by decide)

end

end P2T
