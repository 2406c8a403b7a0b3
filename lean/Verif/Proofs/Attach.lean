import Verif.Proofs.Pids

/-!
# Adding a triangle and linking it
-/

set_option linter.unusedSectionVars false

namespace P2T

variable {c : Ctx} {K : Prop} {Q Q' : Nat → Prop} {ts ts' : Store}

theorem new_slot {p n x : Nat} (_d : D3 p n x) (w u v N E) : (Tri.new p n x).Slot w u v N E ↔
    N = none ∧ E = (Tri.new p n x).attrs.a ∧
      ((w = p ∧ u = n ∧ v = x) ∨ (w = n ∧ u = x ∧ v = p) ∨ (w = x ∧ u = p ∧ v = n)) := by
  simp only [Tri.Slot, Tri.new, V3.mk.injEq]
  grind

/-- A new triangle, not linked yet. -/
theorem MeshInv.append (m : MeshInv c K Q ts) {p n x : Nat} (w : c.W p n x) :
    let ts' := ts ++ [Tri.new p n x]
    MeshInv c K Q ts' ∧ Keep ts ts' ∧ Grow ts ts' ∧
    (∀ t u v, Bd ts' t u v ↔ Bd ts t u v ∨ (t = ts.length ∧ ((u = n ∧ v = x) ∨ (u = x ∧ v = p) ∨ (u = p ∧ v = n)))) ∧
    HasV ts' p ∧ HasV ts' n ∧ HasV ts' x ∧
    Sl ts' ts.length p n x none (Tri.new p n x).attrs.a ∧ Sl ts' ts.length n x p none (Tri.new p n x).attrs.a ∧
    Sl ts' ts.length x p n none (Tri.new p n x).attrs.a := by
  intro ts'
  have d := (oriW c).d3 w
  have key : ∀ y W U V N E, Sl ts' y W U V N E ↔ (y = ts.length ∧ N = none ∧ E = (Tri.new p n x).attrs.a ∧
      ((W = p ∧ U = n ∧ V = x) ∨ (W = n ∧ U = x ∧ V = p) ∨ (W = x ∧ U = p ∧ V = n))) ∨ Sl ts y W U V N E := by
    intro y W U V N E
    rw [sl_append, new_slot d]
  have some' : ∀ {y W U V z E}, Sl ts' y W U V (some z) E → Sl ts y W U V (some z) E := by
    intro y W U V z E h
    rcases (key ..).1 h with ⟨-, h, -⟩ | h
    · cases h
    · exact h
  have up : ∀ {y W U V N E}, Sl ts y W U V N E → Sl ts' y W U V N E := fun h => (key ..).2 (.inr h)
  have s1 : Sl ts' ts.length p n x none (Tri.new p n x).attrs.a := (key ..).2 (.inl ⟨rfl, rfl, rfl, .inl ⟨rfl, rfl, rfl⟩⟩)
  have s2 : Sl ts' ts.length n x p none (Tri.new p n x).attrs.a := (key ..).2 (.inl ⟨rfl, rfl, rfl, .inr (.inl ⟨rfl, rfl, rfl⟩)⟩)
  have s3 : Sl ts' ts.length x p n none (Tri.new p n x).attrs.a := (key ..).2 (.inl ⟨rfl, rfl, rfl, .inr (.inr ⟨rfl, rfl, rfl⟩)⟩)
  refine ⟨⟨?_, ?_, ?_, ?_, ?_⟩, ?_, ?_, ?_, (HasV.of_sl s1).1, (HasV.of_sl s1).2.1, (HasV.of_sl s1).2.2, s1, s2, s3⟩
  · intro t W u v N e h
    rcases (key ..).1 h with ⟨-, -, -, ⟨rfl, rfl, rfl⟩ | ⟨rfl, rfl, rfl⟩ | ⟨rfl, rfl, rfl⟩⟩ | h
    · exact w
    · exact (oriW c).rot w
    · exact (oriW c).rot ((oriW c).rot w)
    · exact m.wo h
  · intro t W u v z e h
    obtain ⟨w', e', k⟩ := m.sym (some' h)
    exact ⟨w', e', up k⟩
  · intro t W u v z e w' e' h h'
    exact m.del (some' h) (some' h')
  · intro t W u v z e w' e' h h'
    exact m.leg (some' h) (some' h')
  · intro t W u v z e w' e' hK h h'
    exact m.csym hK (some' h) (some' h')
  · rintro u v (⟨t, W, e, hs, he⟩ | ⟨t, W, z, e, w', e', hs, he, hs', he'⟩)
    · exact .inl ⟨t, W, e, up hs, he⟩
    · exact .inr ⟨t, W, z, e, w', e', up hs, he, up hs', he'⟩
  · rintro v ⟨t, u, W, N, e, hs⟩
    exact ⟨t, u, W, N, e, up hs⟩
  · intro t u v
    constructor
    · rintro ⟨W, e, hs⟩
      rcases (key ..).1 hs with ⟨rfl, -, -, ⟨rfl, rfl, rfl⟩ | ⟨rfl, rfl, rfl⟩ | ⟨rfl, rfl, rfl⟩⟩ | h
      · exact .inr ⟨rfl, .inl ⟨rfl, rfl⟩⟩
      · exact .inr ⟨rfl, .inr (.inl ⟨rfl, rfl⟩)⟩
      · exact .inr ⟨rfl, .inr (.inr ⟨rfl, rfl⟩)⟩
      · exact .inl ⟨_, _, h⟩
    · rintro (⟨W, e, h⟩ | ⟨rfl, ⟨rfl, rfl⟩ | ⟨rfl, rfl⟩ | ⟨rfl, rfl⟩⟩)
      · exact ⟨_, _, up h⟩
      · exact ⟨_, _, s1⟩
      · exact ⟨_, _, s2⟩
      · exact ⟨_, _, s3⟩

/-- Linking two facing open edges. -/
theorem MeshInv.link (m : MeshInv c K Q ts) {l r w x u v e f} (hl : Sl ts l w u v none e) (hr : Sl ts r x v u none f)
    (hQ : ∀ y, Q y → Q' y) (hQ' : Q' l ∨ Q' r) :
    ∃ ts', Store.markNeighbor ts l r = .ok ts' ∧ MeshInv c K Q' ts' ∧ Keep ts ts' ∧ Grow ts ts' ∧ ts'.length = ts.length ∧
      (∀ t a b, Bd ts' t a b ↔ Bd ts t a b ∧ ¬ (t = l ∧ a = u ∧ b = v) ∧ ¬ (t = r ∧ a = v ∧ b = u)) ∧
      (∀ {y W U V N E}, Sl ts y W U V N E → ¬ (y = l ∧ W = w) → ¬ (y = r ∧ W = x) → Sl ts' y W U V N E) := by
  have d := (oriW c).d3 (m.wo hl)
  have d' := (oriW c).d3 (m.wo hr)
  have hwx := m.apex_ne hl hr
  have hlr : l ≠ r := by
    rintro rfl
    have := sl_two hl d hr
    obtain ⟨d1, d2, d3⟩ := d
    grind
  have key := markPair_sl hl hr d d' hwx hlr
  refine ⟨Store.markPair ts l r, ?_, ?_, ?_, ?_, by simp, ?_, ?_⟩
  · simp [Store.markNeighbor, Store.assertTwo, hlr, hl.lt, hr.lt]
  · have L1 : ∀ {W U V N E}, Sl ts l W U V N E → W = w → U = u ∧ V = v ∧ N = none ∧ E = e := by
      intro W U V N E h hw
      have := sl_two hl d h
      obtain ⟨d1, d2, d3⟩ := d
      grind
    have R1 : ∀ {W U V N E}, Sl ts r W U V N E → W = x → U = v ∧ V = u ∧ N = none ∧ E = f := by
      intro W U V N E h hw
      have := sl_two hr d' h
      obtain ⟨d1, d2, d3⟩ := d'
      grind
    -- a half-edge of the old mesh with a neighbour is untouched
    have up : ∀ {y W U V z E}, Sl ts y W U V (some z) E → Sl (Store.markPair ts l r) y W U V (some z) E := by
      intro y W U V z E h
      refine (key ..).2 (.inr (.inr ⟨h, ?_, ?_⟩))
      · rintro ⟨rfl, hw⟩; cases (L1 h hw).2.2.1
      · rintro ⟨rfl, hw⟩; cases (R1 h hw).2.2.1
    have sl : Sl (Store.markPair ts l r) l w u v (some r) (mkA (e.isConstrained || f.isConstrained) e) :=
      (key ..).2 (.inl ⟨rfl, rfl, rfl, rfl, rfl, rfl⟩)
    have sr : Sl (Store.markPair ts l r) r x v u (some l) (mkA (e.isConstrained || f.isConstrained) f) :=
      (key ..).2 (.inr (.inl ⟨rfl, rfl, rfl, rfl, rfl, rfl⟩))
    -- nothing old points across the new link
    have pair : ∀ {y W U V z E W' E'}, Sl (Store.markPair ts l r) y W U V (some z) E → Sl (Store.markPair ts l r) z W' V U (some y) E' →
        (Sl ts y W U V (some z) E ∧ Sl ts z W' V U (some y) E') ∨
        (y = l ∧ z = r ∧ E.isDelaunay = false ∧ E.isConstrained = (e.isConstrained || f.isConstrained) ∧ E'.isConstrained = (e.isConstrained || f.isConstrained)) ∨
        (y = r ∧ z = l ∧ E.isDelaunay = false ∧ E.isConstrained = (e.isConstrained || f.isConstrained) ∧ E'.isConstrained = (e.isConstrained || f.isConstrained)) := by
      intro y W U V z E W' E' h h'
      have h0 := (key ..).1 h
      have h0' := (key ..).1 h'
      have uu : ∀ {y W U V N E}, Sl ts y W U V N E → D3 W U V := fun h => (oriW c).d3 (m.wo h)
      rcases h0 with ⟨rfl, rfl, rfl, rfl, hz, rfl⟩ | ⟨rfl, rfl, rfl, rfl, hz, rfl⟩ | ⟨h0, -, -⟩
      · cases hz
        right; left
        refine ⟨rfl, rfl, by simp, by simp, ?_⟩
        rcases h0' with ⟨q, -⟩ | ⟨-, -, -, -, -, rfl⟩ | ⟨k, -, k2⟩
        · exact (hlr q.symm).elim
        · simp
        · have := m.uniq k hr
          exact (k2 ⟨rfl, this.1⟩).elim
      · cases hz
        right; right
        refine ⟨rfl, rfl, by simp, by simp, ?_⟩
        rcases h0' with ⟨-, -, -, -, -, rfl⟩ | ⟨q, -⟩ | ⟨k, k2, -⟩
        · simp
        · exact (hlr q).elim
        · have := m.uniq k hl
          exact (k2 ⟨rfl, this.1⟩).elim
      · left
        refine ⟨h0, ?_⟩
        obtain ⟨W2, E2, k⟩ := m.sym h0
        have k' := up k
        rcases h0' with ⟨rfl, rfl, rfl, rfl, hz, rfl⟩ | ⟨rfl, rfl, rfl, rfl, hz, rfl⟩ | ⟨h0', -, -⟩
        · have := m.uniq k hl; cases this.2.1
        · have := m.uniq k hr; cases this.2.1
        · exact h0'
    refine ⟨?_, ?_, ?_, ?_, ?_⟩
    · intro t W U V N E h
      rcases (key ..).1 h with ⟨rfl, rfl, rfl, rfl, -⟩ | ⟨rfl, rfl, rfl, rfl, -⟩ | ⟨h, -⟩
      · exact m.wo hl
      · exact m.wo hr
      · exact m.wo h
    · intro t W U V z E h
      rcases (key ..).1 h with ⟨rfl, rfl, rfl, rfl, hz, -⟩ | ⟨rfl, rfl, rfl, rfl, hz, -⟩ | ⟨h, -⟩
      · cases hz; exact ⟨_, _, sr⟩
      · cases hz; exact ⟨_, _, sl⟩
      · obtain ⟨w', e', k⟩ := m.sym h
        exact ⟨w', e', up k⟩
    · intro t W U V z E w' e' h h' hd
      rcases pair h h' with ⟨k, k'⟩ | ⟨-, -, k, -⟩ | ⟨-, -, k, -⟩
      · exact m.del k k' hd
      · rw [hd] at k; cases k
      · rw [hd] at k; cases k
    · intro t W U V z E w' e' h h' hc hc'
      rcases pair h h' with ⟨k, k'⟩ | ⟨rfl, rfl, -⟩ | ⟨rfl, rfl, -⟩
      · rcases m.leg k k' hc hc' with q | q | q
        · exact .inl (hQ _ q)
        · exact .inr (.inl (hQ _ q))
        · exact .inr (.inr q)
      · rcases hQ' with q | q
        · exact .inl q
        · exact .inr (.inl q)
      · rcases hQ' with q | q
        · exact .inr (.inl q)
        · exact .inl q
    · intro t W U V z E w' e' hK h h'
      rcases pair h h' with ⟨k, k'⟩ | ⟨-, -, -, k, k'⟩ | ⟨-, -, -, k, k'⟩
      · exact m.csym hK k k'
      · rw [k, k']
      · rw [k, k']
  · -- constrained edges
    have sl : Sl (Store.markPair ts l r) l w u v (some r) (mkA (e.isConstrained || f.isConstrained) e) :=
      (key ..).2 (.inl ⟨rfl, rfl, rfl, rfl, rfl, rfl⟩)
    have sr : Sl (Store.markPair ts l r) r x v u (some l) (mkA (e.isConstrained || f.isConstrained) f) :=
      (key ..).2 (.inr (.inl ⟨rfl, rfl, rfl, rfl, rfl, rfl⟩))
    have cases' : ∀ {y W U V N E}, Sl ts y W U V N E → (y = l ∧ U = u ∧ V = v ∧ N = none ∧ E = e) ∨ (y = r ∧ U = v ∧ V = u ∧ N = none ∧ E = f) ∨
        Sl (Store.markPair ts l r) y W U V N E := by
      intro y W U V N E h
      by_cases h1 : y = l ∧ W = w
      · obtain ⟨rfl, rfl⟩ := h1
        have := sl_two hl d h
        obtain ⟨d1, d2, d3⟩ := d
        left; grind
      by_cases h2 : y = r ∧ W = x
      · obtain ⟨rfl, rfl⟩ := h2
        have := sl_two hr d' h
        obtain ⟨d1, d2, d3⟩ := d'
        right; left; grind
      exact .inr (.inr ((key ..).2 (.inr (.inr ⟨h, h1, h2⟩))))
    rintro a b (⟨t, W, E, hs, he⟩ | ⟨t, W, z, E, w', E', hs, he, hs', he'⟩)
    · rcases cases' hs with ⟨rfl, rfl, rfl, -, rfl⟩ | ⟨rfl, rfl, rfl, -, rfl⟩ | hs
      · exact .inr ⟨_, _, _, _, _, _, sl, by simp [he], sr, by simp [he]⟩
      · exact .inr ⟨_, _, _, _, _, _, sr, by simp [he], sl, by simp [he]⟩
      · exact .inl ⟨_, _, _, hs, he⟩
    · rcases cases' hs with ⟨-, -, -, q, -⟩ | ⟨-, -, -, q, -⟩ | hs
      · cases q
      · cases q
      · rcases cases' hs' with ⟨-, -, -, q, -⟩ | ⟨-, -, -, q, -⟩ | hs'
        · cases q
        · cases q
        · exact .inr ⟨_, _, _, _, _, _, hs, he, hs', he'⟩
  · -- vertices
    rintro a ⟨t, U, V, N, E, hs⟩
    by_cases h1 : t = l ∧ a = w
    · obtain ⟨rfl, rfl⟩ := h1
      exact ⟨_, _, _, _, _, (key ..).2 (.inl ⟨rfl, rfl, rfl, rfl, rfl, rfl⟩)⟩
    by_cases h2 : t = r ∧ a = x
    · obtain ⟨rfl, rfl⟩ := h2
      exact ⟨_, _, _, _, _, (key ..).2 (.inr (.inl ⟨rfl, rfl, rfl, rfl, rfl, rfl⟩))⟩
    exact ⟨_, _, _, _, _, (key ..).2 (.inr (.inr ⟨hs, h1, h2⟩))⟩
  · intro t a b
    constructor
    · rintro ⟨W, E, hs⟩
      rcases (key ..).1 hs with ⟨-, -, -, -, q, -⟩ | ⟨-, -, -, -, q, -⟩ | ⟨hs0, h1, h2⟩
      · cases q
      · cases q
      · refine ⟨⟨_, _, hs0⟩, ?_, ?_⟩
        · rintro ⟨rfl, rfl, rfl⟩; exact h1 ⟨rfl, (m.uniq hs0 hl).1⟩
        · rintro ⟨rfl, rfl, rfl⟩; exact h2 ⟨rfl, (m.uniq hs0 hr).1⟩
    · rintro ⟨⟨W, E, hs⟩, h1, h2⟩
      refine ⟨W, E, (key ..).2 (.inr (.inr ⟨hs, ?_, ?_⟩))⟩
      · rintro ⟨rfl, rfl⟩
        apply h1
        have := sl_two hl d hs
        obtain ⟨d1, d2, d3⟩ := d
        grind
      · rintro ⟨rfl, rfl⟩
        apply h2
        have := sl_two hr d' hs
        obtain ⟨d1, d2, d3⟩ := d'
        grind
  · intro y W U V N E h h1 h2
    exact (key ..).2 (.inr (.inr ⟨h, h1, h2⟩))

theorem append_nn {p n x : Nat} (d : D3 p n x) : NN ts (ts ++ [Tri.new p n x]) := by
  have key : ∀ y W U V N E, Sl (ts ++ [Tri.new p n x]) y W U V N E ↔ (y = ts.length ∧ N = none ∧ E = (Tri.new p n x).attrs.a ∧
      ((W = p ∧ U = n ∧ V = x) ∨ (W = n ∧ U = x ∧ V = p) ∨ (W = x ∧ U = p ∧ V = n))) ∨ Sl ts y W U V N E := by
    intro y W U V N E
    rw [sl_append, new_slot d]
  have some' : ∀ {y W U V z E}, Sl (ts ++ [Tri.new p n x]) y W U V (some z) E → Sl ts y W U V (some z) E := by
    intro y W U V z E h
    rcases (key ..).1 h with ⟨-, h, -⟩ | h
    · cases h
    · exact h
  intro hc
  refine ⟨fun h h' => hc (some' h) (some' h'), .of ?_⟩
  intro y w u v n e h he
  rcases (key ..).1 h with ⟨-, -, rfl, -⟩ | h
  · exact absurd he (by simp only [Tri.new]; decide)
  · exact .of h he

theorem link_nn (m : MeshInv c K Q ts) {l r w x u v e f} (hl : Sl ts l w u v none e) (hr : Sl ts r x v u none f)
    (h : Store.markNeighbor ts l r = .ok ts') : NN ts ts' := by
  intro hc
  obtain ⟨ts2, k1, k2, -⟩ := (m.toTrue hc).link (Q' := fun _ => True) hl hr (fun _ _ => trivial) (.inl trivial)
  rw [h] at k1; cases k1
  refine ⟨k2.csym', ?_⟩
  have d := (oriW c).d3 (m.wo hl)
  have d' := (oriW c).d3 (m.wo hr)
  have hwx := m.apex_ne hl hr
  have hlr : l ≠ r := by
    rintro rfl
    have := sl_two hl d hr
    obtain ⟨d1, d2, d3⟩ := d
    grind
  have key := markPair_sl hl hr d d' hwx hlr
  have : ts' = Store.markPair ts l r := by
    simp [Store.markNeighbor, Store.assertTwo, hlr, hl.lt, hr.lt] at h
    exact h.symm
  subst this
  refine .of ?_
  intro y W U V N E hs he
  rcases (key ..).1 hs with ⟨-, -, rfl, rfl, -, rfl⟩ | ⟨-, -, rfl, rfl, -, rfl⟩ | ⟨k, -⟩
  · rw [mkA_con, Bool.or_eq_true] at he
    rcases he with he | he
    · exact .of hl he
    · exact (Mk.of hr he).symm
  · rw [mkA_con, Bool.or_eq_true] at he
    rcases he with he | he
    · exact (Mk.of hl he).symm
    · exact .of hr he
  · exact .of k he

theorem link_flat (m : MeshInv c K Q ts) {l r w x u v e f} (hl : Sl ts l w u v none e) (hr : Sl ts r x v u none f)
    (h : Store.markNeighbor ts l r = .ok ts') : FlatLe c ts ts' := by
  have d := (oriW c).d3 (m.wo hl)
  have d' := (oriW c).d3 (m.wo hr)
  have hwx := m.apex_ne hl hr
  have hlr : l ≠ r := by
    rintro rfl
    have := sl_two hl d hr
    obtain ⟨d1, d2, d3⟩ := d
    grind
  have key := markPair_sl hl hr d d' hwx hlr
  have : ts' = Store.markPair ts l r := by
    simp [Store.markNeighbor, Store.assertTwo, hlr, hl.lt, hr.lt] at h
    exact h.symm
  subst this
  rintro q t ⟨b, z, n, e', k, k'⟩
  rcases (key ..).1 k with ⟨rfl, rfl, rfl, rfl, -⟩ | ⟨rfl, rfl, rfl, rfl, -⟩ | ⟨k, -⟩
  · exact ⟨_, _, _, _, hl, k'⟩
  · exact ⟨_, _, _, _, hr, k'⟩
  · exact ⟨_, _, _, _, k, k'⟩

theorem append_flat {p n x : Nat} (d : D3 p n x) {q t} (h : FlatAt c (ts ++ [Tri.new p n x]) q t) : FlatAt c ts q t ∨
    (t = ts.length ∧ det2 (c.pos p) (c.pos n) (c.pos x) = 0 ∧ (q = p ∨ (q = n ∧ keyLt (c.pos x) (c.pos p)) ∨ (q = x ∧ keyLt (c.pos p) (c.pos n) ∧ keyLt (c.pos x) (c.pos p)))) := by
  obtain ⟨b, r, n', e, k, h0, k1, k2⟩ := h
  rw [sl_append, new_slot d] at k
  rcases k with ⟨rfl, -, -, ⟨rfl, rfl, rfl⟩ | ⟨rfl, rfl, rfl⟩ | ⟨rfl, rfl, rfl⟩⟩ | k
  · exact .inr ⟨rfl, h0, .inl rfl⟩
  · exact .inr ⟨rfl, by rw [← h0]; unfold det2; ring, .inr (.inl ⟨rfl, k2⟩)⟩
  · exact .inr ⟨rfl, by rw [← h0]; unfold det2; ring, .inr (.inr ⟨rfl, k2, k1⟩)⟩
  · exact .inl ⟨_, _, _, _, k, h0, k1, k2⟩

end P2T
