import Verif.Proofs.View

/-!
# Meshes as sets of half-edges

`Sl ts t w u v n e`: triangle `t` of the store has the directed edge `u → v` opposite `w`, with
neighbour `n` and flags `e`.
-/

namespace P2T

def Sl (ts : Store) (t w u v : Nat) (n : Option Nat) (e : EdgeAttr) : Prop :=
  ∃ T, ts[t]? = some T ∧ T.Slot w u v n e

/-- An abstract orientation predicate on vertex triples. -/
structure Ori (W : Nat → Nat → Nat → Prop) : Prop where
  rot : ∀ {p a b}, W p a b → W a b p
  anti : ∀ {p a b}, W p a b → ¬ W a p b

theorem Ori.d3 {W} (o : Ori W) {p a b} (h : W p a b) : D3 p a b := by
  have h1 := o.anti h
  have h2 := o.anti (o.rot h)
  have h3 := o.anti (o.rot (o.rot h))
  have r1 := o.rot h
  have r2 := o.rot r1
  refine ⟨?_, ?_, ?_⟩ <;> intro e <;> subst e <;> contradiction

/-- Consistent mesh. -/
structure MeshOk (W : Nat → Nat → Nat → Prop) (ts : Store) : Prop where
  wo : ∀ {t w u v n e}, Sl ts t w u v n e → W w u v
  sym : ∀ {t w u v x e}, Sl ts t w u v (some x) e → ∃ w' e', Sl ts x w' v u (some t) e'

theorem sl_iff_of_view {ts : Store} {t : Nat} {T : Tri} {p a b n0 n1 n2 e0 e1 e2} (ht : ts[t]? = some T)
    (h : T.View ⟨p, a, b⟩ ⟨n0, n1, n2⟩ ⟨e0, e1, e2⟩) (w u v n e) :
    Sl ts t w u v n e ↔ (w = p ∧ u = a ∧ v = b ∧ n = n0 ∧ e = e0) ∨
      (w = a ∧ u = b ∧ v = p ∧ n = n1 ∧ e = e1) ∨ (w = b ∧ u = p ∧ v = a ∧ n = n2 ∧ e = e2) := by
  rw [← h.slot_iff]
  simp [Sl, ht]

theorem Sl.lt {ts : Store} {t w u v n e} (h : Sl ts t w u v n e) : t < ts.length := by
  obtain ⟨T, h, -⟩ := h
  exact (List.getElem?_eq_some_iff.1 h).1

theorem Sl.view {ts : Store} {t w u v n e} (h : Sl ts t w u v n e) :
    ∃ T n1 n2 e1 e2, ts[t]? = some T ∧ T.View ⟨w, u, v⟩ ⟨n, n1, n2⟩ ⟨e, e1, e2⟩ := by
  obtain ⟨T, h, hs⟩ := h
  obtain ⟨n1, n2, e1, e2, hv⟩ := hs.view
  exact ⟨T, n1, n2, e1, e2, h, hv⟩

theorem Sl.rot {ts : Store} {t w u v n e} (h : Sl ts t w u v n e) : ∃ n' e', Sl ts t u v w n' e' := by
  obtain ⟨T, n1, n2, e1, e2, h, hv⟩ := h.view
  exact ⟨n1, e1, T, h, hv.slot1⟩

theorem exists_sl {ts : Store} {t : Nat} (h : t < ts.length) : ∃ w u v n e, Sl ts t w u v n e :=
  ⟨_, _, _, _, _, ts[t], by simp [h], (Tri.view_self _).slot⟩

theorem sl_set {ts : Store} {t x : Nat} {T : Tri} (ht : t < ts.length) (w u v n e) :
    Sl (ts.set t T) x w u v n e ↔ (x = t ∧ T.Slot w u v n e) ∨ (x ≠ t ∧ Sl ts x w u v n e) := by
  simp only [Sl, List.getElem?_set]
  by_cases h : t = x
  · subst h; simp [ht]
  · have h' : x ≠ t := fun e => h e.symm
    simp [h, h']

theorem sl_append {ts : Store} {x : Nat} {T : Tri} (w u v n e) :
    Sl (ts ++ [T]) x w u v n e ↔ (x = ts.length ∧ T.Slot w u v n e) ∨ Sl ts x w u v n e := by
  simp only [Sl]
  constructor
  · rintro ⟨X, hX, hs⟩
    rw [List.getElem?_append] at hX
    split at hX
    · exact .inr ⟨X, hX, hs⟩
    · have : x - ts.length = 0 := by
        have := (List.getElem?_eq_some_iff.1 hX).1; simp at this; omega
      rw [this] at hX
      simp at hX; subst hX
      exact .inl ⟨by omega, hs⟩
  · rintro (⟨rfl, hs⟩ | ⟨X, hX, hs⟩)
    · exact ⟨T, by simp, hs⟩
    · refine ⟨X, ?_, hs⟩
      rw [List.getElem?_append_left (List.getElem?_eq_some_iff.1 hX).1]; exact hX

/-- What `markPair` does to the half-edges of two triangles that share exactly one edge. -/
theorem markPair_sl {ts : Store} {l r w x u v : Nat} {n m : Option Nat} {e f : EdgeAttr}
    (hl : Sl ts l w u v n e) (hr : Sl ts r x v u m f) (d : D3 w u v) (d' : D3 x v u) (hwx : w ≠ x)
    (hlr : l ≠ r) (y W U V N E) :
    Sl (Store.markPair ts l r) y W U V N E ↔
      (y = l ∧ W = w ∧ U = u ∧ V = v ∧ N = some r ∧ E = mkA (e.isConstrained || f.isConstrained) e) ∨
      (y = r ∧ W = x ∧ U = v ∧ V = u ∧ N = some l ∧ E = mkA (e.isConstrained || f.isConstrained) f) ∨
      (Sl ts y W U V N E ∧ ¬ (y = l ∧ W = w) ∧ ¬ (y = r ∧ W = x)) := by
  obtain ⟨L, n1, n2, e1, e2, hL, vL⟩ := hl.view
  obtain ⟨R, m1, m2, f1, f2, hR, vR⟩ := hr.view
  have ll := hl.lt
  have lr := hr.lt
  obtain ⟨L', R', hm, vL', vR', -, -⟩ := markTwo_view (l := l) (r := r) vL vR d d' hwx
  simp only [Store.markPair, hL, hR, hm]
  rw [sl_set (by simpa using lr), sl_set ll]
  obtain ⟨d1, d2, d3⟩ := d
  obtain ⟨d1', d2', d3'⟩ := d'
  by_cases hy : y = r
  · subst hy
    rw [sl_iff_of_view hR vR, vR'.slot_iff]
    clear hm vL vR vL' vR' hL hR hl hr
    constructor <;> grind (splits := 40)
  · by_cases hy' : y = l
    · subst hy'
      rw [sl_iff_of_view hL vL, vL'.slot_iff]
      clear hm vL vR vL' vR' hL hR hl hr
      constructor <;> grind (splits := 40)
    · simp [hy, hy']

@[simp] theorem length_markPair (ts : Store) (l r : Nat) : (Store.markPair ts l r).length = ts.length := by
  unfold Store.markPair
  split
  · split; simp
  · rfl
@[simp] theorem length_markOpt (ts : Store) (l : Nat) (r) : (Store.markOpt ts l r).length = ts.length := by
  unfold Store.markOpt
  split <;> simp

/-- Flags after linking to an optional neighbour with flags `f`. -/
def linkA (r : Option Nat) (f : EdgeAttr) (e : EdgeAttr) : EdgeAttr :=
  if r = none then e else mkA (e.isConstrained || f.isConstrained) e

theorem markOpt_sl {ts : Store} {l w u v x : Nat} {r : Option Nat} {e f : EdgeAttr}
    {m : Option Nat}
    (hl : Sl ts l w u v none e) (d : D3 w u v)
    (hr : ∀ r', r = some r' → Sl ts r' x v u m f ∧ D3 x v u ∧ w ≠ x ∧ l ≠ r') (y W U V N E) :
    Sl (Store.markOpt ts l r) y W U V N E ↔
      (y = l ∧ W = w ∧ U = u ∧ V = v ∧ N = r ∧ E = linkA r f e) ∨
      (r = some y ∧ W = x ∧ U = v ∧ V = u ∧ N = some l ∧ E = mkA (e.isConstrained || f.isConstrained) f) ∨
      (Sl ts y W U V N E ∧ ¬ (y = l ∧ W = w) ∧ ¬ (r = some y ∧ W = x)) := by
  cases r with
  | none =>
    obtain ⟨L, n1, n2, e1, e2, hL, vL⟩ := hl.view
    obtain ⟨d1, d2, d3⟩ := d
    simp only [Store.markOpt, linkA]
    by_cases hy : y = l
    · subst hy; rw [sl_iff_of_view hL vL]; grind
    · simp [hy]
  | some r =>
    obtain ⟨h1, h2, h3, h4⟩ := hr r rfl
    simp only [Store.markOpt]
    rw [markPair_sl hl h1 d h2 h3 h4]
    simp [linkA, eq_comm]

end P2T
