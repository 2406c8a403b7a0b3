import Verif.Proofs.Mesh

/-!
# The effect of `rotate_triangle_pair` on a consistent mesh
-/

set_option linter.unusedSimpArgs false

namespace P2T

/-- The quadrilateral of a flip: triangles `t = (p, a, b)` and `ot = (op, b, a)` with the four outer
neighbours `n1` (edge `p a`), `n2` (edge `b p`), `n3` (edge `op b`), `n4` (edge `a op`), whose apexes are
`x1 … x4` and whose flags are `g1 … g4`. -/
structure Flip where
  (t ot p a b op : Nat)
  (n1 n2 n3 n4 : Option Nat)
  (e0 e1 e2 f0 f3 f4 : EdgeAttr)
  (x1 x2 x3 x4 : Nat)
  (g1 g2 g3 g4 : EdgeAttr)

namespace Flip

/-- The mesh `ts` contains the quadrilateral, and both new triangles are properly oriented. -/
structure Pre (F : Flip) (W : Nat → Nat → Nat → Prop) (ts : Store) : Prop where
  s0 : Sl ts F.t F.p F.a F.b (some F.ot) F.e0
  s1 : Sl ts F.t F.b F.p F.a F.n1 F.e1
  s2 : Sl ts F.t F.a F.b F.p F.n2 F.e2
  o0 : Sl ts F.ot F.op F.b F.a (some F.t) F.f0
  o3 : Sl ts F.ot F.a F.op F.b F.n3 F.f3
  o4 : Sl ts F.ot F.b F.a F.op F.n4 F.f4
  h1 : ∀ u, F.n1 = some u → Sl ts u F.x1 F.a F.p (some F.t) F.g1
  h2 : ∀ u, F.n2 = some u → Sl ts u F.x2 F.p F.b (some F.t) F.g2
  h3 : ∀ u, F.n3 = some u → Sl ts u F.x3 F.b F.op (some F.ot) F.g3
  h4 : ∀ u, F.n4 = some u → Sl ts u F.x4 F.op F.a (some F.ot) F.g4
  w1 : W F.p F.op F.b
  w2 : W F.p F.a F.op

/-- The half-edges after the flip. -/
def Rel (F : Flip) (ts ts' : Store) : Prop := ∀ y w u v n e, Sl ts' y w u v n e ↔
  (y = F.t ∧ w = F.b ∧ u = F.p ∧ v = F.op ∧ n = some F.ot ∧
    e = mkA (F.e0.isConstrained || F.f0.isConstrained) F.e0) ∨
  (y = F.t ∧ w = F.p ∧ u = F.op ∧ v = F.b ∧ n = F.n3 ∧ e = linkA F.n3 F.g3 F.f3) ∨
  (y = F.t ∧ w = F.op ∧ u = F.b ∧ v = F.p ∧ n = F.n2 ∧ e = linkA F.n2 F.g2 F.e2) ∨
  (y = F.ot ∧ w = F.a ∧ u = F.op ∧ v = F.p ∧ n = some F.t ∧
    e = mkA (F.e0.isConstrained || F.f0.isConstrained) F.f0) ∨
  (y = F.ot ∧ w = F.op ∧ u = F.p ∧ v = F.a ∧ n = F.n1 ∧ e = linkA F.n1 F.g1 F.e1) ∨
  (y = F.ot ∧ w = F.p ∧ u = F.a ∧ v = F.op ∧ n = F.n4 ∧ e = linkA F.n4 F.g4 F.f4) ∨
  (F.n1 = some y ∧ w = F.x1 ∧ u = F.a ∧ v = F.p ∧ n = some F.ot ∧
    e = mkA (F.e1.isConstrained || F.g1.isConstrained) F.g1) ∨
  (F.n2 = some y ∧ w = F.x2 ∧ u = F.p ∧ v = F.b ∧ n = some F.t ∧
    e = mkA (F.e2.isConstrained || F.g2.isConstrained) F.g2) ∨
  (F.n3 = some y ∧ w = F.x3 ∧ u = F.b ∧ v = F.op ∧ n = some F.t ∧
    e = mkA (F.f3.isConstrained || F.g3.isConstrained) F.g3) ∨
  (F.n4 = some y ∧ w = F.x4 ∧ u = F.op ∧ v = F.a ∧ n = some F.ot ∧
    e = mkA (F.f4.isConstrained || F.g4.isConstrained) F.g4) ∨
  (y ≠ F.t ∧ y ≠ F.ot ∧ n ≠ some F.t ∧ n ≠ some F.ot ∧ Sl ts y w u v n e)

end Flip

/-- Two half-edges of one triangle. -/
theorem sl_two {ts : Store} {x w u v n e w' u' v' n' e'} (h : Sl ts x w u v n e) (d : D3 w u v)
    (h' : Sl ts x w' u' v' n' e') :
    (w' = w ∧ u' = u ∧ v' = v ∧ n' = n ∧ e' = e) ∨ (w' = u ∧ u' = v ∧ v' = w) ∨
      (w' = v ∧ u' = w ∧ v' = u) := by
  obtain ⟨T, n1, n2, e1, e2, hT, hv⟩ := h.view
  rw [sl_iff_of_view hT hv] at h'
  obtain ⟨d1, d2, d3⟩ := d
  rcases h' with ⟨rfl, rfl, rfl, rfl, rfl⟩ | ⟨rfl, rfl, rfl, -, -⟩ | ⟨rfl, rfl, rfl, -, -⟩ <;> simp

/-- Facts about the quadrilateral that follow from orientation. -/
structure Flip.Facts (F : Flip) : Prop where
  pa : F.p ≠ F.a
  pb : F.p ≠ F.b
  pop : F.p ≠ F.op
  ab : F.a ≠ F.b
  aop : F.a ≠ F.op
  bop : F.b ≠ F.op
  tot : F.t ≠ F.ot
  u1 : F.n1 ≠ some F.t ∧ F.n1 ≠ some F.ot
  u2 : F.n2 ≠ some F.t ∧ F.n2 ≠ some F.ot
  u3 : F.n3 ≠ some F.t ∧ F.n3 ≠ some F.ot
  u4 : F.n4 ≠ some F.t ∧ F.n4 ≠ some F.ot
  u12 : ∀ u, F.n1 = some u → F.n2 ≠ some u
  u13 : ∀ u, F.n1 = some u → F.n3 ≠ some u
  u14 : ∀ u, F.n1 = some u → F.n4 ≠ some u
  u23 : ∀ u, F.n2 = some u → F.n3 ≠ some u
  u24 : ∀ u, F.n2 = some u → F.n4 ≠ some u
  u34 : ∀ u, F.n3 = some u → F.n4 ≠ some u
  y1 : ∀ u, F.n1 = some u → D3 F.x1 F.a F.p ∧ F.op ≠ F.x1
  y2 : ∀ u, F.n2 = some u → D3 F.x2 F.p F.b ∧ F.op ≠ F.x2
  y3 : ∀ u, F.n3 = some u → D3 F.x3 F.b F.op ∧ F.p ≠ F.x3
  y4 : ∀ u, F.n4 = some u → D3 F.x4 F.op F.a ∧ F.p ≠ F.x4

theorem Flip.Pre.facts {F : Flip} {W} {ts : Store} (o : Ori W) (m : MeshOk W ts) (h : F.Pre W ts) :
    F.Facts := by
  have wT := m.wo h.s0
  have wO := m.wo h.o0
  have dT := o.d3 wT
  have dO := o.d3 wO
  have d1 := o.d3 h.w1
  have d2 := o.d3 h.w2
  have rT := o.rot wT
  have rT' := o.rot rT
  have rO := o.rot wO
  have rO' := o.rot rO
  have r1 := o.rot h.w1
  have r1' := o.rot r1
  have r2 := o.rot h.w2
  have r2' := o.rot r2
  have aT := o.anti wT
  have aT1 := o.anti rT
  have aT2 := o.anti rT'
  have aO := o.anti wO
  have aO1 := o.anti rO
  have aO2 := o.anti rO'
  have a1 := o.anti h.w1
  have a11 := o.anti r1
  have a12 := o.anti r1'
  have a2 := o.anti h.w2
  have a21 := o.anti r2
  have a22 := o.anti r2'
  have W1 : ∀ u, F.n1 = some u → W F.x1 F.a F.p := fun u hu => m.wo (h.h1 u hu)
  have W2 : ∀ u, F.n2 = some u → W F.x2 F.p F.b := fun u hu => m.wo (h.h2 u hu)
  have W3 : ∀ u, F.n3 = some u → W F.x3 F.b F.op := fun u hu => m.wo (h.h3 u hu)
  have W4 : ∀ u, F.n4 = some u → W F.x4 F.op F.a := fun u hu => m.wo (h.h4 u hu)
  have X1 : ∀ u, F.n1 = some u → D3 F.x1 F.a F.p ∧ F.op ≠ F.x1 ∧ F.b ≠ F.x1 := by
    intro u hu; have := W1 u hu
    exact ⟨o.d3 this, fun e => by rw [← e] at this; contradiction, fun e => by rw [← e] at this; contradiction⟩
  have X2 : ∀ u, F.n2 = some u → D3 F.x2 F.p F.b ∧ F.op ≠ F.x2 ∧ F.a ≠ F.x2 := by
    intro u hu; have := W2 u hu
    exact ⟨o.d3 this, fun e => by rw [← e] at this; contradiction, fun e => by rw [← e] at this; contradiction⟩
  have X3 : ∀ u, F.n3 = some u → D3 F.x3 F.b F.op ∧ F.p ≠ F.x3 ∧ F.a ≠ F.x3 := by
    intro u hu; have := W3 u hu
    exact ⟨o.d3 this, fun e => by rw [← e] at this; contradiction, fun e => by rw [← e] at this; contradiction⟩
  have X4 : ∀ u, F.n4 = some u → D3 F.x4 F.op F.a ∧ F.p ≠ F.x4 ∧ F.b ≠ F.x4 := by
    intro u hu; have := W4 u hu
    exact ⟨o.d3 this, fun e => by rw [← e] at this; contradiction, fun e => by rw [← e] at this; contradiction⟩
  clear W1 W2 W3 W4 aT aT1 aT2 aO aO1 aO2 a1 a11 a12 a2 a21 a22 r1 r1' r2 r2' rT rT' rO rO' wT wO
  obtain ⟨k1, k2, k3⟩ := dT
  obtain ⟨k4, k5, k6⟩ := dO
  obtain ⟨k7, k8, k9⟩ := d1
  obtain ⟨k10, k11, k12⟩ := d2
  have key : ∀ {x w u v n e w' u' v' n' e'}, Sl ts x w u v n e → D3 w u v → Sl ts x w' u' v' n' e' →
    (w' = w ∧ u' = u ∧ v' = v) ∨ (w' = u ∧ u' = v ∧ v' = w) ∨ (w' = v ∧ u' = w ∧ v' = u) := by
    intro x w u v n e w' u' v' n' e' h d h'
    rcases sl_two h d h' with h | h | h
    · exact .inl ⟨h.1, h.2.1, h.2.2.1⟩
    · exact .inr (.inl h)
    · exact .inr (.inr h)
  have dT : D3 F.p F.a F.b := ⟨k1, k2, k3⟩
  have dO : D3 F.op F.b F.a := ⟨k4, k5, k6⟩
  refine ⟨k1, k3, k12, k2, k11, k8.symm, ?_, ?_, ?_, ?_, ?_, ?_, ?_, ?_, ?_, ?_, ?_,
    fun u hu => ⟨(X1 u hu).1, (X1 u hu).2.1⟩, fun u hu => ⟨(X2 u hu).1, (X2 u hu).2.1⟩,
    fun u hu => ⟨(X3 u hu).1, (X3 u hu).2.1⟩, fun u hu => ⟨(X4 u hu).1, (X4 u hu).2.1⟩⟩
  · intro e
    have := h.o0; rw [← e] at this
    have := key h.s0 dT this
    grind
  · constructor <;> intro e
    · have := key h.s0 dT (h.h1 _ e); grind [D3]
    · have := key h.o0 dO (h.h1 _ e); grind [D3]
  · constructor <;> intro e
    · have := key h.s0 dT (h.h2 _ e); grind [D3]
    · have := key h.o0 dO (h.h2 _ e); grind [D3]
  · constructor <;> intro e
    · have := key h.s0 dT (h.h3 _ e); grind [D3]
    · have := key h.o0 dO (h.h3 _ e); grind [D3]
  · constructor <;> intro e
    · have := key h.s0 dT (h.h4 _ e); grind [D3]
    · have := key h.o0 dO (h.h4 _ e); grind [D3]
  · intro u e e'
    have := key (h.h1 u e) (X1 u e).1 (h.h2 u e'); have := X1 u e; have := X2 u e'; grind [D3]
  · intro u e e'
    have := key (h.h1 u e) (X1 u e).1 (h.h3 u e'); have := X1 u e; have := X3 u e'; grind [D3]
  · intro u e e'
    have := key (h.h1 u e) (X1 u e).1 (h.h4 u e'); have := X1 u e; have := X4 u e'; grind [D3]
  · intro u e e'
    have := key (h.h2 u e) (X2 u e).1 (h.h3 u e'); have := X2 u e; have := X3 u e'; grind [D3]
  · intro u e e'
    have := key (h.h2 u e) (X2 u e).1 (h.h4 u e'); have := X2 u e; have := X4 u e'; grind [D3]
  · intro u e e'
    have := key (h.h3 u e) (X3 u e).1 (h.h4 u e'); have := X3 u e; have := X4 u e'; grind [D3]


theorem Flip.Pre.viewT {F : Flip} {W} {ts : Store} (h : F.Pre W ts) (d : F.Facts) :
    ∃ T, ts[F.t]? = some T ∧ T.View ⟨F.p, F.a, F.b⟩ ⟨some F.ot, F.n2, F.n1⟩ ⟨F.e0, F.e2, F.e1⟩ := by
  obtain ⟨T, n1, n2, e1, e2, hT, hv⟩ := h.s0.view
  have h1 := (sl_iff_of_view hT hv ..).1 h.s1
  have h2 := (sl_iff_of_view hT hv ..).1 h.s2
  have k1 := d.pa; have k2 := d.ab; have k3 := d.pb
  have : F.n1 = n2 ∧ F.e1 = e2 := by grind
  have : F.n2 = n1 ∧ F.e2 = e1 := by grind
  refine ⟨T, hT, ?_⟩
  grind

theorem Flip.Pre.viewO {F : Flip} {W} {ts : Store} (h : F.Pre W ts) (d : F.Facts) :
    ∃ T, ts[F.ot]? = some T ∧ T.View ⟨F.op, F.b, F.a⟩ ⟨some F.t, F.n4, F.n3⟩ ⟨F.f0, F.f4, F.f3⟩ := by
  obtain ⟨T, n1, n2, e1, e2, hT, hv⟩ := h.o0.view
  have h1 := (sl_iff_of_view hT hv ..).1 h.o3
  have h2 := (sl_iff_of_view hT hv ..).1 h.o4
  have k1 := d.aop; have k2 := d.ab; have k3 := d.bop
  have : F.n3 = n2 ∧ F.f3 = e2 := by grind
  have : F.n4 = n1 ∧ F.f4 = e1 := by grind
  refine ⟨T, hT, ?_⟩
  grind

/-- The interior flags of a store. -/
def flagsOf (ts : Store) : List Bool := ts.map (·.interior)

theorem flagsOf_set {ts : Store} {t : Nat} {T T' : Tri} (h : ts[t]? = some T)
    (h' : T'.interior = T.interior) : flagsOf (ts.set t T') = flagsOf ts := by
  unfold flagsOf
  rw [List.map_set, h']
  apply List.ext_getElem?
  intro i
  rw [List.getElem?_set]
  split
  · subst_vars; simp only [List.getElem?_map, h, Option.map_some]
    split
    · rfl
    · have := (List.getElem?_eq_some_iff.1 h).1; simp at *; omega
  · rfl

theorem markTwo_interior (l r : Nat) (L R : Tri) :
    (Store.markTwo l r L R).1.interior = L.interior ∧ (Store.markTwo l r L R).2.interior = R.interior := by
  unfold Store.markTwo
  split <;> simp [Tri.setConstrained, Tri.setDelaunay]

theorem flagsOf_markPair {ts : Store} {l r : Nat} (h : l ≠ r) :
    flagsOf (Store.markPair ts l r) = flagsOf ts := by
  unfold Store.markPair
  split
  · rename_i L R hL hR
    have := markTwo_interior l r L R
    have e : (ts.set l (Store.markTwo l r L R).1)[r]? = some R := by
      rw [List.getElem?_set]; simp [h, hR]
    show flagsOf ((ts.set l (Store.markTwo l r L R).1).set r (Store.markTwo l r L R).2) = _
    rw [flagsOf_set e this.2, flagsOf_set hL this.1]
  · rfl

theorem flagsOf_markOpt {ts : Store} {l : Nat} {r : Option Nat} (h : r ≠ some l) :
    flagsOf (Store.markOpt ts l r) = flagsOf ts := by
  unfold Store.markOpt
  split
  · rfl
  · apply flagsOf_markPair; intro e; subst e; contradiction

theorem six_aux {t ot len : Nat} {n1 n2 n3 n4 : Option Nat} (tt : t ≠ ot) (lt : t < len) (lo : ot < len)
    (b1 : n1 ≠ some t ∧ n1 ≠ some ot) (b2 : n2 ≠ some t ∧ n2 ≠ some ot)
    (b3 : n3 ≠ some t ∧ n3 ≠ some ot) (b4 : n4 ≠ some t ∧ n4 ≠ some ot)
    (k1 : ∀ u, n1 = some u → n2 ≠ some u) (k2 : ∀ u, n1 = some u → n3 ≠ some u)
    (k3 : ∀ u, n1 = some u → n4 ≠ some u) (k4 : ∀ u, n2 = some u → n3 ≠ some u)
    (k5 : ∀ u, n2 = some u → n4 ≠ some u) (k6 : ∀ u, n3 = some u → n4 ≠ some u)
    (l1 : ∀ u, n1 = some u → u < len) (l2 : ∀ u, n2 = some u → u < len)
    (l3 : ∀ u, n3 = some u → u < len) (l4 : ∀ u, n4 = some u → u < len) :
    ([t, ot] ++ ([n1, n2, n3, n4].filterMap id)).Nodup ∧
      ∀ i ∈ [t, ot] ++ ([n1, n2, n3, n4].filterMap id), i < len := by
  constructor
  · rcases n1 with _ | n1 <;> rcases n2 with _ | n2 <;> rcases n3 with _ | n3 <;> rcases n4 with _ | n4 <;>
      simp_all [eq_comm]
  · intro i hi
    simp only [List.mem_append, List.mem_filterMap, List.mem_cons, List.not_mem_nil, or_false, id] at hi
    grind

theorem rotatePair_spec {F : Flip} {W} {ts : Store} (o : Ori W) (m : MeshOk W ts) (h : F.Pre W ts) :
    ∃ ts', Store.rotatePair ts F.t F.p F.ot F.op =
        .ok (ts', F.n1.isNone || F.n2.isNone || F.n3.isNone || F.n4.isNone) ∧
      F.Rel ts ts' ∧ ts'.length = ts.length ∧ flagsOf ts' = flagsOf ts := by
  have d := h.facts o m
  obtain ⟨T, hT, vT⟩ := h.viewT d
  obtain ⟨O, hO, vO⟩ := h.viewO d
  have dT : D3 F.p F.a F.b := ⟨d.pa, d.ab, d.pb⟩
  have dO : D3 F.op F.b F.a := ⟨d.bop.symm, d.ab.symm, d.aop.symm⟩
  have lt := h.s0.lt
  have lo := h.o0.lt
  obtain ⟨T1, hT1, vT1, iT1⟩ := vT.rotateCw dT F.op
  obtain ⟨O1, hO1, vO1, iO1⟩ := vO.rotateCw dO F.p
  have dT1 : D3 F.b F.p F.op := ⟨d.pb.symm, d.pop, d.bop⟩
  have dO1 : D3 F.a F.op F.p := ⟨d.aop, d.pop.symm, d.pa.symm⟩
  obtain ⟨T2, hT2, vT2, iT2⟩ := vT1.rot.setEdgeAttrCw dT1.rot F.e2
  obtain ⟨T3, hT3, vT3, iT3⟩ := vT2.rot.setEdgeAttrCcw dT1.rot.rot F.f3
  obtain ⟨O2, hO2, vO2, iO2⟩ := vO1.rot.rot.setEdgeAttrCcw dO1.rot.rot F.e1
  obtain ⟨O3, hO3, vO3, iO3⟩ := vO2.rot.rot.setEdgeAttrCw dO1.rot F.f4
  replace hO2 : O1.setEdgeAttrCcw F.p F.e1 = .ok O2 := hO2
  replace hO3 : O2.setEdgeAttrCw F.op F.f4 = .ok O3 := hO3
  replace hT2 : T1.setEdgeAttrCw F.p F.e2 = .ok T2 := hT2
  replace hT3 : T2.setEdgeAttrCcw F.op F.f3 = .ok T3 := hT3
  have vT4 : T3.clearNeighbors.View ⟨F.b, F.p, F.op⟩ ⟨none, none, none⟩ ⟨F.e0, F.f3, F.e2⟩ := vT3.rot.clear
  have vO4 : O3.clearNeighbors.View ⟨F.a, F.op, F.p⟩ ⟨none, none, none⟩ ⟨F.f0, F.e1, F.f4⟩ := vO3.rot.rot.clear
  obtain ⟨T5, O5, hm, vT5, vO5, iT5, iO5⟩ :=
    markTwo_view (l := F.t) (r := F.ot) vT4 vO4 dT1 dO1 d.ab.symm
  have iT : T5.interior = T.interior := by
    rw [iT5, ← iT1, ← iT2, ← iT3]; rfl
  have iO : O5.interior = O.interior := by
    rw [iO5, ← iO1, ← iO2, ← iO3]; rfl
  have e1 : (ts.set F.t T5)[F.ot]? = some O := by
    rw [List.getElem?_set]; simp [d.tot, hO]
  -- the store after the two triangles are written
  let s0 : Store := (ts.set F.t T5).set F.ot O5
  have fl0 : flagsOf s0 = flagsOf ts := by
    show flagsOf ((ts.set F.t T5).set F.ot O5) = _
    rw [flagsOf_set e1 iO, flagsOf_set hT iT]
  have len0 : s0.length = ts.length := by simp [s0]
  have sl0 : ∀ y w u v n e, Sl s0 y w u v n e ↔
      (y = F.ot ∧ O5.Slot w u v n e) ∨ (y ≠ F.ot ∧ ((y = F.t ∧ T5.Slot w u v n e) ∨ (y ≠ F.t ∧ Sl ts y w u v n e))) := by
    intro y w u v n e
    show Sl ((ts.set F.t T5).set F.ot O5) y w u v n e ↔ _
    rw [sl_set (by simpa using lo), sl_set lt]
  simp only [vT5.slot_iff, vO5.slot_iff] at sl0
  have six : Store.getMutSix s0 F.t F.ot F.n1 F.n2 F.n3 F.n4 = .ok () := by
    have k1 := d.u12; have k2 := d.u13; have k3 := d.u14
    have k4 := d.u23; have k5 := d.u24; have k6 := d.u34
    have b1 := d.u1; have b2 := d.u2; have b3 := d.u3; have b4 := d.u4
    have l1 := fun u hu => (h.h1 u hu).lt
    have l2 := fun u hu => (h.h2 u hu).lt
    have l3 := fun u hu => (h.h3 u hu).lt
    have l4 := fun u hu => (h.h4 u hu).lt
    simp only [Store.getMutSix, Store.assertTwo, len0]
    rw [if_pos ⟨d.tot, lt, lo⟩]
    have tt := d.tot
    simp only [ok_bind]
    rw [if_pos]
    · rfl
    · exact six_aux tt lt lo b1 b2 b3 b4 k1 k2 k3 k4 k5 k6 l1 l2 l3 l4
  -- the four outer links
  let s1 := Store.markOpt s0 F.t F.n2
  let s2 := Store.markOpt s1 F.t F.n3
  let s3 := Store.markOpt s2 F.ot F.n1
  let s4 := Store.markOpt s3 F.ot F.n4
  have run : Store.rotatePair ts F.t F.p F.ot F.op =
        .ok (s4, F.n1.isNone || F.n2.isNone || F.n3.isNone || F.n4.isNone) := by
    simp only [Store.rotatePair, Store.assertTwo, Store.getU, hT, hO]
    rw [if_pos ⟨d.tot, lt, lo⟩]
    simp only [ok_bind, vT.neighborCcw dT, vT.neighborCw dT, vO.neighborCcw dO, vO.neighborCw dO,
      vT.edgeAttrCcw dT, vT.edgeAttrCw dT, vO.edgeAttrCcw dO, vO.edgeAttrCw dO, hT1, hO1, hT2, hT3, hO2,
      hO3, hm]
    change (Store.getMutSix s0 F.t F.ot F.n1 F.n2 F.n3 F.n4 >>= _) = _
    rw [six]
    rfl
  refine ⟨s4, run, ?_, by simp [s4, s3, s2, s1, len0], ?_⟩
  · have S : ∀ {y w u v n e}, Sl ts y w u v n e → y ≠ F.t → y ≠ F.ot → Sl s0 y w u v n e := by
      intro y w u v n e hs h1 h2
      exact (sl0 ..).2 (.inr ⟨h2, .inr ⟨h1, hs⟩⟩)
    have m1 := markOpt_sl (ts := s0) (l := F.t) (w := F.op) (u := F.b) (v := F.p) (e := F.e2) (r := F.n2)
      (x := F.x2) (f := F.g2) (m := some F.t)
      ((sl0 ..).2 (.inr ⟨d.tot, .inl ⟨rfl, by simp⟩⟩)) dT1.rot.rot
      (fun r hr => ⟨S (h.h2 r hr) (fun e => d.u2.1 (e ▸ hr)) (fun e => d.u2.2 (e ▸ hr)), (d.y2 r hr).1,
        (d.y2 r hr).2, fun e => d.u2.1 (e ▸ hr)⟩)
    have S1 : ∀ {y w u v n e}, Sl s0 y w u v n e → ¬ (y = F.t ∧ w = F.op) → F.n2 ≠ some y →
        Sl s1 y w u v n e := fun hs h1 h2 => (m1 ..).2 (.inr (.inr ⟨hs, h1, fun e => h2 e.1⟩))
    have m2 := markOpt_sl (ts := s1) (l := F.t) (w := F.p) (u := F.op) (v := F.b) (e := F.f3) (r := F.n3)
      (x := F.x3) (f := F.g3) (m := some F.ot)
      (S1 ((sl0 ..).2 (.inr ⟨d.tot, .inl ⟨rfl, by simp⟩⟩)) (fun e => d.pop e.2) d.u2.1) dT1.rot
      (fun r hr => ⟨S1 (S (h.h3 r hr) (fun e => d.u3.1 (e ▸ hr)) (fun e => d.u3.2 (e ▸ hr)))
          (fun e => d.u3.1 (e.1 ▸ hr)) (fun e => d.u23 r e hr), (d.y3 r hr).1,
        (d.y3 r hr).2, fun e => d.u3.1 (e ▸ hr)⟩)
    have S2 : ∀ {y w u v n e}, Sl s1 y w u v n e → y ≠ F.t → F.n3 ≠ some y →
        Sl s2 y w u v n e := fun hs h1 h2 => (m2 ..).2 (.inr (.inr ⟨hs, fun e => h1 e.1, fun e => h2 e.1⟩))
    have m3 := markOpt_sl (ts := s2) (l := F.ot) (w := F.op) (u := F.p) (v := F.a) (e := F.e1) (r := F.n1)
      (x := F.x1) (f := F.g1) (m := some F.t)
      (S2 (S1 ((sl0 ..).2 (.inl ⟨rfl, by simp⟩)) (fun e => d.tot e.1.symm) d.u2.2) d.tot.symm d.u3.2) dO1.rot
      (fun r hr => ⟨S2 (S1 (S (h.h1 r hr) (fun e => d.u1.1 (e ▸ hr)) (fun e => d.u1.2 (e ▸ hr)))
          (fun e => d.u1.1 (e.1 ▸ hr)) (d.u12 r hr)) (fun e => d.u1.1 (e ▸ hr)) (d.u13 r hr),
        (d.y1 r hr).1, (d.y1 r hr).2, fun e => d.u1.2 (e ▸ hr)⟩)
    have S3 : ∀ {y w u v n e}, Sl s2 y w u v n e → ¬ (y = F.ot ∧ w = F.op) → F.n1 ≠ some y →
        Sl s3 y w u v n e := fun hs h1 h2 => (m3 ..).2 (.inr (.inr ⟨hs, h1, fun e => h2 e.1⟩))
    have m4 := markOpt_sl (ts := s3) (l := F.ot) (w := F.p) (u := F.a) (v := F.op) (e := F.f4) (r := F.n4)
      (x := F.x4) (f := F.g4) (m := some F.ot)
      (S3 (S2 (S1 ((sl0 ..).2 (.inl ⟨rfl, by simp⟩)) (fun e => d.tot e.1.symm) d.u2.2) d.tot.symm d.u3.2)
        (fun e => d.pop e.2) d.u1.2) dO1.rot.rot
      (fun r hr => ⟨S3 (S2 (S1 (S (h.h4 r hr) (fun e => d.u4.1 (e ▸ hr)) (fun e => d.u4.2 (e ▸ hr)))
          (fun e => d.u4.1 (e.1 ▸ hr)) (fun e => d.u24 r e hr)) (fun e => d.u4.1 (e ▸ hr))
          (fun e => d.u34 r e hr)) (fun e => d.u4.2 (e.1 ▸ hr)) (fun e => d.u14 r e hr),
        (d.y4 r hr).1, (d.y4 r hr).2, fun e => d.u4.2 (e ▸ hr)⟩)
    intro y w u v n e
    change Sl (Store.markOpt s3 F.ot F.n4) y w u v n e ↔ _
    rw [m4]
    change _ ∨ _ ∨ (Sl (Store.markOpt s2 F.ot F.n1) y w u v n e ∧ _) ↔ _
    rw [m3]
    change _ ∨ _ ∨ ((_ ∨ _ ∨ (Sl (Store.markOpt s1 F.t F.n3) y w u v n e ∧ _)) ∧ _) ↔ _
    rw [m2]
    change _ ∨ _ ∨ ((_ ∨ _ ∨ ((_ ∨ _ ∨ (Sl (Store.markOpt s0 F.t F.n2) y w u v n e ∧ _)) ∧ _)) ∧ _) ↔ _
    rw [m1, sl0]
    clear m1 m2 m3 m4 S S1 S2 S3 sl0 run six
    -- a half-edge pointing to `t` or `ot` is one of the four
    have P : y ≠ F.t → y ≠ F.ot → Sl ts y w u v n e → (n = some F.t ∨ n = some F.ot ↔
        ((F.n1 = some y ∧ w = F.x1) ∨ (F.n2 = some y ∧ w = F.x2) ∨ (F.n3 = some y ∧ w = F.x3) ∨
          (F.n4 = some y ∧ w = F.x4))) := by
      intro ht ho hs
      constructor
      · rintro (rfl | rfl)
        · obtain ⟨w', e', hw'⟩ := m.sym hs
          have k := (sl_iff_of_view hT vT ..).1 hw'
          rcases k with ⟨rfl, rfl, rfl, k, rfl⟩ | ⟨rfl, rfl, rfl, k, rfl⟩ | ⟨rfl, rfl, rfl, k, rfl⟩
          · simp at k; omega
          · right; left; refine ⟨k.symm, ?_⟩
            have := sl_two (h.h2 y k.symm) (d.y2 y k.symm).1 hs
            have := (d.y2 y k.symm).1; grind [D3]
          · left; refine ⟨k.symm, ?_⟩
            have := sl_two (h.h1 y k.symm) (d.y1 y k.symm).1 hs
            have := (d.y1 y k.symm).1; grind [D3]
        · obtain ⟨w', e', hw'⟩ := m.sym hs
          have k := (sl_iff_of_view hO vO ..).1 hw'
          rcases k with ⟨rfl, rfl, rfl, k, rfl⟩ | ⟨rfl, rfl, rfl, k, rfl⟩ | ⟨rfl, rfl, rfl, k, rfl⟩
          · simp at k; omega
          · right; right; right; refine ⟨k.symm, ?_⟩
            have := sl_two (h.h4 y k.symm) (d.y4 y k.symm).1 hs
            have := (d.y4 y k.symm).1; grind [D3]
          · right; right; left; refine ⟨k.symm, ?_⟩
            have := sl_two (h.h3 y k.symm) (d.y3 y k.symm).1 hs
            have := (d.y3 y k.symm).1; grind [D3]
      · rintro (⟨k, rfl⟩ | ⟨k, rfl⟩ | ⟨k, rfl⟩ | ⟨k, rfl⟩)
        · have := sl_two (h.h1 y k) (d.y1 y k).1 hs
          have := (d.y1 y k).1; grind [D3]
        · have := sl_two (h.h2 y k) (d.y2 y k).1 hs
          have := (d.y2 y k).1; grind [D3]
        · have := sl_two (h.h3 y k) (d.y3 y k).1 hs
          have := (d.y3 y k).1; grind [D3]
        · have := sl_two (h.h4 y k) (d.y4 y k).1 hs
          have := (d.y4 y k).1; grind [D3]
    have b1 := d.u1; have b2 := d.u2; have b3 := d.u3; have b4 := d.u4
    have k1 := d.u12 y; have k2 := d.u13 y; have k3 := d.u14 y
    have k4 := d.u23 y; have k5 := d.u24 y; have k6 := d.u34 y
    have tt := d.tot; have j1 := d.pop; have j2 := d.aop; have j3 := d.bop; have j4 := d.pa; have j5 := d.pb
    have j6 := d.ab
    clear vT vO vT1 vT2 vT3 vT4 vT5 vO1 vO2 vO3 vO4 vO5 hm fl0 len0 e1 h m o dT dO dT1 dO1 d s4 s3 s2 s1 s0
    clear hT1 hT2 hT3 hO1 hO2 hO3 iT iO iT1 iT2 iT3 iT5 iO1 iO2 iO3 iO5 lt lo hT hO
    by_cases hy : y = F.t
    · subst hy
      have e1 : F.n1 ≠ some F.t := b1.1
      simp only [b1.1, b2.1, b3.1, b4.1, tt, false_and, true_and, false_or, ne_eq, not_false_eq_true, and_true,
        not_true_eq_false, and_false, or_false]
      grind
    · by_cases hy' : y = F.ot
      · subst hy'
        simp only [b1.2, b2.2, b3.2, b4.2, tt.symm, false_and, true_and, false_or, ne_eq, not_false_eq_true, and_true,
          not_true_eq_false, and_false, or_false]
        grind
      · simp only [hy, hy', false_and, true_and, false_or, ne_eq, not_false_eq_true, and_true,
          not_true_eq_false, and_false, or_false]
        by_cases hs : Sl ts y w u v n e
        · have P := P hy hy' hs
          simp only [hs, true_and, and_true]
          by_cases c1 : F.n1 = some y
          · have := k1 c1; have := k2 c1; have := k3 c1
            simp only [*, true_and, false_and, false_or, or_false, not_true_eq_false, not_false_eq_true, and_true,
              true_or] at P ⊢
            grind
          · by_cases c2 : F.n2 = some y
            · have := k4 c2; have := k5 c2
              simp only [*, true_and, false_and, false_or, or_false, not_true_eq_false, not_false_eq_true, and_true,
                true_or] at P ⊢
              grind
            · by_cases c3 : F.n3 = some y
              · have := k6 c3
                simp only [*, true_and, false_and, false_or, or_false, not_true_eq_false, not_false_eq_true, and_true,
                  true_or] at P ⊢
                grind
              · simp only [c1, c2, c3, true_and, false_and, false_or, or_false, not_true_eq_false, not_false_eq_true, and_true,
                  true_or, or_true] at P ⊢
                grind
        · simp only [hs, false_and, or_false, and_false]
          clear P
          by_cases c1 : F.n1 = some y
          · have := k1 c1; have := k2 c1; have := k3 c1
            simp only [*, true_and, false_and, false_or, or_false, not_true_eq_false, not_false_eq_true, and_true,
              true_or]
          · by_cases c2 : F.n2 = some y
            · have := k4 c2; have := k5 c2
              simp only [*, true_and, false_and, false_or, or_false, not_true_eq_false, not_false_eq_true, and_true,
                true_or]
            · by_cases c3 : F.n3 = some y
              · have := k6 c3
                simp only [*, true_and, false_and, false_or, or_false, not_true_eq_false, not_false_eq_true, and_true,
                  true_or]
              · simp only [c1, c2, c3, false_and, false_or, or_false]
  · simp only [s4, s3, s2, s1]
    rw [flagsOf_markOpt d.u4.2, flagsOf_markOpt d.u1.2, flagsOf_markOpt d.u3.1, flagsOf_markOpt d.u2.1, fl0]

end P2T
