import Verif.Proofs.Flip
import Verif.Spec.Bracket

/-!
# What every step of the sweep does, unconditionally

`Evolve s s'`: how a state may change during filling, legalization and edge insertion, without any
assumption on the mesh.
-/

namespace P2T

/-- The corners of a triangle. -/
def Tri.corners (T : Tri) : List Nat := [T.points.a, T.points.b, T.points.c]

/-- Callbacks made by legalization. -/
def Ev.isLegal : Ev → Bool
  | .willLegalize _ | .legalizeStep _ | .rotated _ _ | .legalized _ => true
  | _ => false

/-- Vertices in use: corners of triangles and front nodes. -/
def Uses (tris : Store) (f : Front) (v : Nat) : Prop :=
  (∃ T ∈ tris, v ∈ T.corners) ∨ ∃ e ∈ f.nodes, e.pid = v

/-- Key and point of the front nodes. -/
def Front.shape (f : Front) : List (Point × Nat) := f.nodes.map fun e => (e.key, e.pid)

/-- Triangles plus front nodes. -/
def Snap.size (s : Snap) : Nat := s.tris.length + s.front.nodes.length

/-- What directly follows a `rotated` callback: a `legalizeStep` callback on the mesh with that edge flipped. -/
def RotStep (x y : Ev × Snap) : Prop := ∀ t ot, x.1 = .rotated t ot → y.1 = .legalizeStep t ∧
  ∃ T i O op ts need, x.2.tris[t]? = some T ∧ T.neighbors.get i = some ot ∧ T.isConstrained i = false ∧ x.2.tris[ot]? = some O ∧
    O.oppositePoint T (T.points.get i) = .ok op ∧ Store.rotatePair x.2.tris t (T.points.get i) ot op = .ok (ts, need) ∧
    Store.flagDelaunay ts t ot = .ok y.2.tris

/-- Every `rotated` callback is followed by its flip (newest callback first). -/
structure RotLog (tr : List (Ev × Snap)) : Prop where
  head : ∀ x l, tr = x :: l → ∀ t ot, x.1 ≠ .rotated t ot
  step : ∀ l1 y x l2, tr = l1 ++ y :: x :: l2 → RotStep x y

theorem RotLog.nil : RotLog [] := ⟨by simp, by simp⟩

theorem RotLog.cons {tr : List (Ev × Snap)} (h : RotLog tr) {y : Ev × Snap} (hy : ∀ t ot, y.1 ≠ .rotated t ot) : RotLog (y :: tr) := by
  refine ⟨by rintro x l ⟨⟩; exact hy, ?_⟩
  intro l1 y' x l2 e
  cases l1 with
  | nil =>
    simp only [List.nil_append, List.cons.injEq] at e
    obtain ⟨rfl, rfl⟩ := e
    exact fun t ot k => (h.head _ _ rfl t ot k).elim
  | cons z l1 =>
    simp only [List.cons_append, List.cons.injEq] at e
    exact h.step l1 y' x l2 e.2

theorem RotLog.flip {tr : List (Ev × Snap)} (h : RotLog tr) {y x : Ev × Snap} (hx : RotStep x y) (hy : ∀ t ot, y.1 ≠ .rotated t ot) :
    RotLog (y :: x :: tr) := by
  refine ⟨by rintro z l ⟨⟩; exact hy, ?_⟩
  intro l1 y' x' l2 e
  cases l1 with
  | nil =>
    simp only [List.nil_append, List.cons.injEq] at e
    obtain ⟨rfl, rfl, rfl⟩ := e
    exact hx
  | cons z l1 =>
    cases l1 with
    | nil =>
      simp only [List.nil_append, List.cons_append, List.cons.injEq] at e
      obtain ⟨rfl, rfl, rfl⟩ := e
      exact fun t ot k => (h.head _ _ rfl t ot k).elim
    | cons w l1 =>
      simp only [List.cons_append, List.cons.injEq] at e
      exact h.step l1 y' x' l2 e.2.2

structure Evolve0 (s s' : St) : Prop where
  result : s'.result = s.result
  trace : ∃ l, s'.trace = l ++ s.trace ∧ ∀ x ∈ l, x.1.isLegal = true ∧ x.2.size = s.snap.size
  count : s'.tris.length + s'.front.nodes.length = s.tris.length + s.front.nodes.length
  grow : s.tris.length ≤ s'.tris.length
  inter : (∀ T ∈ s.tris, T.interior = false) → ∀ T ∈ s'.tris, T.interior = false
  uses : ∀ v, Uses s'.tris s'.front v → Uses s.tris s.front v
  front : s'.front.shape.Sublist s.front.shape
  rot : RotLog s.trace → RotLog s'.trace
  fronts : ∀ x ∈ s'.trace, x ∈ s.trace ∨ x.2.front.shape.Sublist s.front.shape

namespace Evolve0

theorem refl (s : St) : Evolve0 s s :=
  ⟨rfl, ⟨[], rfl, by simp⟩, rfl, Nat.le_refl _, id, fun _ => id, .refl _, id, fun _ h => .inl h⟩

theorem trans {s s' s'' : St} (h : Evolve0 s s') (h' : Evolve0 s' s'') : Evolve0 s s'' := by
  obtain ⟨l, hl, hl'⟩ := h.trace
  obtain ⟨l2, hl2, hl2'⟩ := h'.trace
  refine ⟨h'.result.trans h.result, ⟨l2 ++ l, by rw [hl2, hl]; simp, ?_⟩, h'.count.trans h.count,
    Nat.le_trans h.grow h'.grow, fun k => h'.inter (h.inter k), fun v k => h.uses v (h'.uses v k), h'.front.trans h.front, fun k => h'.rot (h.rot k),
    fun x hx => (h'.fronts x hx).elim (h.fronts x) fun k => .inr (k.trans h.front)⟩
  intro x hx
  rcases List.mem_append.1 hx with hx | hx
  · exact ⟨(hl2' x hx).1, (hl2' x hx).2.trans h.count⟩
  · exact hl' x hx

theorem emit {s : St} {e : Ev} (h : e.isLegal = true) (h' : ∀ t ot, e ≠ .rotated t ot) : Evolve0 s (s.emit e) :=
  ⟨rfl, ⟨[(e, s.snap)], rfl, by simp [h]⟩, rfl, Nat.le_refl _, id, fun _ => id, .refl _, fun k => k.cons h', fun x hx => by
    rcases List.mem_cons.1 hx with rfl | hx
    · exact .inr (.refl _)
    · exact .inl hx⟩

end Evolve0

theorem LegalBlocks.mono {n k m : Nat} {l : List (Ev × Nat)} (hn : n ≤ k) (h : LegalBlocks k l m) : LegalBlocks n l m := by
  cases h with
  | nil h => exact .nil (Nat.le_trans hn h)
  | block h1 h2 h3 h4 h5 => exact .block (Nat.le_trans hn h1) h2 h3 h4 h5

theorem LegalBlocks.append {n k m : Nat} {l r : List (Ev × Nat)} (h : LegalBlocks n l k) (h' : LegalBlocks k r m) : LegalBlocks n (l ++ r) m := by
  induction h with
  | nil h => exact h'.mono h
  | block h1 h2 h3 h4 _ ih =>
    have := LegalBlocks.block h1 h2 h3 h4 (ih h')
    simpa [List.append_assoc] using this

theorem LegalSteps.append {n : Nat} {l r : List (Ev × Nat)} (h : LegalSteps n l) (h' : LegalSteps n r) : LegalSteps n (l ++ r) := by
  induction h with
  | nil => exact h'
  | checked h _ ih => exact .checked h ih
  | flipped h1 h2 h3 _ ih => exact .flipped h1 h2 h3 ih

theorem counts_emit (s : St) (e : Ev) : (s.emit e).counts = s.counts ++ [(e, s.tris.length)] := by simp [St.counts, St.emit, St.snap]

theorem counts_eq {s s' : St} (h : s'.trace = s.trace) : s'.counts = s.counts := by unfold St.counts; rw [h]

structure Evolve (s s' : St) : Prop extends Evolve0 s s' where
  blocks : ∃ l, s'.counts = s.counts ++ l ∧ LegalBlocks s.tris.length l s'.tris.length

theorem Evolve.refl (s : St) : Evolve s s := ⟨.refl s, [], by simp, .nil (Nat.le_refl _)⟩

theorem Evolve.trans {s s' s'' : St} (h : Evolve s s') (h' : Evolve s' s'') : Evolve s s'' := by
  obtain ⟨l, e, k⟩ := h.blocks
  obtain ⟨l', e', k'⟩ := h'.blocks
  exact ⟨h.toEvolve0.trans h'.toEvolve0, l ++ l', by rw [e', e, List.append_assoc], k.append k'⟩

/-- A change without callbacks. -/
theorem Evolve0.silent {s s' : St} (h : Evolve0 s s') (ht : s'.trace = s.trace) : Evolve s s' :=
  ⟨h, [], by rw [counts_eq ht]; simp, .nil h.grow⟩

/-! ## The triangle store -/

/-- Same number of triangles, no new corner, no new interior mark. -/
structure SEv (ts ts' : Store) : Prop where
  len : ts'.length = ts.length
  inter : (∀ T ∈ ts, T.interior = false) → ∀ T ∈ ts', T.interior = false
  corners : ∀ T' ∈ ts', ∀ v ∈ T'.corners, ∃ T ∈ ts, v ∈ T.corners

theorem SEv.refl (ts : Store) : SEv ts ts := ⟨rfl, id, fun T h _ hv => ⟨T, h, hv⟩⟩
theorem SEv.trans {a b c : Store} (h : SEv a b) (h' : SEv b c) : SEv a c :=
  ⟨h'.len.trans h.len, fun k => h'.inter (h.inter k), fun T hT v hv => by
    obtain ⟨T', hT', hv'⟩ := h'.corners T hT v hv
    exact h.corners T' hT' v hv'⟩

theorem SEv.evolve {s : St} {ts : Store} (h : SEv s.tris ts) : Evolve s { s with tris := ts } := by
  refine Evolve0.silent ⟨rfl, ⟨[], rfl, by simp⟩, by simp [h.len], by simp [h.len], h.inter, ?_, .refl _, id, fun _ h => .inl h⟩ rfl
  rintro v (⟨T, hT, hv⟩ | hv)
  · exact .inl (h.corners T hT v hv)
  · exact .inr hv

theorem SEv.set {ts : Store} {t : Nat} {T : Tri}
    (h1 : (∀ T ∈ ts, T.interior = false) → T.interior = false)
    (h2 : ∀ v ∈ T.corners, ∃ T ∈ ts, v ∈ T.corners) : SEv ts (ts.set t T) := by
  refine ⟨by simp, fun k T' hT' => ?_, fun T' hT' v hv => ?_⟩
  · rcases List.mem_or_eq_of_mem_set hT' with h | rfl
    · exact k _ h
    · exact h1 k
  · rcases List.mem_or_eq_of_mem_set hT' with h | rfl
    · exact ⟨_, h, hv⟩
    · exact h2 v hv

/-- Replacing a triangle by one with the same corners and mark. -/
theorem SEv.set_same {ts : Store} {t : Nat} {T T' : Tri} (h : ts[t]? = some T) (h1 : T'.interior = T.interior)
    (h2 : T'.points = T.points) : SEv ts (ts.set t T') :=
  SEv.set (fun k => h1 ▸ k _ (List.mem_of_getElem? h))
    (fun v hv => ⟨T, List.mem_of_getElem? h, by simpa [Tri.corners, h2] using hv⟩)

theorem markTwo_points (l r : Nat) (L R : Tri) :
    (Store.markTwo l r L R).1.points = L.points ∧ (Store.markTwo l r L R).2.points = R.points := by
  unfold Store.markTwo
  split <;> simp [Tri.setConstrained, Tri.setDelaunay]

theorem markPair_sev (ts : Store) (l r : Nat) : SEv ts (Store.markPair ts l r) := by
  unfold Store.markPair
  split
  · rename_i L R hL hR
    have hi := markTwo_interior l r L R
    have hp := markTwo_points l r L R
    show SEv ts ((ts.set l (Store.markTwo l r L R).1).set r (Store.markTwo l r L R).2)
    refine (SEv.set_same hL hi.1 hp.1).trans (.set (fun k => ?_) (fun v hv => ?_))
    · rw [hi.2]
      by_cases e : l = r
      · subst e
        have := k (Store.markTwo l l L R).1 (List.mem_of_getElem? (i := l) (by
          rw [List.getElem?_set]; simp [(List.getElem?_eq_some_iff.1 hL).1]))
        rw [hL] at hR; cases hR; rw [← this, hi.1]
      · exact k _ (List.mem_of_getElem? (i := r) (by rw [List.getElem?_set]; simp [e, hR]))
    · by_cases e : l = r
      · subst e
        refine ⟨(Store.markTwo l l L R).1, List.mem_of_getElem? (i := l) (by
          rw [List.getElem?_set]; simp [(List.getElem?_eq_some_iff.1 hL).1]), ?_⟩
        rw [hL] at hR; cases hR
        simpa [Tri.corners, hp.1, hp.2] using hv
      · exact ⟨R, List.mem_of_getElem? (i := r) (by rw [List.getElem?_set]; simp [e, hR]),
          by simpa [Tri.corners, hp.2] using hv⟩
  · exact .refl _

theorem markOpt_sev (ts : Store) (l : Nat) (r) : SEv ts (Store.markOpt ts l r) := by
  unfold Store.markOpt
  split
  · exact .refl _
  · exact markPair_sev ..

theorem markNeighbor_sev {ts ts' : Store} {l r : Nat} (h : Store.markNeighbor ts l r = .ok ts') : SEv ts ts' := by
  simp only [Store.markNeighbor, bind_ok, pure_ok, Except.ok.injEq] at h
  obtain ⟨_, -, rfl⟩ := h
  exact markPair_sev ..

theorem getU_ok {ts : Store} {t : Nat} {T : Tri} : Store.getU ts t = .ok T ↔ ts[t]? = some T := by
  unfold Store.getU
  split <;> simp_all

theorem setEdgeAttrCw_same {T T' : Tri} {p e} (h : T.setEdgeAttrCw p e = .ok T') :
    T'.points = T.points ∧ T'.interior = T.interior := by
  unfold Tri.setEdgeAttrCw at h
  grind
theorem setEdgeAttrCcw_same {T T' : Tri} {p e} (h : T.setEdgeAttrCcw p e = .ok T') :
    T'.points = T.points ∧ T'.interior = T.interior := by
  unfold Tri.setEdgeAttrCcw at h
  grind
theorem rotateCw_corners {T T' : Tri} {o n} (h : T.rotateCw o n = .ok T') :
    (∀ v ∈ T'.corners, v ∈ T.corners ∨ v = n) ∧ T'.interior = T.interior ∧ o ∈ T.corners := by
  unfold Tri.rotateCw at h
  grind [Tri.corners]
theorem edgeAttrCcw_mem {T : Tri} {p e} (h : T.edgeAttrCcw p = .ok e) : p ∈ T.corners := by
  unfold Tri.edgeAttrCcw at h
  grind [Tri.corners]

theorem rotatePair_sev {ts : Store} {t p ot op : Nat} {r} (h : Store.rotatePair ts t p ot op = .ok r) :
    SEv ts r.1 := by
  simp only [Store.rotatePair, bind_ok, pure_ok, Except.ok.injEq, getU_ok] at h
  obtain ⟨_, -, T, hT, O, hO, n1, -, n2, -, n3, -, n4, -, e1, h1, e2, -, e3, h3, e4, -, T1, hT1, O1, hO1, T2, hT2, T3,
    hT3, O2, hO2, O3, hO3, _, -, rfl⟩ := h
  have mp := edgeAttrCcw_mem h1
  have mo := edgeAttrCcw_mem h3
  have a1 := rotateCw_corners hT1
  have a2 := setEdgeAttrCw_same hT2
  have a3 := setEdgeAttrCcw_same hT3
  have b1 := rotateCw_corners hO1
  have b2 := setEdgeAttrCcw_same hO2
  have b3 := setEdgeAttrCw_same hO3
  have hi := markTwo_interior t ot T3.clearNeighbors O3.clearNeighbors
  have hp := markTwo_points t ot T3.clearNeighbors O3.clearNeighbors
  generalize Store.markTwo t ot T3.clearNeighbors O3.clearNeighbors = M at *
  have mT := List.mem_of_getElem? hT
  have mO := List.mem_of_getElem? hO
  have iT : M.1.interior = T.interior := by
    rw [hi.1]; show T3.interior = _; rw [a3.2, a2.2, a1.2.1]
  have iO : M.2.interior = O.interior := by
    rw [hi.2]; show O3.interior = _; rw [b3.2, b2.2, b1.2.1]
  have pT : M.1.points = T1.points := by
    rw [hp.1]; show T3.points = _; rw [a3.1, a2.1]
  have pO : M.2.points = O1.points := by
    rw [hp.2]; show O3.points = _; rw [b3.1, b2.1]
  have key : SEv ts ((ts.set t M.1).set ot M.2) := by
    refine ⟨by simp, fun k T' hT' => ?_, fun T' hT' v hv => ?_⟩
    · rcases List.mem_or_eq_of_mem_set hT' with h | rfl
      · rcases List.mem_or_eq_of_mem_set h with h | rfl
        · exact k _ h
        · rw [iT]; exact k _ mT
      · rw [iO]; exact k _ mO
    · rcases List.mem_or_eq_of_mem_set hT' with h | rfl
      · rcases List.mem_or_eq_of_mem_set h with h | rfl
        · exact ⟨_, h, hv⟩
        · rcases a1.1 v (by simpa [Tri.corners, pT] using hv) with h | rfl
          · exact ⟨T, mT, h⟩
          · exact ⟨O, mO, mo⟩
      · rcases b1.1 v (by simpa [Tri.corners, pO] using hv) with h | rfl
        · exact ⟨O, mO, h⟩
        · exact ⟨T, mT, mp⟩
  exact (((key.trans (markOpt_sev ..)).trans (markOpt_sev ..)).trans (markOpt_sev ..)).trans (markOpt_sev ..)

theorem flagDelaunay_sev {ts ts' : Store} {t ot : Nat} (h : Store.flagDelaunay ts t ot = .ok ts') : SEv ts ts' := by
  simp only [Store.flagDelaunay, bind_ok, getU_ok] at h
  obtain ⟨_, ha, T, hT, O, hO, h⟩ := h
  have hne : t ≠ ot := by
    unfold Store.assertTwo at ha
    split at ha
    · rename_i h; exact h.1
    · cases ha
  split at h
  · cases h
  · simp only [pure_ok, Except.ok.injEq] at h
    subst h
    rename_i i j _
    refine SEv.trans (b := ts.set t (T.setDelaunay i true)) (SEv.set_same hT rfl rfl) (SEv.set_same (T := O) ?_ rfl rfl)
    rw [List.getElem?_set]; simp [hne, hO]

theorem tryMarkEdge_sev {ts : Store} {p q t : Nat} {r} (h : Store.tryMarkEdge ts p q t = .ok r) : SEv ts r.1 := by
  simp only [Store.tryMarkEdge, bind_ok, getU_ok] at h
  obtain ⟨T, hT, h⟩ := h
  split at h
  · simp only [pure_ok, Except.ok.injEq] at h; subst h; exact .refl _
  · rename_i i hi
    have k : SEv ts (ts.set t (T.setConstrained i true)) := SEv.set_same hT rfl rfl
    split at h
    · simp only [pure_ok, Except.ok.injEq] at h; subst h; exact k
    · simp only [bind_ok, getU_ok, pure_ok, Except.ok.injEq] at h
      obtain ⟨O, hO, j, -, rfl⟩ := h
      exact k.trans (SEv.set_same hO rfl rfl)

theorem setCon_sev {ts : Store} {t : Nat} {T : Tri} (h : ts[t]? = some T) (i v) :
    SEv ts (ts.set t (T.setConstrained i v)) := SEv.set_same h rfl rfl

theorem setConFor_sev {ts : Store} {t : Nat} {T : Tri} (h : ts[t]? = some T) (p q) :
    SEv ts (ts.set t (T.setConstrainedForEdge p q)) := by
  unfold Tri.setConstrainedForEdge
  split
  · exact setCon_sev h ..
  · exact SEv.set_same h rfl rfl

/-! ## The front -/

/-- Same nodes up to their triangles. -/
theorem Front.evolve {s : St} {f : Front} (h : f.shape = s.front.shape) : Evolve s { s with front := f } := by
  have hl : f.nodes.length = s.front.nodes.length := by
    have := congrArg List.length h; simpa [Front.shape] using this
  refine Evolve0.silent ⟨rfl, ⟨[], rfl, by simp⟩, by simp [hl], Nat.le_refl _, id, ?_, by simp [h], id, fun _ h => .inl h⟩ rfl
  rintro v (hv | ⟨e, he, rfl⟩)
  · exact .inl hv
  · right
    have : (e.key, e.pid) ∈ s.front.shape := by
      rw [← h]; exact List.mem_map.2 ⟨e, he, rfl⟩
    obtain ⟨e', he', k⟩ := List.mem_map.1 this
    exact ⟨e', he', by simpa using congrArg Prod.snd k⟩

theorem shape_modify (f : Front) (i : Nat) (tid : Option Nat) (c) :
    Front.shape { nodes := f.nodes.modify i (fun e => { e with tri := tid }), cache := c } = f.shape := by
  unfold Front.shape
  apply List.ext_getElem?
  intro j
  simp only [List.getElem?_map, List.getElem?_modify]
  cases f.nodes[j]? <;> simp
  split <;> exact ⟨rfl, rfl⟩

theorem updateTriangle_shape {f f' : Front} {p t} (h : f.updateTriangle p t = .ok f') : f'.shape = f.shape := by
  simp only [Front.updateTriangle, bind_ok] at h
  obtain ⟨r, -, h⟩ := h
  cases r with
  | error j => simp at h
  | ok i =>
    simp only at h
    split at h
    · simp only [pure_ok, Except.ok.injEq] at h; subst h
      exact shape_modify ..
    · cases h

theorem mapTriLoop_shape {c : Ctx} {T : Tri} {t : Nat} : ∀ {l : List (Fin 3)} {f f' : Front},
    mapTriLoop c T t l f = .ok f' → f'.shape = f.shape
  | [], f, f', h => by simp only [mapTriLoop, pure_ok, Except.ok.injEq] at h; rw [h]
  | i :: is, f, f', h => by
    simp only [mapTriLoop] at h
    split at h
    · exact mapTriLoop_shape h
    · simp only [bind_ok] at h
      obtain ⟨_, -, _, -, f1, h1, h⟩ := h
      exact (mapTriLoop_shape h).trans (updateTriangle_shape h1)

theorem mapTri_evolve {c : Ctx} {s s' : St} {t : Nat} (h : mapTri c s t = .ok s') : Evolve s s' := by
  simp only [mapTri, bind_ok, pure_ok, Except.ok.injEq] at h
  obtain ⟨T, -, f, hf, rfl⟩ := h
  exact Front.evolve (mapTriLoop_shape hf)

theorem mapAll_evolve {c : Ctx} : ∀ {l : List Nat} {s s' : St}, mapAll c l s = .ok s' → Evolve s s'
  | [], s, s', h => by simp only [mapAll, pure_ok, Except.ok.injEq] at h; rw [h]; exact .refl _
  | t :: l, s, s', h => by
    simp only [mapAll, bind_ok] at h
    obtain ⟨s1, h1, h⟩ := h
    exact (mapTri_evolve h1).trans (mapAll_evolve h)

theorem mapAll_tris {c : Ctx} : ∀ {l : List Nat} {s s' : St}, mapAll c l s = .ok s' → s'.tris = s.tris ∧ s'.trace = s.trace
  | [], s, s', h => by simp only [mapAll, pure_ok, Except.ok.injEq] at h; rw [h]; exact ⟨rfl, rfl⟩
  | t :: l, s, s', h => by
    simp only [mapAll, bind_ok] at h
    obtain ⟨s1, h1, h⟩ := h
    simp only [mapTri, bind_ok, pure_ok, Except.ok.injEq] at h1
    obtain ⟨T, -, f, hf, rfl⟩ := h1
    have e := mapAll_tris (s := { s with front := f }) h
    exact e

theorem getNodeWithCache_shape {f f' : Front} {p r} (h : f.getNodeWithCache p = .ok (f', r)) : f'.shape = f.shape := by
  simp only [Front.getNodeWithCache, bind_ok] at h
  obtain ⟨r, -, h⟩ := h
  cases r with
  | error j => simp only [pure_ok, Except.ok.injEq, Prod.mk.injEq] at h; rw [h.1]
  | ok i =>
    simp only at h
    split at h
    · simp only [pure_ok, Except.ok.injEq, Prod.mk.injEq] at h; rw [← h.1]; rfl
    · cases h

/-! ## Legalization -/

theorem illegalAt_some {c : Ctx} {ts : Store} {t : Nat} {i : Fin 3} {p ot op : Nat} (h : illegalAt c ts t i = .ok (some (p, ot, op))) :
    ∃ T O, ts[t]? = some T ∧ T.points.get i = p ∧ T.neighbors.get i = some ot ∧ T.isConstrained i = false ∧ ts[ot]? = some O ∧
      O.oppositePoint T p = .ok op := by
  simp only [illegalAt, bind_ok] at h
  obtain ⟨T, hT, h⟩ := h
  split at h
  · cases h
  · rename_i hc
    split at h
    · cases h
    · rename_i ot' hn
      simp only [bind_ok] at h
      obtain ⟨O, hO, op', ho, pp, -, a0, -, a, -, b0, -, b, -, d, -, h⟩ := h
      split at h
      · simp only [pure_ok, Except.ok.injEq, Option.some.injEq, Prod.mk.injEq] at h
        obtain ⟨rfl, rfl, rfl⟩ := h
        simp only [Bool.or_eq_true, not_or, Bool.not_eq_true] at hc
        exact ⟨T, O, getU_ok.1 hT, rfl, hn, hc.1, getU_ok.1 hO, ho⟩
      · cases h

theorem firstIllegal_some {c : Ctx} {ts : Store} {t : Nat} {r} : ∀ {l : List (Fin 3)}, firstIllegal c ts t l = .ok (some r) →
    ∃ i ∈ l, illegalAt c ts t i = .ok (some r)
  | [], h => by cases h
  | i :: l, h => by
    simp only [firstIllegal, bind_ok] at h
    obtain ⟨o, h1, h⟩ := h
    cases o with
    | none =>
      obtain ⟨j, hj, k⟩ := firstIllegal_some h
      exact ⟨j, List.mem_cons_of_mem _ hj, k⟩
    | some y =>
      simp only [pure_ok, Except.ok.injEq, Option.some.injEq] at h
      subst h
      exact ⟨i, by simp, h1⟩

theorem legalizeLoop_evolve0 {c : Ctx} : ∀ {f : Nat} {s : St} {q r : List Nat} {x},
    legalizeLoop c f s q r = .ok x → Evolve0 s x.1
  | f, s, [], r, x, h => by
    cases f <;> simp only [legalizeLoop, pure_ok, Except.ok.injEq] at h <;> subst h <;> exact .refl _
  | 0, s, _ :: _, r, x, h => by simp [legalizeLoop] at h
  | f + 1, s, t :: q, r, x, h => by
    simp only [legalizeLoop, bind_ok] at h
    obtain ⟨o, hi, h⟩ := h
    cases o with
    | none => exact (Evolve0.emit rfl (by simp)).trans (legalizeLoop_evolve0 h)
    | some y =>
      simp only [bind_ok] at h
      obtain ⟨⟨ts, need⟩, h1, ts', h2, h⟩ := h
      refine Evolve0.trans ?_ (legalizeLoop_evolve0 h)
      have e := ((SEv.evolve (s := s) (rotatePair_sev h1)).trans (SEv.evolve (flagDelaunay_sev h2))).toEvolve0
      refine ⟨e.result, ⟨[(.legalizeStep t, _), (.rotated t y.2.1, _)], rfl, ?_⟩, e.count, e.grow, e.inter, e.uses, e.front, fun k => k.flip ?_ (by simp), fun x hx => ?_⟩
      · intro x hx
        simp only [List.mem_cons, List.not_mem_nil, or_false] at hx
        rcases hx with rfl | rfl
        · exact ⟨rfl, e.count⟩
        · exact ⟨rfl, rfl⟩
      · obtain ⟨p, ot, op⟩ := y
        rintro t' ot' ⟨⟩
        obtain ⟨i, -, hi⟩ := firstIllegal_some hi
        obtain ⟨T, O, k1, k2, k3, k4, k5, k6⟩ := illegalAt_some hi
        subst k2
        exact ⟨rfl, T, i, O, op, ts, need, k1, k3, k4, k5, k6, h1, h2⟩
      · simp only [St.emit, List.mem_cons] at hx
        rcases hx with rfl | rfl | hx
        · exact .inr (.refl _)
        · exact .inr (.refl _)
        · exact .inl hx

theorem firstIllegal_head {c : Ctx} {ts : Store} {t : Nat} {i : Fin 3} {l : List (Fin 3)} {r} (h : firstIllegal c ts t (i :: l) = .ok r) : t < ts.length := by
  simp only [firstIllegal, bind_ok] at h
  obtain ⟨o, h1, -⟩ := h
  simp only [illegalAt, bind_ok] at h1
  obtain ⟨T, hT, -⟩ := h1
  exact (List.getElem?_eq_some_iff.1 (getU_ok.1 hT)).1

theorem rotatePair_ne {ts : Store} {t p ot op : Nat} {r} (h : Store.rotatePair ts t p ot op = .ok r) : t ≠ ot ∧ ot < ts.length := by
  simp only [Store.rotatePair, bind_ok] at h
  obtain ⟨_, h, -⟩ := h
  unfold Store.assertTwo at h
  split at h
  · rename_i k; exact ⟨k.1, k.2.2⟩
  · cases h

theorem legalizeLoop_steps {c : Ctx} : ∀ {f : Nat} {s : St} {q r : List Nat} {x},
    legalizeLoop c f s q r = .ok x → x.1.tris.length = s.tris.length ∧ ∃ l, x.1.counts = s.counts ++ l ∧ LegalSteps s.tris.length l ∧ (q ≠ [] → l ≠ [])
  | f, s, [], r, x, h => by
    cases f <;> simp only [legalizeLoop, pure_ok, Except.ok.injEq] at h <;> subst h <;> exact ⟨rfl, [], by simp, .nil, by simp⟩
  | 0, s, _ :: _, r, x, h => by simp [legalizeLoop] at h
  | f + 1, s, t :: q, r, x, h => by
    simp only [legalizeLoop, bind_ok] at h
    obtain ⟨o, hi, h⟩ := h
    have ht := firstIllegal_head hi
    cases o with
    | none =>
      obtain ⟨e0, l, e, k, -⟩ := legalizeLoop_steps h
      refine ⟨e0, (.legalizeStep t, s.tris.length) :: l, ?_, .checked ht k, by simp⟩
      rw [e, counts_emit]; simp
    | some y =>
      simp only [bind_ok] at h
      obtain ⟨⟨ts, need⟩, h1, ts', h2, h⟩ := h
      have el : ts'.length = s.tris.length := (flagDelaunay_sev h2).len.trans (rotatePair_sev h1).len
      obtain ⟨e0, l, e, k, -⟩ := legalizeLoop_steps h
      have es : ∀ (s1 : St), ({ s1 with tris := ts' } : St).counts = s1.counts := fun s1 => counts_eq rfl
      refine ⟨e0.trans el, (.rotated t y.2.1, s.tris.length) :: (.legalizeStep t, s.tris.length) :: l, ?_, .flipped ht (rotatePair_ne h1).2 (rotatePair_ne h1).1 ?_, by simp⟩
      · rw [e, counts_emit, es, counts_emit]
        simp only [el, List.append_assoc, List.cons_append, List.nil_append]
      · have : LegalSteps ts'.length l := k
        rwa [el] at this

/-- One legalization: one bracket of callbacks. -/
theorem legalize_bracket {c : Ctx} {f : Nat} {s s' : St} {t : Nat} (h : legalize c f s t = .ok s') :
    Evolve0 s s' ∧ s'.tris.length = s.tris.length ∧ ∃ l, l ≠ [] ∧ LegalSteps s.tris.length l ∧ t < s.tris.length ∧
      s'.counts = s.counts ++ ((.willLegalize t, s.tris.length) :: l ++ [(.legalized t, s.tris.length)]) := by
  simp only [legalize, bind_ok, pure_ok, Except.ok.injEq] at h
  obtain ⟨⟨s1, r⟩, h1, s2, h2, rfl⟩ := h
  refine ⟨(Evolve0.emit rfl (by simp)).trans <| (legalizeLoop_evolve0 h1).trans <| (mapAll_evolve h2).toEvolve0.trans (Evolve0.emit rfl (by simp)), ?_⟩
  obtain ⟨e0, l, e, k, hl⟩ := legalizeLoop_steps h1
  have m := mapAll_tris h2
  have em : s2.counts = s1.counts := counts_eq m.2
  have e1 : s1.tris.length = s.tris.length := e0
  have ht : t < s.tris.length := by
    cases f with
    | zero => simp [legalizeLoop] at h1
    | succ f =>
      simp only [legalizeLoop, bind_ok] at h1
      obtain ⟨o, hi, -⟩ := h1
      exact firstIllegal_head hi
  have e' : s1.counts = (s.emit (.willLegalize t)).counts ++ l := e
  refine ⟨by show s2.tris.length = _; rw [m.1]; exact e1, l, hl (by simp), k, ht, ?_⟩
  rw [counts_emit, em, e', counts_emit, m.1, e1]
  simp

theorem legalize_evolve {c : Ctx} {f : Nat} {s s' : St} {t : Nat} (h : legalize c f s t = .ok s') : Evolve s s' := by
  obtain ⟨e0, el, l, hl, k, ht, e⟩ := legalize_bracket h
  exact ⟨e0, _, e, .block (Nat.le_refl _) ht k hl (.nil (Nat.le_of_eq el.symm))⟩

theorem legalizeAll_evolve {c : Ctx} {f : Nat} : ∀ {l : List Nat} {s s' : St}, legalizeAll c f l s = .ok s' → Evolve s s'
  | [], s, s', h => by simp only [legalizeAll, pure_ok, Except.ok.injEq] at h; rw [h]; exact .refl _
  | t :: l, s, s', h => by
    simp only [legalizeAll, bind_ok] at h
    obtain ⟨s1, h1, h⟩ := h
    exact (legalize_evolve h1).trans (legalizeAll_evolve h)

/-! ## Filling -/

theorem nth_mem {f : Front} {i : Nat} {r : NodeRef} (h : f.nth i = some r) :
    ∃ e ∈ f.nodes, e.pid = r.pid ∧ e.key = r.pt := by
  simp only [Front.nth, Option.map_eq_some_iff] at h
  obtain ⟨e, he, rfl⟩ := h
  exact ⟨e, List.mem_of_getElem? he, rfl, rfl⟩

theorem prev_mem {f : Front} {n r : NodeRef} (h : f.prev n = some r) : ∃ e ∈ f.nodes, e.pid = r.pid ∧ e.key = r.pt := by
  unfold Front.prev at h
  split at h
  · cases h
  · exact nth_mem h

theorem getNodeWithId_mem {f : Front} {n : NodeId} {r : NodeRef} (h : f.getNodeWithId n = some r) :
    ∃ e ∈ f.nodes, e.pid = r.pid ∧ e.key = r.pt := by
  unfold Front.getNodeWithId at h
  split at h
  · exact nth_mem h
  · cases h

theorem updateAndDelete_shape {f f' : Front} {u t d} (h : f.updateAndDelete u t d = .ok f') :
    f'.shape.Sublist f.shape ∧ f'.nodes.length + 1 = f.nodes.length := by
  unfold Front.updateAndDelete at h
  split at h
  · dsimp only at h
    split at h
    · rename_i h1 h2
      simp only [Except.ok.injEq] at h; subst h
      constructor
      · rw [← shape_modify f u (some t) none]
        exact (List.eraseIdx_sublist _ _).map _
      · simp only [List.length_modify] at h2 ⊢
        rw [List.length_eraseIdx]
        simp only [List.length_modify]
        split <;> omega
    · cases h
  · cases h

theorem uses_append {ts : Store} {f : Front} {T : Tri} {v : Nat} (hc : ∀ v ∈ T.corners, Uses ts f v)
    (h : Uses (ts ++ [T]) f v) : Uses ts f v := by
  rcases h with ⟨T', hT', hv⟩ | h
  · rcases List.mem_append.1 hT' with h | h
    · exact .inl ⟨T', h, hv⟩
    · simp only [List.mem_singleton] at h; subst h; exact hc v hv
  · exact .inr h

/-- Adding a triangle on used points and removing one front node. -/
theorem evolve_fill {s : St} {ts : Store} {f : Front} {T : Tri} (hc : ∀ v ∈ T.corners, Uses s.tris s.front v)
    (hi : T.interior = false) (h : SEv (s.tris ++ [T]) ts) (hf : f.shape.Sublist s.front.shape)
    (hl : f.nodes.length + 1 = s.front.nodes.length) : Evolve s { s with tris := ts, front := f } := by
  refine Evolve0.silent ⟨rfl, ⟨[], rfl, by simp⟩, ?_, ?_, fun k => h.inter ?_, ?_, hf, id, fun _ h => .inl h⟩ rfl
  · have := h.len; simp at this; simp [this]; omega
  · have := h.len; simp at this; simp [this]
  · intro T' hT'
    rcases List.mem_append.1 hT' with h | h
    · exact k _ h
    · simp only [List.mem_singleton] at h; subst h; exact hi
  · intro v hv
    apply uses_append hc
    rcases hv with ⟨T', hT', hv⟩ | ⟨e, he, rfl⟩
    · exact .inl (h.corners T' hT' v hv)
    · right
      have : (e.key, e.pid) ∈ f.shape := List.mem_map.2 ⟨e, he, rfl⟩
      obtain ⟨e', he', k⟩ := List.mem_map.1 (hf.subset this)
      exact ⟨e', he', by simpa using congrArg Prod.snd k⟩

theorem fillOne_evolve {c : Ctx} {f : Nat} {s : St} {id : NodeId} {x} (h : fillOne c f s id = .ok x) : Evolve s x.1 := by
  simp only [fillOne, bind_ok, unwrap_ok] at h
  obtain ⟨node, hn, h⟩ := h
  split at h
  · simp only [pure_ok, Except.ok.injEq] at h; subst h; exact .refl _
  · rename_i prev hp
    split at h
    · simp only [pure_ok, Except.ok.injEq] at h; subst h; exact .refl _
    · rename_i next hx
      simp only [bind_ok, unwrap_ok, pure_ok, Except.ok.injEq] at h
      obtain ⟨pt, -, ts1, h1, nt, -, ts2, h2, fr, hf, s1, h3, rfl⟩ := h
      refine (evolve_fill (T := Tri.new prev.pid node.pid next.pid) ?_ rfl
        ((markNeighbor_sev h1).trans (markNeighbor_sev h2)) (updateAndDelete_shape hf).1
        (updateAndDelete_shape hf).2).trans (legalize_evolve h3)
      intro v hv
      right
      simp only [Tri.corners, Tri.new, List.mem_cons, List.not_mem_nil, or_false] at hv
      rcases hv with rfl | rfl | rfl
      · obtain ⟨e, he, k, -⟩ := prev_mem hp; exact ⟨e, he, k⟩
      · obtain ⟨e, he, k, -⟩ := getNodeWithId_mem hn; exact ⟨e, he, k⟩
      · obtain ⟨e, he, k, -⟩ := nth_mem hx; exact ⟨e, he, k⟩

theorem fillRight_evolve {c : Ctx} {g : Nat} : ∀ {f : Nat} {s s' : St} {id}, fillRight c g f s id = .ok s' → Evolve s s'
  | 0, s, s', id, h => by simp [fillRight] at h
  | f + 1, s, s', id, h => by
    rw [fillRight] at h
    split at h
    · simp only [pure_ok, Except.ok.injEq] at h; subst h; exact .refl _
    · split at h
      · simp only [pure_ok, Except.ok.injEq] at h; subst h; exact .refl _
      · simp only [bind_ok] at h
        obtain ⟨b, -, h⟩ := h
        split at h
        · simp only [pure_ok, Except.ok.injEq] at h; subst h; exact .refl _
        · simp only [bind_ok] at h
          obtain ⟨⟨s1, r⟩, h1, h⟩ := h
          exact (fillOne_evolve h1).trans (fillRight_evolve h)

theorem fillLeft_evolve {c : Ctx} {g : Nat} : ∀ {f : Nat} {s s' : St} {id}, fillLeft c g f s id = .ok s' → Evolve s s'
  | 0, s, s', id, h => by simp [fillLeft] at h
  | f + 1, s, s', id, h => by
    rw [fillLeft] at h
    split at h
    · simp only [pure_ok, Except.ok.injEq] at h; subst h; exact .refl _
    · split at h
      · simp only [pure_ok, Except.ok.injEq] at h; subst h; exact .refl _
      · simp only [bind_ok] at h
        obtain ⟨b, -, h⟩ := h
        split at h
        · simp only [pure_ok, Except.ok.injEq] at h; subst h; exact .refl _
        · simp only [bind_ok] at h
          obtain ⟨⟨s1, r⟩, h1, h⟩ := h
          exact (fillOne_evolve h1).trans (fillLeft_evolve h)

theorem fillBasinReq_evolve {c : Ctx} {g : Nat} : ∀ {f : Nat} {s s' : St} {id b},
    fillBasinReq c g f s id b = .ok s' → Evolve s s'
  | 0, s, s', id, b, h => by simp [fillBasinReq] at h
  | f + 1, s, s', id, b, h => by
    rw [fillBasinReq] at h
    split at h
    · simp only [pure_ok, Except.ok.injEq] at h; subst h; exact .refl _
    · simp only [bind_ok] at h
      obtain ⟨⟨s1, r⟩, h1, fo, -, h⟩ := h
      refine (fillOne_evolve h1).trans ?_
      split at h
      · simp only [pure_ok, Except.ok.injEq] at h; subst h; exact .refl _
      · split at h
        · simp only [bind_ok] at h
          obtain ⟨_, -, _, -, h⟩ := h
          split at h
          · simp only [pure_ok, Except.ok.injEq] at h; subst h; exact .refl _
          · exact fillBasinReq_evolve h
        · split at h
          · simp only [bind_ok] at h
            obtain ⟨_, -, h⟩ := h
            split at h
            · simp only [pure_ok, Except.ok.injEq] at h; subst h; exact .refl _
            · split at h
              · simp only [pure_ok, Except.ok.injEq] at h; subst h; exact .refl _
              · exact fillBasinReq_evolve h
          · split at h
            · exact fillBasinReq_evolve h
            · exact fillBasinReq_evolve h

theorem fillBasin_evolve {c : Ctx} {f : Nat} {s s' : St} {id} (h : fillBasin c f s id = .ok s') : Evolve s s' := by
  unfold fillBasin at h
  split at h
  · simp only [pure_ok, Except.ok.injEq] at h; subst h; exact .refl _
  · split at h
    · simp only [pure_ok, Except.ok.injEq] at h; subst h; exact .refl _
    · simp only [bind_ok] at h
      obtain ⟨_, -, h⟩ := h
      generalize (if orient2d id.pt _ _ = Orientation.ccw then _ else _) = left at h
      split at h
      · simp only [pure_ok, Except.ok.injEq] at h; subst h; exact .refl _
      · simp only [bind_ok] at h
        obtain ⟨_, -, h⟩ := h
        split at h
        · simp only [pure_ok, Except.ok.injEq] at h; subst h; exact .refl _
        · exact fillBasinReq_evolve h

theorem fillAdvancingFront_evolve {c : Ctx} {f : Nat} {s s' : St} {p} (h : fillAdvancingFront c f s p = .ok s') :
    Evolve s s' := by
  simp only [fillAdvancingFront, bind_ok] at h
  obtain ⟨_, -, _, -, s1, h1, s2, h2, h⟩ := h
  refine (fillRight_evolve h1).trans <| (fillLeft_evolve h2).trans ?_
  split at h
  · exact fillBasin_evolve h
  · simp only [pure_ok, Except.ok.injEq] at h; subst h; exact .refl _

/-! ## Edge events -/

theorem fillRightConcave_evolve {c : Ctx} {g : Nat} {e : CEdge} : ∀ {f : Nat} {s s' : St} {id},
    fillRightConcave c g e f s id = .ok s' → Evolve s s'
  | 0, s, s', id, h => by simp [fillRightConcave] at h
  | f + 1, s, s', id, h => by
    simp only [fillRightConcave, bind_ok] at h
    obtain ⟨_, -, ⟨s1, r⟩, h1, h⟩ := h
    refine (fillOne_evolve h1).trans ?_
    cases r <;> dsimp only at h ⊢
    all_goals
      split at h
      · split at h
        · simp only [bind_ok] at h
          obtain ⟨_, -, h⟩ := h
          split at h
          · exact fillRightConcave_evolve h
          · simp only [pure_ok, Except.ok.injEq] at h; subst h; exact .refl _
        · simp only [pure_ok, Except.ok.injEq] at h; subst h; exact .refl _
      · simp only [pure_ok, Except.ok.injEq] at h; subst h; exact .refl _

theorem fillLeftConcave_evolve {c : Ctx} {g : Nat} {e : CEdge} : ∀ {f : Nat} {s s' : St} {id},
    fillLeftConcave c g e f s id = .ok s' → Evolve s s'
  | 0, s, s', id, h => by simp [fillLeftConcave] at h
  | f + 1, s, s', id, h => by
    simp only [fillLeftConcave, bind_ok] at h
    obtain ⟨_, -, ⟨s1, r⟩, h1, h⟩ := h
    refine (fillOne_evolve h1).trans ?_
    cases r <;> dsimp only at h ⊢
    all_goals
      split at h
      · split at h
        · simp only [bind_ok] at h
          obtain ⟨_, -, _, -, h⟩ := h
          split at h
          · exact fillLeftConcave_evolve h
          · simp only [pure_ok, Except.ok.injEq] at h; subst h; exact .refl _
        · simp only [pure_ok, Except.ok.injEq] at h; subst h; exact .refl _
      · simp only [pure_ok, Except.ok.injEq] at h; subst h; exact .refl _

theorem fillRightConvex_evolve {t : Trap} {c : Ctx} {g : Nat} {e : CEdge} : ∀ {f : Nat} {s : St} {id x},
    fillRightConvex t c g e f s id = .ok x → Evolve s x.1
  | 0, s, id, x, h => by simp [fillRightConvex] at h
  | f + 1, s, id, x, h => by
    simp only [fillRightConvex, bind_ok] at h
    obtain ⟨_, -, _, -, h⟩ := h
    split at h
    · simp only [pure_ok, Except.ok.injEq] at h; subst h; exact .refl _
    · split at h
      · split at h
        · cases h
        · simp only [bind_ok, pure_ok, Except.ok.injEq] at h
          obtain ⟨s1, h1, rfl⟩ := h
          exact fillRightConcave_evolve h1
      · split at h
        · exact fillRightConvex_evolve h
        · simp only [pure_ok, Except.ok.injEq] at h; subst h; exact .refl _

theorem fillLeftConvex_evolve {c : Ctx} {g : Nat} {e : CEdge} : ∀ {f : Nat} {s : St} {id x},
    fillLeftConvex c g e f s id = .ok x → Evolve s x.1
  | 0, s, id, x, h => by simp [fillLeftConvex] at h
  | f + 1, s, id, x, h => by
    simp only [fillLeftConvex, bind_ok] at h
    obtain ⟨_, -, _, -, h⟩ := h
    split at h
    · simp only [pure_ok, Except.ok.injEq] at h; subst h; exact .refl _
    · split at h
      · simp only [bind_ok, pure_ok, Except.ok.injEq] at h
        obtain ⟨s1, h1, rfl⟩ := h
        exact fillLeftConcave_evolve h1
      · split at h
        · exact fillLeftConvex_evolve h
        · simp only [pure_ok, Except.ok.injEq] at h; subst h; exact .refl _

theorem fillRightBelow_evolve {t : Trap} {c : Ctx} {g : Nat} {e : CEdge} : ∀ {f : Nat} {s s' : St} {id},
    fillRightBelow t c g e f s id = .ok s' → Evolve s s'
  | 0, s, s', id, h => by simp [fillRightBelow] at h
  | f + 1, s, s', id, h => by
    simp only [fillRightBelow] at h
    split at h
    · simp only [pure_ok, Except.ok.injEq] at h; subst h; exact .refl _
    · simp only [bind_ok] at h
      obtain ⟨_, -, _, -, _, -, h⟩ := h
      split at h
      · exact fillRightConcave_evolve h
      · simp only [bind_ok] at h
        obtain ⟨⟨s1, b⟩, h1, h⟩ := h
        refine (fillRightConvex_evolve h1).trans ?_
        split at h
        · exact fillRightBelow_evolve h
        · simp only [pure_ok, Except.ok.injEq] at h; subst h; exact .refl _

theorem fillLeftBelow_evolve {c : Ctx} {g : Nat} {e : CEdge} : ∀ {f : Nat} {s s' : St} {id},
    fillLeftBelow c g e f s id = .ok s' → Evolve s s'
  | 0, s, s', id, h => by simp [fillLeftBelow] at h
  | f + 1, s, s', id, h => by
    simp only [fillLeftBelow] at h
    split at h
    · simp only [bind_ok] at h
      obtain ⟨_, -, _, -, h⟩ := h
      split at h
      · exact fillLeftConcave_evolve h
      · simp only [bind_ok] at h
        obtain ⟨⟨s1, b⟩, h1, h⟩ := h
        refine (fillLeftConvex_evolve h1).trans ?_
        split at h
        · exact fillLeftBelow_evolve h
        · simp only [pure_ok, Except.ok.injEq] at h; subst h; exact .refl _
    · simp only [pure_ok, Except.ok.injEq] at h; subst h; exact .refl _

theorem fillRightAbove_evolve {t : Trap} {c : Ctx} {g : Nat} {e : CEdge} : ∀ {f : Nat} {s s' : St} {id},
    fillRightAbove t c g e f s id = .ok s' → Evolve s s'
  | 0, s, s', id, h => by simp [fillRightAbove] at h
  | f + 1, s, s', id, h => by
    simp only [fillRightAbove] at h
    split at h
    · simp only [pure_ok, Except.ok.injEq] at h; subst h; exact .refl _
    · split at h
      · simp only [pure_ok, Except.ok.injEq] at h; subst h; exact .refl _
      · split at h
        · simp only [bind_ok] at h
          obtain ⟨s1, h1, h⟩ := h
          exact (fillRightBelow_evolve h1).trans (fillRightAbove_evolve h)
        · exact fillRightAbove_evolve h

theorem fillLeftAbove_evolve {c : Ctx} {g : Nat} {e : CEdge} : ∀ {f : Nat} {s s' : St} {id},
    fillLeftAbove c g e f s id = .ok s' → Evolve s s'
  | 0, s, s', id, h => by simp [fillLeftAbove] at h
  | f + 1, s, s', id, h => by
    simp only [fillLeftAbove] at h
    split at h
    · simp only [pure_ok, Except.ok.injEq] at h; subst h; exact .refl _
    · split at h
      · simp only [pure_ok, Except.ok.injEq] at h; subst h; exact .refl _
      · split at h
        · simp only [bind_ok] at h
          obtain ⟨s1, h1, h⟩ := h
          exact (fillLeftBelow_evolve h1).trans (fillLeftAbove_evolve h)
        · exact fillLeftAbove_evolve h

theorem fillEdgeEvent_evolve {t : Trap} {c : Ctx} {f : Nat} {s s' : St} {e : CEdge} {id}
    (h : fillEdgeEvent t c f s e id = .ok s') : Evolve s s' := by
  unfold fillEdgeEvent at h
  split at h
  · exact fillRightAbove_evolve h
  · exact fillLeftAbove_evolve h

theorem edge_evolve {g : Trap} {c : Ctx} : ∀ (f : Nat),
    (∀ {s ep eq e t p lq x}, edgeProcess g c f s ep eq e t p lq = .ok x → Evolve s x.1) ∧
    (∀ {s ep eq e t p lq x}, flipEdge g c f s ep eq e t p lq = .ok x → Evolve s x.1) ∧
    (∀ {s ep eq e ft t p lq x}, flipScan g c f s ep eq e ft t p lq = .ok x → Evolve s x.1)
  | 0 => by
    refine ⟨?_, ?_, ?_⟩ <;> intros <;> rename_i h
    · simp [edgeProcess] at h
    · simp [flipEdge] at h
    · simp [flipScan] at h
  | f + 1 => by
    obtain ⟨i1, i2, i3⟩ := edge_evolve (g := g) (c := c) f
    refine ⟨@fun s ep eq e t p lq x h => ?_, @fun s ep eq e t p lq x h => ?_, @fun s ep eq e ft t p lq x h => ?_⟩
    · simp only [edgeProcess, bind_ok] at h
      obtain ⟨t, -, ⟨ts, b⟩, h1, h⟩ := h
      refine (SEv.evolve (tryMarkEdge_sev h1)).trans ?_
      split at h
      · simp only [pure_ok, Except.ok.injEq] at h; subst h; exact .refl _
      · simp only [bind_ok, getU_ok] at h
        obtain ⟨T, hT, p1, -, _, -, _, -, _, -, h⟩ := h
        split at h
        · split at h
          · cases h
          · split at h
            · cases h
            · simp only [bind_ok] at h
              obtain ⟨_, -, _, -, h⟩ := h
              exact (SEv.evolve (s := { s with tris := ts }) (setCon_sev hT ..)).trans (i1 h)
        · simp only [bind_ok] at h
          obtain ⟨p2, -, _, -, _, -, _, -, h⟩ := h
          split at h
          · split at h
            · cases h
            · split at h
              · cases h
              · simp only [bind_ok] at h
                obtain ⟨_, -, _, -, h⟩ := h
                exact (SEv.evolve (s := { s with tris := ts }) (setCon_sev hT ..)).trans (i1 h)
          · split at h
            · simp only [bind_ok] at h
              obtain ⟨_, -, h⟩ := h
              exact i1 h
            · exact i2 h
    · simp only [flipEdge, bind_ok] at h
      obtain ⟨T, -, _, -, ⟨ot, O⟩, -, op, -, _, -, _, -, _, -, _, -, _, -, _, -, h⟩ := h
      split at h
      · simp only [bind_ok] at h
        obtain ⟨⟨ts, need⟩, h1, s1, h2, h⟩ := h
        refine (SEv.evolve (rotatePair_sev h1)).trans ?_
        have e2 : Evolve { s with tris := ts } s1 := by
          simp only at h2
          split at h2
          · simp only [bind_ok] at h2
            obtain ⟨s2, h3, h4⟩ := h2
            exact (mapTri_evolve h3).trans (mapTri_evolve h4)
          · simp only [pure_ok, Except.ok.injEq] at h2; subst h2; exact .refl _
        refine e2.trans ?_
        split at h
        · split at h
          · simp only [bind_ok, getU_ok, pure_ok, Except.ok.injEq] at h
            obtain ⟨T', hT', O', hO', rfl⟩ := h
            exact SEv.evolve ((setConFor_sev hT' _ _).trans (setConFor_sev hO' _ _))
          · simp only [pure_ok, Except.ok.injEq] at h; subst h; exact .refl _
        · simp only [bind_ok] at h
          obtain ⟨_, -, _, -, _, -, h⟩ := h
          exact i2 h
      · simp only [bind_ok] at h
        obtain ⟨_, -, ⟨s1, lq⟩, h1, h⟩ := h
        exact (i3 h1).trans (i1 h)
    · simp only [flipScan, bind_ok] at h
      obtain ⟨_, -, _, -, _, -, _, -, _, -, _, -, _, -, _, -, _, -, _, -, _, -, _, -, h⟩ := h
      split at h
      · exact i2 h
      · simp only [bind_ok] at h
        obtain ⟨_, -, h⟩ := h
        exact i3 h

theorem edgeEvent_evolve {g : Trap} {c : Ctx} {f : Nat} {s s' : St} {e q} (h : edgeEvent g c f s e q = .ok s') :
    Evolve s s' := by
  simp only [edgeEvent, bind_ok] at h
  obtain ⟨p, -, ⟨f1, r⟩, h1, node, -, t, -, ⟨ts, b⟩, h2, h⟩ := h
  refine (Front.evolve (getNodeWithCache_shape h1)).trans <|
    (SEv.evolve (s := { s with front := f1 }) (tryMarkEdge_sev h2)).trans ?_
  split at h
  · simp only [pure_ok, Except.ok.injEq] at h; subst h; exact .refl _
  · simp only [bind_ok] at h
    obtain ⟨s1, h3, ⟨f2, r2⟩, h4, node2, -, t2, -, ⟨s2, lq⟩, h5, h⟩ := h
    exact (fillEdgeEvent_evolve h3).trans <| (Front.evolve (getNodeWithCache_shape h4)).trans <|
      ((edge_evolve f).1 h5).trans (legalizeAll_evolve h)

/-! ## Point events -/

/-- The state right after a point event has inserted its triangle and front node, and what follows. -/
theorem pointEvent_evolve {c : Ctx} {f : Nat} {s s' : St} {pid : Nat} {pt : Point}
    (h : pointEvent c f s pid pt = .ok s') : ∃ (node next : NodeRef) (ts : Store),
      s.front.locateNode pt = .ok node ∧ s.front.next node = some next ∧
      SEv (s.tris ++ [Tri.new pid node.pid next.pid]) ts ∧
      Evolve { s with tris := ts, front := s.front.insert pid pt s.tris.length } s' ∧
      (∃ l, s'.counts = s.counts ++ l ∧ l ≠ [] ∧ LegalBlocks (s.tris.length + 1) l s'.tris.length) := by
  simp only [pointEvent, bind_ok, unwrap_ok] at h
  obtain ⟨node, hn, next, hx, nt, -, ts, h1, s1, h2, s2, h3, h⟩ := h
  have e : Evolve s1 s2 := by
    split at h3
    · simp only [bind_ok, pure_ok, Except.ok.injEq] at h3
      obtain ⟨⟨s3, r⟩, h4, rfl⟩ := h3
      exact fillOne_evolve h4
    · simp only [pure_ok, Except.ok.injEq] at h3; subst h3; exact .refl _
  have e2 := e.trans (fillAdvancingFront_evolve h)
  refine ⟨node, next, ts, hn, hx, markNeighbor_sev h1, (legalize_evolve h2).trans e2, ?_⟩
  have el : ts.length = s.tris.length + 1 := by have := (markNeighbor_sev h1).len; simpa using this
  obtain ⟨-, e1, l, hl, k, ht, e3⟩ := legalize_bracket h2
  obtain ⟨r, e4, k'⟩ := e2.blocks
  simp only [el] at k ht e3 e1
  refine ⟨((.willLegalize s.tris.length, s.tris.length + 1) :: l ++ [(.legalized s.tris.length, s.tris.length + 1)]) ++ r, ?_, by simp, ?_⟩
  · rw [e4, e3, List.append_assoc]; rfl
  · rw [e1] at k'
    have := LegalBlocks.block (n := s.tris.length + 1) (Nat.le_refl _) ht k hl k'
    simpa [List.append_assoc] using this

end P2T
