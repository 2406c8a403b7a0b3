import Verif.Proofs.MarkRun
import Verif.Spec.General
import Verif.Props.Interior

/-!
# C38: the constraints are honoured
-/

namespace P2T

theorem ProperCross.flipL {a b c d : Point} (h : ProperCross a b c d) : ProperCross b a c d := by
  unfold ProperCross at *
  have e1 : det2 b a c = - det2 a b c := by unfold det2; ring
  have e2 : det2 b a d = - det2 a b d := by unfold det2; ring
  rw [e1, e2]
  exact ⟨by linarith [h.1], by linarith [h.2]⟩

theorem ProperCross.flipR {a b c d : Point} (h : ProperCross a b c d) : ProperCross a b d c := by
  have := ProperCross.flipL (a := c) (b := d) (c := a) (d := b) ⟨h.2, h.1⟩
  exact ⟨this.2, this.1⟩

theorem OnOpen.between {u v z : Point} (h : OnOpen u v z) (hne : u ≠ v) : Between u v z := by
  refine ⟨h.line, ?_⟩
  obtain ⟨r, r0, r1, rfl⟩ := h
  have e : (u.x - (mix r u v).x) * (v.x - (mix r u v).x) + (u.y - (mix r u v).y) * (v.y - (mix r u v).y) =
      -(r * (1 - r) * ((u.x - v.x) ^ 2 + (u.y - v.y) ^ 2)) := by simp only [mix]; ring
  have d0 : 0 < (u.x - v.x) ^ 2 + (u.y - v.y) ^ 2 := by
    by_cases hx : u.x = v.x
    · have hy : u.y ≠ v.y := fun hy => hne (by cases u; cases v; simp_all)
      have : 0 < (u.y - v.y) ^ 2 := by have := sub_ne_zero.2 hy; positivity
      nlinarith [sq_nonneg (u.x - v.x)]
    · have : 0 < (u.x - v.x) ^ 2 := by have := sub_ne_zero.2 hx; positivity
      nlinarith [sq_nonneg (u.y - v.y)]
  have := mul_pos (mul_pos r0 (sub_pos.2 r1)) d0
  linarith

section
variable {D : Type} {n : Num} {fuel : Nat} {poly : Source D} {ops : List (BuildOp D)} {t : Triangles D} {s : St} {g : Trap} [hg : g.Tame]

/-- An input edge, in either direction. -/
def InEdge (poly : Source D) (ops : List (BuildOp D)) (u v : Nat) : Prop := (u, v) ∈ inputEdges poly ops ∨ (v, u) ∈ inputEdges poly ops

/-- What the sweep starts with. -/
structure RunSetup (n : Num) (poly : Source D) (ops : List (BuildOp D)) (c : Ctx) : Prop where
  input : Input c
  loose : Loose c (InEdge poly ops)
  exact : Exact c
  up : EpsUp n (allPoints (piecesOf poly ops)) → UpC c
  apart : EdgesApart poly ops → ∀ u v u' v', InEdge poly ops u v → InEdge poly ops u' v' → ¬ ProperCross (c.pos u) (c.pos v) (c.pos u') (c.pos v')
  mem : ∀ u v, InEdge poly ops u v → u ∈ c.ySorted
  edge : ∀ j es, c.edges[j]? = some es → ∀ p ∈ es.toList, p ∈ c.ySorted ∧ j ∈ c.ySorted ∧ Below (c.pos p) (c.pos j) ∧ InEdge poly ops p j
  all : ∀ u v, InEdge poly ops u v ↔ ∃ j es, c.edges[j]? = some es ∧ ∃ p ∈ es.toList, (u = p ∧ v = j) ∨ (u = j ∧ v = p)
  general : GeneralPosition (runPts n poly ops) → GenPos c
  clean : ∀ e ∈ inputEdges poly ops, CrossFree poly ops e → Clean c (InEdge poly ops) e.1 e.2 ∧ Clean c (InEdge poly ops) e.2 e.1
  dip : ∀ p q, InEdge poly ops p q → Below (c.pos p) (c.pos q) →
    DipC c (fun u v => Clean c (InEdge poly ops) u v ∧ Before c (InEdge poly ops) q u v) (fun z => InSweep c z ∧ (z = q ∨ Below (c.pos z) (c.pos q))) p q →
    HasFreeDip poly ops

theorem run_setup (hf : FineInput n (allPoints (piecesOf poly ops))) (hp : NoTouch poly ops)
    (hx : ScanComplete n (runPts n poly ops)) {b} (hb : buildChain poly ops = .ok b) :
    RunSetup n poly ops (b.build n).points := by
  have hsz := hf.size
  have hok : ∀ p ∈ piecesOf poly ops, p.Ok := by
    rcases buildChain_spec poly ops (by omega) with ⟨hok, -⟩ | ⟨-, h1⟩
    · exact hok
    · rw [hb] at h1; cases h1
  obtain ⟨b', k1, hi, hpts, hE⟩ := fine_build hf hok
  rw [hb] at k1; cases k1
  have hrun : (b.build n).points.points = runPts n poly ops := by
    show (Ctx.new n b.pb.points b.pb.edges).points = _
    rw [hpts]; rfl
  have hbelow := fun x hx => pieceEdges_below (piecesOf poly ops) [] hok x hx
  simp only [List.length_nil, List.nil_append] at hbelow
  obtain ⟨head, tail, xmax, xmin, ymax, ymin, hpts', -⟩ := ctx_points n (allPoints (piecesOf poly ops)) []
  have hpts' : runPts n poly ops = allPoints (piecesOf poly ops) ++ [head] ++ [tail] := hpts'
  rw [List.append_assoc] at hpts'
  have hlen : (b.build n).points.points.length = (allPoints (piecesOf poly ops)).length + 2 := by rw [hrun, hpts']; simp
  have pos : ∀ {i p}, (allPoints (piecesOf poly ops))[i]? = some p → (b.build n).points.pos i = p ∧ ptOf (allPoints (piecesOf poly ops)) i = p ∧
      i ∈ (b.build n).points.ySorted := by
    intro i p h
    have hl := (List.getElem?_eq_some_iff.1 h).1
    refine ⟨?_, ?_, ?_⟩
    · unfold Ctx.pos
      rw [hrun, hpts', List.getElem?_append_left hl, h]; rfl
    · unfold ptOf; rw [List.getD_eq_getElem?_getD, h]; rfl
    · rw [hi.perm.mem_iff, List.mem_range, hlen]; omega
  have mem : ∀ {i}, i < (b.build n).points.points.length → (b.build n).points.pos i ∈ runPts n poly ops := by
    intro i hi
    unfold Ctx.pos
    rw [List.getElem?_eq_getElem hi, ← hrun]
    exact List.getElem_mem _
  have loose0 : ∀ u v, (u, v) ∈ inputEdges poly ops → ∀ z, z < (b.build n).points.points.length →
      ¬ OnOpen ((b.build n).points.pos u) ((b.build n).points.pos v) ((b.build n).points.pos z) := by
    intro u v h z hz k
    obtain ⟨P, Q, h1, h2, h3⟩ := hbelow _ h
    have a := pos h1; have a' := pos h2
    simp only at a a' h3
    by_cases hl : z < (allPoints (piecesOf poly ops)).length
    · have b := pos (List.getElem?_eq_getElem hl)
      have := hp (u, v) h _ (List.getElem_mem hl)
      simp only [a.2.1, a'.2.1] at this
      rw [a.1, a'.1, b.1] at k
      exact this (k.between (by rintro rfl; exact Below.irrefl _ h3))
    · -- an artificial point is below all the others
      have e1 := hi.good.enclosed u (by have := (List.getElem?_eq_some_iff.1 h1).1; omega) (by have := (List.getElem?_eq_some_iff.1 h1).1; rw [hi.head]; simp only at this; omega)
        (by have := (List.getElem?_eq_some_iff.1 h1).1; rw [hi.tail]; simp only at this; omega)
      have e2 := hi.good.enclosed v (by have := (List.getElem?_eq_some_iff.1 h2).1; omega) (by have := (List.getElem?_eq_some_iff.1 h2).1; rw [hi.head]; simp only at this; omega)
        (by have := (List.getElem?_eq_some_iff.1 h2).1; rw [hi.tail]; simp only at this; omega)
      have ez : ((b.build n).points.pos z).y = ((b.build n).points.pos (b.build n).points.head).y := by
        rcases (show z = (b.build n).points.head ∨ z = (b.build n).points.tail by rw [hi.head, hi.tail]; omega) with rfl | rfl
        · rfl
        · exact hi.good.flat.symm
      obtain ⟨r, r0, r1, e⟩ := k
      have : ((b.build n).points.pos z).y = (1 - r) * ((b.build n).points.pos u).y + r * ((b.build n).points.pos v).y := by rw [e]; simp only [mix]; ring
      have := mul_pos (sub_pos.2 r1) (sub_pos.2 e1.2.2)
      have := mul_pos r0 (sub_pos.2 e2.2.2)
      linarith
  have loose : Loose (b.build n).points (InEdge poly ops) := by
    rintro u v (h | h) z hz
    · exact loose0 u v h z hz
    · exact fun k => loose0 v u h z hz k.symm
  have exa : Exact (b.build n).points := by
    intro i j k h1 h2 h3
    exact hx _ (mem h1) _ (mem h2) _ (mem h3)
  have hedge : ∀ j es, (b.build n).points.edges[j]? = some es → ∀ p, p ∈ es.toList ↔ (p, j) ∈ inputEdges poly ops := by
    intro j es hj p
    have h5 : (b.build n).points.edges = b.pb.edges ++ [.none] ++ [.none] := rfl
    rw [h5, List.append_assoc] at hj
    by_cases hl : j < b.pb.edges.length
    · rw [List.getElem?_append_left hl] at hj
      rw [hE.get j _ hj]
      simp only [List.mem_map, List.mem_filter, decide_eq_true_eq]
      constructor
      · rintro ⟨⟨a, c⟩, ⟨h1, rfl⟩, rfl⟩; exact h1
      · intro h; exact ⟨(p, j), ⟨h, rfl⟩, rfl⟩
    · rw [List.getElem?_append_right (by omega)] at hj
      have : es = .none := by
        have := List.mem_of_getElem? hj
        simpa using this
      subst this
      simp only [PointEdges.toList, List.not_mem_nil, false_iff]
      intro h
      obtain ⟨_, _, _, q1, -⟩ := hbelow _ h
      have := (List.getElem?_eq_some_iff.1 q1).1
      rw [hE.len, hpts] at hl
      exact hl this
  have hnum : (b.build n).points.num = n := rfl
  clear hb
  generalize b.build n = cdt at *
  have key : ∀ u v, ((u, v) ∈ inputEdges poly ops ∨ (v, u) ∈ inputEdges poly ops) →
      cdt.points.pos u = ptOf (allPoints (piecesOf poly ops)) u ∧ cdt.points.pos v = ptOf (allPoints (piecesOf poly ops)) v := by
    rintro u v (h | h)
    · obtain ⟨p, q, h1, h2, -⟩ := hbelow _ h
      have a := pos h1; have a' := pos h2
      exact ⟨a.1.trans a.2.1.symm, a'.1.trans a'.2.1.symm⟩
    · obtain ⟨p, q, h1, h2, -⟩ := hbelow _ h
      have a := pos h1; have a' := pos h2
      exact ⟨a'.1.trans a'.2.1.symm, a.1.trans a.2.1.symm⟩
  have clean : ∀ e ∈ inputEdges poly ops, CrossFree poly ops e → Clean cdt.points (InEdge poly ops) e.1 e.2 ∧ Clean cdt.points (InEdge poly ops) e.2 e.1 := by
    rintro ⟨u, v⟩ h ha
    have main : ∀ u' v', InEdge poly ops u' v' → ¬ ProperCross (cdt.points.pos u) (cdt.points.pos v) (cdt.points.pos u') (cdt.points.pos v') := by
      intro u' v' h'
      rw [(key u v (.inl h)).1, (key u v (.inl h)).2, (key u' v' h').1, (key u' v' h').2]
      rcases h' with h' | h'
      · exact ha (u', v') h'
      · exact fun k => ha (v', u') h' k.flipR
    exact ⟨main, fun u' v' h' k => main u' v' h' k.flipL⟩
  refine ⟨hi, loose, exa, ?_, ?_, ?_, ?_, ?_, ?_, clean, ?_⟩
  · intro up i hi1 hi2 hi3
    have hl : i < (allPoints (piecesOf poly ops)).length := by rw [hi.head] at hi2; rw [hi.tail] at hi3; omega
    rw [(pos (List.getElem?_eq_getElem hl)).1, hnum]
    exact up _ (List.getElem_mem _)
  · intro ha u v u' v' h h'
    rw [(key u v h).1, (key u v h).2, (key u' v' h').1, (key u' v' h').2]
    rcases h with h | h <;> rcases h' with h' | h'
    · have := ha (u, v) h (u', v') h'; exact this
    · have := ha (u, v) h (v', u') h'; exact fun k => this k.flipR
    · have := ha (v, u) h (u', v') h'; exact fun k => this k.flipL
    · have := ha (v, u) h (v', u') h'; exact fun k => this k.flipL.flipR
  · rintro u v (h | h)
    · obtain ⟨p, q, h1, h2, -⟩ := hbelow _ h
      exact (pos h1).2.2
    · obtain ⟨p, q, h1, h2, -⟩ := hbelow _ h
      exact (pos h2).2.2
  · intro j es hj p hp
    have h := (hedge j es hj p).1 hp
    obtain ⟨p', q, h1, h2, h3⟩ := hbelow _ h
    have a := pos h1; have a' := pos h2
    exact ⟨a.2.2, a'.2.2, by rw [a.1, a'.1]; exact h3, .inl h⟩
  · intro u v
    have get : ∀ {u v}, (u, v) ∈ inputEdges poly ops → ∃ es, cdt.points.edges[v]? = some es := by
      intro u v h
      obtain ⟨p', q, h1, h2, h3⟩ := hbelow _ h
      have := (List.getElem?_eq_some_iff.1 h2).1
      exact ⟨_, List.getElem?_eq_getElem (show v < _ by rw [hi.elen, hlen]; omega)⟩
    rw [iff_comm]
    constructor
    · rintro ⟨j, es, hj, p, hp, ⟨rfl, rfl⟩ | ⟨rfl, rfl⟩⟩
      · exact .inl ((hedge _ _ hj _).1 hp)
      · exact .inr ((hedge _ _ hj _).1 hp)
    · rintro (h | h)
      · obtain ⟨es, hes⟩ := get h
        exact ⟨_, _, hes, u, (hedge _ _ hes _).2 h, .inl ⟨rfl, rfl⟩⟩
      · obtain ⟨es, hes⟩ := get h
        exact ⟨_, _, hes, v, (hedge _ _ hes _).2 h, .inr ⟨rfl, rfl⟩⟩
  · intro gp i j k h1 h2 h3 n1 n2 n3
    exact gp _ (mem h1) _ (mem h2) _ (mem h3) (fun e => n1 (hi.good.inj _ _ h1 h2 e)) (fun e => n2 (hi.good.inj _ _ h2 h3 e)) (fun e => n3 (hi.good.inj _ _ h1 h3 e))
  · intro p q he hb k
    have he : (p, q) ∈ inputEdges poly ops := by
      rcases he with he | he
      · exact he
      · exfalso
        obtain ⟨p', q', h1, h2, h3⟩ := hbelow _ he
        rw [← (pos h1).1, ← (pos h2).1] at h3
        exact Below.asymm hb h3
    obtain ⟨P, Q, h1, h2, -⟩ := hbelow _ he
    have p1 := pos h1
    have p2 := pos h2
    simp only at p1 p2
    obtain ⟨lt, a, b, d, ⟨a1, a2⟩, ⟨b1, b2⟩, ⟨d1, d2⟩, x1, x2, x3, x4, y1, y2, y3, y4, z1, z2, cz⟩ := k
    simp only [p1.1, p2.1] at a2 b2 d2 x1 x4 y1 y2 y3 z1 z2 lt
    have inn : ∀ {z}, InSweep cdt.points z → (allPoints (piecesOf poly ops))[z]? = some (cdt.points.pos z) := by
      rintro z ⟨c1, c2, c3⟩
      have hl : z < (allPoints (piecesOf poly ops)).length := by rw [hi.head] at c2; rw [hi.tail] at c3; omega
      rw [(pos (List.getElem?_eq_getElem hl)).1]
      exact List.getElem?_eq_getElem hl
    have bel : ∀ {z}, z = q ∨ Below (cdt.points.pos z) Q → Q.x < (cdt.points.pos z).x → Below (cdt.points.pos z) Q := by
      rintro z (rfl | k) k'
      · rw [p2.1] at k'; exact (lt_irrefl _ k').elim
      · exact k
    have unc : ∀ z, z = a ∨ z = b ∨ z = d → ¬ Covered ((freeEdges poly ops).map fun e => (ptOf (allPoints (piecesOf poly ops)) e.1, ptOf (allPoints (piecesOf poly ops)) e.2)) Q (cdt.points.pos z) := by
      rintro z hz ⟨e, hs, u1, u2, k⟩
      obtain ⟨⟨u, v⟩, hs', rfl⟩ := List.mem_map.1 hs
      obtain ⟨he', hcf⟩ := List.mem_filter.1 hs'
      have hN := clean _ he' (of_decide_eq_true hcf)
      obtain ⟨U, V, g1, g2, -⟩ := hbelow _ he'
      have r1 := pos g1
      have r2 := pos g2
      simp only at r1 r2 u1 u2 k
      rw [r1.2.1] at u1 k
      rw [r2.2.1] at u2 k
      rw [← r1.1] at u1 k
      rw [← r2.1] at u2 k
      rw [← p2.1] at u1 u2
      have low : ∀ {A B z : Point}, Under A B z → A.x < B.x := by
        rintro A B z ⟨k1, k2, k3⟩
        rcases lt_or_ge A.x B.x with k | k
        · exact k
        · have e1 : z.x = A.x := by linarith
          have e2 : B.x = A.x := by linarith
          unfold det2 at k3; rw [e1, e2] at k3; linarith
      rcases k with k | k
      · have := cz z hz u v ⟨hN.1, .inl he', u1, u2⟩ (low k) k.1 k.2.1
        have := k.2.2; linarith
      · have := cz z hz v u ⟨hN.2, .inr he', u2, u1⟩ (low k) k.1 k.2.1
        have := k.2.2; linarith
    refine ⟨(P, Q), List.mem_map.2 ⟨(p, q), he, by simp only [p1.2.1, p2.2.1]⟩, ?_⟩
    have cov : ∀ {u v : Point}, (∀ z, InSweep cdt.points z ∧ (z = q ∨ Below (cdt.points.pos z) Q) → u.x ≤ (cdt.points.pos z).x → (cdt.points.pos z).x ≤ v.x →
        det2 u v (cdt.points.pos z) ≤ 0) → ∀ z ∈ allPoints (piecesOf poly ops), Below z Q → u.x ≤ z.x → z.x ≤ v.x → det2 u v z ≤ 0 := by
      intro u v h z hz hb
      obtain ⟨i, hi', rfl⟩ := List.getElem_of_mem hz
      have := pos (List.getElem?_eq_getElem hi')
      rw [← this.1] at hb ⊢
      exact h i ⟨⟨by omega, by rw [hi.head]; omega, by rw [hi.tail]; omega⟩, .inr hb⟩
    refine ⟨lt, _, List.mem_of_getElem? (inn a1), _, List.mem_of_getElem? (inn b1), _, List.mem_of_getElem? (inn d1), ?_, bel b2 (by linarith), bel d2 (by linarith),
      x1, x2, x3, x4, y1, y2, y3, y4, cov z1, cov z2, unc a (.inl rfl), unc b (.inr (.inl rfl)), unc d (.inr (.inr rfl))⟩
    rcases a2 with rfl | a2
    · exact .inl p2.1
    · exact .inr a2

/-- The run behind a program, with marks.  Crossing edges are allowed if no three points are on a line. -/
theorem run_marks_gen (hf : FineInput n (allPoints (piecesOf poly ops))) (hp : NoTouch poly ops)
    (hx : ScanComplete n (runPts n poly ops)) (hu : EpsUp n (allPoints (piecesOf poly ops)))
    {b} (hb : buildChain poly ops = .ok b) :
    Spec ((b.build n).runG g.strict fuel) (KT (EpsUp n (allPoints (piecesOf poly ops))) (g.l698 = true ∧ HasFreeDip poly ops))
      fun r => (EdgesApart poly ops → ∀ u v, Mk r.1.triangles u v ↔ (u, v) ∈ inputEdges poly ops ∨ (v, u) ∈ inputEdges poly ops) ∧
        ∀ e ∈ freeEdges poly ops, Mk r.1.triangles e.1 e.2 := by
  have S := run_setup hf hp hx hb
  refine (runG_marks (N := EdgesApart poly ops) _ S.input (.inr (S.up hu)) S.exact (g := g.strict) inferInstance rfl fuel S.apart (fun u v => Or.symm) S.loose S.mem S.edge
    fun u v => (S.all u v).1).mono ?_ |>.monoE ?_
  · rintro r ⟨h, h'⟩
    refine ⟨fun hN u v => (h hN u v).trans (S.all u v).symm, fun e he => ?_⟩
    obtain ⟨he, hc⟩ := List.mem_filter.1 he
    exact h' _ _ (.inl he) (S.clean e he (of_decide_eq_true hc)).1
  · rintro e ⟨h1, h2⟩
    refine ⟨h1, fun up => ?_⟩
    rcases h2 (S.up up) with h | ⟨⟨hl, p, q, a, b, k⟩, h⟩
    · exact .inl h
    · exact .inr ⟨⟨hl, S.dip p q a b k⟩, h⟩

/-- The run behind a program, with marks. -/
theorem run_marks (hf : FineInput n (allPoints (piecesOf poly ops))) (hp : NoTouch poly ops)
    (hx : ScanComplete n (runPts n poly ops)) (hu : EpsUp n (allPoints (piecesOf poly ops))) (ha : EdgesApart poly ops) {b} (hb : buildChain poly ops = .ok b) :
    Spec ((b.build n).runG g.strict fuel) (KT (EpsUp n (allPoints (piecesOf poly ops))) (g.l698 = true ∧ HasDip poly ops)) fun r => ∀ u v, Mk r.1.triangles u v ↔ (u, v) ∈ inputEdges poly ops ∨ (v, u) ∈ inputEdges poly ops := by
  refine ((run_marks_gen (g := g) (fuel := fuel) hf hp hx hu hb).mono fun r h => h.1 ha).monoE ?_
  rintro e ⟨h1, h2⟩
  refine ⟨h1, fun up => (h2 up).imp id fun h => ⟨⟨h.1.1, ha.dip h.1.2⟩, h.2⟩⟩

/-- The collinear branches of the edge insertion are not reached. -/
theorem runG_strict_gen (hf : FineInput n (allPoints (piecesOf poly ops))) (hp : NoTouch poly ops)
    (hx : ScanComplete n (runPts n poly ops)) (hu : EpsUp n (allPoints (piecesOf poly ops)))
    {b} (hb : buildChain poly ops = .ok b) : (b.build n).runG g.strict fuel = (b.build n).runG g fuel := by
  have key := run_marks_gen (g := g) (fuel := fuel) hf hp hx hu hb
  have hc : g.strict.col = g.col ∨ (g.col = false ∧ Err.trapped "collinear" = .trapped "collinear") := by
    cases k : g.col
    · exact .inr ⟨rfl, rfl⟩
    · exact .inl rfl
  rcases runG_ap (B := fun e => e = .trapped "collinear") (g := g.strict) (g' := g) (.inl ⟨rfl, rfl⟩) hc (b.build n) (f := fuel) (f' := fuel)
    (Or.inl rfl) with k | ⟨e, rfl, k⟩
  · exact k
  · rw [k] at key; exact (key.1 rfl).elim

/-- If no input point is inside an input edge, the collinear branches of the edge insertion are not reached. -/
theorem runG_strict (hf : FineInput n (allPoints (piecesOf poly ops))) (hp : NoTouch poly ops)
    (hx : ScanComplete n (runPts n poly ops)) (hu : EpsUp n (allPoints (piecesOf poly ops))) (ha : EdgesApart poly ops) {b} (hb : buildChain poly ops = .ok b) :
    (b.build n).runG g.strict fuel = (b.build n).runG g fuel := runG_strict_gen hf hp hx hu hb

theorem programG_noCol_gen (hf : FineInput n (allPoints (piecesOf poly ops))) (hp : NoTouch poly ops)
    (hx : ScanComplete n (runPts n poly ops)) (hu : EpsUp n (allPoints (piecesOf poly ops)))
    (h : programG g n fuel poly ops = .ok (t, s)) : programG g.strict n fuel poly ops = .ok (t, s) := by
  obtain ⟨b, hb, hr⟩ := bind_ok.1 h
  rw [programG, hb]; exact (runG_strict_gen hf hp hx hu hb).trans hr

theorem programG_noCol (hf : FineInput n (allPoints (piecesOf poly ops))) (hp : NoTouch poly ops)
    (hx : ScanComplete n (runPts n poly ops)) (hu : EpsUp n (allPoints (piecesOf poly ops))) (ha : EdgesApart poly ops) (h : programG g n fuel poly ops = .ok (t, s)) :
    programG g.strict n fuel poly ops = .ok (t, s) := programG_noCol_gen hf hp hx hu h

/-- No panic in runs in which the branch at `sweeper.rs:698` is excluded or repaired; crossing edges are allowed. -/
theorem no_panic_gen (hf : FineInput n (allPoints (piecesOf poly ops))) (hp : NoTouch poly ops)
    (hx : ScanComplete n (runPts n poly ops)) (hu : EpsUp n (allPoints (piecesOf poly ops)))
    (hok : ∀ p ∈ piecesOf poly ops, p.Ok) :
    (∃ t s, programG g n fuel poly ops = .ok (t, s)) ∨ programG g n fuel poly ops = .error .fuel ∨
      programG g n fuel poly ops = .error (.trapped "698") ∧ g.l698 = true ∧ HasFreeDip poly ops := by
  obtain ⟨b, hb, -⟩ := fine_build hf hok
  have key := run_marks_gen (g := g) (fuel := fuel) hf hp hx hu hb
  have e1 : programG g n fuel poly ops = (b.build n).runG g.strict fuel := by rw [programG, hb]; exact (runG_strict_gen hf hp hx hu hb).symm
  rw [e1]
  cases hr : (b.build n).runG g.strict fuel with
  | ok r => exact .inl ⟨r.1, r.2, rfl⟩
  | error e =>
    rw [hr] at key
    rcases key.2 hu with rfl | ⟨hd, rfl⟩
    · exact .inr (.inl rfl)
    · exact .inr (.inr ⟨rfl, hd⟩)

/-- No panic in runs in which the branch at `sweeper.rs:698` is excluded or repaired. -/
theorem no_panic (hf : FineInput n (allPoints (piecesOf poly ops))) (hp : NoTouch poly ops)
    (hx : ScanComplete n (runPts n poly ops)) (hu : EpsUp n (allPoints (piecesOf poly ops))) (ha : EdgesApart poly ops)
    (hok : ∀ p ∈ piecesOf poly ops, p.Ok) :
    (∃ t s, programG g n fuel poly ops = .ok (t, s)) ∨ programG g n fuel poly ops = .error .fuel ∨
      programG g n fuel poly ops = .error (.trapped "698") ∧ g.l698 = true ∧ HasDip poly ops :=
  (no_panic_gen (g := g) (fuel := fuel) hf hp hx hu hok).imp id (.imp id fun h => ⟨h.1, h.2.1, ha.dip h.2.2⟩)

/-- **C39.**  No panics: if the edges do not cross and no input point is inside an edge, the run, if it does not reach the branch at `sweeper.rs:698`, never panics and
never reads out of bounds; it returns a triangulation unless the fuel of the model runs out.  That branch needs a dip under an edge. -/
theorem C39_no_panic (hf : FineInput n (allPoints (piecesOf poly ops))) (hp : NoTouch poly ops)
    (hx : ScanComplete n (runPts n poly ops)) (hu : EpsUp n (allPoints (piecesOf poly ops))) (ha : EdgesApart poly ops)
    (hok : ∀ p ∈ piecesOf poly ops, p.Ok) :
    (∃ t s, programG no698 n fuel poly ops = .ok (t, s)) ∨ programG no698 n fuel poly ops = .error .fuel ∨
      programG no698 n fuel poly ops = .error (.trapped "698") ∧ HasDip poly ops := by
  rcases no_panic (g := no698) (fuel := fuel) hf hp hx hu ha hok with h | h | ⟨h, -, hd⟩
  · exact .inl h
  · exact .inr (.inl h)
  · exact .inr (.inr ⟨h, hd⟩)

/-- The code as it is: a panic or an out-of-bounds read is possible only in a run that takes the branch at `sweeper.rs:698`,
and only if there is a dip under an edge of the input. -/
theorem C39_program (hf : FineInput n (allPoints (piecesOf poly ops))) (hp : NoTouch poly ops)
    (hx : ScanComplete n (runPts n poly ops)) (hu : EpsUp n (allPoints (piecesOf poly ops))) (ha : EdgesApart poly ops)
    (hok : ∀ p ∈ piecesOf poly ops, p.Ok) :
    (∃ t s, program n fuel poly ops = .ok (t, s)) ∨ program n fuel poly ops = .error .fuel ∨
      programG no698 n fuel poly ops = .error (.trapped "698") ∧ HasDip poly ops := by
  have key := C39_no_panic (fuel := fuel) hf hp hx hu ha hok
  obtain ⟨b, hb, -⟩ := fine_build hf hok
  have e0 : programG no698 n fuel poly ops = (b.build n).runG no698 fuel := by rw [programG, hb]; rfl
  have e1 : program n fuel poly ops = (b.build n).run fuel := by rw [program, hb]; rfl
  rcases runG_off (b.build n) no698 fuel with ⟨m, k⟩ | k
  · rcases key with ⟨t, s, h⟩ | h | h
    · rw [e0, k] at h; cases h
    · rw [e0, k] at h; cases h
    · exact .inr (.inr h)
  · rw [e1, ← k, ← e0]; exact key

/-- A marked edge is marked in every triangle that has it. -/
theorem marked_all (hf : FineInput n (allPoints (piecesOf poly ops))) (h0 : programG g n fuel poly ops = .ok (t, s)) (h : programG g.strict n fuel poly ops = .ok (t, s))
    {T : Tri} (hT : T ∈ t.triangles) {i : Fin 3} (k : Mk t.triangles (T.from i) (T.to i)) : T.isConstrained i = true := by
  obtain ⟨c, -, hi, -, -, -, -, hr, hs⟩ := fine_run hf h
  have hm : MeshInv c True (fun _ => False) t.triangles := by rw [hs]; exact hr.inv.mesh.toTrue (fun h h' => hr.inv.mesh.csym rfl h h')
  obtain ⟨sn, hsn, e1, -⟩ := final_seen h0
  have same : ∀ {y w u v n e y' w' n' e'}, Sl t.triangles y w u v n e → Sl t.triangles y' w' u v n' e' → y = y' := by
    rintro y w u v n e y' w' n' e' ⟨T, hT, k⟩ ⟨T', hT', k'⟩
    obtain ⟨i, -, h1, h2, -⟩ := k.index
    obtain ⟨j, -, h3, h4, -⟩ := k'.index
    rw [← e1] at hT hT'
    exact C08_directed_edges hf h0 hsn hT hT' ⟨i, j, h1.trans h3.symm, h2.trans h4.symm⟩
  obtain ⟨y, hl, rfl⟩ := List.getElem_of_mem hT
  have sl := sl_at (List.getElem?_eq_getElem hl) i
  have dir : ∀ {u v}, Mk t.triangles u v → ConEdge t.triangles u v := fun k => hm.con k
  have one : ∀ {t' w' n' e'}, Sl t.triangles t' w' (t.triangles[y].from i) (t.triangles[y].to i) n' e' → e'.isConstrained = true →
      t.triangles[y].isConstrained i = true := by
    intro t' w' n' e' k hk
    obtain rfl := same sl k
    obtain ⟨-, -, rfl⟩ := hm.uniq sl k
    exact hk
  rcases dir k with k | k
  · rcases k with ⟨t', w', e', k, hk⟩ | ⟨t', w', x, e', w'', e'', k, hk, -⟩
    · exact one k hk
    · exact one k hk
  · rcases k with ⟨t', w', e', k, hk⟩ | ⟨t', w', x, e', w'', e'', k, hk, k2, hk2⟩
    · exfalso
      cases hn : t.triangles[y].neighbors.get i with
      | none =>
        rw [hn] at sl
        have q1 : Bd s.tris y (t.triangles[y].from i) (t.triangles[y].to i) := hs ▸ ⟨_, _, sl⟩
        have q2 : Bd s.tris t' (t.triangles[y].to i) (t.triangles[y].from i) := hs ▸ ⟨_, _, k⟩
        exact hr.inv.no_back hi.good q1 q2
      | some x =>
        rw [hn] at sl
        obtain ⟨w2, e2, k2⟩ := hm.sym sl
        obtain rfl := same k k2
        obtain ⟨-, k3, -⟩ := hm.uniq k k2
        cases k3
    · exact one k2 hk2

/-- **C38.**  Constraints are honoured: if no input point is inside an input edge and no two input edges cross, then after a successful run every edge of the
polygon and of the holes is an edge of the final mesh, and exactly these edges are marked as constrained, on all their sides. -/
theorem C38_constraints_honoured (hf : FineInput n (allPoints (piecesOf poly ops))) (hp : NoTouch poly ops)
    (hx : ScanComplete n (runPts n poly ops)) (hu : EpsUp n (allPoints (piecesOf poly ops))) (ha : EdgesApart poly ops) (h0 : programG g n fuel poly ops = .ok (t, s)) :
    ConstraintsInPlace (inputEdges poly ops) t.triangles := by
  have h := programG_noCol hf hp hx hu ha h0
  obtain ⟨c, -, hi, -, -, -, -, hr, hs⟩ := fine_run hf h
  have hm : MeshInv c True (fun _ => False) t.triangles := by rw [hs]; exact hr.inv.mesh.toTrue (fun h h' => hr.inv.mesh.csym rfl h h')
  obtain ⟨b, hb, hr'⟩ := bind_ok.1 h
  have key := run_marks (g := g) (fuel := fuel) hf hp hx hu ha hb
  rw [hr'] at key
  have key : ∀ u v, Mk t.triangles u v ↔ _ := key
  constructor
  · intro e he
    obtain ⟨y, w, n', a, k, -⟩ := (key e.1 e.2).2 (.inl he)
    rcases k with ⟨T, hT, k⟩ | ⟨T, hT, k⟩
    · obtain ⟨i, -, h1, h2, -⟩ := k.index
      exact ⟨T, List.mem_of_getElem? hT, i, .inl ⟨h1, h2⟩⟩
    · obtain ⟨i, -, h1, h2, -⟩ := k.index
      exact ⟨T, List.mem_of_getElem? hT, i, .inr ⟨h1, h2⟩⟩
  · intro T hT i
    obtain ⟨y, hl, rfl⟩ := List.getElem_of_mem hT
    have sl := sl_at (List.getElem?_eq_getElem hl) i
    rw [← key]
    constructor
    · intro hc
      exact .of sl hc
    · intro k
      exact marked_all hf h0 h hT k

/-- **C37 and C38 together.**  The reported triangles are the polygon minus its holes, for every input whose edges do not cross and contain no other input point and
whose holes are strictly inside the polygon (whenever the run succeeds without the branch at `sweeper.rs:698` and reports anything). -/
theorem C38_region (hf : FineInput n (allPoints (piecesOf poly ops))) (hp : NoTouch poly ops)
    (hx : ScanComplete n (runPts n poly ops)) (hu : EpsUp n (allPoints (piecesOf poly ops))) (ha : EdgesApart poly ops) (h : programG g n fuel poly ops = .ok (t, s))
    (h3 : 3 ≤ poly.points.length) (h3' : ∀ H ∈ holesOf ops, 3 ≤ H.length)
    (hin : ∀ H ∈ holesOf ops, ∀ p ∈ H, StrictlyInside poly.points p) (hne : t.result ≠ []) (q : Point) :
    (∀ i ∈ t.result, ∀ T, t.triangles[i]? = some T → T.Inside (runPts n poly ops) q → InRegion poly ops q) ∧
    (InRegion poly ops q → ∃ i ∈ t.result, ∃ T, t.triangles[i]? = some T ∧ 0 < area2 (runPts n poly ops) T ∧ T.InClosed (runPts n poly ops) q) :=
  C37_region hf h (C38_constraints_honoured hf hp hx hu ha h) h3 h3' hin hne q

end

/-! ## An example -/

/-- A triangular hole and two Steiner points. -/
def gpOps : List (BuildOp Nat) :=
  [.steinerPoint ⟨1, 2⟩ 5, .hole ⟨[⟨3, 3⟩, ⟨6, 4⟩, ⟨5, 8⟩], [6, 7, 8]⟩, .steinerPoints ⟨[⟨7, 2⟩], [9]⟩]

theorem gp_fine : FineInput f64 (allPoints (piecesOf exPoly gpOps)) := by decide +kernel

/-- A quadrilateral with a triangular hole and two Steiner points. -/
theorem gp_general : NoTouch exPoly gpOps ∧ ScanComplete f64 (runPts f64 exPoly gpOps) ∧ EdgesApart exPoly gpOps := by
  refine ⟨?_, ?_, ?_⟩ <;> decide +kernel

instance : (p : Piece) → Decidable p.Ok
  | .polyline ps => inferInstanceAs (Decidable (∀ x ∈ cyclicPairs ps, x.1 ≠ x.2))
  | .steiner _ => inferInstanceAs (Decidable True)

theorem gp_up : EpsUp f64 (allPoints (piecesOf exPoly gpOps)) ∧ ∀ p ∈ piecesOf exPoly gpOps, p.Ok := by
  refine ⟨by decide +kernel, by decide +kernel⟩

example : ∃ t s, programG no698 f64 200 exPoly gpOps = .ok (t, s) ∧ ConstraintsInPlace (inputEdges exPoly gpOps) t.triangles := by
  have : (programG no698 f64 200 exPoly gpOps).toBool = true := by decide +kernel
  cases h : programG no698 f64 200 exPoly gpOps with
  | error e => rw [h] at this; cases this
  | ok r => exact ⟨r.1, r.2, rfl, C38_constraints_honoured gp_fine gp_general.1 gp_general.2.1 gp_up.1 gp_general.2.2 h⟩

example (fuel : Nat) : (∃ t s, program f64 fuel exPoly gpOps = .ok (t, s)) ∨ program f64 fuel exPoly gpOps = .error .fuel ∨
    programG no698 f64 fuel exPoly gpOps = .error (.trapped "698") ∧ HasDip exPoly gpOps :=
  C39_program gp_fine gp_general.1 gp_general.2.1 gp_up.1 gp_general.2.2 gp_up.2

end P2T
