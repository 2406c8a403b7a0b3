import Verif.Proofs.EdgeEv
import Verif.Proofs.Run

/-!
# The sweep keeps the mesh consistent
-/

set_option linter.unusedSectionVars false

namespace P2T

variable {c : Ctx} {K : Prop}

/-- A callback between events sees a consistent state. -/
theorem SInv.emit' {s : St} (h : SInv c K (fun _ => False) NoP s) {e : Ev} (hr : ∀ t ot, e ≠ .rotated t ot) :
    SInv c K (fun _ => False) NoP (s.emit e) := by
  refine ⟨h.mesh, h.bd, h.front, ?_, h.one⟩
  intro x hx
  simp only [St.emit, List.mem_cons] at hx
  rcases hx with rfl | hx
  · exact ⟨h.mesh.mono (fun _ _ => trivial), h.front, ⟨NoP, h.bd⟩, fun _ => ⟨h.mesh, h.bd⟩, fun k => (hr _ _ k).elim, fun _ => h.bd⟩
  · exact h.trace x hx

/-- What the log says about constraint marks. -/
structure Log (g : Trap) (tr : List (Ev × Snap)) : Prop where
  edge : ∀ p q sn, (.edge p q, sn) ∈ tr → g.col = true → ConEdge sn.tris p q
  point : ∀ l1 l2 l3 p sn sn', tr = l1 ++ (.exitPoint p, sn') :: l2 ++ (.enterPoint p, sn) :: l3 →
    (∀ x ∈ l2, x.1.isLegal = true) → Keep sn.tris sn'.tris

theorem Log.nil (g : Trap) : Log g [] := ⟨by simp, by simp⟩

theorem Log.cons {g : Trap} {tr} (h : Log g tr) {e : Ev} {sn} (h1 : ∀ p q, e = .edge p q → g.col = true → ConEdge sn.tris p q)
    (h2 : ∀ p, e = .exitPoint p → ∀ l2 l3 sn', tr = l2 ++ (.enterPoint p, sn') :: l3 → (∀ x ∈ l2, x.1.isLegal = true) →
      Keep sn'.tris sn.tris) : Log g ((e, sn) :: tr) := by
  refine ⟨?_, ?_⟩
  · intro p q sn' hm hc
    rcases List.mem_cons.1 hm with hm | hm
    · cases hm; exact h1 p q rfl hc
    · exact h.edge p q sn' hm hc
  · intro l1 l2 l3 p sn1 sn' he hl
    cases l1 with
    | nil =>
      simp only [List.nil_append, List.cons_append, List.cons.injEq, Prod.mk.injEq] at he
      obtain ⟨⟨rfl, rfl⟩, he⟩ := he
      exact h2 p rfl l2 l3 sn1 he hl
    | cons x l1 =>
      simp only [List.cons_append, List.cons.injEq] at he
      exact h.point l1 l2 l3 p sn1 sn' (by simpa using he.2) hl

theorem Log.legal {g : Trap} {tr} (h : Log g tr) : ∀ {l : List (Ev × Snap)}, (∀ x ∈ l, x.1.isLegal = true) → Log g (l ++ tr)
  | [], _ => h
  | (e, sn) :: l, hl => by
    have h1 := hl (e, sn) (by simp)
    refine (Log.legal h (l := l) fun x hx => hl x (by simp [hx])).cons ?_ ?_
    · rintro p q rfl; simp [Ev.isLegal] at h1
    · rintro p rfl; simp [Ev.isLegal] at h1

theorem Evolve.log {g : Trap} {s s' : St} (e : Evolve s s') (h : Log g s.trace) : Log g s'.trace := by
  obtain ⟨l, k, hl⟩ := e.trace
  rw [k]; exact h.legal fun x hx => (hl x hx).1

/-- The first occurrence below only legalization callbacks is determined. -/
theorem legal_split {l1 l2 : List (Ev × Snap)} {x y : Ev × Snap} {r1 r2} (h : l1 ++ x :: r1 = l2 ++ y :: r2)
    (h1 : ∀ z ∈ l1, z.1.isLegal = true) (h2 : ∀ z ∈ l2, z.1.isLegal = true) (hx : x.1.isLegal = false) (hy : y.1.isLegal = false) :
    x = y := by
  induction l1 generalizing l2 with
  | nil =>
    cases l2 with
    | nil => simp at h; exact h.1
    | cons z l2 =>
      simp only [List.nil_append, List.cons_append, List.cons.injEq] at h
      have := h2 z (by simp); rw [← h.1] at this; simp [this] at hx
  | cons w l1 ih =>
    cases l2 with
    | nil =>
      simp only [List.nil_append, List.cons_append, List.cons.injEq] at h
      have := h1 w (by simp); rw [h.1] at this; simp [this] at hy
    | cons z l2 =>
      simp only [List.cons_append, List.cons.injEq] at h
      exact ih h.2 (fun z hz => h1 z (by simp [hz])) (fun z hz => h2 z (by simp [hz]))

/-- The state during the sweep; `done` are the points handled. -/
structure Swept (c : Ctx) (K : Prop) (g : Trap) (done : List Nat) (s : St) : Prop where
  inv : SInv c K (fun _ => False) NoP s
  base : Base c done s
  has : ∀ v ∈ done, HasV s.tris v
  log : Log g s.trace
  top : ∃ v ∈ done, v ∈ s.front.pids ∧ v ≠ c.head ∧ v ≠ c.tail
  step : StepLog c s.trace
  head : HeadEq s

theorem edgeEvents_spec (gd : Good c) {g : Trap} (hg : g.Tame) (hK : K → g.col = true) {fuel : Nat} {q : Nat} (hqh : q ≠ c.head) (hqt : q ≠ c.tail)
    {done : List Nat} (hqd : q ∈ done) : ∀ (l : List Nat) {s : St}, (∀ p ∈ l, p < c.points.length) → Swept c K g done s → q ∈ s.front.pids →
    Spec (edgeEvents g c fuel q (c.pos q) l s)
      (fun e => EErr e ∧ ∃ l1 p l2 s1, l = l1 ++ p :: l2 ∧ edgeEvents g c fuel q (c.pos q) l1 s = .ok s1 ∧
        edgeEvent g c fuel s1 ⟨p, q⟩ (c.pos q) = .error e)
      fun s' => Swept c K g done s'
  | [], s, _, h, hq => Spec.ok h
  | p :: l, s, hl, h, hq => by
    simp only [edgeEvents]
    have := (edgeEvent_spec gd hg hK (fuel := fuel) h.inv (hl p (by simp)) hq hqt).withEq.errEq
    refine Spec.bind (R := fun s' => (EvPost c K s s' ∧ q ∈ s'.front.pids ∧ (g.col = true → ConEdge s'.tris p q)) ∧
      edgeEvent g c fuel s ⟨p, q⟩ (c.pos q) = .ok s') (this.monoE ?_) ?_
    · rintro e ⟨e1, e2⟩
      exact ⟨e1, [], p, l, s, rfl, rfl, e2⟩
    · rintro s1 ⟨⟨k1, k2, k3⟩, k4⟩
      have ev := edgeEvent_evolve k4
      have sw : Swept c K g done (s1.emit (.edge p q)) := by
        refine ⟨k1.inv.emit' (by simp), (ev.base h.base).emit _, fun v hv => k1.grow v (h.has v hv), ?_, ⟨q, hqd, k2, hqh, hqt⟩, (k1.step h.step h.head).cons ?_, .emit _ _⟩
        · refine (ev.log h.log).cons ?_ (by simp)
          rintro p' q' h' hc; cases h'; exact k3 hc
        · rintro x l - ⟨q1, -⟩; exact (q1 p q rfl).elim
      refine (edgeEvents_spec gd hg hK hqh hqt hqd l (fun x hx => hl x (by simp [hx])) sw k2).monoE ?_
      rintro e ⟨e1, l1, p', l2, s2, e2, e3, e4⟩
      refine ⟨e1, p :: l1, p', l2, s2, by rw [e2]; rfl, ?_, e4⟩
      simp only [edgeEvents, k4, ok_bind, e3]

/-- What the loop needs to know of the points still to come. -/
structure Coming (c : Ctx) (done : List Nat) (l : List (Nat × Point × PointEdges)) : Prop where
  lt : ∀ x ∈ l, x.1 < c.points.length ∧ x.1 ≠ c.head ∧ x.1 ≠ c.tail ∧ x.2.1 = c.pos x.1
  edges : ∀ x ∈ l, ∀ p ∈ x.2.2.toList, p < c.points.length
  above : ∀ x ∈ l, ∀ v, v ∈ done → Below (c.pos v) (c.pos x.1)
  sorted : l.Pairwise fun x y => Below (c.pos x.1) (c.pos y.1)

/-- The sweep failed inside an edge event, in this state. -/
def FailsInEdge (g : Trap) (c : Ctx) (fuel : Nat) (items : List (Nat × Point × PointEdges)) (s : St) (e : Err) : Prop :=
  ∃ pre q pt es post l1 p l2 s1 s2 s3, items = pre ++ (q, pt, es) :: post ∧ sweepLoop g c fuel pre s = .ok s1 ∧
    pointEvent c fuel (s1.emit (.enterPoint q)) q pt = .ok s2 ∧ es.toList = l1 ++ p :: l2 ∧
    edgeEvents g c fuel q pt l1 (s2.emit (.exitPoint q)) = .ok s3 ∧ edgeEvent g c fuel s3 ⟨p, q⟩ pt = .error e

theorem Good.headBelow (gd : Good c) {i : Nat} (h : i < c.points.length) (hh : i ≠ c.head) (ht : i ≠ c.tail) :
    Below (c.pos c.head) (c.pos i) ∧ Below (c.pos c.tail) (c.pos i) := by
  have := gd.enclosed i h hh ht
  refine ⟨.inl this.2.2, .inl ?_⟩
  rw [← gd.flat]; exact this.2.2

theorem Coming.next {done : List Nat} {q : Nat} {pt : Point} {es : PointEdges} {l} (hc : Coming c done ((q, pt, es) :: l)) : Coming c (done ++ [q]) l := by
  refine ⟨fun x hx => hc.lt x (by simp [hx]), fun x hx => hc.edges x (by simp [hx]), ?_, ?_⟩
  · intro x hx v hv
    rcases List.mem_append.1 hv with hv | hv
    · exact hc.above x (by simp [hx]) v hv
    · simp only [List.mem_singleton] at hv; subst hv
      exact (List.pairwise_cons.1 hc.sorted).1 x hx
  · exact (List.pairwise_cons.1 hc.sorted).2

/-- The state after a point event. -/
theorem Swept.point {g : Trap} {fuel : Nat} {done : List Nat} {s s1 : St} {q : Nat} {pt : Point} {es : PointEdges} {l}
    (h : Swept c K g done s) (hc : Coming c done ((q, pt, es) :: l)) (k5 : pointEvent c fuel (s.emit (.enterPoint q)) q (c.pos q) = .ok s1)
    (k1 : SInv c K (fun _ => False) NoP s1) (k2 : Ext c (s.emit (.enterPoint q)) s1) (k3 : q ∈ s1.front.pids) (k4 : HasV s1.tris q) :
    Swept c K g (done ++ [q]) (s1.emit (.exitPoint q)) := by
  obtain ⟨hq, hh, ht, -⟩ := hc.lt (q, pt, es) (by simp)
  have hpq : c.points[q]? = some (c.pos q) := by
    simp [Ctx.pos, List.getElem?_eq_getElem hq]
  obtain ⟨s1', v1, v2, v3, -⟩ := pointEvent_base k5 (h.base.emit (.enterPoint q)) hpq
  obtain ⟨lg, v4, v5⟩ := v1.trace
  have lg1 : Log g s1.trace := by
    rw [v4, v3]
    exact (h.log.cons (e := .enterPoint q) (sn := s.snap) (by simp) (by simp)).legal fun x hx => (v5 x hx).1
  have st0 : StepLog c (s.emit (.enterPoint q)).trace :=
    h.step.cons fun x l e _ => by
      show KeepL c _ s.tris
      rw [h.head x l e]; exact .refl _ _
  obtain ⟨st1, hd1⟩ := k2.steps st0 (.emit _ _)
  refine ⟨k1.emit' (by simp), (v1.base v2).emit _, ?_, ?_, ⟨q, by simp, k3, hh, ht⟩, st1.cons ?_, .emit _ _⟩
  · intro v hv
    rcases List.mem_append.1 hv with hv | hv
    · exact k2.grow v (h.has v hv)
    · simp only [List.mem_singleton] at hv; subst hv; exact k4
  · refine lg1.cons (by simp) ?_
    rintro p hp l2 l3 sn' htr hl2
    cases hp
    rw [v4, v3] at htr
    have := legal_split (x := (.enterPoint q, s.snap)) htr (fun x hx => (v5 x hx).1) hl2 rfl rfl
    simp only [Prod.mk.injEq, true_and] at this
    rw [← this]
    exact k2.keep
  · intro x l e _
    show KeepL c _ s1.tris
    rw [hd1 x l e]; exact .refl _ _

theorem Sl.corner {ts : Store} {t w u v n e} (h : Sl ts t w u v n e) : ∃ T ∈ ts, w ∈ T.corners := by
  obtain ⟨T, hT, k⟩ := h
  refine ⟨T, List.mem_of_getElem? hT, ?_⟩
  obtain ⟨i, rfl, -⟩ := k.index
  match i with
  | 0 => simp [Tri.corners, V3.get]
  | 1 => simp [Tri.corners, V3.get]
  | 2 => simp [Tri.corners, V3.get]

/-- A point that is still to come is not a corner yet. -/
theorem Base.fresh {done : List Nat} {s : St} (b : Base c done s) {q : Nat} (hh : q ≠ c.head) (ht : q ≠ c.tail)
    (hd : ∀ v ∈ done, Below (c.pos v) (c.pos q)) : ¬ HasV s.tris q := by
  rintro ⟨t, u, v, n, e, h⟩
  rcases b.uses q (.inl h.corner) with k | k | k
  · exact hh k
  · exact ht k
  · exact Below.irrefl _ (hd q k)

theorem sweepLoop_spec (gd : Good c) {g : Trap} (hg : g.Tame) (hK : K → g.col = true) {fuel : Nat} :
    ∀ (l : List (Nat × Point × PointEdges)) {done : List Nat} {s : St}, Coming c done l → Swept c K g done s →
    Spec (sweepLoop g c fuel l s) (fun e => e = .fuel ∨ (EErr e ∧ FailsInEdge g c fuel l s e))
      fun s' => Swept c K g (done ++ l.map (·.1)) s'
  | [], done, s, _, h => Spec.ok (by simpa using h)
  | (q, pt, es) :: l, done, s, hc, h => by
    simp only [sweepLoop]
    obtain ⟨hq, hh, ht, hpt⟩ := hc.lt (q, pt, es) (by simp)
    have hpt' : pt = c.pos q := hpt
    subst hpt'
    have h1 : SInv c K (fun _ => False) NoP (s.emit (.enterPoint q)) := h.inv.emit' (by simp)
    have hb : ∀ a ∈ (s.emit (.enterPoint q)).front.pids, Below (c.pos a) (c.pos q) := by
      intro a ha
      have hu : Uses s.tris s.front a := by
        simp only [Front.pids, List.mem_map] at ha
        obtain ⟨e, he, hk⟩ := ha
        exact .inr ⟨e, he, hk⟩
      rcases h.base.uses a hu with rfl | rfl | hd
      · exact (gd.headBelow hq hh ht).1
      · exact (gd.headBelow hq hh ht).2
      · exact hc.above _ (List.mem_cons_self) a hd
    refine Spec.bind (R := fun s1 => (SInv c K (fun _ => False) NoP s1 ∧ Ext c (s.emit (.enterPoint q)) s1 ∧ q ∈ s1.front.pids ∧ HasV s1.tris q) ∧
      pointEvent c fuel (s.emit (.enterPoint q)) q (c.pos q) = .ok s1)
      ((pointEvent_spec gd (fuel := fuel) h1 hq hh ht hb (h.base.fresh hh ht (hc.above _ List.mem_cons_self))).withEq.monoE fun e he => .inl he) ?_
    rintro s1 ⟨⟨k1, k2, k3, k4⟩, k5⟩
    have sw := h.point hc k5 k1 k2 k3 k4
    refine Spec.bind (R := fun s2 => Swept c K g (done ++ [q]) s2 ∧ edgeEvents g c fuel q (c.pos q) es.toList (s1.emit (.exitPoint q)) = .ok s2)
      ((edgeEvents_spec gd hg hK hh ht (by simp) es.toList (hc.edges (q, c.pos q, es) (by simp)) sw k3).withEq.monoE ?_) ?_
    · rintro e ⟨e1, l1, p, l2, s3, e2, e3, e4⟩
      exact .inr ⟨e1, [], q, c.pos q, es, l, l1, p, l2, s, s1, s3, rfl, rfl, k5, e2, e3, e4⟩
    · rintro s2 ⟨j1, j2⟩
      have hc' := hc.next
      have := sweepLoop_spec gd hg hK (fuel := fuel) l hc' j1
      refine (this.monoE ?_).mono ?_
      · rintro e (e1 | ⟨e1, pre, q', pt', es', post, l1, p, l2, s4, s5, s6, f1, f2, f3⟩)
        · exact .inl e1
        · refine .inr ⟨e1, (q, c.pos q, es) :: pre, q', pt', es', post, l1, p, l2, s4, s5, s6, by rw [f1]; rfl, ?_, f3⟩
          simp only [sweepLoop, k5, ok_bind, j2, f2]
      · intro s' hs'
        simpa using hs'

end P2T
