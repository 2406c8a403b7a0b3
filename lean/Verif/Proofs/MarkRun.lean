import Verif.Proofs.FillClear
import Verif.Proofs.RunInv

/-!
# The marked edges are the input edges
-/

set_option linter.unusedSectionVars false

namespace P2T

variable {c : Ctx}

theorem Base.topV (gd : Good c) {done : List Nat} {s : St} (b : Base c done s) {q : Nat} (hq : q < c.points.length) (hh : q ≠ c.head) (ht : q ≠ c.tail)
    (hd : ∀ v ∈ done, v = q ∨ Below (c.pos v) (c.pos q)) : TopV c q s.tris := by
  rintro z ⟨t, u, v, n, e, h⟩
  rcases b.uses z (.inl h.corner) with rfl | rfl | k
  · exact .inr (gd.headBelow hq hh ht).1
  · exact .inr (gd.headBelow hq hh ht).2
  · exact hd z k

/-- No collinear trap; under the condition `K` no failure but fuel and, if `Z`, the branch at line 698. -/
def KT (K Z : Prop) (e : Err) : Prop := NotCol e ∧ (K → TErr Z e)

theorem KT.fuel {K Z : Prop} : KT K Z .fuel := ⟨by simp [NotCol], fun _ => .fuel⟩
theorem KT.ofFuel {K Z : Prop} {e : Err} (h : e = .fuel) : KT K Z e := h ▸ .fuel

/-- A conditional specification beside an unconditional one. -/
theorem Spec.kt {α} {K Z : Prop} {m : Except Err α} {E : Err → Prop} {Q R : α → Prop} (h : Spec m E Q) (hE : ∀ e, E e → NotCol e) (h' : K → Spec m (TErr Z) R) :
    Spec m (KT K Z) fun a => Q a ∧ (K → R a) := by
  cases m with
  | ok a => exact ⟨h, h'⟩
  | error e => exact ⟨hE e h, h'⟩

/-- Adding `eps` to an abscissa does not make it smaller. -/
def UpC (c : Ctx) : Prop := ∀ i, i < c.points.length → i ≠ c.head → i ≠ c.tail → (c.pos i).x ≤ c.num.rnd ((c.pos i).x + c.num.eps)

theorem XAsc.enter (gd : Good c) (up : UpC c) {l l' : List Nat} (h : XAsc c l) {i : Nat} (hi : i < c.points.length) (hih : i ≠ c.head) (hit : i ≠ c.tail)
    (hl : ∀ a ∈ l, a < c.points.length) (k : Entered c l i l') : XAsc c l' := by
  obtain ⟨L, e, x, R, rfl, k1, k2, k3⟩ := k
  have en := gd.enclosed i hi hih hit
  obtain ⟨h1, h2, h3⟩ := List.pairwise_append.1 h
  obtain ⟨h4, h5⟩ := List.pairwise_cons.1 h2
  obtain ⟨h6, h7⟩ := List.pairwise_cons.1 h5
  have hei : (c.pos e).x ≤ (c.pos i).x := by
    rcases k1 with k | ⟨k, -⟩
    · exact k.le
    · exact le_of_eq k
  have iR : ∀ z ∈ x :: R, (c.pos i).x < (c.pos z).x := by
    intro z hz
    rcases List.mem_cons.1 hz with rfl | hz
    · exact k2
    · exact k2.trans (h6 z hz)
  have tl : (i :: x :: R).Pairwise fun a b => (c.pos a).x < (c.pos b).x := List.pairwise_cons.2 ⟨iR, h5⟩
  rcases k3 with ⟨rfl, k3⟩ | ⟨rfl, -⟩
  · have he : (c.pos e).x < (c.pos i).x := by
      rcases k3 with k3 | k3
      · exact k3
      · by_cases e1 : e = c.head
        · rw [e1]; exact en.1
        by_cases e2 : e = c.tail
        · rw [e2] at hei; linarith
        exact lt_of_le_of_lt (up e (hl e (by simp)) e1 e2) k3
    refine List.pairwise_append.2 ⟨h1, List.pairwise_cons.2 ⟨?_, tl⟩, ?_⟩
    · intro z hz
      rcases List.mem_cons.1 hz with rfl | hz
      · exact he
      · exact he.trans (iR z hz)
    · intro z hz y hy
      rcases List.mem_cons.1 hy with rfl | hy
      · exact h3 z hz y (by simp)
      rcases List.mem_cons.1 hy with rfl | hy
      · exact (h3 z hz e (by simp)).trans he
      · exact h3 z hz y (List.mem_cons_of_mem _ hy)
  · refine List.pairwise_append.2 ⟨h1, tl, ?_⟩
    intro z hz y hy
    rcases List.mem_cons.1 hy with rfl | hy
    · exact lt_of_lt_of_le (h3 z hz e (by simp)) hei
    · exact h3 z hz y (List.mem_cons_of_mem _ hy)

theorem Evolve.xasc {s s' : St} (e : Evolve s s') (h : XAsc c s.front.pids) : XAsc c s'.front.pids := by
  have : s'.front.pids.Sublist s.front.pids := by
    have := e.front.map Prod.snd
    simpa [Front.shape, Front.pids, Function.comp_def] using this
  exact h.sub this

/-- The nodes of the front are swept points. -/
theorem Base.low {done : List Nat} {s : St} (b : Base c done s) : ∀ z ∈ s.front.pids, z = c.head ∨ z = c.tail ∨ z ∈ done := by
  intro z hz
  refine b.uses z (.inr ?_)
  simp only [Front.pids, List.mem_map] at hz
  obtain ⟨e, he, hk⟩ := hz
  exact ⟨e, he, hk⟩

/-- At the highest corner a flat start triangle is on the line of the edge only if it ends where the edge ends. -/
theorem SInv.zok {s : St} (h : SInv c True (fun _ => False) NoP s) (gd : Good c) (lg : LG c.pos s.tris) {q p : Nat} (top : TopV c q s.tris) (hv : Vtx s.tris p)
    (hpq : q ≠ p) (free : ∀ z, Vtx s.tris z → ¬ OnOpen (c.pos q) (c.pos p) (c.pos z)) {t w x n e} (a : Sl s.tris t w x q n e) (kx : keyLt (c.pos q) (c.pos x)) :
    Zok c.pos q p w x := by
  intro h0 h1
  have h0' : det2 (c.pos w) (c.pos x) (c.pos q) = 0 := by rw [det2_rot]; exact h0
  obtain ⟨k1, k2⟩ := h.zero_desc a h0' kx
  obtain ⟨_, _, a2⟩ := a.rot2
  obtain ⟨_, _, a1⟩ := a.rot
  have inj : ∀ {i j}, Vtx s.tris i → Vtx s.tris j → i ≠ j → c.pos i ≠ c.pos j := by
    rintro i j ⟨_, _, _, _, _, b⟩ ⟨_, _, _, _, _, b'⟩ hn e
    exact hn (gd.inj _ _ (h.sl_lt b).1 (h.sl_lt b').1 e)
  have hq := a.vtx.2.2
  rcases keyLt_total (inj hq hv hpq) with k | k
  · by_cases e0 : w = p
    · exact .inl e0
    exfalso
    rcases keyLt_total (inj a.vtx.1 hv e0) with k' | k'
    · exact free w a.vtx.1 (open_of_key (by rw [det2_swap', h1, neg_zero]) k1 k')
    · have om : OnOpen (c.pos q) (c.pos w) (c.pos p) := open_of_key h1 k k'
      have hw0 : det2 (c.pos x) (c.pos q) (c.pos w) = 0 := by rw [det2_rot]; exact h0'
      obtain ⟨y, z, e', b⟩ := h.zero_rising gd a1 hw0 k1
      rcases h.zero_or b with r | h2
      · exact h.noend gd lg r hv om.symm
      obtain ⟨k3, k4⟩ := h.zero_desc b h2 k1
      obtain ⟨_, _, b2⟩ := b.rot2
      have h2' : det2 (c.pos q) (c.pos z) (c.pos w) = 0 := by rw [← det2_rot]; exact h2
      have : y = t := h.one q top y t ⟨_, _, _, _, b2, h2', k3, k4⟩ ⟨_, _, _, _, a2, h0, k1, k2⟩
      subst this
      obtain ⟨T, hT, -⟩ := id b2
      have e1 := Sl.pts h.mesh b2 hT
      have e2 := Sl.pts h.mesh a2 hT
      have d1 := h.sl_ne b2
      have d2 := h.sl_ne a2
      grind
  · exfalso
    have b1 := (top p hv).resolve_left (Ne.symm hpq)
    have b2 := (top w a.vtx.1).resolve_left (h.sl_ne a2).1.symm
    obtain ⟨r, r0, r1, e1⟩ := open_of_key (u := c.pos p) (v := c.pos w) (z := c.pos q) (by rw [← neg_zero, ← h1]; unfold det2; ring) k k1
    have ey : (c.pos q).y = (c.pos p).y + r * ((c.pos w).y - (c.pos p).y) := by
      have := congrArg Point.y e1; simpa [mix] using this
    have y1 := b1.y_le
    have y2 := b2.y_le
    have : (c.pos w).y = (c.pos q).y := by nlinarith
    rcases k1 with k1 | ⟨-, k1⟩
    · rcases b2 with b2 | ⟨-, b2⟩ <;> linarith
    · linarith

/-- No point is inside an edge. -/
def Loose (c : Ctx) (E : Nat → Nat → Prop) : Prop := ∀ u v, E u v → ∀ z, z < c.points.length → ¬ OnOpen (c.pos u) (c.pos v) (c.pos z)

/-- In general position no point is inside a segment. -/
theorem GenPos.loose (gp : GenPos c) (gd : Good c) {E : Nat → Nat → Prop} (h : ∀ u v, E u v → u ≠ v ∧ u < c.points.length ∧ v < c.points.length) : Loose c E := by
  have end_ : ∀ u v, u ≠ v → u < c.points.length → v < c.points.length → ¬ OnOpen (c.pos u) (c.pos v) (c.pos u) := by
    intro u v h1 h2 h3 ho
    rcases keyLt_total (p := c.pos u) (q := c.pos v) (fun e => h1 (gd.inj _ _ h2 h3 e)) with k | k
    · exact keyLt_irrefl _ (ho.key k).1
    · exact keyLt_irrefl _ (ho.symm.key k).2
  intro u v k z hz ho
  obtain ⟨h1, h2, h3⟩ := h u v k
  by_cases e1 : u = z
  · subst e1; exact end_ u v h1 h2 h3 ho
  by_cases e2 : v = z
  · subst e2; exact end_ v u h1.symm h3 h2 ho.symm
  exact gp u v z h2 h3 hz h1 e2 e1 ho.line

/-- The artificial points are not inside a segment. -/
theorem Good.no_end (gd : Good c) {u v : Nat} (hu : u < c.points.length) (hv : v < c.points.length) (huv : u ≠ v) :
    ¬ OnOpen (c.pos u) (c.pos v) (c.pos c.head) ∧ ¬ OnOpen (c.pos u) (c.pos v) (c.pos c.tail) := by
  have key : ∀ i, i < c.points.length → (i = c.head ∨ (c.pos c.head).x < (c.pos i).x) ∧ (i = c.tail ∨ (c.pos i).x < (c.pos c.tail).x) := by
    intro i hi
    have hw := gd.wide
    by_cases h1 : i = c.head
    · subst h1; exact ⟨.inl rfl, .inr hw⟩
    by_cases h2 : i = c.tail
    · subst h2; exact ⟨.inr hw, .inl rfl⟩
    have := gd.enclosed i hi h1 h2
    exact ⟨.inr this.1, .inr this.2.1⟩
  constructor
  · rintro ⟨r, r0, r1, e⟩
    have ex : (c.pos c.head).x = (1 - r) * (c.pos u).x + r * (c.pos v).x := by
      have := congrArg Point.x e; simp only [mix] at this; rw [this]; ring
    rcases (key u hu).1 with rfl | k1 <;> rcases (key v hv).1 with rfl | k2
    · exact huv rfl
    · nlinarith
    · nlinarith
    · nlinarith
  · rintro ⟨r, r0, r1, e⟩
    have ex : (c.pos c.tail).x = (1 - r) * (c.pos u).x + r * (c.pos v).x := by
      have := congrArg Point.x e; simp only [mix] at this; rw [this]; ring
    rcases (key u hu).2 with rfl | k1 <;> rcases (key v hv).2 with rfl | k2
    · exact huv rfl
    · nlinarith
    · nlinarith
    · nlinarith

/-- A point above both ends is not inside the segment. -/
theorem OnOpen.not_above {u v z : Point} (h : OnOpen u v z) (h1 : Below u z) (h2 : Below v z) : False := by
  obtain ⟨r, r0, r1, e⟩ := h
  have ex : z.x = (1 - r) * u.x + r * v.x := by have := congrArg Point.x e; simp only [mix] at this; rw [this]; ring
  have ey : z.y = (1 - r) * u.y + r * v.y := by have := congrArg Point.y e; simp only [mix] at this; rw [this]; ring
  rcases h1 with h1 | ⟨h1, h1'⟩ <;> rcases h2 with h2 | ⟨h2, h2'⟩
  · nlinarith
  · nlinarith
  · nlinarith
  · nlinarith

/-- No point that has been processed is inside a marked edge. -/
def LooseD (c : Ctx) (done : List Nat) (ts : Store) : Prop := ∀ u v, Mk ts u v → ∀ z ∈ done, ¬ OnOpen (c.pos u) (c.pos v) (c.pos z)

theorem SInv.mk_ne {K Q P} {s : St} (h : SInv c K Q P s) {u v : Nat} (k : Mk s.tris u v) : u ≠ v ∧ u < c.points.length ∧ v < c.points.length ∧ Vtx s.tris u ∧ Vtx s.tris v := by
  obtain ⟨t, w, n, e, k | k, -⟩ := k
  · exact ⟨(h.sl_ne k).2.1, (h.sl_lt k).2.1, (h.sl_lt k).2.2, k.vtx.2.1, k.vtx.2.2⟩
  · exact ⟨(h.sl_ne k).2.1.symm, (h.sl_lt k).2.2, (h.sl_lt k).2.1, k.vtx.2.2, k.vtx.2.1⟩

/-- The marks while the edges are inserted: only input edges, if edges do not cross, and in any case no processed point is inside a marked edge. -/
structure Marked (c : Ctx) (N : Prop) (E : Nat → Nat → Prop) (done : List Nat) (ts : Store) : Prop where
  only : N → ∀ u v, Mk ts u v → E u v
  loose : LooseD c done ts

/-- No edge in `E` crosses the edge. -/
def Clean (c : Ctx) (E : Nat → Nat → Prop) (u v : Nat) : Prop := ∀ u' v', E u' v' → ¬ ProperCross (c.pos u) (c.pos v) (c.pos u') (c.pos v')

theorem edgeEvent_marks {K Z N : Prop} (gd : Good c) (gk : GenPos c ∨ K) (ex : Exact c) {g : Trap} (hg : g.Tame) (hK : g.col = true) {fuel : Nat} {s : St}
    (h : SInv c True (fun _ => False) NoP s) {p q : Nat} (hp : p < c.points.length) (hq : q ∈ s.front.pids) (hqt : q ≠ c.tail) (hqh : q ≠ c.head)
    (hv : Vtx s.tris p) (hpq : q ≠ p) (nm : N → NMC c.pos s.tris q p)
    (fr : Loose c fun u v => u = q ∧ v = p) {done : List Nat} (lm : LooseD c done s.tris) (hb : Base c done s)
    (hd : ∀ v ∈ done, v = q ∨ Below (c.pos v) (c.pos q)) (kx : K → XAsc c s.front.pids) (hph : p ≠ c.head) (hpt : p ≠ c.tail)
    (has : ∀ v ∈ done, Vtx s.tris v) {M : Nat → Nat → Prop} (hM : ∀ u v, M u v → Mk s.tris u v) (hZ : g.l698 = true → DipC c M (· ∈ done) p q → Z) :
    Spec (edgeEvent g c fuel s ⟨p, q⟩ (c.pos q)) (KT K Z) fun s' =>
      (N → (∀ u v, Mk s'.tris u v → Mk s.tris u v ∨ (u = p ∧ v = q) ∨ (u = q ∧ v = p)) ∧ ∀ u v, Mk s.tris u v → Mk s'.tris u v) ∧
        (∀ u v, Mk s.tris u v → ¬ ProperCross (c.pos u) (c.pos v) (c.pos q) (c.pos p) → Mk s'.tris u v) ∧ LooseD c done s'.tris := by
  have rd : ∀ {s : St}, SInv c True (fun _ => False) NoP s → q ∈ s.front.pids → ∃ f' r t, s.front.getNodeWithCache (c.pos q) = .ok (f', some r) ∧
      IdFor c r.id q ∧ r.tri = some t ∧ (∃ u v, HasTri s.tris t q u v ∧ (∃ n e, Sl s.tris t u v q n e) ∧ keyLt (c.pos q) (c.pos v)) ∧ SInv c True (fun _ => False) NoP { s with front := f' } ∧ f'.nodes = s.front.nodes := by
    intro s h hq
    obtain ⟨L, R, hs⟩ := List.append_of_mem hq
    obtain ⟨f', r, k1, k2, k3, k4⟩ := h.front.pGetCache hs
    have hb : BInv c NoP s.tris f'.nodes := by rw [k2]; exact h.bd
    cases R with
    | nil =>
      obtain ⟨l, hl⟩ := h.front.tailP
      rw [hs] at hl
      have := List.append_inj' hl rfl
      simp only [List.cons.injEq, and_true] at this
      exact (hqt this.2).elim
    | cons x R =>
      obtain ⟨t, k5, w, e, k6⟩ := k4.tri hb
      obtain ⟨n', e', k7⟩ := k6.rot2
      have kqx := h.front.ascP
      rw [hs] at kqx
      have kqx := (List.pairwise_cons.1 (List.pairwise_append.1 kqx).2.1).1 x (by simp)
      exact ⟨f', r, t, k1, k4.id, k5, ⟨_, _, ⟨_, _, k7⟩, ⟨_, _, k6⟩, kqx⟩, ⟨h.mesh, hb, k3, h.trace, h.one⟩, k2⟩
  have hqL := h.front.pids_lt hq
  unfold edgeEvent
  simp only [Ctx.pt_ok hp, ok_bind]
  obtain ⟨f1, r1, t1, a1, a2, a3, ⟨u1, v1, ⟨n1, e1, a4⟩, -⟩, a5, a6⟩ := rd h hq
  simp only [a1, ok_bind, unwrap_some, a3]
  rcases tryMarkEdge_spec a5.mesh a4.lt p q with k | ⟨ts', k, -, -, -⟩
  swap
  · simp only [k, ok_bind, if_true]
    have := (tryMarkEdge_one a5.mesh k).1
    refine Spec.ok ⟨fun _ => ⟨this.con, this.keep⟩, fun u v k _ => this.keep u v k, fun u v k z hz => ?_⟩
    have zl : z < c.points.length := by
      obtain ⟨_, _, _, _, _, sz⟩ := has z hz
      exact (h.sl_lt sz).1
    rcases this.con u v k with k | ⟨rfl, rfl⟩ | ⟨rfl, rfl⟩
    · exact lm u v k z hz
    · exact fun o => fr _ _ ⟨rfl, rfl⟩ z zl o.symm
    · exact fr _ _ ⟨rfl, rfl⟩ z zl
  · simp only [k, ok_bind]
    rw [if_neg (by simp)]
    have hq1 : q ∈ f1.pids := by unfold Front.pids; rw [a6]; exact hq
    have fp : f1.pids = s.front.pids := by unfold Front.pids; rw [a6]
    refine Spec.bind (((fillEdgeEvent_spec hg (s := { s with front := f1 }) a5 hq1 a2).withEq).kt (K := K) (fun _ => FErr.notCol)
      fun x => fillEdgeEvent_clear gd hg ⟨a5, by show XAsc c f1.pids; rw [fp]; exact kx x, hv, by show ∀ z ∈ f1.pids, _; rw [fp]; exact hb.low, has, hM⟩
        hp hph hpt hqh hqt hZ hq1 a2) ?_
    rintro s2 ⟨⟨⟨b1, b2, b3⟩, b4⟩, b5⟩
    obtain ⟨f2, r2, t2, c1, c2, c3, ⟨u2, v2, c4, ⟨n3, e3, c7⟩, c8⟩, c5, c6⟩ := rd b1 b3
    simp only [c1, ok_bind, unwrap_some, c3]
    have e0 : EPost c True { s2 with front := f2 } ({ s2 with front := f2 }, []) :=
      ⟨c5.mono (by simp) (fun _ => id), by simp, .refl _⟩
    have hb0 : Base c done { s with front := f1 } := by
      refine ⟨hb.result, hb.inter, fun v hv => hb.uses v ?_, ?_⟩
      · rcases hv with hv | hv
        · exact .inl hv
        · refine .inr ?_
          have : f1.nodes = s.front.nodes := a6
          simpa [this] using hv
      · have : KeysOk c s.front := hb.keys
        unfold KeysOk at *
        simpa [Front.shape, a6] using this
    have bs2 := (fillEdgeEvent_evolve b4).base hb0
    have hb2 := bs2.topV gd hqL hqh hqt hd
    have m1 := b2.marks a5.mesh
    have lt := c4
    obtain ⟨n2, e2, c4'⟩ := c4
    have tle : ∀ z, Vtx s2.tris z → (c.pos z).y ≤ (c.pos q).y := by
      intro z hz
      rcases hb2 z hz with rfl | k
      · exact le_rfl
      · exact k.y_le
    have vlt : ∀ z, Vtx s2.tris z → z < c.points.length := by
      rintro z ⟨_, _, _, _, _, sz⟩; exact (b1.sl_lt sz).1
    have loose2 : ∀ u v, Mk s2.tris u v → ∀ z, Vtx s2.tris z → ¬ OnOpen (c.pos u) (c.pos v) (c.pos z) := by
      rintro u v k z ⟨_, _, _, _, _, sz⟩
      obtain ⟨x1, x2, x3, -⟩ := b1.mk_ne k
      rcases bs2.uses z (.inl sz.corner) with rfl | rfl | hz
      · exact (gd.no_end x2 x3 x1).1
      · exact (gd.no_end x2 x3 x1).2
      · exact lm u v ((m1 u v).1 k) z hz
    have lg : LG c.pos s2.tris := b1.lg_of fun u v k z hz => loose2 u v k z hz
    have free : ∀ z, Vtx s2.tris z → ¬ OnOpen (c.pos q) (c.pos p) (c.pos z) := fun z hz => fr q p ⟨rfl, rfl⟩ z (vlt z hz)
    have clr : K → Clr c.pos s2.tris q p .top := by
      intro x
      obtain ⟨y1, y2, -⟩ := b5 x
      exact y2.clr gd y1 hp hph hpt b3 hqh hqt (tle p (b2.grow _ hv)) tle
    have nice : Nice c.pos s2.tris q p := by
      refine ⟨?_, free⟩
      intro t w u v n e a h0
      rcases gk with gp | x
      · have l := b1.sl_lt a
        have d := b1.sl_ne a
        exact (gp _ _ _ l.1 l.2.1 l.2.2 d.1 d.2.1 d.2.2 h0).elim
      · exact b1.nz_of gd lg (fun t u v k => (clr x t u v k).1) a h0
    have zk := b1.zok gd lg hb2 (b2.grow _ hv) hpq free c7 c8
    refine Spec.bind ((((flip_main (K := K) (N := N) (F := fun u v => Mk s2.tris u v ∧ ¬ ProperCross (c.pos u) (c.pos v) (c.pos q) (c.pos p)) gd ex hK ⟨p, q, c.pos p, c.pos q, decide ((c.pos p).x > (c.pos q).x)⟩ fuel).1 (L := .top) e0 hp hqL hpq lg nice (b2.grow _ hv) ?_ (fun _ _ k => k) clr ⟨_, _, lt, zk, rfl, rfl, hb2⟩).monoE
      (E' := KT K Z) fun e h => ⟨h.1, fun x => .inl (h.2 x)⟩).andL
      ((edge_specs gd (fun _ => hK) fuel).1 (p := q) e0 hp hqL (by rintro x ⟨⟩; exact c4'.lt))) ?_
    · intro hN u v k; exact nm hN u v ((m1 u v).1 k)
    rintro ⟨s3, lq⟩ ⟨d34, d1, d2⟩
    refine (((legalizeAll_spec (Q0 := fun _ => False) lq (d1.inv.mono (by simp) (fun _ => id)) d1.lt).monoE fun _ h => KT.ofFuel h)).mono ?_
    rintro s4 ⟨⟨x1, x2, x3, x4⟩, x5⟩
    have m2 := x2.marks d1.inv.mesh
    refine ⟨fun hN => ?_, fun u v k x => (m2 u v).2 (d34.2.1 u v ⟨(m1 u v).2 k, x⟩ ((m1 u v).2 k)), fun u v k z hz => ?_⟩
    swap
    · have vz := b2.grow _ (has z hz)
      rcases d34.2.2 u v ((m2 u v).1 k) with k | k | ⟨rfl, rfl⟩ | ⟨rfl, rfl⟩
      · exact loose2 u v k z vz
      · exact k z vz
      · exact fun o => free z vz o.symm
      · exact free z vz
    obtain ⟨d3, d4⟩ := d34.1 hN
    refine ⟨fun u v k => ?_, fun u v k => (m2 u v).2 (d4 u v ((m1 u v).2 k))⟩
    rcases d3 u v ((m2 u v).1 k) with k | k
    · exact .inl ((m1 u v).1 k)
    · exact .inr k

/-- After the edges of a point, exactly these edges have been marked in addition, if edges do not cross (`N`); if some do, then at least the marks of the edges that are not crossed are there. -/
theorem edgeEvents_marks {K Z N : Prop} (gd : Good c) (gk : GenPos c ∨ K) (ex : Exact c) {g : Trap} (hg : g.Tame) (hK : g.col = true) {fuel : Nat} {q : Nat}
    (hqh : q ≠ c.head) (hqt : q ≠ c.tail) {E : Nat → Nat → Prop} (hE : N → ∀ u v u' v', E u v → E u' v' → ¬ ProperCross (c.pos u) (c.pos v) (c.pos u') (c.pos v'))
    (hs : ∀ u v, E u v → E v u) (ln : Loose c E) (hn : ∀ u v, E u v → u ≠ c.head ∧ u ≠ c.tail)
    {done : List Nat} (hqd : q ∈ done) (hd : ∀ v ∈ done, v = q ∨ Below (c.pos v) (c.pos q)) {M : Nat → Nat → Prop} : ∀ (l : List Nat) {s : St}, (∀ p ∈ l, p < c.points.length) →
    Swept c True g done s → q ∈ s.front.pids → (∀ p ∈ l, p ∈ done ∧ p ≠ q ∧ E p q) → Marked c N E done s.tris → (K → XAsc c s.front.pids) →
    (∀ u v, M u v → Clean c E u v ∧ Mk s.tris u v) → (∀ p ∈ l, g.l698 = true → DipC c M (· ∈ done) p q → Z) → Spec (edgeEvents g c fuel q (c.pos q) l s) (KT K Z) fun s' => (K → XAsc c s'.front.pids) ∧ Swept c True g done s' ∧ Marked c N E done s'.tris ∧
      (N → ∀ u v, Mk s'.tris u v ↔ Mk s.tris u v ∨ ∃ p ∈ l, (u = p ∧ v = q) ∨ (u = q ∧ v = p)) ∧
      ∀ u v, Clean c E u v → (Mk s.tris u v ∨ ∃ p ∈ l, (u = p ∧ v = q) ∨ (u = q ∧ v = p)) → Mk s'.tris u v
  | [], s, _, h, hq, _, hm, kx, _, _ => Spec.ok ⟨kx, h, hm, by simp, by simp⟩
  | p :: l, s, hl, h, hq, hp, hm, kx, hM, hZ => by
    simp only [edgeEvents]
    have hp0 := hp p (by simp)
    have hpl := hl p (by simp)
    have := (edgeEvent_marks (N := N) gd gk ex hg hK (fuel := fuel) h.inv hpl hq hqt hqh (h.has p hp0.1) (Ne.symm hp0.2.1)
      (fun x u v k => hE x _ _ _ _ (hm.only x u v k) (hs _ _ hp0.2.2)) (by rintro _ _ ⟨rfl, rfl⟩; exact ln _ _ (hs _ _ hp0.2.2)) hm.loose h.base hd kx (hn _ _ hp0.2.2).1 (hn _ _ hp0.2.2).2 h.has (fun u v k => (hM u v k).2) (hZ p (by simp))).andL
        (edgeEvent_spec gd hg (fun _ => hK) (fuel := fuel) h.inv hpl hq hqt).withEq
    refine Spec.bind this ?_
    rintro s1 ⟨k56, ⟨k1, k2, k3⟩, k4⟩
    have ev := edgeEvent_evolve k4
    have sw : Swept c True g done (s1.emit (.edge p q)) := by
      refine ⟨k1.inv.emit' (by simp), (ev.base h.base).emit _, fun v hv => k1.grow v (h.has v hv), ?_, ⟨q, hqd, k2, hqh, hqt⟩, (k1.step h.step h.head).cons ?_, .emit _ _⟩
      · refine (ev.log h.log).cons ?_ (by simp)
        rintro p' q' h' hc; cases h'; exact k3 hc
      · rintro x l - ⟨q1, -⟩; exact (q1 p q rfl).elim
    have cl : ∀ u v, Clean c E u v → (Mk s.tris u v ∨ (u = p ∧ v = q) ∨ (u = q ∧ v = p)) → Mk s1.tris u v := by
      rintro u v x (k | ⟨rfl, rfl⟩ | ⟨rfl, rfl⟩)
      · exact k56.2.1 u v k (x _ _ (hs _ _ hp0.2.2))
      · exact (k3 hK).mk
      · exact (k3 hK).mk.symm
    have mm : N → ∀ u v, Mk s1.tris u v ↔ Mk s.tris u v ∨ (u = p ∧ v = q) ∨ (u = q ∧ v = p) := by
      intro hN u v
      obtain ⟨k5, k6⟩ := k56.1 hN
      refine ⟨k5 u v, ?_⟩
      rintro (k | ⟨rfl, rfl⟩ | ⟨rfl, rfl⟩)
      · exact k6 u v k
      · exact (k3 hK).mk
      · exact (k3 hK).mk.symm
    refine (edgeEvents_marks gd gk ex hg hK hqh hqt hE hs ln hn hqd hd l (fun x hx => hl x (by simp [hx])) sw k2 (fun x hx => hp x (by simp [hx])) ?_ (fun x => ev.xasc (kx x))
      (fun u v k => ⟨(hM u v k).1, cl u v (hM u v k).1 (.inl (hM u v k).2)⟩) fun x hx => hZ x (by simp [hx])).mono ?_
    · refine ⟨fun hN u v k => ?_, k56.2.2⟩
      rcases (mm hN u v).1 k with k | ⟨rfl, rfl⟩ | ⟨rfl, rfl⟩
      · exact hm.only hN u v k
      · exact hp0.2.2
      · exact hs _ _ hp0.2.2
    · rintro s' ⟨j0, j1, j2, j3, j4⟩
      refine ⟨j0, j1, j2, fun hN u v => ?_, fun u v x k => j4 u v x ?_⟩
      · have : (s1.emit (.edge p q)).tris = s1.tris := rfl
        rw [j3 hN u v, this, mm hN u v]
        simp only [List.mem_cons, exists_eq_or_imp, or_assoc]
      · rcases k with k | ⟨y, hy, k⟩
        · exact .inl (cl u v x (.inl k))
        · rcases List.mem_cons.1 hy with rfl | hy
          · exact .inl (cl u v x (.inr k))
          · exact .inr ⟨y, hy, k⟩

/-- After a point event. -/
theorem Swept.loosen {N : Prop} {E : Nat → Nat → Prop} {g : Trap} {done : List Nat} {s s1 : St} {q : Nat} {pt : Point} {es : PointEdges} {l : List (Nat × Point × PointEdges)}
    (h : Swept c True g done s) (gd : Good c) (hc : Coming c done ((q, pt, es) :: l)) (h1 : SInv c True (fun _ => False) NoP (s.emit (.enterPoint q)))
    (m1 : ∀ u v, Mk s1.tris u v ↔ Mk s.tris u v) (hm : Marked c N E done s.tris) : Marked c N E (done ++ [q]) s1.tris := by
  refine ⟨fun hN u v k => hm.only hN u v ((m1 u v).1 k), fun u v k z hz => ?_⟩
  have k := (m1 u v).1 k
  rcases List.mem_append.1 hz with hz | hz
  · exact hm.loose u v k z hz
  · rw [List.mem_singleton] at hz; subst hz
    obtain ⟨hq, hh, ht, -⟩ := hc.lt (z, pt, es) (by simp)
    have below : ∀ a, Vtx s.tris a → Below (c.pos a) (c.pos z) := by
      rintro a ⟨_, _, _, _, _, sa⟩
      rcases h.base.uses a (.inl sa.corner) with rfl | rfl | hd
      · exact (gd.headBelow hq hh ht).1
      · exact (gd.headBelow hq hh ht).2
      · exact hc.above _ (List.mem_cons_self) a hd
    obtain ⟨-, -, -, k1, k2⟩ := h.inv.mk_ne k
    exact fun o => o.not_above (below u k1) (below v k2)

/-- The edges that are in place when the sweep comes to the point `q`: both ends are below it. -/
def Before (c : Ctx) (E : Nat → Nat → Prop) (q u v : Nat) : Prop := E u v ∧ Below (c.pos u) (c.pos q) ∧ Below (c.pos v) (c.pos q)

/-- The points of the input. -/
def InSweep (c : Ctx) (z : Nat) : Prop := z < c.points.length ∧ z ≠ c.head ∧ z ≠ c.tail

theorem DipC.congr {M : Nat → Nat → Prop} {D D' : Nat → Prop} {p q : Nat} (h : DipC c M D p q) (k : ∀ z, D z ↔ D' z) : DipC c M D' p q := by
  have : D = D' := funext fun z => propext (k z)
  exact this ▸ h

theorem sweepLoop_marks {K Z N : Prop} (up : K → UpC c) (gd : Good c) (gk : GenPos c ∨ K) (ex : Exact c) {g : Trap} (hg : g.Tame) (hK : g.col = true) {fuel : Nat}
    {E : Nat → Nat → Prop} (hE : N → ∀ u v u' v', E u v → E u' v' → ¬ ProperCross (c.pos u) (c.pos v) (c.pos u') (c.pos v'))
    (hs : ∀ u v, E u v → E v u) (ln : Loose c E) (hn : ∀ u v, E u v → u ≠ c.head ∧ u ≠ c.tail)
    (hZ : g.l698 = true → ∀ p q, E p q → Below (c.pos p) (c.pos q) → DipC c (fun u v => Clean c E u v ∧ Before c E q u v) (fun z => InSweep c z ∧ (z = q ∨ Below (c.pos z) (c.pos q))) p q → Z) :
    ∀ (l : List (Nat × Point × PointEdges)) {done : List Nat} {s : St}, Coming c done l → Swept c True g done s →
    (∀ x ∈ l, ∀ p ∈ x.2.2.toList, (p ∈ done ∨ ∃ y ∈ l, y.1 = p) ∧ Below (c.pos p) (c.pos x.1) ∧ E p x.1) → Marked c N E done s.tris → (K → XAsc c s.front.pids) →
    (∀ z, InSweep c z → z ∈ done ∨ ∃ y ∈ l, y.1 = z) → (∀ z ∈ done, InSweep c z) →
    (∀ u v, E u v → Clean c E u v → Mk s.tris u v ∨ ∃ x ∈ l, ∃ p ∈ x.2.2.toList, (u = p ∧ v = x.1) ∨ (u = x.1 ∧ v = p)) → Spec (sweepLoop g c fuel l s) (KT K Z)
      fun s' => (N → ∀ u v, Mk s'.tris u v ↔ Mk s.tris u v ∨ ∃ x ∈ l, ∃ p ∈ x.2.2.toList, (u = p ∧ v = x.1) ∨ (u = x.1 ∧ v = p)) ∧
        ∀ u v, E u v → Clean c E u v → Mk s'.tris u v
  | [], done, s, _, h, _, hm, kx, _, _, hf => Spec.ok ⟨by simp, by simpa using hf⟩
  | (q, pt, es) :: l, done, s, hc, h, hl, hm, kx, hall, hin, hfull => by
    simp only [sweepLoop]
    obtain ⟨hq, hh, ht, hpt⟩ := hc.lt (q, pt, es) (by simp)
    have hpt' : pt = c.pos q := hpt
    subst hpt'
    have h1 : SInv c True (fun _ => False) NoP (s.emit (.enterPoint q)) := h.inv.emit' (by simp)
    have hb : ∀ a ∈ (s.emit (.enterPoint q)).front.pids, Below (c.pos a) (c.pos q) := by
      intro a ha
      have hu : Uses s.tris s.front a := by
        simp only [Front.pids, List.mem_map] at ha
        obtain ⟨e, he, hk⟩ := ha
        exact .inr ⟨e, he, hk⟩
      rcases h.base.uses a hu with rfl | rfl | hd
      · exact (gd.headBelow hq hh ht).1
      · exact (gd.headBelow hq hh ht).2
      · exact hc.above _ (List.mem_cons_self) a hd
    refine Spec.bind (R := fun s1 => ((SInv c True (fun _ => False) NoP s1 ∧ Ext c (s.emit (.enterPoint q)) s1 ∧ q ∈ s1.front.pids ∧ HasV s1.tris q) ∧
      ∃ s', Entered c s.front.pids q s'.front.pids ∧ fillAdvancingFront c fuel s' (c.pos q) = .ok s1) ∧
      pointEvent c fuel (s.emit (.enterPoint q)) q (c.pos q) = .ok s1)
      ((pointEvent_spec' gd (fuel := fuel) h1 hq hh ht hb (h.base.fresh hh ht (hc.above _ List.mem_cons_self))).withEq.monoE fun e he => KT.ofFuel he) ?_
    rintro s1 ⟨⟨⟨k1, k2, k3, k4⟩, s', k6, k7⟩, k5⟩
    have kx1 : K → XAsc c s1.front.pids := fun x => (fillAdvancingFront_evolve k7).xasc
      ((kx x).enter gd (up x) hq hh ht (fun a ha => h.inv.front.pids_lt ha) k6)
    have sw := h.point hc k5 k1 k2 k3 k4
    have m1 : ∀ u v, Mk s1.tris u v ↔ Mk s.tris u v := k2.marks h1.mesh
    have hbel : ∀ p ∈ es.toList, p ∈ done ∧ p ≠ q ∧ E p q := by
      intro p hp
      obtain ⟨a1, a2, a3⟩ := hl _ (by simp : (q, c.pos q, es) ∈ _) p hp
      refine ⟨?_, ?_, a3⟩
      · rcases a1 with a1 | ⟨y, hy, rfl⟩
        · exact a1
        · exfalso
          rcases List.mem_cons.1 hy with rfl | hy
          · exact Below.irrefl _ a2
          · exact Below.asymm a2 ((List.pairwise_cons.1 hc.sorted).1 y hy)
      · rintro rfl; exact Below.irrefl _ a2
    refine Spec.bind (edgeEvents_marks gd gk ex hg hK hh ht hE hs ln hn (done := done ++ [q]) (by simp) ?_ es.toList
      (hc.edges (q, c.pos q, es) (by simp)) sw k3 (fun p hp => ⟨by simp [(hbel p hp).1], (hbel p hp).2⟩) (h.loosen gd hc h1 m1 hm) kx1 (M := fun u v => Clean c E u v ∧ Before c E q u v) ?_ ?_) ?_
    · intro v hv
      rcases List.mem_append.1 hv with hv | hv
      · exact .inr (hc.above _ (List.mem_cons_self) v hv)
      · exact .inl (by simpa using hv)
    · rintro u v ⟨x, k, b1, b2⟩
      refine ⟨x, ?_⟩
      have late : ∀ x ∈ (q, c.pos q, es) :: l, ¬ Below (c.pos x.1) (c.pos q) := by
        intro x hx b
        rcases List.mem_cons.1 hx with rfl | hx
        · exact Below.irrefl _ b
        · exact Below.asymm b ((List.pairwise_cons.1 hc.sorted).1 x hx)
      rcases hfull u v k x with k | ⟨y, hy, p, -, ⟨rfl, rfl⟩ | ⟨rfl, rfl⟩⟩
      · exact (m1 u v).2 k
      · exact (late y hy b2).elim
      · exact (late y hy b1).elim
    · intro p hp hl k
      refine hZ hl p q (hbel p hp).2.2 (hc.above _ (List.mem_cons_self) p (hbel p hp).1) (k.congr fun z => ?_)
      rw [List.mem_append, List.mem_singleton]
      constructor
      · rintro (k | rfl)
        · exact ⟨hin z k, .inr (hc.above _ (List.mem_cons_self) z k)⟩
        · exact ⟨⟨hq, hh, ht⟩, .inl rfl⟩
      · rintro ⟨k1, rfl | k2⟩
        · exact .inr rfl
        · rcases hall z k1 with k | ⟨y, hy, rfl⟩
          · exact .inl k
          · exfalso
            rcases List.mem_cons.1 hy with rfl | hy
            · exact Below.irrefl _ k2
            · exact Below.asymm k2 ((List.pairwise_cons.1 hc.sorted).1 y hy)
    · rintro s2 ⟨j0, j1, j2, j3, j4⟩
      refine (sweepLoop_marks up gd gk ex hg hK (fuel := fuel) hE hs ln hn hZ l hc.next j1 ?_ j2 j0 ?_ ?_ ?_).mono ?_
      · intro x hx p hp
        obtain ⟨a1, a2⟩ := hl x (by simp [hx]) p hp
        refine ⟨?_, a2⟩
        rcases a1 with a1 | ⟨y, hy, rfl⟩
        · exact .inl (by simp [a1])
        · rcases List.mem_cons.1 hy with rfl | hy
          · exact .inl (by simp)
          · exact .inr ⟨y, hy, rfl⟩
      · intro z hz
        rcases hall z hz with k | ⟨y, hy, rfl⟩
        · exact .inl (by simp [k])
        · rcases List.mem_cons.1 hy with rfl | hy
          · exact .inl (by simp)
          · exact .inr ⟨y, hy, rfl⟩
      · intro z hz
        rcases List.mem_append.1 hz with hz | hz
        · exact hin z hz
        · rw [List.mem_singleton] at hz; subst hz; exact ⟨hq, hh, ht⟩
      · intro u v k x
        rcases hfull u v k x with k | ⟨y, hy, p, hp, k⟩
        · exact .inl (j4 u v x (.inl ((m1 u v).2 k)))
        · rcases List.mem_cons.1 hy with rfl | hy
          · exact .inl (j4 u v x (.inr ⟨p, hp, k⟩))
          · exact .inr ⟨y, hy, p, hp, k⟩
      · rintro s' ⟨k, k'⟩
        refine ⟨fun hN u v => ?_, k'⟩
        have : (s1.emit (.exitPoint q)).tris = s1.tris := rfl
        rw [k hN u v, j3 hN u v, this, m1 u v]
        simp only [List.mem_cons, exists_eq_or_imp, or_assoc]

end P2T

namespace P2T

theorem initState_marks {c : Ctx} {s : St} (h : initState c = .ok s) (u v : Nat) : ¬ Mk s.tris u v := by
  simp only [initState, bind_ok, unwrap_ok, pure_ok, Except.ok.injEq] at h
  obtain ⟨p0, h0, f, hf, rfl⟩ := h
  rintro ⟨t, w, n, e, k | k, he⟩
  · have := ((new_sl ..).1 k).2.2.1; rw [this] at he; simp at he
  · have := ((new_sl ..).1 k).2.2.1; rw [this] at he; simp at he

theorem SameMesh.mk {ts ts' : Store} (h : SameMesh ts ts') (u v : Nat) : Mk ts' u v ↔ Mk ts u v := by
  simp only [Mk, h.sl]

/-- A whole run: the marked edges are the input edges, if edges do not cross (`N`); in any case the edges that no other edge crosses are marked. -/
theorem runG_marks {D} {N : Prop} (cdt : CDT D) (h : Input cdt.points) (gk : GenPos cdt.points ∨ UpC cdt.points) (ex : Exact cdt.points) {g : Trap} (hg : g.Tame)
    (hK : g.col = true) (fuel : Nat) {E : Nat → Nat → Prop}
    (hE : N → ∀ u v u' v', E u v → E u' v' → ¬ ProperCross (cdt.points.pos u) (cdt.points.pos v) (cdt.points.pos u') (cdt.points.pos v'))
    (hs : ∀ u v, E u v → E v u) (ln : Loose cdt.points E) (hn : ∀ u v, E u v → u ∈ cdt.points.ySorted)
    (he : ∀ j es, cdt.points.edges[j]? = some es → ∀ p ∈ es.toList, p ∈ cdt.points.ySorted ∧ j ∈ cdt.points.ySorted ∧
      Below (cdt.points.pos p) (cdt.points.pos j) ∧ E p j)
    (hfull : ∀ u v, E u v → ∃ j es, cdt.points.edges[j]? = some es ∧ ∃ p ∈ es.toList, (u = p ∧ v = j) ∨ (u = j ∧ v = p)) :
    Spec (cdt.runG g fuel) (KT (UpC cdt.points) (g.l698 = true ∧ ∃ p q, E p q ∧ Below (cdt.points.pos p) (cdt.points.pos q) ∧
      DipC cdt.points (fun u v => Clean cdt.points E u v ∧ Before cdt.points E q u v) (fun z => InSweep cdt.points z ∧ (z = q ∨ Below (cdt.points.pos z) (cdt.points.pos q))) p q)) fun r => (N → ∀ u v, Mk r.1.triangles u v ↔
      ∃ j es, cdt.points.edges[j]? = some es ∧ ∃ p ∈ es.toList, (u = p ∧ v = j) ∨ (u = j ∧ v = p)) ∧ ∀ u v, E u v → Clean cdt.points E u v → Mk r.1.triangles u v := by
  obtain ⟨p0, rest, hy⟩ : ∃ p0 rest, cdt.points.ySorted = p0 :: rest := by
    have := h.perm.length_eq
    rw [List.length_range] at this
    cases hy : cdt.points.ySorted with
    | nil => rw [hy] at this; have := h.ne; simp at *; omega
    | cons a l => exact ⟨a, l, rfl⟩
  have hm : p0 < cdt.points.points.length - 2 := by
    have := h.perm.subset (by rw [hy]; simp : p0 ∈ cdt.points.ySorted)
    exact List.mem_range.1 this
  obtain ⟨s0, i1, i2, i3⟩ := initState_spec (K := True) (g := g) h.good (p0 := p0) (by rw [hy]; rfl) (by omega) (by rw [h.head]; omega) (by rw [h.tail]; omega)
  obtain ⟨items, j1, j2, j3, j4⟩ := h.coming hy
  have nomk := initState_marks i1
  have hsort := h.sorted
  rw [hy, List.pairwise_cons] at hsort
  simp only [CDT.runG, i1, ok_bind, sweepPoints, j1]
  have ix : XAsc cdt.points s0.front.pids := by
    have en := h.good.enclosed p0 (by omega) (by rw [h.head]; omega) (by rw [h.tail]; omega)
    rw [i3]
    unfold XAsc
    simp only [List.pairwise_cons, List.mem_cons, List.not_mem_nil, or_false]
    refine ⟨?_, ?_, by simp⟩
    · rintro z (rfl | rfl)
      · exact en.1
      · exact h.good.wide
    · rintro z rfl; exact en.2.1
  have hn' : ∀ u v, E u v → u ≠ cdt.points.head ∧ u ≠ cdt.points.tail := by
    intro u v k
    have := List.mem_range.1 (h.perm.subset (hn u v k))
    rw [h.head, h.tail]
    omega
  have item : ∀ {u v}, (∃ j es, cdt.points.edges[j]? = some es ∧ ∃ p ∈ es.toList, (u = p ∧ v = j) ∨ (u = j ∧ v = p)) →
      ∃ x ∈ items, ∃ p ∈ x.2.2.toList, (u = p ∧ v = x.1) ∨ (u = x.1 ∧ v = p) := by
    rintro u v ⟨j, es, hj, p, hp, k⟩
    obtain ⟨a1, a2, a3, -⟩ := he j es hj p hp
    rw [hy] at a1 a2
    rcases List.mem_cons.1 a2 with rfl | a2
    · exfalso
      rcases List.mem_cons.1 a1 with rfl | a1
      · exact Below.irrefl _ a3
      · exact Below.asymm a3 (hsort.1 _ a1)
    · rw [← j2] at a2
      obtain ⟨x, hx, rfl⟩ := List.mem_map.1 a2
      have := j4 x hx
      rw [hj] at this; cases this
      exact ⟨x, hx, p, hp, k⟩
  refine Spec.bind ((sweepLoop_marks (K := UpC cdt.points) id h.good gk ex hg hK (fuel := fuel) hE hs ln hn' (fun hl p q h h' k => ⟨hl, p, q, h, h', k⟩) items j3 i2 ?_ ⟨fun _ u v k => (nomk u v k).elim, fun u v k => (nomk u v k).elim⟩
    (fun _ => ix) ?_ ?_ (fun u v k _ => .inr (item (hfull u v k)))).andL
    (sweepLoop_spec h.good hg (fun _ => hK) items j3 i2)) ?_
  · intro x hx p hp
    obtain ⟨a1, a2, a3, a4⟩ := he _ _ (j4 x hx) p hp
    refine ⟨?_, a3, a4⟩
    rw [hy, ← j2] at a1
    rcases List.mem_cons.1 a1 with rfl | a1
    · exact .inl (by simp)
    · obtain ⟨y, hy', rfl⟩ := List.mem_map.1 a1
      exact .inr ⟨y, hy', rfl⟩
  · intro z hz
    have a1 : z ∈ cdt.points.ySorted := by
      rw [h.perm.mem_iff, List.mem_range]
      have := hz.1; have := hz.2.1; have := hz.2.2
      rw [h.head] at *; rw [h.tail] at *; omega
    rw [hy, ← j2] at a1
    rcases List.mem_cons.1 a1 with rfl | a1
    · exact .inl (by simp)
    · obtain ⟨y, hy', rfl⟩ := List.mem_map.1 a1
      exact .inr ⟨y, hy', rfl⟩
  · intro z hz
    rw [List.mem_singleton] at hz; subst hz
    exact ⟨by omega, by rw [h.head]; omega, by rw [h.tail]; omega⟩
  · rintro s1 ⟨mm, hs1⟩
    have hs1' : Swept cdt.points True g ([p0] ++ items.map (·.1)) (s1.emit .sweepDone) :=
      ⟨hs1.inv.emit' (by simp), hs1.base.emit _, hs1.has, hs1.log.cons (by simp) (by simp), hs1.top,
        hs1.step.cons fun x l e _ => by show KeepL _ _ s1.tris; rw [hs1.head x l e]; exact .refl _ _, .emit _ _⟩
    refine Spec.bind (R := fun s2 => SameMesh s1.tris s2.tris) ((finalize_total hs1' fuel).monoE ?_) ?_
    · rintro e ⟨rfl, -⟩; exact .fuel
    · intro s2 k
      refine Spec.ok ⟨?_, fun u v y x => (k.mk u v).2 (mm.2 u v y x)⟩
      intro hN u v
      show Mk s2.tris u v ↔ _
      rw [k.mk, mm.1 hN]
      constructor
      · rintro (k | ⟨x, hx, p, hp, k⟩)
        · exact (nomk _ _ k).elim
        · exact ⟨_, _, j4 x hx, p, hp, k⟩
      · exact fun k => .inr (item k)

/-- No edge is open on both sides. -/
theorem SInv.no_back {c : Ctx} {K Q} {s : St} (h : SInv c K Q NoP s) (gd : Good c) {t t' u v} (a : Bd s.tris t u v) (b : Bd s.tris t' v u) : False := by
  have key : ∀ {t t' u v}, Bd s.tris t u v → Bd s.tris t' v u → u = c.head → v = c.tail → False := by
    rintro t t' u v - ⟨w, e, b⟩ rfl rfl
    have hw : c.head ≠ c.tail := by
      intro e; have := gd.wide; rw [e] at this; exact lt_irrefl _ this
    have W := h.mesh.wo b
    have d := (oriW c).d3 W
    have en := gd.enclosed w W.1.1 d.2.2 d.1
    have : det2 (c.pos w) (c.pos c.tail) (c.pos c.head) = - (((c.pos c.tail).x - (c.pos c.head).x) * ((c.pos w).y - (c.pos c.head).y)) := by
      unfold det2; rw [← gd.flat]; ring
    have p := mul_pos (show 0 < (c.pos c.tail).x - (c.pos c.head).x by have := gd.wide; linarith)
      (show 0 < (c.pos w).y - (c.pos c.head).y by linarith [en.2.2])
    rcases W.2 with k | ⟨k, -⟩ <;> rw [this] at k <;> linarith
  rcases h.bd.cov a with ⟨k1, k2⟩ | ⟨τ, k, -⟩
  · exact key a b k1 k2
  rcases h.bd.cov b with ⟨k1, k2⟩ | ⟨τ', k', -⟩
  · exact key b a k1 k2
  exact keyLt_asymm (h.front.fedge_lt k) (h.front.fedge_lt k')

end P2T
