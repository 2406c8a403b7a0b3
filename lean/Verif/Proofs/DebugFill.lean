import Verif.Proofs.DebugMark
import Verif.Proofs.FrontOps

/-!
# The assertions met while filling
-/

set_option linter.unusedSectionVars false

namespace P2T

variable {c : Ctx} {K : Prop}

/-! ## Looking up nodes -/

/-- The id of a point of the context. -/
def IdOk (c : Ctx) (id : NodeId) : Prop := id.pid < c.points.length ∧ id.pt = c.pos id.pid

section
variable {f : Front}

theorem FOk.nthRef (h : FOk c f) {i : Nat} {r : NodeRef} (hr : f.nth i = some r) : ∃ L p R, RefFor c f r L p R ∧ L.length = i := by
  unfold Front.nth at hr
  simp only [Option.map_eq_some_iff] at hr
  obtain ⟨e, he, rfl⟩ := hr
  obtain ⟨L, R, h1, h2⟩ : ∃ L R, f.nodes = L ++ e :: R ∧ L.length = i := by
    obtain ⟨hi, he⟩ := List.getElem?_eq_some_iff.1 he
    refine ⟨f.nodes.take i, f.nodes.drop (i + 1), ?_, by simp; omega⟩
    rw [← he, ← List.drop_eq_getElem_cons hi, List.take_append_drop]
  subst h2
  refine ⟨L.map (·.pid), e.pid, R.map (·.pid), ⟨by simp [Front.pids, h1], rfl, h.key h1, by simp [Node.toRef], L, e, R, h1, rfl, rfl, rfl, rfl⟩, by simp⟩

theorem FOk.nthLt (h : FOk c f) {i j : Nat} {r q : NodeRef} (hr : f.nth i = some r) (hq : f.nth j = some q) (hij : i < j) : keyLt r.pt q.pt := by
  unfold Front.nth at hr hq
  simp only [Option.map_eq_some_iff] at hr hq
  obtain ⟨e, he, rfl⟩ := hr
  obtain ⟨e', he', rfl⟩ := hq
  obtain ⟨hi, he⟩ := List.getElem?_eq_some_iff.1 he
  obtain ⟨hj, he'⟩ := List.getElem?_eq_some_iff.1 he'
  have := List.pairwise_iff_getElem.1 h.asc i j hi hj hij
  rw [he, he'] at this
  exact this

theorem nth_idx {i : Nat} {r : NodeRef} (hr : f.nth i = some r) : r.idx = i ∧ f.nth r.idx = some r := by
  have h0 := hr
  unfold Front.nth at hr
  simp only [Option.map_eq_some_iff] at hr
  obtain ⟨e, he, rfl⟩ := hr
  exact ⟨rfl, h0⟩

theorem next_nth {r q : NodeRef} (h : f.next r = some q) : f.nth (r.idx + 1) = some q := h

theorem prev_nth {r q : NodeRef} (h : f.prev r = some q) : 0 < r.idx ∧ f.nth (r.idx - 1) = some q := by
  unfold Front.prev at h
  split at h
  · cases h
  · exact ⟨by omega, h⟩

theorem FOk.nthId (h : FOk c f) {i : Nat} {r : NodeRef} (hr : f.nth i = some r) : IdOk c r.id := by
  obtain ⟨L, p, R, k, -⟩ := h.nthRef hr
  refine ⟨?_, ?_⟩
  · show r.pid < _
    rw [k.pid]; exact h.pids_lt (by rw [k.split]; simp)
  · show r.pt = c.pos r.pid
    rw [k.pt, k.pid]

theorem binSearch_okD {nodes : List Node} {k : Point} {i : Nat} (h : binSearch nodes k = .ok i) : ∃ e, nodes[i]? = some e ∧ e.key = k := by
  unfold binSearch at h
  dsimp only at h
  split at h
  · rename_i e he
    split at h
    · rename_i hk
      cases h
      exact ⟨e, he, keyCmp_eq hk⟩
    · cases h
  · cases h

theorem binSearch_errD {nodes : List Node} {k : Point} {i : Nat} (h : binSearch nodes k = .error i) :
    (∀ e, nodes[i]? = some e → keyLt k e.key) ∧ ∀ j e, j < i → nodes[j]? = some e → keyLt e.key k := by
  have aux : i = (nodes.takeWhile (fun e => keyCmp e.key k == .lt)).length ∧ ∀ e, nodes[i]? = some e → keyCmp e.key k ≠ .eq := by
    unfold binSearch at h
    dsimp only at h
    split at h
    · rename_i e he
      split at h
      · cases h
      · rename_i hk
        cases h
        refine ⟨rfl, fun e' he' => ?_⟩
        rw [he] at he'; cases he'; exact hk
    · rename_i he
      cases h
      exact ⟨rfl, fun e' he' => by rw [he] at he'; cases he'⟩
  obtain ⟨hi, hne⟩ := aux
  constructor
  · intro e he
    have h1 := hne e he
    have h2 : (keyCmp e.key k == .lt) = false := by
      have hd : (nodes.dropWhile (fun e => keyCmp e.key k == .lt))[0]? = some e := by
        have := List.takeWhile_append_dropWhile (p := fun e => keyCmp e.key k == .lt) (l := nodes)
        rw [← this, hi, List.getElem?_append_right (Nat.le_refl _), Nat.sub_self] at he
        exact he
      have hdn := List.head?_dropWhile_not (fun e => keyCmp e.key k == .lt) nodes
      rw [List.head?_eq_getElem?, hd] at hdn
      simpa using hdn
    cases hc : keyCmp e.key k with
    | lt => rw [hc] at h2; cases h2
    | eq => exact (h1 hc).elim
    | gt => exact keyCmp_gt.1 hc
  · intro j e hj he
    rw [hi] at hj
    have : (nodes.takeWhile (fun e => keyCmp e.key k == .lt))[j]? = some e := by
      have hh := List.takeWhile_append_dropWhile (p := fun e => keyCmp e.key k == .lt) (l := nodes)
      rw [← hh, List.getElem?_append_left hj] at he
      exact he
    have hm := List.all_eq_true.1 (List.all_takeWhile (p := fun e : Node => keyCmp e.key k == .lt) (l := nodes)) e (List.mem_of_getElem? this)
    exact keyCmp_lt.1 (by simpa using hm)

theorem FOk.resolve_ok (h : FOk c f) {id : NodeId} (hid : IdOk c id) {i : Nat} (hr : f.resolve id = .ok i) :
    ∃ e, f.nodes[i]? = some e ∧ e.key = id.pt := by
  unfold Front.resolve at hr
  split at hr
  · rename_i e he
    split at hr
    · rename_i hp
      cases hr
      exact ⟨e, he, by rw [(h.keys e (List.mem_of_getElem? he)).2, hp, hid.2]⟩
    · exact binSearch_okD hr
  · exact binSearch_okD hr

theorem resolve_err {id : NodeId} {i : Nat} (hr : f.resolve id = .error i) :
    (∀ e, f.nodes[i]? = some e → keyLt id.pt e.key) ∧ ∀ j e, j < i → f.nodes[j]? = some e → keyLt e.key id.pt := by
  unfold Front.resolve at hr
  split at hr
  · split at hr
    · cases hr
    · exact binSearch_errD hr
  · exact binSearch_errD hr

theorem FOk.locNext (h : FOk c f) {id : NodeId} (hid : IdOk c id) {r : NodeRef} (hr : f.locateNext id = some r) :
    f.nth r.idx = some r ∧ IdOk c r.id ∧ keyLt id.pt r.pt := by
  unfold Front.locateNext at hr
  split at hr
  · rename_i i hi
    obtain ⟨e, he, ke⟩ := h.resolve_ok hid hi
    refine ⟨(nth_idx hr).2, h.nthId hr, ?_⟩
    have : f.nth i = some (e.toRef i) := by unfold Front.nth; rw [he]; rfl
    have := h.nthLt this hr (by omega)
    rw [← ke]; exact this
  · rename_i i hi
    refine ⟨(nth_idx hr).2, h.nthId hr, ?_⟩
    unfold Front.nth at hr
    simp only [Option.map_eq_some_iff] at hr
    obtain ⟨e, he, rfl⟩ := hr
    exact (resolve_err hi).1 e he

theorem FOk.locPrev (h : FOk c f) {id : NodeId} (hid : IdOk c id) {r : NodeRef} (hr : f.locatePrev id = some r) :
    f.nth r.idx = some r ∧ IdOk c r.id ∧ keyLt r.pt id.pt := by
  unfold Front.locatePrev at hr
  split at hr
  · rename_i i hi
    split at hr
    · obtain ⟨e, he, ke⟩ := h.resolve_ok hid hi
      refine ⟨(nth_idx hr).2, h.nthId hr, ?_⟩
      have : f.nth i = some (e.toRef i) := by unfold Front.nth; rw [he]; rfl
      have := h.nthLt hr this (by omega)
      rw [← ke]; exact this
    · cases hr
  · rename_i i hi
    split at hr
    · refine ⟨(nth_idx hr).2, h.nthId hr, ?_⟩
      unfold Front.nth at hr
      simp only [Option.map_eq_some_iff] at hr
      obtain ⟨e, he, rfl⟩ := hr
      exact (resolve_err hi).2 _ e (by omega) he
    · cases hr

theorem FOk.getId (h : FOk c f) {id : NodeId} (hid : IdOk c id) {r : NodeRef} (hr : f.getNodeWithId id = some r) :
    f.nth r.idx = some r ∧ IdOk c r.id ∧ r.pt = id.pt := by
  unfold Front.getNodeWithId at hr
  split at hr
  · rename_i i hi
    obtain ⟨e, he, ke⟩ := h.resolve_ok hid hi
    refine ⟨(nth_idx hr).2, h.nthId hr, ?_⟩
    unfold Front.nth at hr
    rw [he] at hr
    cases hr
    exact ke
  · cases hr

theorem FOk.nextLt (h : FOk c f) {r q : NodeRef} (hr : f.nth r.idx = some r) (hq : f.next r = some q) :
    f.nth q.idx = some q ∧ IdOk c q.id ∧ keyLt r.pt q.pt :=
  ⟨(nth_idx (next_nth hq)).2, h.nthId (next_nth hq), h.nthLt hr (next_nth hq) (by omega)⟩

theorem FOk.prevLt (h : FOk c f) {r q : NodeRef} (hr : f.nth r.idx = some r) (hq : f.prev r = some q) :
    f.nth q.idx = some q ∧ IdOk c q.id ∧ keyLt q.pt r.pt := by
  obtain ⟨h0, h1⟩ := prev_nth hq
  exact ⟨(nth_idx h1).2, h.nthId h1, h.nthLt h1 hr (by omega)⟩

end

/-! ## The assertion of `orient_2d` -/

theorem orientD_ok {a b d : Point} (h1 : a ≠ b) (h2 : a ≠ d) (h3 : b ≠ d) : orientD a b d = .ok (orient2d a b d) := by
  unfold orientD
  rw [if_pos ⟨h1, h2, h3⟩]

theorem orientD_asc {a b d : Point} (h1 : keyLt a b) (h2 : keyLt b d) : orientD a b d = .ok (orient2d a b d) :=
  orientD_ok (keyLt_ne h1) (keyLt_ne (keyLt_trans h1 h2)) (keyLt_ne h2)

theorem orientD_desc {a b d : Point} (h1 : keyLt b a) (h2 : keyLt d b) : orientD a b d = .ok (orient2d a b d) :=
  orientD_ok (keyLt_ne h1).symm (keyLt_ne (keyLt_trans h2 h1)).symm (keyLt_ne h2).symm

/-- Points that are not on a line are different. -/
theorem orientD_ne {a b d : Point} (h : orient2d a b d ≠ .collinear) : orientD a b d = .ok (orient2d a b d) := by
  have key : ∀ {a b d : Point}, a = b ∨ a = d ∨ b = d → orient2d a b d = .collinear := by
    intro a b d k
    have : det2 a b d = 0 := by rcases k with rfl | rfl | rfl <;> (unfold det2; ring)
    cases hc : orient2d a b d with
    | collinear => rfl
    | ccw => rw [orient_ccw] at hc; linarith
    | cw => rw [orient_cw] at hc; linarith
  refine orientD_ok ?_ ?_ ?_ <;> (intro e; apply h; apply key; tauto)

/-! ## Filling -/

/-- The state between two fillings. -/
structure Cur (c : Ctx) (K : Prop) (s : St) : Prop where
  mesh : MeshInv c K (fun _ => True) s.tris
  bd : BInv c NoP s.tris s.front.nodes
  front : FOk c s.front

/-- If `m` returns and all callbacks were made in consistent states then `m'` returns the same and the state is consistent. -/
structure SimT {α} (c : Ctx) (K : Prop) (st : α → St) (m m' : Except Err α) : Prop where
  run : ∀ a, m = .ok a → TraceOk c K (st a) → m' = .ok a ∧ Cur c K (st a)

namespace SimT
variable {α β : Type} {st : α → St} {st' : β → St}

theorem err (e : Err) (m' : Except Err α) : SimT c K st (.error e) m' := ⟨fun _ h => by cases h⟩

theorem ok {a : α} (h : Cur c K (st a)) : SimT c K st (pure a) (pure a) := ⟨fun b hb _ => by cases hb; exact ⟨rfl, h⟩⟩

theorem bind {m m' : Except Err α} {f f' : α → Except Err β} (h : SimT c K st m m') (hf : ∀ a, m = .ok a → Cur c K (st a) → SimT c K st' (f a) (f' a))
    (he : ∀ a b, f a = .ok b → Evolve (st a) (st' b)) : SimT c K st' (m >>= f) (m' >>= f') := by
  refine ⟨fun b hb ht => ?_⟩
  cases hm : m with
  | error e => rw [hm] at hb; cases hb
  | ok a =>
    rw [hm] at hb
    have hb : f a = .ok b := hb
    obtain ⟨l, hl, -⟩ := (he a b hb).trace
    obtain ⟨h1, h2⟩ := h.run a hm fun x hx => ht x (by rw [hl]; simp [hx])
    rw [h1]
    exact (hf a hm h2).run b hb ht

theorem bindr (m : Except Err α) {f f' : α → Except Err β} (hf : ∀ a, m = .ok a → SimT c K st' (f a) (f' a)) :
    SimT c K st' (m >>= f) (m >>= f') := by
  cases hm : m with
  | error e => exact err _ _
  | ok a => exact hf a hm

theorem ite {q : Prop} [Decidable q] {a a' b b' : Except Err α} (h : q → SimT c K st a a') (h' : ¬ q → SimT c K st b b') :
    SimT c K st (if q then a else b) (if q then a' else b') := by
  split
  · exact h ‹_›
  · exact h' ‹_›

end SimT

theorem legalize_evs {fuel : Nat} {s s' : St} {t : Nat} (h : legalize c fuel s t = .ok s') :
    (Ev.willLegalize t, s.snap) ∈ s'.trace ∧ (Ev.legalized t, s'.snap) ∈ s'.trace := by
  simp only [legalize, bind_ok, pure_ok, Except.ok.injEq] at h
  obtain ⟨⟨s1, r⟩, h1, s2, h2, rfl⟩ := h
  obtain ⟨l, hl, -⟩ := (legalizeLoop_evolve0 h1).trace
  obtain ⟨l', hl', -⟩ := (mapAll_evolve h2).trace
  constructor
  · simp only [St.emit, List.mem_cons]
    right
    rw [hl', hl]
    simp [St.emit]
  · simp [St.emit, St.snap]

/-- Legalization, judged by the callbacks. -/
theorem legalizeT_ok {fuel : Nat} {s : St} {t : Nat} (ht : t < s.tris.length) :
    SimT c K (fun s => s) (legalize c fuel s t) (legalizeD c fuel s t) := by
  refine ⟨fun s' h tr => ?_⟩
  obtain ⟨h1, h2⟩ := legalize_evs h
  have k1 := tr _ h1
  have k2 := tr _ h2
  exact ⟨(legalizeD_ok k1.mesh ht).run s' h, k2.mesh, k2.done rfl, k2.front⟩

theorem markNeighborD_ok {ts : Store} {l r : Nat} (h : Adj ts l r) : Store.markNeighborD ts l r = Store.markNeighbor ts l r := by
  unfold Store.markNeighborD Store.markNeighbor
  rw [markPairD_ok h]
  rfl

/-- A new triangle and the owner of the front edge below it. -/
theorem Cur.adj {s : St} (h : Cur c K s) {p n x t1 : Nat} (d : D3 p n x) (hb : Bd s.tris t1 n p ∨ Bd s.tris t1 x n ∨ Bd s.tris t1 p x) :
    Adj (s.tris ++ [Tri.new p n x]) s.tris.length t1 ∧ Adj (s.tris ++ [Tri.new p n x]) t1 s.tris.length := by
  have old : ∀ {y W U V N E}, Sl s.tris y W U V N E → Sl (s.tris ++ [Tri.new p n x]) y W U V N E := by
    intro y W U V N E k
    rw [sl_append]; exact .inr k
  have new : ∀ {W U V}, ((W = p ∧ U = n ∧ V = x) ∨ (W = n ∧ U = x ∧ V = p) ∨ (W = x ∧ U = p ∧ V = n)) →
      Sl (s.tris ++ [Tri.new p n x]) s.tris.length W U V none (Tri.new p n x).attrs.a := by
    intro W U V k
    rw [sl_append, new_slot d]; exact .inl ⟨rfl, rfl, rfl, k⟩
  obtain ⟨d1, d2, d3⟩ := d
  rcases hb with ⟨w, e, k⟩ | ⟨w, e, k⟩ | ⟨w, e, k⟩
  · exact ⟨adj_sl (new (.inr (.inr ⟨rfl, rfl, rfl⟩))) (old k) ⟨d3.symm, d1, d2.symm⟩ ((oriW c).d3 (h.mesh.wo k)),
      adj_sl (old k) (new (.inr (.inr ⟨rfl, rfl, rfl⟩))) ((oriW c).d3 (h.mesh.wo k)) ⟨d3.symm, d1, d2.symm⟩⟩
  · exact ⟨adj_sl (new (.inl ⟨rfl, rfl, rfl⟩)) (old k) ⟨d1, d2, d3⟩ ((oriW c).d3 (h.mesh.wo k)),
      adj_sl (old k) (new (.inl ⟨rfl, rfl, rfl⟩)) ((oriW c).d3 (h.mesh.wo k)) ⟨d1, d2, d3⟩⟩
  · exact ⟨adj_sl (new (.inr (.inl ⟨rfl, rfl, rfl⟩))) (old k) ⟨d2, d3.symm, d1.symm⟩ ((oriW c).d3 (h.mesh.wo k)),
      adj_sl (old k) (new (.inr (.inl ⟨rfl, rfl, rfl⟩))) ((oriW c).d3 (h.mesh.wo k)) ⟨d2, d3.symm, d1.symm⟩⟩


theorem fillOneD_ok {fuel : Nat} {s : St} {id : NodeId} (h : Cur c K s) :
    SimT c K Prod.fst (fillOne c fuel s id) (fillOneD c fuel s id) := by
  unfold fillOne fillOneD
  refine .bindr _ fun node hnode => ?_
  rw [unwrap_ok] at hnode
  cases hp : s.front.prev node with
  | none => exact .ok h
  | some prev =>
    dsimp only
    cases hn : s.front.next node with
    | none => exact .ok h
    | some next =>
      dsimp only
      have n0 : s.front.nth node.idx = some node := by
        unfold Front.getNodeWithId at hnode
        split at hnode
        · exact (nth_idx hnode).2
        · cases hnode
      obtain ⟨L, n, R, rn, -⟩ := h.front.nthRef n0
      rcases eq_nil_or_snoc L with rfl | ⟨L, p, rfl⟩
      · rw [h.front.pPrev_nil rn] at hp; cases hp
      cases R with
      | nil => rw [h.front.pNext_nil rn] at hn; cases hn
      | cons x R =>
        obtain ⟨rp, k1, k2⟩ := h.front.pPrev rn
        rw [k1] at hp; cases hp
        obtain ⟨rx, k3, k4⟩ := h.front.pNext rn
        rw [k3] at hn; cases hn
        obtain ⟨t1, k7, k8⟩ := k2.tri h.bd
        obtain ⟨t2, k9, k10⟩ := rn.tri h.bd
        have as := h.front.asc3 (L := L) (p := p) (n := n) (x := x) (R := R) (by rw [rn.split]; simp)
        have d : D3 p n x := ⟨fun e => keyLt_irrefl _ (e ▸ as.1), fun e => keyLt_irrefl _ (e ▸ as.2),
          fun e => keyLt_irrefl (c.pos p) (by have := keyLt_trans as.1 as.2; rw [← e] at this; exact this)⟩
        simp only [k2.pid, rn.pid, k4.pid, k7, k9, unwrap_some, ok_bind]
        have a1 := (h.adj d (t1 := t1) (.inl k8)).1
        have a2 := (h.adj d (t1 := t2) (.inr (.inl k10))).1
        rw [markNeighborD_ok a1]
        refine .bindr _ fun ts1 h1 => ?_
        have a2' : Adj ts1 s.tris.length t2 := by
          refine a2.congr ?_
          simp only [Store.markNeighbor, bind_ok, pure_ok, Except.ok.injEq] at h1
          obtain ⟨_, -, rfl⟩ := h1
          refine ptsOf_markPair ?_
          rintro rfl
          obtain ⟨_, _, q⟩ := k8
          exact Nat.lt_irrefl _ q.lt
        rw [markNeighborD_ok a2']
        refine .bindr _ fun ts2 h2 => ?_
        have e3 : s.front.updateAndDeleteD prev.idx p s.tris.length node.idx = s.front.updateAndDelete prev.idx s.tris.length node.idx := by
          obtain ⟨L', e, R', a1, a2, a3, a4, a5⟩ := k2.node
          have : s.front.nodes[prev.idx]? = some e := by rw [k2.idx, ← a2, a1]; simp
          unfold Front.updateAndDeleteD
          rw [this]
          simp [a3]
        rw [e3]
        refine .bindr _ fun f hf => ?_
        refine SimT.bind (st := fun s => s) (legalizeT_ok ?_) (fun s1 _ h1 => .ok h1) ?_
        · show s.tris.length < ts2.length
          have := (markNeighbor_sev h1).len
          have := (markNeighbor_sev h2).len
          simp at *; omega
        · rintro a b hb
          cases hb
          exact .refl _

/-- What filling returns: ids of the front before. -/
theorem fillOne_ids {fuel : Nat} {s : St} {id : NodeId} (h : FOk c s.front) (hid : IdOk c id) {r} (hr : fillOne c fuel s id = .ok r) :
    (r.2 = none → r.1 = s) ∧ ∀ fo, r.2 = some fo → IdOk c fo.prev ∧ IdOk c fo.next ∧ keyLt fo.prev.pt id.pt ∧ keyLt id.pt fo.next.pt := by
  simp only [fillOne, bind_ok, unwrap_ok] at hr
  obtain ⟨node, hn, hr⟩ := hr
  obtain ⟨g1, g2, g3⟩ := h.getId hid hn
  split at hr
  · cases hr; exact ⟨fun _ => rfl, fun _ h => by cases h⟩
  · rename_i prev hp
    split at hr
    · cases hr; exact ⟨fun _ => rfl, fun _ h => by cases h⟩
    · rename_i next hx
      simp only [bind_ok, unwrap_ok, pure_ok, Except.ok.injEq] at hr
      obtain ⟨pt, -, ts1, h1, nt, -, ts2, h2, fr, hf, s1, h3, rfl⟩ := hr
      refine ⟨fun k => (by cases k), fun fo k => ?_⟩
      cases k
      obtain ⟨_, q1, q2⟩ := h.prevLt g1 hp
      obtain ⟨_, q3, q4⟩ := h.nextLt g1 hx
      exact ⟨q1, q3, g3 ▸ q2, g3 ▸ q4⟩


/-! ## Point events -/

/-- The state projection of functions that return a state. -/
abbrev St.self (s : St) : St := s

theorem fillRightD_ok {fuel0 : Nat} : ∀ (fuel : Nat) {s : St} {id : NodeId}, Cur c K s →
    SimT c K St.self (fillRight c fuel0 fuel s id) (fillRightD c fuel0 fuel s id)
  | 0, s, id, h => .err _ _
  | fuel + 1, s, id, h => by
    unfold fillRight fillRightD
    cases h1 : s.front.locateNext id with
    | none => exact .ok h
    | some n =>
      dsimp only
      cases h2 : s.front.next n with
      | none => exact .ok h
      | some x =>
        dsimp only
        refine .bindr _ fun b hb => ?_
        refine .ite (fun _ => .ok h) fun _ => ?_
        refine SimT.bind (fillOneD_ok h) ?_ ?_
        · rintro ⟨s1, r⟩ _ h3
          exact fillRightD_ok fuel h3
        · rintro ⟨s1, r⟩ b hb
          exact fillRight_evolve hb

theorem fillLeftD_ok {fuel0 : Nat} : ∀ (fuel : Nat) {s : St} {id : NodeId}, Cur c K s →
    SimT c K St.self (fillLeft c fuel0 fuel s id) (fillLeftD c fuel0 fuel s id)
  | 0, s, id, h => .err _ _
  | fuel + 1, s, id, h => by
    unfold fillLeft fillLeftD
    cases h1 : s.front.locatePrev id with
    | none => exact .ok h
    | some n =>
      dsimp only
      cases h2 : s.front.prev n with
      | none => exact .ok h
      | some x =>
        dsimp only
        refine .bindr _ fun b hb => ?_
        refine .ite (fun _ => .ok h) fun _ => ?_
        refine SimT.bind (fillOneD_ok h) ?_ ?_
        · rintro ⟨s1, r⟩ _ h3
          exact fillLeftD_ok fuel h3
        · rintro ⟨s1, r⟩ b hb
          exact fillLeft_evolve hb

theorem fillBasinReqD_ok {fuel0 : Nat} : ∀ (fuel : Nat) {s : St} {id : NodeId} {b : Basin}, Cur c K s → IdOk c id →
    SimT c K St.self (fillBasinReq c fuel0 fuel s id b) (fillBasinReqD c fuel0 fuel s id b)
  | 0, s, id, b, h, hid => .err _ _
  | fuel + 1, s, id, b, h, hid => by
    unfold fillBasinReq fillBasinReqD
    refine .ite (fun _ => .ok h) fun _ => ?_
    refine SimT.bind (fillOneD_ok h) ?_ ?_
    · rintro ⟨s1, r⟩ h2 h3
      refine .bindr _ fun fo hfo => ?_
      rw [unwrap_ok] at hfo
      obtain ⟨i1, i2, i3, i4⟩ := (fillOne_ids h.front hid h2).2 fo hfo
      refine .ite (fun _ => .ok h3) fun _ => ?_
      refine .ite (fun _ => ?_) fun _ => ?_
      · refine .bindr _ fun next hn => .bindr _ fun nn hnn => ?_
        rw [unwrap_ok] at hn hnn
        obtain ⟨g1, g2, g3⟩ := h3.front.getId i2 hn
        obtain ⟨j1, j2, j3⟩ := h3.front.nextLt g1 hnn
        rw [orientD_asc (by rw [g3]; exact i4) j3, ok_bind]
        exact .ite (fun _ => .ok h3) fun _ => fillBasinReqD_ok fuel h3 g2
      · refine .ite (fun _ => ?_) fun _ => ?_
        · refine .bindr _ fun prev hp => ?_
          rw [unwrap_ok] at hp
          obtain ⟨g1, g2, g3⟩ := h3.front.getId i1 hp
          cases hpp : s1.front.prev prev with
          | none => exact .ok h3
          | some pp =>
            dsimp only
            obtain ⟨j1, j2, j3⟩ := h3.front.prevLt g1 hpp
            rw [orientD_desc (by rw [g3]; exact i3) j3, ok_bind]
            exact .ite (fun _ => .ok h3) fun _ => fillBasinReqD_ok fuel h3 g2
        · exact .ite (fun _ => fillBasinReqD_ok fuel h3 i1) fun _ => fillBasinReqD_ok fuel h3 i2
    · rintro ⟨s1, r⟩ b hb
      simp only [bind_ok, unwrap_ok] at hb
      obtain ⟨fo, -, hb⟩ := hb
      split at hb
      · cases hb; exact .refl _
      split at hb
      · simp only [bind_ok, unwrap_ok] at hb
        obtain ⟨n, -, nn, -, hb⟩ := hb
        split at hb
        · cases hb; exact .refl _
        · exact fillBasinReq_evolve hb
      split at hb
      · simp only [bind_ok, unwrap_ok] at hb
        obtain ⟨n, -, hb⟩ := hb
        split at hb
        · cases hb; exact .refl _
        · split at hb
          · cases hb; exact .refl _
          · exact fillBasinReq_evolve hb
      split at hb <;> exact fillBasinReq_evolve hb

theorem findBottom_nth {f : Front} : ∀ {fuel : Nat} {b r : NodeRef}, f.nth b.idx = some b → findBottom f fuel b = .ok r → f.nth r.idx = some r
  | 0, b, r, _, h => by cases h
  | fuel + 1, b, r, hb, h => by
    unfold findBottom at h
    split at h
    · cases h; exact hb
    · rename_i n hn
      split at h
      · exact findBottom_nth (nth_idx (next_nth hn)).2 h
      · cases h; exact hb

theorem fillBasinD_ok {fuel : Nat} {s : St} {id : NodeId} (h : Cur c K s) (hid : IdOk c id) :
    SimT c K St.self (fillBasin c fuel s id) (fillBasinD c fuel s id) := by
  unfold fillBasin fillBasinD
  cases h1 : s.front.locateNext id with
  | none => exact .ok h
  | some n =>
    dsimp only
    cases h2 : s.front.next n with
    | none => exact .ok h
    | some x =>
      dsimp only
      obtain ⟨g1, g2, g3⟩ := h.front.locNext hid h1
      obtain ⟨j1, j2, j3⟩ := h.front.nextLt g1 h2
      rw [orientD_asc g3 j3, ok_bind]
      have hl : s.front.nth (if orient2d id.pt n.pt x.pt = .ccw then x else n).idx = some (if orient2d id.pt n.pt x.pt = .ccw then x else n) := by
        split
        · exact j1
        · exact g1
      generalize (if orient2d id.pt n.pt x.pt = .ccw then x else n) = left at hl ⊢
      refine .bindr _ fun bot hbot => ?_
      refine .ite (fun _ => .ok h) fun _ => ?_
      refine .bindr _ fun right hr => ?_
      refine .ite (fun _ => .ok h) fun _ => ?_
      exact fillBasinReqD_ok fuel h (h.front.nthId (findBottom_nth hl hbot))

theorem FOk.getNodeId {f : Front} (h : FOk c f) {pt : Point} {r : NodeRef} (hr : f.getNode pt = .ok (some r)) : IdOk c r.id := by
  simp only [Front.getNode, bind_ok] at hr
  obtain ⟨x, -, hr⟩ := hr
  split at hr
  · cases hr
  · split at hr
    · rename_i q hq
      cases hr
      exact h.nthId hq
    · cases hr

theorem fillAdvancingFrontD_ok {fuel : Nat} {s : St} {pt : Point} (h : Cur c K s) :
    SimT c K St.self (fillAdvancingFront c fuel s pt) (fillAdvancingFrontD c fuel s pt) := by
  unfold fillAdvancingFront fillAdvancingFrontD
  refine .bindr _ fun o ho => .bindr _ fun node hn => ?_
  rw [unwrap_ok] at hn
  subst hn
  have hid := h.front.getNodeId ho
  have e2 : ∀ a b, (if basinAngleSatisfy c (St.self a).front node.id then fillBasin c fuel a node.id else pure a) = .ok b → Evolve a.self b.self := by
    intro a b hb
    split at hb
    · exact fillBasin_evolve hb
    · cases hb; exact .refl _
  refine SimT.bind (fillRightD_ok fuel h) (fun s1 _ k1 => ?_) fun a b hb => ?_
  · refine SimT.bind (fillLeftD_ok fuel k1) (fun s2 _ k2 => ?_) e2
    exact .ite (fun _ => fillBasinD_ok k2 hid) fun _ => .ok k2
  · simp only [bind_ok] at hb
    obtain ⟨s2, hb1, hb2⟩ := hb
    exact (fillLeft_evolve hb1).trans (e2 _ _ hb2)

theorem pointEventD_ok {fuel : Nat} {s : St} (h : Cur c K s) {i : Nat} (hni : i ∉ s.front.pids) :
    SimT c K St.self (pointEvent c fuel s i (c.pos i)) (pointEventD c fuel s i (c.pos i)) := by
  unfold pointEvent pointEventD
  refine .bindr _ fun node hnode => .bindr _ fun next hn => ?_
  rw [unwrap_ok] at hn
  have n0 : s.front.nth node.idx = some node := by
    unfold Front.locateNode at hnode
    dsimp only at hnode
    split at hnode
    · rename_i r hr
      cases hnode
      rw [Option.bind_eq_some_iff] at hr
      obtain ⟨j, -, hr⟩ := hr
      exact (nth_idx hr).2
    · cases hnode
  obtain ⟨L, e, R, rn, -⟩ := h.front.nthRef n0
  cases R with
  | nil => rw [h.front.pNext_nil rn] at hn; cases hn
  | cons x R =>
    obtain ⟨rx, k3, k4⟩ := h.front.pNext rn
    rw [k3] at hn; cases hn
    obtain ⟨t1, k7, k8⟩ := rn.tri h.bd
    have nd := h.front.nodupP
    have d : D3 i e x := by
      refine ⟨?_, ?_, ?_⟩
      · rintro rfl; exact hni (by rw [rn.split]; simp)
      · intro ee
        rw [rn.split, ee] at nd
        simp [List.nodup_append] at nd
      · rintro rfl; exact hni (by rw [rn.split]; simp)
    simp only [rn.pid, k4.pid, k7, unwrap_some, ok_bind]
    have a1 := (h.adj d (t1 := t1) (.inr (.inl k8))).2
    rw [markNeighborD_ok a1]
    refine .bindr _ fun ts1 h1 => ?_
    refine SimT.bind (st := St.self) (legalizeT_ok ?_) (fun s1 _ k1 => ?_) ?_
    · show s.tris.length < ts1.length
      have := (markNeighbor_sev h1).len
      simp at *; omega
    · refine SimT.bind (st := St.self) ?_ (fun s2 _ k2 => fillAdvancingFrontD_ok k2) fun a b hb => fillAdvancingFront_evolve hb
      refine .ite (fun _ => ?_) fun _ => .ok k1
      refine SimT.bind (fillOneD_ok k1) (fun s2 _ k2 => .ok k2) ?_
      rintro ⟨a, r⟩ b hb
      cases hb
      exact .refl _
    · intro a b hb
      simp only [bind_ok] at hb
      obtain ⟨s2, hb1, hb2⟩ := hb
      refine Evolve.trans ?_ (fillAdvancingFront_evolve hb2)
      split at hb1
      · simp only [bind_ok] at hb1
        obtain ⟨⟨s3, r⟩, hb3, hb4⟩ := hb1
        cases hb4
        exact fillOne_evolve hb3
      · cases hb1; exact .refl _

end P2T
