import Verif.Proofs.Flood
import Verif.Proofs.Order

/-!
# A whole run: sequence of callbacks, counts, vertices
-/

namespace P2T

/-- The callbacks of a log that are not made by legalization, oldest first. -/
def calls (tr : List (Ev × Snap)) : List Ev := ((tr.map Prod.fst).filter fun e => !e.isLegal).reverse

theorem calls_append_legal {l tr : List (Ev × Snap)} (h : ∀ x ∈ l, x.1.isLegal = true) : calls (l ++ tr) = calls tr := by
  unfold calls
  rw [List.map_append, List.filter_append]
  have : (l.map Prod.fst).filter (fun e => !e.isLegal) = [] := by
    rw [List.filter_eq_nil_iff]
    intro e he
    rw [List.mem_map] at he
    obtain ⟨x, hx, rfl⟩ := he
    simp [h x hx]
  rw [this, List.nil_append]

theorem calls_cons {e : Ev} {sn tr} (h : e.isLegal = false) : calls ((e, sn) :: tr) = calls tr ++ [e] := by
  simp [calls, h]

theorem Evolve.calls {s s' : St} (h : Evolve s s') : calls s'.trace = calls s.trace := by
  obtain ⟨l, e, hl⟩ := h.trace
  rw [e, calls_append_legal fun x hx => (hl x hx).1]

/-- Every logged state has `4 + 2 ·` (number of points entered before) triangles and front nodes. -/
def CountOk (tr : List (Ev × Snap)) : Prop :=
  ∀ l1 e sn l2, tr = l1 ++ (e, sn) :: l2 →
    sn.size = 4 + 2 * (l2.filter fun x => match x.1 with | .enterPoint _ => true | _ => false).length

/-- Number of points entered. -/
def entered (tr : List (Ev × Snap)) : Nat :=
  (tr.filter fun x => match x.1 with | .enterPoint _ => true | _ => false).length

theorem CountOk.nil : CountOk [] := by intro l1 e sn l2 h; simp at h

theorem CountOk.cons {tr : List (Ev × Snap)} (h : CountOk tr) {e sn} (hs : sn.size = 4 + 2 * entered tr) :
    CountOk ((e, sn) :: tr) := by
  intro l1 e' sn' l2 he
  cases l1 with
  | nil => simp only [List.nil_append, List.cons.injEq, Prod.mk.injEq] at he; obtain ⟨⟨rfl, rfl⟩, rfl⟩ := he; exact hs
  | cons x l1 => simp only [List.cons_append, List.cons.injEq] at he; exact h l1 e' sn' l2 he.2

theorem entered_legal : ∀ {l tr : List (Ev × Snap)}, (∀ x ∈ l, x.1.isLegal = true) → entered (l ++ tr) = entered tr
  | [], tr, _ => rfl
  | (e, sn) :: l, tr, h => by
    have h1 := h (e, sn) (by simp)
    have := entered_legal (l := l) (tr := tr) fun x hx => h x (by simp [hx])
    unfold entered at *
    rw [List.cons_append, List.filter_cons_of_neg, this]
    cases e <;> simp_all [Ev.isLegal]

theorem CountOk.legal : ∀ {l tr : List (Ev × Snap)}, CountOk tr →
    (∀ x ∈ l, x.1.isLegal = true ∧ x.2.size = 4 + 2 * entered tr) → CountOk (l ++ tr)
  | [], tr, h, _ => h
  | (e, sn) :: l, tr, h, hl => by
    refine (CountOk.legal h fun x hx => hl x (by simp [hx])).cons ?_
    rw [entered_legal fun x hx => (hl x (by simp [hx])).1]
    exact (hl (e, sn) (by simp)).2

/-- State invariant of the count law. -/
structure Cnt (s : St) : Prop where
  log : CountOk s.trace
  now : s.snap.size = 4 + 2 * entered s.trace

theorem Evolve.cnt {s s' : St} (h : Evolve s s') (k : Cnt s) : Cnt s' := by
  obtain ⟨l, e, hl⟩ := h.trace
  constructor
  · rw [e]; exact k.log.legal fun x hx => ⟨(hl x hx).1, (hl x hx).2.trans k.now⟩
  · rw [e, entered_legal fun x hx => (hl x hx).1, ← k.now]; exact h.count

theorem Cnt.emit {s : St} (k : Cnt s) {e : Ev} (h : ∀ p, e ≠ .enterPoint p) : Cnt (s.emit e) := by
  have : entered ((e, s.snap) :: s.trace) = entered s.trace := by
    unfold entered
    rw [List.filter_cons_of_neg]
    cases e <;> simp_all
  exact ⟨k.log.cons k.now, by show s.snap.size = _; rw [k.now]; exact congrArg (4 + 2 * ·) this.symm⟩

/-! ## Front keys -/

/-- Every front node carries the coordinates of its point. -/
def KeysOk (c : Ctx) (f : Front) : Prop := ∀ x ∈ f.shape, c.points[x.2]? = some x.1

theorem Evolve.keys {c : Ctx} {s s' : St} (h : Evolve s s') (k : KeysOk c s.front) : KeysOk c s'.front :=
  fun x hx => k x (h.front.subset hx)

theorem keyCmp_eq {p q : Point} (h : keyCmp p q = .eq) : p = q := by
  obtain ⟨x, y⟩ := p
  obtain ⟨x', y'⟩ := q
  simp only [keyCmp, cmpRat] at h
  split at h
  · rename_i h1
    split at h1
    · cases h1
    · split at h1
      · rename_i e; subst e
        split at h
        · cases h
        · split at h
          · rename_i e; subst e; rfl
          · cases h
      · cases h1
  · rename_i o h1
    split at h <;> simp_all

theorem binSearch_ok {nodes : List Node} {k : Point} {i : Nat} (h : binSearch nodes k = .ok i) :
    ∃ e, nodes[i]? = some e ∧ e.key = k := by
  unfold binSearch at h
  dsimp only at h
  split at h
  · rename_i e he
    split at h
    · cases h; exact ⟨e, he, keyCmp_eq ‹_›⟩
    · cases h
  · cases h

theorem binSearch_err {nodes : List Node} {k : Point} {i : Nat} (h : binSearch nodes k = .error i) : i ≤ nodes.length := by
  unfold binSearch at h
  dsimp only at h
  have := (List.takeWhile_prefix (l := nodes) (fun e => keyCmp e.key k == .lt)).length_le
  split at h
  · split at h <;> cases h; exact this
  · cases h; exact this

theorem mem_shape {f : Front} {e : Node} (h : e ∈ f.nodes) : (e.key, e.pid) ∈ f.shape :=
  List.mem_map.2 ⟨e, h, rfl⟩

/-- Inserting a new point. -/
theorem insert_spec {f : Front} {pid : Nat} {pt : Point} {t : Nat} (h : ∀ e ∈ f.nodes, e.key ≠ pt) :
    (f.insert pid pt t).nodes.length = f.nodes.length + 1 ∧
    ∀ x, x ∈ (f.insert pid pt t).shape ↔ x ∈ f.shape ∨ x = (pt, pid) := by
  unfold Front.insert
  cases hs : f.searchByKey pt with
  | ok i =>
    obtain ⟨e, he, hk⟩ := binSearch_ok hs
    exact (h e (List.mem_of_getElem? he) hk).elim
  | error i =>
    have := binSearch_err hs
    refine ⟨by simp; omega, fun x => ?_⟩
    have e : f.shape = ((f.nodes.take i).map fun e => (e.key, e.pid)) ++ (f.nodes.drop i).map fun e => (e.key, e.pid) := by
      rw [← List.map_append, List.take_append_drop]; rfl
    rw [e]
    simp only [Front.shape, List.map_append, List.map_cons, List.map_nil, List.mem_append, List.mem_singleton]
    tauto

theorem shape_insert_sub {f : Front} {pid : Nat} {pt : Point} {t : Nat} :
    ∀ x ∈ (f.insert pid pt t).shape, x ∈ f.shape ∨ x = (pt, pid) := by
  intro x hx
  unfold Front.insert at hx
  cases hs : f.searchByKey pt with
  | ok i =>
    obtain ⟨e, he, hk⟩ := binSearch_ok hs
    rw [hs] at hx
    simp only [Front.shape, List.mem_map] at hx ⊢
    obtain ⟨y, hy, rfl⟩ := hx
    rw [List.mem_iff_getElem?] at hy
    obtain ⟨j, hj⟩ := hy
    rw [List.getElem?_modify] at hj
    simp only [Option.map_eq_map, Option.map_eq_some_iff] at hj
    obtain ⟨z, hz, rfl⟩ := hj
    split
    · subst_vars
      rw [he] at hz; cases hz
      right; simp
    · left; exact ⟨z, List.mem_of_getElem? hz, rfl⟩
  | error i =>
    rw [hs] at hx
    have e : f.shape = ((f.nodes.take i).map fun e => (e.key, e.pid)) ++ (f.nodes.drop i).map fun e => (e.key, e.pid) := by
      rw [← List.map_append, List.take_append_drop]; rfl
    rw [e]
    simp only [Front.shape, List.map_append, List.map_cons, List.map_nil, List.mem_append, List.mem_singleton] at hx ⊢
    tauto

end P2T

namespace P2T

/-- Everything that holds unconditionally between events; `done` are the points handled so far. -/
structure Base (c : Ctx) (done : List Nat) (s : St) : Prop where
  result : s.result = []
  inter : ∀ T ∈ s.tris, T.interior = false
  uses : ∀ v, Uses s.tris s.front v → v = c.head ∨ v = c.tail ∨ v ∈ done
  keys : KeysOk c s.front

theorem Evolve.base {c : Ctx} {done s s'} (h : Evolve s s') (b : Base c done s) : Base c done s' :=
  ⟨h.result.trans b.result, h.inter b.inter, fun v k => b.uses v (h.uses v k), h.keys b.keys⟩

theorem Base.emit {c : Ctx} {done s} (b : Base c done s) (e : Ev) : Base c done (s.emit e) :=
  ⟨b.result, b.inter, b.uses, b.keys⟩

theorem uses_shape {ts : Store} {f : Front} {x} (h : x ∈ f.shape) : Uses ts f x.2 := by
  simp only [Front.shape, List.mem_map] at h
  obtain ⟨e, he, rfl⟩ := h
  exact .inr ⟨e, he, rfl⟩

theorem locateNode_mem {f : Front} {pt : Point} {r} (h : f.locateNode pt = .ok r) : ∃ e ∈ f.nodes, e.pid = r.pid := by
  unfold Front.locateNode at h
  extract_lets idx at h
  generalize idx = idx at h
  split at h
  · rename_i x hx
    cases h
    rw [Option.bind_eq_some_iff] at hx
    obtain ⟨i, -, hi⟩ := hx
    obtain ⟨e, he, k, -⟩ := nth_mem hi
    exact ⟨e, he, k⟩
  · cases h

/-- The state right after the insertion of a point. -/
theorem pointEvent_base {c : Ctx} {f : Nat} {s s' : St} {pid : Nat} {pt : Point} {done : List Nat}
    (h : pointEvent c f s pid pt = .ok s') (b : Base c done s) (hp : c.points[pid]? = some pt) :
    ∃ s1, Evolve s1 s' ∧ Base c (done ++ [pid]) s1 ∧ s1.trace = s.trace ∧
      ((∀ e ∈ s.front.nodes, e.key ≠ pt) → s1.snap.size = s.snap.size + 2) := by
  obtain ⟨node, next, ts, h1, h2, h3, h4, -⟩ := pointEvent_evolve h
  have hnode : Uses s.tris s.front node.pid := .inr (locateNode_mem h1)
  have hnext : Uses s.tris s.front next.pid := by
    obtain ⟨e, he, k, -⟩ := nth_mem h2
    exact .inr ⟨e, he, k⟩
  refine ⟨_, h4, ⟨b.result, h3.inter ?_, ?_, ?_⟩, rfl, ?_⟩
  · intro T hT
    rcases List.mem_append.1 hT with hT | hT
    · exact b.inter T hT
    · simp only [List.mem_singleton] at hT; subst hT; rfl
  · have key : ∀ v, Uses s.tris s.front v → v = c.head ∨ v = c.tail ∨ v ∈ done ++ [pid] := by
      intro v hv
      have := b.uses v hv
      simp only [List.mem_append]; tauto
    rintro v (⟨T, hT, hv⟩ | ⟨e, he, hv⟩)
    · obtain ⟨T', hT', hv'⟩ := h3.corners T hT v hv
      rcases List.mem_append.1 hT' with hT' | hT'
      · exact key v (.inl ⟨T', hT', hv'⟩)
      · simp only [List.mem_singleton] at hT'; subst hT'
        simp only [Tri.corners, Tri.new, List.mem_cons, List.not_mem_nil, or_false] at hv'
        rcases hv' with rfl | rfl | rfl
        · simp
        · exact key _ hnode
        · exact key _ hnext
    · rcases shape_insert_sub _ (mem_shape he) with k | k
      · have := uses_shape (ts := s.tris) k
        dsimp only at this
        rw [hv] at this
        exact key v this
      · cases k; subst hv; simp
  · intro x hx
    rcases shape_insert_sub x hx with k | rfl
    · exact b.keys x k
    · exact hp
  · intro hne
    have := (insert_spec (pid := pid) (t := s.tris.length) hne).1
    have := h3.len
    simp only [Snap.size, St.snap, List.length_append, List.length_singleton] at *
    omega

/-- The callbacks of one point. -/
def pointCalls (x : Nat × Point × PointEdges) : List Ev :=
  [.enterPoint x.1, .exitPoint x.1] ++ x.2.2.toList.map fun p => .edge p x.1

theorem calls_emit (s : St) {e : Ev} (h : e.isLegal = false) : calls (s.emit e).trace = calls s.trace ++ [e] :=
  calls_cons h

theorem edgeEvents_base {g : Trap} {c : Ctx} {f : Nat} {pid : Nat} {pt : Point} : ∀ {l : List Nat} {s s' : St} {done},
    edgeEvents g c f pid pt l s = .ok s' → Base c done s →
    Base c done s' ∧ calls s'.trace = calls s.trace ++ l.map (fun p => .edge p pid) ∧ (Cnt s → Cnt s')
  | [], s, s', done, h, b => by
    simp only [edgeEvents, pure_ok, Except.ok.injEq] at h; subst h
    exact ⟨b, by simp, id⟩
  | p :: l, s, s', done, h, b => by
    simp only [edgeEvents, bind_ok] at h
    obtain ⟨s1, h1, h⟩ := h
    have e := edgeEvent_evolve h1
    obtain ⟨b', k1, k2⟩ := edgeEvents_base h ((e.base b).emit _)
    refine ⟨b', ?_, fun k => k2 ((e.cnt k).emit (by simp))⟩
    rw [k1, calls_emit _ rfl, e.calls]; simp

theorem sweepLoop_base {g : Trap} {c : Ctx} {f : Nat} : ∀ {l : List (Nat × Point × PointEdges)} {s s' : St} {done},
    sweepLoop g c f l s = .ok s' → Base c done s → (∀ x ∈ l, c.points[x.1]? = some x.2.1) →
    Base c (done ++ l.map (·.1)) s' ∧ calls s'.trace = calls s.trace ++ l.flatMap pointCalls ∧
    (c.points.Nodup → (done ++ l.map (·.1)).Nodup → c.head ∉ l.map (·.1) → c.tail ∉ l.map (·.1) → Cnt s → Cnt s')
  | [], s, s', done, h, b, _ => by
    simp only [sweepLoop, pure_ok, Except.ok.injEq] at h; subst h
    exact ⟨by simpa using b, by simp, fun _ _ _ _ => id⟩
  | (pid, pt, es) :: l, s, s', done, h, b, hl => by
    simp only [sweepLoop, bind_ok] at h
    obtain ⟨s2, h1, s3, h2, h⟩ := h
    have hp := hl (pid, pt, es) (by simp)
    obtain ⟨s1, k1, k2, k3, k4⟩ := pointEvent_base h1 (b.emit (.enterPoint pid)) hp
    obtain ⟨b3, c3, n3⟩ := edgeEvents_base h2 ((k1.base k2).emit (.exitPoint pid))
    obtain ⟨b4, c4, n4⟩ := sweepLoop_base h b3 fun x hx => hl x (by simp [hx])
    refine ⟨by simpa using b4, ?_, ?_⟩
    · rw [c4, c3, calls_emit _ rfl, k1.calls, k3, calls_emit _ rfl]
      simp [pointCalls]
    · intro hnd hd hh ht hcnt
      simp only [List.map_cons, List.mem_cons, not_or] at hh ht
      refine n4 hnd (by simpa using hd) hh.2 ht.2 (n3 (Cnt.emit (k1.cnt ?_) (by simp)))
      have hne : ∀ e ∈ s.front.nodes, e.key ≠ pt := by
        intro e he hk
        have h3 := b.keys _ (mem_shape he)
        dsimp only at h3
        rw [hk] at h3
        have h4 : e.pid = pid := by
          have l1 := (List.getElem?_eq_some_iff.1 h3).1
          exact (List.nodup_iff_getElem?_ne_getElem?.1 hnd |> fun z => by
            by_contra hne
            rcases Nat.lt_or_gt_of_ne hne with q | q
            · exact z _ _ q (List.getElem?_eq_some_iff.1 hp).1 (h3.trans hp.symm)
            · exact z _ _ q l1 (hp.trans h3.symm))
        have h5 := b.uses e.pid (.inr ⟨e, he, rfl⟩)
        rw [h4] at h5
        rcases h5 with h5 | h5 | h5
        · exact hh.1 h5.symm
        · exact ht.1 h5.symm
        · rw [List.nodup_append] at hd
          exact hd.2.2 pid h5 pid (by simp) rfl
      have h5 := k4 hne
      have e1 : entered (s.emit (.enterPoint pid)).trace = entered s.trace + 1 := by
        simp [St.emit, entered]
      constructor
      · rw [k3]; exact hcnt.log.cons hcnt.now
      · rw [h5, k3, e1]
        have := hcnt.now
        show s.snap.size + 2 = _
        omega

/-- The start of a run. -/
theorem initState_base {c : Ctx} {s : St} (h : initState c = .ok s) : ∃ p0, c.ySorted[0]? = some p0 ∧
    Base c [p0] s ∧ Cnt s ∧ s.trace = [] := by
  simp only [initState, bind_ok, unwrap_ok, pure_ok, Except.ok.injEq] at h
  obtain ⟨p0, h0, f, hf, rfl⟩ := h
  refine ⟨p0, h0, ?_⟩
  simp only [Front.new, bind_ok, pure_ok, Except.ok.injEq] at hf
  obtain ⟨a, ha, b, hb, d, hd, rfl⟩ := hf
  have get : ∀ {i : Nat} {p : Point}, (match c.points[i]? with | some p => Except.ok p | none => .error (.panic "should not fail")) = (.ok p : Except Err Point) →
      c.points[i]? = some p := by
    intro i p h; split at h <;> simp_all
  have ha := get ha
  have hb := get hb
  have hd := get hd
  have hperm := sortBy_perm (lt := fun a b : Node => keyCmp a.key b.key == .lt)
    [⟨a, (Tri.new p0 c.head c.tail).points.b, some 0⟩, ⟨b, (Tri.new p0 c.head c.tail).points.a, some 0⟩, ⟨d, (Tri.new p0 c.head c.tail).points.c, none⟩]
  have hsub : ∀ x ∈ sortBy (fun a b : Node => keyCmp a.key b.key == .lt)
    [⟨a, (Tri.new p0 c.head c.tail).points.b, some 0⟩, ⟨b, (Tri.new p0 c.head c.tail).points.a, some 0⟩, ⟨d, (Tri.new p0 c.head c.tail).points.c, none⟩],
     c.points[x.pid]? = some x.key ∧ (x.pid = c.head ∨ x.pid = c.tail ∨ x.pid = p0) := by
    intro x hx
    have := hperm.subset hx
    simp only [List.mem_cons, List.not_mem_nil, or_false] at this
    rcases this with rfl | rfl | rfl
    · exact ⟨ha, .inl rfl⟩
    · exact ⟨hb, .inr (.inr rfl)⟩
    · exact ⟨hd, .inr (.inl rfl)⟩
  refine ⟨⟨rfl, by simp [Tri.new], ?_, ?_⟩, ⟨.nil, ?_⟩, rfl⟩
  · rintro v (⟨T, hT, hv⟩ | ⟨e, he, rfl⟩)
    · simp only [List.mem_singleton] at hT; subst hT
      simp only [Tri.corners, Tri.new, List.mem_cons, List.not_mem_nil, or_false] at hv
      rw [List.mem_singleton]; tauto
    · rw [List.mem_singleton]; exact (hsub e he).2
  · intro x hx
    simp only [Front.shape, List.mem_map] at hx
    obtain ⟨e, he, rfl⟩ := hx
    exact (hsub e he).1
  · have := hperm.length_eq
    simp only [Snap.size, St.snap, entered, List.filter_nil, List.length_nil, List.length_singleton] at this ⊢
    rw [this]; rfl

theorem iterByY_ok {c : Ctx} {o : Nat} {l} (h : c.iterByY o = .ok l) :
    l.map (·.1) = c.ySorted.drop o ∧ ∀ x ∈ l, c.points[x.1]? = some x.2.1 ∧ c.edges[x.1]? = some x.2.2 := by
  unfold Ctx.iterByY at h
  generalize c.ySorted.drop o = ids at h
  induction ids generalizing l with
  | nil => simp only [List.mapM_nil, pure_ok, Except.ok.injEq] at h; subst h; simp
  | cons i ids ih =>
    simp only [List.mapM_cons, bind_ok, pure_ok, Except.ok.injEq] at h
    obtain ⟨x, ⟨p, hp, hx⟩, l', hl', rfl⟩ := h
    have hp' : c.points[i]? = some p := by unfold Ctx.pt at hp; split at hp <;> simp_all
    split at hx
    · rename_i e he
      cases hx
      obtain ⟨k1, k2⟩ := ih hl'
      refine ⟨by simp [k1], ?_⟩
      intro x hx
      rcases List.mem_cons.1 hx with rfl | hx
      · exact ⟨hp', he⟩
      · exact k2 x hx
    · cases hx

/-- A whole run. -/
theorem runG_ok {D} {g : Trap} {fuel : Nat} {cdt : CDT D} {t s} (h : cdt.runG g fuel = .ok (t, s)) :
    ∃ s0 s1 s2 items, initState cdt.points = .ok s0 ∧ cdt.points.iterByY 1 = .ok items ∧
      sweepLoop g cdt.points fuel items s0 = .ok s1 ∧ finalizePolygon fuel (s1.emit .sweepDone) = .ok s2 ∧
      s = s2.emit .finalized ∧ t = ⟨cdt.points, cdt.data, s.tris, s.result, 0⟩ := by
  simp only [CDT.runG, sweepPoints, bind_ok, pure_ok, Except.ok.injEq, Prod.mk.injEq] at h
  obtain ⟨s0, h0, s1, ⟨items, hi, h1⟩, s2, h2, rfl, rfl⟩ := h
  exact ⟨s0, s1, s2, items, h0, hi, h1, h2, rfl, rfl⟩

theorem finalize_trace {fuel : Nat} {s s' : St} (h : finalizePolygon fuel s = .ok s') :
    s'.trace = s.trace ∧ s'.front = s.front ∧ (s'.tris = s.tris ∧ s'.result = s.result ∨
      ∃ node t0 t, s.front.nth 1 = some node ∧ node.tri = some t0 ∧ findInterior s.tris node.pid fuel (some t0) = .ok (some t) ∧
        cleanMesh fuel s.tris s.result [(some t, none)] = .ok (s'.tris, s'.result)) := by
  unfold finalizePolygon at h
  split at h
  · simp only [pure_ok, Except.ok.injEq] at h; subst h; exact ⟨rfl, rfl, .inl ⟨rfl, rfl⟩⟩
  · rename_i node hn
    split at h
    · simp only [pure_ok, Except.ok.injEq] at h; subst h; exact ⟨rfl, rfl, .inl ⟨rfl, rfl⟩⟩
    · rename_i t0 ht0
      simp only [bind_ok] at h
      obtain ⟨o, ho, h⟩ := h
      cases o with
      | none => simp only [pure_ok, Except.ok.injEq] at h; subst h; exact ⟨rfl, rfl, .inl ⟨rfl, rfl⟩⟩
      | some t =>
        simp only [bind_ok, pure_ok, Except.ok.injEq] at h
        obtain ⟨⟨ts, res⟩, h1, rfl⟩ := h
        exact ⟨rfl, rfl, .inr ⟨node, t0, t, hn, ht0, ho, h1⟩⟩

end P2T
