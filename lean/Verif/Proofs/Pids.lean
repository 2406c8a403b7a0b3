import Verif.Proofs.Legalize

/-!
# The front as a list of point numbers
-/

set_option linter.unusedSectionVars false

namespace P2T

/-- The points of the front, left to right. -/
def Front.pids (f : Front) : List Nat := f.nodes.map (·.pid)

theorem Front.pids_shape {f f' : Front} (h : f'.shape = f.shape) : f'.pids = f.pids := by
  have := congrArg (List.map Prod.snd) h
  simpa [Front.shape, Front.pids, Function.comp_def] using this

/-- Handle of point `p`. -/
def IdFor (c : Ctx) (id : NodeId) (p : Nat) : Prop := id.pid = p ∧ id.pt = c.pos p

/-- `r` is the front node of `p`, between `L` and `R`. -/
structure RefFor (c : Ctx) (f : Front) (r : NodeRef) (L : List Nat) (p : Nat) (R : List Nat) : Prop where
  split : f.pids = L ++ p :: R
  pid : r.pid = p
  pt : r.pt = c.pos p
  idx : r.idx = L.length
  node : ∃ L' e R', f.nodes = L' ++ e :: R' ∧ L'.map (·.pid) = L ∧ e.pid = p ∧ R'.map (·.pid) = R ∧ r = e.toRef L'.length

theorem RefFor.id {c f r L p R} (h : RefFor c f r L p R) : IdFor c r.id p := ⟨h.pid, h.pt⟩

section
variable {c : Ctx} {f : Front} (h : FOk c f)
include h

theorem FOk.ascP : f.pids.Pairwise fun a b => keyLt (c.pos a) (c.pos b) := by
  unfold Front.pids
  rw [List.pairwise_map]
  refine List.Pairwise.imp_of_mem ?_ h.asc
  intro a b ha hb hab
  rw [(h.keys a ha).2, (h.keys b hb).2] at hab
  exact hab

theorem FOk.pids_lt {p : Nat} (hp : p ∈ f.pids) : p < c.points.length := by
  simp only [Front.pids, List.mem_map] at hp
  obtain ⟨e, he, rfl⟩ := hp
  exact (h.keys e he).1

theorem FOk.nodes_split {L R : List Nat} {p : Nat} (hs : f.pids = L ++ p :: R) :
    ∃ L' e R', f.nodes = L' ++ e :: R' ∧ L'.map (·.pid) = L ∧ e.pid = p ∧ R'.map (·.pid) = R := by
  unfold Front.pids at hs
  rw [List.map_eq_append_iff] at hs
  obtain ⟨L', X, e1, e2, e3⟩ := hs
  rw [List.map_eq_cons_iff] at e3
  obtain ⟨e, R', rfl, e4, e5⟩ := e3
  exact ⟨L', e, R', e1, e2, e4, e5⟩

theorem FOk.ref {L R : List Nat} {p : Nat} (hs : f.pids = L ++ p :: R) :
    ∃ r, RefFor c f r L p R ∧ f.nth L.length = some r := by
  obtain ⟨L', e, R', e1, e2, e3, e4⟩ := h.nodes_split hs
  refine ⟨e.toRef L'.length, ⟨hs, e3, ?_, ?_, ⟨L', e, R', e1, e2, e3, e4, rfl⟩⟩, ?_⟩
  · have := h.key e1; rw [e3] at this; exact this
  · simp [Node.toRef, ← e2]
  · rw [← e2, List.length_map]; exact h.nth e1

theorem FOk.pGetId {L R : List Nat} {p : Nat} (hs : f.pids = L ++ p :: R) {id : NodeId} (hid : IdFor c id p) :
    ∃ r, f.getNodeWithId id = some r ∧ RefFor c f r L p R := by
  obtain ⟨L', e, R', e1, e2, e3, e4⟩ := h.nodes_split hs
  obtain ⟨r, hr, hn⟩ := h.ref hs
  refine ⟨r, ?_, hr⟩
  rw [h.getNodeWithId e1 (by rw [hid.1, e3]) (by rw [hid.2, h.key e1, e3]), ← hn, ← e2, List.length_map, h.nth e1]

theorem FOk.pGet {L R : List Nat} {p : Nat} (hs : f.pids = L ++ p :: R) :
    ∃ r, f.getNode (c.pos p) = .ok (some r) ∧ RefFor c f r L p R := by
  obtain ⟨L', e, R', e1, e2, e3, e4⟩ := h.nodes_split hs
  obtain ⟨r, hr, hn⟩ := h.ref hs
  refine ⟨r, ?_, hr⟩
  have := h.getNode e1
  rw [h.key e1, e3] at this
  rw [this, ← hn, ← e2, List.length_map, h.nth e1]

theorem FOk.pNext {r : NodeRef} {L R : List Nat} {p x : Nat} (hr : RefFor c f r L p (x :: R)) :
    ∃ r', f.next r = some r' ∧ RefFor c f r' (L ++ [p]) x R := by
  have hs : f.pids = (L ++ [p]) ++ x :: R := by rw [hr.split]; simp
  obtain ⟨r', h1, h2⟩ := h.ref hs
  refine ⟨r', ?_, h1⟩
  unfold Front.next
  rw [hr.idx, ← h2]; simp

theorem FOk.pNext_nil {r : NodeRef} {L : List Nat} {p : Nat} (hr : RefFor c f r L p []) : f.next r = none := by
  unfold Front.next Front.nth
  have : f.nodes.length = L.length + 1 := by
    have := congrArg List.length hr.split
    simpa [Front.pids] using this
  rw [hr.idx, List.getElem?_eq_none (by omega)]
  rfl

theorem FOk.pPrev {r : NodeRef} {L R : List Nat} {p x : Nat} (hr : RefFor c f r (L ++ [x]) p R) :
    ∃ r', f.prev r = some r' ∧ RefFor c f r' L x (p :: R) := by
  have hs : f.pids = L ++ x :: p :: R := by rw [hr.split]; simp
  obtain ⟨r', h1, h2⟩ := h.ref hs
  refine ⟨r', ?_, h1⟩
  unfold Front.prev
  rw [hr.idx]; simp [h2]

theorem FOk.pPrev_nil {r : NodeRef} {R : List Nat} {p : Nat} (hr : RefFor c f r [] p R) : f.prev r = none := by
  unfold Front.prev
  simp [hr.idx]

theorem FOk.pResolve {L R : List Nat} {p : Nat} (hs : f.pids = L ++ p :: R) {id : NodeId} (hid : IdFor c id p) :
    f.resolve id = .ok L.length := by
  obtain ⟨L', e, R', e1, e2, e3, e4⟩ := h.nodes_split hs
  rw [h.resolve e1 (by rw [hid.1, e3]) (by rw [hid.2, h.key e1, e3]), ← e2, List.length_map]

theorem FOk.pLocNext {L R : List Nat} {p x : Nat} (hs : f.pids = L ++ p :: x :: R) {id : NodeId} (hid : IdFor c id p) :
    ∃ r, f.locateNext id = some r ∧ RefFor c f r (L ++ [p]) x R := by
  obtain ⟨r, h1, h2⟩ := h.ref (L := L ++ [p]) (p := x) (R := R) (by simp [hs])
  refine ⟨r, ?_, h1⟩
  simp only [Front.locateNext, h.pResolve hs hid, ← h2]; simp

theorem FOk.pLocNext_nil {L : List Nat} {p : Nat} (hs : f.pids = L ++ [p]) {id : NodeId} (hid : IdFor c id p) :
    f.locateNext id = none := by
  simp only [Front.locateNext, h.pResolve hs hid]
  obtain ⟨r, h1, h2⟩ := h.ref hs
  have := h.pNext_nil h1
  rwa [Front.next, h1.idx] at this

theorem FOk.pLocPrev {L R : List Nat} {p x : Nat} (hs : f.pids = (L ++ [x]) ++ p :: R) {id : NodeId} (hid : IdFor c id p) :
    ∃ r, f.locatePrev id = some r ∧ RefFor c f r L x (p :: R) := by
  obtain ⟨r, h1, h2⟩ := h.ref (L := L) (p := x) (R := p :: R) (by simp [hs])
  refine ⟨r, ?_, h1⟩
  simp only [Front.locatePrev, h.pResolve hs hid, ← h2]; simp

theorem FOk.pLocPrev_nil {R : List Nat} {p : Nat} (hs : f.pids = p :: R) {id : NodeId} (hid : IdFor c id p) :
    f.locatePrev id = none := by
  simp [Front.locatePrev, h.pResolve (L := []) hs hid]

/-- Searching a key that is between `L` and `R`. -/
theorem FOk.pSearch_miss {L R : List Nat} (hs : f.pids = L ++ R) {k : Point} (hL : ∀ a ∈ L, keyLt (c.pos a) k)
    (hR : ∀ a ∈ R, keyLt k (c.pos a)) : f.searchByKey k = .error L.length := by
  unfold Front.pids at hs
  rw [List.map_eq_append_iff] at hs
  obtain ⟨L', R', e1, e2, e3⟩ := hs
  unfold Front.searchByKey
  rw [e1, ← e2, List.length_map]
  refine search_miss ?_ ?_
  · intro x hx
    rw [(h.keys x (by simp [e1, hx])).2]
    exact hL _ (by rw [← e2]; exact List.mem_map_of_mem hx)
  · intro x hx
    rw [(h.keys x (by simp [e1, hx])).2]
    exact hR _ (by rw [← e3]; exact List.mem_map_of_mem hx)

/-- Looking left of a node that is no longer on the front. -/
theorem FOk.pLocPrev_gone {L R : List Nat} {x p : Nat} (hs : f.pids = (L ++ [x]) ++ R) {id : NodeId} (hid : IdFor c id p)
    (hp : p ∉ f.pids) (hL : ∀ a ∈ L ++ [x], keyLt (c.pos a) (c.pos p)) (hR : ∀ a ∈ R, keyLt (c.pos p) (c.pos a)) :
    ∃ r, f.locatePrev id = some r ∧ RefFor c f r L x R := by
  obtain ⟨r, h1, h2⟩ := h.ref (L := L) (p := x) (R := R) (by simp [hs])
  refine ⟨r, ?_, h1⟩
  have : f.resolve id = .error (L ++ [x]).length := by
    rw [resolve_eq h.asc, hid.2]
    · exact h.pSearch_miss hs hL hR
    · intro e he hpid
      exact (hp (by rw [← hid.1, ← hpid]; exact List.mem_map_of_mem he)).elim
  simp only [Front.locatePrev, this, ← h2]; simp

theorem FOk.pLocPrev_gone_nil {R : List Nat} {p : Nat} (hs : f.pids = R) {id : NodeId} (hid : IdFor c id p)
    (hp : p ∉ f.pids) (hR : ∀ a ∈ R, keyLt (c.pos p) (c.pos a)) : f.locatePrev id = none := by
  have : f.resolve id = .error 0 := by
    rw [resolve_eq h.asc, hid.2]
    · exact h.pSearch_miss (L := []) hs (by simp) hR
    · intro e he hpid
      exact (hp (by rw [← hid.1, ← hpid]; exact List.mem_map_of_mem he)).elim
  simp [Front.locatePrev, this]

theorem FOk.nodupP : f.pids.Nodup := h.nodup

theorem FOk.headP : ∃ l, f.pids = c.head :: l := by
  obtain ⟨e, l, h1, h2⟩ := h.first
  exact ⟨l.map (·.pid), by simp [Front.pids, h1, h2]⟩

theorem FOk.tailP : ∃ l, f.pids = l ++ [c.tail] := by
  obtain ⟨e, l, h1, h2⟩ := h.last
  exact ⟨l.map (·.pid), by simp [Front.pids, h1, h2]⟩

end

/-- A front node that is not the last one knows its triangle. -/
theorem RefFor.tri {c : Ctx} {f : Front} {r : NodeRef} {L R : List Nat} {p x : Nat} (hr : RefFor c f r L p (x :: R)) {ts : Store}
    (b : BInv c (fun _ _ => False) ts f.nodes) : ∃ t, r.tri = some t ∧ Bd ts t x p := by
  obtain ⟨L', e, R', h1, h2, h3, h4, rfl⟩ := hr.node
  rw [List.map_eq_cons_iff] at h4
  obtain ⟨y, R'', rfl, h5, h6⟩ := h4
  have := fedges_of_split L' e y R''
  rw [← h1] at this
  obtain ⟨t, k1, k2⟩ := b.fr this
  rw [h3, h5] at k1
  exact ⟨t, k2.resolve_right (fun h => h), k1⟩

end P2T
