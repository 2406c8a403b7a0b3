import Verif.Proofs.FrontOps
import Mathlib.Data.List.TakeWhile

/-!
# C25: look-ups through the cache or an index hint
-/

namespace P2T

/-- The operations of the front that change it. -/
inductive FrontOp where
  | insert (pid : Nat) (pt : Point) (tid : Nat)
  | updateAndDelete (upd tid del : Nat)
  | updateTriangle (pt : Point) (tid : Nat)
  | lookup (pt : Point)

def FrontOp.apply (f : Front) : FrontOp → Except Err Front
  | .insert pid pt tid => .ok (f.insert pid pt tid)
  | .updateAndDelete u t d => f.updateAndDelete u t d
  | .updateTriangle p t => f.updateTriangle p t
  | .lookup p => do let (f, _) ← f.getNodeWithCache p; pure f

/-- `f` can be reached from a new front over three different points by a sequence of successful operations. -/
inductive FrontReach (c : Ctx) : Front → Prop
  | new {T tid f} : Front.new T tid c = .ok f → c.points.Nodup → T.points.a ≠ T.points.b → T.points.b ≠ T.points.c →
      T.points.a ≠ T.points.c → FrontReach c f
  | op {f f' o} : FrontReach c f → FrontOp.apply f o = .ok f' → FrontReach c f'

theorem FrontReach.inv {c : Ctx} {f : Front} (h : FrontReach c f) : Asc f.nodes ∧ Coherent f := by
  induction h with
  | new h hp h1 h2 h3 =>
    obtain ⟨k, hc, -⟩ := front_new h hp h1 h2 h3
    exact ⟨k, fun p i hpi => by rw [hc] at hpi; cases hpi⟩
  | @op f f' o _ e ih =>
    cases o with
    | insert pid pt tid => cases e; exact insert_asc ih.1 ..
    | updateAndDelete u t d => exact updateAndDelete_asc ih.1 e
    | updateTriangle p t => exact updateTriangle_asc ih.1 ih.2 e
    | lookup p =>
      simp only [FrontOp.apply, bind_ok, pure_ok, Except.ok.injEq] at e
      obtain ⟨⟨f2, r⟩, e, rfl⟩ := e
      exact getNodeWithCache_asc ih.1 ih.2 e

/-- The position of a key, said without any search: the node at `i` has it. -/
def IsAt (f : Front) (k : Point) (i : Nat) : Prop := ∃ e, f.nodes[i]? = some e ∧ e.key = k

/-- **C25.**  After any sequence of front operations, a look-up through the cache gives the answer of a plain
search for every key between the two ends of the front (the look-up never goes wrong), and the plain search
finds the one node with the key, if there is one. -/
theorem C25_cache {c : Ctx} {f : Front} (h : FrontReach c f) {k : Point} (hr : InRange f k) :
    f.searchByKeyWithCache k = .ok (f.searchByKey k) ∧
    (∀ i, f.searchByKey k = .ok i ↔ IsAt f k i) := by
  obtain ⟨ha, hc⟩ := h.inv
  refine ⟨search_cache ha hc hr, fun i => ⟨fun h => binSearch_ok h, ?_⟩⟩
  rintro ⟨e, he, rfl⟩
  exact asc_search_at ha he

/-- `get_node` and `get_node_with_cache` return the node with that key, or nothing if there is none. -/
theorem C25_get_node {c : Ctx} {f : Front} (h : FrontReach c f) {k : Point} (hr : InRange f k) :
    (∀ (i : Nat) (e : Node), f.nodes[i]? = some e → e.key = k → f.getNode k = .ok (some (e.toRef i)) ∧
      ∃ f', f.getNodeWithCache k = .ok (f', some (e.toRef i)) ∧ f'.nodes = f.nodes) ∧
    ((∀ e ∈ f.nodes, e.key ≠ k) → f.getNode k = .ok none ∧ f.getNodeWithCache k = .ok (f, none)) := by
  obtain ⟨h1, h2⟩ := C25_cache h hr
  constructor
  · intro i e he hk
    have := (h2 i).2 ⟨e, he, hk⟩
    rw [this] at h1
    simp [Front.getNode, Front.getNodeWithCache, h1, Front.nth, he]
  · intro hn
    cases hs : f.searchByKey k with
    | ok i =>
      obtain ⟨e, he, hk⟩ := (h2 i).1 hs
      exact (hn e (List.mem_of_getElem? he) hk).elim
    | error i =>
      rw [hs] at h1
      simp [Front.getNode, Front.getNodeWithCache, h1]

/-- A node id may carry any index hint, stale or not: the answer is the one of a plain search for its point,
provided the front has no other key under that point id. -/
theorem C25_hint {c : Ctx} {f : Front} (h : FrontReach c f) {pid : Nat} {pt : Point}
    (hid : ∀ e ∈ f.nodes, e.pid = pid → e.key = pt) (hint hint' : Nat) :
    f.resolve ⟨pid, pt, hint⟩ = f.searchByKey pt ∧
    f.getNodeWithId ⟨pid, pt, hint⟩ = f.getNodeWithId ⟨pid, pt, hint'⟩ ∧
    f.locateNext ⟨pid, pt, hint⟩ = f.locateNext ⟨pid, pt, hint'⟩ ∧
    f.locatePrev ⟨pid, pt, hint⟩ = f.locatePrev ⟨pid, pt, hint'⟩ := by
  obtain ⟨ha, -⟩ := h.inv
  have e1 := resolve_eq ha (id := ⟨pid, pt, hint⟩) hid
  have e2 := resolve_eq ha (id := ⟨pid, pt, hint'⟩) hid
  refine ⟨e1, ?_, ?_, ?_⟩ <;> simp only [Front.getNodeWithId, Front.locateNext, Front.locatePrev, e1, e2]

theorem search_split {nodes : List Node} (ha : Asc nodes) (k : Point) :
    (∃ L e R, nodes = L ++ e :: R ∧ e.key = k ∧ binSearch nodes k = .ok L.length) ∨
    (∃ L R, nodes = L ++ R ∧ (∀ x ∈ L, keyLt x.key k) ∧ (∀ x ∈ R, keyLt k x.key) ∧ binSearch nodes k = .error L.length) := by
  have e : nodes.takeWhile (fun e => keyCmp e.key k == .lt) ++ nodes.dropWhile (fun e => keyCmp e.key k == .lt) = nodes :=
    List.takeWhile_append_dropWhile
  have h1 : ∀ x ∈ nodes.takeWhile (fun e => keyCmp e.key k == .lt), keyLt x.key k := by
    intro x hx
    have := List.mem_takeWhile_imp hx
    exact keyCmp_lt.1 (by simpa using this)
  unfold binSearch
  generalize hL : nodes.takeWhile (fun e => keyCmp e.key k == .lt) = L at *
  cases hR : nodes.dropWhile (fun e => keyCmp e.key k == .lt) with
  | nil =>
    rw [hR] at e
    right
    refine ⟨L, [], e.symm, h1, by simp, ?_⟩
    have : nodes[L.length]? = none := by rw [← e]; simp
    simp only [this]
  | cons y R =>
    rw [hR] at e
    have hy : ¬ keyLt y.key k := by
      have := List.head_dropWhile_not (p := fun e : Node => keyCmp e.key k == .lt) (by rw [hR]; simp : nodes.dropWhile _ ≠ [])
      simp only [hR, List.head_cons] at this
      intro hk
      rw [keyCmp_lt.2 hk] at this; simp at this
    have hn : nodes[L.length]? = some y := by rw [← e]; simp
    simp only [hn]
    by_cases hk : y.key = k
    · left
      refine ⟨L, y, R, e.symm, hk, ?_⟩
      have : keyCmp y.key k = .eq := by rw [hk]; simp [keyCmp, cmpRat]
      simp only [this, if_true]
    · right
      have hlt : keyLt k y.key := (keyLt_total hk).resolve_left hy
      refine ⟨L, y :: R, e.symm, h1, ?_, ?_⟩
      · intro x hx
        rcases List.mem_cons.1 hx with rfl | hx
        · exact hlt
        · rw [← e] at ha
          exact keyLt_trans hlt ((asc_split ha).2 x hx)
      · have : keyCmp y.key k ≠ .eq := fun h => hk (keyCmp_eq h)
        simp only [this, if_false]

/-- `r` is the node that comes first among those after `k`. -/
def FirstAfter (f : Front) (k : Point) (r : NodeRef) : Prop :=
  ∃ e, f.nodes[r.idx]? = some e ∧ r = e.toRef r.idx ∧ keyLt k e.key ∧ ∀ x ∈ f.nodes, keyLt k x.key → x = e ∨ keyLt e.key x.key

/-- `r` is the node that comes last among those before `k`. -/
def LastBefore (f : Front) (k : Point) (r : NodeRef) : Prop :=
  ∃ e, f.nodes[r.idx]? = some e ∧ r = e.toRef r.idx ∧ keyLt e.key k ∧ ∀ x ∈ f.nodes, keyLt x.key k → x = e ∨ keyLt x.key e.key

/-- **C25.**  The neighbours of a node, whether it is still on the front or not: `locate_next_node` gives the
first node after its point and `locate_prev_node` the last one before it. -/
theorem C25_neighbours {c : Ctx} {f : Front} (h : FrontReach c f) {id : NodeId}
    (hid : ∀ e ∈ f.nodes, e.pid = id.pid → e.key = id.pt) :
    (match f.locateNext id with
      | some r => FirstAfter f id.pt r
      | none => ∀ x ∈ f.nodes, ¬ keyLt id.pt x.key) ∧
    (match f.locatePrev id with
      | some r => LastBefore f id.pt r
      | none => ∀ x ∈ f.nodes, ¬ keyLt x.key id.pt) := by
  obtain ⟨ha, -⟩ := h.inv
  have e1 := resolve_eq ha (id := id) hid
  have first : ∀ L R, f.nodes = L ++ R → (∀ x ∈ L, ¬ keyLt id.pt x.key) → (∀ x ∈ R, keyLt id.pt x.key) →
      (match f.nth L.length with
      | some r => FirstAfter f id.pt r
      | none => ∀ x ∈ f.nodes, ¬ keyLt id.pt x.key) := by
    intro L R e hL hR
    cases R with
    | nil =>
      have : f.nth L.length = none := by simp [Front.nth, e]
      rw [this]; intro x hx; rw [e] at hx; exact hL x (by simpa using hx)
    | cons y R =>
      have : f.nth L.length = some (y.toRef L.length) := by simp [Front.nth, e]
      rw [this]
      refine ⟨y, by simp [e, Node.toRef], rfl, hR y (by simp), fun x hx hk => ?_⟩
      rw [e] at hx
      rcases List.mem_append.1 hx with k | k
      · exact (hL x k hk).elim
      · rcases List.mem_cons.1 k with k | k
        · exact .inl k
        · rw [e] at ha; exact .inr ((asc_split ha).2 x k)
  have last : ∀ L R, f.nodes = L ++ R → (∀ x ∈ L, keyLt x.key id.pt) → (∀ x ∈ R, ¬ keyLt x.key id.pt) →
      (match (if L.length > 0 then f.nth (L.length - 1) else none) with
      | some r => LastBefore f id.pt r
      | none => ∀ x ∈ f.nodes, ¬ keyLt x.key id.pt) := by
    intro L R e hL hR
    rcases List.eq_nil_or_concat L with rfl | ⟨L, y, rfl⟩
    · simp only [List.length_nil, Nat.lt_irrefl, if_false, gt_iff_lt]
      intro x hx; rw [e] at hx; exact hR x (by simpa using hx)
    · have : f.nth ((L.concat y).length - 1) = some (y.toRef L.length) := by simp [Front.nth, e]
      rw [this]
      simp only [List.length_concat, Nat.zero_lt_succ, if_true, gt_iff_lt]
      refine ⟨y, by simp [e, Node.toRef], rfl, hL y (by simp), fun x hx hk => ?_⟩
      rw [e] at hx
      rcases List.mem_append.1 hx with k | k
      · rw [List.concat_eq_append] at k
        rcases List.mem_append.1 k with k | k
        · rw [e, List.concat_eq_append, List.append_assoc] at ha
          exact .inr ((asc_split ha).1 x k)
        · exact .inl (by simpa using k)
      · exact (hR x k hk).elim
  rcases search_split ha id.pt with ⟨L, e, R, hn, hk, hs⟩ | ⟨L, R, hn, hL, hR, hs⟩
  · have hs' : f.resolve id = .ok L.length := e1.trans hs
    have as := hn ▸ ha
    have k1 := (asc_split as).1
    have k2 := (asc_split as).2
    rw [hk] at k1 k2
    simp only [Front.locateNext, Front.locatePrev, hs']
    constructor
    · have := first (L ++ [e]) R (by simp [hn]) (fun x hx => ?_) k2
      · simpa using this
      · rcases List.mem_append.1 hx with hx | hx
        · exact keyLt_asymm (k1 x hx)
        · rw [List.mem_singleton.1 hx, hk]; exact keyLt_irrefl _
    · refine last L (e :: R) hn k1 fun x hx => ?_
      rcases List.mem_cons.1 hx with rfl | hx
      · rw [hk]; exact keyLt_irrefl _
      · exact keyLt_asymm (k2 x hx)
  · have hs' : f.resolve id = .error L.length := e1.trans hs
    simp only [Front.locateNext, Front.locatePrev, hs']
    exact ⟨first L R hn (fun x hx => keyLt_asymm (hL x hx)) hR, last L R hn hL fun x hx => keyLt_asymm (hR x hx)⟩

/-- **C25.**  `locate_node` gives the last node at or before a point between the ends of the front. -/
theorem C25_locate {c : Ctx} {f : Front} (h : FrontReach c f) {k : Point} (hne : ∃ x ∈ f.nodes, ¬ keyLt k x.key) :
    ∃ r e, f.locateNode k = .ok r ∧ f.nodes[r.idx]? = some e ∧ r = e.toRef r.idx ∧ ¬ keyLt k e.key ∧
      ∀ x ∈ f.nodes, ¬ keyLt k x.key → x = e ∨ keyLt x.key e.key := by
  obtain ⟨ha, -⟩ := h.inv
  rcases search_split ha k with ⟨L, e, R, hn, hk, hs⟩ | ⟨L, R, hn, hL, hR, hs⟩
  · have as := hn ▸ ha
    refine ⟨e.toRef L.length, e, ?_, by simp [hn, Node.toRef], rfl, by rw [hk]; exact keyLt_irrefl _, fun x hx hx' => ?_⟩
    · have hs' : f.searchByKey k = .ok L.length := hs
      simp [Front.locateNode, hs', Front.nth, hn]
    · rw [hn] at hx
      rcases List.mem_append.1 hx with j | j
      · exact .inr ((asc_split as).1 x j)
      · rcases List.mem_cons.1 j with j | j
        · exact .inl j
        · exact (hx' (hk ▸ (asc_split as).2 x j)).elim
  · rcases List.eq_nil_or_concat L with rfl | ⟨L, y, rfl⟩
    · obtain ⟨x, hx, hx'⟩ := hne
      rw [hn] at hx
      exact (hx' (hR x (by simpa using hx))).elim
    · have hs' : f.searchByKey k = .error (L.length + 1) := by rw [← List.length_concat (a := y)]; exact hs
      refine ⟨y.toRef L.length, y, ?_, by simp [hn, Node.toRef], rfl, keyLt_asymm (hL y (by simp)), fun x hx hx' => ?_⟩
      · simp [Front.locateNode, hs', Front.nth, hn]
      · rw [hn] at hx
        rcases List.mem_append.1 hx with j | j
        · rw [List.concat_eq_append] at j
          rcases List.mem_append.1 j with j | j
          · rw [hn, List.concat_eq_append, List.append_assoc] at ha
            exact .inr ((asc_split ha).1 x j)
          · exact .inl (by simpa using j)
        · exact (hx' (hR x j)).elim

/-- A front after an insertion (which fills the cache) and a look-up; hints 0 and 7 agree. -/
example : ∃ c f, FrontReach c f ∧ f.cache = some (⟨3, 5⟩, 2) ∧ InRange f ⟨1, 1⟩ ∧
    f.resolve ⟨0, ⟨1, 1⟩, 7⟩ = .ok 1 ∧ f.nodes.length = 4 := by
  refine ⟨⟨⟨id, 0, 0, 0, 0⟩, [⟨1, 1⟩, ⟨0, 0⟩, ⟨4, 0⟩, ⟨3, 5⟩], [], [], 1, 2⟩,
    ⟨[⟨⟨0, 0⟩, 1, some 0⟩, ⟨⟨1, 1⟩, 0, some 0⟩, ⟨⟨3, 5⟩, 3, some 1⟩, ⟨⟨4, 0⟩, 2, none⟩], some (⟨3, 5⟩, 2)⟩,
    .op (o := .lookup ⟨3, 5⟩) (.op (o := .insert 3 ⟨3, 5⟩ 1) (.new (T := Tri.new 0 1 2) (tid := 0) rfl (by decide)
      (by decide) (by decide) (by decide)) rfl) (by decide +kernel), rfl, ?_, by decide +kernel, rfl⟩
  constructor <;> intro x hx <;> simp at hx <;> subst hx <;> simp [keyLt]

end P2T
