import Verif.Proofs.FlipInv
import Verif.Proofs.FrontOps

/-!
# The advancing front and the open edges of the mesh
-/

namespace P2T

/-- The edges of the front, left to right: left point, triangle recorded, right point. -/
def fedges : List Node → List (Nat × Option Nat × Nat)
  | a :: b :: l => (a.pid, a.tri, b.pid) :: fedges (b :: l)
  | _ => []

@[simp] theorem fedges_nil : fedges [] = [] := rfl
@[simp] theorem fedges_one (a : Node) : fedges [a] = [] := rfl
@[simp] theorem fedges_cons (a b : Node) (l) : fedges (a :: b :: l) = (a.pid, a.tri, b.pid) :: fedges (b :: l) := rfl

theorem fedges_append : ∀ (L : List Node) (a : Node) (R : List Node),
    fedges (L ++ a :: R) = fedges (L ++ [a]) ++ fedges (a :: R)
  | [], a, R => by simp
  | [x], a, R => by simp
  | x :: y :: L, a, R => by
    have := fedges_append (y :: L) a R
    simp only [List.cons_append] at this ⊢
    simp [this]

theorem fedges_snoc_congr : ∀ (L : List Node) (a a' : Node), a.pid = a'.pid → fedges (L ++ [a]) = fedges (L ++ [a'])
  | [], a, a', _ => by simp
  | [x], a, a', h => by simp [h]
  | x :: y :: L, a, a', h => by
    have := fedges_snoc_congr (y :: L) a a' h
    simp only [List.cons_append] at this ⊢
    simp [this]

theorem fedges_mem : ∀ {l : List Node} {a τ b}, (a, τ, b) ∈ fedges l →
    ∃ L x y R, l = L ++ x :: y :: R ∧ x.pid = a ∧ x.tri = τ ∧ y.pid = b
  | [], _, _, _, h => by simp at h
  | [x], _, _, _, h => by simp at h
  | x :: y :: l, a, τ, b, h => by
    simp only [fedges_cons, List.mem_cons, Prod.mk.injEq] at h
    rcases h with ⟨rfl, rfl, rfl⟩ | h
    · exact ⟨[], x, y, l, rfl, rfl, rfl, rfl⟩
    · obtain ⟨L, x', y', R, e, h1, h2, h3⟩ := fedges_mem h
      exact ⟨x :: L, x', y', R, by rw [e]; rfl, h1, h2, h3⟩

theorem fedges_of_split (L : List Node) (x y : Node) (R : List Node) :
    (x.pid, x.tri, y.pid) ∈ fedges (L ++ x :: y :: R) := by
  rw [fedges_append]; simp

structure FOk (c : Ctx) (f : Front) : Prop where
  keys : ∀ e ∈ f.nodes, e.pid < c.points.length ∧ e.key = c.pos e.pid
  asc : Asc f.nodes
  coh : Coherent f
  first : ∃ e l, f.nodes = e :: l ∧ e.pid = c.head
  last : ∃ e l, f.nodes = l ++ [e] ∧ e.pid = c.tail

theorem asc_nodup {c : Ctx} {l : List Node} (hk : ∀ e ∈ l, e.pid < c.points.length ∧ e.key = c.pos e.pid) (h : Asc l) :
    (l.map (·.pid)).Nodup := by
  rw [List.Nodup, List.pairwise_map]
  refine List.Pairwise.imp_of_mem ?_ h
  intro a b ha hb hab e
  rw [(hk a ha).2, (hk b hb).2, e] at hab
  exact keyLt_irrefl _ hab

theorem FOk.nodup {c : Ctx} {f : Front} (h : FOk c f) : (f.nodes.map (·.pid)).Nodup := asc_nodup h.keys h.asc

/-- A point occurs once on the front. -/
theorem nodup_split {L L' : List Node} {x x' : Node} {R R' : List Node} (hn : ((L ++ x :: R).map (·.pid)).Nodup)
    (e : L ++ x :: R = L' ++ x' :: R') (hx : x.pid = x'.pid) : L = L' ∧ x = x' ∧ R = R' := by
  have h1 : (L ++ x :: R)[L.length]? = some x := by simp
  have h2 : (L ++ x :: R)[L'.length]? = some x' := by rw [e]; simp
  have hl : L.length = L'.length := by
    have k1 : ((L ++ x :: R).map (·.pid))[L.length]? = some x.pid := by rw [List.getElem?_map, h1]; rfl
    have k2 : ((L ++ x :: R).map (·.pid))[L'.length]? = some x'.pid := by rw [List.getElem?_map, h2]; rfl
    rw [hx] at k1
    have l1 := (List.getElem?_eq_some_iff.1 k1).1
    exact (List.getElem?_inj l1 hn).1 (k1.trans k2.symm)
  have := List.append_inj e hl
  simp only [List.cons.injEq] at this
  exact ⟨this.1, this.2.1, this.2.2⟩

theorem fedges_uniq {l : List Node} (hn : (l.map (·.pid)).Nodup) {a τ b τ' b'} (h : (a, τ, b) ∈ fedges l)
    (h' : (a, τ', b') ∈ fedges l) : τ = τ' ∧ b = b' := by
  obtain ⟨L, x, y, R, e, h1, h2, h3⟩ := fedges_mem h
  obtain ⟨L', x', y', R', e', h1', h2', h3'⟩ := fedges_mem h'
  rw [e] at hn e'
  obtain ⟨-, rfl, k⟩ := nodup_split hn e' (h1.trans h1'.symm)
  simp only [List.cons.injEq] at k
  exact ⟨h2.symm.trans h2', by rw [← h3, ← h3', k.1]⟩

/-- `P t v`: the front node of `v` may not know yet that `t` is under the edge to its right. -/
structure BInv (c : Ctx) (P : Nat → Nat → Prop) (ts : Store) (nodes : List Node) : Prop where
  fr : ∀ {a τ b}, (a, τ, b) ∈ fedges nodes → ∃ t, Bd ts t b a ∧ (τ = some t ∨ P t a)
  bot : ∃ t, Bd ts t c.head c.tail
  cov : ∀ {t u v}, Bd ts t u v → (u = c.head ∧ v = c.tail) ∨ ∃ τ, (v, τ, u) ∈ fedges nodes ∧ (τ = some t ∨ P t v)
  uniq : ∀ {t t' u v}, Bd ts t u v → Bd ts t' u v → t = t'

namespace BInv
variable {c : Ctx} {P P' : Nat → Nat → Prop} {ts ts' : Store} {nodes : List Node}

theorem mono (h : BInv c P ts nodes) (hP : ∀ {t u v}, Bd ts t u v → P t v → P' t v) : BInv c P' ts nodes := by
  refine ⟨fun k => ?_, h.bot, fun k => ?_, h.uniq⟩
  · obtain ⟨t, h1, h2⟩ := h.fr k
    exact ⟨t, h1, h2.imp id (hP h1)⟩
  · rcases h.cov k with h1 | ⟨τ, h1, h2⟩
    · exact .inl h1
    · exact .inr ⟨τ, h1, h2.imp id (hP k)⟩

theorem congr (h : BInv c P ts nodes) (hb : ∀ t u v, Bd ts' t u v ↔ Bd ts t u v) : BInv c P ts' nodes := by
  refine ⟨?_, ?_, ?_, ?_⟩
  · intro a τ b k; simpa [hb] using h.fr k
  · simpa [hb] using h.bot
  · intro t u v k; exact h.cov ((hb ..).1 k)
  · intro t t' u v k k'; exact h.uniq ((hb ..).1 k) ((hb ..).1 k')

/-- After a flip the two triangles are pending. -/
theorem flip (h : BInv c P ts nodes) {K Q} (m : MeshInv c K Q ts) {F : Flip} (p : F.Pre c.W ts) (r : F.Rel ts ts') :
    BInv c (fun t v => P t v ∨ t = F.t ∨ t = F.ot) ts' nodes := by
  have hb := r.bd p m
  refine ⟨?_, ?_, ?_, fun k k' => r.bd_uniq p m h.uniq k k'⟩
  · intro a τ b k
    obtain ⟨t, h1, h2⟩ := h.fr k
    obtain ⟨t', k1, k2⟩ := hb.1 h1
    refine ⟨t', k1, ?_⟩
    rcases k2 with rfl | ⟨-, k2⟩
    · exact h2.imp id .inl
    · exact .inr (.inr k2)
  · obtain ⟨t, h1⟩ := h.bot
    obtain ⟨t', k1, -⟩ := hb.1 h1
    exact ⟨t', k1⟩
  · intro t u v k
    obtain ⟨t', k1, k2⟩ := hb.2.1 k
    rcases h.cov k1 with h1 | ⟨τ, h1, h2⟩
    · exact .inl h1
    · refine .inr ⟨τ, h1, ?_⟩
      rcases k2 with rfl | ⟨k2, -⟩
      · exact h2.imp id .inl
      · exact .inr (.inr k2)

end BInv

/-! ## Front operations on a split front -/

theorem modify_split {α} (g : α → α) : ∀ (L : List α) (e : α) (R : List α),
    (L ++ e :: R).modify L.length g = L ++ g e :: R
  | [], e, R => by simp
  | x :: L, e, R => by simp [modify_split g L e R]

section split
variable {c : Ctx} {f : Front} (h : FOk c f) {L R : List Node} {e : Node} (hs : f.nodes = L ++ e :: R)
include h hs

theorem FOk.left : ∀ x ∈ L, keyLt x.key e.key := (asc_split (hs ▸ h.asc)).1
theorem FOk.right : ∀ x ∈ R, keyLt e.key x.key := (asc_split (hs ▸ h.asc)).2
theorem FOk.key : e.key = c.pos e.pid := (h.keys e (by simp [hs])).2
theorem FOk.pid_lt : e.pid < c.points.length := (h.keys e (by simp [hs])).1

theorem FOk.search : f.searchByKey e.key = .ok L.length := by
  unfold Front.searchByKey; rw [hs]; exact search_hit (h.left hs)

theorem FOk.inRange : InRange f e.key := by
  have l := h.left hs
  have r := h.right hs
  constructor
  · intro x hx hk
    rw [hs] at hx
    cases L with
    | nil => simp at hx; subst hx; exact keyLt_irrefl _ hk
    | cons y L => simp at hx; subst hx; exact keyLt_asymm (l y (by simp)) hk
  · intro x hx hk
    rw [hs] at hx
    have : x ∈ e :: R := by
      rw [List.getLast?_append] at hx
      simp at hx
      cases R with
      | nil => simp at hx; simp [hx]
      | cons y R => 
        rw [List.getLast?_cons_cons] at hx
        rw [List.getLast?_eq_some_iff] at hx
        obtain ⟨ys, hy⟩ := hx
        simp [hy]
    simp only [List.mem_cons] at this
    rcases this with rfl | hx
    · exact keyLt_irrefl _ hk
    · exact keyLt_asymm (r x hx) hk

theorem FOk.searchC : f.searchByKeyWithCache e.key = .ok (.ok L.length) := by
  rw [search_cache h.asc h.coh (h.inRange hs), h.search hs]

theorem FOk.nth : f.nth L.length = some (e.toRef L.length) := by
  unfold Front.nth; rw [hs]; simp

theorem FOk.getNode : f.getNode e.key = .ok (some (e.toRef L.length)) := by
  simp [Front.getNode, h.searchC hs, h.nth hs]

theorem FOk.getNodeWithCache : f.getNodeWithCache e.key =
    .ok ({ f with cache := some (e.key, L.length) }, some (e.toRef L.length)) := by
  have := h.nth hs
  unfold Front.nth at this
  simp only [Front.getNodeWithCache, h.searchC hs, ok_bind, Front.nth, this]
  rfl

theorem FOk.resolve {id : NodeId} (h1 : id.pid = e.pid) (h2 : id.pt = e.key) : f.resolve id = .ok L.length := by
  rw [resolve_eq h.asc, h2, h.search hs]
  intro x hx hp
  rw [h2, (h.keys x hx).2, hp, h1, h.key hs]

theorem FOk.getNodeWithId {id : NodeId} (h1 : id.pid = e.pid) (h2 : id.pt = e.key) :
    f.getNodeWithId id = some (e.toRef L.length) := by
  simp [Front.getNodeWithId, h.resolve hs h1 h2, h.nth hs]

theorem FOk.next : f.next (e.toRef L.length) = (R.head?).map (·.toRef (L.length + 1)) := by
  unfold Front.next Front.nth
  rw [hs]
  cases R <;> simp [Node.toRef]

theorem FOk.prev : f.prev (e.toRef L.length) = (L.getLast?).map (·.toRef (L.length - 1)) := by
  unfold Front.prev Front.nth
  rcases List.eq_nil_or_concat L with rfl | ⟨L', a, rfl⟩
  · simp [Node.toRef]
  · rw [hs]; simp [Node.toRef]

theorem FOk.locateNext {id : NodeId} (h1 : id.pid = e.pid) (h2 : id.pt = e.key) :
    f.locateNext id = (R.head?).map (·.toRef (L.length + 1)) := by
  simp only [Front.locateNext, h.resolve hs h1 h2]
  exact h.next hs

theorem FOk.locatePrev {id : NodeId} (h1 : id.pid = e.pid) (h2 : id.pt = e.key) :
    f.locatePrev id = (L.getLast?).map (·.toRef (L.length - 1)) := by
  have := h.prev hs
  unfold Front.prev at this
  simp only [Front.locatePrev, h.resolve hs h1 h2, ← this]
  cases L <;> simp [Node.toRef]

/-- Updating the recorded triangle. -/
theorem FOk.setTri (τ : Option Nat) (cache : Option (Point × Nat)) (hc : cache = f.cache ∨ cache = none) :
    FOk c { nodes := L ++ { e with tri := τ } :: R, cache := cache } := by
  have hk : (L ++ { e with tri := τ } :: R).map (·.key) = f.nodes.map (·.key) := by simp [hs]
  refine ⟨?_, (asc_keys hk).2 h.asc, ?_, ?_, ?_⟩
  · intro x hx
    simp only [List.mem_append, List.mem_cons] at hx
    rcases hx with hx | rfl | hx
    · exact h.keys x (by simp [hs, hx])
    · exact h.keys e (by simp [hs])
    · exact h.keys x (by simp [hs, hx])
  · rcases hc with rfl | rfl
    · exact coherent_keys hk h.coh
    · intro p i hp; cases hp
  · obtain ⟨a, l, h1, h2⟩ := h.first
    cases L with
    | nil => rw [hs] at h1; simp at h1; obtain ⟨rfl, rfl⟩ := h1; exact ⟨_, _, rfl, h2⟩
    | cons x L => rw [hs] at h1; simp at h1; obtain ⟨rfl, rfl⟩ := h1; exact ⟨_, _, rfl, h2⟩
  · obtain ⟨a, l, h1, h2⟩ := h.last
    rcases List.eq_nil_or_concat R with rfl | ⟨R', b, rfl⟩
    · rw [hs] at h1
      have := List.append_inj' h1 rfl
      simp at this
      obtain ⟨rfl, rfl⟩ := this
      exact ⟨_, L, rfl, h2⟩
    · rw [hs] at h1
      have h1' : (L ++ e :: R') ++ [b] = l ++ [a] := by simpa using h1
      have := List.append_inj' h1' rfl
      simp at this
      obtain ⟨-, rfl⟩ := this
      exact ⟨b, L ++ { e with tri := τ } :: R', by simp, h2⟩

theorem FOk.updateTriangle (t : Nat) : f.updateTriangle e.key t =
    .ok { f with nodes := L ++ { e with tri := some t } :: R } := by
  have : L.length < f.nodes.length := by rw [hs]; simp
  simp only [Front.updateTriangle, h.searchC hs, ok_bind, this, if_true, pure_ok]
  rw [hs, modify_split]

end split

/-- Telling the front who is under one boundary edge. -/
theorem BInv.upd {c : Ctx} {P : Nat → Nat → Prop} {ts : Store} {f : Front} (h : BInv c P ts f.nodes) (hf : FOk c f)
    {t u v : Nat} (hb : Bd ts t u v) :
    ∃ f', f.updateTriangle (c.pos v) t = .ok f' ∧ FOk c f' ∧ BInv c (fun t' v' => P t' v' ∧ ¬ (t' = t ∧ v' = v)) ts f'.nodes ∧
      f'.shape = f.shape ∧ f'.cache = f.cache := by
  have hn := hf.nodup
  -- the node of `v`
  have : ∃ L e R, f.nodes = L ++ e :: R ∧ e.pid = v ∧ ((u = c.head ∧ R = []) ∨ ∃ y R', R = y :: R' ∧ y.pid = u) := by
    rcases h.cov hb with ⟨h1, rfl⟩ | ⟨τ, h1, -⟩
    · obtain ⟨e, l, h2, h3⟩ := hf.last
      exact ⟨l, e, [], h2, h3, .inl ⟨h1, rfl⟩⟩
    · obtain ⟨L, x, y, R, e, k1, k2, k3⟩ := fedges_mem h1
      exact ⟨L, x, y :: R, e, k1, .inr ⟨y, R, rfl, k3⟩⟩
  obtain ⟨L, e, R, hs, rfl, hR⟩ := this
  refine ⟨_, by rw [← hf.key hs]; exact hf.updateTriangle hs t, hf.setTri hs _ _ (.inl rfl), ?_, ?_, rfl⟩
  · rw [hs] at h hn
    show BInv c _ ts (L ++ { e with tri := some t } :: R)
    -- edges of the new front
    have fe : ∀ {a τ b}, (a, τ, b) ∈ fedges (L ++ { e with tri := some t } :: R) ↔
        ((a, τ, b) ∈ fedges (L ++ e :: R) ∧ a ≠ e.pid) ∨ (a = e.pid ∧ τ = some t ∧ ∃ y R', R = y :: R' ∧ y.pid = b) := by
      intro a τ b
      have hne : (a, τ, b) ∈ fedges (L ++ [e]) → a ≠ e.pid := by
        intro h1 h2
        obtain ⟨L1, x, y, R1, e1, k1, k2, k3⟩ := fedges_mem h1
        have e2 : L ++ e :: R = L1 ++ x :: (y :: R1 ++ R) := by
          have := congrArg (· ++ R) e1; simpa using this
        obtain ⟨rfl, rfl, k⟩ := nodup_split hn e2 (by rw [k1, h2])
        have := congrArg List.length e1
        simp at this
      have hne' : ∀ y R', R = y :: R' → (a, τ, b) ∈ fedges (y :: R') → a ≠ e.pid := by
        rintro y R' rfl h1 h2
        obtain ⟨L1, x, y, R1, e1, k1, k2, k3⟩ := fedges_mem h1
        rw [e1] at hn
        simp only [List.map_append, List.map_cons] at hn
        rw [List.nodup_append] at hn
        have := (List.nodup_cons.1 hn.2.1).1
        simp [k1, h2] at this
      rw [fedges_append, fedges_append L e R, fedges_snoc_congr L { e with tri := some t } e rfl]
      cases R with
      | nil => simp; exact hne
      | cons y R =>
        have := hne' y R rfl
        simp only [fedges_cons, List.mem_append, List.mem_cons, Prod.mk.injEq, List.cons.injEq]
        clear hb hR hs h hn
        constructor
        · rintro (h1 | ⟨rfl, rfl, rfl⟩ | h1)
          · exact .inl ⟨.inl h1, hne h1⟩
          · exact .inr ⟨rfl, rfl, _, _, ⟨rfl, rfl⟩, rfl⟩
          · exact .inl ⟨.inr (.inr h1), this h1⟩
        · rintro (⟨h1 | ⟨rfl, -⟩ | h1, h2⟩ | ⟨rfl, rfl, y', R', ⟨rfl, rfl⟩, rfl⟩)
          · exact .inl h1
          · exact (h2 rfl).elim
          · exact .inr (.inr h1)
          · exact .inr (.inl ⟨rfl, rfl, rfl⟩)
    refine ⟨?_, h.bot, ?_, h.uniq⟩
    · intro a τ b k
      rcases fe.1 k with ⟨k, ka⟩ | ⟨rfl, rfl, y, R', rfl, rfl⟩
      · obtain ⟨t', h1, h2⟩ := h.fr k
        exact ⟨t', h1, h2.imp id fun h3 => ⟨h3, fun h4 => ka h4.2⟩⟩
      · rcases hR with ⟨-, h1⟩ | ⟨y', R'', h1, rfl⟩
        · cases h1
        · cases h1
          exact ⟨t, hb, .inl rfl⟩
    · intro t' u' v' k
      rcases h.cov k with h1 | ⟨τ, h1, h2⟩
      · exact .inl h1
      · right
        by_cases hv : v' = e.pid
        · subst hv
          have h0 : ∃ τ0 y R', R = y :: R' ∧ y.pid = u' ∧ (e.pid, τ0, u') ∈ fedges (L ++ e :: R) := by
            obtain ⟨L1, x, y, R1, e1, k1, k2, k3⟩ := fedges_mem h1
            obtain ⟨-, rfl, k⟩ := nodup_split hn e1 k1.symm
            exact ⟨τ, y, R1, k, k3, h1⟩
          obtain ⟨τ0, y, R', rfl, rfl, h3⟩ := h0
          have htt : t' = t := by
            rcases hR with ⟨-, h4⟩ | ⟨y', R'', h4, rfl⟩
            · cases h4
            · cases h4; exact h.uniq k hb
          subst htt
          exact ⟨some t', fe.2 (.inr ⟨rfl, rfl, y, R', rfl, rfl⟩), .inl rfl⟩
        · exact ⟨τ, fe.2 (.inl ⟨h1, hv⟩), h2.imp id fun h3 => ⟨h3, fun h4 => hv h4.2⟩⟩
  · simp [Front.shape, hs]

theorem mapTriLoop_spec {c : Ctx} {K Q} {ts : Store} (m : MeshInv c K Q ts) {t : Nat} {T : Tri} (hT : ts[t]? = some T) :
    ∀ (l : List (Fin 3)) {P : Nat → Nat → Prop} {f : Front}, BInv c P ts f.nodes → FOk c f →
    ∃ f', mapTriLoop c T t l f = .ok f' ∧ FOk c f' ∧
      BInv c (fun t' v' => P t' v' ∧ ¬ (t' = t ∧ ∃ i ∈ l, T.neighbors.get i = none ∧ T.points.get (i + 2) = v')) ts f'.nodes ∧
      f'.shape = f.shape
  | [], P, f, h, hf => ⟨f, rfl, hf, h.mono (by simp), rfl⟩
  | i :: l, P, f, h, hf => by
    simp only [mapTriLoop]
    cases hn : T.neighbors.get i with
    | some x =>
      obtain ⟨f', h1, h2, h3, h4⟩ := mapTriLoop_spec m hT l h hf
      refine ⟨f', h1, h2, h3.mono ?_, h4⟩
      rintro t' u v - ⟨k1, k2⟩
      refine ⟨k1, fun ⟨q1, j, q2, q3, q4⟩ => k2 ⟨q1, j, ?_, q3, q4⟩⟩
      simp only [List.mem_cons] at q2
      rcases q2 with rfl | q2
      · rw [hn] at q3; cases q3
      · exact q2
    | none =>
      have a := sl_at hT i
      have w := m.wo a
      have d := (oriW c).d3 w
      obtain ⟨n1, n2, e1, e2, hv⟩ := (T.slotAt i).view
      have e1 := hv.pointCw d
      dsimp only
      rw [hn] at a
      obtain ⟨f1, k1, k2, k3, k4, k5⟩ := h.upd hf ⟨_, _, a⟩
      obtain ⟨f', h1, h2, h3, h4⟩ := mapTriLoop_spec m hT l k3 k2
      refine ⟨f', ?_, h2, h3.mono ?_, h4.trans k4⟩
      · simp only [e1, ok_bind, Ctx.pt_ok w.1.2.2, k1, h1]
      · rintro t' u v - ⟨⟨k1, k3⟩, k2⟩
        refine ⟨k1, fun ⟨q1, j, q2, q3, q4⟩ => ?_⟩
        simp only [List.mem_cons] at q2
        rcases q2 with rfl | q2
        · exact k3 ⟨q1, q4.symm⟩
        · exact k2 ⟨q1, j, q2, q3, q4⟩

theorem mapTri_spec {c : Ctx} {K Q} {s : St} (m : MeshInv c K Q s.tris) {t : Nat} (ht : t < s.tris.length)
    {P : Nat → Nat → Prop} (h : BInv c P s.tris s.front.nodes) (hf : FOk c s.front) :
    ∃ f', mapTri c s t = .ok { s with front := f' } ∧ FOk c f' ∧ BInv c (fun t' v' => P t' v' ∧ t' ≠ t) s.tris f'.nodes ∧
      f'.shape = s.front.shape := by
  obtain ⟨T, hT⟩ : ∃ T, s.tris[t]? = some T := ⟨_, List.getElem?_eq_getElem ht⟩
  obtain ⟨f', h1, h2, h3, h4⟩ := mapTriLoop_spec m hT [0, 1, 2] h hf
  refine ⟨f', by simp [mapTri, getU_ok.2 hT, h1], h2, h3.mono ?_, h4⟩
  rintro t' u v ⟨w, e, hb⟩ ⟨k1, k2⟩
  refine ⟨k1, ?_⟩
  rintro rfl
  obtain ⟨T', hT', hsl⟩ := hb
  rw [hT] at hT'; cases hT'
  obtain ⟨i, q1, q2, q3, q4, q5⟩ := hsl.index
  apply k2
  refine ⟨rfl, i, ?_, q4, q3⟩
  match i with
  | 0 | 1 | 2 => simp

theorem mapAll_spec {c : Ctx} {K Q} : ∀ (l : List Nat) {s : St}, MeshInv c K Q s.tris → (∀ t ∈ l, t < s.tris.length) →
    ∀ {P : Nat → Nat → Prop}, BInv c P s.tris s.front.nodes → FOk c s.front →
    ∃ f', mapAll c l s = .ok { s with front := f' } ∧ FOk c f' ∧ BInv c (fun t' v' => P t' v' ∧ t' ∉ l) s.tris f'.nodes ∧
      f'.shape = s.front.shape
  | [], s, m, ht, P, h, hf => ⟨s.front, rfl, hf, h.mono (by simp), rfl⟩
  | t :: l, s, m, ht, P, h, hf => by
    obtain ⟨f1, h1, h2, h3, h4⟩ := mapTri_spec m (ht t (by simp)) h hf
    obtain ⟨f', k1, k2, k3, k4⟩ := mapAll_spec (K := K) (Q := Q) l (s := { s with front := f1 }) m (fun x hx => ht x (by simp [hx])) h3 h2
    refine ⟨f', by simp [mapAll, h1, k1], k2, k3.mono ?_, k4.trans h4⟩
    rintro t' u v - ⟨⟨q1, q2⟩, q3⟩
    exact ⟨q1, by simp [q2, q3]⟩

end P2T
