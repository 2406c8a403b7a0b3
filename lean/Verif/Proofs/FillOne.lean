import Verif.Proofs.Attach

/-!
# Filling one notch of the front, and inserting a point
-/

set_option linter.unusedSectionVars false

namespace P2T

variable {c : Ctx} {K : Prop}

theorem fedges_left {L : List Node} {e : Node} {a τ b} (h : (a, τ, b) ∈ fedges (L ++ [e])) : a ∈ L.map (·.pid) := by
  obtain ⟨L1, x, y, R1, e1, k1, k2, k3⟩ := fedges_mem h
  have : L1 ++ x :: y :: R1 = (L1 ++ x :: (y :: R1).dropLast) ++ [(y :: R1).getLast (by simp)] := by
    simp [List.dropLast_append_getLast]
  rw [this] at e1
  have := List.append_inj' e1 rfl
  rw [this.1]
  simp [k1]

theorem fedges_right {R : List Node} {a τ b} (h : (a, τ, b) ∈ fedges R) : a ∈ R.map (·.pid) := by
  obtain ⟨L1, x, y, R1, rfl, k1, k2, k3⟩ := fedges_mem h
  simp [k1]

/-- Deleting an inner node. -/
theorem FOk.delete {f : Front} (h : FOk c f) {L R : List Node} {p n x : Node} (hs : f.nodes = L ++ p :: n :: x :: R) (t : Nat) :
    f.updateAndDelete L.length t (L.length + 1) = .ok ⟨L ++ { p with tri := some t } :: x :: R, none⟩ ∧
    FOk c ⟨L ++ { p with tri := some t } :: x :: R, none⟩ := by
  constructor
  · have e1 : L ++ { p with tri := some t } :: n :: x :: R = (L ++ [{ p with tri := some t }]) ++ n :: (x :: R) := by simp
    have e2 : (L ++ { p with tri := some t } :: n :: x :: R).eraseIdx (L.length + 1) = L ++ { p with tri := some t } :: x :: R := by
      rw [e1, List.eraseIdx_append_of_length_le (by simp)]
      simp
    simp only [Front.updateAndDelete]
    rw [hs, modify_split, e2]
    simp
  · have h1 := h.setTri hs (some t) none (.inr rfl)
    refine ⟨?_, ?_, (by intro p i hp; cases hp), ?_, ?_⟩
    · intro e he
      refine h1.keys e ?_
      simp only [List.mem_append, List.mem_cons] at he ⊢
      tauto
    · refine List.Pairwise.sublist ?_ h1.asc
      apply List.Sublist.append (List.Sublist.refl _)
      apply List.Sublist.cons_cons
      exact List.sublist_cons_self _ _
    · obtain ⟨a, l, k1, k2⟩ := h1.first
      cases L with
      | nil => simp at k1; obtain ⟨rfl, rfl⟩ := k1; exact ⟨_, _, rfl, k2⟩
      | cons y L => simp at k1; obtain ⟨rfl, rfl⟩ := k1; exact ⟨_, _, rfl, k2⟩
    · obtain ⟨a, l, k1, k2⟩ := h1.last
      have e : ∀ N : Node, L ++ N :: n :: x :: R = (L ++ [N, n]) ++ x :: R := by simp
      have e' : ∀ N : Node, L ++ N :: x :: R = (L ++ [N]) ++ x :: R := by simp
      rcases List.eq_nil_or_concat (x :: R) with q | ⟨R', b, q⟩
      · cases q
      · simp only at k1 ⊢
        rw [e, q] at k1
        rw [e', q]
        have k1' : ((L ++ [{ p with tri := some t }, n]) ++ R') ++ [b] = l ++ [a] := by simpa using k1
        have := List.append_inj' k1' rfl
        simp only [List.cons.injEq, and_true] at this
        rw [this.2]
        exact ⟨a, L ++ [{ p with tri := some t }] ++ R', by simp, k2⟩

/-- Inserting an inner node. -/
theorem FOk.insert {f : Front} (h : FOk c f) {L R : List Node} {p x : Node} (hs : f.nodes = L ++ p :: x :: R) {pid t : Nat}
    (hp : pid < c.points.length) (h1 : keyLt p.key (c.pos pid)) (h2 : keyLt (c.pos pid) x.key) :
    (f.insert pid (c.pos pid) t).nodes = L ++ p :: ⟨c.pos pid, pid, some t⟩ :: x :: R ∧ FOk c (f.insert pid (c.pos pid) t) := by
  have e : L ++ p :: x :: R = (L ++ [p]) ++ (x :: R) := by simp
  have l1 := h.left hs
  have r1 := h.right (L := L ++ [p]) (e := x) (R := R) (by rw [hs]; simp)
  have hsrch : f.searchByKey (c.pos pid) = .error (L ++ [p]).length := by
    unfold Front.searchByKey
    rw [hs, e]
    refine search_miss ?_ ?_
    · intro y hy
      simp only [List.mem_append, List.mem_singleton] at hy
      rcases hy with hy | rfl
      · exact keyLt_trans (l1 y hy) h1
      · exact h1
    · intro y hy
      simp only [List.mem_cons] at hy
      rcases hy with rfl | hy
      · exact h2
      · exact keyLt_trans h2 (r1 y hy)
  have hn : (f.insert pid (c.pos pid) t).nodes = L ++ p :: ⟨c.pos pid, pid, some t⟩ :: x :: R := by
    simp only [Front.insert, hsrch]
    rw [hs, e, List.take_left, List.drop_left]
    simp
  have ia := insert_asc h.asc pid (c.pos pid) t
  refine ⟨hn, ?_, ia.1, ia.2, ?_, ?_⟩
  · intro y hy
    rw [hn] at hy
    simp only [List.mem_append, List.mem_cons] at hy
    rcases hy with hy | rfl | rfl | rfl | hy
    · exact h.keys y (by simp [hs, hy])
    · exact h.keys y (by simp [hs])
    · exact ⟨hp, rfl⟩
    · exact h.keys y (by simp [hs])
    · exact h.keys y (by simp [hs, hy])
  · rw [hn]
    obtain ⟨a, l, k1, k2⟩ := h.first
    rw [hs] at k1
    cases L with
    | nil => simp at k1; obtain ⟨rfl, rfl⟩ := k1; exact ⟨_, _, rfl, k2⟩
    | cons y L => simp at k1; obtain ⟨rfl, rfl⟩ := k1; exact ⟨_, _, rfl, k2⟩
  · rw [hn]
    obtain ⟨a, l, k1, k2⟩ := h.last
    rw [hs] at k1
    rcases List.eq_nil_or_concat (x :: R) with q | ⟨R', b, q⟩
    · cases q
    · rw [q] at k1 ⊢
      have k1' : (L ++ p :: R') ++ [b] = l ++ [a] := by simpa using k1
      have := List.append_inj' k1' rfl
      simp only [List.cons.injEq, and_true] at this
      rw [this.2]
      exact ⟨a, L ++ p :: ⟨c.pos pid, pid, some t⟩ :: R', by simp, k2⟩

/-- The open edges after filling the notch `p n x` with the triangle `t`. -/
theorem BInv.fill {ts ts' : Store} {f : Front} (hf : FOk c f) {L R : List Node} {p n x : Node}
    (hs : f.nodes = L ++ p :: n :: x :: R) (b : BInv c (fun _ _ => False) ts f.nodes) {t t1 t2 : Nat}
    (h1 : Bd ts t1 n.pid p.pid) (h2 : Bd ts t2 x.pid n.pid)
    (hb : ∀ y u v, Bd ts' y u v ↔ (Bd ts y u v ∧ ¬ (y = t1 ∧ u = n.pid ∧ v = p.pid) ∧ ¬ (y = t2 ∧ u = x.pid ∧ v = n.pid)) ∨
      (y = t ∧ u = x.pid ∧ v = p.pid)) :
    BInv c (fun _ _ => False) ts' (L ++ { p with tri := some t } :: x :: R) := by
  have nd := hf.nodup
  rw [hs] at nd b
  have npx : p.pid ≠ x.pid := by
    intro e; simp [List.nodup_append, e] at nd
  have npn : p.pid ≠ n.pid := by
    intro e; simp [List.nodup_append, e] at nd
  have nnx : n.pid ≠ x.pid := by
    intro e; simp [List.nodup_append, e] at nd
  have ndL : ∀ a ∈ L.map (·.pid), a ≠ p.pid ∧ a ≠ n.pid ∧ a ≠ x.pid := by
    intro a ha
    simp only [List.map_append, List.map_cons, List.nodup_append, List.mem_cons] at nd
    have := nd.2.2 a ha
    exact ⟨this _ (by simp), this _ (by simp), this _ (by simp)⟩
  have ndR : ∀ a ∈ (x :: R).map (·.pid), a ≠ p.pid ∧ a ≠ n.pid := by
    intro a ha
    simp only [List.map_append, List.map_cons, List.nodup_append, List.nodup_cons, List.mem_cons, not_or] at nd ha
    obtain ⟨-, ⟨⟨q1, q2, q3⟩, ⟨q4, q5⟩, -⟩, -⟩ := nd
    constructor
    · rintro rfl; rcases ha with ha | ha
      · exact q2 ha
      · exact q3 ha
    · rintro rfl; rcases ha with ha | ha
      · exact q4 ha
      · exact q5 ha
  have fe0 : ∀ {a τ d}, (a, τ, d) ∈ fedges (L ++ p :: n :: x :: R) ↔ (a, τ, d) ∈ fedges (L ++ [p]) ∨
      (a = p.pid ∧ τ = p.tri ∧ d = n.pid) ∨ (a = n.pid ∧ τ = n.tri ∧ d = x.pid) ∨ (a, τ, d) ∈ fedges (x :: R) := by
    intro a τ d
    rw [fedges_append]
    simp
  have fe1 : ∀ {a τ d}, (a, τ, d) ∈ fedges (L ++ { p with tri := some t } :: x :: R) ↔ (a, τ, d) ∈ fedges (L ++ [p]) ∨
      (a = p.pid ∧ τ = some t ∧ d = x.pid) ∨ (a, τ, d) ∈ fedges (x :: R) := by
    intro a τ d
    rw [fedges_append, fedges_snoc_congr L { p with tri := some t } p rfl]
    simp
  -- nobody owned the edge `x → p` before
  have fresh : ∀ y, ¬ Bd ts y x.pid p.pid := by
    intro y hy
    rcases b.cov hy with ⟨q1, q2⟩ | ⟨τ, q, -⟩
    · obtain ⟨e, l, k1, k2⟩ := hf.first
      rw [hs] at k1
      cases L with
      | nil => simp at k1; obtain ⟨rfl, -⟩ := k1; exact npx (k2.trans q1.symm)
      | cons z L =>
        simp at k1; obtain ⟨rfl, -⟩ := k1
        exact (ndL z.pid (by simp)).2.2 (k2.trans q1.symm)
    · rcases fe0.1 q with q | ⟨-, -, q⟩ | ⟨q, -⟩ | q
      · exact (ndL _ (fedges_left q)).1 rfl
      · exact nnx q.symm
      · exact npn q
      · exact (ndR _ (fedges_right q)).1 rfl
  refine ⟨?_, ?_, ?_, ?_⟩
  · intro a τ d k
    have old : (a, τ, d) ∈ fedges (L ++ p :: n :: x :: R) → a ≠ p.pid → a ≠ n.pid → ∃ t, Bd ts' t d a ∧ (τ = some t ∨ False) := by
      intro k n1 n2
      obtain ⟨y, k1, k2⟩ := b.fr k
      exact ⟨y, (hb ..).2 (.inl ⟨k1, fun q => n1 q.2.2, fun q => n2 q.2.2⟩), k2⟩
    rcases fe1.1 k with q | ⟨rfl, rfl, rfl⟩ | q
    · exact old (fe0.2 (.inl q)) (ndL _ (fedges_left q)).1 (ndL _ (fedges_left q)).2.1
    · exact ⟨t, (hb ..).2 (.inr ⟨rfl, rfl, rfl⟩), .inl rfl⟩
    · exact old (fe0.2 (.inr (.inr (.inr q)))) (ndR _ (fedges_right q)).1 (ndR _ (fedges_right q)).2
  · obtain ⟨y, k⟩ := b.bot
    refine ⟨y, (hb ..).2 (.inl ⟨k, ?_, ?_⟩)⟩
    · rintro ⟨-, -, q⟩
      obtain ⟨e, l, k1, k2⟩ := hf.last
      rw [hs] at k1
      have := h1
      have e0 : L ++ p :: n :: x :: R = l ++ e :: [] := k1
      obtain ⟨-, -, k⟩ := nodup_split (L := L) (x := p) (R := n :: x :: R) nd e0 (by rw [k2, q])
      cases k
    · rintro ⟨-, -, q⟩
      obtain ⟨e, l, k1, k2⟩ := hf.last
      rw [hs] at k1
      have e0 : (L ++ [p]) ++ n :: (x :: R) = l ++ e :: [] := by rw [← k1]; simp
      obtain ⟨-, -, k⟩ := nodup_split (L := L ++ [p]) (x := n) (R := x :: R) (by simpa using nd) e0 (by rw [k2, q])
      cases k
  · intro y u v k
    rcases (hb ..).1 k with ⟨k, q1, q2⟩ | ⟨rfl, rfl, rfl⟩
    · rcases b.cov k with q | ⟨τ, q, q'⟩
      · exact .inl q
      · right
        refine ⟨τ, ?_, q'⟩
        rcases fe0.1 q with q | ⟨rfl, rfl, rfl⟩ | ⟨rfl, rfl, rfl⟩ | q
        · exact fe1.2 (.inl q)
        · exact (q1 ⟨b.uniq k h1, rfl, rfl⟩).elim
        · exact (q2 ⟨b.uniq k h2, rfl, rfl⟩).elim
        · exact fe1.2 (.inr (.inr q))
    · exact .inr ⟨some y, fe1.2 (.inr (.inl ⟨rfl, rfl, rfl⟩)), .inl rfl⟩
  · intro y y' u v k k'
    rcases (hb ..).1 k with ⟨k, -, -⟩ | ⟨rfl, rfl, rfl⟩ <;> rcases (hb ..).1 k' with ⟨k', -, -⟩ | ⟨rfl, q1, q2⟩
    · exact b.uniq k k'
    · subst q1 q2; exact (fresh _ k).elim
    · exact (fresh _ k').elim
    · rfl

/-- The open edges after inserting the point `i` over the front edge `p x` with the triangle `t`. -/
theorem BInv.insert {ts ts' : Store} {f : Front} (hf : FOk c f) {L R : List Node} {p x : Node}
    (hs : f.nodes = L ++ p :: x :: R) (b : BInv c (fun _ _ => False) ts f.nodes) {t t1 i : Nat} {k : Point}
    (hi : i ∉ f.pids) (h1 : Bd ts t1 x.pid p.pid)
    (hb : ∀ y u v, Bd ts' y u v ↔ (Bd ts y u v ∧ ¬ (y = t1 ∧ u = x.pid ∧ v = p.pid)) ∨
      (y = t ∧ ((u = x.pid ∧ v = i) ∨ (u = i ∧ v = p.pid)))) :
    BInv c (fun y _ => y = t) ts' (L ++ p :: ⟨k, i, some t⟩ :: x :: R) := by
  have nd := hf.nodup
  unfold Front.pids at hi
  rw [hs] at nd b hi
  simp only [List.map_append, List.map_cons, List.mem_append, List.mem_cons, not_or] at hi
  obtain ⟨hiL, hip, hix, hiR⟩ := hi
  have npx : p.pid ≠ x.pid := by
    intro e; simp [List.nodup_append, e] at nd
  have ndL : ∀ a ∈ L.map (·.pid), a ≠ p.pid ∧ a ≠ x.pid := by
    intro a ha
    simp only [List.map_append, List.map_cons, List.nodup_append, List.mem_cons] at nd
    have := nd.2.2 a ha
    exact ⟨this _ (by simp), this _ (by simp)⟩
  have ndR : ∀ a ∈ (x :: R).map (·.pid), a ≠ p.pid := by
    intro a ha
    simp only [List.map_append, List.map_cons, List.nodup_append, List.nodup_cons, List.mem_cons, not_or] at nd ha
    obtain ⟨-, ⟨⟨q1, q2⟩, -⟩, -⟩ := nd
    rintro rfl
    rcases ha with ha | ha
    · exact q1 ha
    · exact q2 ha
  have fe0 : ∀ {a τ d}, (a, τ, d) ∈ fedges (L ++ p :: x :: R) ↔ (a, τ, d) ∈ fedges (L ++ [p]) ∨
      (a = p.pid ∧ τ = p.tri ∧ d = x.pid) ∨ (a, τ, d) ∈ fedges (x :: R) := by
    intro a τ d
    rw [fedges_append]
    simp
  have fe1 : ∀ {a τ d}, (a, τ, d) ∈ fedges (L ++ p :: ⟨k, i, some t⟩ :: x :: R) ↔ (a, τ, d) ∈ fedges (L ++ [p]) ∨
      (a = p.pid ∧ τ = p.tri ∧ d = i) ∨ (a = i ∧ τ = some t ∧ d = x.pid) ∨ (a, τ, d) ∈ fedges (x :: R) := by
    intro a τ d
    rw [fedges_append]
    simp
  have notHead : x.pid ≠ c.head ∧ i ≠ c.head := by
    obtain ⟨e, l, k1, k2⟩ := hf.first
    rw [hs] at k1
    cases L with
    | nil => simp at k1; obtain ⟨rfl, -⟩ := k1; exact ⟨fun q => npx (k2.trans q.symm), fun q => hip (q.trans k2.symm)⟩
    | cons z L =>
      simp at k1; obtain ⟨rfl, -⟩ := k1
      exact ⟨fun q => (ndL z.pid (by simp)).2 (k2.trans q.symm), fun q => hiL (by simp [q, k2])⟩
  have mem : ∀ {a τ d}, (a, τ, d) ∈ fedges (L ++ p :: x :: R) → a ≠ i ∧ d ≠ i := by
    intro a τ d h
    obtain ⟨L1, y, z, R1, e1, k1, k2, k3⟩ := fedges_mem h
    have : i ∉ (L ++ p :: x :: R).map (·.pid) := by simp [hiL, hip, hix]; simpa using hiR
    rw [e1] at this
    simp only [List.map_append, List.map_cons, List.mem_append, List.mem_cons, not_or] at this
    rw [← k1, ← k3]
    exact ⟨fun q => this.2.1 q.symm, fun q => this.2.2.1 q.symm⟩
  have fresh1 : ∀ y, ¬ Bd ts y x.pid i := by
    intro y hy
    rcases b.cov hy with ⟨q1, q2⟩ | ⟨τ, q, -⟩
    · exact notHead.1 q1
    · exact (mem q).1 rfl
  have fresh2 : ∀ y, ¬ Bd ts y i p.pid := by
    intro y hy
    rcases b.cov hy with ⟨q1, q2⟩ | ⟨τ, q, -⟩
    · exact notHead.2 q1
    · exact (mem q).2 rfl
  refine ⟨?_, ?_, ?_, ?_⟩
  · intro a τ d q
    have old : (a, τ, d) ∈ fedges (L ++ p :: x :: R) → a ≠ p.pid → ∃ y, Bd ts' y d a ∧ (τ = some y ∨ y = t) := by
      intro q n1
      obtain ⟨y, k1, k2⟩ := b.fr q
      exact ⟨y, (hb ..).2 (.inl ⟨k1, fun q => n1 q.2.2⟩), .inl (k2.resolve_right (fun h => h))⟩
    rcases fe1.1 q with q | ⟨rfl, rfl, rfl⟩ | ⟨rfl, rfl, rfl⟩ | q
    · exact old (fe0.2 (.inl q)) (ndL _ (fedges_left q)).1
    · exact ⟨t, (hb ..).2 (.inr ⟨rfl, .inr ⟨rfl, rfl⟩⟩), .inr rfl⟩
    · exact ⟨t, (hb ..).2 (.inr ⟨rfl, .inl ⟨rfl, rfl⟩⟩), .inr rfl⟩
    · exact old (fe0.2 (.inr (.inr q))) (ndR _ (fedges_right q))
  · obtain ⟨y, q⟩ := b.bot
    exact ⟨y, (hb ..).2 (.inl ⟨q, fun q => notHead.1 q.2.1.symm⟩)⟩
  · intro y u v q
    rcases (hb ..).1 q with ⟨q, q1⟩ | ⟨rfl, ⟨rfl, rfl⟩ | ⟨rfl, rfl⟩⟩
    · rcases b.cov q with q' | ⟨τ, q', q2⟩
      · exact .inl q'
      · right
        refine ⟨τ, ?_, .inl (q2.resolve_right (fun h => h))⟩
        rcases fe0.1 q' with q' | ⟨rfl, rfl, rfl⟩ | q'
        · exact fe1.2 (.inl q')
        · exact (q1 ⟨b.uniq q h1, rfl, rfl⟩).elim
        · exact fe1.2 (.inr (.inr (.inr q')))
    · exact .inr ⟨some y, fe1.2 (.inr (.inr (.inl ⟨rfl, rfl, rfl⟩))), .inl rfl⟩
    · exact .inr ⟨p.tri, fe1.2 (.inr (.inl ⟨rfl, rfl, rfl⟩)), .inr rfl⟩
  · intro y y' u v q q'
    rcases (hb ..).1 q with ⟨q, -⟩ | ⟨rfl, q⟩ <;> rcases (hb ..).1 q' with ⟨q', -⟩ | ⟨rfl, q'⟩
    · exact b.uniq q q'
    · rcases q' with ⟨rfl, rfl⟩ | ⟨rfl, rfl⟩
      · exact (fresh1 _ q).elim
      · exact (fresh2 _ q).elim
    · rcases q with ⟨rfl, rfl⟩ | ⟨rfl, rfl⟩
      · exact (fresh1 _ q').elim
      · exact (fresh2 _ q').elim
    · rfl

theorem FOk.asc3 {f : Front} (h : FOk c f) {L R : List Nat} {p n x : Nat} (hs : f.pids = L ++ p :: n :: x :: R) :
    keyLt (c.pos p) (c.pos n) ∧ keyLt (c.pos n) (c.pos x) := by
  have := h.ascP
  rw [hs, List.pairwise_append] at this
  have := this.2.1
  simp only [List.pairwise_cons] at this
  exact ⟨this.1 n (by simp), this.2.1 x (by simp)⟩

/-- Filling is the legalization of a mesh that already has the new triangle. -/
theorem fillOne_pre {Q0 : Nat → Prop} {s : St} (h : SInv c K Q0 NoP s) {L R : List Nat} {p n x : Nat}
    (hs : s.front.pids = L ++ p :: n :: x :: R) {id : NodeId} (hid : IdFor c id n) (hw : c.W p n x)
    (hz : det2 (c.pos p) (c.pos n) (c.pos x) = 0 → TopV c p s.tris → ∀ t, ¬ FlatAt c s.tris p t) :
    ∃ s1 fo, (∀ fuel, fillOne c fuel s id = (legalize c fuel s1 s.tris.length >>= fun s' => pure (s', some fo))) ∧
      SInv c K (fun y => Q0 y ∨ y = s.tris.length) (fun y v => NoP y v ∨ y = s.tris.length) s1 ∧ s.tris.length < s1.tris.length ∧
      Ext0 c s s1 ∧ s1.front.pids = L ++ p :: x :: R ∧ IdFor c fo.prev p ∧ IdFor c fo.next x ∧
      ∀ q t, q ≠ p → FlatAt c s1.tris q t → FlatAt c s.tris q t := by
  obtain ⟨r, k1, k2⟩ := h.front.pGetId (L := L ++ [p]) (p := n) (R := x :: R) (by simp [hs]) hid
  obtain ⟨rp, k3, k4⟩ := h.front.pPrev k2
  obtain ⟨rn, k5, k6⟩ := h.front.pNext k2
  obtain ⟨t1, k7, k8⟩ := k4.tri h.bd
  obtain ⟨t2, k9, k10⟩ := k2.tri h.bd
  obtain ⟨L', e, R', a1, a2, a3, a4, a5⟩ := k4.node
  rw [List.map_eq_cons_iff] at a4
  obtain ⟨en, R1, rfl, a6, a7⟩ := a4
  rw [List.map_eq_cons_iff] at a7
  obtain ⟨ex, R2, rfl, a8, a9⟩ := a7
  simp only [fillOne, k1, unwrap_some, ok_bind, k3, k5, k7, k9, k4.pid, k2.pid, k6.pid]
  obtain ⟨m1, c1, g1, b1, -, -, -, s1, s2, s3⟩ := h.mesh.append hw
  have d := (oriW c).d3 hw
  -- first link
  obtain ⟨w1, f1, l1⟩ : Bd (s.tris ++ [Tri.new p n x]) t1 n p := (b1 ..).2 (.inl k8)
  obtain ⟨ts2, q1, m2, c2, g2, len2, b2, keep2⟩ := m1.link (Q' := fun y => Q0 y ∨ y = s.tris.length) s3 l1 (fun _ => .inl) (.inl (.inr rfl))
  have lt1 : t1 ≠ s.tris.length := by
    rintro rfl
    obtain ⟨_, _, q⟩ := k8
    exact Nat.lt_irrefl _ q.lt
  have lt2 : t2 ≠ s.tris.length := by
    rintro rfl
    obtain ⟨_, _, q⟩ := k10
    exact Nat.lt_irrefl _ q.lt
  have d0 := d
  obtain ⟨d1, d2, d3⟩ := d
  obtain ⟨w2, f2, l2⟩ : Bd ts2 t2 x n := (b2 ..).2 ⟨(b1 ..).2 (.inl k10), fun q => lt2 q.1, fun q => d2 q.2.1.symm⟩
  have s1' : Sl ts2 s.tris.length p n x none (Tri.new p n x).attrs.a :=
    keep2 s1 (fun q => d3 q.2) (fun q => lt1 q.1.symm)
  obtain ⟨ts3, q2, m3, c3, g3, len3, b3, keep3⟩ := m2.link (Q' := fun y => Q0 y ∨ y = s.tris.length) s1' l2 (fun _ h => h) (.inl (.inr rfl))
  simp only [q1, ok_bind, q2]
  obtain ⟨u1, u2⟩ := h.front.delete a1 s.tris.length
  have i1 : rp.idx = L'.length := by rw [k4.idx, ← a2, List.length_map]
  have i2 : r.idx = L'.length + 1 := by rw [k2.idx, ← a2]; simp
  rw [i1, i2, u1]
  simp only [ok_bind]
  have hb : BInv c NoP ts3 (L' ++ { e with tri := some s.tris.length } :: ex :: R2) := by
    refine BInv.fill h.front a1 h.bd (t1 := t1) (t2 := t2) (by rw [a6, a3]; exact k8) (by rw [a6, a8]; exact k10) ?_
    intro y u v
    rw [b3, b2, b1, a3, a6, a8]
    clear b1 b2 b3
    have old : Bd s.tris y u v → y ≠ s.tris.length := by
      rintro ⟨_, _, q⟩ rfl
      exact Nat.lt_irrefl _ q.lt
    constructor
    · rintro ⟨⟨k | ⟨rfl, k⟩, q1, q2⟩, q3, q4⟩
      · exact .inl ⟨k, q2, q4⟩
      · right; grind
    · rintro (⟨k, q1, q2⟩ | ⟨rfl, rfl, rfl⟩)
      · exact ⟨⟨.inl k, fun q => old k q.1, q1⟩, fun q => old k q.1, q2⟩
      · grind
  have fl : ∀ q t, FlatAt c ts3 q t → FlatAt c s.tris q t ∨ (t = s.tris.length ∧ det2 (c.pos p) (c.pos n) (c.pos x) = 0 ∧ q = p) := by
    intro q t k
    have as := h.front.asc3 hs
    rcases append_flat d0 (link_flat m1 s3 l1 q1 _ _ (link_flat m2 s1' l2 q2 _ _ k)) with k | ⟨k1, k2, k3 | ⟨-, k3⟩ | ⟨-, -, k3⟩⟩
    · exact .inl k
    · exact .inr ⟨k1, k2, k3⟩
    · exact (keyLt_asymm k3 (keyLt_trans as.1 as.2)).elim
    · exact (keyLt_asymm k3 (keyLt_trans as.1 as.2)).elim
  have hone : OneFlat c ts3 := by
    intro q hq t t' k k'
    have hq0 := hq.back (g1.trans (g2.trans g3))
    rcases fl q t k with k | ⟨k1, k2, rfl⟩ <;> rcases fl q t' k' with k' | ⟨k1', k2', e'⟩
    · exact h.one q hq0 t t' k k'
    · exact (hz k2' (e' ▸ hq0) _ (e' ▸ k)).elim
    · exact (hz k2 hq0 _ k').elim
    · rw [k1, k1']
  have inv : SInv c K (fun y => Q0 y ∨ y = s.tris.length) (fun y v => NoP y v ∨ y = s.tris.length)
      { s with tris := ts3, front := ⟨L' ++ { e with tri := some s.tris.length } :: ex :: R2, none⟩ } :=
    ⟨m3, hb.mono (by simp), u2, h.trace, hone⟩
  refine ⟨_, _, fun fuel => rfl, inv, by show s.tris.length < ts3.length; rw [len3, len2]; simp, ?_, ?_, k4.id, k6.id,
    fun q t hq k => (fl q t k).resolve_right fun k => hq k.2.2⟩
  · exact .silent (by show s.tris.length ≤ ts3.length; rw [len3, len2]; simp) (c1.trans (c2.trans c3)) ((noRise_append _).trans ((noRise_link q1).trans (noRise_link q2))) (g1.trans (g2.trans g3))
      ((append_nn d0).trans ((link_nn m1 s3 l1 q1).trans (link_nn m2 s1' l2 q2))) rfl
  · simp [Front.pids, a2, a3, a8, a9]

theorem fillOne_spec {Q0 : Nat → Prop} {fuel : Nat} {s : St} (h : SInv c K Q0 NoP s) {L R : List Nat} {p n x : Nat}
    (hs : s.front.pids = L ++ p :: n :: x :: R) {id : NodeId} (hid : IdFor c id n) (hw : c.W p n x)
    (hz : det2 (c.pos p) (c.pos n) (c.pos x) = 0 → TopV c p s.tris → ∀ t, ¬ FlatAt c s.tris p t) :
    Spec (fillOne c fuel s id) (· = .fuel) fun (s', r) =>
      SInv c K Q0 NoP s' ∧ Ext c s s' ∧ s'.front.pids = L ++ p :: x :: R ∧
      ∃ fo, r = some fo ∧ IdFor c fo.prev p ∧ IdFor c fo.next x := by
  obtain ⟨s1, fo, e1, inv, lt, ex, hp, i1, i2, -⟩ := fillOne_pre h hs hid hw hz
  rw [e1]
  refine Spec.bind (legalize_spec inv lt) ?_
  rintro s' ⟨j1, j2, j3, j4, j5, -⟩
  exact Spec.ok ⟨j1, Ext0.fresh (ex.trans j2.toExt0) j5, by rw [Front.pids_shape j3]; exact hp, _, rfl, i1, i2⟩

/-- Filling makes no flat triangle that begins at another point. -/
theorem fillOne_flat {Q0 : Nat → Prop} {fuel : Nat} {s : St} (h : SInv c K Q0 NoP s) {L R : List Nat} {p n x : Nat}
    (hs : s.front.pids = L ++ p :: n :: x :: R) {id : NodeId} (hid : IdFor c id n) (hw : c.W p n x)
    (hz : det2 (c.pos p) (c.pos n) (c.pos x) = 0 → TopV c p s.tris → ∀ t, ¬ FlatAt c s.tris p t) :
    Spec (fillOne c fuel s id) (· = .fuel) fun r => ∀ q t, q ≠ p → FlatAt c r.1.tris q t → FlatAt c s.tris q t := by
  obtain ⟨s1, fo, e1, inv, lt, ex, hp, i1, i2, i3⟩ := fillOne_pre h hs hid hw hz
  rw [e1]
  refine Spec.bind (legalize_spec inv lt) ?_
  rintro s' ⟨j1, j2, j3, j4, j5, j6⟩
  exact Spec.ok fun q t hq k => i3 q t hq (j6 q t k)

/-- With no right or left neighbour nothing is filled. -/
theorem fillOne_first {fuel : Nat} {s : St} (h : FOk c s.front) {R : List Nat} {n : Nat}
    (hs : s.front.pids = n :: R) {id : NodeId} (hid : IdFor c id n) : fillOne c fuel s id = .ok (s, none) := by
  obtain ⟨r, k1, k2⟩ := h.pGetId (L := []) hs hid
  simp [fillOne, k1, h.pPrev_nil k2]

theorem fillOne_last {fuel : Nat} {s : St} (h : FOk c s.front) {L : List Nat} {n : Nat}
    (hs : s.front.pids = L ++ [n]) {id : NodeId} (hid : IdFor c id n) : fillOne c fuel s id = .ok (s, none) := by
  obtain ⟨r, k1, k2⟩ := h.pGetId hs hid
  simp only [fillOne, k1, h.pNext_nil k2, unwrap_some, ok_bind]
  cases s.front.prev r <;> rfl

end P2T
