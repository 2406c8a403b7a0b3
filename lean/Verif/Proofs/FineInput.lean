import Verif.Proofs.RunInv
import Verif.Proofs.Bbox
import Verif.Proofs.Mono
import Verif.Props.Events
import Verif.Spec.Fine

/-!
# Fine inputs satisfy the hypotheses of the run invariant
-/

namespace P2T

/-- With exact arithmetic the conditions reduce to plain geometry. -/
theorem fine_exact {n : Num} {pts : List Point} (he : ∀ x, n.rnd x = x) (hk : 0 < n.k03) (heps : 0 ≤ n.eps)
    (size : pts.length + 2 ≤ 2 ^ 32) (distinct : pts.Nodup)
    (hx : ∃ p ∈ pts, ∃ q ∈ pts, p.x ≠ q.x) (hy : ∃ p ∈ pts, ∃ q ∈ pts, p.y ≠ q.y)
    (apart : ∀ p ∈ pts, ∀ q ∈ pts, q.x < p.x → q.x + n.eps < p.x) : FineInput n pts := by
  obtain ⟨head, tail, xmax, xmin, ymax, ymin, h1, h2, h3, h4, -⟩ := ctx_points n pts []
  have eL : artLeft n pts = head := by simp [artLeft, withArtificial, h1, List.getD]
  have eR : artRight n pts = tail := by simp [artRight, withArtificial, h1, List.getD]
  simp only [he] at h2 h3
  have lx : xmin < xmax := by
    obtain ⟨a, ha, b, hb, hne⟩ := hx
    have h5 := h4 a ha
    have h6 := h4 b hb
    rcases lt_or_gt_of_ne hne with k | k <;> linarith
  have ly : ymin < ymax := by
    obtain ⟨a, ha, b, hb, hne⟩ := hy
    have h5 := h4 a ha
    have h6 := h4 b hb
    rcases lt_or_gt_of_ne hne with k | k <;> linarith
  refine ⟨?_, size, distinct, ?_, ?_, ⟨?_, ?_, ?_⟩⟩
  · obtain ⟨p, hp, -⟩ := hx; exact List.ne_nil_of_mem hp
  · intro p hp
    have mx : 0 < (xmax - xmin) * n.k03 := mul_pos (by linarith) hk
    have my : 0 < (ymax - ymin) * n.k03 := mul_pos (by linarith) hk
    have := h4 p hp
    rw [eL, eR, h2, h3]
    exact ⟨by dsimp only; linarith, by dsimp only; linarith, by dsimp only; linarith⟩
  · intro p hp q hq h
    rw [he] at h
    by_contra hc
    have := apart p hp q hq (not_le.1 hc)
    linarith
  · intro o _ a _ b _ h
    have : (Angle.new n o a b).dy = det2 o a b := by simp only [Angle.new, he, det2]; ring
    rw [this]; exact h
  · intro a _ b _ d _ h
    have : scanDet n a b d = det2 a d b := by simp only [scanDet, he, det2]; ring
    rw [this] at h; linarith
  · intro a _ b _ d _ h
    have : scanDet n a b d = det2 a d b := by simp only [scanDet, he, det2]; ring
    rw [this] at h; linarith

theorem FineInput.good {n : Num} {pts : List Point} (h : FineInput n pts) (es : List PointEdges) :
    Good (Ctx.new n pts es) := by
  obtain ⟨head, tail, xmax, xmin, ymax, ymin, h1, h2, h3, h4, -⟩ := ctx_points n pts es
  have h1' : withArtificial n pts = pts ++ [head] ++ [tail] := h1
  have eL : artLeft n pts = head := by simp [artLeft, h1', List.getD]
  have eR : artRight n pts = tail := by simp [artRight, h1', List.getD]
  have en := h.enclosed
  rw [eL, eR] at en
  obtain ⟨hh, ht⟩ := c_new_nodup_head (n := n) (es := es) h.size
  generalize hc : Ctx.new n pts es = c at *
  have hnum : c.num = n := by rw [← hc]; rfl
  have len : c.points.length = pts.length + 2 := by rw [h1]; simp
  have pin : ∀ i (hi : i < pts.length), c.pos i = pts[i] := by
    intro i hi; unfold Ctx.pos
    rw [h1, List.append_assoc, List.getElem?_append_left hi, List.getElem?_eq_getElem hi]; rfl
  have pmem : ∀ i, i < c.points.length → c.pos i ∈ withArtificial n pts := by
    intro i hi
    rw [h1', ← h1]
    unfold Ctx.pos; rw [List.getElem?_eq_getElem hi]; exact List.getElem_mem hi
  have ph : c.pos c.head = head := by unfold Ctx.pos; rw [h1, hh]; simp
  have pt : c.pos c.tail = tail := by unfold Ctx.pos; rw [h1, ht]; simp
  have cases3 : ∀ i, i < c.points.length → (∃ hi : i < pts.length, c.pos i = pts[i]) ∨ (i = c.head) ∨ i = c.tail := by
    intro i hi
    by_cases k : i < pts.length
    · exact .inl ⟨k, pin i k⟩
    · right; rw [hh, ht]; omega
  have flat : head.y = tail.y := by rw [h2, h3]
  have wide : head.x < tail.x := by
    obtain ⟨p, hp⟩ := List.exists_mem_of_ne_nil _ h.nonempty
    have := en p hp; linarith
  refine ⟨?_, by omega, by omega, by rw [ph, pt, flat], by rw [ph, pt]; exact wide, ?_, ?_, ?_, ?_⟩
  · intro i j hi hj e
    rcases cases3 i hi with ⟨ki, ei⟩ | ki | ki <;> rcases cases3 j hj with ⟨kj, ej⟩ | kj | kj
    · rw [ei, ej] at e; exact (List.Nodup.getElem_inj_iff h.distinct).1 e
    · rw [ei, kj, ph] at e; have := en _ (List.getElem_mem ki); rw [e] at this; exact (lt_irrefl _ this.1).elim
    · rw [ei, kj, pt] at e; have := en _ (List.getElem_mem ki); rw [e] at this; exact (lt_irrefl _ this.2.1).elim
    · rw [ki, ej, ph] at e; have := en _ (List.getElem_mem kj); rw [e] at this; exact (lt_irrefl _ this.1).elim
    · rw [ki, kj]
    · rw [ki, kj, ph, pt] at e; rw [e] at wide; exact (lt_irrefl _ wide).elim
    · rw [ki, ej, pt] at e; have := en _ (List.getElem_mem kj); rw [e] at this; exact (lt_irrefl _ this.2.1).elim
    · rw [ki, kj, ph, pt] at e; rw [e] at wide; exact (lt_irrefl _ wide).elim
    · rw [ki, kj]
  · intro i hi h1 h2
    rcases cases3 i hi with ⟨ki, ei⟩ | ki | ki
    · rw [ei, ph, pt]; exact en _ (List.getElem_mem ki)
    · exact (h1 ki).elim
    · exact (h2 ki).elim
  · intro i j k hi hj hk
    rw [hnum]
    exact h.faithful.angle _ (pmem i hi) _ (pmem j hj) _ (pmem k hk)
  · intro i j k hi hj hk
    rw [hnum]
    exact ⟨h.faithful.scanNeg _ (pmem i hi) _ (pmem j hj) _ (pmem k hk),
      h.faithful.scanPos _ (pmem i hi) _ (pmem j hj) _ (pmem k hk)⟩
  · intro i j hi hj i1 i2 j1 j2 hlt hle
    rw [hnum] at hle
    rcases cases3 i hi with ⟨ki, ei⟩ | ki | ki
    · rcases cases3 j hj with ⟨kj, ej⟩ | kj | kj
      · rw [ei, ej] at hle hlt ⊢
        have := h.apart _ (List.getElem_mem ki) _ (List.getElem_mem kj) hle
        rcases hlt with k | k
        · linarith
        · exact k.1.symm
      · exact (j1 kj).elim
      · exact (j2 kj).elim
    · exact (i1 ki).elim
    · exact (i2 ki).elim

theorem FineInput.input {n : Num} {b : PointsBuilder} {E : List (Nat × Nat)} (h : FineInput n b.points)
    (hE : EdgesOk b E) (hb : EBound E b.points.length) : Input (b.build n) := by
  obtain ⟨hh, ht⟩ := c_new_nodup_head (n := n) (es := b.edges) h.size
  have len : (b.build n).points.length = b.points.length + 2 := by simp [PointsBuilder.build, Ctx.new]
  obtain ⟨y1, y2⟩ := ySorted_spec n b.points b.edges (by have := h.size; omega)
  have pin : ∀ i (hi : i < b.points.length), (b.build n).pos i = b.points[i] := by
    intro i hi; unfold Ctx.pos
    have : (b.build n).points = b.points ++ ((b.build n).points.drop b.points.length) := by
      simp [PointsBuilder.build, Ctx.new]
    rw [this, List.getElem?_append_left hi, List.getElem?_eq_getElem hi]; rfl
  have ne := h.nonempty
  rw [← List.length_pos_iff] at ne
  refine ⟨h.good b.edges, ?_, ?_, by omega, ?_, ?_, by omega, ?_, ?_⟩
  · rw [len]; exact y1
  · have nd : (b.build n).ySorted.Nodup := y1.nodup_iff.2 List.nodup_range
    have y2' : (b.build n).ySorted.Pairwise (fun i j => ∀ p q, b.points[i]? = some p → b.points[j]? = some q → ¬ Below q p) := y2
    refine (List.Pairwise.and y2' nd).imp_of_mem ?_
    intro i j hi hj hij
    have li : i < b.points.length := by simpa using y1.subset hi
    have lj : j < b.points.length := by simpa using y1.subset hj
    rw [pin i li, pin j lj]
    have k := hij.1 _ _ (List.getElem?_eq_getElem li) (List.getElem?_eq_getElem lj)
    rcases Below.total (p := b.points[i]) (q := b.points[j]) (fun e => hij.2 ((List.Nodup.getElem_inj_iff h.distinct).1 e)) with q | q
    · exact q
    · exact (k q).elim
  · rw [len]; exact hh
  · rw [len]; exact ht
  · intro i e he p hp
    rw [len]
    have eE : (b.build n).edges = b.edges ++ [.none] ++ [.none] := rfl
    rw [eE, List.append_assoc] at he
    by_cases hi : i < b.edges.length
    · rw [List.getElem?_append_left hi] at he
      rw [hE.get i e he, List.mem_map] at hp
      obtain ⟨x, hx, rfl⟩ := hp
      have := (hb x (List.mem_of_mem_filter hx)).1
      omega
    · rw [List.getElem?_append_right (by omega)] at he
      have : e = .none := by
        have := List.mem_of_getElem? he
        simpa using this
      subst this; simp [PointEdges.toList] at hp
  · rw [len]
    show (b.edges ++ [PointEdges.none] ++ [PointEdges.none]).length = _
    simp [hE.len]

/-- The builder of a fine input. -/
theorem fine_build {D} {n : Num} {poly : Source D} {ops} (hf : FineInput n (allPoints (piecesOf poly ops)))
    (hok : ∀ p ∈ piecesOf poly ops, p.Ok) :
    ∃ b, buildChain poly ops = .ok b ∧ Input (b.build n).points ∧
      b.pb.points = allPoints (piecesOf poly ops) ∧ EdgesOk b.pb (pieceEdges 0 (piecesOf poly ops)) := by
  have hsz := hf.size
  rcases buildChain_spec poly ops (by omega) with ⟨hok, b, h1, h2, h3, -⟩ | ⟨hno, h1⟩
  · have hpts : b.pb.points = allPoints (piecesOf poly ops) := by simpa [PointsBuilder.empty] using h3
    have hE : EdgesOk b.pb (pieceEdges 0 (piecesOf poly ops)) := by simpa [PointsBuilder.empty] using h2
    refine ⟨b, h1, ?_, hpts, hE⟩
    have hb := pieceEdges_bound (piecesOf poly ops) 0
    rw [Nat.zero_add, ← hpts] at hb
    rw [← hpts] at hf
    exact hf.input hE hb
  · exact (hno hok).elim

theorem programG_run {D} {g : Trap} {n fuel} {poly : Source D} {ops t s}
    (hf : FineInput n (allPoints (piecesOf poly ops))) (h : programG g n fuel poly ops = .ok (t, s)) :
    ∃ b, buildChain poly ops = .ok b ∧ (b.build n).runG g fuel = .ok (t, s) ∧ Input (b.build n).points ∧
      b.pb.points = allPoints (piecesOf poly ops) ∧ EdgesOk b.pb (pieceEdges 0 (piecesOf poly ops)) := by
  obtain ⟨b, hb, hr⟩ := bind_ok.1 h
  have hsz := hf.size
  rcases buildChain_spec poly ops (by omega) with ⟨hok, -⟩ | ⟨-, h1⟩
  · obtain ⟨b', k1, k2, k3, k4⟩ := fine_build hf hok
    rw [hb] at k1; cases k1
    exact ⟨b, hb, hr, k2, k3, k4⟩
  · rw [hb] at h1; cases h1

/-- A run that the traps do not stop is the run of the code. -/
theorem programG_program {D} {g : Trap} (hg : g.fix = false) {n fuel} {poly : Source D} {ops t s} (h : programG g n fuel poly ops = .ok (t, s)) :
    program n fuel poly ops = .ok (t, s) := by
  obtain ⟨b, hb, hr⟩ := bind_ok.1 h
  rcases runG_off (b.build n) g fuel hg with ⟨m, k⟩ | k
  · rw [k] at hr; cases hr
  · rw [k] at hr; rw [program, hb]; exact hr

end P2T
