import Verif.Proofs.Bbox
import Verif.Proofs.Run
import Verif.Model.F64

/-!
# C23, C24: artificial points and degenerate inputs
-/

namespace P2T

/-- **C24.**  With exact arithmetic, if the points are not all on one vertical and not all on one horizontal
line, the two artificial points are strictly left, respectively strictly right, of all input points,
equally high and strictly below all of them. -/
theorem C24_enclose (n : Num) (pts : List Point) (es : List PointEdges) (he : ∀ x, n.rnd x = x) (hk : 0 < n.k03)
    (hx : ∃ p ∈ pts, ∃ q ∈ pts, p.x ≠ q.x) (hy : ∃ p ∈ pts, ∃ q ∈ pts, p.y ≠ q.y) :
    ∃ head tail, (Ctx.new n pts es).points = pts ++ [head, tail] ∧ head.y = tail.y ∧
      ∀ p ∈ pts, head.x < p.x ∧ p.x < tail.x ∧ head.y < p.y := by
  obtain ⟨head, tail, xmax, xmin, ymax, ymin, h1, h2, h3, h4, -⟩ := ctx_points n pts es
  simp only [he] at h2 h3
  refine ⟨head, tail, by rw [h1]; simp, by rw [h2, h3], fun p hp => ?_⟩
  have lx : xmin < xmax := by
    obtain ⟨a, ha, b, hb, hne⟩ := hx
    have h5 := h4 a ha
    have h6 := h4 b hb
    rcases lt_or_gt_of_ne hne with k | k <;> linarith
  have ly : ymin < ymax := by
    obtain ⟨a, ha, b, hb, hne⟩ := hy
    have h5 := h4 a ha
    have h6 := h4 b hb
    rcases lt_or_gt_of_ne hne with k | k <;> linarith
  have mx : 0 < (xmax - xmin) * n.k03 := mul_pos (by linarith) hk
  have my : 0 < (ymax - ymin) * n.k03 := mul_pos (by linarith) hk
  have := h4 p hp
  rw [h2, h3]
  exact ⟨by dsimp only; linarith, by dsimp only; linarith, by dsimp only; linarith⟩

/-- **C24, rounded arithmetic.**  With any monotone rounding the artificial points are at the same height,
and no input point is left of the first, right of the second or below them. -/
theorem C24_enclose_rounded (n : Num) (pts : List Point) (es : List PointEdges) (hs : n.Sane pts) (hne : pts ≠ []) :
    ∃ head tail, (Ctx.new n pts es).points = pts ++ [head, tail] ∧ head.y = tail.y ∧
      ∀ p ∈ pts, head.x ≤ p.x ∧ p.x ≤ tail.x ∧ head.y ≤ p.y := by
  obtain ⟨head, tail, xmax, xmin, ymax, ymin, h1, h2, h3, h4, h5⟩ := ctx_points n pts es
  obtain ⟨⟨p1, m1, e1⟩, ⟨p2, m2, e2⟩, ⟨p3, m3, e3⟩, ⟨p4, m4, e4⟩⟩ := h5 hne hs.range
  refine ⟨head, tail, by rw [h1]; simp, by rw [h2, h3], fun p hp => ?_⟩
  have pos : ∀ a b, b ≤ a → 0 ≤ n.rnd (n.rnd (a - b) * n.k03) := by
    intro a b h
    have k1 : 0 ≤ n.rnd (a - b) := by have := hs.mono 0 (a - b) (by linarith); rwa [hs.zero] at this
    have := hs.mono 0 _ (mul_nonneg k1 hs.k03)
    rwa [hs.zero] at this
  have q := h4 p hp
  have dx := pos xmax xmin (by linarith)
  have dy := pos ymax ymin (by linarith)
  rw [h2, h3]
  refine ⟨?_, ?_, ?_⟩ <;> dsimp only
  · refine le_trans (hs.mono _ xmin (by linarith)) ?_
    rw [e2, (hs.fix p2 m2).1, ← e2]; exact q.1
  · refine le_trans ?_ (hs.mono xmax _ (by linarith))
    rw [e1, (hs.fix p1 m1).1, ← e1]; exact q.2.1
  · refine le_trans (hs.mono _ ymin (by linarith)) ?_
    rw [e4, (hs.fix p4 m4).2, ← e4]; exact q.2.2.1

/-- **C23.**  Triangulating without points panics. -/
theorem C23_no_points {D} (n : Num) (d : List D) (es : List PointEdges) (fuel : Nat) :
    CDT.run fuel ⟨Ctx.new n [] es, d⟩ = .error (.panic "get_id_by_y(0) unwrap") := rfl

theorem keyCmp_lt_of_y {p q : Point} (hx : p.x = q.x) (hy : p.y < q.y) : keyCmp p q = .lt := by
  simp [keyCmp, cmpRat, hx, hy]

theorem takeWhile_all {α} (p : α → Bool) : ∀ (l : List α), (∀ a ∈ l, p a = true) → l.takeWhile p = l
  | [], _ => rfl
  | a :: l, h => by
    rw [List.takeWhile_cons, h a (by simp)]
    simp [takeWhile_all p l fun x hx => h x (by simp [hx])]

theorem mapM_total {α β : Type} {f : α → Except Err β} {l : List α} (h : ∀ i ∈ l, ∃ x, f i = .ok x) :
    ∃ tl, l.mapM f = .ok tl := by
  induction l with
  | nil => exact ⟨[], rfl⟩
  | cons i l ih =>
    obtain ⟨x, hx⟩ := h i (by simp)
    obtain ⟨tl, htl⟩ := ih fun j hj => h j (by simp [hj])
    exact ⟨x :: tl, by rw [List.mapM_cons, hx, htl]; rfl⟩

/-- **C23.**  If all points have the same `x` and there are at least two different ones, the run panics when
the second point is swept (whatever the edges and the recursion bound). -/
theorem C23_vertical {D} (n : Num) (pts : List Point) (es : List PointEdges) (d : List D) (fuel : Nat)
    (hs : n.Sane pts) (hn : pts.length + 2 ≤ 2 ^ 32) (hl : es.length = pts.length) (x0 : Rat) (hx : ∀ p ∈ pts, p.x = x0)
    (hd : pts.Nodup) (h2 : 2 ≤ pts.length) :
    CDT.run fuel ⟨Ctx.new n pts es, d⟩ = .error (.panic "next unwrap") := by
  have hne : pts ≠ [] := by rintro rfl; simp at h2
  obtain ⟨hys, hso⟩ := ySorted_spec n pts es (by omega)
  have hlen := hys.length_eq
  rw [List.length_range] at hlen
  obtain ⟨c, hc⟩ : ∃ c, c = Ctx.new n pts es := ⟨_, rfl⟩
  have hhead : c.head = pts.length := by rw [hc]; exact asU32_of_lt (by omega)
  have htail : c.tail = pts.length + 1 := by rw [hc]; exact asU32_of_lt (by omega)
  obtain ⟨head, tail, xmax, xmin, ymax, ymin, k1, k2, k3, k4, k5⟩ := ctx_points n pts es
  obtain ⟨⟨p1, m1, e1⟩, ⟨p2, m2, e2⟩, -, ⟨p4, m4, e4⟩⟩ := k5 hne hs.range
  rw [hx p1 m1] at e1
  rw [hx p2 m2] at e2
  have ex0 : n.rnd x0 = x0 := by have := (hs.fix p1 m1).1; rwa [hx p1 m1] at this
  have hz : n.rnd (n.rnd (x0 - x0) * n.k03) = 0 := by simp [hs.zero]
  have headx : head.x = x0 := by rw [k2]; simp [e1, e2, hs.zero, ex0]
  have tailx : tail.x = x0 := by rw [k3]; simp [e1, e2, hs.zero, ex0]
  have heady : head.y ≤ ymin := by
    rw [k2]; dsimp only
    have q : ymin ≤ ymax := by have := k4 p4 m4; linarith
    have r1 : 0 ≤ n.rnd (ymax - ymin) := by have := hs.mono 0 (ymax - ymin) (by linarith); rwa [hs.zero] at this
    have r2 : 0 ≤ n.rnd (n.rnd (ymax - ymin) * n.k03) := by
      have := hs.mono 0 _ (mul_nonneg r1 hs.k03); rwa [hs.zero] at this
    refine le_trans (hs.mono _ ymin (by linarith)) ?_
    rw [e4, (hs.fix p4 m4).2]
  have taily : tail.y = head.y := by rw [k2, k3]
  rw [← hc] at hys hso hlen k1
  match hyl : c.ySorted, hlen with
  | [], hlen => simp only [List.length_nil] at hlen; omega
  | [a], hlen => simp only [List.length_singleton] at hlen; omega
  | a :: b :: rest, hlen =>
  rw [hyl] at hys hso
  have la : a < pts.length := by simpa using hys.subset (List.mem_cons_self)
  have lb : b < pts.length := by simpa using hys.subset (List.mem_cons_of_mem _ List.mem_cons_self)
  have hab : a ≠ b := by
    have := hys.nodup_iff.2 List.nodup_range
    simp only [List.nodup_cons, List.mem_cons, not_or] at this
    exact this.1.1
  have pa : c.points[a]? = some pts[a] := by
    rw [k1, List.append_assoc, List.getElem?_append_left la]; exact List.getElem?_eq_getElem la
  have pb : c.points[b]? = some pts[b] := by
    rw [k1, List.append_assoc, List.getElem?_append_left lb]; exact List.getElem?_eq_getElem lb
  have ph : c.points[c.head]? = some head := by rw [k1, hhead]; simp
  have pt : c.points[c.tail]? = some tail := by rw [k1, htail]; simp
  have xa := hx _ (List.getElem_mem la)
  have xb := hx _ (List.getElem_mem lb)
  have yab : pts[a].y < pts[b].y := by
    have h6 := (List.pairwise_cons.1 hso).1 b (by simp) _ _ (List.getElem?_eq_getElem la) (List.getElem?_eq_getElem lb)
    have h7 : pts[a] ≠ pts[b] := fun e => hab ((List.Nodup.getElem_inj_iff hd).1 e)
    rcases Below.total h7 with k | k
    · rcases k with k | ⟨k, k'⟩
      · exact k
      · rw [xa, xb] at k'; exact absurd k' (lt_irrefl _)
    · exact (h6 k).elim
  have ymb : ymin ≤ pts[a].y := (k4 _ (List.getElem_mem la)).2.2.1
  -- the front
  have hf : Front.new (Tri.new a c.head c.tail) 0 c = .ok ⟨sortBy (fun a b => keyCmp a.key b.key == .lt)
      [⟨head, c.head, some 0⟩, ⟨pts[a], a, some 0⟩, ⟨tail, c.tail, none⟩], none⟩ := by
    simp [Front.new, Tri.new, ph, pa, pt]
  generalize hnodes : sortBy (fun a b : Node => keyCmp a.key b.key == .lt)
      [⟨head, c.head, some 0⟩, ⟨pts[a], a, some 0⟩, ⟨tail, c.tail, none⟩] = nodes at hf
  have hperm := sortBy_perm (lt := fun a b : Node => keyCmp a.key b.key == .lt)
      [⟨head, c.head, some 0⟩, ⟨pts[a], a, some 0⟩, ⟨tail, c.tail, none⟩]
  rw [hnodes] at hperm
  have hl3 := hperm.length_eq
  have hlt : ∀ e ∈ nodes, (keyCmp e.key pts[b] == .lt) = true := by
    intro e he
    have := hperm.subset he
    simp only [List.mem_cons, List.not_mem_nil, or_false] at this
    rcases this with rfl | rfl | rfl
    · simp only [keyCmp_lt_of_y (p := head) (q := pts[b]) (by rw [headx, xb]) (by linarith), beq_self_eq_true]
    · simp only [keyCmp_lt_of_y (p := pts[a]) (q := pts[b]) (by rw [xa, xb]) yab, beq_self_eq_true]
    · simp only [keyCmp_lt_of_y (p := tail) (q := pts[b]) (by rw [tailx, xb]) (by rw [taily]; linarith), beq_self_eq_true]
  have hsearch : binSearch nodes pts[b] = .error 3 := by
    unfold binSearch
    rw [takeWhile_all _ _ hlt, hl3]
    have : nodes[3]? = none := by rw [List.getElem?_eq_none_iff, hl3]; simp
    simp [this]
  obtain ⟨e2', he2⟩ : ∃ e, nodes[2]? = some e := ⟨_, List.getElem?_eq_getElem (by rw [hl3]; simp)⟩
  have hn3 : nodes[3]? = none := by rw [List.getElem?_eq_none_iff, hl3]; simp
  have hce : ∀ i, i < pts.length → ∃ e, c.edges[i]? = some e := by
    intro i hi
    have : c.edges = es ++ [.none] ++ [.none] := by rw [hc]; rfl
    rw [this]
    exact ⟨_, List.getElem?_eq_getElem (by simp; omega)⟩
  obtain ⟨eb, heb⟩ := hce b lb
  have hiter : ∃ tl, c.iterByY 1 = .ok ((b, pts[b], eb) :: tl) := by
    unfold Ctx.iterByY
    rw [hyl, List.drop_one, List.tail_cons]
    obtain ⟨tl, htl⟩ := mapM_total (l := b :: rest) (f := fun id => do
        let p ← c.pt id
        match c.edges[id]? with
        | some e => pure (id, p, e)
        | none => .error (.ub "edges get_unchecked")) (by
      intro i hi
      have hi : i < pts.length := by simpa using hys.subset (List.mem_cons_of_mem _ hi)
      obtain ⟨e, he⟩ := hce i hi
      have pi : c.points[i]? = some pts[i] := by
        rw [k1, List.append_assoc, List.getElem?_append_left hi]
        exact List.getElem?_eq_getElem hi
      exact ⟨(i, pts[i], e), by simp only [Ctx.pt, pi, he, ok_bind, pure_ok]⟩)
    have h2 : c.iterByY 1 = .ok tl := by
      unfold Ctx.iterByY
      rw [hyl, List.drop_one, List.tail_cons]
      exact htl
    obtain ⟨k3, k5⟩ := iterByY_ok h2
    rw [hyl, List.drop_one, List.tail_cons] at k3
    match tl, k3, k5 with
    | x :: tl, k3, k5 =>
      simp only [List.map_cons, List.cons.injEq] at k3
      obtain ⟨y1, y2⟩ := k5 x (by simp)
      obtain ⟨x1, x2, x3⟩ := x
      replace k3 : x1 = b := k3.1
      simp only at y1 y2
      rw [k3, pb] at y1; rw [k3, heb] at y2
      cases y1; cases y2
      rw [k3] at htl
      exact ⟨tl, htl⟩
  obtain ⟨tl, htl⟩ := hiter
  rw [← hc]
  have hloc : Front.locateNode ⟨nodes, none⟩ pts[b] = .ok (e2'.toRef 2) := by
    simp [Front.locateNode, Front.searchByKey, hsearch, Front.nth, he2]
  have hnext : Front.next ⟨nodes, none⟩ (e2'.toRef 2) = none := by
    simp [Front.next, Front.nth, Node.toRef, hn3]
  have hi : initState c = .ok ⟨[Tri.new a c.head c.tail], ⟨nodes, none⟩, [], []⟩ := by
    simp only [initState, hyl, List.getElem?_cons_zero, unwrap_some, ok_bind, hf, pure_ok]
  have hpe : ∀ s : St, s.front = ⟨nodes, none⟩ → pointEvent c fuel s b pts[b] = .error (.panic "next unwrap") := by
    intro s hs
    simp only [pointEvent, hs, hloc, ok_bind, hnext, unwrap_none, error_bind]
  simp only [CDT.run, CDT.runG, hi, ok_bind, sweepPoints, htl, sweepLoop]
  rw [hpe _ rfl]
  rfl

/-! The hypotheses hold, for instance, in exact arithmetic. -/

theorem exact_sane (pts : List Point)
    (h : ∀ p ∈ pts, (exactNum.lo ≤ p.x ∧ p.x ≤ exactNum.hi) ∧ (exactNum.lo ≤ p.y ∧ p.y ≤ exactNum.hi)) :
    exactNum.Sane pts := ⟨fun _ _ h => h, rfl, fun _ _ => ⟨rfl, rfl⟩, h, by decide +kernel⟩

example : CDT.run 5 (⟨Ctx.new exactNum [⟨1, 0⟩, ⟨1, 3⟩, ⟨1, 2⟩] [.none, .none, .none], []⟩ : CDT Unit) =
    .error (.panic "next unwrap") :=
  C23_vertical _ _ _ _ _ (exact_sane _ (by decide +kernel)) (by decide) rfl 1 (by decide +kernel) (by decide +kernel) (by decide)

example : ∃ head tail, (Ctx.new exactNum [⟨1, 0⟩, ⟨5, 3⟩, ⟨2, 2⟩] []).points = [⟨1, 0⟩, ⟨5, 3⟩, ⟨2, 2⟩] ++ [head, tail] ∧
    head.y = tail.y ∧ ∀ p ∈ ([⟨1, 0⟩, ⟨5, 3⟩, ⟨2, 2⟩] : List Point), head.x < p.x ∧ p.x < tail.x ∧ head.y < p.y :=
  C24_enclose _ _ _ (fun _ => rfl) (by decide +kernel) (by decide +kernel) (by decide +kernel)

end P2T
