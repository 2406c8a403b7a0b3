import Verif.Spec.Library
import Verif.Props.FrontCache
import Verif.Proofs.Order
import Verif.Proofs.FrontRun
import Verif.Props.Events
import Verif.Spec.Fine

/-!
# C51: the choice of the sorting and searching algorithms does not matter
-/

namespace P2T

theorem sweepCmp_lt {p q : Point} : sweepCmp p q = .lt ↔ Below p q := by
  unfold sweepCmp Below
  repeat' split
  all_goals simp_all

theorem sweepCmp_gt {p q : Point} : sweepCmp p q = .gt ↔ ¬ Below p q := by
  rw [← sweepCmp_lt]
  unfold sweepCmp
  repeat' split
  all_goals simp

/-- The model's comparison is the comparator of the code answering `Less`. -/
theorem sweepLess_cmp (p q : Point) : sweepLess p q = (sweepCmp p q == .lt) := by
  rw [Bool.eq_iff_iff, sweepLess_iff, beq_iff_eq, sweepCmp_lt]

/-- **C51.**  The comparator of the sweep order is a total order on different points, and only on these: for two equal points it answers `Greater` both ways. -/
theorem C51_comparator (pts : List Point) (h : pts.Nodup) :
    TotalOrderOn (fun a b : Nat × Point => sweepCmp a.2 b.2) ((List.range pts.length).zip pts) := by
  have inj : ∀ a ∈ (List.range pts.length).zip pts, ∀ b ∈ (List.range pts.length).zip pts, a ≠ b → a.2 ≠ b.2 := by
    intro a ha b hb hab e
    obtain ⟨i, hi, rfl⟩ := List.mem_iff_getElem.1 ha
    obtain ⟨j, hj, rfl⟩ := List.mem_iff_getElem.1 hb
    simp only [List.getElem_zip, List.getElem_range] at e hab
    rw [List.Nodup.getElem_inj_iff h] at e
    subst e
    exact hab rfl
  refine ⟨fun a ha b hb hab => ?_, fun a ha b hb c hc h1 h2 => ?_, fun a ha b hb c hc hac h1 h2 => ?_⟩
  · rcases Below.total (inj a ha b hb hab) with k | k
    · rw [sweepCmp_lt.2 k, Ordering.swap_lt]; exact sweepCmp_gt.2 k.asymm
    · rw [sweepCmp_lt.2 k, sweepCmp_gt.2 k.asymm]; rfl
  · rw [sweepCmp_lt] at *
    exact h1.trans h2
  · rw [sweepCmp_gt] at *
    intro k
    by_cases e : a.2 = b.2
    · rw [e] at k; exact h2 k
    · rcases Below.total e with j | j
      · exact h1 j
      · exact h2 (j.trans k)

theorem C51_comparator_equal (p q : Point) : sweepCmp p q = .gt ∧ sweepCmp q p = .gt ↔ p = q := by
  rw [sweepCmp_gt, sweepCmp_gt]
  constructor
  · intro h
    by_contra c
    rcases Below.total c with k | k
    · exact h.1 k
    · exact h.2 k
  · rintro rfl; exact ⟨Below.irrefl _, Below.irrefl _⟩

/-- **C51.**  Whatever algorithm `sort_by` uses: for pairwise different points the sweep order is the one of the model. -/
theorem C51_sort (n : Num) (pts : List Point) (es : List PointEdges) (hd : pts.Nodup) (hn : pts.length ≤ 2 ^ 32) {r : List (Nat × Point)}
    (hr : IsSortOf (fun a b : Nat × Point => sweepCmp a.2 b.2) ((List.range pts.length).zip pts) r) :
    (Ctx.new n pts es).ySorted = r.map (·.1) := by
  have e : (Ctx.new n pts es).ySorted =
      (sortBy (fun a b : Nat × Point => sweepLess a.2 b.2) ((List.range pts.length).zip pts)).map (·.1) := by
    rw [← zipIdx_pairs pts hn]; rfl
  rw [e]
  congr 1
  have hp := sortBy_perm (lt := fun a b : Nat × Point => sweepLess a.2 b.2) ((List.range pts.length).zip pts)
  have hs := sortBy_sorted sweepLess_weak ((List.range pts.length).zip pts)
  refine List.Perm.eq_of_pairwise (le := fun a b : Nat × Point => ¬ Below b.2 a.2) ?_ (hs.imp ?_) (hr.2.imp ?_) (hp.trans hr.1.symm)
  · intro a b ha hb h1 h2
    have ma := hp.subset ha
    have mb := hr.1.subset hb
    by_contra c
    have T := (C51_comparator pts hd).swap a ma b mb c
    rw [sweepCmp_gt.2 h1, sweepCmp_gt.2 h2] at T
    cases T
  · intro a b h k
    rw [← sweepLess_iff, h] at k; cases k
  · intro a b h k
    exact h (sweepCmp_gt.2 k.asymm)

/-- **C51.**  The same for the three nodes of a new front (`sort_unstable_by_key`). -/
theorem C51_front (c : Ctx) (T : Tri) (tid : Nat) {f : Front} (h : Front.new T tid c = .ok f) (hd : c.points.Nodup)
    (h1 : T.points.a ≠ T.points.b) (h2 : T.points.b ≠ T.points.c) (h3 : T.points.a ≠ T.points.c) {r : List Node}
    (hr : ∀ pa pb pc, c.points[T.points.a]? = some pa → c.points[T.points.b]? = some pb → c.points[T.points.c]? = some pc →
      IsSortOf (fun a b : Node => keyCmp a.key b.key) [⟨pb, T.points.b, some tid⟩, ⟨pa, T.points.a, some tid⟩, ⟨pc, T.points.c, none⟩] r) : f.nodes = r := by
  obtain ⟨k1, -, pa, pb, pc, ea, eb, ec, hp⟩ := front_new h hd h1 h2 h3
  obtain ⟨q1, q2⟩ := hr pa pb pc ea eb ec
  refine List.Perm.eq_of_pairwise (le := fun a b : Node => ¬ keyLt b.key a.key) ?_ (k1.imp fun h => keyLt_asymm h) (q2.imp fun h k => h (keyCmp_gt.2 k)) (hp.trans q1.symm)
  intro a b ha hb x y
  by_contra c
  have ne : a.key ≠ b.key := by
    have e1 := nodup_ne hd ea eb h1
    have e2 := nodup_ne hd eb ec h2
    have e3 := nodup_ne hd ea ec h3
    have ma := hp.subset ha
    have mb := q1.subset hb
    simp only [List.mem_cons, List.not_mem_nil, or_false] at ma mb
    rcases ma with rfl | rfl | rfl <;> rcases mb with rfl | rfl | rfl <;> first | exact absurd rfl c | (intro e; simp_all)
  rcases keyLt_total ne with k | k
  · exact y k
  · exact x k

/-- **C51.**  On a front with increasing keys every search that keeps the contract gives the answer of the model, and only that one. -/
theorem C51_contract {nodes : List Node} (ha : Asc nodes) (key : Point) (r : Except Nat Nat) : IsSearchOf nodes key r ↔ r = binSearch nodes key := by
  have uniq : ∀ (i j : Nat) (e e' : Node), nodes[i]? = some e → nodes[j]? = some e' → e.key = e'.key → i = j := by
    intro i j e e' hi hj h
    obtain ⟨li, rfl⟩ := List.getElem?_eq_some_iff.1 hi
    obtain ⟨lj, rfl⟩ := List.getElem?_eq_some_iff.1 hj
    rcases Nat.lt_trichotomy i j with k | k | k
    · have := List.pairwise_iff_getElem.1 ha i j li lj k
      rw [h] at this; exact (keyLt_irrefl _ this).elim
    · exact k
    · have := List.pairwise_iff_getElem.1 ha j i lj li k
      rw [h] at this; exact (keyLt_irrefl _ this).elim
  rcases search_split ha key with ⟨L, e, R, h1, h2, h3⟩ | ⟨L, R, h1, hL, hR, h3⟩
  · have at' : nodes[L.length]? = some e := by rw [h1]; simp
    rw [h3]
    cases r with
    | ok i =>
      simp only [IsSearchOf, Except.ok.injEq]
      constructor
      · rintro ⟨e', k1, k2⟩
        exact uniq i L.length e' e k1 at' ((keyCmp_eq k2).trans h2.symm)
      · rintro rfl; exact ⟨e, at', keyCmp_eq_iff.2 h2⟩
    | error i =>
      simp only [IsSearchOf, reduceCtorEq, iff_false]
      rintro ⟨-, k1, k2⟩
      have : e ∈ nodes.take i ++ nodes.drop i := by rw [List.take_append_drop, h1]; simp
      rcases List.mem_append.1 this with m | m
      · have := k1 e m; rw [keyCmp_eq_iff.2 h2] at this; cases this
      · have := k2 e m; rw [keyCmp_eq_iff.2 h2] at this; cases this
  · rw [h3]
    cases r with
    | ok i =>
      simp only [IsSearchOf, reduceCtorEq, iff_false]
      rintro ⟨e, k1, k2⟩
      have m := List.mem_of_getElem? k1
      rw [h1] at m
      have := keyCmp_eq k2
      rcases List.mem_append.1 m with m | m
      · have := hL e m; simp_all [keyLt_irrefl]
      · have := hR e m; simp_all [keyLt_irrefl]
    | error i =>
      simp only [IsSearchOf, Except.error.injEq]
      constructor
      · rintro ⟨k0, k1, k2⟩
        rcases Nat.lt_trichotomy i L.length with k | k | k
        · have m : L[i] ∈ nodes.drop i := by
            rw [h1, List.drop_append_of_le_length k.le]
            refine List.mem_append_left _ (List.mem_iff_getElem.2 ⟨0, by simp; omega, by simp⟩)
          have := k2 _ m
          rw [keyCmp_lt.2 (hL _ (List.getElem_mem k))] at this; cases this
        · exact k
        · have lR : 0 < R.length := by rw [h1, List.length_append] at k0; omega
          have m : R[0] ∈ nodes.take i := by
            rw [h1, List.take_append, List.take_of_length_le k.le]
            refine List.mem_append_right _ (List.mem_iff_getElem.2 ⟨0, by simp; omega, by simp⟩)
          have := k1 _ m
          rw [keyCmp_gt.2 (hR _ (List.getElem_mem lR))] at this; cases this
      · rintro rfl
        rw [h1]
        refine ⟨by simp, fun e he => ?_, fun e he => ?_⟩
        · rw [List.take_left] at he; exact keyCmp_lt.2 (hL e he)
        · rw [List.drop_left] at he; exact keyCmp_gt.2 (hR e he)

/-- The comparisons along a sorted slice: first `Less`, then at most one `Equal`, then `Greater`. -/
theorem cmpAt_mono {nodes : List Node} (ha : Asc nodes) (key : Point) {i j : Nat} (hij : i < j) :
    (cmpAt nodes key i ≠ .lt → cmpAt nodes key j = .gt) ∧ (j < nodes.length → cmpAt nodes key j ≠ .gt → cmpAt nodes key i = .lt) := by
  have main : cmpAt nodes key i = .lt ∨ cmpAt nodes key j = .gt := by
    unfold cmpAt
    rcases Nat.lt_or_ge j nodes.length with lj | lj
    · have li : i < nodes.length := by omega
      rw [List.getElem?_eq_getElem lj, List.getElem?_eq_getElem li]
      have := List.pairwise_iff_getElem.1 ha i j li lj hij
      simp only
      by_cases e : nodes[i].key = key
      · right; rw [keyCmp_gt, ← e]; exact this
      · rcases keyLt_total e with k | k
        · left; exact keyCmp_lt.2 k
        · right; exact keyCmp_gt.2 (keyLt_trans k this)
    · right; rw [List.getElem?_eq_none lj]
  exact ⟨fun h => main.resolve_left h, fun _ h => main.resolve_right h⟩

theorem halving_spec (cmp : Nat → Ordering) (n : Nat) (hm : ∀ i j, i ≤ j → cmp i = .gt → cmp j = .gt) : ∀ size base, 1 ≤ size → base + size ≤ n →
    (base = 0 ∨ cmp base ≠ .gt) → cmp (base + size) = .gt →
    halving cmp base size < n ∧ (halving cmp base size = 0 ∨ cmp (halving cmp base size) ≠ .gt) ∧ cmp (halving cmp base size + 1) = .gt := by
  intro size
  induction size using Nat.strongRecOn with
  | _ size ih =>
    intro base h1 h2 h3 h4
    rw [halving]
    by_cases c : 1 < size
    · rw [if_pos c]
      simp only
      by_cases g : cmp (base + size / 2) = .gt
      · rw [if_pos g]
        exact ih (size - size / 2) (by omega) base (by omega) (by omega) h3 (hm _ _ (by omega) g)
      · rw [if_neg g]
        exact ih (size - size / 2) (by omega) (base + size / 2) (by omega) (by omega) (.inr g) (by
          have : base + size / 2 + (size - size / 2) = base + size := by omega
          rw [this]; exact h4)
    · rw [if_neg c]
      have : size = 1 := by omega
      subst this
      exact ⟨by omega, h3, h4⟩

theorem cmpAt_gt_mono {nodes : List Node} (ha : Asc nodes) (key : Point) (i j : Nat) (hij : i ≤ j) (h : cmpAt nodes key i = .gt) : cmpAt nodes key j = .gt := by
  rcases Nat.lt_or_eq_of_le hij with k | rfl
  · exact (cmpAt_mono ha key k).1 (by rw [h]; decide)
  · exact h

theorem cmpAt_of {nodes : List Node} {key : Point} {j : Nat} {e : Node} (h : nodes[j]? = some e) : cmpAt nodes key j = keyCmp e.key key := by
  unfold cmpAt; rw [h]

/-- An insertion point. -/
theorem search_error {nodes : List Node} {key : Point} {i : Nat} (hi : i ≤ nodes.length) (h1 : ∀ j < i, cmpAt nodes key j = .lt)
    (h2 : ∀ j, i ≤ j → cmpAt nodes key j = .gt) : IsSearchOf nodes key (.error i) := by
  refine ⟨hi, fun e he => ?_, fun e he => ?_⟩
  · obtain ⟨j, hj, rfl⟩ := List.mem_iff_getElem.1 he
    rw [List.getElem_take, ← cmpAt_of (List.getElem?_eq_getElem _)]
    rw [List.length_take] at hj
    exact h1 j (by omega)
  · obtain ⟨j, hj, rfl⟩ := List.mem_iff_getElem.1 he
    rw [List.getElem_drop, ← cmpAt_of (List.getElem?_eq_getElem _)]
    exact h2 _ (by omega)

theorem search_ok {nodes : List Node} {key : Point} {i : Nat} (h : cmpAt nodes key i = .eq) : IsSearchOf nodes key (.ok i) := by
  unfold cmpAt at h
  split at h
  · exact ⟨_, ‹_›, h⟩
  · cases h

/-- **C51.**  The binary search of the standard library (1.82 and later) gives the answer of the model on a front with increasing keys. -/
theorem C51_std {nodes : List Node} (ha : Asc nodes) (key : Point) : stdSearch nodes key = binSearch nodes key := by
  rw [← C51_contract ha]
  unfold stdSearch
  by_cases l0 : nodes.length = 0
  · rw [if_pos l0]
    exact search_error (by omega) (fun j h => by omega) fun j _ => by unfold cmpAt; rw [List.getElem?_eq_none (by omega)]
  · rw [if_neg l0]
    obtain ⟨k1, k2, k3⟩ := halving_spec (cmpAt nodes key) nodes.length (cmpAt_gt_mono ha key) nodes.length 0 (by omega) (by omega) (.inl rfl)
      (by unfold cmpAt; rw [List.getElem?_eq_none (by omega)])
    generalize halving (cmpAt nodes key) 0 nodes.length = b at *
    simp only
    split
    · exact search_ok ‹_›
    · rename_i h
      refine search_error (by omega) (fun j hj => ?_) fun j hj => cmpAt_gt_mono ha key _ _ hj k3
      rcases Nat.lt_or_eq_of_le (show j ≤ b by omega) with q | rfl
      · exact (cmpAt_mono ha key q).2 k1 (by rw [h]; decide)
      · exact h
    · rename_i h
      have : b = 0 := k2.resolve_right (fun c => c h)
      subst this
      exact search_error (by omega) (fun j hj => by omega) fun j hj => cmpAt_gt_mono ha key _ _ hj h

theorem leftRight_spec {nodes : List Node} (ha : Asc nodes) (key : Point) : ∀ d left right, right - left = d → left ≤ right → right ≤ nodes.length →
    (∀ j < left, cmpAt nodes key j = .lt) → (∀ j, right ≤ j → cmpAt nodes key j = .gt) → IsSearchOf nodes key (leftRight (cmpAt nodes key) left right) := by
  intro d
  induction d using Nat.strongRecOn with
  | _ d ih =>
    intro left right hd h1 h2 h3 h4
    rw [leftRight]
    by_cases c : left < right
    · rw [if_pos c]
      simp only
      split
      · exact search_ok ‹_›
      · rename_i h
        refine ih _ (by omega) _ _ rfl (by omega) h2 (fun j hj => ?_) h4
        rcases Nat.lt_or_eq_of_le (show j ≤ left + (right - left) / 2 by omega) with q | rfl
        · exact (cmpAt_mono ha key q).2 (by omega) (by rw [h]; decide)
        · exact h
      · rename_i h
        exact ih _ (by omega) _ _ rfl (by omega) (by omega) h3 fun j hj => cmpAt_gt_mono ha key _ _ hj h
    · rw [if_neg c]
      have : left = right := by omega
      subst this
      exact search_error h2 h3 h4

/-- **C51.**  So does the older one (1.52 to 1.81). -/
theorem C51_std_old {nodes : List Node} (ha : Asc nodes) (key : Point) : stdSearchOld nodes key = binSearch nodes key := by
  rw [← C51_contract ha]
  exact leftRight_spec ha key _ 0 nodes.length rfl (by omega) (le_refl _) (fun j h => by omega) fun j h => by
    unfold cmpAt; rw [List.getElem?_eq_none h]

/-- **C51.**  The slices searched by the crate are sorted: after any sequence of front operations the front, and the parts of it left and right of an index,
are searched with the same answer by the model and by both implementations of the standard library. -/
theorem C51_search {c : Ctx} {f : Front} (h : FrontReach c f) (key : Point) (i : Nat) :
    (stdSearch f.nodes key = binSearch f.nodes key ∧ stdSearchOld f.nodes key = binSearch f.nodes key) ∧
    (stdSearch (f.nodes.take i) key = binSearch (f.nodes.take i) key ∧ stdSearchOld (f.nodes.take i) key = binSearch (f.nodes.take i) key) ∧
    stdSearch (f.nodes.drop i) key = binSearch (f.nodes.drop i) key ∧ stdSearchOld (f.nodes.drop i) key = binSearch (f.nodes.drop i) key := by
  have ha := h.inv.1
  have h1 : Asc (f.nodes.take i) := List.Pairwise.sublist (List.take_sublist _ _) ha
  have h2 : Asc (f.nodes.drop i) := List.Pairwise.sublist (List.drop_sublist _ _) ha
  exact ⟨⟨C51_std ha key, C51_std_old ha key⟩, ⟨C51_std h1 key, C51_std_old h1 key⟩, C51_std h2 key, C51_std_old h2 key⟩

/-- **C51.**  In every run (any arithmetic, any polygon): at every callback the keys of the front increase, so that every search in the front or in a part of it
has the answer of the model, whichever algorithm is used.  Assumes that all points, the two artificial ones included, are different. -/
theorem C51_run {D} {n : Num} {fuel : Nat} {poly : Source D} {ops : List (BuildOp D)} {t : Triangles D} {s : St}
    (hn : (allPoints (piecesOf poly ops)).length + 2 ≤ 2 ^ 32) (hd : (withArtificial n (allPoints (piecesOf poly ops))).Nodup)
    (h : program n fuel poly ops = .ok (t, s)) {ev : Ev} {sn : Snap} (hm : (ev, sn) ∈ s.trace) :
    (sn.front.nodes.Pairwise fun a b => keyCmp a.key b.key = .lt) ∧
    ∀ (slice : List Node), slice <:+: sn.front.nodes → ∀ (key : Point) (r : Except Nat Nat), IsSearchOf slice key r ↔ r = binSearch slice key := by
  obtain ⟨b, hb, hr⟩ := program_ok h
  rcases buildChain_spec poly ops (by omega) with ⟨hok, b', h1, h2, h3, -⟩ | ⟨-, h1⟩
  swap
  · rw [hb] at h1; cases h1
  rw [hb] at h1; cases h1
  have hpts : b.pb.points = allPoints (piecesOf poly ops) := by simpa [PointsBuilder.empty] using h3
  rw [← hpts] at hn hd
  obtain ⟨hh, ht⟩ := c_new_nodup_head (n := n) (pts := b.pb.points) (es := b.pb.edges) hn
  have hys := (ySorted_spec n b.pb.points b.pb.edges (by omega)).1
  have ha : Asc sn.front.nodes := by
    refine (runG_srt hr hd (fun p hp => ?_) ?_).2 _ hm
    · have : p < b.pb.points.length := by simpa using hys.subset hp
      have e1 : (b.build n).points.head = b.pb.points.length := hh
      have e2 : (b.build n).points.tail = b.pb.points.length + 1 := ht
      omega
    · have e1 : (b.build n).points.head = b.pb.points.length := hh
      have e2 : (b.build n).points.tail = b.pb.points.length + 1 := ht
      omega
  refine ⟨ha.imp fun k => keyCmp_lt.2 k, fun slice hs key r => C51_contract (List.Pairwise.sublist hs.sublist ha) key r⟩

/-! ## Examples -/

/-- The hypotheses of `C51_run` for the example input of `Builder.lean`, in double precision. -/
example : (allPoints (piecesOf exPoly exOps)).length + 2 ≤ 2 ^ 32 ∧ (withArtificial f64 (allPoints (piecesOf exPoly exOps))).Nodup ∧
    (program f64 200 exPoly exOps).toBool = true := by
  refine ⟨by decide, by decide +kernel, by decide +kernel⟩

/-- A sort result for four points that is not computed by the model's sort. -/
example (n : Num) (es : List PointEdges) : (Ctx.new n [⟨3, 1⟩, ⟨0, 2⟩, ⟨1, 1⟩, ⟨5, 0⟩] es).ySorted = [3, 2, 0, 1] :=
  C51_sort n _ es (by decide +kernel) (by decide) (r := [(3, ⟨5, 0⟩), (2, ⟨1, 1⟩), (0, ⟨3, 1⟩), (1, ⟨0, 2⟩)]) ⟨by decide +kernel, by decide +kernel⟩

/-- Two equal points: the comparator contradicts itself. -/
example : sweepCmp ⟨1, 2⟩ ⟨1, 2⟩ = .gt := by decide +kernel

example : Asc [⟨⟨0, 0⟩, 0, none⟩, ⟨⟨1, 5⟩, 1, none⟩, ⟨⟨1, 6⟩, 2, none⟩, ⟨⟨2, 0⟩, 3, none⟩, ⟨⟨7, 1⟩, 4, none⟩] := by
  simp [Asc, keyLt]; decide +kernel

end P2T
