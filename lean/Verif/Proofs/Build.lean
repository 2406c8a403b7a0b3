import Verif.Proofs.Basic
import Verif.Spec.Input
import Mathlib.Tactic.Linarith
import Mathlib.Algebra.Order.Field.Rat
import Mathlib.Data.List.Nodup

/-!
# The builder
-/

namespace P2T

theorem edgeNew_eq (a b : Nat × Point) : Edge.new a b =
    if a.2 = b.2 then .error (.panic "repeat points") else .ok ⟨(orientEdge a b).1, (orientEdge a b).2⟩ := by
  obtain ⟨i, ⟨x, y⟩⟩ := a
  obtain ⟨j, ⟨x', y'⟩⟩ := b
  simp only [Edge.new, orientEdge, Below, Point.mk.injEq]
  rcases lt_trichotomy y y' with h | h | h
  · have h1 : ¬ y > y' := not_lt.2 h.le
    have h2 : ¬ y = y' := h.ne
    have h3 : ¬ y' < y := h1
    have h4 : ¬ y' = y := fun e => h2 e.symm
    simp [h1, h2, h4]
  · subst h
    rcases lt_trichotomy x x' with h | h | h
    · have h1 : ¬ x > x' := not_lt.2 h.le
      simp [h1, h.ne]
    · subst h; simp
    · have h1 : ¬ x = x' := h.ne'
      simp [h, h1]
  · have : ¬ y = y' := h.ne'
    simp [h, this]

/-- The edges recorded in the builder are exactly `E`, grouped by upper end. -/
structure EdgesOk (b : PointsBuilder) (E : List (Nat × Nat)) : Prop where
  len : b.edges.length = b.points.length
  get : ∀ j e, b.edges[j]? = some e → e.toList = (E.filter (fun x => x.2 = j)).map (·.1)

theorem pushEdge_ok {b : PointsBuilder} {E} (h : EdgesOk b E) {p q : Nat} (hq : q < b.edges.length)
    (hc : (E.filter (fun x => x.2 = q)).length ≤ 1) :
    ∃ b', b.pushEdge ⟨p, q⟩ = .ok b' ∧ EdgesOk b' (E ++ [(p, q)]) ∧ b'.points = b.points := by
  have hg := List.getElem?_eq_getElem hq
  have ht := h.get q _ hg
  have key : ∃ e', (b.edges[q]).push p = .ok e' ∧ e'.toList = (b.edges[q]).toList ++ [p] := by
    generalize b.edges[q] = e at *
    cases e with
    | none => exact ⟨_, rfl, rfl⟩
    | one x => exact ⟨_, rfl, rfl⟩
    | two x y =>
      have := congrArg List.length ht
      simp only [PointEdges.toList, List.length_map, List.length_cons, List.length_nil] at this
      omega
  obtain ⟨e', h1, h2⟩ := key
  refine ⟨{ b with edges := b.edges.set q e' }, ?_, ⟨by simp [h.len], ?_⟩, rfl⟩
  · simp [PointsBuilder.pushEdge, hg, h1]
  · intro j e hj
    simp only [List.getElem?_set] at hj
    rw [List.filter_append, List.map_append]
    split at hj
    · subst_vars
      cases hj
      rw [h2, ht]; simp
    · rename_i hne
      rw [h.get j e hj]
      simp [hne]

/-- The loop of `parse_polyline` as a fold over the pairs. -/
def pushPairs (b : PointsBuilder) : List ((Nat × Point) × (Nat × Point)) → Except Err PointsBuilder
  | [] => .ok b
  | x :: xs => do
    let e ← Edge.new x.1 x.2
    let b ← b.pushEdge e
    pushPairs b xs

theorem polyLoop_eq (first : Nat × Point) : ∀ (rest : List (Nat × Point)) (b : PointsBuilder) (last : Nat × Point),
    PointsBuilder.polyLoop first b last rest = pushPairs b ((last :: rest).zip (rest ++ [first]))
  | [], b, last => by
    simp only [PointsBuilder.polyLoop, List.nil_append, List.zip_cons_cons, List.zip_nil_left, pushPairs]
    cases Edge.new last first with
    | error e => rfl
    | ok e => simp only [ok_bind]; cases b.pushEdge e <;> rfl
  | p2 :: rest, b, last => by
    simp only [PointsBuilder.polyLoop, List.cons_append, List.zip_cons_cons, pushPairs]
    cases Edge.new last p2 with
    | error e => rfl
    | ok e =>
      simp only [ok_bind]
      cases b.pushEdge e with
      | error e => rfl
      | ok b => simp only [ok_bind]; exact polyLoop_eq first rest b p2

theorem pushPairs_ok : ∀ (L : List ((Nat × Point) × (Nat × Point))) {b : PointsBuilder} {E}, EdgesOk b E →
    (∀ x ∈ L, x.1.2 ≠ x.2.2) → (∀ x ∈ L, x.1.1 < b.edges.length ∧ x.2.1 < b.edges.length) →
    (∀ j, (E.filter (fun x => x.2 = j)).length + (L.filter (fun x => x.1.1 = j ∨ x.2.1 = j)).length ≤ 2) →
    ∃ b', pushPairs b L = .ok b' ∧ EdgesOk b' (E ++ L.map fun x => orientEdge x.1 x.2) ∧ b'.points = b.points
  | [], b, E, h, _, _, _ => ⟨b, rfl, by simpa using h, rfl⟩
  | x :: xs, b, E, h, hd, hl, hc => by
    have hx := hd x (by simp)
    have hl' := hl x (by simp)
    have hor : ((orientEdge x.1 x.2).2 = x.1.1 ∨ (orientEdge x.1 x.2).2 = x.2.1) := by
      unfold orientEdge; split <;> simp
    have hq : (orientEdge x.1 x.2).2 < b.edges.length := by
      rcases hor with e | e <;> rw [e]
      · exact hl'.1
      · exact hl'.2
    have hcq := hc (orientEdge x.1 x.2).2
    have hin : (x.1.1 = (orientEdge x.1 x.2).2 ∨ x.2.1 = (orientEdge x.1 x.2).2) := by
      rcases hor with e | e
      · exact .inl e.symm
      · exact .inr e.symm
    rw [List.filter_cons_of_pos (by simpa using hin)] at hcq
    simp only [List.length_cons] at hcq
    obtain ⟨b1, h1, h2, h3⟩ := pushEdge_ok (p := (orientEdge x.1 x.2).1) h hq (by omega)
    have hlen : b1.edges.length = b.edges.length := by rw [h2.len, h.len, h3]
    obtain ⟨b2, g1, g2, g3⟩ := pushPairs_ok xs h2 (fun y hy => hd y (by simp [hy]))
      (fun y hy => by rw [hlen]; exact hl y (by simp [hy])) (by
        intro j
        have := hc j
        rw [List.filter_append, List.length_append]
        by_cases hj : (orientEdge x.1 x.2).2 = j
        · subst hj
          rw [List.filter_cons_of_pos (by simpa using hin)] at this
          simp only [List.length_cons] at this
          rw [List.filter_cons_of_pos (by simp)]
          simp only [List.filter_nil, List.length_cons, List.length_nil]; omega
        · rw [List.filter_cons_of_neg (by simpa using hj)]
          rw [List.filter_cons] at this
          rw [List.filter_nil, List.length_nil]
          split at this
          · simp only [List.length_cons] at this; omega
          · omega)
    refine ⟨b2, ?_, ?_, g3.trans h3⟩
    · rw [pushPairs, edgeNew_eq, if_neg hx]
      simp only [ok_bind, h1, g1]
    · simpa using g2

theorem pushPairs_distinct : ∀ (L : List ((Nat × Point) × (Nat × Point))) {b b' : PointsBuilder},
    pushPairs b L = .ok b' → ∀ x ∈ L, x.1.2 ≠ x.2.2
  | [], b, b', _, x, hx => by cases hx
  | y :: ys, b, b', h, x, hx => by
    simp only [pushPairs, bind_ok] at h
    obtain ⟨e, he, b1, -, h⟩ := h
    rcases List.mem_cons.1 hx with rfl | hx
    · rw [edgeNew_eq] at he
      split at he
      · cases he
      · assumption
    · exact pushPairs_distinct ys h x hx

theorem pushPairs_err : ∀ (L : List ((Nat × Point) × (Nat × Point))) {b : PointsBuilder} {E e}, EdgesOk b E →
    (∀ x ∈ L, x.1.1 < b.edges.length ∧ x.2.1 < b.edges.length) →
    (∀ j, (E.filter (fun x => x.2 = j)).length + (L.filter (fun x => x.1.1 = j ∨ x.2.1 = j)).length ≤ 2) →
    pushPairs b L = .error e → e = .panic "repeat points"
  | [], b, E, e, _, _, _, h => by cases h
  | x :: xs, b, E, e, h, hl, hc, he => by
    have hl' := hl x (by simp)
    have hor : ((orientEdge x.1 x.2).2 = x.1.1 ∨ (orientEdge x.1 x.2).2 = x.2.1) := by
      unfold orientEdge; split <;> simp
    have hq : (orientEdge x.1 x.2).2 < b.edges.length := by
      rcases hor with e | e <;> rw [e]
      · exact hl'.1
      · exact hl'.2
    have hcq := hc (orientEdge x.1 x.2).2
    have hin : (x.1.1 = (orientEdge x.1 x.2).2 ∨ x.2.1 = (orientEdge x.1 x.2).2) := by
      rcases hor with e | e
      · exact .inl e.symm
      · exact .inr e.symm
    rw [List.filter_cons_of_pos (by simpa using hin)] at hcq
    simp only [List.length_cons] at hcq
    obtain ⟨b1, h1, h2, h3⟩ := pushEdge_ok (p := (orientEdge x.1 x.2).1) h hq (by omega)
    have hlen : b1.edges.length = b.edges.length := by rw [h2.len, h.len, h3]
    rw [pushPairs, edgeNew_eq] at he
    split at he
    · cases he; rfl
    · simp only [ok_bind, h1] at he
      refine pushPairs_err xs h2 (fun y hy => by rw [hlen]; exact hl y (by simp [hy])) (by
        intro j
        have := hc j
        rw [List.filter_append, List.length_append]
        by_cases hj : (orientEdge x.1 x.2).2 = j
        · subst hj
          rw [List.filter_cons_of_pos (by simpa using hin)] at this
          simp only [List.length_cons] at this
          rw [List.filter_cons_of_pos (by simp)]
          simp only [List.filter_nil, List.length_cons, List.length_nil]; omega
        · rw [List.filter_cons_of_neg (by simpa using hj)]
          rw [List.filter_cons] at this
          rw [List.filter_nil, List.length_nil]
          split at this
          · simp only [List.length_cons] at this; omega
          · omega) he

theorem asU32_of_lt {n : Nat} (h : n < 2 ^ 32) : asU32 n = n := Nat.mod_eq_of_lt h

theorem addAll_eq : ∀ (ps : List Point) (b : PointsBuilder), b.points.length + ps.length ≤ 2 ^ 32 →
    b.addAll ps = (⟨b.points ++ ps, b.edges ++ List.replicate ps.length .none⟩,
      (List.range' b.points.length ps.length).zip ps)
  | [], b, _ => by simp [PointsBuilder.addAll]
  | p :: ps, b, h => by
    simp only [List.length_cons] at h
    have := addAll_eq ps (b.addSteinerPoint p).1 (by simp [PointsBuilder.addSteinerPoint]; omega)
    simp only [PointsBuilder.addAll]
    rw [this]
    simp [PointsBuilder.addSteinerPoint, asU32_of_lt (show b.points.length < 2 ^ 32 by omega),
      List.range'_succ, List.replicate_succ]

theorem length_filter_nodup {l : List Nat} (h : l.Nodup) (j : Nat) : (l.filter (fun x => x = j)).length ≤ 1 := by
  induction l with
  | nil => simp
  | cons a l ih =>
    rw [List.nodup_cons] at h
    rw [List.filter_cons]
    split
    · rename_i e
      simp at e; subst e
      have : l.filter (fun x => decide (x = a)) = [] := by
        rw [List.filter_eq_nil_iff]
        intro x hx
        simp; intro e; subst e; exact h.1 hx
      simp [this]
    · exact ih h.2

theorem cyclic_fst {α} (l : List α) : (cyclicPairs l).map Prod.fst = l := by
  cases l with
  | nil => rfl
  | cons a l => simp only [cyclicPairs]; rw [List.map_fst_zip]; simp

theorem cyclic_snd {α} (a : α) (l : List α) : (cyclicPairs (a :: l)).map Prod.snd = l ++ [a] := by
  simp only [cyclicPairs]; rw [List.map_snd_zip]; simp

theorem cyclic_touch (ids : List (Nat × Point)) (h : (ids.map Prod.fst).Nodup) (j : Nat) :
    ((cyclicPairs ids).filter (fun x => x.1.1 = j ∨ x.2.1 = j)).length ≤ 2 := by
  cases ids with
  | nil => simp [cyclicPairs]
  | cons a l =>
    have h1 : ((cyclicPairs (a :: l)).filter (fun x => x.1.1 = j)).length ≤ 1 := by
      have := length_filter_nodup h j
      rw [← cyclic_fst (a :: l)] at this
      simp only [List.map_map, List.filter_map, List.length_map] at this
      exact this
    have h2 : ((cyclicPairs (a :: l)).filter (fun x => x.2.1 = j)).length ≤ 1 := by
      have hn : ((l ++ [a]).map Prod.fst).Nodup := by
        rw [List.map_append]
        rw [List.map_cons] at h
        exact (List.nodup_append_comm (l₁ := [a.1])).1 h
      have := length_filter_nodup hn j
      rw [← cyclic_snd a l] at this
      simp only [List.map_map, List.filter_map, List.length_map] at this
      exact this
    have h3 : ∀ (L : List ((Nat × Point) × (Nat × Point))),
        (L.filter (fun x => x.1.1 = j ∨ x.2.1 = j)).length ≤
        (L.filter (fun x => x.1.1 = j)).length + (L.filter (fun x => x.2.1 = j)).length := by
      intro L
      induction L with
      | nil => simp
      | cons x xs ih =>
        simp only [List.filter_cons]
        by_cases e1 : x.1.1 = j <;> by_cases e2 : x.2.1 = j <;> simp [e1, e2] at * <;> omega
    have := h3 (cyclicPairs (a :: l))
    omega

theorem cyclic_mem {α} {l : List α} {x} (h : x ∈ cyclicPairs l) : x.1 ∈ l ∧ x.2 ∈ l := by
  cases l with
  | nil => cases h
  | cons a l =>
    simp only [cyclicPairs] at h
    have := List.of_mem_zip h
    refine ⟨this.1, ?_⟩
    rcases List.mem_append.1 this.2 with h | h
    · simp [h]
    · simp at h; simp [h]

theorem cyclic_map {α β} (f : α → β) (l : List α) :
    cyclicPairs (l.map f) = (cyclicPairs l).map fun x => (f x.1, f x.2) := by
  cases l with
  | nil => rfl
  | cons a l =>
    simp only [cyclicPairs, List.map_cons]
    rw [show l.map f ++ [f a] = (l ++ [a]).map f by simp, ← List.map_cons, List.zip_map]
    rfl

/-- Ids recorded so far are small. -/
def EBound (E : List (Nat × Nat)) (n : Nat) : Prop := ∀ x ∈ E, x.1 < n ∧ x.2 < n

theorem polylineEdges_bound (off : Nat) (ps : List Point) : ∀ x ∈ polylineEdges off ps,
    (off ≤ x.1 ∧ x.1 < off + ps.length) ∧ (off ≤ x.2 ∧ x.2 < off + ps.length) := by
  intro x hx
  simp only [polylineEdges, List.mem_map] at hx
  obtain ⟨⟨⟨i, p⟩, ⟨j, q⟩⟩, hy, rfl⟩ := hx
  have hm := cyclic_mem hy
  have h1 := (List.of_mem_zip hm.1).1
  have h2 := (List.of_mem_zip hm.2).1
  simp only [List.mem_range'_1] at h1 h2
  unfold orientEdge
  split <;> simp <;> omega

/-- Parsing one polyline. -/
theorem parsePolyline_spec {b : PointsBuilder} {E} (h : EdgesOk b E) (hb : EBound E b.points.length) (ps : List Point)
    (hn : b.points.length + ps.length ≤ 2 ^ 32) :
    (NoRepeat ps ∧ ∃ b', b.parsePolyline ps = .ok b' ∧ EdgesOk b' (E ++ polylineEdges b.points.length ps) ∧
      b'.points = b.points ++ ps) ∨
    (¬ NoRepeat ps ∧ b.parsePolyline ps = .error (.panic "repeat points")) := by
  have e0 : b.parsePolyline ps = pushPairs ⟨b.points ++ ps, b.edges ++ List.replicate ps.length .none⟩
      (cyclicPairs ((List.range' b.points.length ps.length).zip ps)) := by
    unfold PointsBuilder.parsePolyline
    rw [addAll_eq ps b hn]
    dsimp only
    generalize (List.range' b.points.length ps.length).zip ps = L
    cases L with
    | nil => rfl
    | cons a l => exact polyLoop_eq a l _ a
  have hlen := h.len
  have hE : EdgesOk ⟨b.points ++ ps, b.edges ++ List.replicate ps.length .none⟩ E := by
    refine ⟨by simp [h.len], fun j e hj => ?_⟩
    rw [List.getElem?_append] at hj
    split at hj
    · exact h.get j e hj
    · rename_i hlt
      rw [List.getElem?_replicate] at hj
      split at hj
      · cases hj
        symm
        simp only [PointEdges.toList, List.map_eq_nil_iff, List.filter_eq_nil_iff, decide_eq_true_eq]
        intro x hx e
        have := (hb x hx).2
        rw [hlen] at hlt; omega
      · cases hj
  have hl : ∀ x ∈ cyclicPairs ((List.range' b.points.length ps.length).zip ps),
      x.1.1 < (b.edges ++ List.replicate ps.length PointEdges.none).length ∧
      x.2.1 < (b.edges ++ List.replicate ps.length PointEdges.none).length := by
    rintro ⟨⟨i, p⟩, ⟨j, q⟩⟩ hx
    have hm := cyclic_mem hx
    have h1 := (List.of_mem_zip hm.1).1
    have h2 := (List.of_mem_zip hm.2).1
    simp only [List.mem_range'_1] at h1 h2
    simp [hlen]; omega
  have hc : ∀ j, (E.filter (fun x => x.2 = j)).length +
      ((cyclicPairs ((List.range' b.points.length ps.length).zip ps)).filter
        (fun x => x.1.1 = j ∨ x.2.1 = j)).length ≤ 2 := by
    intro j
    by_cases hj : j < b.points.length
    · have : (cyclicPairs ((List.range' b.points.length ps.length).zip ps)).filter
          (fun x => decide (x.1.1 = j ∨ x.2.1 = j)) = [] := by
        rw [List.filter_eq_nil_iff]
        rintro ⟨⟨i, p⟩, ⟨j, q⟩⟩ hx
        have hm := cyclic_mem hx
        have h1 := (List.of_mem_zip hm.1).1
        have h2 := (List.of_mem_zip hm.2).1
        simp only [List.mem_range'_1] at h1 h2
        simp; omega
      rw [this]
      by_cases hj' : ∃ e, b.edges[j]? = some e
      · obtain ⟨e, he⟩ := hj'
        have := congrArg List.length (h.get j e he)
        simp only [List.length_map] at this
        rw [← this]
        cases e <;> simp [PointEdges.toList]
      · exfalso; apply hj'
        exact ⟨_, List.getElem?_eq_getElem (by omega)⟩
    · have : E.filter (fun x => decide (x.2 = j)) = [] := by
        rw [List.filter_eq_nil_iff]
        intro x hx
        have := (hb x hx).2
        simp; omega
      rw [this]
      have := cyclic_touch ((List.range' b.points.length ps.length).zip ps) (by
        rw [List.map_fst_zip (by simp)]; exact List.nodup_range') j
      simpa using this
  have hd : NoRepeat ps ↔ ∀ x ∈ cyclicPairs ((List.range' b.points.length ps.length).zip ps), x.1.2 ≠ x.2.2 := by
    have : ps = ((List.range' b.points.length ps.length).zip ps).map Prod.snd := by
      rw [List.map_snd_zip (by simp)]
    unfold NoRepeat
    conv => lhs; rw [this, cyclic_map]
    exact List.forall_mem_map
  by_cases hr : NoRepeat ps
  · left
    obtain ⟨b', h1, h2, h3⟩ := pushPairs_ok _ hE (hd.1 hr) hl hc
    exact ⟨hr, b', e0.trans h1, h2, h3⟩
  · right
    refine ⟨hr, ?_⟩
    cases hp : pushPairs ⟨b.points ++ ps, b.edges ++ List.replicate ps.length .none⟩
      (cyclicPairs ((List.range' b.points.length ps.length).zip ps)) with
    | ok b' => exact (hr (hd.2 (pushPairs_distinct _ hp))).elim
    | error e => rw [e0, hp, pushPairs_err _ hE hl hc hp]

end P2T

namespace P2T

theorem pieceEdges_append : ∀ (p1 p2 : List Piece) (off : Nat),
    pieceEdges off (p1 ++ p2) = pieceEdges off p1 ++ pieceEdges (off + (allPoints p1).length) p2
  | [], p2, off => by simp [pieceEdges, allPoints]
  | .polyline ps :: p1, p2, off => by
    simp only [List.cons_append, pieceEdges, pieceEdges_append p1 p2, allPoints, List.flatMap_cons, Piece.pts,
      List.length_append, List.append_assoc, Nat.add_assoc]
  | .steiner ps :: p1, p2, off => by
    simp only [List.cons_append, pieceEdges, pieceEdges_append p1 p2, allPoints, List.flatMap_cons, Piece.pts,
      List.length_append, Nat.add_assoc]

theorem pieceEdges_bound : ∀ (p : List Piece) (off : Nat), EBound (pieceEdges off p) (off + (allPoints p).length)
  | [], off => by intro x hx; cases hx
  | .polyline ps :: p, off => by
    intro x hx
    simp only [pieceEdges, List.mem_append] at hx
    simp only [allPoints, List.flatMap_cons, Piece.pts, List.length_append]
    rcases hx with hx | hx
    · have := polylineEdges_bound off ps x hx; omega
    · have := pieceEdges_bound p _ x hx; simp only [allPoints] at this; omega
  | .steiner ps :: p, off => by
    intro x hx
    simp only [pieceEdges] at hx
    simp only [allPoints, List.flatMap_cons, Piece.pts, List.length_append]
    have := pieceEdges_bound p _ x hx; simp only [allPoints] at this; omega

/-- The outcome of a chain of calls that describes `pieces` and `datas`, started in `b`. -/
def BSpec {D} (m : Except Err (Builder D)) (b : Builder D) (E : List (Nat × Nat)) (pieces : List Piece)
    (datas : List D) : Prop :=
  ((∀ p ∈ pieces, p.Ok) ∧ ∃ b', m = .ok b' ∧ EdgesOk b'.pb (E ++ pieceEdges b.pb.points.length pieces) ∧
    b'.pb.points = b.pb.points ++ allPoints pieces ∧ b'.data = b.data ++ datas) ∨
  (¬ (∀ p ∈ pieces, p.Ok) ∧ m = .error (.panic "repeat points"))

theorem BSpec.bind {D} {m : Except Err (Builder D)} {f} {b : Builder D} {E p1 p2 d1 d2}
    (h : BSpec m b E p1 d1)
    (hE : EBound E b.pb.points.length)
    (hf : ∀ b', b'.pb.points = b.pb.points ++ allPoints p1 → EdgesOk b'.pb (E ++ pieceEdges b.pb.points.length p1) →
      EBound (E ++ pieceEdges b.pb.points.length p1) b'.pb.points.length →
      BSpec (f b') b' (E ++ pieceEdges b.pb.points.length p1) p2 d2) :
    BSpec (m >>= f) b E (p1 ++ p2) (d1 ++ d2) := by
  rcases h with ⟨ho, b', rfl, he, hp, hd⟩ | ⟨ho, rfl⟩
  · have hb : EBound (E ++ pieceEdges b.pb.points.length p1) b'.pb.points.length := by
      intro x hx
      rw [hp, List.length_append]
      rcases List.mem_append.1 hx with hx | hx
      · have := hE x hx; omega
      · exact pieceEdges_bound p1 _ x hx
    rcases hf b' hp he hb with ⟨ho2, b'', h2, he2, hp2, hd2⟩ | ⟨ho2, h2⟩
    · refine .inl ⟨fun p hp => (List.mem_append.1 hp).elim (ho p) (ho2 p), b'', h2, ?_, ?_, ?_⟩
      · rw [hp, List.length_append] at he2
        rw [pieceEdges_append, ← List.append_assoc]
        exact he2
      · rw [hp2, hp]; simp [allPoints]
      · rw [hd2, hd]; simp
    · exact .inr ⟨fun k => ho2 fun p hp => k p (by simp [hp]), h2⟩
  · exact .inr ⟨fun k => ho fun p hp => k p (by simp [hp]), rfl⟩

theorem addSteiner_edgesOk {pb : PointsBuilder} {E} (h : EdgesOk pb E) (hb : EBound E pb.points.length) (ps : List Point) :
    EdgesOk ⟨pb.points ++ ps, pb.edges ++ List.replicate ps.length .none⟩ E := by
  have hlen := h.len
  refine ⟨by simp [h.len], fun j e hj => ?_⟩
  rw [List.getElem?_append] at hj
  split at hj
  · exact h.get j e hj
  · rename_i hlt
    rw [List.getElem?_replicate] at hj
    split at hj
    · cases hj
      symm
      simp only [PointEdges.toList, List.map_eq_nil_iff, List.filter_eq_nil_iff, decide_eq_true_eq]
      intro x hx e
      have := (hb x hx).2
      rw [hlen] at hlt; omega
    · cases hj

theorem addHole_spec {D} {b : Builder D} {E} (h : EdgesOk b.pb E) (hb : EBound E b.pb.points.length) (s : Source D)
    (hn : b.pb.points.length + s.points.length ≤ 2 ^ 32) :
    BSpec (b.addHole s) b E [.polyline s.points] s.data := by
  unfold Builder.addHole
  rcases parsePolyline_spec h hb s.points hn with ⟨hr, b', h1, h2, h3⟩ | ⟨hr, h1⟩
  · rw [h1]
    refine .inl ⟨by simpa [Piece.Ok] using hr, _, rfl, by simpa [pieceEdges] using h2, ?_, rfl⟩
    simpa [allPoints, Piece.pts] using h3
  · rw [h1]
    exact .inr ⟨by simpa [Piece.Ok] using hr, rfl⟩

theorem addHoles_spec {D} : ∀ (ss : List (Source D)) {b : Builder D} {E}, EdgesOk b.pb E → EBound E b.pb.points.length →
    b.pb.points.length + (allPoints (ss.map fun s => Piece.polyline s.points)).length ≤ 2 ^ 32 →
    BSpec (b.addHoles ss) b E (ss.map fun s => .polyline s.points) (ss.flatMap (·.data))
  | [], b, E, h, hb, hn => .inl ⟨by simp, b, rfl, by simpa [pieceEdges] using h, by simp [allPoints], by simp⟩
  | s :: ss, b, E, h, hb, hn => by
    have e : (allPoints ((s :: ss).map fun s => Piece.polyline s.points)).length =
        s.points.length + (allPoints (ss.map fun s => Piece.polyline s.points)).length := by
      simp [allPoints, Piece.pts]
    rw [e] at hn
    refine (addHole_spec h hb s (by omega)).bind hb (p2 := ss.map fun s => .polyline s.points) fun b' hp he hb' => ?_
    refine addHoles_spec ss he hb' ?_
    rw [hp]; simp [allPoints, Piece.pts] at hn ⊢; omega

theorem apply_spec {D} {b : Builder D} {E} (h : EdgesOk b.pb E) (hb : EBound E b.pb.points.length) (o : BuildOp D)
    (hn : b.pb.points.length + (allPoints o.pieces).length ≤ 2 ^ 32) :
    BSpec (b.apply o) b E o.pieces o.datas := by
  cases o with
  | steinerPoint p d =>
    exact .inl ⟨by simp [BuildOp.pieces, Piece.Ok], _, rfl,
      by simpa [pieceEdges, BuildOp.pieces, Builder.addSteinerPoint, PointsBuilder.addSteinerPoint] using addSteiner_edgesOk h hb [p],
      by simp [allPoints, BuildOp.pieces, Piece.pts, Builder.addSteinerPoint, PointsBuilder.addSteinerPoint], rfl⟩
  | steinerPoints s =>
    have : PointsBuilder.addSteinerPoints b.pb s.points =
        ⟨b.pb.points ++ s.points, b.pb.edges ++ List.replicate s.points.length .none⟩ := by
      simp only [PointsBuilder.addSteinerPoints, PointsBuilder.resize, h.len, List.length_append]
      split
      · have : s.points = [] := List.eq_nil_of_length_eq_zero (by omega)
        simp [this, ← h.len]
      · congr 3; omega
    refine .inl ⟨by simp [BuildOp.pieces, Piece.Ok], _, rfl, ?_, ?_, rfl⟩
    · simpa [pieceEdges, BuildOp.pieces, Builder.addSteinerPoints, this] using addSteiner_edgesOk h hb s.points
    · simp [allPoints, BuildOp.pieces, Piece.pts, Builder.addSteinerPoints, this]
  | hole s => exact addHole_spec h hb s (by simpa [allPoints, BuildOp.pieces, Piece.pts] using hn)
  | holes ss => exact addHoles_spec ss h hb hn

theorem applyAll_spec {D} : ∀ (os : List (BuildOp D)) {b : Builder D} {E}, EdgesOk b.pb E → EBound E b.pb.points.length →
    b.pb.points.length + (allPoints (os.flatMap BuildOp.pieces)).length ≤ 2 ^ 32 →
    BSpec (b.applyAll os) b E (os.flatMap BuildOp.pieces) (os.flatMap BuildOp.datas)
  | [], b, E, h, hb, hn => .inl ⟨by simp, b, rfl, by simpa [pieceEdges] using h, by simp [allPoints], by simp⟩
  | o :: os, b, E, h, hb, hn => by
    have e : (allPoints ((o :: os).flatMap BuildOp.pieces)).length =
        (allPoints o.pieces).length + (allPoints (os.flatMap BuildOp.pieces)).length := by
      simp [allPoints]
    rw [e] at hn
    rw [List.flatMap_cons, List.flatMap_cons]
    refine (apply_spec h hb o (by omega)).bind hb fun b' hp he hb' => ?_
    refine applyAll_spec os he hb' ?_
    rw [hp]; simp at hn ⊢; omega

theorem buildChain_spec {D} (poly : Source D) (ops : List (BuildOp D))
    (hn : (allPoints (piecesOf poly ops)).length ≤ 2 ^ 32) :
    BSpec (buildChain poly ops) ⟨.empty, []⟩ [] (piecesOf poly ops) (poly.data ++ ops.flatMap BuildOp.datas) := by
  have h0 : EdgesOk PointsBuilder.empty [] := ⟨rfl, by simp [PointsBuilder.empty]⟩
  have hb0 : EBound [] PointsBuilder.empty.points.length := by intro x hx; cases hx
  have e : (allPoints (piecesOf poly ops)).length =
      poly.points.length + (allPoints (ops.flatMap BuildOp.pieces)).length := by
    simp [allPoints, piecesOf, Piece.pts]
  rw [e] at hn
  have := (addHole_spec (b := (⟨.empty, []⟩ : Builder D)) h0 hb0 poly
    (by simp [PointsBuilder.empty]; omega)).bind hb0 (f := fun b => b.applyAll ops)
    (p2 := ops.flatMap BuildOp.pieces) (d2 := ops.flatMap BuildOp.datas) (fun b' hp he hb' =>
      applyAll_spec ops he hb' (by rw [hp]; simp [allPoints, PointsBuilder.empty, Piece.pts] at hn ⊢; omega))
  exact this

end P2T
