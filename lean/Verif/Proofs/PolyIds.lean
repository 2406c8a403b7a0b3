import Verif.Proofs.Interior
import Verif.Proofs.Build

/-!
# The numbers of the points of the polylines
-/

namespace P2T

/-- The polylines of the pieces. -/
def polylinesOf : List Piece → List (List Point)
  | [] => []
  | .polyline ps :: rest => ps :: polylinesOf rest
  | .steiner _ :: rest => polylinesOf rest

/-- … as lists of point numbers. -/
def polyIds : Nat → List Piece → List (List Nat)
  | _, [] => []
  | off, .polyline ps :: rest => List.range' off ps.length :: polyIds (off + ps.length) rest
  | off, .steiner ps :: rest => polyIds (off + ps.length) rest

theorem polyIds_bound : ∀ {off : Nat} {pieces : List Piece}, ∀ L ∈ polyIds off pieces, ∀ v ∈ L, off ≤ v ∧ v < off + (allPoints pieces).length
  | off, [], L, h => by simp [polyIds] at h
  | off, .polyline ps :: rest, L, h => by
    intro v hv
    simp only [allPoints, List.flatMap_cons, Piece.pts, List.length_append]
    simp only [polyIds, List.mem_cons] at h
    rcases h with rfl | h
    · simp only [List.mem_range'_1] at hv; omega
    · have := polyIds_bound L h v hv
      simp only [allPoints] at this
      omega
  | off, .steiner ps :: rest, L, h => by
    intro v hv
    simp only [allPoints, List.flatMap_cons, Piece.pts, List.length_append]
    simp only [polyIds] at h
    have := polyIds_bound L h v hv
    simp only [allPoints] at this
    omega

theorem polyIds_nodup : ∀ (off : Nat) (pieces : List Piece), (polyIds off pieces).flatten.Nodup
  | off, [] => by simp [polyIds]
  | off, .polyline ps :: rest => by
    simp only [polyIds, List.flatten_cons, List.nodup_append]
    refine ⟨List.nodup_range', polyIds_nodup _ rest, ?_⟩
    intro a ha b hb e
    subst e
    obtain ⟨L, hL, hv⟩ := List.mem_flatten.1 hb
    have := polyIds_bound L hL a hv
    simp only [List.mem_range'_1] at ha
    omega
  | off, .steiner ps :: rest => by simp only [polyIds]; exact polyIds_nodup _ rest

theorem polyIds_pts (all : List Point) : ∀ (pre : List Point) (pieces : List Piece) (post : List Point), all = pre ++ allPoints pieces ++ post →
    (polyIds pre.length pieces).map (·.map (ptOf all)) = polylinesOf pieces
  | pre, [], post, _ => by simp [polyIds, polylinesOf]
  | pre, .polyline ps :: rest, post, e => by
    simp only [polyIds, polylinesOf, List.map_cons]
    have ih := polyIds_pts all (pre ++ ps) rest post (by rw [e]; simp [allPoints, Piece.pts])
    rw [List.length_append] at ih
    rw [ih]
    congr 1
    apply List.ext_getElem
    · simp
    · intro i h1 h2
      simp only [List.getElem_map, List.getElem_range', Nat.one_mul]
      unfold ptOf
      rw [e]
      simp only [allPoints, List.flatMap_cons, Piece.pts, List.getD_eq_getElem?_getD]
      rw [List.getElem?_append_left (by simp; omega), List.getElem?_append_right (by omega), List.getElem?_append_left (by omega)]
      simp [h2]
  | pre, .steiner ps :: rest, post, e => by
    simp only [polyIds, polylinesOf]
    have ih := polyIds_pts all (pre ++ ps) rest post (by rw [e]; simp [allPoints, Piece.pts])
    rw [List.length_append] at ih
    exact ih

theorem polyIds_length (off : Nat) (pieces : List Piece) (h : ∀ ps ∈ polylinesOf pieces, 3 ≤ ps.length) : ∀ L ∈ polyIds off pieces, 3 ≤ L.length := by
  induction pieces generalizing off with
  | nil => simp [polyIds]
  | cons p rest ih =>
    cases p with
    | polyline ps =>
      intro L hL
      simp only [polyIds, List.mem_cons] at hL
      simp only [polylinesOf, List.mem_cons, forall_eq_or_imp] at h
      rcases hL with rfl | hL
      · simpa using h.1
      · exact ih _ h.2 L hL
    | steiner ps => exact ih _ h

theorem orient_or (a b : Nat × Point) : orientEdge a b = (a.1, b.1) ∨ orientEdge a b = (b.1, a.1) := by
  unfold orientEdge; split <;> simp

/-- The input edges are the edges of the polylines, up to direction. -/
theorem pieceEdges_iff {off : Nat} {pieces : List Piece} {u v : Nat} : ((u, v) ∈ pieceEdges off pieces ∨ (v, u) ∈ pieceEdges off pieces) ↔
    ((u, v) ∈ allEdges (polyIds off pieces) ∨ (v, u) ∈ allEdges (polyIds off pieces)) := by
  induction pieces generalizing off with
  | nil => simp [pieceEdges, polyIds, allEdges]
  | cons p rest ih =>
    cases p with
    | steiner ps => simp only [pieceEdges, polyIds]; exact ih
    | polyline ps =>
      have e1 : ((u, v) ∈ polylineEdges off ps ∨ (v, u) ∈ polylineEdges off ps) ↔
          ((u, v) ∈ cyclicPairs (List.range' off ps.length) ∨ (v, u) ∈ cyclicPairs (List.range' off ps.length)) := by
        have em : cyclicPairs (List.range' off ps.length) = (cyclicPairs ((List.range' off ps.length).zip ps)).map fun x => (x.1.1, x.2.1) := by
          rw [← cyclic_map, List.map_fst_zip (by simp)]
        rw [em]
        simp only [polylineEdges, List.mem_map]
        constructor
        · rintro (⟨x, hx, e⟩ | ⟨x, hx, e⟩) <;> rcases orient_or x.1 x.2 with k | k <;> rw [k] at e <;> cases e
          · exact .inl ⟨x, hx, rfl⟩
          · exact .inr ⟨x, hx, rfl⟩
          · exact .inr ⟨x, hx, rfl⟩
          · exact .inl ⟨x, hx, rfl⟩
        · rintro (⟨x, hx, e⟩ | ⟨x, hx, e⟩) <;> cases e <;> rcases orient_or x.1 x.2 with k | k
          · exact .inl ⟨x, hx, k⟩
          · exact .inr ⟨x, hx, k⟩
          · exact .inr ⟨x, hx, k⟩
          · exact .inl ⟨x, hx, k⟩
      have e2 := @ih (off + ps.length)
      have e3 : ∀ x, x ∈ allEdges (polyIds off (.polyline ps :: rest)) ↔ x ∈ cyclicPairs (List.range' off ps.length) ∨
          x ∈ allEdges (polyIds (off + ps.length) rest) := by
        intro x; simp [polyIds, allEdges]
      rw [e3, e3]
      simp only [pieceEdges, List.mem_append]
      tauto

theorem polylines_append (a b : List Piece) : polylinesOf (a ++ b) = polylinesOf a ++ polylinesOf b := by
  induction a with
  | nil => rfl
  | cons p a ih => cases p <;> simp [polylinesOf, ih]

/-- The polylines of a chain of calls are the polygon and the holes. -/
theorem polylines_of {D} (poly : Source D) (ops : List (BuildOp D)) : polylinesOf (piecesOf poly ops) = poly.points :: holesOf ops := by
  unfold piecesOf
  simp only [polylinesOf]
  congr 1
  unfold holesOf
  induction ops with
  | nil => rfl
  | cons o ops ih =>
    rw [List.flatMap_cons, List.flatMap_cons, polylines_append, ih]
    congr 1
    cases o with
    | steinerPoint p d => rfl
    | steinerPoints s => rfl
    | hole s => rfl
    | holes ss =>
      simp only [BuildOp.pieces, BuildOp.holePts]
      induction ss with
      | nil => rfl
      | cons s ss ih => simp [polylinesOf, ih]

end P2T
