import Verif.Proofs.Similar
import Verif.Props.Unique

/-!
# C52: moving, rotating, scaling or mirroring the input does the same to the reported triangles
-/

namespace P2T

section
variable {D : Type} {n : Num} {fuel : Nat} {poly : Source D} {ops : List (BuildOp D)} {t : Triangles D} {s : St} {g : Trap} [hg : g.Tame]

theorem sameInput_refl (poly : Source D) (ops : List (BuildOp D)) : SameInput poly ops poly ops := sameInput_perm (List.Perm.refl _)

/-- **C52.**  Give the program an input, and the image of the input under a similarity of the plane (a translation, rotation, scaling or reflection, or a combination of them): the
polylines starting anywhere and running in either direction, in any order, by any calls, and perhaps with another number format.  If no input point is inside an input edge, no four points
are on a circle, and in both runs the input edges are in place, then the triangles of the second run are the images of the triangles of the first run. -/
theorem C52_similar {D' : Type} {n' : Num} {fuel' : Nat} {poly' : Source D'} {ops' : List (BuildOp D')} {t' : Triangles D'} {s' : St} (φ : Similarity)
    (hs : SameInput (poly.mapPts φ) (ops.map (·.mapPts φ)) poly' ops') (nc : NoFourCocircular (allPoints (piecesOf poly ops)))
    (hf : FineInput n (allPoints (piecesOf poly ops))) (hf' : FineInput n' (allPoints (piecesOf poly' ops')))
    (hp : NoTouch poly ops) (hp' : NoTouch poly' ops')
    (h : programG g n fuel poly ops = .ok (t, s)) {g' : Trap} [g'.Tame] (h' : programG g' n' fuel' poly' ops' = .ok (t', s'))
    (hc : ConstraintsInPlace (inputEdges poly ops) t.triangles) (hc' : ConstraintsInPlace (inputEdges poly' ops') t'.triangles)
    (h3 : 3 ≤ poly.points.length) (h3' : ∀ H ∈ holesOf ops, 3 ≤ H.length) (hin : ∀ p ∈ extraPoints ops, StrictlyInside poly.points p) :
    ImagesAmong φ (runPts n poly ops) t.triangles t.result (runPts n' poly' ops') t'.triangles t'.result ∧
    AreImages φ (runPts n poly ops) t.triangles t.result (runPts n' poly' ops') t'.triangles t'.result := by
  have t3 : 3 ≤ poly'.points.length := by rw [← hs.polygon.length]; simpa [Source.mapPts] using h3
  have t3' : ∀ H ∈ holesOf ops', 3 ≤ H.length := by
    intro H hH
    obtain ⟨H', k1, k2⟩ := hs.holes' H hH
    rw [φ.holes_map] at k1
    obtain ⟨H0, k0, rfl⟩ := List.mem_map.1 k1
    rw [← k2.length, List.length_map]; exact h3' H0 k0
  have tin : ∀ p ∈ extraPoints ops', StrictlyInside poly'.points p := by
    intro p hp
    have hp := hs.extra hp
    rw [φ.extra_map] at hp
    obtain ⟨q, hq, rfl⟩ := List.mem_map.1 hp
    obtain ⟨k1, k2⟩ := hin q hq
    refine hs.polygon.strict ⟨(φ.inside_app k2).2 k1, fun x hx on => ?_⟩
    have hx : x ∈ cyclicPairs (poly.points.map φ.app) := hx
    rw [cyclic_map] at hx
    obtain ⟨y, hy, rfl⟩ := List.mem_map.1 hx
    exact k2 y hy (φ.onSeg_app.1 on)
  have R := (triangulates_of hf hp h hc h3 h3' hin).1
  have R' := (triangulates_of hf' hp' h' hc' t3 t3' tin).1
  have C := C46_delaunay hf hp h hc h3 h3' fun H hH p hp => hin p (holes_extra hH p hp)
  have C' := C46_delaunay hf' hp' h' hc' t3 t3' fun H hH p hp => tin p (holes_extra hH p hp)
  have E := clear_of hf hp h hc
  have E' := clear_of hf' hp' h' hc'
  have al : ∀ i, i < (allPoints (piecesOf poly ops)).length → ptOf (runPts n poly ops) i ∈ allPoints (piecesOf poly ops) := fun i hi => by
    rw [input_point hi]; exact List.getElem_mem hi
  have al' : ∀ i, i < (allPoints (piecesOf poly' ops')).length → ptOf (runPts n' poly' ops') i ∈ allPoints (piecesOf poly' ops') := fun i hi => by
    rw [input_point hi]; exact List.getElem_mem hi
  have len : (allPoints (piecesOf poly ops)).length ≤ (runPts n poly ops).length := by
    obtain ⟨head, tail, xmax, xmin, ymax, ymin, hpts, -⟩ := ctx_points n (allPoints (piecesOf poly ops)) []
    show _ ≤ (Ctx.new n (allPoints (piecesOf poly ops)) []).points.length
    rw [hpts]; simp
  exact cdt_similar hs len al al' R.off R'.off C C' E E' nc

/-- **C52, total.**  An admissible input and an admissible description of its image under a similarity, no four points on a circle: both runs terminate without panic, and the second
reports exactly the images of the triangles the first reports. -/
theorem C52_total {D' : Type} {n' : Num} {poly' : Source D'} {ops' : List (BuildOp D')} (φ : Similarity) (a : Admissible n poly ops) (a' : Admissible n' poly' ops')
    (hs : SameInput (poly.mapPts φ) (ops.map (·.mapPts φ)) poly' ops') (nc : NoFourCocircular (allPoints (piecesOf poly ops))) :
    ∃ N t s t' s', (∀ fuel, N ≤ fuel → program n fuel poly ops = .ok (t, s) ∧ program n' fuel poly' ops' = .ok (t', s')) ∧
      ImagesAmong φ (runPts n poly ops) t.triangles t.result (runPts n' poly' ops') t'.triangles t'.result ∧
      AreImages φ (runPts n poly ops) t.triangles t.result (runPts n' poly' ops') t'.triangles t'.result := by
  obtain ⟨N, t, s, h1, h2, h4⟩ := C41_total a.fine a.noTouch a.scan a.up a.apart a.ok a.noDip
  obtain ⟨N', t', s', h1', h2', h4'⟩ := C41_total a'.fine a'.noTouch a'.scan a'.up a'.apart a'.ok a'.noDip
  refine ⟨max N N', t, s, t', s', fun fuel hfu => ⟨h1 fuel (by omega), h1' fuel (by omega)⟩, ?_⟩
  exact C52_similar φ hs nc a.fine a'.fine a.noTouch a'.noTouch (h2 N (Nat.le_refl _)) (h2' N' (Nat.le_refl _)) h4 h4' a.three a.three' a.inside

/-- **C52, inside.**  Whether a point off the edges is inside the polygon and outside its holes does not depend on how the drawing is turned, moved, scaled or mirrored. -/
theorem C52_region (φ : Similarity) {q : Point} (off : ∀ ps ∈ poly.points :: holesOf ops, ∀ e ∈ cyclicPairs ps, ¬ OnSeg e.1 e.2 q) :
    InRegion (poly.mapPts φ) (ops.map (·.mapPts φ)) (φ.app q) ↔ InRegion poly ops q := φ.region_app off

end

/-! ## Examples -/

/-- A rotation by a right angle, with a translation. -/
def quarter : Similarity := ⟨0, 1, 3, -2, false, .inr (by decide)⟩
def quarterPoly : Source Nat := ⟨[⟨3, -2⟩, ⟨2, 8⟩, ⟨-9, 7⟩, ⟨-7, -3⟩], [1, 2, 3, 4]⟩
def quarterOps : List (BuildOp Nat) := [.steinerPoint ⟨1, -1⟩ 5, .hole ⟨[⟨0, 1⟩, ⟨-1, 4⟩, ⟨-5, 3⟩], [6, 7, 8]⟩, .steinerPoints ⟨[⟨1, 5⟩], [9]⟩]

/-- A reflection with the scale `√2`. -/
def mirror2 : Similarity := ⟨1, 1, 0, 0, true, .inl (by decide)⟩
def mirrorPoly : Source Nat := ⟨[⟨0, 0⟩, ⟨11, 9⟩, ⟨21, -3⟩, ⟨9, -11⟩], [1, 2, 3, 4]⟩
def mirrorOps : List (BuildOp Nat) := [.steinerPoint ⟨3, -1⟩ 5, .hole ⟨[⟨6, 0⟩, ⟨10, 2⟩, ⟨13, -3⟩], [6, 7, 8]⟩, .steinerPoints ⟨[⟨9, 5⟩], [9]⟩]

theorem quarter_image : exPoly.mapPts quarter = quarterPoly ∧ gpOps.map (·.mapPts quarter) = quarterOps := by
  constructor
  · norm_num [exPoly, Source.mapPts, Similarity.app, quarter, quarterPoly]
  · norm_num [gpOps, BuildOp.mapPts, Source.mapPts, Similarity.app, quarter, quarterOps]

theorem mirror_image : exPoly.mapPts mirror2 = mirrorPoly ∧ gpOps.map (·.mapPts mirror2) = mirrorOps := by
  constructor
  · norm_num [exPoly, Source.mapPts, Similarity.app, mirror2, mirrorPoly]
  · norm_num [gpOps, BuildOp.mapPts, Source.mapPts, Similarity.app, mirror2, mirrorOps]

theorem quarter_admissible : Admissible f64 quarterPoly quarterOps :=
  ⟨⟨by decide +kernel, by decide +kernel, by decide +kernel, by decide +kernel, by decide +kernel, by decide +kernel, by decide, by decide,
    inside_of_check (by decide +kernel)⟩, by decide +kernel⟩

theorem mirror_admissible : Admissible f64 mirrorPoly mirrorOps :=
  ⟨⟨by decide +kernel, by decide +kernel, by decide +kernel, by decide +kernel, by decide +kernel, by decide +kernel, by decide, by decide,
    inside_of_check (by decide +kernel)⟩, by decide +kernel⟩

/-- The example, turned by a right angle and moved. -/
theorem quarter_similar : ∃ N t s t' s', (∀ fuel, N ≤ fuel → program f64 fuel exPoly gpOps = .ok (t, s) ∧ program f64 fuel quarterPoly quarterOps = .ok (t', s')) ∧
    ImagesAmong quarter (runPts f64 exPoly gpOps) t.triangles t.result (runPts f64 quarterPoly quarterOps) t'.triangles t'.result ∧
    AreImages quarter (runPts f64 exPoly gpOps) t.triangles t.result (runPts f64 quarterPoly quarterOps) t'.triangles t'.result :=
  C52_total quarter gp_admissible quarter_admissible (by rw [quarter_image.1, quarter_image.2]; exact sameInput_refl _ _) (by decide +kernel)

/-- The example, mirrored and scaled. -/
theorem mirror_similar : ∃ N t s t' s', (∀ fuel, N ≤ fuel → program f64 fuel exPoly gpOps = .ok (t, s) ∧ program f64 fuel mirrorPoly mirrorOps = .ok (t', s')) ∧
    ImagesAmong mirror2 (runPts f64 exPoly gpOps) t.triangles t.result (runPts f64 mirrorPoly mirrorOps) t'.triangles t'.result ∧
    AreImages mirror2 (runPts f64 exPoly gpOps) t.triangles t.result (runPts f64 mirrorPoly mirrorOps) t'.triangles t'.result :=
  C52_total mirror2 gp_admissible mirror_admissible (by rw [mirror_image.1, mirror_image.2]; exact sameInput_refl _ _) (by decide +kernel)

/-- A point inside the region, not on an edge. -/
example : InRegion exPoly gpOps ⟨2, 1⟩ ∧ ∀ ps ∈ exPoly.points :: holesOf gpOps, ∀ e ∈ cyclicPairs ps, det2 e.1 e.2 ⟨2, 1⟩ ≠ 0 := by unfold InRegion; decide +kernel

end P2T
