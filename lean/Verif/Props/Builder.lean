import Verif.Proofs.Build
import Verif.Model.F64

/-!
# C01, C02, C03: what the builder keeps and when it refuses
-/

namespace P2T

theorem run_points {D} {fuel : Nat} {cdt : CDT D} {t s} (h : cdt.run fuel = .ok (t, s)) :
    t.points = cdt.points ∧ t.data = cdt.data ∧ t.result = s.result ∧ t.triangles = s.tris ∧ t.next = 0 := by
  simp only [CDT.run, CDT.runG, bind_ok, pure_ok, Except.ok.injEq, Prod.mk.injEq] at h
  obtain ⟨s0, -, s1, -, s2, -, rfl, rfl⟩ := h
  exact ⟨rfl, rfl, rfl, rfl, rfl⟩

theorem program_ok {D} {n fuel} {poly : Source D} {ops t s} (h : program n fuel poly ops = .ok (t, s)) :
    ∃ b, buildChain poly ops = .ok b ∧ (b.build n).run fuel = .ok (t, s) := bind_ok.1 h

theorem pts_build (n : Num) (pb : PointsBuilder) : (pb.build n).pointsWithoutFake = pb.points := by
  simp [PointsBuilder.build, Ctx.new, Ctx.pointsWithoutFake]

/-- **C01.**  Whatever chain of builder calls is made, `points()` of the finished triangulation is the
concatenation of the points passed in, in call order. -/
theorem C01_points_in_call_order {D} {n fuel} {poly : Source D} {ops t s}
    (hn : (allPoints (piecesOf poly ops)).length ≤ 2 ^ 32)
    (h : program n fuel poly ops = .ok (t, s)) : t.pts = allPoints (piecesOf poly ops) := by
  obtain ⟨b, hb, hr⟩ := program_ok h
  rcases buildChain_spec poly ops hn with ⟨-, b', h1, -, h3, -⟩ | ⟨-, h1⟩
  · rw [hb] at h1; cases h1
    unfold Triangles.pts
    rw [(run_points hr).1]
    exact (pts_build n b.pb).trans (by simpa [PointsBuilder.empty] using h3)
  · rw [hb] at h1; cases h1

/-- The same for `points()` while the builder is only built, i.e. without any assumption that the
triangulation succeeds: the context the sweep works on starts with the input points. -/
theorem C01_built_points {D} (n : Num) {poly : Source D} {ops b}
    (hn : (allPoints (piecesOf poly ops)).length ≤ 2 ^ 32) (h : buildChain poly ops = .ok b) :
    (b.build n).points.pointsWithoutFake = allPoints (piecesOf poly ops) := by
  rcases buildChain_spec poly ops hn with ⟨-, b', h1, -, h3, -⟩ | ⟨-, h1⟩
  · rw [h] at h1; cases h1
    exact (pts_build n b.pb).trans (by simpa [PointsBuilder.empty] using h3)
  · rw [h] at h1; cases h1

/-- The data passed in, in call order. -/
def allData {D} (poly : Source D) (ops : List (BuildOp D)) : List D := poly.data ++ ops.flatMap BuildOp.datas

/-- One call carries as many data items as points. -/
def BuildOp.Aligned {D} : BuildOp D → Prop
  | .steinerPoint _ _ => True
  | .steinerPoints s => s.points.length = s.data.length
  | .hole s => s.points.length = s.data.length
  | .holes ss => ∀ s ∈ ss, s.points.length = s.data.length

/-- The points of one call with their data. -/
def BuildOp.tagged {D} : BuildOp D → List (Point × D)
  | .steinerPoint p d => [(p, d)]
  | .steinerPoints s => s.points.zip s.data
  | .hole s => s.points.zip s.data
  | .holes ss => ss.flatMap fun s => s.points.zip s.data

theorem zip_flatMap {α β γ} (f : α → List β) (g : α → List γ) : ∀ (l : List α), (∀ a ∈ l, (f a).length = (g a).length) →
    (l.flatMap f).zip (l.flatMap g) = l.flatMap fun a => (f a).zip (g a)
  | [], _ => rfl
  | a :: l, h => by
    rw [List.flatMap_cons, List.flatMap_cons, List.flatMap_cons, List.zip_append (h a (by simp)),
      zip_flatMap f g l fun b hb => h b (by simp [hb])]

theorem length_flatMap_congr {α β γ} (f : α → List β) (g : α → List γ) : ∀ (l : List α),
    (∀ a ∈ l, (f a).length = (g a).length) → (l.flatMap f).length = (l.flatMap g).length
  | [], _ => rfl
  | a :: l, h => by
    rw [List.flatMap_cons, List.flatMap_cons, List.length_append, List.length_append, h a (by simp),
      length_flatMap_congr f g l fun b hb => h b (by simp [hb])]

theorem aligned_op {D} (o : BuildOp D) (h : o.Aligned) :
    (allPoints o.pieces).length = o.datas.length ∧ (allPoints o.pieces).zip o.datas = o.tagged := by
  cases o with
  | steinerPoint p d => simp [BuildOp.pieces, BuildOp.datas, BuildOp.tagged, allPoints, Piece.pts]
  | steinerPoints s => simpa [BuildOp.pieces, BuildOp.datas, BuildOp.tagged, allPoints, Piece.pts, BuildOp.Aligned] using h
  | hole s => simpa [BuildOp.pieces, BuildOp.datas, BuildOp.tagged, allPoints, Piece.pts, BuildOp.Aligned] using h
  | holes ss =>
    have e : allPoints (BuildOp.holes ss).pieces = ss.flatMap (·.points) := by
      simp [BuildOp.pieces, allPoints, List.flatMap_map, Piece.pts]
    rw [e]
    exact ⟨length_flatMap_congr _ _ ss h, zip_flatMap _ _ ss h⟩

/-- **C02.**  If every source carries as many data items as points, then after any chain of calls
`data()` has as many items as `points()`, and pairing them up gives back the points with the data they
were passed with. -/
theorem C02_data_aligned {D} {n fuel} {poly : Source D} {ops t s}
    (hn : (allPoints (piecesOf poly ops)).length ≤ 2 ^ 32)
    (hp : poly.points.length = poly.data.length) (ho : ∀ o ∈ ops, o.Aligned)
    (h : program n fuel poly ops = .ok (t, s)) :
    t.getData.length = t.pts.length ∧
    t.pts.zip t.getData = poly.points.zip poly.data ++ ops.flatMap BuildOp.tagged := by
  have h1 := C01_points_in_call_order hn h
  have h2 : t.getData = poly.data ++ ops.flatMap BuildOp.datas := by
    obtain ⟨b, hb, hr⟩ := program_ok h
    rcases buildChain_spec poly ops hn with ⟨-, b', h1, -, -, h3⟩ | ⟨-, h1⟩
    · rw [hb] at h1; cases h1
      exact (run_points hr).2.1.trans (show b.data = _ by simpa using h3)
    · rw [hb] at h1; cases h1
  have e : allPoints (piecesOf poly ops) = poly.points ++ ops.flatMap (fun o => allPoints o.pieces) := by
    simp [piecesOf, allPoints, Piece.pts, List.flatMap_assoc]
  rw [h1, h2, e]
  have l := length_flatMap_congr (fun o => allPoints o.pieces) BuildOp.datas ops fun o h => (aligned_op o (ho o h)).1
  refine ⟨by simp only [List.length_append, l, hp], ?_⟩
  rw [List.zip_append hp, zip_flatMap _ _ _ fun o h => (aligned_op o (ho o h)).1]
  congr 1
  induction ops with
  | nil => rfl
  | cons o os ih =>
    simp only [List.flatMap_cons]
    rw [(aligned_op o (ho o (by simp))).2]
    congr 1
    clear ih hn h h1 h2 e l
    induction os with
    | nil => rfl
    | cons o' os ih =>
      simp only [List.flatMap_cons]
      rw [(aligned_op o' (ho o' (by simp))).2, ih (fun x hx => ho x (by simp at hx ⊢; tauto))]

/-- **C03.**  Building panics if and only if some polygon or hole has two equal cyclically consecutive
points; every other chain of calls succeeds (in particular Steiner calls never panic, and the limit of
two upper edges per point is never hit). -/
theorem C03_panics_iff_repeat {D} (poly : Source D) (ops : List (BuildOp D))
    (hn : (allPoints (piecesOf poly ops)).length ≤ 2 ^ 32) :
    (buildChain poly ops = .error (.panic "repeat points") ↔ ∃ ps, Piece.polyline ps ∈ piecesOf poly ops ∧ ¬ NoRepeat ps) ∧
    ((∃ b, buildChain poly ops = .ok b) ↔ ∀ ps, Piece.polyline ps ∈ piecesOf poly ops → NoRepeat ps) := by
  have key : (∀ p ∈ piecesOf poly ops, p.Ok) ↔ ∀ ps, Piece.polyline ps ∈ piecesOf poly ops → NoRepeat ps := by
    constructor
    · intro h ps hps; exact h _ hps
    · intro h p hp
      cases p with
      | polyline ps => exact h ps hp
      | steiner ps => trivial
  have key2 : (∃ ps, Piece.polyline ps ∈ piecesOf poly ops ∧ ¬ NoRepeat ps) ↔ ¬ ∀ p ∈ piecesOf poly ops, p.Ok := by
    rw [key]; push Not; rfl
  rw [key2, ← key]
  rcases buildChain_spec poly ops hn with ⟨ho, b', h1, -⟩ | ⟨ho, h1⟩
  · rw [h1]
    exact ⟨⟨fun h => (by cases h), fun h => (h ho).elim⟩, ⟨fun _ => ho, fun _ => ⟨b', rfl⟩⟩⟩
  · rw [h1]
    exact ⟨⟨fun _ => ho, fun _ => rfl⟩, ⟨fun ⟨b, h⟩ => (by cases h), fun h => (ho h).elim⟩⟩

/-- What `NoRepeat` says: no point equals its cyclic successor. -/
theorem noRepeat_iff (ps : List Point) : NoRepeat ps ↔
    ∀ i, (h : i < ps.length) → ps[i] ≠ ps[(i + 1) % ps.length]'(Nat.mod_lt _ (by omega)) := by
  cases ps with
  | nil => simp [NoRepeat, cyclicPairs]
  | cons a l =>
    have e : ∀ i (h : i < (a :: l).length), (l ++ [a])[i]'(by simpa using h) =
        (a :: l)[(i + 1) % (a :: l).length]'(Nat.mod_lt _ (by simp)) := by
      intro i h
      simp only [List.length_cons] at h
      by_cases hi : i + 1 < l.length + 1
      · simp only [List.length_cons, Nat.mod_eq_of_lt hi, List.getElem_cons_succ]
        rw [List.getElem_append_left (by omega)]
      · have : i = l.length := by omega
        subst this
        simp
    unfold NoRepeat cyclicPairs
    constructor
    · intro h i hi
      rw [← e i hi]
      refine h ((a :: l)[i], (l ++ [a])[i]'(by simpa using hi)) ?_
      rw [List.mem_iff_getElem]
      exact ⟨i, by simpa using hi, by simp⟩
    · intro h x hx
      rw [List.mem_iff_getElem] at hx
      obtain ⟨i, hi, rfl⟩ := hx
      simp only [List.length_zip, List.length_cons, List.length_append, List.length_nil] at hi
      simp only [List.getElem_zip]
      rw [e i (by simp; omega)]
      exact h i (by simp; omega)

/-! Concrete inputs: a square with a triangular hole and a Steiner point; a polygon with a repeated
neighbour. -/

def exPoly : Source Nat := ⟨[⟨0, 0⟩, ⟨10, 1⟩, ⟨9, 12⟩, ⟨-1, 10⟩], [1, 2, 3, 4]⟩
def exOps : List (BuildOp Nat) :=
  [.steinerPoint ⟨1, 2⟩ 5, .hole ⟨[⟨3, 3⟩, ⟨6, 4⟩, ⟨5, 7⟩], [6, 7, 8]⟩, .steinerPoints ⟨[⟨7, 2⟩], [9]⟩]

example : (allPoints (piecesOf exPoly exOps)).length ≤ 2 ^ 32 ∧ exPoly.points.length = exPoly.data.length ∧
    (∀ o ∈ exOps, o.Aligned) ∧ (∃ b, buildChain exPoly exOps = .ok b) := by
  refine ⟨by decide, rfl, ?_, _, rfl⟩
  simp [exOps, BuildOp.Aligned]

/-- The whole program runs on it, in real double precision. -/
example : (program f64 200 exPoly exOps).toBool = true := by decide +kernel

example : buildChain (⟨[⟨0, 0⟩, ⟨1, 0⟩, ⟨0, 0⟩], []⟩ : Source Nat) [] = .error (.panic "repeat points") := rfl

end P2T
