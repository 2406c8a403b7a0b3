import Verif.Proofs.FrontLine
import Verif.Proofs.ScanRun

/-!
# Filling during edge events does not panic and clears the way
-/

set_option linter.unusedSectionVars false

namespace P2T

variable {c : Ctx} {M : Nat → Nat → Prop}

/-- The only ways to stop: the fuel, or, under the condition `Z`, the branch at `sweeper.rs:698`. -/
def TErr (Z : Prop) (e : Err) : Prop := e = .fuel ∨ Z ∧ e = .trapped "698"

theorem TErr.fuel {Z : Prop} : TErr Z .fuel := .inl rfl
theorem TErr.trapped {Z : Prop} (h : Z) : TErr Z (.trapped "698") := .inr ⟨h, rfl⟩
theorem Spec.fuelT {α} {Z : Prop} {m : Except Err α} {Q : α → Prop} (h : Spec m (· = .fuel) Q) : Spec m (TErr Z) Q :=
  h.monoE fun _ h => .inl h

/-- Steps that are not edge events neither set nor delete marks. -/
theorem Ext.marks {s s' : St} (h : Ext c s s') {Q} (m : MeshInv c True Q s.tris) (u v : Nat) : Mk s'.tris u v ↔ Mk s.tris u v := by
  constructor
  · exact (h.nn m.csym').2 u v
  · intro k
    rcases m.con k with k | k
    · exact (h.keep _ _ k).mk
    · exact (h.keep _ _ k).mk.symm

/-- The state of a fill for an edge with the lower end `p`, when the points `D` have been swept and the edges `M` are in place. -/
structure Fx (c : Ctx) (M : Nat → Nat → Prop) (Q0 : Nat → Prop) (p : Nat) (D : Nat → Prop) (s : St) : Prop where
  inv : SInv c True Q0 NoP s
  asc : XAsc c s.front.pids
  vtx : Vtx s.tris p
  low : ∀ z ∈ s.front.pids, z = c.head ∨ z = c.tail ∨ D z
  has : ∀ z, D z → Vtx s.tris z
  edges : ∀ u v, M u v → Mk s.tris u v

/-- The nodes at most as far to the right as `p` are still in the front. -/
structure ExtS (c : Ctx) (p : Nat) (s s' : St) : Prop extends Ext c s s' where
  stay : ∀ b ∈ s.front.pids, (c.pos b).x ≤ (c.pos p).x → b ∈ s'.front.pids

theorem ExtS.refl {p : Nat} (s : St) : ExtS c p s s := ⟨.refl _, fun _ h _ => h⟩
theorem ExtS.trans {p : Nat} {s s' s'' : St} (h : ExtS c p s s') (h' : ExtS c p s' s'') : ExtS c p s s'' :=
  ⟨h.toExt.trans h'.toExt, fun b k1 k2 => h'.stay b (h.stay b k1 k2) k2⟩

theorem Ext.drop {p : Nat} {s s' : St} (h : Ext c s s') {L R : List Nat} {n : Nat} (hs : s.front.pids = L ++ n :: R) (hs' : s'.front.pids = L ++ R)
    (hn : (c.pos p).x < (c.pos n).x) : ExtS c p s s' := by
  refine ⟨h, fun b hb k => ?_⟩
  rw [hs] at hb
  rw [hs']
  simp only [List.mem_append, List.mem_cons] at hb ⊢
  rcases hb with hb | rfl | hb
  · exact .inl hb
  · linarith
  · exact .inr hb

theorem XAsc.sub {l l' : List Nat} (h : XAsc c l) (k : l'.Sublist l) : XAsc c l' := List.Pairwise.sublist k h

theorem Fx.next {Q0 p D s s'} (h : Fx c M Q0 p D s) (h1 : SInv c True Q0 NoP s') (h2 : Ext c s s') (h3 : s'.front.pids.Sublist s.front.pids) : Fx c M Q0 p D s' :=
  ⟨h1, h.asc.sub h3, h2.grow _ h.vtx, fun z hz => h.low z (h3.subset hz), fun z hz => h2.grow _ (h.has z hz), fun u v k => (h2.marks h.inv.mesh u v).2 (h.edges u v k)⟩

/-- What the front looks like where the code takes the branch at `sweeper.rs:698`. -/
structure DipC (c : Ctx) (M : Nat → Nat → Prop) (D : Nat → Prop) (p q : Nat) : Prop where
  lt : (c.pos q).x < (c.pos p).x
  dip : ∃ a b d, D a ∧ D b ∧ D d ∧ (c.pos q).x ≤ (c.pos a).x ∧ (c.pos a).x < (c.pos b).x ∧ (c.pos b).x < (c.pos d).x ∧ (c.pos d).x < (c.pos p).x ∧
    0 ≤ det2 (c.pos q) (c.pos p) (c.pos a) ∧ det2 (c.pos q) (c.pos p) (c.pos b) < 0 ∧ det2 (c.pos q) (c.pos p) (c.pos d) < 0 ∧
    det2 (c.pos a) (c.pos b) (c.pos d) ≤ 0 ∧
    (∀ z, D z → (c.pos a).x ≤ (c.pos z).x → (c.pos z).x ≤ (c.pos b).x → det2 (c.pos a) (c.pos b) (c.pos z) ≤ 0) ∧
    (∀ z, D z → (c.pos b).x ≤ (c.pos z).x → (c.pos z).x ≤ (c.pos d).x → det2 (c.pos b) (c.pos d) (c.pos z) ≤ 0) ∧
    ∀ z, z = a ∨ z = b ∨ z = d → ∀ u v, M u v → (c.pos u).x < (c.pos v).x → (c.pos u).x ≤ (c.pos z).x → (c.pos z).x ≤ (c.pos v).x →
      0 ≤ det2 (c.pos u) (c.pos v) (c.pos z)

theorem Fx.cov {Q0 p D s} (h : Fx c M Q0 p D s) (gd : Good c) : CovP c s.front.pids p := cov_of h.inv gd h.asc h.vtx

/-- The edge event goes to the right: the upper end `q` is left of the lower end `p`. -/
structure EdgeR (c : Ctx) (e : CEdge) (p q : Nat) : Prop where
  ep : e.p = c.pos p
  eq : e.q = c.pos q
  lt : (c.pos q).x < (c.pos p).x
  tail : (c.pos p).x < (c.pos c.tail).x
  head : (c.pos c.head).x < (c.pos q).x

/-- The edge event goes to the left. -/
structure EdgeL (c : Ctx) (e : CEdge) (p q : Nat) : Prop where
  ep : e.p = c.pos p
  eq : e.q = c.pos q
  lt : (c.pos p).x < (c.pos q).x
  head : (c.pos c.head).x < (c.pos p).x

/-- A node left of `p` is not the last one. -/
theorem EdgeR.more {e : CEdge} {p q : Nat} (he : EdgeR c e p q) {f : Front} (h : FOk c f) {L R : List Nat} {a : Nat} (hs : f.pids = L ++ a :: R)
    (ha : (c.pos a).x < (c.pos p).x) : ∃ x R', R = x :: R' := by
  cases R with
  | cons x R' => exact ⟨x, R', rfl⟩
  | nil =>
    obtain ⟨l, hl⟩ := h.tailP
    rw [hs] at hl
    have := (List.append_inj' hl rfl).2
    simp only [List.cons.injEq, and_true] at this
    have t := he.tail
    rw [← this] at t
    linarith

theorem EdgeL.more {e : CEdge} {p q : Nat} (he : EdgeL c e p q) {f : Front} (h : FOk c f) {L R : List Nat} {a : Nat} (hs : f.pids = L ++ a :: R)
    (ha : (c.pos p).x < (c.pos a).x) : ∃ L' x, L = L' ++ [x] := by
  rcases eq_nil_or_snoc L with rfl | ⟨L, x, rfl⟩
  · obtain ⟨l, hl⟩ := h.headP
    rw [hs] at hl
    simp only [List.nil_append, List.cons.injEq] at hl
    have t := he.head
    rw [← hl.1] at t
    linarith
  · exact ⟨L, x, rfl⟩

/-- The side test of the code. -/
theorem EdgeR.ccw {e : CEdge} {p q : Nat} (he : EdgeR c e p q) (z : Nat) : orient2d e.q (c.pos z) e.p = .ccw ↔ det2 (c.pos q) (c.pos p) (c.pos z) < 0 := by
  rw [orient_ccw, he.ep, he.eq, det2_swap' (c.pos q) (c.pos z)]
  constructor <;> intro h <;> linarith

theorem EdgeL.cw {e : CEdge} {p q : Nat} (he : EdgeL c e p q) (z : Nat) : orient2d e.q (c.pos z) e.p = .cw ↔ det2 (c.pos p) (c.pos q) (c.pos z) < 0 := by
  rw [orient_cw, he.ep, he.eq]
  have : det2 (c.pos q) (c.pos z) (c.pos p) = det2 (c.pos p) (c.pos q) (c.pos z) := by unfold det2; ring
  rw [this]

section right
variable (gd : Good c) {e : CEdge} {p q : Nat} (he : EdgeR c e p q) {D : Nat → Prop} {Z : Prop}
include gd he

theorem Fx.stepR {Q0 D s} (h : Fx c M Q0 p D s) {a b} (k : Consecutive s.front.pids a b) (ha : det2 (c.pos q) (c.pos p) (c.pos a) < 0)
    (hb : det2 (c.pos q) (c.pos p) (c.pos b) < 0) (hx : (c.pos a).x < (c.pos p).x) : (c.pos b).x < (c.pos p).x :=
  below_right he.lt ha hb (h.asc.step k) hx.le (h.cov gd a b k)

theorem fillRightConcave_clear {fuel0 : Nat} : ∀ (fuel : Nat) {s : St} {Q0 : Nat → Prop}, Fx c M Q0 p D s →
    ∀ {L R : List Nat} {a n x : Nat} {id : NodeId}, s.front.pids = L ++ a :: n :: x :: R → IdFor c id a →
    0 < det2 (c.pos a) (c.pos n) (c.pos x) → det2 (c.pos q) (c.pos p) (c.pos n) < 0 → (c.pos n).x < (c.pos p).x →
    Spec (fillRightConcave c fuel0 e fuel s id) (TErr Z) fun s' => Fx c M Q0 p D s' ∧ Ext c s s' ∧ (∃ R', s'.front.pids = L ++ a :: R') ∧ s'.front.pids.length < s.front.pids.length
  | 0, s, Q0, h, L, R, a, n, x, id, hs, hid, hd, hn, hnx => Spec.error .fuel
  | fuel + 1, s, Q0, h, L, R, a, n, x, id, hs, hid, hd, hn, hnx => by
    unfold fillRightConcave
    obtain ⟨r, k1, k2⟩ := h.inv.front.pLocNext hs hid
    simp only [k1, unwrap_some, ok_bind]
    refine Spec.bind (fillOne_spec h.inv hs k2.id (h.inv.front.mkW hs hd.le) fun k => (hd.ne' k).elim).fuelT ?_
    rintro ⟨s1, ro⟩ ⟨q1, q2, q3, fo, rfl, q4, q5⟩
    dsimp only
    have fx : Fx c M Q0 p D s1 := h.next q1 q2 (by rw [q3, hs]; simp)
    have fin : Spec (pure s1 : Except Err St) (TErr Z) fun s' => Fx c M Q0 p D s' ∧ Ext c s s' ∧ (∃ R', s'.front.pids = L ++ a :: R') ∧ s'.front.pids.length < s.front.pids.length :=
      Spec.ok ⟨fx, q2, ⟨_, q3⟩, by rw [hs, q3]; simp⟩
    split
    · split
      · rename_i _ hc
        rw [q5.2, he.ccw] at hc
        have hxx := h.stepR gd he ⟨L ++ [a], R, by rw [hs]; simp⟩ hn hc hnx
        obtain ⟨y, R, rfl⟩ := he.more q1.front (L := L ++ [a]) (a := x) (R := R) (by rw [q3]; simp) hxx
        obtain ⟨ry, j1, j2⟩ := q1.front.pLocNext (L := L ++ [a]) (p := x) (x := y) (R := R) (by rw [q3]; simp) q5
        simp only [j1, unwrap_some, ok_bind]
        split
        · rename_i ho
          rw [hid.2, q5.2, j2.pt, orient_ccw] at ho
          refine (fillRightConcave_clear fuel fx q3 hid ho hc hxx).mono ?_
          rintro s2 ⟨j1, j2, j3, j4⟩
          exact ⟨j1, q2.trans j2, j3, j4.trans (by rw [hs, q3]; simp)⟩
        · exact fin
      · exact fin
    · exact fin

/-- The right convex scan is trapped or, when repaired, removes a node. -/
theorem fillRightConvex_clear {g : Trap} (hZ : g.l698 = true → Z) (hg : g.Tame) {fuel0 : Nat} : ∀ (fuel : Nat) {s : St} {Q0 : Nat → Prop}, Fx c M Q0 p D s →
    ∀ {L R : List Nat} {a n x : Nat} {id : NodeId}, s.front.pids = L ++ a :: n :: x :: R → IdFor c id a →
    det2 (c.pos q) (c.pos p) (c.pos n) < 0 → det2 (c.pos q) (c.pos p) (c.pos x) < det2 (c.pos q) (c.pos p) (c.pos n) → (c.pos n).x < (c.pos p).x →
    Spec (fillRightConvex g c fuel0 e fuel s id) (TErr Z) fun r => r.2 = true ∧ Fx c M Q0 p D r.1 ∧ Ext c s r.1 ∧
      (∃ R', r.1.front.pids = L ++ a :: n :: R') ∧ r.1.front.pids.length < s.front.pids.length
  | 0, s, Q0, h, L, R, a, n, x, id, hs, hid, hn, hx, hnx => Spec.error .fuel
  | fuel + 1, s, Q0, h, L, R, a, n, x, id, hs, hid, hn, hx, hnx => by
    unfold fillRightConvex
    have hx0 : det2 (c.pos q) (c.pos p) (c.pos x) < 0 := by linarith
    have kc : Consecutive s.front.pids n x := ⟨L ++ [a], R, by rw [hs]; simp⟩
    have hxx := h.stepR gd he kc hn hx0 hnx
    obtain ⟨y, R, rfl⟩ := he.more h.inv.front (L := L ++ [a] ++ [n]) (a := x) (R := R) (by rw [hs]; simp) hxx
    obtain ⟨rn, k1, k2⟩ := h.inv.front.pLocNext hs hid
    obtain ⟨rx, k3, k4⟩ := h.inv.front.pNext k2
    obtain ⟨ry, k5, k6⟩ := h.inv.front.pNext k4
    simp only [k1, unwrap_some, ok_bind, k3, k5]
    rw [k2.pt, k4.pt, k6.pt]
    split
    · rename_i ho
      rw [orient_ccw] at ho
      split
      · rename_i hl
        exact Spec.error (.trapped (hZ hl))
      rename_i hl
      rw [if_pos (hg.tame.resolve_left hl)]
      refine Spec.bind (fillRightConcave_clear gd he fuel0 h (L := L ++ [a]) (a := n) (n := x) (x := y) (R := R) (by rw [hs]; simp) k2.id ho hx0 hxx) ?_
      rintro s1 ⟨j1, j2, ⟨R', j3⟩, j4⟩
      exact Spec.ok ⟨rfl, j1, j2, ⟨R', by rw [j3]; simp⟩, j4⟩
    · rename_i hn'
      rw [orient_ccw, not_lt] at hn'
      rw [if_pos ((he.ccw x).2 hx0)]
      refine (fillRightConvex_clear hZ hg fuel h (L := L ++ [a]) (a := n) (n := x) (x := y) (R := R) (by rw [hs]; simp) k2.id hx0 ?_ hxx).mono ?_
      · exact down_right he.lt (h.asc.step kc) (h.asc.step ⟨L ++ [a] ++ [n], R, by rw [hs]; simp⟩) hn' hx
      rintro r ⟨j0, j1, j2, ⟨R', j3⟩, j4⟩
      exact ⟨j0, j1, j2, ⟨x :: R', by rw [j3]; simp⟩, j4⟩

theorem Fx.dip {Q0 s} (h : Fx c M Q0 p D s) {L R : List Nat} {a n x : Nat} (hs : s.front.pids = L ++ a :: n :: x :: R) (hqa : (c.pos q).x ≤ (c.pos a).x)
    (ha : 0 ≤ det2 (c.pos q) (c.pos p) (c.pos a)) (hn : det2 (c.pos q) (c.pos p) (c.pos n) < 0) (hx : det2 (c.pos q) (c.pos p) (c.pos x) < 0)
    (hnx : (c.pos n).x < (c.pos p).x) (ho : det2 (c.pos a) (c.pos n) (c.pos x) ≤ 0) : DipC c M D p q := by
  have k1 : Consecutive s.front.pids a n := ⟨L, _, hs⟩
  have k2 : Consecutive s.front.pids n x := ⟨L ++ [a], R, by rw [hs]; simp⟩
  have x1 := h.asc.step k1
  have x2 := h.asc.step k2
  have x3 := h.stepR gd he k2 hn hx hnx
  have t := he.tail
  have hd := he.head
  have dz : ∀ z ∈ s.front.pids, (c.pos q).x ≤ (c.pos z).x → (c.pos z).x < (c.pos p).x → D z := by
    intro z hz z1 z2
    rcases h.low z hz with rfl | rfl | k
    · linarith
    · linarith
    · exact k
  refine ⟨he.lt, a, n, x, dz a (by rw [hs]; simp) hqa (by linarith), dz n (by rw [hs]; simp) (by linarith) hnx, dz x (by rw [hs]; simp) (by linarith) x3,
    hqa, x1, x2, x3, ha, hn, hx, ho, ?_, ?_, ?_⟩
  · intro z hz
    exact cov_of h.inv gd h.asc (h.has z hz) a n k1
  · intro z hz
    exact cov_of h.inv gd h.asc (h.has z hz) n x k2
  · intro z hz u v k
    obtain ⟨t, w, n', e', k, -⟩ := h.edges u v k
    refine edge_cov h.inv gd h.asc ⟨t, w, n', e', k⟩ ?_
    rw [hs]
    rcases hz with rfl | rfl | rfl <;> simp

theorem fillRightBelow_clear {g : Trap} (hZ : g.l698 = true → DipC c M D p q → Z) (hg : g.Tame) {fuel0 : Nat} : ∀ (fuel : Nat) {s : St} {Q0 : Nat → Prop}, Fx c M Q0 p D s →
    ∀ {L R : List Nat} {a n : Nat} {id : NodeId}, s.front.pids = L ++ a :: n :: R → IdFor c id a →
    0 ≤ det2 (c.pos q) (c.pos p) (c.pos a) → det2 (c.pos q) (c.pos p) (c.pos n) < 0 → (c.pos n).x < (c.pos p).x → (c.pos q).x ≤ (c.pos a).x →
    Spec (fillRightBelow g c fuel0 e fuel s id) (TErr Z) fun s' => Fx c M Q0 p D s' ∧ Ext c s s' ∧ (∃ R', s'.front.pids = L ++ a :: R') ∧ ((c.pos a).x < (c.pos p).x → s'.front.pids.length < s.front.pids.length)
  | 0, s, Q0, h, L, R, a, n, id, hs, hid, ha, hn, hnx, hqa => Spec.error .fuel
  | fuel + 1, s, Q0, h, L, R, a, n, id, hs, hid, ha, hn, hnx, hqa => by
    unfold fillRightBelow
    split
    · rename_i hq
      rw [hid.2, he.ep] at hq
      exact Spec.ok ⟨h, .refl _, ⟨_, hs⟩, fun k => by linarith⟩
    · obtain ⟨r, k1, k2⟩ := h.inv.front.pGetId hs hid
      obtain ⟨rn, k3, k4⟩ := h.inv.front.pNext k2
      obtain ⟨x, R, rfl⟩ := he.more h.inv.front (L := L ++ [a]) (a := n) (R := R) (by rw [hs]; simp) hnx
      obtain ⟨rx, k5, k6⟩ := h.inv.front.pNext k4
      simp only [k1, unwrap_some, ok_bind, k3, k5]
      split
      · rename_i ho
        rw [k2.pt, k4.pt, k6.pt, orient_ccw] at ho
        exact (fillRightConcave_clear gd he fuel0 h hs hid ho hn hnx).mono fun s' k => ⟨k.1, k.2.1, k.2.2.1, fun _ => k.2.2.2⟩
      · rename_i ho
        rw [k2.pt, k4.pt, k6.pt, orient_ccw, not_lt] at ho
        have hdn := down_right he.lt (h.asc.step ⟨L, _, hs⟩) (h.asc.step ⟨L ++ [a], R, by rw [hs]; simp⟩) ho (by linarith)
        refine Spec.bind (fillRightConvex_clear gd he (fun hl => hZ hl (h.dip gd he hs hqa ha hn (by linarith) hnx ho)) hg fuel0 h hs hid hn hdn hnx) ?_
        rintro ⟨s1, b⟩ ⟨q0, q1, q2, ⟨R', q3⟩, q4⟩
        dsimp only at *
        rw [if_pos q0]
        refine (fillRightBelow_clear hZ hg fuel q1 q3 hid ha hn hnx hqa).mono ?_
        rintro s2 ⟨j1, j2, j3, j4⟩
        exact ⟨j1, q2.trans j2, j3, fun k => (j4 k).trans q4⟩

/-- The nodes between `q` and `p` are above the line. -/
theorem fillRightAbove_clear {g : Trap} (hZ : g.l698 = true → DipC c M D p q → Z) (hg : g.Tame) {fuel0 : Nat} : ∀ (fuel : Nat) {s : St} {Q0 : Nat → Prop}, Fx c M Q0 p D s →
    ∀ {L R : List Nat} {a : Nat} {id : NodeId}, s.front.pids = L ++ a :: R → IdFor c id a →
    0 ≤ det2 (c.pos q) (c.pos p) (c.pos a) → (c.pos a).x < (c.pos p).x → (c.pos q).x ≤ (c.pos a).x →
    (∀ z ∈ L, (c.pos q).x < (c.pos z).x → 0 ≤ det2 (c.pos q) (c.pos p) (c.pos z)) →
    Spec (fillRightAbove g c fuel0 e fuel s id) (TErr Z) fun s' => Fx c M Q0 p D s' ∧ ExtS c q s s' ∧
      ∀ z ∈ s'.front.pids, (c.pos q).x < (c.pos z).x → (c.pos z).x < (c.pos p).x → 0 ≤ det2 (c.pos q) (c.pos p) (c.pos z)
  | 0, s, Q0, h, L, R, a, id, hs, hid, ha, hax, hqa, hL => Spec.error .fuel
  | fuel + 1, s, Q0, h, L, R, a, id, hs, hid, ha, hax, hqa, hL => by
    unfold fillRightAbove
    obtain ⟨n, R, rfl⟩ := he.more h.inv.front hs hax
    obtain ⟨r, k1, k2⟩ := h.inv.front.pLocNext hs hid
    rw [k1]
    dsimp only
    rw [k2.pt]
    split
    · rename_i hn
      refine Spec.ok ⟨h, .refl _, ?_⟩
      intro z hz z1 z2
      rw [hs] at hz
      rcases List.mem_append.1 hz with hz | hz
      · exact hL z hz z1
      rcases List.mem_cons.1 hz with rfl | hz
      · exact ha
      have asc := h.asc
      rw [hs] at asc
      have asc := (List.pairwise_cons.1 (List.pairwise_append.1 asc).2.1).2
      rw [he.ep] at hn
      rcases List.mem_cons.1 hz with rfl | hz
      · linarith
      · have := (List.pairwise_cons.1 asc).1 z hz; linarith
    · rename_i hn
      rw [he.ep] at hn
      rw [ge_iff_le, not_le] at hn
      split
      · rename_i hc
        rw [he.ccw] at hc
        refine Spec.bind (fillRightBelow_clear gd he hZ hg fuel0 h hs hid ha hc hn hqa) ?_
        rintro s1 ⟨q1, q2, ⟨R', q3⟩, -⟩
        replace q2 : ExtS c q s s1 := by
          refine ⟨q2, fun b hb k => ?_⟩
          have asc := h.asc
          rw [hs] at hb asc
          rw [q3]
          simp only [List.mem_append, List.mem_cons] at hb ⊢
          rcases hb with hb | rfl | hb
          · exact .inl hb
          · exact .inr (.inl rfl)
          · have := (List.pairwise_cons.1 (List.pairwise_append.1 asc).2.1).1 b (by simpa using hb)
            linarith
        refine (fillRightAbove_clear hZ hg fuel q1 q3 hid ha hax hqa hL).mono ?_
        rintro s2 ⟨j1, j2, j3⟩
        exact ⟨j1, q2.trans j2, j3⟩
      · rename_i hc
        rw [he.ccw, not_lt] at hc
        refine fillRightAbove_clear hZ hg fuel h (L := L ++ [a]) (a := n) (R := R) (by rw [hs]; simp) k2.id hc hn (hqa.trans (h.asc.step ⟨L, R, hs⟩).le) ?_
        intro z hz z1
        rcases List.mem_append.1 hz with hz | hz
        · exact hL z hz z1
        · rw [List.mem_singleton] at hz; rw [hz]; exact ha

end right

section left
variable (gd : Good c) {e : CEdge} {p q : Nat} (he : EdgeL c e p q) {D : Nat → Prop} {Z : Prop}
include gd he

theorem Fx.stepL {Q0 D s} (h : Fx c M Q0 p D s) {a b} (k : Consecutive s.front.pids a b) (ha : det2 (c.pos p) (c.pos q) (c.pos a) < 0)
    (hb : det2 (c.pos p) (c.pos q) (c.pos b) < 0) (hx : (c.pos p).x < (c.pos b).x) : (c.pos p).x < (c.pos a).x :=
  below_left he.lt ha hb (h.asc.step k) hx.le (h.cov gd a b k)

theorem fillLeftConcave_clear {fuel0 : Nat} : ∀ (fuel : Nat) {s : St} {Q0 : Nat → Prop}, Fx c M Q0 p D s →
    ∀ {L R : List Nat} {a n x : Nat} {id : NodeId}, s.front.pids = L ++ x :: n :: a :: R → IdFor c id a →
    0 < det2 (c.pos x) (c.pos n) (c.pos a) → det2 (c.pos p) (c.pos q) (c.pos n) < 0 → (c.pos p).x < (c.pos n).x →
    Spec (fillLeftConcave c fuel0 e fuel s id) (TErr Z) fun s' => Fx c M Q0 p D s' ∧ ExtS c p s s' ∧ (∃ L', s'.front.pids = L' ++ a :: R) ∧ s'.front.pids.length < s.front.pids.length
  | 0, s, Q0, h, L, R, a, n, x, id, hs, hid, hd, hn, hnx => Spec.error .fuel
  | fuel + 1, s, Q0, h, L, R, a, n, x, id, hs, hid, hd, hn, hnx => by
    unfold fillLeftConcave
    obtain ⟨r, k1, k2⟩ := h.inv.front.pLocPrev (L := L ++ [x]) (x := n) (p := a) (R := R) (by rw [hs]; simp) hid
    simp only [k1, unwrap_some, ok_bind]
    refine Spec.bind (fillOne_spec h.inv hs k2.id (h.inv.front.mkW hs hd.le) fun k => (hd.ne' k).elim).fuelT ?_
    rintro ⟨s1, ro⟩ ⟨q1, q2, q3, fo, rfl, q4, q5⟩
    dsimp only
    have fx : Fx c M Q0 p D s1 := h.next q1 q2 (by rw [q3, hs]; simp)
    replace q2 : ExtS c p s s1 := q2.drop (L := L ++ [x]) (n := n) (R := a :: R) (by rw [hs]; simp) (by rw [q3]; simp) hnx
    have fin : Spec (pure s1 : Except Err St) (TErr Z) fun s' => Fx c M Q0 p D s' ∧ ExtS c p s s' ∧ (∃ L', s'.front.pids = L' ++ a :: R) ∧ s'.front.pids.length < s.front.pids.length :=
      Spec.ok ⟨fx, q2, ⟨L ++ [x], by rw [q3]; simp⟩, by rw [hs, q3]; simp⟩
    split
    · split
      · rename_i _ hc
        rw [q4.2, he.cw] at hc
        have hxx := h.stepL gd he ⟨L, a :: R, hs⟩ hc hn hnx
        obtain ⟨L, y, rfl⟩ := he.more q1.front (L := L) (a := x) (R := a :: R) q3 hxx
        obtain ⟨rx, k3, k4⟩ := q1.front.pGetId q3 q4
        obtain ⟨ry, j1, j2⟩ := q1.front.pPrev k4
        simp only [k3, unwrap_some, ok_bind, j1]
        split
        · rename_i ho
          rw [hid.2, k4.pt, j2.pt, orient_cw] at ho
          refine (fillLeftConcave_clear fuel fx (L := L) (x := y) (n := x) (R := R) (by rw [q3]; simp) hid ?_ hc hxx).mono ?_
          · rw [det2_rev]; linarith
          rintro s2 ⟨j1, j2, j3, j4⟩
          exact ⟨j1, q2.trans j2, j3, j4.trans (by rw [hs, q3]; simp)⟩
        · exact fin
      · exact fin
    · exact fin

/-- The left convex scan always comes back with `true`, and leaves the neighbour alone. -/
theorem fillLeftConvex_clear {fuel0 : Nat} : ∀ (fuel : Nat) {s : St} {Q0 : Nat → Prop}, Fx c M Q0 p D s →
    ∀ {L R : List Nat} {a n x : Nat} {id : NodeId}, s.front.pids = L ++ x :: n :: a :: R → IdFor c id a →
    det2 (c.pos p) (c.pos q) (c.pos n) < 0 → det2 (c.pos p) (c.pos q) (c.pos x) < det2 (c.pos p) (c.pos q) (c.pos n) → (c.pos p).x < (c.pos n).x →
    Spec (fillLeftConvex c fuel0 e fuel s id) (TErr Z) fun r => r.2 = true ∧ Fx c M Q0 p D r.1 ∧ ExtS c p s r.1 ∧ (∃ L', r.1.front.pids = L' ++ n :: a :: R) ∧ r.1.front.pids.length < s.front.pids.length
  | 0, s, Q0, h, L, R, a, n, x, id, hs, hid, hn, hx, hnx => Spec.error .fuel
  | fuel + 1, s, Q0, h, L, R, a, n, x, id, hs, hid, hn, hx, hnx => by
    unfold fillLeftConvex
    have hx0 : det2 (c.pos p) (c.pos q) (c.pos x) < 0 := by linarith
    have kc : Consecutive s.front.pids x n := ⟨L, a :: R, hs⟩
    have hxx := h.stepL gd he kc hx0 hn hnx
    obtain ⟨L, y, rfl⟩ := he.more h.inv.front (L := L) (a := x) (R := n :: a :: R) hs hxx
    obtain ⟨rn, k1, k2⟩ := h.inv.front.pLocPrev (L := (L ++ [y]) ++ [x]) (x := n) (p := a) (R := R) (by rw [hs]; simp) hid
    obtain ⟨rx, k3, k4⟩ := h.inv.front.pPrev k2
    obtain ⟨ry, k5, k6⟩ := h.inv.front.pPrev k4
    simp only [k1, unwrap_some, ok_bind, k3, k5]
    rw [k2.pt, k4.pt, k6.pt]
    split
    · rename_i ho
      rw [orient_cw] at ho
      refine Spec.bind (fillLeftConcave_clear gd he fuel0 h (L := L) (x := y) (n := x) (a := n) (R := a :: R) (by rw [hs]; simp) k2.id
        (by rw [det2_rev]; linarith) hx0 hxx) ?_
      rintro s1 ⟨j1, j2, j3⟩
      exact Spec.ok ⟨rfl, j1, j2, j3⟩
    · rename_i hn'
      rw [orient_cw, not_lt] at hn'
      rw [if_pos ((he.cw x).2 hx0)]
      refine (fillLeftConvex_clear fuel h (L := L) (x := y) (n := x) (a := n) (R := a :: R) (by rw [hs]; simp) k2.id hx0 ?_ hxx).mono ?_
      · exact down_left he.lt (h.asc.step ⟨L, n :: a :: R, by rw [hs]; simp⟩) (h.asc.step kc) (by rw [det2_rev]; linarith) hx
      rintro r ⟨j0, j1, j2, ⟨L', j3⟩, j4⟩
      exact ⟨j0, j1, j2, ⟨L' ++ [x], by rw [j3]; simp⟩, j4⟩

theorem fillLeftBelow_clear {fuel0 : Nat} : ∀ (fuel : Nat) {s : St} {Q0 : Nat → Prop}, Fx c M Q0 p D s →
    ∀ {L R : List Nat} {a n : Nat} {id : NodeId}, s.front.pids = L ++ n :: a :: R → IdFor c id a →
    0 ≤ det2 (c.pos p) (c.pos q) (c.pos a) → det2 (c.pos p) (c.pos q) (c.pos n) < 0 → (c.pos p).x < (c.pos n).x →
    Spec (fillLeftBelow c fuel0 e fuel s id) (TErr Z) fun s' => Fx c M Q0 p D s' ∧ ExtS c p s s' ∧ (∃ L', s'.front.pids = L' ++ a :: R) ∧ ((c.pos p).x < (c.pos a).x → s'.front.pids.length < s.front.pids.length)
  | 0, s, Q0, h, L, R, a, n, id, hs, hid, ha, hn, hnx => Spec.error .fuel
  | fuel + 1, s, Q0, h, L, R, a, n, id, hs, hid, ha, hn, hnx => by
    unfold fillLeftBelow
    split
    · obtain ⟨L, x, rfl⟩ := he.more h.inv.front (L := L) (a := n) (R := a :: R) hs hnx
      obtain ⟨rn, k1, k2⟩ := h.inv.front.pLocPrev (L := L ++ [x]) (x := n) (p := a) (R := R) (by rw [hs]; simp) hid
      obtain ⟨rx, k3, k4⟩ := h.inv.front.pPrev k2
      simp only [k1, unwrap_some, ok_bind, k3]
      split
      · rename_i ho
        rw [hid.2, k2.pt, k4.pt, orient_cw] at ho
        exact (fillLeftConcave_clear gd he fuel0 h (L := L) (x := x) (n := n) (by rw [hs]; simp) hid (by rw [det2_rev]; linarith) hn hnx).mono
          fun s' k => ⟨k.1, k.2.1, k.2.2.1, fun _ => k.2.2.2⟩
      · rename_i ho
        rw [hid.2, k2.pt, k4.pt, orient_cw, not_lt] at ho
        refine Spec.bind (fillLeftConvex_clear gd he fuel0 h (L := L) (x := x) (n := n) (a := a) (R := R) (by rw [hs]; simp) hid hn ?_ hnx) ?_
        · exact down_left he.lt (h.asc.step ⟨L, a :: R, by rw [hs]; simp⟩) (h.asc.step ⟨L ++ [x], R, hs⟩) (by rw [det2_rev]; linarith) (by linarith)
        rintro ⟨s1, b⟩ ⟨q0, q1, q2, ⟨L', q3⟩, q4⟩
        dsimp only at *
        rw [if_pos q0]
        refine (fillLeftBelow_clear fuel q1 q3 hid ha hn hnx).mono ?_
        rintro s2 ⟨j1, j2, j3, j4⟩
        exact ⟨j1, q2.trans j2, j3, fun k => (j4 k).trans q4⟩
    · rename_i hq
      rw [hid.2, he.ep] at hq
      exact Spec.ok ⟨h, .refl _, ⟨L ++ [n], by rw [hs]; simp⟩, fun k => (hq k).elim⟩

theorem fillLeftAbove_clear {fuel0 : Nat} : ∀ (fuel : Nat) {s : St} {Q0 : Nat → Prop}, Fx c M Q0 p D s →
    ∀ {L R : List Nat} {a : Nat} {id : NodeId}, s.front.pids = L ++ a :: R → IdFor c id a →
    0 ≤ det2 (c.pos p) (c.pos q) (c.pos a) → (c.pos p).x < (c.pos a).x →
    (∀ z ∈ R, (c.pos z).x < (c.pos q).x → 0 ≤ det2 (c.pos p) (c.pos q) (c.pos z)) →
    Spec (fillLeftAbove c fuel0 e fuel s id) (TErr Z) fun s' => Fx c M Q0 p D s' ∧ ExtS c p s s' ∧
      ∀ z ∈ s'.front.pids, (c.pos p).x < (c.pos z).x → (c.pos z).x < (c.pos q).x → 0 ≤ det2 (c.pos p) (c.pos q) (c.pos z)
  | 0, s, Q0, h, L, R, a, id, hs, hid, ha, hax, hR => Spec.error .fuel
  | fuel + 1, s, Q0, h, L, R, a, id, hs, hid, ha, hax, hR => by
    unfold fillLeftAbove
    obtain ⟨L, n, rfl⟩ := he.more h.inv.front hs hax
    obtain ⟨r, k1, k2⟩ := h.inv.front.pLocPrev hs hid
    rw [k1]
    dsimp only
    rw [k2.pt]
    split
    · rename_i hn
      refine Spec.ok ⟨h, .refl _, ?_⟩
      intro z hz z1 z2
      rw [hs] at hz
      have asc := h.asc
      rw [hs, List.append_assoc] at asc
      have asc := (List.pairwise_append.1 asc).2.2
      rw [he.ep] at hn
      rcases List.mem_append.1 hz with hz | hz
      · rcases List.mem_append.1 hz with hz | hz
        · have := asc z hz n (by simp); linarith
        · rw [List.mem_singleton] at hz; rw [hz] at z1; linarith
      rcases List.mem_cons.1 hz with rfl | hz
      · exact ha
      · exact hR z hz z2
    · rename_i hn
      rw [he.ep, not_le] at hn
      split
      · rename_i hc
        rw [he.cw] at hc
        refine Spec.bind (fillLeftBelow_clear gd he fuel0 h (L := L) (n := n) (a := a) (R := R) (by rw [hs]; simp) hid ha hc hn) ?_
        rintro s1 ⟨q1, q2, ⟨L', q3⟩, -⟩
        refine (fillLeftAbove_clear fuel q1 q3 hid ha hax hR).mono ?_
        rintro s2 ⟨j1, j2, j3⟩
        exact ⟨j1, q2.trans j2, j3⟩
      · rename_i hc
        rw [he.cw, not_lt] at hc
        refine fillLeftAbove_clear fuel h (L := L) (a := n) (R := a :: R) (by rw [hs]; simp) k2.id hc hn ?_
        intro z hz z1
        rcases List.mem_cons.1 hz with rfl | hz
        · exact ha
        · exact hR z hz z1

end left

/-! ## Both directions -/

/-- Nothing of the front is below the edge. -/
structure Above (c : Ctx) (p q : Nat) (l : List Nat) : Prop where
  right : (c.pos q).x < (c.pos p).x → ∀ z ∈ l, (c.pos q).x < (c.pos z).x → (c.pos z).x < (c.pos p).x → 0 ≤ det2 (c.pos q) (c.pos p) (c.pos z)
  left : (c.pos p).x < (c.pos q).x → ∀ z ∈ l, (c.pos p).x < (c.pos z).x → (c.pos z).x < (c.pos q).x → 0 ≤ det2 (c.pos p) (c.pos q) (c.pos z)

theorem fillEdgeEvent_clear (gd : Good c) {g : Trap} (hg : g.Tame) {fuel : Nat} {s : St} {Q0 D : Nat → Prop} {p q : Nat}
    (h : Fx c M Q0 p D s) (hp : p < c.points.length) (hph : p ≠ c.head) (hpt : p ≠ c.tail) (hqh : q ≠ c.head) (hqt : q ≠ c.tail) {Z : Prop} (hZ : g.l698 = true → DipC c M D p q → Z) {id : NodeId} (hq : q ∈ s.front.pids) (hid : IdFor c id q) :
    Spec (fillEdgeEvent g c fuel s ⟨p, q, c.pos p, c.pos q, decide ((c.pos p).x > (c.pos q).x)⟩ id) (TErr Z) fun s' =>
      Fx c M Q0 p D s' ∧ Above c p q s'.front.pids ∧ ∀ b ∈ s.front.pids, (c.pos b).x ≤ (c.pos p).x → (c.pos b).x ≤ (c.pos q).x → b ∈ s'.front.pids := by
  obtain ⟨L, R, hs⟩ := List.append_of_mem hq
  obtain ⟨e1, e2, -⟩ := gd.enclosed p hp hph hpt
  have asc := h.asc
  rw [hs] at asc
  have ascL := (List.pairwise_append.1 asc).2.2
  have ascR := (List.pairwise_cons.1 (List.pairwise_append.1 asc).2.1).1
  unfold fillEdgeEvent
  simp only
  split
  · rename_i hr
    simp only [gt_iff_lt, decide_eq_true_eq] at hr
    refine (fillRightAbove_clear gd ⟨rfl, rfl, hr, e2, (gd.enclosed q (h.inv.front.pids_lt hq) hqh hqt).1⟩ hZ hg fuel h hs hid (by unfold det2; ring_nf; rfl) hr le_rfl ?_).mono ?_
    · intro z hz z1
      have := ascL z hz q (by simp); linarith
    · rintro s' ⟨j1, j2, j3⟩
      exact ⟨j1, ⟨fun _ => j3, fun k => by linarith⟩, fun b k1 _ k2 => j2.stay b k1 k2⟩
  · rename_i hr
    simp only [gt_iff_lt, decide_eq_true_eq, not_lt] at hr
    rcases eq_or_lt_of_le hr with hr | hr
    · cases fuel with
      | zero => exact Spec.error .fuel
      | succ fuel =>
        unfold fillLeftAbove
        have fin : Spec (pure s : Except Err St) (TErr Z) fun s' => Fx c M Q0 p D s' ∧ Above c p q s'.front.pids ∧ ∀ b ∈ s.front.pids, (c.pos b).x ≤ (c.pos p).x → (c.pos b).x ≤ (c.pos q).x → b ∈ s'.front.pids :=
          Spec.ok ⟨h, ⟨fun k => by linarith, fun k => by linarith⟩, fun _ k _ _ => k⟩
        rcases eq_nil_or_snoc L with rfl | ⟨L, n, rfl⟩
        · rw [h.inv.front.pLocPrev_nil hs hid]; exact fin
        obtain ⟨r, k1, k2⟩ := h.inv.front.pLocPrev hs hid
        rw [k1]
        dsimp only
        rw [k2.pt, if_pos]
        · exact fin
        · have := ascL n (by simp) q (by simp); linarith
    · refine (fillLeftAbove_clear gd ⟨rfl, rfl, hr, e1⟩ fuel h hs hid (by unfold det2; ring_nf; rfl) hr ?_).mono ?_
      · intro z hz z1
        have := ascR z hz; linarith
      · rintro s' ⟨j1, j2, j3⟩
        exact ⟨j1, ⟨fun k => by linarith, fun _ => j3⟩, fun b k1 k2 _ => j2.stay b k1 k2⟩

theorem ProperCross.apart {u v x y : Point} (h : ProperCross u v x y) {m : Rat} (h1 : u.x ≤ m) (h2 : v.x ≤ m) (h3 : m ≤ x.x) (h4 : m ≤ y.x)
    (hn : u.x < v.x ∨ v.x < u.x) : False := by
  obtain ⟨X, ⟨s, s0, s1, e⟩, ⟨r, r0, r1, e'⟩⟩ := h.point
  have a1 : X.x = (mix s u v).x := by rw [e]
  have a2 : X.x = (mix r x y).x := by rw [e']
  simp only [mix] at a1 a2
  have b2 : m ≤ X.x := by
    have := mul_nonneg r0.le (show 0 ≤ y.x - m by linarith)
    have := mul_nonneg (show 0 ≤ 1 - r by linarith) (show 0 ≤ x.x - m by linarith)
    nlinarith
  have g1 := mul_nonneg s0.le (show 0 ≤ m - v.x by linarith)
  have g2 := mul_nonneg (show 0 ≤ 1 - s by linarith) (show 0 ≤ m - u.x by linarith)
  rcases hn with hn | hn
  · have := mul_pos (show 0 < 1 - s by linarith) (show 0 < m - u.x by linarith); nlinarith
  · have := mul_pos s0 (show 0 < m - v.x by linarith); nlinarith

theorem ProperCross.apart' {u v x y : Point} (h : ProperCross u v x y) {m : Rat} (h1 : m ≤ u.x) (h2 : m ≤ v.x) (h3 : x.x ≤ m) (h4 : y.x ≤ m)
    (hn : u.x < v.x ∨ v.x < u.x) : False := by
  obtain ⟨X, ⟨s, s0, s1, e⟩, ⟨r, r0, r1, e'⟩⟩ := h.point
  have a1 : X.x = (mix s u v).x := by rw [e]
  have a2 : X.x = (mix r x y).x := by rw [e']
  simp only [mix] at a1 a2
  have b2 : X.x ≤ m := by
    have := mul_nonneg r0.le (show 0 ≤ m - y.x by linarith)
    have := mul_nonneg (show 0 ≤ 1 - r by linarith) (show 0 ≤ m - x.x by linarith)
    nlinarith
  have g1 := mul_nonneg s0.le (show 0 ≤ v.x - m by linarith)
  have g2 := mul_nonneg (show 0 ≤ 1 - s by linarith) (show 0 ≤ u.x - m by linarith)
  rcases hn with hn | hn
  · have := mul_pos s0 (show 0 < v.x - m by linarith); nlinarith
  · have := mul_pos (show 0 < 1 - s by linarith) (show 0 < u.x - m by linarith); nlinarith

/-- An edge of the front does not cross the edge being inserted. -/
theorem Above.cross {p q : Nat} {l : List Nat} (h : Above c p q l) (asc : XAsc c l) (cov : CovP c l p) (hq : q ∈ l) {a b : Nat}
    (k : Consecutive l a b) : ¬ ProperCross (c.pos a) (c.pos b) (c.pos q) (c.pos p) := by
  intro X
  have hab := asc.step k
  obtain ⟨x1, x2⟩ := id X
  have sgn : ∀ {u v : Rat}, u * v < 0 → (0 < u ∧ v < 0) ∨ (u < 0 ∧ 0 < v) := fun h => mul_neg_iff.1 h
  rcases asc.side k hq with rfl | rfl | hs | hs
  · rw [(det2_same _ _).1, zero_mul] at x1; exact lt_irrefl _ x1
  · have : det2 (c.pos a) (c.pos q) (c.pos q) = 0 := by unfold det2; ring
    rw [this, zero_mul] at x1; exact lt_irrefl _ x1
  · by_cases hp : (c.pos p).x ≤ (c.pos a).x
    · exact X.apart' le_rfl hab.le hs.le hp (.inl hab)
    · rw [not_le] at hp
      have A := h.right (by linarith) a k.mem.1 hs hp
      rcases sgn x2 with ⟨ha, hb⟩ | ⟨ha, -⟩
      swap
      · linarith
      by_cases hbp : (c.pos b).x < (c.pos p).x
      · have := h.right (by linarith) b k.mem.2 (by linarith) hbp
        linarith
      · have cv := cov a b k hp.le (not_lt.1 hbp)
        rcases sgn x1 with ⟨y1, y2⟩ | ⟨-, y2⟩
        · have e := line_id (c.pos q) (c.pos p) (c.pos a) (c.pos b)
          have g1 := mul_pos (show 0 < (c.pos b).x - (c.pos q).x by linarith) ha
          have g2 := mul_pos_of_neg_of_neg (show (c.pos q).x - (c.pos a).x < 0 by linarith) hb
          have g3 := mul_pos (show 0 < (c.pos p).x - (c.pos q).x by linarith) y1
          linarith
        · linarith
  · by_cases hp : (c.pos b).x ≤ (c.pos p).x
    · exact X.apart hab.le le_rfl hs.le hp (.inl hab)
    · rw [not_le] at hp
      have A := h.left (by linarith) b k.mem.2 hp hs
      have sw : ∀ z, det2 (c.pos q) (c.pos p) z = - det2 (c.pos p) (c.pos q) z := fun z => det2_swap _ _ _
      rw [sw, sw, neg_mul_neg] at x2
      rcases sgn x2 with ⟨-, hb⟩ | ⟨ha, hb⟩
      · linarith
      by_cases hbp : (c.pos p).x < (c.pos a).x
      · have := h.left (by linarith) a k.mem.1 hbp (by linarith)
        linarith
      · have cv := cov a b k (not_lt.1 hbp) hp.le
        rcases sgn x1 with ⟨y1, y2⟩ | ⟨-, y2⟩
        · have e := line_id' (c.pos p) (c.pos q) (c.pos a) (c.pos b)
          have g1 := mul_pos_of_neg_of_neg (show (c.pos b).x - (c.pos q).x < 0 by linarith) ha
          have g2 := mul_pos (show 0 < (c.pos q).x - (c.pos a).x by linarith) hb
          have g3 := mul_pos (show 0 < (c.pos q).x - (c.pos p).x by linarith) y1
          linarith
        · linarith

theorem Below.y_le {p q : Point} (h : Below p q) : p.y ≤ q.y := by
  rcases h with h | h
  · exact h.le
  · exact le_of_eq h.1

/-- After the fill the edge is free. -/
theorem Above.clr (gd : Good c) {s : St} {Q0 D : Nat → Prop} {p q : Nat} (hx : Fx c M Q0 p D s) (h : Above c p q s.front.pids)
    (hp : p < c.points.length) (hph : p ≠ c.head) (hpt : p ≠ c.tail) (hq : q ∈ s.front.pids) (hqh : q ≠ c.head) (hqt : q ≠ c.tail)
    (hy : (c.pos p).y ≤ (c.pos q).y) (top : ∀ z, Vtx s.tris z → (c.pos z).y ≤ (c.pos q).y) : Clr c.pos s.tris q p .top := by
  intro t u v b
  have hql := hx.inv.front.pids_lt hq
  rcases hx.inv.bd.cov b with ⟨rfl, rfl⟩ | ⟨τ, k, -⟩
  · refine ⟨?_, fun _ k => ?_⟩
    · rintro ⟨x1, -⟩
      have pos : ∀ z, z < c.points.length → z ≠ c.head → z ≠ c.tail → 0 < det2 (c.pos c.head) (c.pos c.tail) (c.pos z) := by
        intro z h1 h2 h3
        have := gd.enclosed z h1 h2 h3
        have e : det2 (c.pos c.head) (c.pos c.tail) (c.pos z) = ((c.pos c.tail).x - (c.pos c.head).x) * ((c.pos z).y - (c.pos c.head).y) := by
          unfold det2; rw [← gd.flat]; ring
        rw [e]
        exact mul_pos (by have := gd.wide; linarith) (by linarith)
      have := mul_pos (pos q hql hqh hqt) (pos p hp hph hpt)
      linarith
    · rcases k with k | k
      · exact (hqh k.symm).elim
      · exact (hqt k.symm).elim
  · obtain ⟨L, x, y, R, e, rfl, -, rfl⟩ := fedges_mem k
    have kc : Consecutive s.front.pids x.pid y.pid := ⟨L.map (·.pid), R.map (·.pid), by unfold Front.pids; rw [e]; simp⟩
    generalize x.pid = a at *
    generalize y.pid = d at *
    have cov := hx.cov gd
    have had := hx.asc.step kc
    refine ⟨fun X => h.cross hx.asc cov hq kc X.swap, ?_⟩
    obtain ⟨w, e', sl⟩ := b
    have t1 := top _ sl.vtx.2.1
    have t2 := top _ sl.vtx.2.2
    rintro - (rfl | rfl)
    · -- the edge to the left of `q`
      rcases lt_or_ge (c.pos p).x (c.pos d).x with hpq | hpq
      · rcases lt_or_ge (c.pos p).x (c.pos a).x with hpa | hpa
        · have := h.left hpq a kc.mem.1 hpa had
          have e : det2 (c.pos d) (c.pos a) (c.pos p) = det2 (c.pos p) (c.pos d) (c.pos a) := by unfold det2; ring
          rw [e]; exact this
        · have := cov _ _ kc hpa hpq.le
          rw [det2_swap]; linarith
      · have e : det2 (c.pos d) (c.pos a) (c.pos p) = ((c.pos d).x - (c.pos a).x) * ((c.pos d).y - (c.pos p).y) + ((c.pos d).y - (c.pos a).y) * ((c.pos p).x - (c.pos d).x) := by
          unfold det2; ring
        rw [e]
        exact add_nonneg (mul_nonneg (by linarith) (by linarith)) (mul_nonneg (by linarith) (by linarith))
    · rcases lt_or_ge (c.pos a).x (c.pos p).x with hpq | hpq
      · rcases lt_or_ge (c.pos d).x (c.pos p).x with hpa | hpa
        · have := h.right hpq d kc.mem.2 had hpa
          have e : det2 (c.pos d) (c.pos a) (c.pos p) = det2 (c.pos a) (c.pos p) (c.pos d) := by unfold det2; ring
          rw [e]; exact this
        · have := cov _ _ kc hpq.le hpa
          rw [det2_swap]; linarith
      · have e : det2 (c.pos d) (c.pos a) (c.pos p) = ((c.pos d).x - (c.pos a).x) * ((c.pos a).y - (c.pos p).y) + ((c.pos a).y - (c.pos d).y) * ((c.pos a).x - (c.pos p).x) := by
          unfold det2; ring
        rw [e]
        exact add_nonneg (mul_nonneg (by linarith) (by linarith)) (mul_nonneg (by linarith) (by linarith))

end P2T
