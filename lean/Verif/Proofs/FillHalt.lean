import Verif.Proofs.Halt
import Verif.Proofs.FillClear

/-!
# The filling of edge events halts
-/

set_option linter.unusedSectionVars false

namespace P2T

variable {c : Ctx} {M : Nat → Nat → Prop}

section right
variable (gd : Good c) {e : CEdge} {p q : Nat} (he : EdgeR c e p q) {D : Nat → Prop}
include gd he

theorem fillRightConcave_hal : ∀ (m : Nat) {s : St} {Q0 : Nat → Prop}, Fx c M Q0 p D s → s.front.pids.length ≤ m →
    ∀ {L R : List Nat} {a n x : Nat} {id : NodeId}, s.front.pids = L ++ a :: n :: x :: R → IdFor c id a →
    0 < det2 (c.pos a) (c.pos n) (c.pos x) → det2 (c.pos q) (c.pos p) (c.pos n) < 0 → (c.pos n).x < (c.pos p).x →
    Hal fun f0 f => fillRightConcave c f0 e f s id
  | 0, s, Q0, h, hm, L, R, a, n, x, id, hs, hid, hd, hn, hnx => by rw [hs] at hm; simp at hm
  | m + 1, s, Q0, h, hm, L, R, a, n, x, id, hs, hid, hd, hn, hnx => by
    refine Hal.succ ?_
    simp only [fillRightConcave]
    obtain ⟨r, k1, k2⟩ := h.inv.front.pLocNext hs hid
    simp only [k1, unwrap_some, ok_bind]
    have hw := h.inv.front.mkW hs hd.le
    refine Hal.bind (fillOne_hal h.inv hs k2.id hw fun k => (hd.ne' k).elim) (fun _ _ => fillOne_spec h.inv hs k2.id hw fun k => (hd.ne' k).elim) ?_
    rintro ⟨s1, ro⟩ ⟨q1, q2, q3, fo, rfl, q4, q5⟩
    have fx : Fx c M Q0 p D s1 := h.next q1 q2 (by rw [q3, hs]; simp)
    refine Hal.ite (fun _ => Hal.ite (fun hc => ?_) fun _ => Hal.pure) fun _ => Hal.pure
    rw [q5.2, he.ccw] at hc
    have hxx := h.stepR gd he ⟨L ++ [a], R, by rw [hs]; simp⟩ hn hc hnx
    obtain ⟨y, R, rfl⟩ := he.more q1.front (L := L ++ [a]) (a := x) (R := R) (by rw [q3]; simp) hxx
    obtain ⟨ry, j1, j2⟩ := q1.front.pLocNext (L := L ++ [a]) (p := x) (x := y) (R := R) (by rw [q3]; simp) q5
    simp only [j1, unwrap_some, ok_bind]
    refine Hal.ite (fun ho => ?_) fun _ => Hal.pure
    rw [hid.2, q5.2, j2.pt, orient_ccw] at ho
    exact fillRightConcave_hal m fx (len_drop hs q3 hm) q3 hid ho hc hxx

theorem fillRightConvex_hal {g : Trap} (hg : g.Tame) : ∀ (R : List Nat) {s : St} {Q0 : Nat → Prop}, Fx c M Q0 p D s →
    ∀ {L : List Nat} {a n x : Nat} {id : NodeId}, s.front.pids = L ++ a :: n :: x :: R → IdFor c id a →
    det2 (c.pos q) (c.pos p) (c.pos n) < 0 → det2 (c.pos q) (c.pos p) (c.pos x) < det2 (c.pos q) (c.pos p) (c.pos n) → (c.pos n).x < (c.pos p).x →
    Hal fun f0 f => fillRightConvex g c f0 e f s id
  | R, s, Q0, h, L, a, n, x, id, hs, hid, hn, hx, hnx => by
    refine Hal.succ ?_
    simp only [fillRightConvex]
    have hx0 : det2 (c.pos q) (c.pos p) (c.pos x) < 0 := by linarith
    have kc : Consecutive s.front.pids n x := ⟨L ++ [a], R, by rw [hs]; simp⟩
    have hxx := h.stepR gd he kc hn hx0 hnx
    obtain ⟨y, R', rfl⟩ := he.more h.inv.front (L := L ++ [a] ++ [n]) (a := x) (R := R) (by rw [hs]; simp) hxx
    obtain ⟨rn, k1, k2⟩ := h.inv.front.pLocNext hs hid
    obtain ⟨rx, k3, k4⟩ := h.inv.front.pNext k2
    obtain ⟨ry, k5, k6⟩ := h.inv.front.pNext k4
    simp only [k1, unwrap_some, ok_bind, k3, k5, k2.pt, k4.pt, k6.pt]
    refine Hal.ite (fun ho => Hal.ite (fun _ => Hal.error (by simp)) fun hl => ?_) fun hn' => Hal.ite (fun _ => ?_) fun _ => Hal.pure
    · rw [orient_ccw] at ho
      simp only [if_pos (hg.tame.resolve_left hl)]
      have hs2 : s.front.pids = (L ++ [a]) ++ n :: x :: y :: R' := by rw [hs]; simp
      exact Hal.bind (fillRightConcave_hal gd he _ h (Nat.le_refl _) hs2 k2.id ho hx0 hxx).diag
        (fun f _ => fillRightConcave_clear (Z := True) gd he f h hs2 k2.id ho hx0 hxx) fun _ _ => Hal.pure
    rw [orient_ccw, not_lt] at hn'
    refine fillRightConvex_hal hg R' h (L := L ++ [a]) (a := n) (n := x) (x := y) (by rw [hs]; simp) k2.id hx0 ?_ hxx
    exact down_right he.lt (h.asc.step kc) (h.asc.step ⟨L ++ [a] ++ [n], R', by rw [hs]; simp⟩) hn' hx
termination_by R => R.length

theorem fillRightBelow_hal {g : Trap} (hg : g.Tame) : ∀ (m : Nat) {s : St} {Q0 : Nat → Prop}, Fx c M Q0 p D s → s.front.pids.length ≤ m →
    ∀ {L R : List Nat} {a n : Nat} {id : NodeId}, s.front.pids = L ++ a :: n :: R → IdFor c id a →
    0 ≤ det2 (c.pos q) (c.pos p) (c.pos a) → det2 (c.pos q) (c.pos p) (c.pos n) < 0 → (c.pos n).x < (c.pos p).x →
    Hal fun f0 f => fillRightBelow g c f0 e f s id
  | 0, s, Q0, h, hm, L, R, a, n, id, hs, hid, ha, hn, hnx => by rw [hs] at hm; simp at hm
  | m + 1, s, Q0, h, hm, L, R, a, n, id, hs, hid, ha, hn, hnx => by
    refine Hal.succ ?_
    simp only [fillRightBelow]
    refine Hal.ite (fun _ => Hal.pure) fun _ => ?_
    obtain ⟨r, k1, k2⟩ := h.inv.front.pGetId hs hid
    obtain ⟨rn, k3, k4⟩ := h.inv.front.pNext k2
    obtain ⟨x, R, rfl⟩ := he.more h.inv.front (L := L ++ [a]) (a := n) (R := R) (by rw [hs]; simp) hnx
    obtain ⟨rx, k5, k6⟩ := h.inv.front.pNext k4
    simp only [k1, unwrap_some, ok_bind, k3, k5]
    refine Hal.ite (fun ho => ?_) fun ho => ?_
    · rw [k2.pt, k4.pt, k6.pt, orient_ccw] at ho
      exact (fillRightConcave_hal gd he _ h (Nat.le_refl _) hs hid ho hn hnx).diag
    · rw [k2.pt, k4.pt, k6.pt, orient_ccw, not_lt] at ho
      have k := down_right he.lt (h.asc.step ⟨L, _, hs⟩) (h.asc.step ⟨L ++ [a], R, by rw [hs]; simp⟩) ho (by linarith)
      refine Hal.bind (fillRightConvex_hal gd he hg _ h hs hid hn k hnx).diag
        (fun f _ => fillRightConvex_clear (Z := True) gd he (fun _ => trivial) hg f h hs hid hn k hnx) ?_
      rintro ⟨s1, b⟩ ⟨q0, q1, q2, ⟨R', q3⟩, q4⟩
      dsimp only at *
      simp only [if_pos q0]
      exact fillRightBelow_hal hg m q1 (by omega) q3 hid ha hn hnx

theorem fillRightAbove_hal {g : Trap} (hg : g.Tame) : ∀ (m : Nat) {s : St} {Q0 : Nat → Prop}, Fx c M Q0 p D s →
    ∀ {L R : List Nat} {a : Nat} {id : NodeId}, s.front.pids.length + R.length ≤ m → s.front.pids = L ++ a :: R → IdFor c id a →
    0 ≤ det2 (c.pos q) (c.pos p) (c.pos a) → (c.pos a).x < (c.pos p).x → (c.pos q).x ≤ (c.pos a).x →
    Hal fun f0 f => fillRightAbove g c f0 e f s id
  | 0, s, Q0, h, L, R, a, id, hm, hs, hid, ha, hax, hqa => by rw [hs] at hm; simp at hm
  | m + 1, s, Q0, h, L, R, a, id, hm, hs, hid, ha, hax, hqa => by
    refine Hal.succ ?_
    simp only [fillRightAbove]
    obtain ⟨n, R, rfl⟩ := he.more h.inv.front hs hax
    obtain ⟨r, k1, k2⟩ := h.inv.front.pLocNext hs hid
    simp only [k1, k2.pt]
    refine Hal.ite (fun _ => Hal.pure) fun hn => ?_
    rw [he.ep, ge_iff_le, not_le] at hn
    refine Hal.ite (fun hc => ?_) fun hc => ?_
    · rw [he.ccw] at hc
      refine Hal.bind (fillRightBelow_hal gd he hg _ h (Nat.le_refl _) hs hid ha hc hn).diag (fun f _ => fillRightBelow_clear (Z := True) gd he (fun _ _ => trivial) hg f h hs hid ha hc hn hqa) ?_
      rintro s1 ⟨q1, q2, ⟨R', q3⟩, q4⟩
      have lt := q4 hax
      refine fillRightAbove_hal hg m q1 (R := R') ?_ q3 hid ha hax hqa
      have : R'.length < (n :: R).length := by rw [q3, hs] at lt; simpa using lt
      omega
    · rw [he.ccw, not_lt] at hc
      refine fillRightAbove_hal hg m h (L := L ++ [a]) (a := n) (R := R) ?_ (by rw [hs]; simp) k2.id hc hn (hqa.trans (h.asc.step ⟨L, R, hs⟩).le)
      simp at hm; omega

end right

section left
variable (gd : Good c) {e : CEdge} {p q : Nat} (he : EdgeL c e p q) {D : Nat → Prop}
include gd he

theorem fillLeftConcave_hal : ∀ (m : Nat) {s : St} {Q0 : Nat → Prop}, Fx c M Q0 p D s → s.front.pids.length ≤ m →
    ∀ {L R : List Nat} {a n x : Nat} {id : NodeId}, s.front.pids = L ++ x :: n :: a :: R → IdFor c id a →
    0 < det2 (c.pos x) (c.pos n) (c.pos a) → det2 (c.pos p) (c.pos q) (c.pos n) < 0 → (c.pos p).x < (c.pos n).x →
    Hal fun f0 f => fillLeftConcave c f0 e f s id
  | 0, s, Q0, h, hm, L, R, a, n, x, id, hs, hid, hd, hn, hnx => by rw [hs] at hm; simp at hm
  | m + 1, s, Q0, h, hm, L, R, a, n, x, id, hs, hid, hd, hn, hnx => by
    refine Hal.succ ?_
    simp only [fillLeftConcave]
    obtain ⟨r, k1, k2⟩ := h.inv.front.pLocPrev (L := L ++ [x]) (x := n) (p := a) (R := R) (by rw [hs]; simp) hid
    simp only [k1, unwrap_some, ok_bind]
    have hw := h.inv.front.mkW hs hd.le
    refine Hal.bind (fillOne_hal h.inv hs k2.id hw fun k => (hd.ne' k).elim) (fun _ _ => fillOne_spec h.inv hs k2.id hw fun k => (hd.ne' k).elim) ?_
    rintro ⟨s1, ro⟩ ⟨q1, q2, q3, fo, rfl, q4, q5⟩
    have fx : Fx c M Q0 p D s1 := h.next q1 q2 (by rw [q3, hs]; simp)
    refine Hal.ite (fun _ => Hal.ite (fun hc => ?_) fun _ => Hal.pure) fun _ => Hal.pure
    rw [q4.2, he.cw] at hc
    have hxx := h.stepL gd he ⟨L, a :: R, hs⟩ hc hn hnx
    obtain ⟨L, y, rfl⟩ := he.more q1.front (L := L) (a := x) (R := a :: R) q3 hxx
    obtain ⟨rx, k3, k4⟩ := q1.front.pGetId q3 q4
    obtain ⟨ry, j1, j2⟩ := q1.front.pPrev k4
    simp only [k3, unwrap_some, ok_bind, j1]
    refine Hal.ite (fun ho => ?_) fun _ => Hal.pure
    rw [hid.2, k4.pt, j2.pt, orient_cw] at ho
    exact fillLeftConcave_hal m fx (len_drop hs q3 hm) (L := L) (x := y) (n := x) (R := R) (by rw [q3]; simp) hid (by rw [det2_rev]; linarith) hc hxx

theorem fillLeftConvex_hal : ∀ (L : List Nat) {s : St} {Q0 : Nat → Prop}, Fx c M Q0 p D s →
    ∀ {R : List Nat} {a n x : Nat} {id : NodeId}, s.front.pids = L ++ x :: n :: a :: R → IdFor c id a →
    det2 (c.pos p) (c.pos q) (c.pos n) < 0 → det2 (c.pos p) (c.pos q) (c.pos x) < det2 (c.pos p) (c.pos q) (c.pos n) → (c.pos p).x < (c.pos n).x →
    Hal fun f0 f => fillLeftConvex c f0 e f s id
  | L, s, Q0, h, R, a, n, x, id, hs, hid, hn, hx, hnx => by
    refine Hal.succ ?_
    simp only [fillLeftConvex]
    have hx0 : det2 (c.pos p) (c.pos q) (c.pos x) < 0 := by linarith
    have kc : Consecutive s.front.pids x n := ⟨L, a :: R, hs⟩
    have hxx := h.stepL gd he kc hx0 hn hnx
    obtain ⟨L', y, hL⟩ := he.more h.inv.front (L := L) (a := x) (R := n :: a :: R) hs hxx
    have hs' := hs
    rw [hL] at hs'
    obtain ⟨rn, k1, k2⟩ := h.inv.front.pLocPrev (L := (L' ++ [y]) ++ [x]) (x := n) (p := a) (R := R) (by rw [hs']; simp) hid
    obtain ⟨rx, k3, k4⟩ := h.inv.front.pPrev k2
    obtain ⟨ry, k5, k6⟩ := h.inv.front.pPrev k4
    simp only [k1, unwrap_some, ok_bind, k3, k5, k2.pt, k4.pt, k6.pt]
    refine Hal.ite (fun ho => ?_) fun hn' => Hal.ite (fun _ => ?_) fun _ => Hal.pure
    · rw [orient_cw] at ho
      have k : 0 < det2 (c.pos y) (c.pos x) (c.pos n) := by rw [det2_rev]; linarith
      have hs2 : s.front.pids = L' ++ y :: x :: n :: (a :: R) := by rw [hs']; simp
      exact Hal.bind (fillLeftConcave_hal gd he _ h (Nat.le_refl _) hs2 k2.id k hx0 hxx).diag
        (fun f _ => fillLeftConcave_clear (Z := True) gd he f h hs2 k2.id k hx0 hxx) fun _ _ => Hal.pure
    · rw [orient_cw, not_lt] at hn'
      refine fillLeftConvex_hal L' h (x := y) (n := x) (a := n) (R := a :: R) (by rw [hs']; simp) k2.id hx0 ?_ hxx
      exact down_left he.lt (h.asc.step ⟨L', n :: a :: R, by rw [hs']; simp⟩) (h.asc.step kc) (by rw [det2_rev]; linarith) hx
termination_by L => L.length
decreasing_by rw [hL]; simp

theorem fillLeftBelow_hal : ∀ (m : Nat) {s : St} {Q0 : Nat → Prop}, Fx c M Q0 p D s → s.front.pids.length ≤ m →
    ∀ {L R : List Nat} {a n : Nat} {id : NodeId}, s.front.pids = L ++ n :: a :: R → IdFor c id a →
    0 ≤ det2 (c.pos p) (c.pos q) (c.pos a) → det2 (c.pos p) (c.pos q) (c.pos n) < 0 → (c.pos p).x < (c.pos n).x →
    Hal fun f0 f => fillLeftBelow c f0 e f s id
  | 0, s, Q0, h, hm, L, R, a, n, id, hs, hid, ha, hn, hnx => by rw [hs] at hm; simp at hm
  | m + 1, s, Q0, h, hm, L, R, a, n, id, hs, hid, ha, hn, hnx => by
    refine Hal.succ ?_
    simp only [fillLeftBelow]
    refine Hal.ite (fun _ => ?_) fun _ => Hal.pure
    obtain ⟨L, x, rfl⟩ := he.more h.inv.front (L := L) (a := n) (R := a :: R) hs hnx
    obtain ⟨rn, k1, k2⟩ := h.inv.front.pLocPrev (L := L ++ [x]) (x := n) (p := a) (R := R) (by rw [hs]; simp) hid
    obtain ⟨rx, k3, k4⟩ := h.inv.front.pPrev k2
    simp only [k1, unwrap_some, ok_bind, k3]
    have hs2 : s.front.pids = L ++ x :: n :: a :: R := by rw [hs]; simp
    refine Hal.ite (fun ho => ?_) fun ho => ?_
    · rw [hid.2, k2.pt, k4.pt, orient_cw] at ho
      exact (fillLeftConcave_hal gd he _ h (Nat.le_refl _) hs2 hid (by rw [det2_rev]; linarith) hn hnx).diag
    · rw [hid.2, k2.pt, k4.pt, orient_cw, not_lt] at ho
      have k : det2 (c.pos p) (c.pos q) (c.pos x) < det2 (c.pos p) (c.pos q) (c.pos n) := down_left he.lt (h.asc.step ⟨L, a :: R, by rw [hs]; simp⟩) (h.asc.step ⟨L ++ [x], R, hs⟩) (by rw [det2_rev]; linarith) (by linarith)
      refine Hal.bind (fillLeftConvex_hal gd he L h hs2 hid hn k hnx).diag (fun f _ => fillLeftConvex_clear (Z := True) gd he f h hs2 hid hn k hnx) ?_
      rintro ⟨s1, b⟩ ⟨q0, q1, q2, ⟨L', q3⟩, q4⟩
      dsimp only at *
      simp only [if_pos q0]
      exact fillLeftBelow_hal m q1 (by omega) q3 hid ha hn hnx

theorem fillLeftAbove_hal : ∀ (m : Nat) {s : St} {Q0 : Nat → Prop}, Fx c M Q0 p D s →
    ∀ {L R : List Nat} {a : Nat} {id : NodeId}, s.front.pids.length + L.length ≤ m → s.front.pids = L ++ a :: R → IdFor c id a →
    0 ≤ det2 (c.pos p) (c.pos q) (c.pos a) → (c.pos p).x < (c.pos a).x →
    Hal fun f0 f => fillLeftAbove c f0 e f s id
  | 0, s, Q0, h, L, R, a, id, hm, hs, hid, ha, hax => by rw [hs] at hm; simp at hm
  | m + 1, s, Q0, h, L, R, a, id, hm, hs, hid, ha, hax => by
    refine Hal.succ ?_
    simp only [fillLeftAbove]
    obtain ⟨L, n, rfl⟩ := he.more h.inv.front hs hax
    obtain ⟨r, k1, k2⟩ := h.inv.front.pLocPrev hs hid
    simp only [k1, k2.pt]
    refine Hal.ite (fun _ => Hal.pure) fun hn => ?_
    rw [he.ep, not_le] at hn
    have hs2 : s.front.pids = L ++ n :: a :: R := by rw [hs]; simp
    refine Hal.ite (fun hc => ?_) fun hc => ?_
    · rw [he.cw] at hc
      refine Hal.bind (fillLeftBelow_hal gd he _ h (Nat.le_refl _) hs2 hid ha hc hn).diag (fun f _ => fillLeftBelow_clear (Z := True) gd he f h hs2 hid ha hc hn) ?_
      rintro s1 ⟨q1, q2, ⟨L', q3⟩, q4⟩
      have lt := q4 hax
      refine fillLeftAbove_hal m q1 (L := L') ?_ q3 hid ha hax
      have : L'.length < (L ++ [n]).length := by rw [q3, hs] at lt; simp at lt ⊢; omega
      omega
    · rw [he.cw, not_lt] at hc
      refine fillLeftAbove_hal m h (L := L) (a := n) (R := a :: R) ?_ hs2 k2.id hc hn
      simp at hm; omega

end left

theorem fillEdgeEvent_hal (gd : Good c) {g : Trap} (hg : g.Tame) {s : St} {Q0 D : Nat → Prop} {p q : Nat}
    (h : Fx c M Q0 p D s) (hp : p < c.points.length) (hph : p ≠ c.head) (hpt : p ≠ c.tail) (hqh : q ≠ c.head) (hqt : q ≠ c.tail) {id : NodeId} (hq : q ∈ s.front.pids) (hid : IdFor c id q) :
    Hal fun f _ => fillEdgeEvent g c f s ⟨p, q, c.pos p, c.pos q, decide ((c.pos p).x > (c.pos q).x)⟩ id := by
  obtain ⟨L, R, hs⟩ := List.append_of_mem hq
  obtain ⟨e1, e2, -⟩ := gd.enclosed p hp hph hpt
  have asc := h.asc
  rw [hs] at asc
  have ascL := (List.pairwise_append.1 asc).2.2
  simp only [fillEdgeEvent]
  refine Hal.ite (fun hr => ?_) fun hr => ?_
  · simp only [gt_iff_lt, decide_eq_true_eq] at hr
    exact (fillRightAbove_hal gd ⟨rfl, rfl, hr, e2, (gd.enclosed q (h.inv.front.pids_lt hq) hqh hqt).1⟩ hg _ h (Nat.le_refl _) hs hid (by unfold det2; ring_nf; rfl) hr le_rfl).diag
  · simp only [gt_iff_lt, decide_eq_true_eq, not_lt] at hr
    rcases eq_or_lt_of_le hr with hr | hr
    · refine Hal.diag (f := fun f0 f => fillLeftAbove c f0 _ f s id) (Hal.succ ?_)
      simp only [fillLeftAbove]
      rcases eq_nil_or_snoc L with rfl | ⟨L, n, rfl⟩
      · simp only [h.inv.front.pLocPrev_nil hs hid]; exact Hal.pure
      obtain ⟨r, k1, k2⟩ := h.inv.front.pLocPrev hs hid
      simp only [k1, k2.pt]
      refine Hal.ite (fun _ => Hal.pure) fun k => (k ?_).elim
      have := ascL n (by simp) q (by simp); linarith
    · exact (fillLeftAbove_hal gd ⟨rfl, rfl, hr, e1⟩ _ h (Nat.le_refl _) hs hid (by unfold det2; ring_nf; rfl) hr).diag

end P2T
