import Verif.Proofs.FillOne
import Verif.Proofs.Order

/-!
# Filling the front and point events
-/

set_option linter.unusedSectionVars false

namespace P2T

variable {c : Ctx} {K : Prop}

/-- What the proofs need of the input: different points, artificial points outside, and float arithmetic that
does not report a wrong sign on these points. -/
structure Good (c : Ctx) : Prop where
  inj : ∀ i j, i < c.points.length → j < c.points.length → c.pos i = c.pos j → i = j
  headLt : c.head < c.points.length
  tailLt : c.tail < c.points.length
  flat : (c.pos c.head).y = (c.pos c.tail).y
  wide : (c.pos c.head).x < (c.pos c.tail).x
  enclosed : ∀ i, i < c.points.length → i ≠ c.head → i ≠ c.tail →
    (c.pos c.head).x < (c.pos i).x ∧ (c.pos i).x < (c.pos c.tail).x ∧ (c.pos c.head).y < (c.pos i).y
  angle : ∀ i j k, i < c.points.length → j < c.points.length → k < c.points.length →
    det2 (c.pos i) (c.pos j) (c.pos k) < 0 → (Angle.new c.num (c.pos i) (c.pos j) (c.pos k)).dy < 0
  scan : ∀ i j k, i < c.points.length → j < c.points.length → k < c.points.length →
    (scanDet c.num (c.pos i) (c.pos j) (c.pos k) < -c.num.eps → det2 (c.pos i) (c.pos k) (c.pos j) < 0) ∧
    (c.num.eps < scanDet c.num (c.pos i) (c.pos j) (c.pos k) → 0 < det2 (c.pos i) (c.pos k) (c.pos j))
  same : ∀ i j, i < c.points.length → j < c.points.length → i ≠ c.head → i ≠ c.tail → j ≠ c.head → j ≠ c.tail →
    keyLt (c.pos j) (c.pos i) →
    (c.pos i).x ≤ c.num.rnd ((c.pos j).x + c.num.eps) → (c.pos i).x = (c.pos j).x

section
variable {f : Front} (h : FOk c f)
include h

theorem FOk.mkW {L R : List Nat} {p n x : Nat} (hs : f.pids = L ++ p :: n :: x :: R)
    (hd : 0 ≤ det2 (c.pos p) (c.pos n) (c.pos x)) : c.W p n x := by
  refine ⟨⟨h.pids_lt (by simp [hs]), h.pids_lt (by simp [hs]), h.pids_lt (by simp [hs])⟩, ?_⟩
  rcases lt_or_eq_of_le hd with hd | hd
  · exact .inl hd
  · exact .inr ⟨hd.symm, .inl (h.asc3 hs)⟩

theorem shouldFill_spec (g : Good c) {r : NodeRef} {L R : List Nat} {p n x : Nat} (hr : RefFor c f r (L ++ [p]) n (x :: R)) :
    ∃ b, shouldFill c f r = .ok b ∧ (b = false → 0 ≤ det2 (c.pos p) (c.pos n) (c.pos x)) := by
  obtain ⟨rn, k1, k2⟩ := h.pNext hr
  obtain ⟨rp, k3, k4⟩ := h.pPrev hr
  have lp := h.pids_lt (p := p) (by simp [hr.split])
  have ln := h.pids_lt (p := n) (by simp [hr.split])
  have lx := h.pids_lt (p := x) (by simp [hr.split])
  have key : (Angle.new c.num r.pt rn.pt rp.pt).isNegative = false → 0 ≤ det2 (c.pos p) (c.pos n) (c.pos x) := by
    intro hneg
    by_contra hc
    have := g.angle n x p ln lx lp (by rw [det2_rot (c.pos p)]; exact not_le.1 hc)
    rw [← hr.pt, ← k2.pt, ← k4.pt] at this
    unfold Angle.isNegative at hneg
    have e : (decide ((Angle.new c.num r.pt rn.pt rp.pt).dy < 0)) = true := by simpa using this
    rw [e] at hneg
    split at hneg
    · rename_i q; rw [q.2] at this; exact lt_irrefl _ this
    · simp at hneg
  simp only [shouldFill, k1, k3, unwrap_some, ok_bind]
  by_cases hn : (Angle.new c.num r.pt rn.pt rp.pt).isNegative = true
  · rw [if_pos hn]; exact ⟨true, rfl, by simp⟩
  · rw [if_neg hn]
    have := key (by simpa using hn)
    by_cases c1 : (!(Angle.new c.num r.pt rn.pt rp.pt).exceeds90) = true
    · rw [if_pos c1]; exact ⟨_, rfl, fun _ => this⟩
    · rw [if_neg c1]
      have any : ∀ (b1 b2 : Bool),
          ∃ b, (if b1 = true then pure false else if b2 = true then pure false else pure true : Except Err Bool) = .ok b ∧
            (b = false → 0 ≤ det2 (c.pos p) (c.pos n) (c.pos x)) := by
        rintro (_ | _) (_ | _) <;> exact ⟨_, rfl, fun _ => this⟩
      exact any _ _

end

theorem eq_nil_or_snoc {α} (L : List α) : L = [] ∨ ∃ L' a, L = L' ++ [a] := by
  rcases List.eq_nil_or_concat L with h | ⟨L', a, h⟩
  · exact .inl h
  · exact .inr ⟨L', a, by rw [h, List.concat_eq_append]⟩

/-- Two specifications. -/
theorem Spec.andL {α} {E E' : Err → Prop} {m : Except Err α} {Q R : α → Prop} (h : Spec m E Q) (h' : Spec m E' R) :
    Spec m E (fun a => Q a ∧ R a) := by
  cases m with
  | ok a => exact ⟨h, h'⟩
  | error e => exact h

theorem Evolve.pids {s s' : St} (e : Evolve s s') {z : Nat} (h : z ∈ s'.front.pids) : z ∈ s.front.pids := by
  have : s'.front.pids.Sublist s.front.pids := by
    have := e.front.map Prod.snd
    simpa [Front.shape, Front.pids, Function.comp_def] using this
  exact this.subset h

/-- `a` is a corner of the mesh and the front is below it. -/
def Hi (c : Ctx) (a : Nat) (s : St) : Prop := HasV s.tris a ∧ ∀ z ∈ s.front.pids, z = a ∨ Below (c.pos z) (c.pos a)

theorem Hi.not {a p : Nat} {s : St} (h : Hi c a s) (hp : p ∈ s.front.pids) (hn : p ≠ a) : ¬ TopV c p s.tris := by
  intro k
  rcases h.2 p hp with k1 | k1
  · exact hn k1
  rcases k a h.1 with k2 | k2
  · exact hn k2.symm
  · exact Below.asymm k1 k2

theorem Hi.next {a : Nat} {s s' : St} (h : Hi c a s) (e : Ext c s s') (k : ∀ z ∈ s'.front.pids, z ∈ s.front.pids) : Hi c a s' :=
  ⟨e.grow _ h.1, fun z hz => h.2 z (k z hz)⟩

theorem fillRight_spec (g : Good c) {fuel0 : Nat} : ∀ (fuel : Nat) {s : St} {Q0 : Nat → Prop}, SInv c K Q0 NoP s →
    ∀ {L R : List Nat} {a : Nat} {id : NodeId}, s.front.pids = L ++ a :: R → IdFor c id a →
    ∀ {a0 : Nat}, Hi c a0 s → a0 ∉ R → (a = a0 → ∀ t, ¬ FlatAt c s.tris a t) →
    Spec (fillRight c fuel0 fuel s id) (· = .fuel) fun s' =>
      SInv c K Q0 NoP s' ∧ Ext c s s' ∧ ∃ R', s'.front.pids = L ++ a :: R'
  | 0, s, Q0, h, L, R, a, id, hs, hid, a0, hi, hR, h0 => Spec.error rfl
  | fuel + 1, s, Q0, h, L, R, a, id, hs, hid, a0, hi, hR, h0 => by
    unfold fillRight
    cases R with
    | nil =>
      rw [h.front.pLocNext_nil hs hid]
      exact Spec.ok ⟨h, .refl _, [], hs⟩
    | cons n R =>
      obtain ⟨r, k1, k2⟩ := h.front.pLocNext hs hid
      rw [k1]
      dsimp only
      cases R with
      | nil =>
        rw [h.front.pNext_nil k2]
        exact Spec.ok ⟨h, .refl _, _, hs⟩
      | cons x R =>
        obtain ⟨rx, k3, k4⟩ := h.front.pNext k2
        rw [k3]
        dsimp only
        obtain ⟨b, k5, k6⟩ := shouldFill_spec h.front g k2
        simp only [k5, ok_bind]
        cases b with
        | true => exact Spec.ok ⟨h, .refl _, _, hs⟩
        | false =>
          have hz : det2 (c.pos a) (c.pos n) (c.pos x) = 0 → TopV c a s.tris → ∀ t, ¬ FlatAt c s.tris a t := by
            intro _ ht
            by_cases e : a = a0
            · exact h0 e
            · exact (hi.not (by simp [hs]) e ht).elim
          refine Spec.bind (fillOne_spec h hs k2.id (h.front.mkW hs (k6 rfl)) hz) ?_
          rintro ⟨s1, ro⟩ ⟨q1, q2, q3, fo, rfl, q4, q5⟩
          have hs1 : s1.front.pids = (L ++ [a]) ++ x :: R := by rw [q3]; simp
          have hi1 : Hi c a0 s1 := hi.next q2 (by rw [q3, hs]; simp; tauto)
          refine (fillRight_spec g fuel q1 hs1 q5 hi1 (by simp at hR; tauto) (by rintro rfl; simp at hR)).mono ?_
          rintro s2 ⟨j1, j2, R', j3⟩
          exact ⟨j1, q2.trans j2, x :: R', by rw [j3]; simp⟩

theorem fillLeft_spec (g : Good c) {fuel0 : Nat} : ∀ (fuel : Nat) {s : St} {Q0 : Nat → Prop}, SInv c K Q0 NoP s →
    ∀ {L R : List Nat} {a : Nat} {id : NodeId}, s.front.pids = L ++ R → R ≠ [] → IdFor c id a →
    ((∃ R0, R = a :: R0) ∨ (a ∉ s.front.pids ∧ (∀ b ∈ L, keyLt (c.pos b) (c.pos a)) ∧ ∀ b ∈ R, keyLt (c.pos a) (c.pos b))) →
    ∀ {a0 : Nat}, Hi c a0 s → a0 ∉ L →
    Spec (fillLeft c fuel0 fuel s id) (· = .fuel) fun s' =>
      SInv c K Q0 NoP s' ∧ Ext c s s' ∧ ∃ L', s'.front.pids = L' ++ R
  | 0, s, Q0, h, L, R, a, id, hs, hR, hid, hp, a0, hi, hL => Spec.error rfl
  | fuel + 1, s, Q0, h, L, R, a, id, hs, hR, hid, hp, a0, hi, hL => by
    unfold fillLeft
    rcases eq_nil_or_snoc L with rfl | ⟨L, n, rfl⟩
    · have : s.front.locatePrev id = none := by
        rcases hp with ⟨R0, rfl⟩ | ⟨h1, h2, h3⟩
        · exact h.front.pLocPrev_nil hs hid
        · exact h.front.pLocPrev_gone_nil hs hid h1 h3
      rw [this]
      exact Spec.ok ⟨h, .refl _, [], hs⟩
    · have : ∃ r, s.front.locatePrev id = some r ∧ RefFor c s.front r L n R := by
        rcases hp with ⟨R0, rfl⟩ | ⟨h1, h2, h3⟩
        · exact h.front.pLocPrev hs hid
        · exact h.front.pLocPrev_gone hs hid h1 h2 h3
      obtain ⟨r, k1, k2⟩ := this
      rw [k1]
      dsimp only
      rcases eq_nil_or_snoc L with rfl | ⟨L, p, rfl⟩
      · rw [h.front.pPrev_nil k2]
        exact Spec.ok ⟨h, .refl _, _, hs⟩
      · obtain ⟨rp, k3, k4⟩ := h.front.pPrev k2
        rw [k3]
        dsimp only
        obtain ⟨x, R, rfl⟩ := List.exists_cons_of_ne_nil hR
        obtain ⟨b, k5, k6⟩ := shouldFill_spec h.front g k2
        simp only [k5, ok_bind]
        cases b with
        | true => exact Spec.ok ⟨h, .refl _, _, hs⟩
        | false =>
          have hs' : s.front.pids = L ++ p :: n :: x :: R := by rw [hs]; simp
          refine Spec.bind (fillOne_spec h hs' k2.id (h.front.mkW hs' (k6 rfl)) fun _ ht => (hi.not (by simp [hs']) (by rintro rfl; simp at hL) ht).elim) ?_
          rintro ⟨s1, ro⟩ ⟨q1, q2, q3, fo, rfl, q4, q5⟩
          have hi1 : Hi c a0 s1 := hi.next q2 (by rw [q3, hs']; simp; tauto)
          have hs1 : s1.front.pids = (L ++ [p]) ++ (x :: R) := by rw [q3]; simp
          have nd := h.front.nodupP
          have as := h.front.ascP
          rw [hs'] at nd as
          refine (fillLeft_spec g fuel q1 hs1 (by simp) k2.id (.inr ⟨?_, ?_, ?_⟩) hi1 (by simp at hL ⊢; tauto)).mono ?_
          · rw [hs1]
            have := (List.nodup_append.1 nd)
            intro hm
            have nd2 := this.2.1
            simp only [List.nodup_cons, List.mem_cons, not_or] at nd2
            simp only [List.mem_append, List.mem_cons, List.not_mem_nil, or_false] at hm
            rcases hm with (hm | hm) | hm | hm
            · exact this.2.2 n hm n (by simp) rfl
            · exact nd2.1.1 hm.symm
            · exact nd2.2.1.1 hm
            · exact nd2.2.1.2 hm
          · intro b hb
            rw [List.pairwise_append] at as
            simp only [List.mem_append, List.mem_singleton] at hb
            rcases hb with hb | rfl
            · exact as.2.2 b hb n (by simp)
            · exact (List.pairwise_cons.1 as.2.1).1 n (by simp)
          · intro b hb
            rw [List.pairwise_append] at as
            exact (List.pairwise_cons.1 (List.pairwise_cons.1 as.2.1).2).1 b hb
          · rintro s2 ⟨j1, j2, L', j3⟩
            exact ⟨j1, q2.trans j2, L', j3⟩

/-! ## Basins -/

theorem valley {p n x : Point} (h1 : keyLt p n) (h2 : keyLt n x) (h3 : n.y ≤ p.y) (h4 : n.y < x.y) : 0 ≤ det2 p n x := by
  have a1 : p.x ≤ n.x := by rcases h1 with h | h; exact le_of_lt h; exact le_of_eq h.1
  have a2 : n.x ≤ x.x := by rcases h2 with h | h; exact le_of_lt h; exact le_of_eq h.1
  have e : det2 p n x = (n.x - p.x) * (x.y - n.y) + (p.y - n.y) * (x.x - n.x) := by unfold det2; ring
  rw [e]
  exact add_nonneg (mul_nonneg (by linarith) (by linarith)) (mul_nonneg (by linarith) (by linarith))

/-- Left turns along an ascending chain compose. -/
theorem chain_cross {ux uy vx vy wx wy : Rat} (hu : 0 ≤ ux) (hv : 0 < vx ∨ (vx = 0 ∧ 0 < vy)) (hw : 0 < wx ∨ (wx = 0 ∧ 0 < wy))
    (h1 : 0 ≤ ux * vy - uy * vx) (h2 : 0 ≤ vx * wy - vy * wx) : 0 ≤ ux * wy - uy * wx := by
  have hwx : 0 ≤ wx := by rcases hw with h | h; exact le_of_lt h; exact ge_of_eq h.1
  rcases hv with hv | ⟨rfl, hv⟩
  · have : vx * (ux * wy - uy * wx) = ux * (vx * wy - vy * wx) + wx * (ux * vy - uy * vx) := by ring
    have h3 : 0 ≤ vx * (ux * wy - uy * wx) := by
      rw [this]; exact add_nonneg (mul_nonneg hu h2) (mul_nonneg hwx h1)
    exact nonneg_of_mul_nonneg_right h3 hv
  · have : wx ≤ 0 := by
      by_contra hc
      have := mul_pos hv (not_le.1 hc)
      linarith
    rcases hw with h | ⟨rfl, h⟩
    · linarith
    · have := mul_nonneg hu (le_of_lt h)
      linarith

theorem chain_det {a b d e : Point} (h1 : keyLt a b) (h2 : keyLt b d) (h3 : keyLt d e) (d1 : 0 ≤ det2 a b d) (d2 : 0 ≤ det2 b d e) :
    0 ≤ det2 a d e ∧ 0 ≤ det2 a b e := by
  have k := chain_cross (ux := b.x - a.x) (uy := b.y - a.y) (vx := d.x - b.x) (vy := d.y - b.y) (wx := e.x - d.x) (wy := e.y - d.y)
    (by rcases h1 with h | h <;> linarith) (by rcases h2 with h | h; left; linarith; right; constructor <;> linarith)
    (by rcases h3 with h | h; left; linarith; right; constructor <;> linarith)
    (by unfold det2 at d1; linarith) (by unfold det2 at d2; linarith)
  unfold det2 at *
  constructor <;> linarith

section
variable {f : Front} (h : FOk c f)
include h

/-- Walking down to the bottom of a basin. -/
theorem findBottom_spec : ∀ (fuel : Nat) {r : NodeRef} {L R : List Nat} {l : Nat}, RefFor c f r L l R →
    Spec (findBottom f fuel r) (· = .fuel) fun r' => ∃ D b R', RefFor c f r' (L ++ D) b R' ∧ L ++ D ++ b :: R' = L ++ l :: R ∧
      (D ++ [b]).Pairwise (fun u v => (c.pos v).y ≤ (c.pos u).y) ∧ (∀ x R'', R' = x :: R'' → (c.pos b).y < (c.pos x).y) ∧
      (D = [] → b = l) ∧ (∀ d D', D = d :: D' → d = l)
  | 0, r, L, R, l, hr => Spec.error rfl
  | fuel + 1, r, L, R, l, hr => by
    unfold findBottom
    cases R with
    | nil =>
      rw [h.pNext_nil hr]
      exact Spec.ok ⟨[], l, [], by simpa using hr, by simp, by simp, by simp, by simp, by simp⟩
    | cons n R =>
      obtain ⟨rn, k1, k2⟩ := h.pNext hr
      rw [k1]
      dsimp only
      by_cases hy : r.pt.y ≥ rn.pt.y
      · rw [if_pos hy]
        refine (findBottom_spec fuel k2).mono ?_
        rintro r' ⟨D, b, R', q1, q2, q3, q4, q5, q6⟩
        rw [hr.pt, k2.pt] at hy
        refine ⟨l :: D, b, R', by simpa using q1, by simpa using q2, ?_, q4, by simp, by rintro d D' ⟨⟩; rfl⟩
        rw [List.cons_append, List.pairwise_cons]
        refine ⟨?_, q3⟩
        have hn : ∀ v ∈ D ++ [b], (c.pos v).y ≤ (c.pos n).y := by
          cases D with
          | nil => rw [q5 rfl]; simp
          | cons d D =>
            have := q6 d D rfl
            subst this
            intro v hv
            rw [List.cons_append, List.mem_cons] at hv
            rcases hv with rfl | hv
            · exact le_refl _
            · exact (List.pairwise_cons.1 q3).1 v hv
        intro v hv
        exact le_trans (hn v hv) hy
      · rw [if_neg hy]
        refine Spec.ok ⟨[], l, n :: R, by simpa using hr, by simp, by simp, ?_, by simp, by simp⟩
        rintro x R'' ⟨⟩
        rw [hr.pt, k2.pt] at hy
        exact not_le.1 hy

/-- Walking up to the right end of a basin. -/
theorem findRight_spec : ∀ (fuel : Nat) {r : NodeRef} {L R : List Nat} {l : Nat}, RefFor c f r L l R →
    Spec (findRight f fuel r) (· = .fuel) fun r' => ∃ D b R', RefFor c f r' (L ++ D) b R' ∧ L ++ D ++ b :: R' = L ++ l :: R ∧
      (D ++ [b]).Pairwise (fun u v => (c.pos u).y < (c.pos v).y) ∧
      (D = [] → b = l) ∧ (∀ d D', D = d :: D' → d = l)
  | 0, r, L, R, l, hr => Spec.error rfl
  | fuel + 1, r, L, R, l, hr => by
    unfold findRight
    cases R with
    | nil =>
      rw [h.pNext_nil hr]
      exact Spec.ok ⟨[], l, [], by simpa using hr, by simp, by simp, by simp, by simp⟩
    | cons n R =>
      obtain ⟨rn, k1, k2⟩ := h.pNext hr
      rw [k1]
      dsimp only
      by_cases hy : r.pt.y < rn.pt.y
      · rw [if_pos hy]
        refine (findRight_spec fuel k2).mono ?_
        rintro r' ⟨D, b, R', q1, q2, q3, q5, q6⟩
        rw [hr.pt, k2.pt] at hy
        refine ⟨l :: D, b, R', by simpa using q1, by simpa using q2, ?_, by simp, by rintro d D' ⟨⟩; rfl⟩
        rw [List.cons_append, List.pairwise_cons]
        refine ⟨?_, q3⟩
        have hn : ∀ v ∈ D ++ [b], (c.pos n).y ≤ (c.pos v).y := by
          cases D with
          | nil => rw [q5 rfl]; simp
          | cons d D =>
            have := q6 d D rfl
            subst this
            intro v hv
            rw [List.cons_append, List.mem_cons] at hv
            rcases hv with rfl | hv
            · exact le_refl _
            · exact le_of_lt ((List.pairwise_cons.1 q3).1 v hv)
        intro v hv
        exact lt_of_lt_of_le hy (hn v hv)
      · rw [if_neg hy]
        exact Spec.ok ⟨[], l, n :: R, by simpa using hr, by simp, by simp, by simp, by simp⟩

end

/-- Last of `l :: D`. -/
theorem snoc_last {α} (l : α) (D : List α) : ∃ D' q, l :: D = D' ++ [q] ∧ ((D = [] ∧ D' = [] ∧ q = l) ∨ ∃ D'', D' = l :: D'' ∧ D = D'' ++ [q]) := by
  rcases List.eq_nil_or_concat D with rfl | ⟨D'', q, rfl⟩
  · exact ⟨[], l, rfl, .inl ⟨rfl, rfl, rfl⟩⟩
  · exact ⟨l :: D'', q, by simp, .inr ⟨D'', rfl, by simp⟩⟩

theorem fillBasinReq_spec (g : Good c) {fuel0 : Nat} {basin : Basin} : ∀ (fuel : Nat) {s : St} {Q0 : Nat → Prop}, SInv c K Q0 NoP s →
    ∀ {A D U B D' U' : List Nat} {l n r p x : Nat} {id : NodeId}, s.front.pids = A ++ l :: D ++ n :: U ++ r :: B → IdFor c id n →
    basin.left = c.pos l → basin.right = c.pos r → l :: D = D' ++ [p] → U ++ [r] = x :: U' →
    (l :: D).Pairwise (fun u v => (c.pos v).y ≤ (c.pos u).y) → (U ++ [r]).Pairwise (fun u v => (c.pos u).y < (c.pos v).y) →
    0 ≤ det2 (c.pos p) (c.pos n) (c.pos x) → ∀ {a0 : Nat}, Hi c a0 s → a0 ∉ l :: D →
    Spec (fillBasinReq c fuel0 fuel s id basin) (· = .fuel) fun s' =>
      SInv c K Q0 NoP s' ∧ Ext c s s' ∧ ∃ M, s'.front.pids = A ++ l :: M ++ r :: B
  | 0, s, Q0, h, A, D, U, B, D', U', l, n, r, p, x, id, hs, hid, bl, br, hD, hU, dD, dU, hd, a0, hi, hL => Spec.error rfl
  | fuel + 1, s, Q0, h, A, D, U, B, D', U', l, n, r, p, x, id, hs, hid, bl, br, hD, hU, dD, dU, hd, a0, hi, hL => by
    unfold fillBasinReq
    by_cases hc : basin.completed c.num id.pt = true
    · rw [if_pos hc]
      exact Spec.ok ⟨h, .refl _, D ++ n :: U, by rw [hs]; simp⟩
    rw [if_neg hc]
    have hs0 : s.front.pids = (A ++ D') ++ p :: n :: x :: (U' ++ B) := by
      have e1 : A ++ l :: D ++ n :: U ++ r :: B = A ++ (l :: D) ++ n :: ((U ++ [r]) ++ B) := by simp
      rw [hs, e1, hD, hU]; simp
    have hd0 := h.front.mkW hs0 hd
    have kas := h.front.asc3 hs0
    have hpD : p ∈ l :: D := by rw [hD]; simp
    refine Spec.bind (fillOne_spec h hs0 hid hd0 fun _ ht => (hi.not (by simp [hs0]) (by rintro rfl; exact hL hpD) ht).elim) ?_
    rintro ⟨s1, ro⟩ ⟨q1, q2, q3, fo, rfl, q4, q5⟩
    have hi1 : Hi c a0 s1 := hi.next q2 (by rw [q3, hs0]; simp; tauto)
    simp only [unwrap_some, ok_bind]
    have hs1 : s1.front.pids = A ++ l :: D ++ U ++ r :: B := by
      have e1 : A ++ l :: D ++ U ++ r :: B = A ++ (l :: D) ++ ((U ++ [r]) ++ B) := by simp
      rw [q3, e1, hD, hU]; simp
    have nd1 := q1.front.nodupP
    have inF : ∀ a ∈ A ++ l :: D ++ U ++ r :: B, a < c.points.length := fun a ha => q1.front.pids_lt (by rw [hs1]; exact ha)
    have hlL := inF l (by simp)
    have hrL := inF r (by simp)
    have hpL : p < c.points.length := q1.front.pids_lt (by simp [q3])
    have hxL : x < c.points.length := q1.front.pids_lt (by simp [q3])
    have cl : fo.prev.pt = basin.left ↔ p = l := by
      rw [bl, q4.2]
      exact ⟨g.inj _ _ hpL hlL, fun e => by rw [e]⟩
    have cr : fo.next.pt = basin.right ↔ x = r := by
      rw [br, q5.2]
      exact ⟨g.inj _ _ hxL hrL, fun e => by rw [e]⟩
    have as1 := q1.front.ascP
    -- `p = l` iff `D` is empty; `x = r` iff `U` is empty
    obtain ⟨D1, pp0, hD1, hDc⟩ := snoc_last l D
    have hpp : pp0 = p ∧ D1 = D' := by
      have := List.append_inj' (hD1.symm.trans hD) rfl
      simp only [List.cons.injEq, and_true] at this
      exact ⟨this.2, this.1⟩
    obtain ⟨rfl, rfl⟩ := hpp
    have pl : pp0 = l ↔ D = [] := by
      constructor
      · rintro rfl
        rcases hDc with ⟨hh, -⟩ | ⟨D'', -, hh⟩
        · exact hh
        · rw [hs1, hh] at nd1
          simp [List.nodup_append] at nd1
      · rintro rfl
        rcases hDc with ⟨-, -, hh⟩ | ⟨D'', -, hh⟩
        · exact hh
        · simp at hh
    have xr : x = r ↔ U = [] := by
      constructor
      · rintro rfl
        cases U with
        | nil => rfl
        | cons u U =>
          simp only [List.cons_append, List.cons.injEq] at hU
          rw [hs1, hU.1] at nd1
          simp [List.nodup_append] at nd1
      · rintro rfl
        simp at hU
        exact hU.1.symm
    rw [if_congr (and_congr cl cr) rfl rfl, if_congr cl rfl rfl, if_congr cr rfl rfl]
    by_cases h1 : pp0 = l
    · by_cases h2 : x = r
      · rw [if_pos ⟨h1, h2⟩]
        exact Spec.ok ⟨q1, q2, D ++ U, by rw [hs1]; simp⟩
      · rw [if_neg (fun k => h2 k.2), if_pos h1]
        have hD0 := pl.1 h1
        subst hD0
        cases U with
        | nil => exact (h2 (xr.2 rfl)).elim
        | cons u U =>
          simp only [List.cons_append, List.cons.injEq] at hU
          obtain ⟨rfl, rfl⟩ := hU
          obtain ⟨y, U2, hy⟩ : ∃ y U2, U ++ [r] = y :: U2 := by
            cases U with
            | nil => exact ⟨r, [], rfl⟩
            | cons y U => exact ⟨y, U ++ [r], rfl⟩
          have hs2 : s1.front.pids = A ++ l :: u :: y :: (U2 ++ B) := by
            have e1 : A ++ [l] ++ (u :: U) ++ r :: B = A ++ l :: u :: ((U ++ [r]) ++ B) := by simp
            rw [hs1, e1, hy]; simp
          obtain ⟨rr, z1, z2⟩ := q1.front.pGetId (L := A ++ [l]) (p := u) (R := y :: (U2 ++ B)) (by rw [hs2]; simp) q5
          obtain ⟨rn, z3, z4⟩ := q1.front.pNext z2
          rw [z1]
          simp only [unwrap_some, ok_bind, z3]
          by_cases ho : orient2d id.pt rr.pt rn.pt = .cw
          · rw [if_pos ho]
            exact Spec.ok ⟨q1, q2, u :: U, by rw [hs1]; simp⟩
          · rw [if_neg ho]
            have hdet : 0 ≤ det2 (c.pos n) (c.pos u) (c.pos y) := by
              rw [orient_cw, hid.2, z2.pt, z4.pt] at ho
              exact not_lt.1 ho
            have kas2 := q1.front.asc3 hs2
            subst h1
            have hres := (chain_det kas.1 kas.2 kas2.2 hd hdet).1
            have hs3 : s1.front.pids = A ++ pp0 :: [] ++ u :: U ++ r :: B := by rw [hs1]
            refine (fillBasinReq_spec g fuel q1 (D' := []) (U' := U2) (p := pp0) (x := y) hs3 z2.id bl br (by simp) hy (by simp) (List.pairwise_cons.1 dU).2 hres hi1 hL).mono ?_
            rintro s2 ⟨j1, j2, j3⟩
            exact ⟨j1, q2.trans j2, j3⟩
    · rw [if_neg (fun k => h1 k.1), if_neg h1]
      have hDc' : ∃ D'', D1 = l :: D'' ∧ D = D'' ++ [pp0] := by
        rcases hDc with ⟨hh, -⟩ | hh
        · exact (h1 (pl.2 hh)).elim
        · exact hh
      obtain ⟨D2, rfl, rfl⟩ := hDc'
      obtain ⟨D3, q0, hD3, -⟩ := snoc_last l D2
      by_cases h2 : x = r
      · rw [if_pos h2]
        have hU0 := xr.1 h2
        subst hU0 h2
        have hs2 : s1.front.pids = (A ++ D3) ++ q0 :: pp0 :: x :: B := by
          have e1 : A ++ l :: (D2 ++ [pp0]) ++ [] ++ x :: B = A ++ (l :: D2) ++ pp0 :: x :: B := by simp
          rw [hs1, e1, hD3]; simp
        obtain ⟨rr, z1, z2⟩ := q1.front.pGetId (L := (A ++ D3) ++ [q0]) (p := pp0) (R := x :: B) (by rw [hs2]; simp) q4
        obtain ⟨rn, z3, z4⟩ := q1.front.pPrev z2
        rw [z1]
        simp only [unwrap_some, ok_bind, z3]
        by_cases ho : orient2d id.pt rr.pt rn.pt = .ccw
        · rw [if_pos ho]
          exact Spec.ok ⟨q1, q2, D2 ++ [pp0], by rw [hs1]; simp⟩
        · rw [if_neg ho]
          have hdet : 0 ≤ det2 (c.pos q0) (c.pos pp0) (c.pos n) := by
            rw [orient_ccw, hid.2, z2.pt, z4.pt] at ho
            have e : det2 (c.pos q0) (c.pos pp0) (c.pos n) = - det2 (c.pos n) (c.pos pp0) (c.pos q0) := by unfold det2; ring
            rw [e]; linarith
          have kas2 := q1.front.asc3 hs2
          have hres := (chain_det kas2.1 kas.1 kas.2 hdet hd).2
          have hs3 : s1.front.pids = A ++ l :: D2 ++ pp0 :: [] ++ x :: B := by rw [hs1]; simp
          refine (fillBasinReq_spec g fuel q1 (D' := D3) (U' := []) (p := q0) (x := x) hs3 z2.id bl br hD3 rfl ?_ (by simp) hres hi1 (by simp at hL ⊢; tauto)).mono ?_
          · refine List.Pairwise.sublist ?_ dD
            simp
          · rintro s2 ⟨j1, j2, j3⟩
            exact ⟨j1, q2.trans j2, j3⟩
      · rw [if_neg h2]
        cases U with
        | nil => exact (h2 (xr.2 rfl)).elim
        | cons u U =>
          simp only [List.cons_append, List.cons.injEq] at hU
          obtain ⟨rfl, rfl⟩ := hU
          rw [q4.2, q5.2]
          have dU2 := List.pairwise_cons.1 dU
          have dD2 : (l :: D2).Pairwise (fun u v => (c.pos v).y ≤ (c.pos u).y) ∧ ∀ a ∈ l :: D2, (c.pos pp0).y ≤ (c.pos a).y := by
            rw [show l :: (D2 ++ [pp0]) = (l :: D2) ++ [pp0] by simp, List.pairwise_append] at dD
            exact ⟨dD.1, fun a ha => dD.2.2 a ha pp0 (by simp)⟩
          by_cases hy : (c.pos pp0).y < (c.pos u).y
          · rw [if_pos hy]
            have hs2 : s1.front.pids = (A ++ D3) ++ q0 :: pp0 :: u :: (U ++ r :: B) := by
              have e1 : A ++ l :: (D2 ++ [pp0]) ++ (u :: U) ++ r :: B = A ++ (l :: D2) ++ pp0 :: u :: (U ++ r :: B) := by simp
              rw [hs1, e1, hD3]; simp
            have kas2 := q1.front.asc3 hs2
            have hres := valley kas2.1 kas2.2 (dD2.2 q0 (by rw [hD3]; simp)) hy
            have hs3 : s1.front.pids = A ++ l :: D2 ++ pp0 :: (u :: U) ++ r :: B := by rw [hs1]; simp
            refine (fillBasinReq_spec g fuel q1 (D' := D3) (U' := U ++ [r]) (p := q0) (x := u) hs3 q4 bl br hD3 rfl dD2.1 dU hres hi1 (by simp at hL ⊢; tauto)).mono ?_
            rintro s2 ⟨j1, j2, j3⟩
            exact ⟨j1, q2.trans j2, j3⟩
          · rw [if_neg hy]
            obtain ⟨y, U2, hyU⟩ : ∃ y U2, U ++ [r] = y :: U2 := by
              cases U with
              | nil => exact ⟨r, [], rfl⟩
              | cons y U => exact ⟨y, U ++ [r], rfl⟩
            have hs2 : s1.front.pids = (A ++ l :: D2) ++ pp0 :: u :: y :: (U2 ++ B) := by
              have e1 : A ++ l :: (D2 ++ [pp0]) ++ (u :: U) ++ r :: B = A ++ (l :: D2) ++ pp0 :: u :: ((U ++ [r]) ++ B) := by simp
              rw [hs1, e1, hyU]; simp
            have kas2 := q1.front.asc3 hs2
            have hres := valley kas2.1 kas2.2 (not_lt.1 hy) (dU2.1 y (by show y ∈ U ++ [r]; rw [hyU]; simp))
            have hs3 : s1.front.pids = A ++ l :: (D2 ++ [pp0]) ++ u :: U ++ r :: B := by rw [hs1]
            refine (fillBasinReq_spec g fuel q1 (D' := l :: D2) (U' := U2) (p := pp0) (x := y) hs3 q5 bl br (by simp) hyU dD dU2.2 hres hi1 hL).mono ?_
            rintro s2 ⟨j1, j2, j3⟩
            exact ⟨j1, q2.trans j2, j3⟩

end P2T
