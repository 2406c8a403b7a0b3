import Verif.Props.Termination
import Verif.Proofs.Mono
import Verif.Proofs.EdgeFill

/-!
# Halting

The model bounds every loop and recursion of the code by a number of rounds.  `Hal f`: from some bound on
the result of `f` does not depend on the bounds any more, and it is not "ran out of rounds".  The first
argument of `f` stands for the bound handed to inner loops, the second for the bound of the recursion at hand.
-/

set_option linter.unusedSectionVars false

namespace P2T

def Hal {α} (f : Nat → Nat → Except Err α) : Prop :=
  ∃ N r, r ≠ .error .fuel ∧ ∀ a, N ≤ a → ∀ b, N ≤ b → f a b = r

namespace Hal
variable {α β : Type}

theorem const {r : Except Err α} (h : r ≠ .error .fuel) : Hal fun _ _ => r := ⟨0, r, h, fun _ _ _ _ => rfl⟩
theorem pure {x : α} : Hal fun _ _ => (Pure.pure x : Except Err α) := const (by simp [Pure.pure, Except.pure])
theorem error {e : Err} (h : e ≠ .fuel) : Hal fun _ _ => (.error e : Except Err α) := const (by simpa using h)

theorem succ {f : Nat → Nat → Except Err α} (h : Hal fun a b => f a (b + 1)) : Hal f := by
  obtain ⟨N, r, h1, h2⟩ := h
  refine ⟨N + 1, r, h1, fun a ha b hb => ?_⟩
  obtain ⟨b, rfl⟩ := Nat.exists_eq_add_of_le' (Nat.le_trans (Nat.le_add_left 1 N) hb)
  exact h2 a (by omega) b (by omega)

theorem succ1 {f : Nat → Nat → Except Err α} (h : Hal fun a b => f (a + 1) b) : Hal f := by
  obtain ⟨N, r, h1, h2⟩ := h
  refine ⟨N + 1, r, h1, fun a ha b hb => ?_⟩
  obtain ⟨a, rfl⟩ := Nat.exists_eq_add_of_le' (Nat.le_trans (Nat.le_add_left 1 N) ha)
  exact h2 a (by omega) b (by omega)

theorem diag {f : Nat → Nat → Except Err α} (h : Hal f) : Hal fun a _ => f a a := by
  obtain ⟨N, r, h1, h2⟩ := h
  exact ⟨N, r, h1, fun a ha _ _ => h2 a ha a ha⟩

theorem bind {f : Nat → Nat → Except Err α} {g : Nat → Nat → α → Except Err β} {R : α → Prop} {E : Nat → Nat → Err → Prop}
    (hf : Hal f) (hs : ∀ a b, Spec (f a b) (E a b) R) (hg : ∀ x, R x → Hal fun a b => g a b x) :
    Hal fun a b => f a b >>= g a b := by
  obtain ⟨N, r, h1, h2⟩ := hf
  cases r with
  | error e =>
    exact ⟨N, .error e, by simpa using h1, fun a ha b hb => by show (f a b >>= g a b) = _; rw [h2 a ha b hb]; rfl⟩
  | ok x =>
    have hx : R x := (hs N N).get (h2 N (Nat.le_refl _) N (Nat.le_refl _))
    obtain ⟨M, r, h3, h4⟩ := hg x hx
    refine ⟨max N M, r, h3, fun a ha b hb => ?_⟩
    show (f a b >>= g a b) = _
    rw [h2 a (by omega) b (by omega)]
    exact h4 a (by omega) b (by omega)

theorem bindr {m : Except Err α} {g : Nat → Nat → α → Except Err β} (hm : m ≠ .error .fuel)
    (hg : ∀ x, m = .ok x → Hal fun a b => g a b x) : Hal fun a b => m >>= g a b := by
  cases m with
  | error e => exact Hal.error (by simpa using hm)
  | ok x => exact hg x rfl

theorem unwrap {o : Option α} {msg : String} {g : Nat → Nat → α → Except Err β}
    (hg : ∀ x, o = some x → Hal fun a b => g a b x) : Hal fun a b => P2T.unwrap o msg >>= g a b := by
  cases o with
  | none => exact Hal.error (by simp)
  | some x => exact hg x rfl

theorem ite {p : Prop} [Decidable p] {f g : Nat → Nat → Except Err α} (h1 : p → Hal f) (h2 : ¬ p → Hal g) :
    Hal fun a b => if p then f a b else g a b := by
  by_cases h : p
  · simp only [if_pos h]; exact h1 h
  · simp only [if_neg h]; exact h2 h

end Hal

variable {c : Ctx} {K : Prop}

/-! ## Legalization -/

theorem legalizeLoop_hal {s : St} (m : MeshOk c.W s.tris) {queue remap : List Nat} (hq : ∀ t ∈ queue, t < s.tris.length) :
    Hal fun a _ => legalizeLoop c a s queue remap := by
  obtain ⟨N, h0, hk⟩ := potential_nat c
  obtain ⟨k, hp⟩ := hk _ m
  obtain ⟨s', r, q1, -, -⟩ := legalizeLoop_total h0 hk (2 * k + queue.length) k s queue remap m hq hp (Nat.le_refl _)
  refine ⟨2 * k + queue.length, legalizeLoop c (2 * k + queue.length) s queue remap, by rw [q1]; simp, fun a ha b hb => ?_⟩
  rcases legalizeLoop_ap (B := (· = .fuel)) c (.inr ⟨ha, rfl⟩) s queue remap with h | ⟨e, rfl, h⟩
  · exact h.symm
  · rw [q1] at h; cases h

theorem legalize_hal {Q0 : Nat → Prop} {P0 : Nat → Nat → Prop} {s : St} {t : Nat}
    (h : SInv c K (fun y => Q0 y ∨ y = t) (fun y v => P0 y v ∨ y = t) s) (ht : t < s.tris.length) :
    Hal fun a _ => legalize c a s t := by
  unfold legalize
  have h1 : SInv c K (fun y => Q0 y ∨ y ∈ [t]) (fun y v => P0 y v ∨ y ∈ [t]) (s.emit (.willLegalize t)) :=
    (h.mono (by simp) (by simp)).emit rfl (by simp) (by simp)
  refine Hal.bind (legalizeLoop_hal (s := s.emit (.willLegalize t)) h1.mesh.ok (by simpa [St.emit] using ht))
    (fun a _ => legalizeLoop_spec a _ [t] [t] h1 (by simpa [St.emit] using ht) (by simpa [St.emit] using ht)) ?_
  rintro ⟨s1, remap⟩ ⟨q1, q2, q3, q4, q5, -⟩
  obtain ⟨f', k1, k2, k3, k4⟩ := mapAll_spec remap q1.mesh q5 q1.bd q1.front
  simp only [k1, ok_bind]
  exact Hal.pure

/-! ## Filling -/

theorem fillOne_hal {Q0 : Nat → Prop} {s : St} (h : SInv c K Q0 NoP s) {L R : List Nat} {p n x : Nat}
    (hs : s.front.pids = L ++ p :: n :: x :: R) {id : NodeId} (hid : IdFor c id n) (hw : c.W p n x)
    (hz : det2 (c.pos p) (c.pos n) (c.pos x) = 0 → TopV c p s.tris → ∀ t, ¬ FlatAt c s.tris p t) :
    Hal fun a _ => fillOne c a s id := by
  obtain ⟨s1, fo, e1, inv, lt, -⟩ := fillOne_pre h hs hid hw hz
  simp only [e1]
  exact Hal.bind (legalize_hal inv lt) (fun a _ => legalize_spec inv lt) fun _ _ => Hal.pure

theorem len_drop {L R : List Nat} {p n x : Nat} {l l' : List Nat} (h : l = L ++ p :: n :: x :: R) (h' : l' = L ++ p :: x :: R) {m : Nat}
    (hm : l.length ≤ m + 1) : l'.length ≤ m := by
  rw [h] at hm; rw [h']; simp at *; omega

theorem fillRight_hal (g : Good c) : ∀ (m : Nat) {s : St} {Q0 : Nat → Prop}, SInv c K Q0 NoP s → s.front.pids.length ≤ m →
    ∀ {L R : List Nat} {a : Nat} {id : NodeId}, s.front.pids = L ++ a :: R → IdFor c id a →
    ∀ {a0 : Nat}, Hi c a0 s → a0 ∉ R → (a = a0 → ∀ t, ¬ FlatAt c s.tris a t) →
    Hal fun f0 f => fillRight c f0 f s id
  | 0, s, Q0, h, hm, L, R, a, id, hs, hid, a0, hi, hR, h0 => by rw [hs] at hm; simp at hm
  | m + 1, s, Q0, h, hm, L, R, a, id, hs, hid, a0, hi, hR, h0 => by
    refine Hal.succ ?_
    simp only [fillRight]
    cases R with
    | nil =>
      simp only [h.front.pLocNext_nil hs hid]
      exact Hal.pure
    | cons n R =>
      obtain ⟨r, k1, k2⟩ := h.front.pLocNext hs hid
      simp only [k1]
      cases R with
      | nil =>
        simp only [h.front.pNext_nil k2]
        exact Hal.pure
      | cons x R =>
        obtain ⟨rx, k3, k4⟩ := h.front.pNext k2
        obtain ⟨b, k5, k6⟩ := shouldFill_spec h.front g k2
        simp only [k3, k5, ok_bind]
        cases b with
        | true => exact Hal.pure
        | false =>
          have hw := h.front.mkW hs (k6 rfl)
          have hz : det2 (c.pos a) (c.pos n) (c.pos x) = 0 → TopV c a s.tris → ∀ t, ¬ FlatAt c s.tris a t := by
            intro _ ht
            by_cases e : a = a0
            · exact h0 e
            · exact (hi.not (by simp [hs]) e ht).elim
          refine Hal.bind (fillOne_hal h hs k2.id hw hz) (fun a _ => fillOne_spec h hs k2.id hw hz) ?_
          rintro ⟨s1, ro⟩ ⟨q1, q2, q3, fo, rfl, q4, q5⟩
          have hs1 : s1.front.pids = (L ++ [a]) ++ x :: R := by rw [q3]; simp
          have hi1 : Hi c a0 s1 := hi.next q2 (by rw [q3, hs]; simp; tauto)
          exact fillRight_hal g m q1 (len_drop hs q3 hm) hs1 q5 hi1 (by simp at hR; tauto) (by rintro rfl; simp at hR)

theorem fillLeft_hal (g : Good c) : ∀ (m : Nat) {s : St} {Q0 : Nat → Prop}, SInv c K Q0 NoP s → s.front.pids.length ≤ m →
    ∀ {L R : List Nat} {a : Nat} {id : NodeId}, s.front.pids = L ++ R → R ≠ [] → IdFor c id a →
    ((∃ R0, R = a :: R0) ∨ (a ∉ s.front.pids ∧ (∀ b ∈ L, keyLt (c.pos b) (c.pos a)) ∧ ∀ b ∈ R, keyLt (c.pos a) (c.pos b))) →
    ∀ {a0 : Nat}, Hi c a0 s → a0 ∉ L →
    Hal fun f0 f => fillLeft c f0 f s id
  | 0, s, Q0, h, hm, L, R, a, id, hs, hR, hid, hp, a0, hi, hL => by
    rw [hs] at hm; simp at hm; exact (hR hm.2).elim
  | m + 1, s, Q0, h, hm, L, R, a, id, hs, hR, hid, hp, a0, hi, hL => by
    refine Hal.succ ?_
    simp only [fillLeft]
    rcases eq_nil_or_snoc L with rfl | ⟨L, n, rfl⟩
    · have : s.front.locatePrev id = none := by
        rcases hp with ⟨R0, rfl⟩ | ⟨h1, h2, h3⟩
        · exact h.front.pLocPrev_nil hs hid
        · exact h.front.pLocPrev_gone_nil hs hid h1 h3
      simp only [this]
      exact Hal.pure
    · have : ∃ r, s.front.locatePrev id = some r ∧ RefFor c s.front r L n R := by
        rcases hp with ⟨R0, rfl⟩ | ⟨h1, h2, h3⟩
        · exact h.front.pLocPrev hs hid
        · exact h.front.pLocPrev_gone hs hid h1 h2 h3
      obtain ⟨r, k1, k2⟩ := this
      simp only [k1]
      rcases eq_nil_or_snoc L with rfl | ⟨L, p, rfl⟩
      · simp only [h.front.pPrev_nil k2]
        exact Hal.pure
      · obtain ⟨rp, k3, k4⟩ := h.front.pPrev k2
        obtain ⟨x, R, rfl⟩ := List.exists_cons_of_ne_nil hR
        obtain ⟨b, k5, k6⟩ := shouldFill_spec h.front g k2
        simp only [k3, k5, ok_bind]
        cases b with
        | true => exact Hal.pure
        | false =>
          have hs' : s.front.pids = L ++ p :: n :: x :: R := by rw [hs]; simp
          have hw := h.front.mkW hs' (k6 rfl)
          have hz : det2 (c.pos p) (c.pos n) (c.pos x) = 0 → TopV c p s.tris → ∀ t, ¬ FlatAt c s.tris p t :=
            fun _ ht => (hi.not (by simp [hs']) (by rintro rfl; simp at hL) ht).elim
          refine Hal.bind (fillOne_hal h hs' k2.id hw hz) (fun a _ => fillOne_spec h hs' k2.id hw hz) ?_
          rintro ⟨s1, ro⟩ ⟨q1, q2, q3, fo, rfl, q4, q5⟩
          have hi1 : Hi c a0 s1 := hi.next q2 (by rw [q3, hs']; simp; tauto)
          have hs1 : s1.front.pids = (L ++ [p]) ++ (x :: R) := by rw [q3]; simp
          have nd := h.front.nodupP
          have as := h.front.ascP
          rw [hs'] at nd as
          refine fillLeft_hal g m q1 (len_drop hs' q3 hm) hs1 (by simp) k2.id (.inr ⟨?_, ?_, ?_⟩) hi1 (by simp at hL ⊢; tauto)
          · rw [hs1]
            have := (List.nodup_append.1 nd)
            intro hm
            have nd2 := this.2.1
            simp only [List.nodup_cons, List.mem_cons, not_or] at nd2
            simp only [List.mem_append, List.mem_cons, List.not_mem_nil, or_false] at hm
            rcases hm with (hm | hm) | hm | hm
            · exact this.2.2 n hm n (by simp) rfl
            · exact nd2.1.1 hm.symm
            · exact nd2.2.1.1 hm
            · exact nd2.2.1.2 hm
          · intro b hb
            rw [List.pairwise_append] at as
            simp only [List.mem_append, List.mem_singleton] at hb
            rcases hb with hb | rfl
            · exact as.2.2 b hb n (by simp)
            · exact (List.pairwise_cons.1 as.2.1).1 n (by simp)
          · intro b hb
            rw [List.pairwise_append] at as
            exact (List.pairwise_cons.1 (List.pairwise_cons.1 as.2.1).2).1 b hb

set_option maxHeartbeats 800000 in
theorem fillBasinReq_hal (g : Good c) {basin : Basin} : ∀ (m : Nat) {s : St} {Q0 : Nat → Prop}, SInv c K Q0 NoP s → s.front.pids.length ≤ m →
    ∀ {A D U B D' U' : List Nat} {l n r p x : Nat} {id : NodeId}, s.front.pids = A ++ l :: D ++ n :: U ++ r :: B → IdFor c id n →
    basin.left = c.pos l → basin.right = c.pos r → l :: D = D' ++ [p] → U ++ [r] = x :: U' →
    (l :: D).Pairwise (fun u v => (c.pos v).y ≤ (c.pos u).y) → (U ++ [r]).Pairwise (fun u v => (c.pos u).y < (c.pos v).y) →
    0 ≤ det2 (c.pos p) (c.pos n) (c.pos x) → ∀ {a0 : Nat}, Hi c a0 s → a0 ∉ l :: D →
    Hal fun f0 f => fillBasinReq c f0 f s id basin
  | 0, s, Q0, h, hm, A, D, U, B, D', U', l, n, r, p, x, id, hs, hid, bl, br, hD, hU, dD, dU, hd, a0, hi, hL => by rw [hs] at hm; simp at hm
  | m + 1, s, Q0, h, hm, A, D, U, B, D', U', l, n, r, p, x, id, hs, hid, bl, br, hD, hU, dD, dU, hd, a0, hi, hL => by
    refine Hal.succ ?_
    simp only [fillBasinReq]
    by_cases hc : basin.completed c.num id.pt = true
    · simp only [if_pos hc]
      exact Hal.pure
    simp only [if_neg hc]
    have hs0 : s.front.pids = (A ++ D') ++ p :: n :: x :: (U' ++ B) := by
      have e1 : A ++ l :: D ++ n :: U ++ r :: B = A ++ (l :: D) ++ n :: ((U ++ [r]) ++ B) := by simp
      rw [hs, e1, hD, hU]; simp
    have hd0 := h.front.mkW hs0 hd
    have kas := h.front.asc3 hs0
    have hpD : p ∈ l :: D := by rw [hD]; simp
    have hz : det2 (c.pos p) (c.pos n) (c.pos x) = 0 → TopV c p s.tris → ∀ t, ¬ FlatAt c s.tris p t :=
      fun _ ht => (hi.not (by simp [hs0]) (by rintro rfl; exact hL hpD) ht).elim
    refine Hal.bind (fillOne_hal h hs0 hid hd0 hz) (fun _ _ => fillOne_spec h hs0 hid hd0 hz) ?_
    rintro ⟨s1, ro⟩ ⟨q1, q2, q3, fo, rfl, q4, q5⟩
    have hi1 : Hi c a0 s1 := hi.next q2 (by rw [q3, hs0]; simp; tauto)
    simp only [unwrap_some, ok_bind]
    have hs1 : s1.front.pids = A ++ l :: D ++ U ++ r :: B := by
      have e1 : A ++ l :: D ++ U ++ r :: B = A ++ (l :: D) ++ ((U ++ [r]) ++ B) := by simp
      rw [q3, e1, hD, hU]; simp
    have nd1 := q1.front.nodupP
    have inF : ∀ a ∈ A ++ l :: D ++ U ++ r :: B, a < c.points.length := fun a ha => q1.front.pids_lt (by rw [hs1]; exact ha)
    have hlL := inF l (by simp)
    have hrL := inF r (by simp)
    have hpL : p < c.points.length := q1.front.pids_lt (by simp [q3])
    have hxL : x < c.points.length := q1.front.pids_lt (by simp [q3])
    have cl : fo.prev.pt = basin.left ↔ p = l := by
      rw [bl, q4.2]
      exact ⟨g.inj _ _ hpL hlL, fun e => by rw [e]⟩
    have cr : fo.next.pt = basin.right ↔ x = r := by
      rw [br, q5.2]
      exact ⟨g.inj _ _ hxL hrL, fun e => by rw [e]⟩
    have as1 := q1.front.ascP
    -- `p = l` iff `D` is empty; `x = r` iff `U` is empty
    obtain ⟨D1, pp0, hD1, hDc⟩ := snoc_last l D
    have hpp : pp0 = p ∧ D1 = D' := by
      have := List.append_inj' (hD1.symm.trans hD) rfl
      simp only [List.cons.injEq, and_true] at this
      exact ⟨this.2, this.1⟩
    obtain ⟨rfl, rfl⟩ := hpp
    have pl : pp0 = l ↔ D = [] := by
      constructor
      · rintro rfl
        rcases hDc with ⟨hh, -⟩ | ⟨D'', -, hh⟩
        · exact hh
        · rw [hs1, hh] at nd1
          simp [List.nodup_append] at nd1
      · rintro rfl
        rcases hDc with ⟨-, -, hh⟩ | ⟨D'', -, hh⟩
        · exact hh
        · simp at hh
    have xr : x = r ↔ U = [] := by
      constructor
      · rintro rfl
        cases U with
        | nil => rfl
        | cons u U =>
          simp only [List.cons_append, List.cons.injEq] at hU
          rw [hs1, hU.1] at nd1
          simp [List.nodup_append] at nd1
      · rintro rfl
        simp at hU
        exact hU.1.symm
    simp only [if_congr (and_congr cl cr) rfl rfl, if_congr cl rfl rfl, if_congr cr rfl rfl]
    by_cases h1 : pp0 = l
    · by_cases h2 : x = r
      · simp only [if_pos (show pp0 = l ∧ x = r from ⟨h1, h2⟩)]
        exact Hal.pure
      · simp only [if_neg (show ¬ (pp0 = l ∧ x = r) from fun k => h2 k.2), if_pos h1]
        have hD0 := pl.1 h1
        subst hD0
        cases U with
        | nil => exact (h2 (xr.2 rfl)).elim
        | cons u U =>
          simp only [List.cons_append, List.cons.injEq] at hU
          obtain ⟨rfl, rfl⟩ := hU
          obtain ⟨y, U2, hy⟩ : ∃ y U2, U ++ [r] = y :: U2 := by
            cases U with
            | nil => exact ⟨r, [], rfl⟩
            | cons y U => exact ⟨y, U ++ [r], rfl⟩
          have hs2 : s1.front.pids = A ++ l :: u :: y :: (U2 ++ B) := by
            have e1 : A ++ [l] ++ (u :: U) ++ r :: B = A ++ l :: u :: ((U ++ [r]) ++ B) := by simp
            rw [hs1, e1, hy]; simp
          obtain ⟨rr, z1, z2⟩ := q1.front.pGetId (L := A ++ [l]) (p := u) (R := y :: (U2 ++ B)) (by rw [hs2]; simp) q5
          obtain ⟨rn, z3, z4⟩ := q1.front.pNext z2
          simp only [z1, unwrap_some, ok_bind, z3]
          by_cases ho : orient2d id.pt rr.pt rn.pt = .cw
          · simp only [if_pos ho]
            exact Hal.pure
          · simp only [if_neg ho]
            have hdet : 0 ≤ det2 (c.pos n) (c.pos u) (c.pos y) := by
              rw [orient_cw, hid.2, z2.pt, z4.pt] at ho
              exact not_lt.1 ho
            have kas2 := q1.front.asc3 hs2
            subst h1
            have hres := (chain_det kas.1 kas.2 kas2.2 hd hdet).1
            have hs3 : s1.front.pids = A ++ pp0 :: [] ++ u :: U ++ r :: B := by rw [hs1]
            refine fillBasinReq_hal g m q1 (len_drop hs0 q3 hm) (D' := []) (U' := U2) (p := pp0) (x := y) hs3 z2.id bl br (by simp) hy (by simp) (List.pairwise_cons.1 dU).2 hres hi1 hL
    · simp only [if_neg (show ¬ (pp0 = l ∧ x = r) from fun k => h1 k.1), if_neg h1]
      have hDc' : ∃ D'', D1 = l :: D'' ∧ D = D'' ++ [pp0] := by
        rcases hDc with ⟨hh, -⟩ | hh
        · exact (h1 (pl.2 hh)).elim
        · exact hh
      obtain ⟨D2, rfl, rfl⟩ := hDc'
      obtain ⟨D3, q0, hD3, -⟩ := snoc_last l D2
      by_cases h2 : x = r
      · simp only [if_pos h2]
        have hU0 := xr.1 h2
        subst hU0 h2
        have hs2 : s1.front.pids = (A ++ D3) ++ q0 :: pp0 :: x :: B := by
          have e1 : A ++ l :: (D2 ++ [pp0]) ++ [] ++ x :: B = A ++ (l :: D2) ++ pp0 :: x :: B := by simp
          rw [hs1, e1, hD3]; simp
        obtain ⟨rr, z1, z2⟩ := q1.front.pGetId (L := (A ++ D3) ++ [q0]) (p := pp0) (R := x :: B) (by rw [hs2]; simp) q4
        obtain ⟨rn, z3, z4⟩ := q1.front.pPrev z2
        simp only [z1, unwrap_some, ok_bind, z3]
        by_cases ho : orient2d id.pt rr.pt rn.pt = .ccw
        · simp only [if_pos ho]
          exact Hal.pure
        · simp only [if_neg ho]
          have hdet : 0 ≤ det2 (c.pos q0) (c.pos pp0) (c.pos n) := by
            rw [orient_ccw, hid.2, z2.pt, z4.pt] at ho
            have e : det2 (c.pos q0) (c.pos pp0) (c.pos n) = - det2 (c.pos n) (c.pos pp0) (c.pos q0) := by unfold det2; ring
            rw [e]; linarith
          have kas2 := q1.front.asc3 hs2
          have hres := (chain_det kas2.1 kas.1 kas.2 hdet hd).2
          have hs3 : s1.front.pids = A ++ l :: D2 ++ pp0 :: [] ++ x :: B := by rw [hs1]; simp
          refine fillBasinReq_hal g m q1 (len_drop hs0 q3 hm) (D' := D3) (U' := []) (p := q0) (x := x) hs3 z2.id bl br hD3 rfl ?_ (by simp) hres hi1 (by simp at hL ⊢; tauto)
          · refine List.Pairwise.sublist ?_ dD
            simp
      · simp only [if_neg h2]
        cases U with
        | nil => exact (h2 (xr.2 rfl)).elim
        | cons u U =>
          simp only [List.cons_append, List.cons.injEq] at hU
          obtain ⟨rfl, rfl⟩ := hU
          simp only [q4.2, q5.2]
          have dU2 := List.pairwise_cons.1 dU
          have dD2 : (l :: D2).Pairwise (fun u v => (c.pos v).y ≤ (c.pos u).y) ∧ ∀ a ∈ l :: D2, (c.pos pp0).y ≤ (c.pos a).y := by
            rw [show l :: (D2 ++ [pp0]) = (l :: D2) ++ [pp0] by simp, List.pairwise_append] at dD
            exact ⟨dD.1, fun a ha => dD.2.2 a ha pp0 (by simp)⟩
          by_cases hy : (c.pos pp0).y < (c.pos u).y
          · simp only [if_pos hy]
            have hs2 : s1.front.pids = (A ++ D3) ++ q0 :: pp0 :: u :: (U ++ r :: B) := by
              have e1 : A ++ l :: (D2 ++ [pp0]) ++ (u :: U) ++ r :: B = A ++ (l :: D2) ++ pp0 :: u :: (U ++ r :: B) := by simp
              rw [hs1, e1, hD3]; simp
            have kas2 := q1.front.asc3 hs2
            have hres := valley kas2.1 kas2.2 (dD2.2 q0 (by rw [hD3]; simp)) hy
            have hs3 : s1.front.pids = A ++ l :: D2 ++ pp0 :: (u :: U) ++ r :: B := by rw [hs1]; simp
            refine fillBasinReq_hal g m q1 (len_drop hs0 q3 hm) (D' := D3) (U' := U ++ [r]) (p := q0) (x := u) hs3 q4 bl br hD3 rfl dD2.1 dU hres hi1 (by simp at hL ⊢; tauto)
          · simp only [if_neg hy]
            obtain ⟨y, U2, hyU⟩ : ∃ y U2, U ++ [r] = y :: U2 := by
              cases U with
              | nil => exact ⟨r, [], rfl⟩
              | cons y U => exact ⟨y, U ++ [r], rfl⟩
            have hs2 : s1.front.pids = (A ++ l :: D2) ++ pp0 :: u :: y :: (U2 ++ B) := by
              have e1 : A ++ l :: (D2 ++ [pp0]) ++ (u :: U) ++ r :: B = A ++ (l :: D2) ++ pp0 :: u :: ((U ++ [r]) ++ B) := by simp
              rw [hs1, e1, hyU]; simp
            have kas2 := q1.front.asc3 hs2
            have hres := valley kas2.1 kas2.2 (not_lt.1 hy) (dU2.1 y (by show y ∈ U ++ [r]; rw [hyU]; simp))
            have hs3 : s1.front.pids = A ++ l :: (D2 ++ [pp0]) ++ u :: U ++ r :: B := by rw [hs1]
            refine fillBasinReq_hal g m q1 (len_drop hs0 q3 hm) (D' := l :: D2) (U' := U2) (p := pp0) (x := y) hs3 q5 bl br (by simp) hyU dD dU2.2 hres hi1 hL


section
variable {f : Front} (h : FOk c f)
include h

theorem findBottom_hal : ∀ (R : List Nat) {r : NodeRef} {L : List Nat} {l : Nat}, RefFor c f r L l R → Hal fun a _ => findBottom f a r
  | [], r, L, l, hr => by
    refine Hal.succ1 ?_
    simp only [findBottom, h.pNext_nil hr]
    exact Hal.pure
  | n :: R, r, L, l, hr => by
    refine Hal.succ1 ?_
    obtain ⟨rn, k1, k2⟩ := h.pNext hr
    simp only [findBottom, k1]
    exact Hal.ite (fun _ => findBottom_hal R k2) fun _ => Hal.pure

theorem findRight_hal : ∀ (R : List Nat) {r : NodeRef} {L : List Nat} {l : Nat}, RefFor c f r L l R → Hal fun a _ => findRight f a r
  | [], r, L, l, hr => by
    refine Hal.succ1 ?_
    simp only [findRight, h.pNext_nil hr]
    exact Hal.pure
  | n :: R, r, L, l, hr => by
    refine Hal.succ1 ?_
    obtain ⟨rn, k1, k2⟩ := h.pNext hr
    simp only [findRight, k1]
    exact Hal.ite (fun _ => findRight_hal R k2) fun _ => Hal.pure

end

theorem fillBasin_hal (g : Good c) {s : St} {Q0 : Nat → Prop} (h : SInv c K Q0 NoP s)
    {L R : List Nat} {a : Nat} {id : NodeId} (hs : s.front.pids = L ++ a :: R) (hid : IdFor c id a)
    {a0 : Nat} (hi : Hi c a0 s) (hR : a0 ∉ R) :
    Hal fun f _ => fillBasin c f s id := by
  simp only [fillBasin]
  cases R with
  | nil =>
    simp only [h.front.pLocNext_nil hs hid]
    exact Hal.pure
  | cons n R =>
    obtain ⟨r, k1, k2⟩ := h.front.pLocNext hs hid
    simp only [k1]
    cases R with
    | nil =>
      simp only [h.front.pNext_nil k2]
      exact Hal.pure
    | cons x R =>
      obtain ⟨rx, k3, k4⟩ := h.front.pNext k2
      simp only [k3]
      have hl : ∃ A l B, RefFor c s.front (if orient2d id.pt r.pt rx.pt = .ccw then rx else r) (L ++ a :: A) l B := by
        split
        · exact ⟨[n], x, R, by simpa using k4⟩
        · exact ⟨[], n, x :: R, by simpa using k2⟩
      generalize (if orient2d id.pt r.pt rx.pt = .ccw then rx else r) = left at hl ⊢
      obtain ⟨A, l, B, hl⟩ := hl
      refine Hal.bind (findBottom_hal h.front _ hl) (fun a _ => findBottom_spec h.front a hl) ?_
      rintro bot ⟨D, b, R1, q1, q2, q3, q4, q5, q6⟩
      by_cases e1 : bot.pid = left.pid
      · simp only [if_pos e1]; exact Hal.pure
      simp only [if_neg e1]
      refine Hal.bind (findRight_hal h.front _ q1) (fun a _ => findRight_spec h.front a q1) ?_
      rintro rt ⟨U, t, R2, z1, z2, z3, z4, z5⟩
      by_cases e2 : rt.pid = bot.pid
      · simp only [if_pos e2]; exact Hal.pure
      simp only [if_neg e2]
      cases D with
      | nil => exact (e1 (by rw [q1.pid, hl.pid, q5 rfl])).elim
      | cons d D =>
        obtain rfl := q6 d D rfl
        cases U with
        | nil => exact (e2 (by rw [q1.pid, z1.pid, z4 rfl])).elim
        | cons u U =>
          obtain rfl := z5 u U rfl
          have hs1 : s.front.pids = (L ++ a :: A) ++ d :: D ++ u :: U ++ t :: R2 := by
            rw [z1.split]; try simp
          obtain ⟨D', p, hD, -⟩ := snoc_last d D
          obtain ⟨y, U', hU⟩ : ∃ y U', U ++ [t] = y :: U' := by
            cases U with
            | nil => exact ⟨t, [], rfl⟩
            | cons y U => exact ⟨y, U ++ [t], rfl⟩
          have hs2 : s.front.pids = (L ++ a :: A ++ D') ++ p :: u :: y :: (U' ++ R2) := by
            have e1 : (L ++ a :: A) ++ d :: D ++ u :: U ++ t :: R2 = (L ++ a :: A) ++ (d :: D) ++ u :: ((U ++ [t]) ++ R2) := by simp
            rw [hs1, e1, hD, hU]; simp
          have kas := h.front.asc3 hs2
          have hiD : a0 ∉ d :: D := by
            intro k
            apply hR
            have := hs.symm.trans hs1
            simp only [List.append_assoc, List.cons_append] at this
            have := List.append_cancel_left this
            simp only [List.cons.injEq, true_and] at this
            rw [this]
            simp at k ⊢
            tauto
          rw [List.pairwise_append] at q3
          have z3' : (u :: (U ++ [t])).Pairwise (fun u v => (c.pos u).y < (c.pos v).y) := z3
          rw [List.pairwise_cons] at z3'
          have hd := valley kas.1 kas.2 (q3.2.2 p (by rw [hD]; simp) u (by simp)) (z3'.1 y (by rw [hU]; simp))
          exact (fillBasinReq_hal g _ h (Nat.le_refl _) hs1 q1.id (p := p) (x := y) hl.pt z1.pt hD hU q3.1 z3'.2 hd hi hiD).diag

theorem fillAdvancingFront_hal (g : Good c) {s : St} {Q0 : Nat → Prop} (h : SInv c K Q0 NoP s)
    {L R : List Nat} {a : Nat} (hs : s.front.pids = L ++ a :: R) (hi : Hi c a s) (h0 : ∀ t, ¬ FlatAt c s.tris a t) :
    Hal fun f _ => fillAdvancingFront c f s (c.pos a) := by
  simp only [fillAdvancingFront]
  obtain ⟨r, k1, k2⟩ := h.front.pGet hs
  simp only [k1, ok_bind, unwrap_some]
  have nR : ∀ {s : St} {L R}, FOk c s.front → s.front.pids = L ++ a :: R → a ∉ R ∧ a ∉ L := by
    intro s L R h hs
    have nd := h.nodupP
    rw [hs, List.nodup_append] at nd
    exact ⟨(List.nodup_cons.1 nd.2.1).1, fun k => nd.2.2 a k a (by simp) rfl⟩
  refine Hal.bind (fillRight_hal g _ h (Nat.le_refl _) hs k2.id hi (nR h.front hs).1 fun _ => h0).diag
    (R := fun s1 => (SInv c K Q0 NoP s1 ∧ Ext c s s1 ∧ ∃ R', s1.front.pids = L ++ a :: R') ∧ Hi c a s1)
    (fun f _ => (fillRight_spec g f h hs k2.id hi (nR h.front hs).1 fun _ => h0).withEq.mono
      fun s1 k => ⟨k.1, hi.next k.1.2.1 fun z hz => (fillRight_evolve k.2).pids hz⟩) ?_
  rintro s1 ⟨⟨q1, q2, R', q3⟩, hi1⟩
  refine Hal.bind (fillLeft_hal g _ q1 (Nat.le_refl _) q3 (by simp) k2.id (.inl ⟨R', rfl⟩) hi1 (nR q1.front q3).2).diag
    (R := fun s2 => (SInv c K Q0 NoP s2 ∧ Ext c s1 s2 ∧ ∃ L', s2.front.pids = L' ++ a :: R') ∧ Hi c a s2)
    (fun f _ => (fillLeft_spec g f q1 q3 (by simp) k2.id (.inl ⟨R', rfl⟩) hi1 (nR q1.front q3).2).withEq.mono
      fun s2 k => ⟨k.1, hi1.next k.1.2.1 fun z hz => (fillLeft_evolve k.2).pids hz⟩) ?_
  rintro s2 ⟨⟨z1, z2, L', z3⟩, hi2⟩
  exact Hal.ite (fun _ => fillBasin_hal g z1 z3 k2.id hi2 (nR z1.front z3).1) fun _ => Hal.pure

/-! ## Point events -/



theorem pointEvent_hal (g : Good c) {s : St} (h : SInv c K (fun _ => False) NoP s) {i : Nat}
    (hi : i < c.points.length) (hh : i ≠ c.head) (ht : i ≠ c.tail) (hb : ∀ a ∈ s.front.pids, Below (c.pos a) (c.pos i)) (nv : ¬ HasV s.tris i) :
    Hal fun f _ => pointEvent c f s i (c.pos i) := by
  obtain ⟨en1, en2, en3⟩ := g.enclosed i hi hh ht
  obtain ⟨s1, r, L, e, x, R, e1, inv, lt, ex, hv1, hs, hs1, hid, k1, k2, fl⟩ := pointEvent_pre g h hi hh ht hb
  have be : Below (c.pos e) (c.pos i) := hb e (by simp [hs])
  simp only [e1]
  refine Hal.bind (legalize_hal inv lt) (fun _ _ => legalize_spec inv lt) ?_
  rintro sA ⟨j1, j2, j3, j4, j5, j6⟩
  have hsA : sA.front.pids = L ++ e :: i :: x :: R := by rw [Front.pids_shape j3]; exact hs1
  have hiA : Hi c i sA := ⟨j2.grow _ hv1, fun z hz => by
    rw [hsA] at hz
    by_cases e : z = i
    · exact .inl e
    · exact .inr (hb z (by rw [hs]; simp at hz ⊢; tauto))⟩
  have h0A : ∀ t, ¬ FlatAt c sA.tris i t := by
    intro t k
    obtain ⟨_, _, _, _, k, -⟩ := fl _ _ (j6 _ _ k)
    exact nv ⟨_, _, _, _, _, k⟩
  by_cases hx : (c.pos i).x ≤ c.num.rnd ((c.pos e).x + c.num.eps)
  · simp only [if_pos hx]
    rcases eq_nil_or_snoc L with rfl | ⟨L2, p, rfl⟩
    · simp only [fillOne_first j1.front (R := i :: x :: R) (by rw [hsA]; simp) hid, ok_bind]
      exact fillAdvancingFront_hal g (L := [e]) (R := x :: R) j1 (by rw [hsA]; simp) hiA h0A
    · have hsA' : sA.front.pids = L2 ++ p :: e :: i :: (x :: R) := by rw [hsA]; simp
      have kas := j1.front.asc3 hsA'
      have heh : e ≠ c.head := by
        rintro rfl
        obtain ⟨l, hl⟩ := h.front.headP
        have as' := h.front.ascP
        have hp : p ∈ s.front.pids := by simp [hs]
        rw [hl] at hp as'
        rcases List.mem_cons.1 hp with rfl | hp
        · exact keyLt_irrefl _ kas.1
        · exact keyLt_asymm kas.1 ((List.pairwise_cons.1 as').1 p hp)
      have het : e ≠ c.tail := by
        rintro rfl
        exact keyLt_asymm k1 (.inl en2)
      have same := g.same i e hi (h.front.pids_lt (by simp [hs])) hh ht heh het k1 hx
      have hdet : 0 ≤ det2 (c.pos p) (c.pos e) (c.pos i) := by
        have e0 : det2 (c.pos p) (c.pos e) (c.pos i) = ((c.pos e).x - (c.pos p).x) * ((c.pos i).y - (c.pos e).y) := by
          unfold det2; rw [same]; ring
        rw [e0]
        have : (c.pos e).y ≤ (c.pos i).y := by rcases be with b | ⟨b, b'⟩ <;> linarith
        have : (c.pos p).x ≤ (c.pos e).x := by rcases kas.1 with b | ⟨b, b'⟩ <;> linarith
        exact mul_nonneg (by linarith) (by linarith)
      have hw := j1.front.mkW hsA' hdet
      have hpi : p ≠ i := by rintro rfl; exact keyLt_irrefl _ (keyLt_trans kas.1 kas.2)
      have hz : det2 (c.pos p) (c.pos e) (c.pos i) = 0 → TopV c p sA.tris → ∀ t, ¬ FlatAt c sA.tris p t := fun _ ht =>
        (hiA.not (by rw [hsA']; simp) hpi ht).elim
      refine Hal.bind (R := fun s2 : St => SInv c K (fun _ => False) NoP s2 ∧ Ext c sA s2 ∧ s2.front.pids = L2 ++ p :: i :: x :: R ∧ ∀ t, ¬ FlatAt c s2.tris i t)
        (E := fun _ _ => (· = .fuel)) ?_ ?_ ?_
      · exact Hal.bind (fillOne_hal j1 hsA' hid hw hz) (fun _ _ => fillOne_spec j1 hsA' hid hw hz) fun _ _ => Hal.pure
      · intro f _
        refine Spec.bind ((fillOne_spec j1 hsA' hid hw hz).andL (fillOne_flat j1 hsA' hid hw hz)) ?_
        rintro ⟨s2, ro⟩ ⟨⟨y1, y2, y3, -⟩, y4⟩
        exact Spec.ok ⟨y1, y2, y3, fun t k => h0A t (y4 i t hpi.symm k)⟩
      · rintro s2 ⟨y1, y2, y3, y4⟩
        exact fillAdvancingFront_hal g (L := L2 ++ [p]) (R := x :: R) y1 (by rw [y3]; simp) (hiA.next y2 (by rw [y3, hsA']; simp; tauto)) y4
  · simp only [if_neg hx]
    exact fillAdvancingFront_hal g (L := L ++ [e]) (R := x :: R) j1 (by rw [hsA]; simp) hiA h0A

end P2T
