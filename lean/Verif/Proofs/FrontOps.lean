import Verif.Proofs.Run
import Verif.Proofs.Geom

/-!
# Fronts with strictly ascending keys
-/

namespace P2T

theorem keyCmp_lt {p q : Point} : keyCmp p q = .lt ↔ keyLt p q := by
  unfold keyCmp cmpRat keyLt
  rcases lt_trichotomy p.x q.x with h | h | h
  · simp [h, ne_of_lt h]
  · rcases lt_trichotomy p.y q.y with k | k | k
    · simp [h, k]
    · simp [h, k]
    · simp [h, k, not_lt_of_gt k, ne_of_gt k]
  · simp [h, not_lt_of_gt h, ne_of_gt h]

theorem keyCmp_gt {p q : Point} : keyCmp p q = .gt ↔ keyLt q p := by
  unfold keyCmp cmpRat keyLt
  rcases lt_trichotomy p.x q.x with h | h | h
  · simp [h, not_lt_of_gt h, ne_of_gt h]
  · rcases lt_trichotomy p.y q.y with k | k | k
    · simp [h, k, not_lt_of_gt k]
    · simp [h, k]
    · simp [h, k, not_lt_of_gt k, ne_of_gt k]
  · simp [h, not_lt_of_gt h, ne_of_gt h]

theorem keyCmp_eq_iff {p q : Point} : keyCmp p q = .eq ↔ p = q :=
  ⟨keyCmp_eq, by rintro rfl; simp [keyCmp, cmpRat]⟩

theorem keyLt_total {p q : Point} (h : p ≠ q) : keyLt p q ∨ keyLt q p := by
  rcases e : keyCmp p q with _ | _ | _
  · exact .inl (keyCmp_lt.1 e)
  · exact (h (keyCmp_eq e)).elim
  · exact .inr (keyCmp_gt.1 e)

theorem keyLt_ne {p q : Point} (h : keyLt p q) : p ≠ q := by rintro rfl; exact keyLt_irrefl _ h

/-- Strictly ascending keys. -/
def Asc (nodes : List Node) : Prop := nodes.Pairwise fun a b => keyLt a.key b.key

theorem asc_split {L R : List Node} {e : Node} (h : Asc (L ++ e :: R)) :
    (∀ x ∈ L, keyLt x.key e.key) ∧ (∀ x ∈ R, keyLt e.key x.key) := by
  unfold Asc at h
  rw [List.pairwise_append] at h
  exact ⟨fun x hx => h.2.2 x hx e (by simp), fun x hx => (List.pairwise_cons.1 h.2.1).1 x hx⟩

/-- Where a key is, or would be. -/
theorem asc_find : ∀ {nodes : List Node}, Asc nodes → ∀ k,
    (∃ L e R, nodes = L ++ e :: R ∧ e.key = k ∧ (∀ x ∈ L, keyLt x.key k) ∧ ∀ x ∈ R, keyLt k x.key) ∨
    (∃ L R, nodes = L ++ R ∧ (∀ x ∈ L, keyLt x.key k) ∧ ∀ x ∈ R, keyLt k x.key)
  | [], _, k => .inr ⟨[], [], rfl, by simp, by simp⟩
  | a :: l, h, k => by
    obtain ⟨h1, h2⟩ := List.pairwise_cons.1 h
    by_cases hk : a.key = k
    · left; exact ⟨[], a, l, rfl, hk, by simp, fun x hx => hk ▸ h1 x hx⟩
    · rcases keyLt_total hk with hlt | hgt
      · rcases asc_find h2 k with ⟨L, e, R, rfl, he, hL, hR⟩ | ⟨L, R, rfl, hL, hR⟩
        · left; exact ⟨a :: L, e, R, rfl, he, by simpa [hlt] using hL, hR⟩
        · right; exact ⟨a :: L, R, rfl, by simpa [hlt] using hL, hR⟩
      · right
        exact ⟨[], a :: l, rfl, by simp, by simpa [hgt] using fun x hx => keyLt_trans hgt (h1 x hx)⟩

theorem takeWhile_split {L R : List Node} {k : Point} (hL : ∀ x ∈ L, keyLt x.key k)
    (hR : ∀ x, R.head? = some x → ¬ keyLt x.key k) :
    ((L ++ R).takeWhile (fun e => keyCmp e.key k == .lt)).length = L.length := by
  rw [List.takeWhile_append_of_pos (by intro x hx; simp [keyCmp_lt.2 (hL x hx)])]
  cases R with
  | nil => simp
  | cons r R =>
    have : (keyCmp r.key k == .lt) = false := by
      have := hR r rfl
      simp only [beq_eq_false_iff_ne, ne_eq]
      exact fun h => this (keyCmp_lt.1 h)
    simp [this]

theorem search_hit {L R : List Node} {e : Node} (hL : ∀ x ∈ L, keyLt x.key e.key) :
    binSearch (L ++ e :: R) e.key = .ok L.length := by
  unfold binSearch
  rw [takeWhile_split hL (by intro x hx; cases hx; exact keyLt_irrefl _)]
  simp [keyCmp_eq_iff.2]

theorem search_miss {L R : List Node} {k : Point} (hL : ∀ x ∈ L, keyLt x.key k) (hR : ∀ x ∈ R, keyLt k x.key) :
    binSearch (L ++ R) k = .error L.length := by
  unfold binSearch
  rw [takeWhile_split hL (by intro x hx; exact keyLt_asymm (hR x (List.mem_of_mem_head? (by simpa using hx))))]
  cases R with
  | nil => simp
  | cons r R =>
    have : keyCmp r.key k ≠ .eq := fun h => keyLt_ne (hR r (by simp)) (keyCmp_eq h).symm
    simp [this]

theorem asc_getElem {nodes : List Node} (h : Asc nodes) {i j : Nat} {a b : Node} (hi : nodes[i]? = some a)
    (hj : nodes[j]? = some b) (hij : i < j) : keyLt a.key b.key := by
  obtain ⟨li, rfl⟩ := List.getElem?_eq_some_iff.1 hi
  obtain ⟨lj, rfl⟩ := List.getElem?_eq_some_iff.1 hj
  exact List.pairwise_iff_getElem.1 h i j li lj hij

theorem asc_search_at {nodes : List Node} (h : Asc nodes) {i : Nat} {e : Node} (hi : nodes[i]? = some e) :
    binSearch nodes e.key = .ok i := by
  obtain ⟨li, rfl⟩ := List.getElem?_eq_some_iff.1 hi
  have e1 : nodes = nodes.take i ++ nodes[i] :: nodes.drop (i + 1) := by
    rw [List.getElem_cons_drop, List.take_append_drop]
  have := search_hit (L := nodes.take i) (R := nodes.drop (i + 1)) (e := nodes[i]) (by
    have h' := h; rw [e1] at h'; exact (asc_split h').1)
  rw [← e1] at this
  rw [this]; simp; omega

/-- The cache, if there is one, points to the node with its key. -/
def Coherent (f : Front) : Prop := ∀ p i, f.cache = some (p, i) → ∃ e, f.nodes[i]? = some e ∧ e.key = p

/-- A key that is neither left of the first node nor right of the last one. -/
def InRange (f : Front) (k : Point) : Prop :=
  (∀ x, f.nodes.head? = some x → ¬ keyLt k x.key) ∧ (∀ x, f.nodes.getLast? = some x → ¬ keyLt x.key k)

theorem binSearch_take {nodes : List Node} (h : Asc nodes) {i : Nat} {e : Node} {k : Point} (hi : nodes[i]? = some e)
    (hk : keyLt k e.key) : binSearch (nodes.take i) k = binSearch nodes k := by
  obtain ⟨li, rfl⟩ := List.getElem?_eq_some_iff.1 hi
  have e1 : nodes = nodes.take i ++ nodes[i] :: nodes.drop (i + 1) := by
    rw [List.getElem_cons_drop, List.take_append_drop]
  have ha : Asc (nodes.take i) := List.Pairwise.sublist (List.take_sublist ..) h
  have hD : ∀ x ∈ nodes[i] :: nodes.drop (i + 1), keyLt k x.key := by
    intro x hx
    rcases List.mem_cons.1 hx with rfl | hx
    · exact hk
    · have h' := h; rw [e1] at h'; exact keyLt_trans hk ((asc_split h').2 x hx)
  generalize nodes.take i = T at *
  generalize nodes[i] :: nodes.drop (i + 1) = D at *
  rcases asc_find ha k with ⟨L, e, R, hT, rfl, hL, hR⟩ | ⟨L, R, hT, hL, hR⟩
  · rw [e1, hT, search_hit hL, List.append_assoc, List.cons_append, search_hit hL]
  · rw [e1, hT, search_miss hL hR, List.append_assoc, search_miss hL]
    intro x hx
    rcases List.mem_append.1 hx with hx | hx
    · exact hR x hx
    · exact hD x hx

theorem binSearch_drop {nodes : List Node} (h : Asc nodes) {i : Nat} {e : Node} {k : Point} (hi : nodes[i]? = some e)
    (hk : keyLt e.key k) : shiftRes (binSearch (nodes.drop i) k) i = binSearch nodes k := by
  obtain ⟨li, rfl⟩ := List.getElem?_eq_some_iff.1 hi
  have e1 : nodes = nodes.take i ++ nodes[i] :: nodes.drop (i + 1) := by
    rw [List.getElem_cons_drop, List.take_append_drop]
  have e2 : nodes.drop i = nodes[i] :: nodes.drop (i + 1) := by rw [List.getElem_cons_drop]
  have ha : Asc (nodes.drop i) := List.Pairwise.sublist (List.drop_sublist ..) h
  have hD : ∀ x ∈ nodes.take i, keyLt x.key k := by
    intro x hx
    have h' := h; rw [e1] at h'; exact keyLt_trans ((asc_split h').1 x hx) hk
  rw [← e2] at e1
  have hlen : (nodes.take i).length = i := by simp; omega
  generalize nodes.take i = T at *
  generalize nodes.drop i = D at *
  rcases asc_find ha k with ⟨L, e, R, hT, rfl, hL, hR⟩ | ⟨L, R, hT, hL, hR⟩
  · rw [e1, hT, search_hit hL, ← List.append_assoc, search_hit]
    · simp [shiftRes, hlen]; omega
    · intro x hx
      rcases List.mem_append.1 hx with hx | hx
      · exact hD x hx
      · exact hL x hx
  · rw [e1, hT, search_miss hL hR, ← List.append_assoc, search_miss _ hR]
    · simp [shiftRes, hlen]; omega
    · intro x hx
      rcases List.mem_append.1 hx with hx | hx
      · exact hD x hx
      · exact hL x hx

/-- The cached search is the plain search, or the key is outside the front. -/
theorem search_cache' {f : Front} (h : Asc f.nodes) (hc : Coherent f) (k : Point) :
    f.searchByKeyWithCache k = .ok (f.searchByKey k) ∨
      (¬ InRange f k ∧ f.searchByKeyWithCache k = .error (.panic "index out of bounds")) := by
  unfold Front.searchByKeyWithCache Front.searchByKey
  cases hch : f.cache with
  | none => exact .inl rfl
  | some pi =>
    obtain ⟨p, i⟩ := pi
    obtain ⟨e, he, rfl⟩ := hc p i hch
    have li := (List.getElem?_eq_some_iff.1 he).1
    simp only
    rcases hcmp : keyCmp e.key k with _ | _ | _
    · -- cached key is smaller
      have hlt := keyCmp_lt.1 hcmp
      simp only [li, if_true]
      by_cases this : ¬ i + 1 < f.nodes.length
      · right
        have hi : i = f.nodes.length - 1 := by omega
        refine ⟨fun hr => hr.2 e (by rw [List.getLast?_eq_getElem?, ← hi]; exact he) hlt, ?_⟩
        rw [List.getElem?_eq_none_iff.2 (by omega)]
      replace this := Classical.not_not.1 this
      left
      obtain ⟨e', he'⟩ : ∃ e', f.nodes[i + 1]? = some e' := ⟨_, List.getElem?_eq_getElem this⟩
      rw [he']
      simp only
      rcases hcmp' : keyCmp e'.key k with _ | _ | _
      · simp only; rw [binSearch_drop h he hlt]
      · simp only; rw [binSearch_drop h he hlt]
      · simp only
        have hgt := keyCmp_gt.1 hcmp'
        have e1 : f.nodes = f.nodes.take (i + 1) ++ f.nodes.drop (i + 1) := (List.take_append_drop ..).symm
        have := search_miss (L := f.nodes.take (i + 1)) (R := f.nodes.drop (i + 1)) (k := k) (by
          intro x hx
          obtain ⟨j, hj⟩ := List.mem_iff_getElem?.1 hx
          rw [List.getElem?_take] at hj
          split at hj
          · by_cases hji : j = i
            · subst hji; rw [he] at hj; cases hj; exact hlt
            · exact keyLt_trans (asc_getElem h hj he (by omega)) hlt
          · cases hj) (by
          intro x hx
          obtain ⟨j, hj⟩ := List.mem_iff_getElem?.1 hx
          rw [List.getElem?_drop] at hj
          by_cases hj0 : j = 0
          · subst hj0; rw [Nat.add_zero, he'] at hj; cases hj; exact hgt
          · exact keyLt_trans hgt (asc_getElem h he' hj (by omega)))
        rw [← e1] at this
        rw [this]; simp; omega
    · simp only
      have := keyCmp_eq hcmp
      subst this
      rw [asc_search_at h he]; exact .inl rfl
    · have hgt := keyCmp_gt.1 hcmp
      by_cases hi : i = 0
      · right
        subst hi
        exact ⟨fun hr => hr.1 e (by rw [List.head?_eq_getElem?]; exact he) hgt, by simp⟩
      left
      simp only [hi, if_false]
      obtain ⟨e', he'⟩ : ∃ e', f.nodes[i - 1]? = some e' := ⟨_, List.getElem?_eq_getElem (by omega)⟩
      rw [he']
      simp only
      rcases hcmp' : keyCmp e'.key k with _ | _ | _
      · simp only
        have hlt := keyCmp_lt.1 hcmp'
        have e1 : f.nodes = f.nodes.take i ++ f.nodes.drop i := (List.take_append_drop ..).symm
        have := search_miss (L := f.nodes.take i) (R := f.nodes.drop i) (k := k) (by
          intro x hx
          obtain ⟨j, hj⟩ := List.mem_iff_getElem?.1 hx
          rw [List.getElem?_take] at hj
          split at hj
          · by_cases hji : j = i - 1
            · subst hji; rw [he'] at hj; cases hj; exact hlt
            · exact keyLt_trans (asc_getElem h hj he' (by omega)) hlt
          · cases hj) (by
          intro x hx
          obtain ⟨j, hj⟩ := List.mem_iff_getElem?.1 hx
          rw [List.getElem?_drop] at hj
          by_cases hj0 : j = 0
          · subst hj0; rw [Nat.add_zero, he] at hj; cases hj; exact hgt
          · exact keyLt_trans hgt (asc_getElem h he hj (by omega)))
        rw [← e1] at this
        rw [this]; simp; omega
      · simp only
        have := keyCmp_eq hcmp'
        subst this
        rw [asc_search_at h he']
      · simp only
        rw [binSearch_take h he hgt]

theorem search_cache {f : Front} (h : Asc f.nodes) (hc : Coherent f) {k : Point} (hr : InRange f k) :
    f.searchByKeyWithCache k = .ok (f.searchByKey k) := by
  rcases search_cache' h hc k with e | ⟨e, -⟩
  · exact e
  · exact (e hr).elim

/-- A stale or fresh index hint does not matter. -/
theorem resolve_eq {f : Front} (h : Asc f.nodes) {id : NodeId} (hid : ∀ e ∈ f.nodes, e.pid = id.pid → e.key = id.pt) :
    f.resolve id = f.searchByKey id.pt := by
  unfold Front.resolve
  split
  · rename_i e he
    split
    · rename_i hp
      have := hid e (List.mem_of_getElem? he) hp
      rw [← this]
      exact (asc_search_at h he).symm
    · rfl
  · rfl

theorem asc_keys {n n' : List Node} (h : n'.map (·.key) = n.map (·.key)) : Asc n' ↔ Asc n := by
  have key : ∀ n : List Node, Asc n ↔ (n.map (·.key)).Pairwise keyLt := by
    intro n; unfold Asc; rw [List.pairwise_map]
  rw [key, key, h]

theorem modify_keys (n : List Node) (i : Nat) (g : Node → Node) (hg : ∀ e, (g e).key = e.key) :
    (n.modify i g).map (·.key) = n.map (·.key) := by
  apply List.ext_getElem?
  intro j
  simp only [List.getElem?_map, List.getElem?_modify]
  cases n[j]? <;> simp
  split <;> simp [hg]

theorem coherent_keys {n n' : List Node} (h : n'.map (·.key) = n.map (·.key)) {c} (hc : Coherent ⟨n, c⟩) : Coherent ⟨n', c⟩ := by
  intro p i hp
  obtain ⟨e, he, hk⟩ := hc p i hp
  have := congrArg (fun l => l[i]?) h
  simp only [List.getElem?_map] at this
  simp only at he
  rw [he] at this
  cases hn : n'[i]? with
  | none => rw [hn] at this; cases this
  | some e' => rw [hn] at this; simp at this; exact ⟨e', rfl, this.trans hk⟩

/-- Inserting keeps the order. -/
theorem insert_asc {f : Front} (h : Asc f.nodes) (pid pt t) :
    Asc (f.insert pid pt t).nodes ∧ Coherent (f.insert pid pt t) := by
  unfold Front.insert Front.searchByKey
  rcases asc_find h pt with ⟨L, e, R, hn, rfl, hL, hR⟩ | ⟨L, R, hn, hL, hR⟩
  · rw [hn, search_hit hL]
    dsimp only
    have hk : (List.modify (L ++ e :: R) L.length fun e => { e with pid := pid, tri := some t }).map (·.key) =
      (L ++ e :: R).map (·.key) := modify_keys _ _ _ (fun _ => rfl)
    refine ⟨(asc_keys hk).2 (hn ▸ h), ?_⟩
    intro p i hp
    cases hp
    exact ⟨{ e with pid := pid, tri := some t }, by simp, rfl⟩
  · rw [hn, search_miss hL hR]
    dsimp only
    simp only [List.take_left, List.drop_left, List.append_assoc, List.singleton_append]
    constructor
    · unfold Asc at h ⊢
      rw [hn, List.pairwise_append] at h
      rw [List.pairwise_append]
      refine ⟨h.1, List.pairwise_cons.2 ⟨hR, h.2.1⟩, fun a ha b hb => ?_⟩
      rcases List.mem_cons.1 hb with rfl | hb
      · exact hL a ha
      · exact h.2.2 a ha b hb
    · intro p i hp
      cases hp
      exact ⟨⟨pt, pid, some t⟩, by simp, rfl⟩

theorem updateAndDelete_asc {f f' : Front} (h : Asc f.nodes) {u t d} (e : f.updateAndDelete u t d = .ok f') :
    Asc f'.nodes ∧ Coherent f' := by
  unfold Front.updateAndDelete at e
  split at e
  · dsimp only at e
    split at e
    · cases e
      refine ⟨?_, fun p i hp => by cases hp⟩
      exact List.Pairwise.sublist (List.eraseIdx_sublist ..) ((asc_keys (modify_keys _ _ _ (by intro _; rfl))).2 h)
    · cases e
  · cases e

theorem updateTriangle_asc {f f' : Front} (h : Asc f.nodes) (hc : Coherent f) {p t} (e : f.updateTriangle p t = .ok f') :
    Asc f'.nodes ∧ Coherent f' := by
  simp only [Front.updateTriangle, bind_ok] at e
  obtain ⟨r, -, e⟩ := e
  cases r with
  | error => cases e
  | ok i =>
    simp only at e
    split at e
    · cases e
      have hk := modify_keys f.nodes i (fun e => { e with tri := some t }) (by intro _; rfl)
      exact ⟨(asc_keys hk).2 h, coherent_keys hk hc⟩
    · cases e

theorem getNodeWithCache_asc {f f' : Front} (h : Asc f.nodes) (hc : Coherent f) {p r} (e : f.getNodeWithCache p = .ok (f', r)) :
    Asc f'.nodes ∧ Coherent f' := by
  simp only [Front.getNodeWithCache, bind_ok] at e
  obtain ⟨r', h1, e⟩ := e
  cases r' with
  | error => cases e; exact ⟨h, hc⟩
  | ok i =>
    simp only at e
    split at e
    · rename_i r2 hr
      cases e
      refine ⟨h, fun q j hq => ?_⟩
      cases hq
      rcases search_cache' h hc p with k | ⟨-, k⟩
      · rw [k] at h1
        have : binSearch f.nodes p = .ok i := by simpa [Front.searchByKey] using h1
        exact binSearch_ok this
      · rw [k] at h1; cases h1
    · cases e

theorem nodup_ne {pts : List Point} (h : pts.Nodup) {i j : Nat} {p q : Point} (hi : pts[i]? = some p) (hj : pts[j]? = some q)
    (hij : i ≠ j) : p ≠ q := by
  rintro rfl
  obtain ⟨li, e1⟩ := List.getElem?_eq_some_iff.1 hi
  obtain ⟨lj, e2⟩ := List.getElem?_eq_some_iff.1 hj
  exact hij ((List.Nodup.getElem_inj_iff h).1 (e1.trans e2.symm))

theorem keyCmp_weak : Weak (fun a b : Node => keyCmp a.key b.key == .lt) := by
  constructor
  · intro a b h
    simp only [beq_iff_eq] at h
    have := keyLt_asymm (keyCmp_lt.1 h)
    simp only [beq_eq_false_iff_ne, ne_eq]
    exact fun k => this (keyCmp_lt.1 k)
  · intro a b c h h'
    simp only [beq_eq_false_iff_ne, ne_eq, keyCmp_lt] at h h' ⊢
    intro k
    by_cases hab : b.key = c.key
    · rw [hab] at h; exact h k
    · rcases keyLt_total hab with x | x
      · exact h (keyLt_trans x k)
      · exact h' x

/-- The nodes of a new front. -/
theorem front_new {T : Tri} {tid : Nat} {c : Ctx} {f : Front} (h : Front.new T tid c = .ok f) (hp : c.points.Nodup)
    (h1 : T.points.a ≠ T.points.b) (h2 : T.points.b ≠ T.points.c) (h3 : T.points.a ≠ T.points.c) :
    Asc f.nodes ∧ f.cache = none ∧ ∃ pa pb pc, c.points[T.points.a]? = some pa ∧ c.points[T.points.b]? = some pb ∧
      c.points[T.points.c]? = some pc ∧
      f.nodes.Perm [⟨pb, T.points.b, some tid⟩, ⟨pa, T.points.a, some tid⟩, ⟨pc, T.points.c, none⟩] := by
  have get : ∀ {i : Nat} {p : Point}, (match c.points[i]? with | some p => Except.ok p | none => Except.error (Err.panic "should not fail")) = Except.ok p →
      c.points[i]? = some p := by
    intro i p h; split at h <;> simp_all
  simp only [Front.new, bind_ok, pure_ok, Except.ok.injEq] at h
  obtain ⟨pb, hb, pa, ha, pc, hc, rfl⟩ := h
  replace ha := get ha; replace hb := get hb; replace hc := get hc
  have hs := sortBy_sorted keyCmp_weak [⟨pb, T.points.b, some tid⟩, ⟨pa, T.points.a, some tid⟩, ⟨pc, T.points.c, none⟩]
  have hperm := sortBy_perm (lt := fun a b : Node => keyCmp a.key b.key == .lt)
    [⟨pb, T.points.b, some tid⟩, ⟨pa, T.points.a, some tid⟩, ⟨pc, T.points.c, none⟩]
  refine ⟨?_, rfl, pa, pb, pc, ha, hb, hc, hperm⟩
  have hnd : ((sortBy (fun a b : Node => keyCmp a.key b.key == .lt)
      [⟨pb, T.points.b, some tid⟩, ⟨pa, T.points.a, some tid⟩, ⟨pc, T.points.c, none⟩]).map (·.key)).Nodup := by
    refine ((hperm.map _).nodup_iff).2 ?_
    have e1 := nodup_ne hp ha hb h1
    have e2 := nodup_ne hp hb hc h2
    have e3 := nodup_ne hp ha hc h3
    simp [e1.symm, e2, e3]
  unfold Asc
  have hnd' := List.pairwise_map.1 hnd
  refine (hs.and hnd').imp fun {a b} hab => ?_
  rcases keyLt_total hab.2 with k | k
  · exact k
  · have := hab.1; simp only [beq_eq_false_iff_ne, ne_eq, keyCmp_lt] at this; exact (this k).elim

end P2T
