import Verif.Spec.FileFormat
import Verif.Props.Builder

/-!
# C26, C27: the file loader
-/

namespace P2T
namespace Loader

theorem tokens_sep {ws : Char → Bool} {c s} (h : ws c = true) : tokens ws (c :: s) = tokens ws s := by
  simp [tokens, h]

theorem tokens_word {ws : Char → Bool} : ∀ {t : List Char} {c s}, t ≠ [] → (∀ c ∈ t, ws c = false) → ws c = true →
    tokens ws (t ++ c :: s) = t :: tokens ws s
  | [], _, _, h, _, _ => (h rfl).elim
  | [d], c, s, _, h, hc => by
    have hd := h d (by simp)
    rw [List.singleton_append, tokens, ← tokens_sep (s := s) hc]
    simp [hd, hc]
  | d :: e :: t, c, s, _, h, hc => by
    have hd := h d (by simp)
    have he := h e (by simp)
    have ih := tokens_word (t := e :: t) (c := c) (s := s) (by simp) (fun c hc => h c (by simp [List.mem_cons.1 hc])) hc
    rw [List.cons_append] at ih
    rw [List.cons_append, List.cons_append, tokens]
    simp only [hd, he, Bool.false_eq_true, if_false]
    rw [ih]

theorem tokens_last {ws : Char → Bool} : ∀ {t : List Char}, t ≠ [] → (∀ c ∈ t, ws c = false) → tokens ws t = [t]
  | [], h, _ => (h rfl).elim
  | [d], _, h => by simp [tokens, h d (by simp)]
  | d :: e :: t, _, h => by
    have hd := h d (by simp)
    have he := h e (by simp)
    have ih := tokens_last (t := e :: t) (by simp) (fun c hc => h c (by simp [List.mem_cons.1 hc]))
    rw [tokens]
    simp only [hd, he, Bool.false_eq_true, if_false] at ih ⊢
    rw [ih]

theorem tokens_of_words {ws : Char → Bool} {s ts} (h : Words ws s ts) : tokens ws s = ts := by
  induction h with
  | nil => rfl
  | sep hc _ ih => rw [tokens_sep hc, ih]
  | last h1 h2 => exact tokens_last h1 h2
  | word h1 h2 h3 _ ih => rw [tokens_word h1 h2 h3, ih]

/-- Every text has words, and `split_whitespace` finds them. -/
theorem words_tokens (ws : Char → Bool) : ∀ s, Words ws s (tokens ws s)
  | [] => .nil
  | c :: s => by
    by_cases hc : ws c = true
    · rw [tokens_sep hc]; exact .sep hc (words_tokens ws s)
    · have hc : ws c = false := by simpa using hc
      have ih := words_tokens ws s
      -- split off the first word
      have key : ∀ {s ts}, Words ws s ts → (∀ d s', s = d :: s' → ws d = false) → s ≠ [] →
          Words ws (c :: s) (match ts with | [] => [[c]] | t :: ts => (c :: t) :: ts) := by
        intro s ts h hd hs
        cases h with
        | nil => exact (hs rfl).elim
        | sep h _ => rw [hd _ _ rfl] at h; cases h
        | last h1 h2 => exact .last (by simp) (by simpa [hc] using h2)
        | word h1 h2 h3 h4 => exact .word (t := c :: _) (by simp) (by simpa [hc] using h2) h3 h4
      cases s with
      | nil =>
        rw [tokens]
        simp only [hc, Bool.false_eq_true, if_false]
        exact .last (by simp) (by simpa using hc)
      | cons d s' =>
        rw [tokens]
        simp only [hc, Bool.false_eq_true, if_false]
        split
        · rename_i hd
          exact .word (t := [c]) (by simp) (by simpa using hc) hd (tokens_sep (s := s') hd ▸ words_tokens ws s')
        · rename_i hd
          have hd : ws d = false := by simpa using hd
          have := key ih (fun _ _ h => by cases h; exact hd) (by simp)
          split <;> simp_all

theorem words_unique {ws : Char → Bool} {s ts ts'} (h : Words ws s ts) (h' : Words ws s ts') : ts = ts' :=
  (tokens_of_words h).symm.trans (tokens_of_words h')

/-! ### Lines -/

theorem splitNl_ne (s : List Char) : splitNl s ≠ [] := by
  cases s with
  | nil => simp [splitNl]
  | cons c s => rw [splitNl]; split <;> [simp; split <;> simp]

theorem splitNl_nl {s : List Char} : splitNl ('\n' :: s) = [] :: splitNl s := by
  rw [splitNl]
  split
  · rename_i h; exact (splitNl_ne s h).elim
  · rename_i h; simp [h]

theorem splitNl_app : ∀ {l s : List Char}, '\n' ∉ l → splitNl (l ++ '\n' :: s) = l :: splitNl s
  | [], s, _ => splitNl_nl
  | c :: l, s, h => by
    have hc : c ≠ '\n' := fun k => h (by simp [k])
    rw [List.cons_append, splitNl, splitNl_app (l := l) fun k => h (by simp [k])]
    simp [hc]

theorem splitNl_last : ∀ {l : List Char}, '\n' ∉ l → splitNl l = [l]
  | [], _ => rfl
  | c :: l, h => by
    have hc : c ≠ '\n' := fun k => h (by simp [k])
    rw [splitNl, splitNl_last (l := l) fun k => h (by simp [k])]
    simp [hc]

theorem linesOf_cons {l s : List Char} (h : '\n' ∉ l) : linesOf (l ++ '\n' :: s) = stripCr l :: linesOf s := by
  unfold linesOf
  rw [splitNl_app h]
  rcases hs : splitNl s with _ | ⟨a, r⟩
  · exact (splitNl_ne s hs).elim
  · simp [List.dropLast, List.getLast?_cons]

/-- `str::lines` finds the lines of the content. -/
theorem linesOf_content {s ls} (h : Content s ls) : linesOf s = ls := by
  induction h with
  | nil => rfl
  | lf h1 h2 _ ih => rw [linesOf_cons h1, ih]; simp [stripCr, h2]
  | @crlf l s ls h1 _ ih =>
    have : '\n' ∉ l ++ ['\r'] := by simp [h1]
    have := linesOf_cons (s := s) this
    rw [List.append_assoc] at this
    rw [show l ++ '\r' :: '\n' :: s = l ++ (['\r'] ++ '\n' :: s) from rfl, this, ih]
    simp [stripCr]
  | last h1 h2 => simp [linesOf, splitNl_last h2, h1]

/-- Every text is a sequence of lines. -/
theorem content_exists (s : List Char) : Content s (linesOf s) := by
  by_cases h : '\n' ∈ s
  · obtain ⟨l, s', rfl, hl⟩ := List.eq_append_cons_of_mem h
    have hlt : s'.length < (l ++ '\n' :: s').length := by simp; omega
    have ih := content_exists s'
    rw [linesOf_cons hl]
    unfold stripCr
    split
    · rename_i hr
      obtain ⟨l', rfl⟩ : ∃ l', l = l' ++ ['\r'] := by
        rcases List.eq_nil_or_concat l with rfl | ⟨l', a, rfl⟩
        · cases hr
        · simp at hr; exact ⟨l', by simp [hr]⟩
      simp only [List.dropLast_concat, List.append_assoc]
      exact .crlf (fun k => hl (by simp [k])) ih
    · rename_i hr; exact .lf hl hr ih
  · unfold linesOf
    rw [splitNl_last h]
    by_cases hs : s = []
    · subst hs; exact .nil
    · simp [hs]; exact .last hs h
termination_by s.length

/-! ### The loop -/

/-- A line the loader cannot read: not a keyword, not empty, and not beginning with two numbers. -/
def Malformed (lib : Lib) (line : List Char) : Prop := ¬ ∃ m, LineMeans lib line m

theorem parsePoint_spec (lib : Lib) (line : List Char) (h1 : line ≠ "HOLE".toList) (h2 : line ≠ "STEINER".toList) :
    (line = [] ∧ parsePoint lib line = .ok none) ∨
    (∃ p, LineMeans lib line (.point p) ∧ parsePoint lib line = .ok (some p)) ∨
    (Malformed lib line ∧ ∃ m, parsePoint lib line = .error (.panic m)) := by
  unfold parsePoint
  by_cases hl : line = []
  · exact .inl ⟨hl, by simp [hl]⟩
  · right
    have mal : (∀ x y rest px py, tokens lib.ws line = x :: y :: rest → lib.parse x = some px → lib.parse y = some py → False) →
        Malformed lib line := by
      rintro k ⟨m, hm⟩
      cases hm with
      | blank => exact hl rfl
      | hole => exact h1 rfl
      | steiner => exact h2 rfl
      | point _ _ hw hx hy => exact k _ _ _ _ _ (tokens_of_words hw) hx hy
    have hw := words_tokens lib.ws line
    rw [if_neg hl]
    dsimp only
    rcases ht : tokens lib.ws line with _ | ⟨x, _ | ⟨y, rest⟩⟩
    · exact .inr ⟨mal fun _ _ _ _ _ h => (by rw [ht] at h; cases h), "no x token", rfl⟩
    · exact .inr ⟨mal fun _ _ _ _ _ h => (by rw [ht] at h; cases h), "no y token", rfl⟩
    · rw [ht] at hw
      rcases hx : lib.parse x with _ | px
      · exact .inr ⟨mal fun _ _ _ _ _ h h' => (by rw [ht] at h; cases h; rw [hx] at h'; cases h'), "x is not a float", by simp [hx, unwrap]⟩
      · rcases hy : lib.parse y with _ | py
        · exact .inr ⟨mal fun _ _ _ _ _ h _ h' => (by rw [ht] at h; cases h; rw [hy] at h'; cases h'), "y is not a float", by
            simp [hx, hy, unwrap]⟩
        · exact .inl ⟨⟨px, py⟩, .point h1 h2 hw hx hy, by simp [hx, hy, unwrap]⟩

theorem lineMeans_unique {lib line m m'} (h : LineMeans lib line m) (h' : LineMeans lib line m') : m = m' := by
  have e1 : tokens lib.ws ([] : List Char) = [] := rfl
  cases h with
  | blank =>
    cases h' with
    | blank => rfl
    | point _ _ hw => have := tokens_of_words hw; rw [e1] at this; cases this
  | hole =>
    cases h' with
    | hole => rfl
    | point h => exact (h rfl).elim
  | steiner =>
    cases h' with
    | steiner => rfl
    | point _ h => exact (h rfl).elim
  | point h1 h2 hw hx hy =>
    cases h' with
    | blank => have := tokens_of_words hw; rw [e1] at this; cases this
    | hole => exact (h1 rfl).elim
    | steiner => exact (h2 rfl).elim
    | point _ _ hw' hx' hy' =>
      have := words_unique hw hw'
      cases this
      rw [hx] at hx'; rw [hy] at hy'
      cases hx'; cases hy'; rfl

/-- The effect of one readable line. -/
def Acc.put (a : Acc) : Line → Acc
  | .blank => a
  | .hole => { a with state := .hole, holes := a.holes ++ [[]] }
  | .steiner => { a with state := .steiner }
  | .point p =>
    match a.state with
    | .polygon => { a with polygon := a.polygon ++ [p] }
    | .hole => { a with holes := a.holes.dropLast ++ [a.holes.getLast?.getD [] ++ [p]] }
    | .steiner => { a with steiner := a.steiner ++ [p] }

def Acc.Ok (a : Acc) : Prop := a.state = .hole → a.holes ≠ []

theorem Acc.put_ok {a : Acc} (h : a.Ok) (m : Line) : (a.put m).Ok := by
  unfold Acc.put
  intro k
  split at k <;> try split at k
  all_goals simp_all [Acc.Ok]

theorem step_means {lib line m} {a : Acc} (ha : a.Ok) (h : LineMeans lib line m) : step lib a line = .ok (a.put m) := by
  unfold step
  cases h with
  | blank => simp [parsePoint, Acc.put]
  | hole => simp [Acc.put]
  | steiner => rw [if_neg (by decide), if_pos rfl]; rfl
  | @point line x y rest px py h1 h2 hw hx hy =>
    rw [if_neg h1, if_neg h2]
    rcases parsePoint_spec lib line h1 h2 with ⟨rfl, -⟩ | ⟨p, hp, e⟩ | ⟨hm, -⟩
    · have := tokens_of_words hw; rw [show tokens lib.ws ([] : List Char) = [] from rfl] at this; cases this
    · have := lineMeans_unique hp (.point h1 h2 hw hx hy)
      cases this
      rw [e]
      simp only [ok_bind, Acc.put]
      cases hs : a.state with
      | polygon => rfl
      | steiner => rfl
      | hole =>
        simp only
        unfold pushLast
        rcases hl : a.holes.getLast? with _ | b
        · exact (ha hs (by simpa using hl)).elim
        · rfl
    · exact (hm ⟨_, .point h1 h2 hw hx hy⟩).elim

theorem step_malformed {lib line} {a : Acc} (h : Malformed lib line) : ∃ m, step lib a line = .error (.panic m) := by
  unfold step
  have h1 : line ≠ "HOLE".toList := fun k => h ⟨.hole, k ▸ .hole⟩
  have h2 : line ≠ "STEINER".toList := fun k => h ⟨.steiner, k ▸ .steiner⟩
  rw [if_neg h1, if_neg h2]
  rcases parsePoint_spec lib line h1 h2 with ⟨rfl, -⟩ | ⟨p, hp, e⟩ | ⟨hm, m, e⟩
  · exact (h ⟨_, .blank⟩).elim
  · exact (h ⟨_, hp⟩).elim
  · exact ⟨m, by rw [e]; rfl⟩

theorem steps_means {lib} : ∀ {lines ms} {a : Acc}, a.Ok → List.Forall₂ (LineMeans lib) lines ms →
    steps lib a lines = .ok (ms.foldl Acc.put a)
  | _, _, a, _, .nil => rfl
  | _, _, a, ha, .cons h hs => by
    rw [steps, step_means ha h, ok_bind, steps_means (a.put_ok ha _) hs]
    rfl

theorem steps_malformed {lib} : ∀ {lines} {a : Acc}, a.Ok → (∃ l ∈ lines, Malformed lib l) →
    ∃ m, steps lib a lines = .error (.panic m)
  | [], a, _, h => by obtain ⟨_, h, _⟩ := h; cases h
  | l :: ls, a, ha, h => by
    by_cases hl : Malformed lib l
    · obtain ⟨m, e⟩ := step_malformed (a := a) hl
      exact ⟨m, by rw [steps, e]; rfl⟩
    · obtain ⟨m, hm⟩ := Classical.not_not.1 hl
      rw [steps, step_means ha hm, ok_bind]
      refine steps_malformed (a.put_ok ha _) ?_
      obtain ⟨l', h1, h2⟩ := h
      rcases List.mem_cons.1 h1 with rfl | h1
      · exact (hl h2).elim
      · exact ⟨l', h1, h2⟩

theorem foldl_put (ms : List Line) : ∀ (a : Acc), a.Ok →
    (ms.foldl Acc.put a).polygon = (if a.state = .polygon then a.polygon ++ (groups ms).1 else a.polygon) ∧
    (ms.foldl Acc.put a).holes = (if a.state = .hole then a.holes.dropLast ++ [a.holes.getLast?.getD [] ++ (groups ms).1]
      else a.holes) ++ holesOf ms ∧
    (ms.foldl Acc.put a).steiner = (if a.state = .steiner then a.steiner ++ (groups ms).1 else a.steiner) ++ steinerOf ms := by
  induction ms with
  | nil =>
    intro a ha
    simp only [List.foldl_nil, groups, holesOf, steinerOf, List.filter_nil, List.map_nil, List.append_nil, List.flatMap_nil]
    refine ⟨by simp, ?_, by simp⟩
    split
    · rename_i h
      rcases List.eq_nil_or_concat a.holes with k | ⟨l, b, k⟩
      · exact (ha h k).elim
      · simp [k]
    · rfl
  | cons m ms ih =>
    intro a ha
    obtain ⟨i1, i2, i3⟩ := ih (a.put m) (a.put_ok ha m)
    rw [List.foldl_cons, i1, i2, i3]
    cases m with
    | blank => exact ⟨rfl, rfl, rfl⟩
    | hole => cases hs : a.state <;> simp [Acc.put, groups, holesOf, steinerOf] <;> (
        rcases List.eq_nil_or_concat a.holes with k | ⟨l, b, k⟩
        · exact (ha hs k).elim
        · simp [k])
    | steiner => cases hs : a.state <;> simp [Acc.put, groups, holesOf, steinerOf] <;> (
        rcases List.eq_nil_or_concat a.holes with k | ⟨l, b, k⟩
        · exact (ha hs k).elim
        · simp [k])
    | point p => cases hs : a.state <;> simp [Acc.put, hs, groups, holesOf, steinerOf]

/-- What the loader returns on readable lines. -/
theorem load_means {lib : Lib} {content lines ms} (hc : Content content lines)
    (h : List.Forall₂ (LineMeans lib) lines ms) : load lib content = builderOf ms := by
  unfold load
  rw [linesOf_content hc, steps_means (by intro h; cases h) h, ok_bind]
  obtain ⟨i1, i2, i3⟩ := foldl_put ms Acc.init (by intro h; cases h)
  rw [i1, i2, i3]
  simp [Acc.init, builderOf, buildChain, polygonOf, Builder.applyAll, Builder.apply]

/-- **C26.**  Writing a polygon, holes and Steiner points in the documented format and loading the file gives
the same builder as `Builder::new(polygon).add_holes(holes).add_steiner_points(steiner)`: the same result, or the
same panic.  `fmt` is any way of writing the coordinates that the parser reads back and that has no whitespace in
it; lines may end in LF or CR LF. -/
theorem C26_load_written (lib : Lib) (fmt : Rat → List Char) (eol : List Char) (poly : List Point)
    (holes : List (List Point)) (steiner : List Point)
    (hsp : lib.ws ' ' = true) (hnl : lib.ws '\n' = true) (hcr : lib.ws '\r' = true)
    (hfmt : ∀ p ∈ poly ++ holes.flatten ++ steiner, ∀ r, r = p.x ∨ r = p.y →
      fmt r ≠ [] ∧ (∀ c ∈ fmt r, lib.ws c = false) ∧ lib.parse (fmt r) = some r)
    (heol : eol = ['\n'] ∨ eol = ['\r', '\n']) :
    load lib (writeFile fmt eol poly holes steiner) =
      (do let b ← Builder.new (Source.ofPoints poly)
          let b ← b.addHoles (holes.map Source.ofPoints)
          pure (b.addSteinerPoints (Source.ofPoints steiner))) := by
  generalize hall : poly ++ holes.flatten ++ steiner = ap at hfmt
  have nonl : ∀ p ∈ ap, ∀ r, r = p.x ∨ r = p.y → '\n' ∉ fmt r := fun p hp r hr h => by
    have := (hfmt p hp r hr).2.1 _ h; rw [hnl] at this; cases this
  have nocr : ∀ p ∈ ap, ∀ r, r = p.x ∨ r = p.y → '\r' ∉ fmt r := fun p hp r hr h => by
    have := (hfmt p hp r hr).2.1 _ h; rw [hcr] at this; cases this
  have add : ∀ {l s ls}, '\n' ∉ l → '\r' ∉ l → Content s ls → Content (l ++ eol ++ s) (l :: ls) := by
    intro l s ls h1 h2 h
    rcases heol with rfl | rfl
    · rw [List.append_assoc]; exact .lf h1 (fun k => h2 (List.mem_of_getLast? k)) h
    · rw [List.append_assoc]; exact .crlf h1 h
  have one : ∀ p ∈ ap, LineMeans lib (fmt p.x ++ ' ' :: fmt p.y) (.point p) := by
    intro p hp
    have hx := hfmt p hp _ (.inl rfl)
    have hy := hfmt p hp _ (.inr rfl)
    refine .point (rest := []) ?_ ?_ (.word hx.1 hx.2.1 hsp (.last hy.1 hy.2.1)) hx.2.2 hy.2.2
    · intro k; have : ' ' ∈ "HOLE".toList := k ▸ (by simp); revert this; decide
    · intro k; have : ' ' ∈ "STEINER".toList := k ▸ (by simp); revert this; decide
  -- `Reads s ms`: the text consists of lines meaning `ms`
  let Reads (s : List Char) (ms : List Line) : Prop := ∃ ls, Content s ls ∧ List.Forall₂ (LineMeans lib) ls ms
  have r0 : Reads [] [] := ⟨[], .nil, .nil⟩
  have rpt : ∀ {s ms} (p : Point), p ∈ ap → Reads s ms → Reads (pointLine fmt eol p ++ s) (.point p :: ms) := by
    rintro s ms p hp ⟨ls, h1, h2⟩
    refine ⟨_ :: ls, add (l := fmt p.x ++ ' ' :: fmt p.y) ?_ ?_ h1, .cons (one p hp) h2⟩
    · simp [nonl p hp]
    · simp [nocr p hp]
  have rpts : ∀ {s ms} (ps : List Point), (∀ p ∈ ps, p ∈ ap) → Reads s ms →
      Reads (ps.flatMap (pointLine fmt eol) ++ s) (ps.map .point ++ ms) := by
    intro s ms ps hps h
    induction ps with
    | nil => exact h
    | cons p ps ih =>
      rw [List.flatMap_cons, List.append_assoc]; exact rpt p (hps p (by simp)) (ih fun q hq => hps q (by simp [hq]))
  have rhole : ∀ {s ms}, Reads s ms → Reads ("HOLE".toList ++ eol ++ s) (.hole :: ms) := by
    rintro s ms ⟨ls, h1, h2⟩
    exact ⟨_ :: ls, add (by decide) (by decide) h1, .cons .hole h2⟩
  have rst : ∀ {s ms}, Reads s ms → Reads ("STEINER".toList ++ eol ++ s) (.steiner :: ms) := by
    rintro s ms ⟨ls, h1, h2⟩
    exact ⟨_ :: ls, add (by decide) (by decide) h1, .cons .steiner h2⟩
  have rholes : ∀ {s ms} (hs : List (List Point)), (∀ h ∈ hs, ∀ p ∈ h, p ∈ ap) → Reads s ms →
      Reads (hs.flatMap (fun h => "HOLE".toList ++ eol ++ h.flatMap (pointLine fmt eol)) ++ s)
        (hs.flatMap (fun h => Line.hole :: h.map .point) ++ ms) := by
    intro s ms hs hin h
    induction hs with
    | nil => exact h
    | cons x hs ih =>
      have := rhole (rpts x (hin x (by simp)) (ih fun y hy => hin y (by simp [hy])))
      simpa [List.append_assoc] using this
  have all : Reads (writeFile fmt eol poly holes steiner) (poly.map .point ++
      (holes.flatMap (fun h => Line.hole :: h.map .point) ++ (.steiner :: (steiner.map .point ++ [])))) := by
    have := rpts poly (fun p hp => by simp [← hall, hp]) (rholes holes (fun h hh p hp => by
        rw [← hall]; simp only [List.append_assoc, List.mem_append, List.mem_flatten]; exact .inr (.inl ⟨h, hh, hp⟩))
      (rst (rpts steiner (fun p hp => by simp [← hall, hp]) r0)))
    unfold writeFile
    simpa [List.append_assoc] using this
  obtain ⟨ls, h1, h2⟩ := all
  rw [load_means h1 h2]
  have gp : ∀ (ps : List Point) ms, groups (ps.map .point ++ ms) = (ps ++ (groups ms).1, (groups ms).2) := by
    intro ps ms
    induction ps with
    | nil => rfl
    | cons p ps ih => simp [groups, ih]
  have gh : ∀ (hs : List (List Point)) ms, groups (hs.flatMap (fun h => Line.hole :: h.map .point) ++ .steiner :: ms) =
      ([], hs.map (true, ·) ++ [(false, (groups ms).1)] ++ (groups ms).2) := by
    intro hs ms
    induction hs with
    | nil => simp [groups]
    | cons h hs ih =>
      rw [List.flatMap_cons, List.append_assoc, List.cons_append, groups, gp, ih]; simp
  have g : groups (poly.map .point ++
      (holes.flatMap (fun h => Line.hole :: h.map .point) ++ (.steiner :: (steiner.map .point ++ [])))) =
      (poly, holes.map (true, ·) ++ [(false, steiner)]) := by
    rw [gp, gh, gp]; simp [groups]
  simp only [builderOf, polygonOf, holesOf, steinerOf, g, buildChain, Builder.applyAll, Builder.apply]
  have e1 : List.filter (fun x => x.1) (holes.map (fun x => (true, x)) ++ [(false, steiner)]) = holes.map (fun x => (true, x)) := by
    simp [List.filter_append, List.filter_map, Function.comp_def]
  have e2 : List.filter (fun x => !x.1) (holes.map (fun x => (true, x)) ++ [(false, steiner)]) = [(false, steiner)] := by
    simp [List.filter_append, List.filter_map, Function.comp_def]
  rw [e1, e2]
  simp [Function.comp_def]

theorem groups_length (ms : List Line) : (groups ms).1.length + ((groups ms).2.map (·.2.length)).sum ≤ ms.length := by
  induction ms with
  | nil => simp [groups]
  | cons m ms ih => cases m <;> simp [groups] <;> omega

theorem groups_points (ms : List Line) (gs : List (Bool × List Point)) (_h : gs = (groups ms).2) :
    ((gs.filter (·.1)).map (·.2.length)).sum + ((gs.filter (!·.1)).map (·.2.length)).sum = (gs.map (·.2.length)).sum := by
  clear _h
  induction gs with
  | nil => rfl
  | cons g gs ih => obtain ⟨b, g⟩ := g; cases b <;> simp <;> omega

/-- Every file has lines, every line has words and at most one meaning. -/
theorem C27_lines_and_words (lib : Lib) (content line : List Char) :
    (∃ ls, Content content ls) ∧ (∃ ts, Words lib.ws line ts) ∧ ∀ m m', LineMeans lib line m → LineMeans lib line m' → m = m' :=
  ⟨⟨_, content_exists content⟩, ⟨_, words_tokens _ _⟩, fun _ _ => lineMeans_unique⟩

/-- **C27.**  Loading panics if and only if some line is neither empty, nor a keyword, nor begins with two
words that are numbers, or the polygon or a hole the lines describe has two equal neighbouring points; in all
other cases it succeeds (with the builder of `load_means`). -/
theorem C27_panics_iff (lib : Lib) {content lines} (hc : Content content lines) (hn : lines.length ≤ 2 ^ 32) :
    ((∃ m, load lib content = .error (.panic m)) ↔
      (∃ l ∈ lines, l ≠ [] ∧ l ≠ "HOLE".toList ∧ l ≠ "STEINER".toList ∧
        ∀ x y rest, Words lib.ws l (x :: y :: rest) → lib.parse x = none ∨ lib.parse y = none) ∨
      (∃ ms, List.Forall₂ (LineMeans lib) lines ms ∧ (¬ NoRepeat (polygonOf ms) ∨ ∃ h ∈ holesOf ms, ¬ NoRepeat h))) ∧
    ((∃ b, load lib content = .ok b) ∨ ∃ m, load lib content = .error (.panic m)) := by
  have hmal : ∀ l, Malformed lib l ↔ (l ≠ [] ∧ l ≠ "HOLE".toList ∧ l ≠ "STEINER".toList ∧
        ∀ x y rest, Words lib.ws l (x :: y :: rest) → lib.parse x = none ∨ lib.parse y = none) := by
    intro l
    constructor
    · intro h
      have h1 : l ≠ "HOLE".toList := fun k => h ⟨.hole, k ▸ .hole⟩
      have h2 : l ≠ "STEINER".toList := fun k => h ⟨.steiner, k ▸ .steiner⟩
      refine ⟨fun k => h ⟨.blank, k ▸ .blank⟩, h1, h2, fun x y rest hw => ?_⟩
      rcases hx : lib.parse x with _ | px
      · exact .inl rfl
      · rcases hy : lib.parse y with _ | py
        · exact .inr rfl
        · exact (h ⟨_, .point h1 h2 hw hx hy⟩).elim
    · rintro ⟨h1, h2, h3, h4⟩ ⟨m, hm⟩
      cases hm with
      | blank => exact h1 rfl
      | hole => exact h2 rfl
      | steiner => exact h3 rfl
      | point _ _ hw hx hy => rcases h4 _ _ _ hw with k | k <;> simp_all
  simp only [← hmal]
  by_cases hbad : ∃ l ∈ lines, Malformed lib l
  · have : ∃ m, load lib content = .error (.panic m) := by
      obtain ⟨m, e⟩ := steps_malformed (a := Acc.init) (by intro h; cases h) hbad
      exact ⟨m, by unfold load; rw [linesOf_content hc, e]; rfl⟩
    exact ⟨⟨fun _ => .inl hbad, fun _ => this⟩, .inr this⟩
  · obtain ⟨ms, hms⟩ : ∃ ms, List.Forall₂ (LineMeans lib) lines ms := by
      clear hc hn
      induction lines with
      | nil => exact ⟨[], .nil⟩
      | cons l ls ih =>
        obtain ⟨ms, h⟩ := ih fun ⟨x, hx, h⟩ => hbad ⟨x, by simp [hx], h⟩
        obtain ⟨m, hm⟩ := Classical.not_not.1 fun k => hbad ⟨l, by simp, k⟩
        exact ⟨m :: ms, .cons hm h⟩
    rw [load_means hc hms]
    have hlen : (allPoints (piecesOf (Source.ofPoints (polygonOf ms))
        [.holes ((holesOf ms).map Source.ofPoints), .steinerPoints (Source.ofPoints (steinerOf ms))])).length ≤ 2 ^ 32 := by
      have k1 := groups_length ms
      have k2 := groups_points ms _ rfl
      have k3 := hms.length_eq
      simp only [allPoints, piecesOf, BuildOp.pieces, Source.ofPoints, List.flatMap_cons, Piece.pts, List.flatMap_nil, List.append_nil,
        List.length_append, polygonOf, holesOf, steinerOf, List.length_flatMap, List.map_map, List.flatMap_append, List.flatMap_map,
        Function.comp_def] at k1 k2 ⊢
      omega
    have hb := C03_panics_iff_repeat (Source.ofPoints (polygonOf ms))
      [.holes ((holesOf ms).map Source.ofPoints), .steinerPoints (Source.ofPoints (steinerOf ms))] hlen
    have hp : ∀ ps, Piece.polyline ps ∈ piecesOf (Source.ofPoints (polygonOf ms))
        [.holes ((holesOf ms).map Source.ofPoints), .steinerPoints (Source.ofPoints (steinerOf ms))] ↔
        ps = polygonOf ms ∨ ps ∈ holesOf ms := by
      intro ps
      simp only [piecesOf, BuildOp.pieces, Source.ofPoints, List.flatMap_cons, List.flatMap_nil, List.mem_cons, Piece.polyline.injEq,
        List.mem_append, List.map_map, List.mem_map, Function.comp_def, List.append_nil, reduceCtorEq, List.not_mem_nil, or_false]
      constructor
      · rintro (h | ⟨_, h, rfl⟩) <;> simp_all
      · rintro (h | h) <;> simp_all
    have uniq : ∀ ms', List.Forall₂ (LineMeans lib) lines ms' → ms' = ms := by
      intro ms' h
      clear hc hn hbad hlen hb hp
      induction hms generalizing ms' with
      | nil => cases h; rfl
      | cons h1 _ ih => cases h with | cons h2 h3 => rw [lineMeans_unique h2 h1, ih _ h3]
    have e : builderOf ms = buildChain _ _ := rfl
    rw [← e] at hb
    by_cases hok : ∀ ps, Piece.polyline ps ∈ piecesOf (Source.ofPoints (polygonOf ms))
        [.holes ((holesOf ms).map Source.ofPoints), .steinerPoints (Source.ofPoints (steinerOf ms))] → NoRepeat ps
    · obtain ⟨b, hb2⟩ := hb.2.2 hok
      refine ⟨⟨fun ⟨m, h⟩ => (by rw [hb2] at h; cases h), ?_⟩, .inl ⟨b, hb2⟩⟩
      rintro (h | ⟨ms', h1, h2⟩)
      · exact (hbad h).elim
      · cases uniq _ h1
        rcases h2 with h2 | ⟨x, h2, h3⟩
        · exact (h2 (hok _ ((hp _).2 (.inl rfl)))).elim
        · exact (h3 (hok _ ((hp _).2 (.inr h2)))).elim
    · have hbad' : ∃ ps, Piece.polyline ps ∈ piecesOf (Source.ofPoints (polygonOf ms))
        [.holes ((holesOf ms).map Source.ofPoints), .steinerPoints (Source.ofPoints (steinerOf ms))] ∧ ¬ NoRepeat ps := by
        push Not at hok; exact hok
      have h1 := hb.1.2 hbad'
      refine ⟨⟨fun _ => .inr ⟨ms, hms, ?_⟩, fun _ => ⟨_, h1⟩⟩, .inr ⟨_, h1⟩⟩
      obtain ⟨ps, h2, h3⟩ := hbad'
      rcases (hp _).1 h2 with rfl | h2
      · exact .inl h3
      · exact .inr ⟨_, h2, h3⟩

/-! ### An example: integers in decimal notation, trailing words -/

/-- A small number reader for the examples: decimal digits only. -/
def exLib : Lib := ⟨fun s => if s ≠ [] ∧ s.all Char.isDigit then some (s.foldl (fun n c => n * 10 + (c.toNat - 48)) 0 : Nat) else none,
  fun c => c.isWhitespace⟩

def exFile : List Char := "0 0\n10 0 comment\n\n0 10\r\nHOLE\n1 1\n2 1\n1 2\nSTEINER\n5 3".toList

example : Content exFile ["0 0".toList, "10 0 comment".toList, [], "0 10".toList, "HOLE".toList, "1 1".toList,
    "2 1".toList, "1 2".toList, "STEINER".toList, "5 3".toList] := by
  have := content_exists exFile
  have e : linesOf exFile = ["0 0".toList, "10 0 comment".toList, [], "0 10".toList, "HOLE".toList, "1 1".toList,
    "2 1".toList, "1 2".toList, "STEINER".toList, "5 3".toList] := by decide +kernel
  rwa [e] at this

example : (load exLib exFile).toOption.map (·.pb.points) =
    some [⟨0, 0⟩, ⟨10, 0⟩, ⟨0, 10⟩, ⟨1, 1⟩, ⟨2, 1⟩, ⟨1, 2⟩, ⟨5, 3⟩] := by decide +kernel

/-- The second line has only one word. -/
example : ∃ m, load exLib "0 0\n10".toList = .error (.panic m) :=
  (C27_panics_iff exLib (lines := ["0 0".toList, "10".toList]) (by
    have := content_exists "0 0\n10".toList
    rwa [show linesOf "0 0\n10".toList = ["0 0".toList, "10".toList] from by decide +kernel] at this) (by decide)).1.2
    (.inl ⟨"10".toList, by decide, by decide, by decide, by decide, fun x y rest h => by
      have := tokens_of_words h
      rw [show tokens exLib.ws "10".toList = ["10".toList] from by decide +kernel] at this
      cases this⟩)

/-- The hypotheses of C26 hold for this reader and one-digit numbers. -/
def exFmt (r : Rat) : List Char := [Char.ofNat (48 + r.num.toNat)]

example : load exLib (writeFile exFmt ['\n'] [⟨0, 0⟩, ⟨9, 0⟩, ⟨0, 9⟩] [[⟨1, 1⟩, ⟨2, 1⟩, ⟨1, 2⟩]] [⟨5, 3⟩]) =
      (do let b ← Builder.new (Source.ofPoints [⟨0, 0⟩, ⟨9, 0⟩, ⟨0, 9⟩])
          let b ← b.addHoles ([[⟨1, 1⟩, ⟨2, 1⟩, ⟨1, 2⟩]].map Source.ofPoints)
          pure (b.addSteinerPoints (Source.ofPoints [⟨5, 3⟩]))) := by
  refine C26_load_written exLib exFmt _ _ _ _ (by decide) (by decide) (by decide) ?_ (.inl rfl)
  have : ∀ r ∈ ([0, 9, 1, 2, 5, 3] : List Rat), exFmt r ≠ [] ∧ (∀ c ∈ exFmt r, exLib.ws c = false) ∧ exLib.parse (exFmt r) = some r := by
    decide +kernel
  intro p hp r hr
  refine this r ?_
  simp at hp
  rcases hp with rfl | rfl | rfl | rfl | rfl | rfl | rfl <;> rcases hr with rfl | rfl <;> decide

end Loader
end P2T
