import Verif.Proofs.Numeral
import Verif.Props.FileLoader
import Verif.Props.Repair

/-!
# C68: from the bytes of a file to the triangles
-/

namespace P2T
namespace Loader

variable {n : Num} {sp : List Char → Rat}

/-- **C68, numbers.**  A word is read as a number exactly if it is a decimal numeral, which is read as the float nearest to its exact value, or the name of a special number. -/
theorem C68_numbers (n : Num) (sp : List Char → Rat) (s : List Char) (r : Rat) :
    parseFloat n sp s = some r ↔ (∃ q, Numeral s q ∧ r = n.rnd q) ∨ ((¬ ∃ q, Numeral s q) ∧ SpecialName s ∧ r = sp s) := by
  unfold parseFloat
  rcases h : readNumeral s with _ | q
  · have hn : ¬ ∃ q, Numeral s q := by
      rintro ⟨q, hq⟩
      rw [(readNumeral_iff s q).2 hq] at h; cases h
    have hn' : ¬ ∃ q, Numeral s q ∧ r = n.rnd q := fun ⟨q, hq, _⟩ => hn ⟨q, hq⟩
    by_cases hs : isSpecial s = true
    · simp only [hs, if_true, Option.some.injEq]
      exact ⟨fun k => .inr ⟨hn, (special_iff s).1 hs, k.symm⟩, fun k => (k.resolve_left hn').2.2.symm⟩
    · simp only [if_neg hs]
      exact ⟨fun k => (by cases k), fun k => absurd ((special_iff s).2 (k.resolve_left hn').2.1) hs⟩
  · have hq := (readNumeral_iff s q).1 h
    simp only [Option.some.injEq]
    constructor
    · rintro rfl; exact .inl ⟨q, hq, rfl⟩
    · rintro (⟨q', hq', rfl⟩ | ⟨k, -⟩)
      · rw [numeral_unique hq hq']
      · exact absurd ⟨q, hq⟩ k

theorem parse_none_iff (n : Num) (sp : List Char → Rat) (s : List Char) : parseFloat n sp s = none ↔ ¬ ((∃ q, Numeral s q) ∨ SpecialName s) := by
  rw [Option.eq_none_iff_forall_ne_some]
  constructor
  · rintro h (⟨q, hq⟩ | hs)
    · exact h _ ((C68_numbers n sp s _).2 (.inl ⟨q, hq, rfl⟩))
    · by_cases hq : ∃ q, Numeral s q
      · obtain ⟨q, hq⟩ := hq; exact h _ ((C68_numbers n sp s _).2 (.inl ⟨q, hq, rfl⟩))
      · exact h _ ((C68_numbers n sp s _).2 (.inr ⟨hq, hs, rfl⟩))
  · intro h r hr
    rcases (C68_numbers n sp s r).1 hr with ⟨q, hq, -⟩ | ⟨-, hs, -⟩
    · exact h (.inl ⟨q, hq⟩)
    · exact h (.inr hs)

/-- **C68, outcomes.**  A file that cannot be opened is the only case of an error value.  A file that can be opened but not read, or is not UTF-8, makes the loader panic.
A text makes it panic exactly if some line is neither empty nor a keyword nor begins with two numbers, or if the polygon or a hole has two equal neighbouring points (after rounding);
otherwise it gives a builder. -/
theorem C68_outcomes (n : Num) (sp : List Char → Rat) :
    loadFile n sp .absent = .ok none ∧
    (∃ m, loadFile n sp .unreadable = .error (.panic m)) ∧
    (∀ b : ByteArray, ¬ b.IsValidUTF8 → ∃ m, loadFile n sp (.content b) = .error (.panic m)) ∧
    ∀ text lines, Content text lines → lines.length ≤ 2 ^ 32 →
      ((∃ m, loadFile n sp (.content text.utf8Encode) = .error (.panic m)) ↔
        (∃ l ∈ lines, l ≠ [] ∧ l ≠ "HOLE".toList ∧ l ≠ "STEINER".toList ∧ ¬ StartsWithPoint isSpace l) ∨
        (∃ ms, List.Forall₂ (LineMeans (stdLib n sp)) lines ms ∧ (¬ NoRepeat (polygonOf ms) ∨ ∃ h ∈ holesOf ms, ¬ NoRepeat h))) ∧
      ((∃ b, loadFile n sp (.content text.utf8Encode) = .ok (some b)) ∨ ∃ m, loadFile n sp (.content text.utf8Encode) = .error (.panic m)) := by
  refine ⟨rfl, ⟨_, rfl⟩, fun b hb => ?_, fun text lines hc hn => ?_⟩
  · have : b.utf8Decode? = none := by
      rcases h : b.utf8Decode? with _ | cs
      · rfl
      · exact absurd (ByteArray.isSome_utf8Decode?_iff.1 (by rw [h]; rfl)) hb
    exact ⟨"read_to_string unwrap: invalid UTF-8", by simp only [loadFile, this]⟩
  · have e : loadFile n sp (.content text.utf8Encode) = (load (stdLib n sp) text >>= fun b => pure (some b)) := by
      simp only [loadFile, List.utf8Decode?_utf8Encode]
    obtain ⟨h1, h2⟩ := C27_panics_iff (stdLib n sp) hc hn
    have start : ∀ l, (∀ x y rest, Words (stdLib n sp).ws l (x :: y :: rest) → (stdLib n sp).parse x = none ∨ (stdLib n sp).parse y = none) ↔ ¬ StartsWithPoint isSpace l := by
      intro l
      constructor
      · rintro h ⟨x, y, rest, hw, hx, hy⟩
        rcases h x y rest hw with k | k
        · exact (parse_none_iff n sp x).1 k hx
        · exact (parse_none_iff n sp y).1 k hy
      · intro h x y rest hw
        by_contra k
        push Not at k
        exact h ⟨x, y, rest, hw, by_contra fun q => k.1 ((parse_none_iff n sp x).2 q), by_contra fun q => k.2 ((parse_none_iff n sp y).2 q)⟩
    simp only [start] at h1
    constructor
    · rw [← h1, e]
      rcases h : load (stdLib n sp) text with er | b
      · constructor
        · rintro ⟨m, k⟩; cases k; exact ⟨_, rfl⟩
        · rintro ⟨m, k⟩; cases k; exact ⟨_, rfl⟩
      · exact ⟨fun ⟨m, k⟩ => (by cases k), fun ⟨m, k⟩ => (by cases k)⟩
    · rw [e]
      rcases h2 with ⟨b, h⟩ | ⟨m, h⟩
      · exact .inl ⟨b, by rw [h]; rfl⟩
      · exact .inr ⟨m, by rw [h]; rfl⟩

/-- The builder calls for a polygon, holes and Steiner points from a file. -/
def fileOps (holes : List (List Point)) (steiner : List Point) : List (BuildOp Unit) := [.holes (holes.map Source.ofPoints), .steinerPoints (Source.ofPoints steiner)]

/-- `fmt` writes the coordinates as numerals whose nearest float is the coordinate (for instance Rust's `{}`, or the exact decimal expansion). -/
def Writes (n : Num) (fmt : Rat → List Char) (pts : List Point) : Prop :=
  ∀ p ∈ pts, ∀ r, r = p.x ∨ r = p.y → ∃ q, Numeral (fmt r) q ∧ n.rnd q = r

/-- **C68, round trip.**  Polygon, holes and Steiner points written to a file (UTF-8, LF or CR LF) and loaded and triangulated: the same outcome as with the builder calls, including panics. -/
theorem C68_round_trip (fmt : Rat → List Char) (eol : List Char) (poly : List Point) (holes : List (List Point)) (steiner : List Point)
    (hw : Writes n fmt (poly ++ holes.flatten ++ steiner)) (heol : eol = ['\n'] ∨ eol = ['\r', '\n']) (fuel : Nat) :
    fileProgram n sp fuel (.content (writeFile fmt eol poly holes steiner).utf8Encode) = some <$> program n fuel (Source.ofPoints poly) (fileOps holes steiner) := by
  have h := C26_load_written (stdLib n sp) fmt eol poly holes steiner rfl rfl rfl (fun p hp r hr => by
    obtain ⟨q, hq, e⟩ := hw p hp r hr
    have := numeral_noSpace hq
    exact ⟨this.1, this.2, (C68_numbers n sp _ _).2 (.inl ⟨q, hq, e.symm⟩)⟩) heol
  have hb : buildChain (Source.ofPoints poly) (fileOps holes steiner) = load (stdLib n sp) (writeFile fmt eol poly holes steiner) := by
    rw [h]
    simp [buildChain, fileOps, Builder.applyAll, Builder.apply]
  unfold fileProgram program loadFile
  rw [hb]
  simp only [List.utf8Decode?_utf8Encode]
  rcases load (stdLib n sp) (writeFile fmt eol poly holes steiner) with e | b
  · rfl
  · show ((b.build n).run fuel >>= fun r => pure (some r)) = some <$> (b.build n).run fuel
    rcases (b.build n).run fuel with e | r <;> rfl

/-- The input a text stands for: one meaning per line. -/
theorem file_means {text lines ms} (hc : Content text lines) (hm : List.Forall₂ (LineMeans (stdLib n sp)) lines ms) (fuel : Nat) :
    fileProgram n sp fuel (.content text.utf8Encode) = some <$> program n fuel (Source.ofPoints (polygonOf ms)) (fileOps (holesOf ms) (steinerOf ms)) := by
  have h := load_means hc hm
  unfold fileProgram program loadFile
  simp only [List.utf8Decode?_utf8Encode, h, builderOf, fileOps]
  rcases buildChain (Source.ofPoints (polygonOf ms)) [.holes ((holesOf ms).map Source.ofPoints), .steinerPoints (Source.ofPoints (steinerOf ms))] with e | b
  · rfl
  · show ((b.build n).run fuel >>= fun r => pure (some r)) = some <$> (b.build n).run fuel
    rcases (b.build n).run fuel with e | r <;> rfl

/-- **C68, from bytes to triangles.**  Any text (comments after the coordinates, blank lines, LF or CR LF, the groups in any order) whose rounded coordinates are a simple polygon with holes and Steiner points
without dips, on a binary grid: loading and triangulating the file ends without panic, and the reported triangles are the constrained Delaunay triangulation of the polygon minus the holes. -/
theorem C68_correct_f64 (ov : Rat → Rat) (sp : List Char → Rat) {e : Int} {text lines ms} (hc : Content text lines) (hm : List.Forall₂ (LineMeans (stdLib (f64With ov) sp)) lines ms)
    (h : PlainInput (Source.ofPoints (polygonOf ms)) (fileOps (holesOf ms) (steinerOf ms)))
    (hg : OnGrid e (allPoints (piecesOf (Source.ofPoints (polygonOf ms)) (fileOps (holesOf ms) (steinerOf ms))))) (he : -20 ≤ e) (he' : e ≤ 220)
    (hcor : ClearOfCorners (allPoints (piecesOf (Source.ofPoints (polygonOf ms)) (fileOps (holesOf ms) (steinerOf ms)))) ∨
      CornersOnGrid e (allPoints (piecesOf (Source.ofPoints (polygonOf ms)) (fileOps (holesOf ms) (steinerOf ms))))) :
    ∃ N t s, (∀ fuel, N ≤ fuel → fileProgram (f64With ov) sp fuel (.content text.utf8Encode) = .ok (some (t, s))) ∧
      CorrectResult (f64With ov) (Source.ofPoints (polygonOf ms)) (fileOps (holesOf ms) (steinerOf ms)) t := by
  have a := C48_admissible (f64With ov) h hg he he' hcor
  obtain ⟨N, t, s, k⟩ := C61_same a
  obtain ⟨N', t', s', k', c⟩ := C61_correct a.toSoundInput
  have e1 := (k (max N N') (by omega)).2
  rw [k' (max N N') (by omega)] at e1
  obtain ⟨rfl, rfl⟩ : t' = t ∧ s' = s := by simpa using e1
  exact ⟨N, t', s', fun fuel hN => by rw [file_means hc hm fuel, (k fuel hN).1]; rfl, c⟩

/-- Every natural number is the value of some digits. -/
theorem digits_exist (k : Nat) : ∃ ds, Digits ds ∧ ds ≠ [] ∧ digitsValue ds = k := by
  induction k using Nat.strongRecOn with
  | ind k ih =>
    have hd : ∀ d < 10, '0' ≤ Char.ofNat (48 + d) ∧ Char.ofNat (48 + d) ≤ '9' ∧ (Char.ofNat (48 + d)).toNat - '0'.toNat = d := by decide
    by_cases hk : k < 10
    · exact ⟨[Char.ofNat (48 + k)], by simpa [Digits] using ⟨(hd k hk).1, (hd k hk).2.1⟩, by simp, by simpa [digitsValue] using (hd k hk).2.2⟩
    · obtain ⟨ds, h1, h2, h3⟩ := ih (k / 10) (by omega)
      have hr := hd (k % 10) (by omega)
      refine ⟨ds ++ [Char.ofNat (48 + k % 10)], ?_, by simp, ?_⟩
      · intro c hc
        rcases List.mem_append.1 hc with hc | hc
        · exact h1 c hc
        · rw [List.mem_singleton.1 hc]; exact ⟨hr.1, hr.2.1⟩
      · rw [digitsValue_append, h3]
        simp only [digitsValue, List.length_cons, List.length_nil, hr.2.2]
        omega

/-- **C68, every coordinate can be written.**  Every multiple of a power of two (in particular every finite float) has a decimal numeral with exactly this value. -/
theorem C68_writable (m e : Int) : ∃ s, Numeral s ((m : Rat) * (2 : Rat) ^ e) := by
  have nat : ∀ (k : Nat) (e : Int), ∃ s, Unsigned s ((k : Rat) * (2 : Rat) ^ e) := by
    intro k e
    rcases Int.eq_nat_or_neg e with ⟨j, rfl | rfl⟩
    · obtain ⟨ds, h1, h2, h3⟩ := digits_exist (k * 2 ^ j)
      refine ⟨ds ++ [], ?_⟩
      have := Unsigned.int h1 h2 .none
      rw [h3] at this
      simpa using this
    · obtain ⟨ds, h1, h2, h3⟩ := digits_exist (k * 5 ^ j)
      obtain ⟨ex, k1, k2, k3⟩ := digits_exist j
      refine ⟨ds ++ 'e' :: '-' :: ex, ?_⟩
      have := Unsigned.int h1 h2 (.minus (.inl rfl) k1 k2)
      rw [h3, k3] at this
      convert this using 1
      rw [zpow_neg, zpow_neg, zpow_natCast, zpow_natCast, show (10 : Rat) = 5 * 2 by norm_num, mul_pow]
      push_cast
      have : (5 : Rat) ^ j ≠ 0 := by positivity
      have : (2 : Rat) ^ j ≠ 0 := by positivity
      field_simp
  rcases Int.eq_nat_or_neg m with ⟨k, rfl | rfl⟩
  · obtain ⟨s, hs⟩ := nat k e
    exact ⟨s, .plain (by simpa using hs)⟩
  · obtain ⟨s, hs⟩ := nat k e
    exact ⟨'-' :: s, by simpa using Numeral.minus hs⟩

/-! ## Examples -/

deriving instance DecidableEq for Line

/-- The meaning of a line, computed. -/
def meaning (lib : Lib) (l : List Char) : Option Line :=
  if l = [] then some .blank
  else if l = "HOLE".toList then some .hole
  else if l = "STEINER".toList then some .steiner
  else match tokens lib.ws l with
    | x :: y :: _ => match lib.parse x, lib.parse y with
      | some px, some py => some (.point ⟨px, py⟩)
      | _, _ => none
    | _ => none

theorem meaning_means {lib : Lib} {l : List Char} {m : Line} (h : meaning lib l = some m) : LineMeans lib l m := by
  unfold meaning at h
  split at h
  · rename_i k; subst k; cases h; exact .blank
  · split at h
    · rename_i k; subst k; cases h; exact .hole
    · split at h
      · rename_i k; subst k; cases h; exact .steiner
      · rename_i h1 h2
        split at h
        · rename_i x y rest ht
          split at h
          · rename_i px py hx hy
            cases h
            exact .point h1 h2 (ht ▸ words_tokens lib.ws l) hx hy
          · cases h
        · cases h

theorem means_of {lib : Lib} : ∀ {lines : List (List Char)} {ms : List Line}, lines.map (meaning lib) = ms.map some → List.Forall₂ (LineMeans lib) lines ms
  | [], [], _ => .nil
  | l :: ls, m :: ms, h => by
    simp only [List.map_cons, List.cons.injEq] at h
    exact .cons (meaning_means h.1) (means_of h.2)
  | [], _ :: _, h => by simp at h
  | _ :: _, [], h => by simp at h

/-- Numerals: the forms the parser accepts, and some it does not. -/
example : Numeral "-12.50e+1".toList (-125) ∧ Numeral ".5".toList (1 / 2) ∧ Numeral "7.".toList 7 ∧ Numeral "+3E-2".toList (3 / 100) ∧
    ¬ (∃ q, Numeral ".".toList q) ∧ ¬ (∃ q, Numeral "1e".toList q) ∧ ¬ (∃ q, Numeral "1,5".toList q) ∧ ¬ (∃ q, Numeral "0x10".toList q) ∧ ¬ (∃ q, Numeral "--1".toList q) ∧
    SpecialName "-Inf".toList ∧ SpecialName "NaN".toList := by
  refine ⟨(readNumeral_iff _ _).1 (by decide +kernel), (readNumeral_iff _ _).1 (by decide +kernel), (readNumeral_iff _ _).1 (by decide +kernel), (readNumeral_iff _ _).1 (by decide +kernel), ?_, ?_, ?_, ?_, ?_,
    (special_iff _).1 (by decide +kernel), (special_iff _).1 (by decide +kernel)⟩
  all_goals
    rintro ⟨q, hq⟩
    have := (readNumeral_iff _ _).2 hq
    rw [show readNumeral _ = none by decide +kernel] at this
    cases this

/-- A file with comments, a blank line, both kinds of line ends and numbers in all forms. -/
def squareFile : List Char := "0 1\n4e1 0 first edge\r\n41. +31\n\n.1e1\t30.000\nSTEINER\n35 17\nHOLE\n5 5\n300e-1 6\n28 25 1\n6 24".toList

def squareLines : List Line := [.point ⟨0, 1⟩, .point ⟨40, 0⟩, .point ⟨41, 31⟩, .blank, .point ⟨1, 30⟩, .steiner, .point ⟨35, 17⟩, .hole, .point ⟨5, 5⟩, .point ⟨30, 6⟩, .point ⟨28, 25⟩, .point ⟨6, 24⟩]

theorem square_inside : ∀ p ∈ extraPoints (fileOps (holesOf squareLines) (steinerOf squareLines)), StrictlyInside (polygonOf squareLines) p := by
  intro p hp
  have : ∀ p ∈ extraPoints (fileOps (holesOf squareLines) (steinerOf squareLines)), InsidePolyline (polygonOf squareLines) p ∧
      ∀ x ∈ cyclicPairs (polygonOf squareLines), ¬ (det2 x.1 x.2 p = 0 ∧ min x.1.x x.2.x ≤ p.x ∧ p.x ≤ max x.1.x x.2.x) := by decide +kernel
  refine ⟨(this p hp).1, fun x hx hon => (this p hp).2 x hx ⟨det2_on hon, ?_⟩⟩
  obtain ⟨t, t0, t1, ex, -⟩ := hon
  rw [ex]
  rcases le_total x.1.x x.2.x with k | k
  · rw [min_eq_left k, max_eq_right k]; constructor <;> nlinarith
  · rw [min_eq_right k, max_eq_left k]; constructor <;> nlinarith

/-- **C68, example.** -/
theorem C68_example : ∃ N t s, (∀ fuel, N ≤ fuel → fileProgram f64 (fun _ => 0) fuel (.content squareFile.utf8Encode) = .ok (some (t, s))) ∧
    CorrectResult f64 (Source.ofPoints (polygonOf squareLines)) (fileOps (holesOf squareLines) (steinerOf squareLines)) t := by
  have hm : (linesOf squareFile).map (meaning (stdLib f64 fun _ => 0)) = squareLines.map some := by decide +kernel
  exact C68_correct_f64 (saturate f64Max) (fun _ => 0) (e := 0) (content_exists squareFile) (ms := squareLines) (means_of hm)
    ⟨⟨by decide, by decide +kernel, by decide +kernel, by decide +kernel, by decide, by decide, square_inside⟩, by decide +kernel⟩
    (grid_of_check (by decide +kernel)) (by norm_num) (by norm_num) (.inl (clear_of_box (x0 := 0) (x1 := 41) (y0 := 0) (y1 := 31) (by decide +kernel) (by decide +kernel)))

/-- Files that make the loader panic: a byte that is not UTF-8, a line of blanks (not the empty line), a lower case keyword; `1e400` is read as the answer of the float type on overflow. -/
example : (∃ m, loadFile f64 (fun _ => 0) (.content ⟨#[48, 32, 255]⟩) = .error (.panic m)) ∧ (∃ m, loadFile f64 (fun _ => 0) (.content " ".toList.utf8Encode) = .error (.panic m)) ∧
    (∃ m, loadFile f64 (fun _ => 0) (.content "hole".toList.utf8Encode) = .error (.panic m)) ∧ parseFloat f64 (fun _ => 0) "1e400".toList = some f64Max := by
  refine ⟨⟨"read_to_string unwrap: invalid UTF-8", ?_⟩, ?_, ?_, by decide +kernel⟩
  · have : (ByteArray.mk #[48, 32, 255]).utf8Decode? = none := by decide +kernel
    simp only [loadFile, this]
  all_goals
    simp only [loadFile, List.utf8Decode?_utf8Encode]
    exact ⟨_, rfl⟩

end Loader
end P2T
