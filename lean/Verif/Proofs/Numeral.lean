import Verif.Model.File
import Verif.Spec.Numeral
import Mathlib.Tactic.Ring
import Mathlib.Tactic.FieldSimp
import Mathlib.Tactic.Positivity
import Mathlib.Algebra.Order.Field.Rat

/-!
# The reader of numerals and the grammar
-/

namespace P2T
namespace Loader

theorem isDigit_iff (c : Char) : c.isDigit = true ↔ '0' ≤ c ∧ c ≤ '9' := by
  simp [Char.isDigit, Char.le_def]

theorem digits_all {ds : List Char} : Digits ds ↔ ds.all Char.isDigit = true := by
  rw [List.all_eq_true]
  exact forall₂_congr fun c _ => (isDigit_iff c).symm

theorem readDigits_eq (ds : List Char) : readDigits ds = digitsValue ds := by
  have key : ∀ (ds : List Char) (a : Nat), ds.foldl (fun a c => 10 * a + (c.toNat - 48)) a = a * 10 ^ ds.length + digitsValue ds := by
    intro ds
    induction ds with
    | nil => intro a; simp [digitsValue]
    | cons c cs ih =>
      intro a
      rw [List.foldl_cons, ih, digitsValue, List.length_cons, show ('0' : Char).toNat = 48 from rfl]
      ring
  have := key ds 0
  unfold readDigits
  rw [this]; simp

theorem digitsValue_append (a b : List Char) : digitsValue (a ++ b) = digitsValue a * 10 ^ b.length + digitsValue b := by
  induction a with
  | nil => simp [digitsValue]
  | cons c cs ih =>
    rw [List.cons_append, digitsValue, digitsValue, ih, List.length_append]
    ring

theorem take_digits {ds r : List Char} (h : Digits ds) (hr : ∀ c, r.head? = some c → c.isDigit = false) :
    (ds ++ r).takeWhile Char.isDigit = ds ∧ (ds ++ r).dropWhile Char.isDigit = r := by
  induction ds with
  | nil =>
    cases r with
    | nil => simp
    | cons c r => have := hr c rfl; simp [this]
  | cons c cs ih =>
    have hc : c.isDigit = true := (isDigit_iff c).2 (h c (by simp))
    have := ih fun c hc => h c (by simp [hc])
    simp [hc, this.1, this.2]

theorem take_is_digits (s : List Char) : Digits (s.takeWhile Char.isDigit) := by
  induction s with
  | nil => simp [Digits]
  | cons c cs ih =>
    rw [List.takeWhile_cons]
    split
    · rename_i h
      intro d hd
      rcases List.mem_cons.1 hd with rfl | hd
      · exact (isDigit_iff _).1 h
      · exact ih d hd
    · simp [Digits]

theorem expPart_head {ex : List Char} {e : Int} (h : ExpPart ex e) : ex = [] ∨ ex.head? = some 'e' ∨ ex.head? = some 'E' := by
  cases h with
  | none => exact .inl rfl
  | pos h => rcases h with rfl | rfl <;> simp
  | plus h => rcases h with rfl | rfl <;> simp
  | minus h => rcases h with rfl | rfl <;> simp

theorem readExp_iff (s : List Char) (e : Int) : readExp s = some e ↔ ExpPart s e := by
  constructor
  · intro h
    cases s with
    | nil => simp [readExp] at h; subst h; exact .none
    | cons c cs =>
      simp only [readExp] at h
      by_cases hc : c = 'e' ∨ c = 'E'
      · rw [if_pos hc] at h
        have fin : ∀ {ds : List Char} {v w : Int}, (if ds ≠ [] ∧ ds.all Char.isDigit = true then some v else none) = some w → ds ≠ [] ∧ Digits ds ∧ v = w := by
          intro ds v w k
          by_cases hd : ds ≠ [] ∧ ds.all Char.isDigit = true
          · rw [if_pos hd] at k; exact ⟨hd.1, digits_all.2 hd.2, by simpa using k⟩
          · rw [if_neg hd] at k; cases k
        cases cs with
        | nil => simp at h
        | cons d ds =>
          by_cases e1 : d = '-'
          · subst e1
            simp only [List.head?_cons, true_or, if_true, List.tail_cons] at h
            obtain ⟨h1, h2, rfl⟩ := fin h
            rw [readDigits_eq]; exact .minus hc h2 h1
          · by_cases e2 : d = '+'
            · subst e2
              simp only [List.head?_cons, or_true, if_true, List.tail_cons, Option.some.injEq, e1, if_false] at h
              obtain ⟨h1, h2, rfl⟩ := fin h
              rw [readDigits_eq]; exact .plus hc h2 h1
            · simp only [List.head?_cons, Option.some.injEq, e1, e2, or_self, if_false] at h
              obtain ⟨h1, h2, rfl⟩ := fin h
              rw [readDigits_eq]; exact .pos hc h2 h1
      · rw [if_neg hc] at h; cases h
  · intro h
    cases h with
    | none => rfl
    | @pos c ds hc hd hne =>
      have := digits_all.1 hd
      cases ds with
      | nil => exact absurd rfl hne
      | cons d ds =>
        have hdd := (isDigit_iff d).2 (hd d (by simp))
        have e1 : d ≠ '-' := by rintro rfl; revert hdd; decide
        have e2 : d ≠ '+' := by rintro rfl; revert hdd; decide
        simp only [readExp, if_pos hc, List.head?_cons, Option.some.injEq, e1, e2, or_self, if_false]
        rw [if_pos ⟨by simp, this⟩, readDigits_eq]
    | @plus c ds hc hd hne =>
      have := digits_all.1 hd
      simp only [readExp, if_pos hc, List.head?_cons, Option.some.injEq, or_true, if_true, List.tail_cons]
      rw [if_pos ⟨hne, this⟩, if_neg (by decide), readDigits_eq]
    | @minus c ds hc hd hne =>
      have := digits_all.1 hd
      simp only [readExp, if_pos hc, List.head?_cons, true_or, if_true, List.tail_cons]
      rw [if_pos ⟨hne, this⟩, readDigits_eq]

theorem frac_value (ip fp : List Char) (e : Int) :
    ((digitsValue ip : Rat) + (digitsValue fp : Rat) / (10 : Rat) ^ fp.length) * (10 : Rat) ^ e = (readDigits (ip ++ fp) : Rat) * (10 : Rat) ^ (e - (fp.length : Int)) := by
  rw [readDigits_eq, digitsValue_append, zpow_sub₀ (by norm_num), zpow_natCast]
  have : (10 : Rat) ^ fp.length ≠ 0 := by positivity
  push_cast
  field_simp

theorem readUnsigned_iff (s : List Char) (q : Rat) : readUnsigned s = some q ↔ Unsigned s q := by
  constructor
  · intro h
    unfold readUnsigned at h
    simp only at h
    have e0 : s = s.takeWhile Char.isDigit ++ s.dropWhile Char.isDigit := (List.takeWhile_append_dropWhile).symm
    have d0 := take_is_digits s
    generalize s.takeWhile Char.isDigit = ip at *
    generalize s.dropWhile Char.isDigit = r at *
    cases r with
    | nil =>
      simp at h
      obtain ⟨h1, e, h2, rfl⟩ := h
      subst e0
      have := Unsigned.int d0 (fun k => h1 k) ((readExp_iff _ _).1 h2)
      rw [readDigits_eq]
      simpa using this
    | cons c r =>
      by_cases hc : c = '.'
      · subst hc
        simp only [List.head?_cons, if_true, List.tail_cons] at h
        have e1 : r = r.takeWhile Char.isDigit ++ r.dropWhile Char.isDigit := (List.takeWhile_append_dropWhile).symm
        have d1 := take_is_digits r
        generalize r.takeWhile Char.isDigit = fp at *
        generalize r.dropWhile Char.isDigit = r' at *
        split at h
        · cases h
        · rename_i hne
          obtain ⟨e, he, rfl⟩ := Option.map_eq_some_iff.1 h
          subst e1; subst e0
          rw [← frac_value]
          have := Unsigned.frac (ip := ip) (fp := fp) d0 d1 (by by_contra k; push Not at k; exact hne k) ((readExp_iff _ _).1 he)
          simpa [List.append_assoc] using this
      · simp only [List.head?_cons, Option.some.injEq, hc, if_false, and_true, List.append_nil, List.length_nil, Nat.cast_zero, sub_zero] at h
        split at h
        · cases h
        · rename_i hne
          obtain ⟨e, he, rfl⟩ := Option.map_eq_some_iff.1 h
          subst e0
          rw [readDigits_eq]
          exact Unsigned.int d0 hne ((readExp_iff _ _).1 he)
  · intro h
    cases h with
    | @int ip ex e hd hne he =>
      have hh := expPart_head he
      have nd : ∀ c, ex.head? = some c → c.isDigit = false := by
        intro c hc
        rcases hh with rfl | hh | hh
        · cases hc
        · rw [hh] at hc; cases hc; rfl
        · rw [hh] at hc; cases hc; rfl
      obtain ⟨t1, t2⟩ := take_digits hd nd
      have np : ex.head? ≠ some '.' := by
        rcases hh with rfl | hh | hh
        · simp
        · rw [hh]; decide
        · rw [hh]; decide
      unfold readUnsigned
      simp only [t1, t2, if_neg np, and_true, if_neg hne, (readExp_iff _ _).2 he, Option.map_some, List.append_nil, List.length_nil, Nat.cast_zero, sub_zero, readDigits_eq]
    | @frac ip fp ex e hd hf hne he =>
      have hh := expPart_head he
      have nd : ∀ c, ex.head? = some c → c.isDigit = false := by
        intro c hc
        rcases hh with rfl | hh | hh
        · cases hc
        · rw [hh] at hc; cases hc; rfl
        · rw [hh] at hc; cases hc; rfl
      have e0 : ip ++ '.' :: fp ++ ex = ip ++ '.' :: (fp ++ ex) := by simp
      obtain ⟨t1, t2⟩ := take_digits (r := '.' :: (fp ++ ex)) hd (by intro c hc; cases hc; rfl)
      obtain ⟨t3, t4⟩ := take_digits hf nd
      have hne' : ¬ (ip = [] ∧ fp = []) := by rintro ⟨rfl, rfl⟩; simp at hne
      unfold readUnsigned
      simp only [e0, t1, t2, List.head?_cons, if_true, List.tail_cons, t3, t4, if_neg hne', (readExp_iff _ _).2 he, Option.map_some, frac_value]

theorem unsigned_head {s : List Char} {q : Rat} (h : Unsigned s q) : s.head? ≠ some '-' ∧ s.head? ≠ some '+' ∧ s ≠ [] := by
  cases h with
  | @int ip ex e hd hne he =>
    cases ip with
    | nil => exact absurd rfl hne
    | cons c cs =>
      have := (isDigit_iff c).2 (hd c (by simp))
      refine ⟨?_, ?_, by simp⟩ <;> (simp; rintro rfl; revert this; decide)
  | @frac ip fp ex e hd hf hne he =>
    cases ip with
    | nil => simp
    | cons c cs =>
      have := (isDigit_iff c).2 (hd c (by simp))
      refine ⟨?_, ?_, by simp⟩ <;> (simp; rintro rfl; revert this; decide)

/-- The reader reads exactly the numerals, with their values. -/
theorem readNumeral_iff (s : List Char) (q : Rat) : readNumeral s = some q ↔ Numeral s q := by
  unfold readNumeral
  constructor
  · intro h
    split at h
    · rename_i hs
      obtain ⟨r, hr, rfl⟩ := Option.map_eq_some_iff.1 h
      cases s with
      | nil => cases hs
      | cons c cs => cases hs; exact .minus ((readUnsigned_iff _ _).1 hr)
    · split at h
      · rename_i hs
        cases s with
        | nil => cases hs
        | cons c cs => cases hs; exact .plus ((readUnsigned_iff _ _).1 h)
      · exact .plain ((readUnsigned_iff _ _).1 h)
  · intro h
    cases h with
    | plain h =>
      obtain ⟨h1, h2, -⟩ := unsigned_head h
      rw [if_neg h1, if_neg h2]; exact (readUnsigned_iff _ _).2 h
    | @plus s q h => rw [if_neg (by simp), if_pos (by simp)]; exact (readUnsigned_iff _ _).2 h
    | @minus s q h => rw [if_pos (by simp)]; simp [(readUnsigned_iff _ _).2 h]

theorem numeral_unique {s : List Char} {q r : Rat} (h : Numeral s q) (h' : Numeral s r) : q = r := by
  have := ((readNumeral_iff _ _).2 h).symm.trans ((readNumeral_iff _ _).2 h')
  simpa using this

theorem special_iff (s : List Char) : isSpecial s = true ↔ SpecialName s := by
  unfold isSpecial SpecialName
  simp only [Bool.or_eq_true, beq_iff_eq]
  constructor
  · intro h
    by_cases e1 : s.head? = some '-'
    · cases s with
      | nil => cases e1
      | cons c cs => cases e1; exact ⟨['-'], cs, by simp, rfl, by simpa [or_assoc] using h⟩
    · by_cases e2 : s.head? = some '+'
      · cases s with
        | nil => cases e2
        | cons c cs => cases e2; exact ⟨['+'], cs, by simp, rfl, by simpa [or_assoc] using h⟩
      · exact ⟨[], s, by simp, rfl, by simpa [e1, e2, or_assoc] using h⟩
  · rintro ⟨sign, name, hsign, hs, h⟩
    subst hs
    rcases hsign with rfl | rfl | rfl
    · rw [List.nil_append]
      have hh : name.head? ≠ some '-' ∧ name.head? ≠ some '+' := by
        cases name with
        | nil => simp
        | cons c cs => refine ⟨?_, ?_⟩ <;> (rintro k; cases k; revert h; simp)
      simpa [hh.1, hh.2, or_assoc] using h
    · simpa [or_assoc] using h
    · simpa [or_assoc] using h

/-- The characters of a numeral. -/
theorem numeral_chars {s : List Char} {q : Rat} (h : Numeral s q) : s ≠ [] ∧ ∀ c ∈ s, c.isDigit = true ∨ c ∈ ['+', '-', '.', 'e', 'E'] := by
  have dig : ∀ {ds : List Char}, Digits ds → ∀ c ∈ ds, c.isDigit = true ∨ c ∈ ['+', '-', '.', 'e', 'E'] := fun h c hc => .inl ((isDigit_iff c).2 (h c hc))
  have ex : ∀ {ex e}, ExpPart ex e → ∀ c ∈ ex, c.isDigit = true ∨ c ∈ ['+', '-', '.', 'e', 'E'] := by
    intro ex e h c hc
    cases h with
    | none => cases hc
    | pos he hd _ =>
      rcases List.mem_cons.1 hc with rfl | hc
      · rcases he with rfl | rfl <;> simp
      · exact dig hd c hc
    | plus he hd _ =>
      rcases List.mem_cons.1 hc with rfl | hc
      · rcases he with rfl | rfl <;> simp
      · rcases List.mem_cons.1 hc with rfl | hc
        · simp
        · exact dig hd c hc
    | minus he hd _ =>
      rcases List.mem_cons.1 hc with rfl | hc
      · rcases he with rfl | rfl <;> simp
      · rcases List.mem_cons.1 hc with rfl | hc
        · simp
        · exact dig hd c hc
  have un : ∀ {s q}, Unsigned s q → ∀ c ∈ s, c.isDigit = true ∨ c ∈ ['+', '-', '.', 'e', 'E'] := by
    intro s q h c hc
    cases h with
    | int hd _ he => rcases List.mem_append.1 hc with hc | hc; exacts [dig hd c hc, ex he c hc]
    | frac hd hf _ he =>
      rcases List.mem_append.1 hc with hc | hc
      · rcases List.mem_append.1 hc with hc | hc
        · exact dig hd c hc
        · rcases List.mem_cons.1 hc with rfl | hc
          · simp
          · exact dig hf c hc
      · exact ex he c hc
  cases h with
  | plain h => exact ⟨(unsigned_head h).2.2, un h⟩
  | plus h =>
    refine ⟨by simp, fun c hc => ?_⟩
    rcases List.mem_cons.1 hc with rfl | hc
    · simp
    · exact un h c hc
  | minus h =>
    refine ⟨by simp, fun c hc => ?_⟩
    rcases List.mem_cons.1 hc with rfl | hc
    · simp
    · exact un h c hc

theorem numeral_noSpace {s : List Char} {q : Rat} (h : Numeral s q) : s ≠ [] ∧ ∀ c ∈ s, isSpace c = false := by
  refine ⟨(numeral_chars h).1, fun c hc => ?_⟩
  rcases (numeral_chars h).2 c hc with k | k
  · have := (isDigit_iff c).1 k
    have h1 : 48 ≤ c.toNat := by have := this.1; simpa [Char.le_def, UInt32.le_iff_toNat_le] using this
    have h2 : c.toNat ≤ 57 := by have := this.2; simpa [Char.le_def, UInt32.le_iff_toNat_le] using this
    unfold isSpace
    simp; omega
  · simp at k
    rcases k with rfl | rfl | rfl | rfl | rfl <;> decide

end Loader
end P2T
