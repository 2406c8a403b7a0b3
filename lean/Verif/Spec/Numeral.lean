import Verif.Spec.FileFormat
import Verif.Model.F64

/-!
# Specification: decimal numerals
-/

namespace P2T
namespace Loader

/-- A (perhaps empty) row of decimal digits. -/
def Digits (ds : List Char) : Prop := ∀ c ∈ ds, '0' ≤ c ∧ c ≤ '9'

/-- Its value: every digit counts with the power of ten of its position. -/
def digitsValue : List Char → Nat
  | [] => 0
  | c :: cs => (c.toNat - '0'.toNat) * 10 ^ cs.length + digitsValue cs

/-- An exponent part of a numeral and its value. -/
inductive ExpPart : List Char → Int → Prop
  | none : ExpPart [] 0
  | pos {e ds} : e = 'e' ∨ e = 'E' → Digits ds → ds ≠ [] → ExpPart (e :: ds) (digitsValue ds)
  | plus {e ds} : e = 'e' ∨ e = 'E' → Digits ds → ds ≠ [] → ExpPart (e :: '+' :: ds) (digitsValue ds)
  | minus {e ds} : e = 'e' ∨ e = 'E' → Digits ds → ds ≠ [] → ExpPart (e :: '-' :: ds) (-(digitsValue ds : Int))

/-- A numeral without sign and its value: `123`, `123.`, `12.3`, `.3`, each with an optional exponent. -/
inductive Unsigned : List Char → Rat → Prop
  | int {ip ex e} : Digits ip → ip ≠ [] → ExpPart ex e → Unsigned (ip ++ ex) ((digitsValue ip : Rat) * (10 : Rat) ^ e)
  | frac {ip fp ex e} : Digits ip → Digits fp → ip ≠ [] ∨ fp ≠ [] → ExpPart ex e →
      Unsigned (ip ++ '.' :: fp ++ ex) ((digitsValue ip + (digitsValue fp : Rat) / (10 : Rat) ^ fp.length) * (10 : Rat) ^ e)

/-- A numeral and its value. -/
inductive Numeral : List Char → Rat → Prop
  | plain {s q} : Unsigned s q → Numeral s q
  | plus {s q} : Unsigned s q → Numeral ('+' :: s) q
  | minus {s q} : Unsigned s q → Numeral ('-' :: s) (-q)

/-- The names of infinities and NaN. -/
def SpecialName (s : List Char) : Prop :=
  ∃ sign name, (sign = [] ∨ sign = ['+'] ∨ sign = ['-']) ∧ s = sign ++ name ∧ name.map Char.toLower ∈ ["inf".toList, "infinity".toList, "nan".toList]

/-- A line begins with two words that are numerals or names of special numbers. -/
def StartsWithPoint (ws : Char → Bool) (line : List Char) : Prop :=
  ∃ x y rest, Words ws line (x :: y :: rest) ∧ ((∃ q, Numeral x q) ∨ SpecialName x) ∧ ((∃ q, Numeral y q) ∨ SpecialName y)

end Loader
end P2T
