import Verif.Model.Num

/-!
# The `f64` instance of the float parameters

`roundF64` is IEEE 754 round-to-nearest-even with 53 significant bits and gradual underflow (subnormal numbers).  A result that is too large would be
an infinity, which the model does not have: `f64With ov` answers `ov q` there, for an arbitrary function `ov`, and `f64` is the instance that answers the
largest finite number of the right sign.  Theorems about `f64With ov` for every `ov` do not depend on what happens on overflow.
`exactNum` is exact arithmetic.
-/

namespace P2T

/-- `2 ^ e` for an integer exponent. -/
def pow2 (e : Int) : Rat :=
  match e with
  | .ofNat n => ((2 ^ n : Nat) : Rat)
  | .negSucc n => mkRat 1 (2 ^ (n + 1))

/-- The nearest integer to a non-negative rational, ties to even. -/
def roundEven (q : Rat) : Nat :=
  let n := q.num.toNat
  let f := n / q.den
  let r := n % q.den
  if 2 * r < q.den then f
  else if q.den < 2 * r then f + 1
  else if f % 2 = 0 then f else f + 1

/-- IEEE 754 round to nearest, ties to even, with `bits` significant bits. -/
def roundTo (bits : Nat) (q : Rat) : Rat :=
  if q = 0 then 0
  else
    let a := if q < 0 then -q else q
    let e0 : Int := (Nat.log2 a.num.toNat : Int) - (Nat.log2 a.den : Int) - ((bits : Int) - 1)
    let e := if a * pow2 (-e0) < ((2 ^ (bits - 1) : Nat) : Rat) then e0 - 1 else e0
    let m := ((roundEven (a * pow2 (-e)) : Nat) : Rat) * pow2 e
    if q < 0 then -m else m

/-- Rounding to the nearest multiple of `2 ^ emin`, ties to even: what IEEE 754 does below the normal range. -/
def roundAt (emin : Int) (q : Rat) : Rat :=
  if q < 0 then -(((roundEven (-q * pow2 (-emin)) : Nat) : Rat) * pow2 emin)
  else ((roundEven (q * pow2 (-emin)) : Nat) : Rat) * pow2 emin

/-- IEEE 754 round to nearest, ties to even, with `bits` significant bits and the smallest positive number `2 ^ emin`; no largest number. -/
def roundGradual (bits : Nat) (emin : Int) (q : Rat) : Rat :=
  if (if q < 0 then -q else q) < pow2 (emin + bits - 1) then roundAt emin q else roundTo bits q

/-- The same with a largest number; `ov` is the answer on overflow. -/
def roundIEEE (bits : Nat) (emin : Int) (hi : Rat) (ov : Rat → Rat) (q : Rat) : Rat :=
  let r := roundGradual bits emin q
  if -hi ≤ r ∧ r ≤ hi then r else ov q

/-- The largest finite number of the right sign. -/
def saturate (hi : Rat) (q : Rat) : Rat := if q < 0 then -hi else hi

/-- `f64::MAX`. -/
def f64Max : Rat := pow2 1024 - pow2 971
/-- `f32::MAX`. -/
def f32Max : Rat := pow2 128 - pow2 104

/-- `f64`, `/repo/src/lib.rs:17-21`, with an arbitrary answer on overflow. -/
def f64With (ov : Rat → Rat) : Num :=
  { rnd := roundIEEE 53 (-1074) f64Max ov
    eps := pow2 (-52)
    lo := -f64Max
    hi := f64Max
    k03 := mkRat 5404319552844595 (2 ^ 54) }

/-- `f64`, saturating. -/
def f64 : Num := f64With (saturate f64Max)

def roundF64 : Rat → Rat := f64.rnd

/-- `f32` (feature-selected alternative of `/repo/src/lib.rs:17-21`), with an arbitrary answer on overflow. -/
def f32With (ov : Rat → Rat) : Num :=
  { rnd := roundIEEE 24 (-149) f32Max ov
    eps := pow2 (-23)
    lo := -f32Max
    hi := f32Max
    k03 := mkRat 10066330 (2 ^ 25) }

/-- `f32`, saturating. -/
def f32 : Num := f32With (saturate f32Max)

/-- Exact arithmetic with the `f64` constants. -/
def exactNum : Num := { f64 with rnd := id }

example : roundF64 (mkRat 1 10) = mkRat 3602879701896397 36028797018963968 := by decide +kernel
example : roundF64 (mkRat 3 10) = f64.k03 := by decide +kernel
example : f32.rnd (mkRat 3 10) = f32.k03 := by decide +kernel
example : roundF64 (2 ^ 53 + 1) = 2 ^ 53 := by decide +kernel
example : roundF64 (-(2 ^ 53 + 3)) = -(2 ^ 53 + 4) := by decide +kernel
example : roundF64 (-12) = -12 := by decide +kernel
/-- Below half of the smallest positive number: zero. -/
example : roundF64 (pow2 (-1075)) = 0 := by decide +kernel
/-- Subnormal numbers have fewer bits. -/
example : roundF64 (-(5 * pow2 (-1076))) = -pow2 (-1074) := by decide +kernel
example : roundF64 (pow2 (-1030) * (1 + pow2 (-50))) = pow2 (-1030) := by decide +kernel
/-- Overflow. -/
theorem roundIEEE_over {bits : Nat} {emin : Int} {hi : Rat} {ov : Rat → Rat} {q : Rat} (h : ¬ (-hi ≤ roundGradual bits emin q ∧ roundGradual bits emin q ≤ hi)) :
    roundIEEE bits emin hi ov q = ov q := if_neg h
example : ¬ (-f64Max ≤ roundGradual 53 (-1074) (pow2 1024) ∧ roundGradual 53 (-1074) (pow2 1024) ≤ f64Max) := by decide +kernel
example : roundF64 (-pow2 1024) = -f64Max := by decide +kernel
example : roundF64 (pow2 1024 - pow2 971 + pow2 969) = f64Max := by decide +kernel

end P2T
