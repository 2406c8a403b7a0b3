import Verif.Model.Loader

/-!
# Loading a file: opening, decoding, and reading numbers

Models the parts of `/repo/src/loader.rs` that `Model/Loader` leaves as parameters: the file, its decoding as UTF-8, `str::parse::<Float>` and `char::is_whitespace`.
`str::parse` is modelled by the grammar of its documentation and by its contract that the exact value of the numeral is rounded to the nearest number of the float type
(`Num.rnd`).  The names of infinities and NaN are accepted by the parser; the model has no such values, an arbitrary function `sp` says what is read for them.
-/

namespace P2T
namespace Loader

/-- What the file system has at a path: nothing that can be opened, something that can be opened but not read (a directory, a failing disk), or bytes. -/
inductive File where
  | absent
  | unreadable
  | content (b : ByteArray)

/-- `char::is_whitespace` (the Unicode property `White_Space`), used by `split_whitespace`, `/repo/src/loader.rs:78`. -/
def isSpace (c : Char) : Bool :=
  let n := c.toNat
  (9 ≤ n && n ≤ 13) || n == 32 || n == 0x85 || n == 0xA0 || n == 0x1680 || (0x2000 ≤ n && n ≤ 0x200A) || n == 0x2028 || n == 0x2029 || n == 0x202F || n == 0x205F || n == 0x3000

/-- The number with the decimal digits `ds`. -/
def readDigits (ds : List Char) : Nat := ds.foldl (fun a c => 10 * a + (c.toNat - 48)) 0

/-- The end of a numeral: nothing, or an exponent. -/
def readExp : List Char → Option Int
  | [] => some 0
  | c :: cs =>
    if c = 'e' ∨ c = 'E' then
      let neg := cs.head? = some '-'
      let ds := if cs.head? = some '-' ∨ cs.head? = some '+' then cs.tail else cs
      if ds ≠ [] ∧ ds.all Char.isDigit then some (if neg then -(readDigits ds : Int) else readDigits ds) else none
    else none

/-- A numeral without sign: digits, perhaps a point and digits, perhaps an exponent; at least one digit before the exponent. -/
def readUnsigned (s : List Char) : Option Rat :=
  let ip := s.takeWhile Char.isDigit
  let r := s.dropWhile Char.isDigit
  let fp := if r.head? = some '.' then r.tail.takeWhile Char.isDigit else []
  let r := if r.head? = some '.' then r.tail.dropWhile Char.isDigit else r
  if ip = [] ∧ fp = [] then none
  else (readExp r).map fun e => (readDigits (ip ++ fp) : Rat) * (10 : Rat) ^ (e - (fp.length : Int))

/-- The exact value of a numeral. -/
def readNumeral (s : List Char) : Option Rat :=
  if s.head? = some '-' then (readUnsigned s.tail).map (- ·)
  else if s.head? = some '+' then readUnsigned s.tail
  else readUnsigned s

/-- The names of infinities and NaN, in upper or lower case and with an optional sign. -/
def isSpecial (s : List Char) : Bool :=
  let r := (if s.head? = some '-' ∨ s.head? = some '+' then s.tail else s).map Char.toLower
  r == "inf".toList || r == "infinity".toList || r == "nan".toList

/-- `str::parse::<Float>`, `/repo/src/loader.rs:81-82`. -/
def parseFloat (n : Num) (sp : List Char → Rat) (s : List Char) : Option Rat :=
  match readNumeral s with
  | some q => some (n.rnd q)
  | none => if isSpecial s then some (sp s) else none

/-- The standard library as the loader uses it. -/
def stdLib (n : Num) (sp : List Char → Rat) : Lib := ⟨parseFloat n sp, isSpace⟩

/-- `PlainFileLoader::load`, `/repo/src/loader.rs:29-71`: `none` is `Err(LoaderError::Io(_))`.  Opening with `?` (line 31), reading with `.unwrap()` (line 33; an I/O error and bytes that are not UTF-8
both panic). -/
def loadFile (n : Num) (sp : List Char → Rat) : File → Except Err (Option (Builder Unit))
  | .absent => .ok none
  | .unreadable => .error (.panic "read_to_string unwrap: io error")
  | .content b =>
    match b.utf8Decode? with
    | none => .error (.panic "read_to_string unwrap: invalid UTF-8")
    | some cs => do
      let b ← load (stdLib n sp) cs.toList
      pure (some b)

/-- What `/repo/examples/draw.rs:43-53` does with a file: load, `build()`, triangulate. -/
def fileProgram (n : Num) (sp : List Char → Rat) (fuel : Nat) (f : File) : Except Err (Option (Triangles Unit × St)) := do
  match ← loadFile n sp f with
  | none => pure none
  | some b => do
    let r ← (b.build n).run fuel
    pure (some r)

end Loader
end P2T
