import Verif.Model.Cdt

/-!
# The plain file loader

Models `/repo/src/loader.rs`.  A file's content is a list of characters.  Opening and reading the file
(the `LoaderError::Io` path) is not modelled.  `str::parse::<Float>` is a parameter `parse` of the
model: any partial function from tokens to numbers.  `char::is_whitespace` is a parameter `ws`.
-/

namespace P2T
namespace Loader

/-- What the loader takes from the standard library: the float parser and the whitespace test. -/
structure Lib where
  parse : List Char → Option Rat
  ws : Char → Bool

/-- `ParseState`, `/repo/src/loader.rs:21-27`. -/
inductive PState where
  | polygon | hole | steiner
  deriving DecidableEq, Repr

/-- The accumulators of `load`, `/repo/src/loader.rs:35-38`. -/
structure Acc where
  state : PState
  polygon : List Point
  holes : List (List Point)
  steiner : List Point
  deriving DecidableEq, Repr

/-- `/repo/src/loader.rs:35-38`. -/
def Acc.init : Acc := ⟨.polygon, [], [], []⟩

/-- Split at every `'\n'`; the pieces between separators. -/
def splitNl : List Char → List (List Char)
  | [] => [[]]
  | c :: cs =>
    match splitNl cs with
    | [] => [[c]]
    | l :: ls => if c = '\n' then [] :: l :: ls else (c :: l) :: ls

/-- Drop one trailing `'\r'`. -/
def stripCr (l : List Char) : List Char := if l.getLast? = some '\r' then l.dropLast else l

/-- `str::lines()`, `/repo/src/loader.rs:40`: split at `'\n'`; a trailing `'\r'` is removed from every line
that was terminated by `'\n'`; an empty piece after the last `'\n'` is not a line. -/
def linesOf (s : List Char) : List (List Char) :=
  let ls := splitNl s
  ls.dropLast.map stripCr ++ (if ls.getLast? = some [] then [] else ls.getLast?.toList)

/-- `str::split_whitespace()`, `/repo/src/loader.rs:78`. -/
def tokens (ws : Char → Bool) : List Char → List (List Char)
  | [] => []
  | c :: cs =>
    if ws c then tokens ws cs
    else
      match cs with
      | [] => [[c]]
      | d :: _ =>
        if ws d then [c] :: tokens ws cs
        else
          match tokens ws cs with
          | [] => [[c]]
          | t :: ts => (c :: t) :: ts

/-- `parse_point`, `/repo/src/loader.rs:74-85`. -/
def parsePoint (lib : Lib) (line : List Char) : Except Err (Option Point) :=
  if line = [] then .ok none
  else do
    let ts := tokens lib.ws line
    let x ← unwrap ts[0]? "no x token"
    let y ← unwrap ts[1]? "no y token"
    let x ← unwrap (lib.parse x) "x is not a float"
    let y ← unwrap (lib.parse y) "y is not a float"
    pure (some ⟨x, y⟩)

/-- `holes.last_mut().unwrap().push(point)`, `/repo/src/loader.rs:57-58`. -/
def pushLast (hs : List (List Point)) (p : Point) : Except Err (List (List Point)) :=
  match hs.getLast? with
  | none => .error (.panic "holes.last_mut unwrap")
  | some h => .ok (hs.dropLast ++ [h ++ [p]])

/-- The body of the `for line in value.lines()` loop, `/repo/src/loader.rs:41-64`. -/
def step (lib : Lib) (a : Acc) (line : List Char) : Except Err Acc :=
  if line = "HOLE".toList then .ok { a with state := .hole, holes := a.holes ++ [[]] }
  else if line = "STEINER".toList then .ok { a with state := .steiner }
  else do
    match ← parsePoint lib line with
    | none => pure a
    | some p =>
      match a.state with
      | .polygon => pure { a with polygon := a.polygon ++ [p] }
      | .hole => do
        let hs ← pushLast a.holes p
        pure { a with holes := hs }
      | .steiner => pure { a with steiner := a.steiner ++ [p] }

/-- The whole loop. -/
def steps (lib : Lib) : Acc → List (List Char) → Except Err Acc
  | a, [] => pure a
  | a, l :: ls => do
    let a ← step lib a l
    steps lib a ls

/-- `PlainFileLoader::load`, `/repo/src/loader.rs:30-71`, on the content of the file. -/
def load (lib : Lib) (content : List Char) : Except Err (Builder Unit) := do
  let a ← steps lib Acc.init (linesOf content)
  let b ← Builder.new (Source.ofPoints a.polygon)
  let b ← b.addHoles (a.holes.map Source.ofPoints)
  pure (b.addSteinerPoints (Source.ofPoints a.steiner))

end Loader
end P2T
