import Verif.Model.Loader
import Verif.Spec.Input

/-!
# Specification: the plain text format

A file is a sequence of lines.  A line is a keyword, blank, or shows a point.  The points before the first
keyword are the polygon; `HOLE` starts a new hole; `STEINER` starts a group of Steiner points.
-/

namespace P2T
namespace Loader

/-- `ts` are the words of `s`: maximal runs of non-whitespace. -/
inductive Words (ws : Char → Bool) : List Char → List (List Char) → Prop
  | nil : Words ws [] []
  | sep {c s ts} : ws c = true → Words ws s ts → Words ws (c :: s) ts
  | last {t} : t ≠ [] → (∀ c ∈ t, ws c = false) → Words ws t [t]
  | word {t c s ts} : t ≠ [] → (∀ c ∈ t, ws c = false) → ws c = true → Words ws s ts → Words ws (t ++ c :: s) (t :: ts)

/-- What a line can be. -/
inductive Line where
  | blank
  | hole
  | steiner
  | point (p : Point)

/-- `line` is a well-formed line with the given meaning. -/
inductive LineMeans (lib : Lib) : List Char → Line → Prop
  | blank : LineMeans lib [] .blank
  | hole : LineMeans lib "HOLE".toList .hole
  | steiner : LineMeans lib "STEINER".toList .steiner
  | point {line x y rest px py} : line ≠ "HOLE".toList → line ≠ "STEINER".toList → Words lib.ws line (x :: y :: rest) →
      lib.parse x = some px → lib.parse y = some py → LineMeans lib line (.point ⟨px, py⟩)

/-- The points up to the first keyword, and the groups after each keyword (`true` marks a hole). -/
def groups : List Line → List Point × List (Bool × List Point)
  | [] => ([], [])
  | .blank :: ls => groups ls
  | .point p :: ls => (p :: (groups ls).1, (groups ls).2)
  | .hole :: ls => ([], (true, (groups ls).1) :: (groups ls).2)
  | .steiner :: ls => ([], (false, (groups ls).1) :: (groups ls).2)

def polygonOf (ls : List Line) : List Point := (groups ls).1
def holesOf (ls : List Line) : List (List Point) := ((groups ls).2.filter (·.1)).map (·.2)
def steinerOf (ls : List Line) : List Point := ((groups ls).2.filter (!·.1)).flatMap (·.2)

/-- The builder calls a file with these lines stands for. -/
def builderOf (ls : List Line) : Except Err (Builder Unit) :=
  buildChain (Source.ofPoints (polygonOf ls))
    [.holes ((holesOf ls).map Source.ofPoints), .steinerPoints (Source.ofPoints (steinerOf ls))]

/-- The content `s` consists of the lines `ls`: every line has no line feed in it and is ended by LF or CR LF,
only the last one may be unterminated if it is not empty. -/
inductive Content : List Char → List (List Char) → Prop
  | nil : Content [] []
  | lf {l s ls} : '\n' ∉ l → l.getLast? ≠ some '\r' → Content s ls → Content (l ++ '\n' :: s) (l :: ls)
  | crlf {l s ls} : '\n' ∉ l → Content s ls → Content (l ++ '\r' :: '\n' :: s) (l :: ls)
  | last {l} : l ≠ [] → '\n' ∉ l → Content l [l]

/-- A file writer: a point is `x y`, every line is ended by `eol`. -/
def pointLine (fmt : Rat → List Char) (eol : List Char) (p : Point) : List Char := fmt p.x ++ ' ' :: fmt p.y ++ eol

/-- The documented format: polygon, holes, Steiner points. -/
def writeFile (fmt : Rat → List Char) (eol : List Char) (poly : List Point) (holes : List (List Point))
    (steiner : List Point) : List Char :=
  poly.flatMap (pointLine fmt eol) ++
  holes.flatMap (fun h => "HOLE".toList ++ eol ++ h.flatMap (pointLine fmt eol)) ++
  "STEINER".toList ++ eol ++ steiner.flatMap (pointLine fmt eol)

end Loader
end P2T
