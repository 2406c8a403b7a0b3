import Init.Data.Rat

/-!
# Numbers, points and the geometric predicates

Models `/repo/src/utils.rs`, the `Point` type of `/repo/src/shape.rs` and the key order of
`/repo/src/advancing_front/vec_backed.rs`.

**Floats.**  A finite IEEE float is a rational number, so a coordinate is a `Rat`.  Comparisons
(`<`, `<=`, `==`) on finite floats are exact.  Every *arithmetic* operation the crate performs itself
is modelled as the exact rational result followed by an arbitrary rounding function `Num.rnd`
(the IEEE rule `fl (a ∘ b) = rnd (a ∘ b)`), which is a parameter of the whole model.  NaN and infinities are
not modelled (what happens on overflow is part of the parameter).  The `robust` crate's `orient2d` / `incircle` are adaptive *exact-sign*
predicates: they are modelled by the exact sign of the determinant (trusted base).
-/

namespace P2T

/-- What the model keeps of the float type `Float` (`/repo/src/lib.rs:17-21`): the rounding function,
`Float::EPSILON`, `Float::MIN`, `Float::MAX` and the value of the literal `0.3`. -/
structure Num where
  rnd : Rat → Rat
  eps : Rat
  lo : Rat
  hi : Rat
  k03 : Rat

/-- Ways a run can fail.  `panic`: a Rust panic (`assert!`, `unwrap`, `expect`, `panic!`, checked
indexing).  `ub`: an `unsafe` unchecked access out of bounds, or two live `&mut` to one element.
`fuel`: the model's recursion bound ran out (the Rust code would still be looping).
`trapped`: a ghost stop that exists only in the model (see `Trap` in `Sweep.lean`); the code itself is
the model with all traps off, which never returns it. -/
inductive Err where
  | panic (msg : String)
  | ub (msg : String)
  | fuel
  | trapped (msg : String)
  deriving DecidableEq, Repr

/-- `/repo/src/shape.rs:32-36`. -/
structure Point where
  x : Rat
  y : Rat
  deriving DecidableEq, Repr

/-- `/repo/src/utils.rs:3-18`. -/
inductive Orientation where
  | cw | ccw | collinear
  deriving DecidableEq, Repr

/-- The orientation determinant whose sign `robust::orient2d` returns (`/repo/src/utils.rs:37-41`):
twice the signed area of the triangle `a b c`. -/
def det2 (a b c : Point) : Rat :=
  (a.x - c.x) * (b.y - c.y) - (a.y - c.y) * (b.x - c.x)

/-- `orient_2d`, `/repo/src/utils.rs:34-50`.  The `debug_assert!` on line 35 is not executed in release
builds and is not modelled. -/
def orient2d (a b c : Point) : Orientation :=
  let val := det2 a b c
  if val > 0 then .ccw else if val < 0 then .cw else .collinear

/-- The in-circle determinant whose sign `robust::incircle` returns (`/repo/src/utils.rs:54-61`). -/
def inCircleDet (a b c d : Point) : Rat :=
  let adx := a.x - d.x
  let ady := a.y - d.y
  let bdx := b.x - d.x
  let bdy := b.y - d.y
  let cdx := c.x - d.x
  let cdy := c.y - d.y
  (adx * adx + ady * ady) * (bdx * cdy - cdx * bdy)
    + (bdx * bdx + bdy * bdy) * (cdx * ady - adx * cdy)
    + (cdx * cdx + cdy * cdy) * (adx * bdy - bdx * ady)

/-- `in_circle`, `/repo/src/utils.rs:54-61`. -/
def inCircle (a b c d : Point) : Bool := decide (inCircleDet a b c d > 0)

/-- The expression `(a.x - b.x) * (d.y - b.y) - (d.x - b.x) * (a.y - b.y)` of
`/repo/src/utils.rs:64` and `:69` (there with `c` for `b`), with every float operation rounded. -/
def scanDet (n : Num) (a b d : Point) : Rat :=
  n.rnd (n.rnd (n.rnd (a.x - b.x) * n.rnd (d.y - b.y)) - n.rnd (n.rnd (d.x - b.x) * n.rnd (a.y - b.y)))

/-- `in_scan_area`, `/repo/src/utils.rs:63-75`. -/
def inScanArea (n : Num) (a b c d : Point) : Bool :=
  if scanDet n a b d ≥ -n.eps then false
  else if scanDet n a c d ≤ n.eps then false
  else true

/-- `/repo/src/utils.rs:77-81`. -/
structure Angle where
  dy : Rat
  dx : Rat
  deriving DecidableEq, Repr

/-- `Angle::new`, `/repo/src/utils.rs:84-95`. -/
def Angle.new (n : Num) (o a b : Point) : Angle :=
  let dax := n.rnd (a.x - o.x)
  let day := n.rnd (a.y - o.y)
  let dbx := n.rnd (b.x - o.x)
  let dby := n.rnd (b.y - o.y)
  { dy := n.rnd (n.rnd (dax * dby) - n.rnd (day * dbx))
    dx := n.rnd (n.rnd (dax * dbx) + n.rnd (day * dby)) }

/-- `Angle::between_0_to_90_degree`, `/repo/src/utils.rs:98-110`. -/
def Angle.between0To90 (a : Angle) : Bool :=
  if a.dx = 0 ∧ a.dy = 0 then true
  else if a.dx > 0 then decide (a.dy > 0)
  else false

/-- `Angle::exceeds_90_degree`, `/repo/src/utils.rs:113-127`. -/
def Angle.exceeds90 (a : Angle) : Bool :=
  if a.dx = 0 ∧ a.dy = 0 then false
  else if a.dx ≥ 0 then false
  else decide (a.dy > 0)

/-- `Angle::is_negative`, `/repo/src/utils.rs:130-138`. -/
def Angle.isNegative (a : Angle) : Bool :=
  if a.dx = 0 ∧ a.dy = 0 then false
  else if a.dx ≥ 0 then decide (a.dy < 0)
  else decide (a.dy < 0)

/-- `f64::partial_cmp` on finite floats. -/
def cmpRat (a b : Rat) : Ordering := if a < b then .lt else if a = b then .eq else .gt

/-- `PointKey::cmp`, `/repo/src/advancing_front/vec_backed.rs:54-69`: by `x`, then by `y`. -/
def keyCmp (a b : Point) : Ordering :=
  match cmpRat a.x b.x with
  | .eq => cmpRat a.y b.y
  | o => o

end P2T
