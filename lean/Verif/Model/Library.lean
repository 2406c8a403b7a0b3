import Verif.Model.Front

/-!
# The comparator of the sweep order and the binary search of the standard library

The model of the crate uses a stable insertion sort and the contract of `binary_search_by_key`.  Here the comparator is modelled as it is written, and the
binary search as the standard library implements it, in order to prove that these choices do not matter (C51).
-/

namespace P2T

/-- The comparator given to `sort_by`, `/repo/src/points.rs:142-157`. -/
def sweepCmp (p1 p2 : Point) : Ordering :=
  if p1.y < p2.y then .lt
  else if p1.y = p2.y then
    if p1.x < p2.x then .lt else .gt
  else .gt

/-- The comparison at index `i`: what `|p| f(p).cmp(key)` answers for the element at `i` (`/repo/src/advancing_front/vec_backed.rs:294`, `:330`, `:350`, `:362`).
Not asked out of range. -/
def cmpAt (nodes : List Node) (key : Point) (i : Nat) : Ordering :=
  match nodes[i]? with
  | some e => keyCmp e.key key
  | none => .gt

/-- The loop of `[T]::binary_search_by` of the Rust standard library (1.82 and later): halves `size` until it is at most one, returns `base`. -/
def halving (cmp : Nat → Ordering) (base size : Nat) : Nat :=
  if 1 < size then
    let half := size / 2
    let mid := base + half
    halving cmp (if cmp mid = .gt then base else mid) (size - half)
  else base
termination_by size
decreasing_by omega

/-- `[T]::binary_search_by_key` of the Rust standard library (1.82 and later). -/
def stdSearch (nodes : List Node) (key : Point) : Except Nat Nat :=
  if nodes.length = 0 then .error 0
  else
    let base := halving (cmpAt nodes key) 0 nodes.length
    match cmpAt nodes key base with
    | .eq => .ok base
    | .lt => .error (base + 1)
    | .gt => .error base

/-- The loop of `[T]::binary_search_by` of older versions of the standard library (1.52 to 1.81): leaves as soon as it hits. -/
def leftRight (cmp : Nat → Ordering) (left right : Nat) : Except Nat Nat :=
  if left < right then
    let mid := left + (right - left) / 2
    match cmp mid with
    | .eq => .ok mid
    | .lt => leftRight cmp (mid + 1) right
    | .gt => leftRight cmp left mid
  else .error left
termination_by right - left
decreasing_by all_goals omega

/-- `[T]::binary_search_by_key` of older versions of the standard library (1.52 to 1.81). -/
def stdSearchOld (nodes : List Node) (key : Point) : Except Nat Nat := leftRight (cmpAt nodes key) 0 nodes.length

end P2T
