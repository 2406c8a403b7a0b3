import Verif.Model.Library

/-!
# Specification: what the standard library promises
-/

namespace P2T

/-- The documented contract of `sort_by` and `sort_unstable_by_key` for a comparator that is a total order: a permutation of the slice in which no element is
greater than a later one. -/
def IsSortOf {α} (cmp : α → α → Ordering) (l r : List α) : Prop := r.Perm l ∧ r.Pairwise fun a b => cmp a b ≠ .gt

/-- The documented contract of `binary_search_by_key` on a sorted slice: `Ok` with the index of a matching element, or, if there is none, `Err` with the index
where one could be inserted. -/
def IsSearchOf (nodes : List Node) (key : Point) : Except Nat Nat → Prop
  | .ok i => ∃ e, nodes[i]? = some e ∧ keyCmp e.key key = .eq
  | .error i => i ≤ nodes.length ∧ (∀ e ∈ nodes.take i, keyCmp e.key key = .lt) ∧ ∀ e ∈ nodes.drop i, keyCmp e.key key = .gt

/-- What `sort_by` demands of a comparator on the elements of a slice (otherwise the order is unspecified, and recent versions of Rust may panic):
swapping the arguments reverses the answer, and the answers are transitive. -/
structure TotalOrderOn {α} (cmp : α → α → Ordering) (l : List α) : Prop where
  swap : ∀ a ∈ l, ∀ b ∈ l, a ≠ b → cmp b a = (cmp a b).swap
  trans : ∀ a ∈ l, ∀ b ∈ l, ∀ c ∈ l, cmp a b = .lt → cmp b c = .lt → cmp a c = .lt
  gt : ∀ a ∈ l, ∀ b ∈ l, ∀ c ∈ l, a ≠ c → cmp a b = .gt → cmp b c = .gt → cmp a c = .gt

end P2T
