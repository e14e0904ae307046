/-!
# The capacity of a vector that grows

A `Vec` whose elements have between 2 and 1024 bytes: when the place `i` is asked for and the capacity is too small, the capacity is
doubled, raised to `i + 1` where that is more, and never below 4 (`RawVec::grow_amortized`).
-/
namespace Capacity

/-- The capacity after the place `i` was asked for. -/
def grow (c i : Nat) : Nat := if i + 1 ≤ c then c else max (max (2 * c) (i + 1)) 4

/-- The capacity after all the places of a list were asked for, beginning with an empty vector. -/
def after (l : List Nat) : Nat := l.foldl grow 0

end Capacity
