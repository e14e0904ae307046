import Mathlib.Data.List.Basic

/-!
A family of exact cover problems that have no solution although no constraint looks worse than the others: `n` constraints
of two rows each, independent of each other and of the last three constraints, which contradict each other.
-/
namespace DancingLinks.Spec

/-- The problem with `n` independent choices, rows numbered from `k`. -/
def hard : Nat → Nat → List (List Nat)
  | 0, k => [[k, k + 1], [k + 1, k + 2], [k, k + 2]]
  | n + 1, k => [k, k + 1] :: hard n (k + 2)

example : hard 2 0 = [[0, 1], [2, 3], [4, 5], [5, 6], [4, 6]] := by decide

end DancingLinks.Spec
