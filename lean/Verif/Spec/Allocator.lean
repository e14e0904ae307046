import Verif.Model.Allocator

/-! What is assumed of an allocator, and uses of a `DancingMatrix`. -/
namespace DancingLinks.Spec
open DancingLinks

/-- The first `n` calls of the allocator return different addresses, none of them null. -/
def Distinct (al : Nat → Nat) (n : Nat) : Prop :=
  ∀ i, 1 ≤ i → i ≤ n → al i ≠ 0 ∧ ∀ j, 1 ≤ j → j ≤ n → al i = al j → i = j

/-- The memory before the first call: anything, but null is not an allocated address. -/
def Before (h : Heap) : Prop := h.next = 1 ∧ h.mem 0 = .unalloc

/-- The number of nodes of the matrix: the root, one per constraint, one per entry. -/
def nodes (M : List (List Nat)) : Nat := 1 + M.length + M.flatten.length

/-- Calls of `add_solution`, one after the other, whatever they return. -/
def addRows (m : Matrix) (h : Heap) : List Nat → Prog (List (Except DLError Unit) × Matrix × Heap)
  | [] => .ok ([], m, h)
  | r :: rs => do
    let (res, m, h) ← addSolution m h r
    let (log, m, h) ← addRows m h rs
    return (res :: log, m, h)

/-- A matrix is made, `add_solution` is called for some rows, then `solve`. The result consists of the answers of
`add_solution`, the answer of `solve` and the memory. -/
def session (start : Prog (Matrix × Heap)) (rows : List Nat) :
    Prog ((List (Except DLError Unit) × Except DLError (List Nat)) × Heap) := do
  let (m, h) ← start
  let (log, m, h) ← addRows m h rows
  let (res, h) ← m.solve h
  return ((log, res), h)

end DancingLinks.Spec
