import Verif.Spec.Sudoku

/-! Puzzles with fewer clues. -/
namespace Sudoku.Spec

/-- `q` has all the clues of `p` (and possibly more). -/
def Fewer (p q : List UInt8) : Prop :=
  p.length = q.length ∧ ∀ (i : Nat) (v : UInt8), p[i]? = some v → v ≠ 0 → q[i]? = some v

/-- Row `i` is empty. -/
def EmptyRow (p : List UInt8) (i : Nat) : Prop := ∀ j < 9, p[9 * i + j]? = some 0

/-- Column `j` is empty. -/
def EmptyCol (p : List UInt8) (j : Nat) : Prop := ∀ i < 9, p[9 * i + j]? = some 0

end Sudoku.Spec
