import Verif.Spec.Nonogram

/-! Solving a nonogram line by line, with everything that a single line tells. -/
namespace Nonogram.Spec

/-- The line has a completion, and for every unknown square it has two that differ in that square: looking at this line
alone, there is nothing left to conclude. -/
def ClosedLine (line : List Square) (rule : List Nat) : Prop :=
  (∃ xs, Completes line rule xs) ∧ ∀ (i : Nat), line[i]? = some .Blank →
    ∃ xs ys, Completes line rule xs ∧ Completes line rule ys ∧ xs[i]? ≠ ys[i]?

/-- A grid in which no row and no column, looked at alone, tells anything more. -/
def Closed (col row : List (List Nat)) (g : List Square) : Prop :=
  g.length = col.length * row.length ∧
  (∀ (x : Nat) rule, col[x]? = some rule → ClosedLine (columnSq col.length row.length g x) rule) ∧
  (∀ (y : Nat) rule, row[y]? = some rule → ClosedLine (rowSq col.length g y) rule)

/-- The squares of a finished picture. -/
def squares (b : List Bool) : List Square := b.map fun c => if c = true then .Filled else .Blocked

end Nonogram.Spec
