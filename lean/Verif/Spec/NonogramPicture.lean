import Verif.Spec.Nonogram

/-!
Pictures and the rules that describe them; squares of a line that a rule fixes without any known square.
-/
namespace Nonogram.Spec

/-- The usual way to write the blocks of a line: `0` for a line without blocks. -/
def usual (blocks : List Nat) : List Nat := if blocks = [] then [0] else blocks

/-- The rules of the columns of a picture of width `w` and height `h`, in the usual notation. -/
def colRules (w h : Nat) (pic : List Bool) : List (List Nat) := (List.range w).map fun x => usual (runs (column w h pic x))
/-- The rules of its rows. -/
def rowRules (w h : Nat) (pic : List Bool) : List (List Nat) := (List.range h).map fun y => usual (runs (rowOf w pic y))

/-- No column and no row of the picture is empty. -/
def NoEmptyLine (w h : Nat) (pic : List Bool) : Prop :=
  (∀ x < w, ∃ y < h, cell w pic x y = true) ∧ ∀ y < h, ∃ x < w, cell w pic x y = true

/-- The leftmost position of block `k`: the blocks before it, each with a gap. -/
def offset (rule : List Nat) (k : Nat) : Nat := ((rule.take k).map (· + 1)).sum

/-- Position `i` of a line of length `n` belongs to block `k` both if all blocks are pushed to the left and if all are
pushed to the right. -/
def Overlap (n : Nat) (rule : List Nat) (k i : Nat) : Prop :=
  ∃ a, rule[k]? = some a ∧ offset rule k + (n - minLength rule) ≤ i ∧ i < offset rule k + a

/-- There are no two lines of length `n` that satisfy the rule. -/
def OneWay (n : Nat) (rule : List Nat) : Prop :=
  ∀ xs ys : List Bool, xs.length = n → ys.length = n → Follows rule xs → Follows rule ys → xs = ys

example : colRules 3 2 [true, true, false, true, false, false] = [[2], [1], [0]] := by decide
example : Overlap 10 [3, 4] 1 6 := ⟨4, rfl, by decide, by decide⟩

end Nonogram.Spec
