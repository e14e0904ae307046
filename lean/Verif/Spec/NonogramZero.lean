import Verif.Spec.Nonogram

/-! When `solve_nonogram` panics. -/
namespace Nonogram.Spec

/-- `xs` is a line of length `n` that satisfies the rule. -/
def Filling (n : Nat) (rule : List Nat) (xs : List Bool) : Prop := xs.length = n ∧ Follows rule xs

/-- In every line of length `n` that satisfies the rule, square `i` is `b`. -/
def Forced (n : Nat) (rule : List Nat) (i : Nat) (b : Bool) : Prop := ∀ xs, Filling n rule xs → xs[i]? = some b

/-- Row `y` can be filled according to `rule` without contradicting a square that is forced by the rule of its column
alone. -/
def Open (col : List (List Nat)) (h y : Nat) (rule : List Nat) : Prop :=
  ∃ xs, Filling col.length rule xs ∧ ∀ (x : Nat) r b, col[x]? = some r → Forced h r y b → xs[x]? = some b

/-- The first rule with a zero at one of its ends is the rule of column `x` that starts with the zero or fits, and the
columns before it fit; or it is the rule of row `y` that starts with the zero or is open, and all columns fit and the
rows before it are open. -/
def Crashes (col row : List (List Nat)) : Prop :=
  (∃ (x : Nat) (r : List Nat), col[x]? = some r ∧ ¬ Framed r ∧ (r.head? = some 0 ∨ minLength r ≤ row.length) ∧
    ∀ (i : Nat) (s : List Nat), i < x → col[i]? = some s → Framed s ∧ minLength s ≤ row.length) ∨
  ((∀ s ∈ col, Framed s ∧ minLength s ≤ row.length) ∧
    ∃ (y : Nat) (r : List Nat), row[y]? = some r ∧ ¬ Framed r ∧ (r.head? = some 0 ∨ Open col row.length y r) ∧
      ∀ (i : Nat) (s : List Nat), i < y → row[i]? = some s → Framed s ∧ Open col row.length i s)

end Nonogram.Spec
