import Verif.Model.Nonogram
import Mathlib.Data.List.Forall2

/-!
What a nonogram line, a completion and a solution are, written without reference to the algorithms. Only the
type of squares is shared with the model.
-/
namespace Nonogram.Spec

/-- The lengths of the maximal blocks of filled squares, from left to right: a filled square extends the block
that starts right after it, or is a block of its own. -/
def runs : List Bool → List Nat
  | [] => []
  | false :: xs => runs xs
  | true :: xs =>
    match xs, runs xs with
    | true :: _, n :: ns => (n + 1) :: ns
    | _, ns => 1 :: ns

/-- The positions at which the blocks start; `prev` is the square before the line, `pos` the current position. -/
def startsFrom (prev : Bool) (pos : Nat) : List Bool → List Nat
  | [] => []
  | b :: xs => if b = true ∧ prev = false then pos :: startsFrom b (pos + 1) xs else startsFrom b (pos + 1) xs

/-- The positions at which the blocks of a line start. -/
def starts (xs : List Bool) : List Nat := startsFrom false 0 xs

/-- A square that may still become `b`. -/
def Compat (q : Square) (b : Bool) : Prop := (q = .Filled → b = true) ∧ (q = .Blocked → b = false)

/-- `xs` is a completion of the line: it agrees with every known square. -/
def Agrees (line : List Square) (xs : List Bool) : Prop :=
  xs.length = line.length ∧ ∀ (i : Nat) q b, line[i]? = some q → xs[i]? = some b → Compat q b

/-- `xs` satisfies the rule: its blocks, from left to right, have the lengths given by the rule, with at least one
empty square between two neighbours. A zero is an empty block, which needs its gaps like any other block. For
rules without zeros this says `runs xs = rule` (`Nonogram.Props.follows_iff_runs`). -/
def Follows : List Nat → List Bool → Prop
  | [], xs => ∃ g, xs = List.replicate g false
  | [a], xs => ∃ g h, xs = List.replicate g false ++ (List.replicate a true ++ List.replicate h false)
  | a :: b :: r, xs => ∃ g ys, xs = List.replicate g false ++ (List.replicate a true ++ false :: ys) ∧ Follows (b :: r) ys

/-- `xs` is a completion of the line that satisfies the rule. -/
def Completes (line : List Square) (rule : List Nat) (xs : List Bool) : Prop :=
  Agrees line xs ∧ Follows rule xs

/-- All numbers of a rule are positive. -/
def Positive (rule : List Nat) : Prop := ∀ a ∈ rule, 0 < a

/-- The rule neither starts nor ends with a zero. -/
def Framed (rule : List Nat) : Prop := rule.head? ≠ some 0 ∧ rule.getLast? ≠ some 0

instance (rule : List Nat) : Decidable (Framed rule) := by unfold Framed; infer_instance

/-- The square in column `x` and row `y` of a grid of width `w`, stored row by row. -/
def cell (w : Nat) (g : List Bool) (x y : Nat) : Bool := g.getD (w * y + x) false

/-- Column `x` of a grid, from top to bottom. -/
def column (w h : Nat) (g : List Bool) (x : Nat) : List Bool := (List.range h).map fun y => cell w g x y
/-- Row `y` of a grid, from left to right. -/
def rowOf (w : Nat) (g : List Bool) (y : Nat) : List Bool := (List.range w).map fun x => cell w g x y

/-- `g` is a solution of the puzzle. -/
def Solves (col row : List (List Nat)) (g : List Bool) : Prop :=
  g.length = col.length * row.length ∧
  (∀ (x : Nat) rule, col[x]? = some rule → Follows rule (column col.length row.length g x)) ∧
  (∀ (y : Nat) rule, row[y]? = some rule → Follows rule (rowOf col.length g y))

/-! ### Sizes -/

/-- The allocation limit for a rule: `find_left` allocates a few words for every state of the rule. -/
def Small (rule : List Nat) : Prop := ((rule.map (· + 1)).sum + 3) * 24 < 2 ^ 63

/-- The number of blocks that a rule asks for. -/
def blockCount (rule : List Nat) : Nat := (rule.filter fun a => decide (0 < a)).length

/-- The lengths of lines for which no vector reaches its limit of `2^63 - 1` bytes: `right_left` collects 8 bytes for every
square, `find_left` pushes 8 bytes for every square (doubling the capacity), and a vector of that many machines takes 48 bytes
for each. The model has no limit for these vectors. -/
abbrev LineFits (n : Nat) : Prop := n < 2 ^ 57

/-- Lines whose block counters also stay within `i32`: shorter than `2^31` squares, or with fewer than `2^30` blocks. -/
def CountsFit (n : Nat) (rule : List Nat) : Prop := LineFits n ∧ (n < 2 ^ 31 ∨ rule.length < 2 ^ 30)

instance (n : Nat) (rule : List Nat) : Decidable (CountsFit n rule) := inferInstanceAs (Decidable (_ ∧ _))

/-- The sizes for which nothing overflows: at least one row, allocations below the limit, line counters within
`i32`. -/
structure Sized (col row : List (List Nat)) : Prop where
  small : ∀ rule ∈ col ++ row, Small rule
  rows : 1 ≤ row.length
  size : col.length * row.length < 2 ^ 63
  width : LineFits col.length ∧ ∀ rule ∈ row, CountsFit col.length rule
  height : LineFits row.length ∧ ∀ rule ∈ col, CountsFit row.length rule

/-- Lines shorter than `2^31` squares are always within the limits. -/
theorem short_side {n : Nat} {rules : List (List Nat)} (h : n < 2 ^ 31) :
    LineFits n ∧ ∀ rule ∈ rules, CountsFit n rule :=
  have h' : LineFits n := by unfold LineFits; omega
  ⟨h', fun _ _ => ⟨h', .inl h⟩⟩

/-- The sizes for which nothing overflows if the rules are short enough for their lines. -/
structure Limits (col row : List (List Nat)) : Prop where
  size : col.length * row.length < 2 ^ 63
  width : LineFits col.length ∧ ∀ rule ∈ row, CountsFit col.length rule
  height : LineFits row.length ∧ ∀ rule ∈ col, CountsFit row.length rule

/-- All puzzles with sides below `2^31` are within the limits. -/
theorem short_limits {col row : List (List Nat)} (hw : col.length < 2 ^ 31) (hh : row.length < 2 ^ 31) : Limits col row :=
  ⟨Nat.lt_of_le_of_lt (Nat.mul_le_mul (Nat.le_of_lt hw) (Nat.le_of_lt hh)) (by decide), short_side hw, short_side hh⟩

/-- The assumptions on a puzzle under which nothing panics: the sizes, and no rule starts or ends with a zero. -/
structure Fits (col row : List (List Nat)) : Prop extends Sized col row where
  framed : ∀ rule ∈ col ++ row, Framed rule

/-! ### Settled squares -/

/-- The number of blocks that start at or before position `i`. -/
def blocksUpTo (xs : List Bool) (i : Nat) : Nat := ((starts xs).filter fun s => decide (s ≤ i)).length

/-- Position `i` belongs to the same block, or to the gap between the same two blocks, in all completions. -/
def Settled (line : List Square) (rule : List Nat) (i : Nat) : Prop :=
  ∀ xs ys, Completes line rule xs → Completes line rule ys → xs[i]? = ys[i]? ∧ blocksUpTo xs i = blocksUpTo ys i

/-- Column `x` of a grid of squares. -/
def columnSq (w h : Nat) (g : List Square) (x : Nat) : List Square := (List.range h).map fun y => g.getD (w * y + x) .Blank
/-- Row `y` of a grid of squares. -/
def rowSq (w : Nat) (g : List Square) (y : Nat) : List Square := (List.range w).map fun x => g.getD (w * y + x) .Blank

/-- A line that has a completion, and none of whose unknown squares is settled. -/
def StableLine (line : List Square) (rule : List Nat) : Prop :=
  (∃ xs, Completes line rule xs) ∧ ∀ (i : Nat), line[i]? = some .Blank → ¬ Settled line rule i

/-- A grid all of whose lines are stable. -/
def Stable (col row : List (List Nat)) (g : List Square) : Prop :=
  g.length = col.length * row.length ∧
  (∀ (x : Nat) rule, col[x]? = some rule → StableLine (columnSq col.length row.length g x) rule) ∧
  (∀ (y : Nat) rule, row[y]? = some rule → StableLine (rowSq col.length g y) rule)

/-- `g'` agrees with `g` on the squares known in `g`. -/
def Extends (g g' : List Square) : Prop :=
  g'.length = g.length ∧ ∀ (p : Nat) q, g[p]? = some q → q ≠ .Blank → g'[p]? = some q

/-! ### Texts of rules -/

/-- `cs` is a `usize` literal with value `n`: decimal digits, at least one, optionally preceded by `+`. -/
def Usize (cs : List Char) (n : Nat) : Prop :=
  ∃ ds, (cs = ds ∨ cs = '+' :: ds) ∧ ds ≠ [] ∧ (∀ c ∈ ds, c.isDigit = true) ∧ Nat.ofDigitChars 10 ds 0 = n ∧ n < 2 ^ 64

/-- `ps` are the pieces of `s` between the occurrences of `sep`. -/
def Pieces (sep : Char) (s : List Char) (ps : List (List Char)) : Prop :=
  ps ≠ [] ∧ (∀ p ∈ ps, sep ∉ p) ∧ [sep].intercalate ps = s

/-- The numbers and the gaps between them. -/
def minLength (vs : List Nat) : Nat := vs.sum + (vs.length - 1)

/-- The numbers of a rule, written with commas. -/
def Numbers (text : List Char) (vs : List Nat) : Prop := ∃ fields, Pieces ',' text fields ∧ List.Forall₂ Usize fields vs

/-- `f` is the first field of the rule that is not a number. -/
def BadField (text f : List Char) : Prop :=
  ∃ pre post, Pieces ',' text (pre ++ f :: post) ∧ (∀ g ∈ pre, ∃ n, Usize g n) ∧ ¬ ∃ n, Usize f n

/-- What parsing a list of rules should yield. `size` measures the numbers of a rule. -/
def Parses (size : List Nat → Nat) (text : List Char) (bound : Nat) : Except NonogramError (List (List Nat)) → Prop
  | .ok rules => ∃ parts, Pieces ';' text parts ∧
      List.Forall₂ (fun part vs => Numbers part vs ∧ size vs ≤ bound) parts rules
  | .error e => ∃ pre part post, Pieces ';' text (pre ++ part :: post) ∧
      (∀ p ∈ pre, ∃ vs, Numbers p vs ∧ size vs ≤ bound) ∧
      ((∃ f, BadField part f ∧ e = .InvalidRule f) ∨
       (∃ vs, Numbers part vs ∧ bound < size vs ∧ e = .InvalidRuleDimension))

/-- Some sum computed while the rule is read does not fit into 64 bits. -/
def Overflows (text : List Char) : Prop :=
  ∃ pre post vs, Pieces ',' text (pre ++ post) ∧ List.Forall₂ Usize pre vs ∧
    (2 ^ 64 ≤ vs.sum ∨ (post = [] ∧ 2 ^ 64 ≤ minLength vs))

/-- A rule, written down. -/
def writeRule (vs : List Nat) : List Char := [','].intercalate (vs.map (Nat.toDigits 10))
/-- A list of rules, written down. -/
def writeRules (rules : List (List Nat)) : List Char := [';'].intercalate (rules.map writeRule)

example : writeRules [[2], [1, 13]] = "2;1,13".toList := by decide
example : runs [true, true, false, false, true, false, true, true, true] = [2, 1, 3] := by decide
example : starts [true, true, false, false, true, false, true, true, true] = [0, 4, 6] := by decide
example : runs [false, false] = [] := by decide

end Nonogram.Spec
