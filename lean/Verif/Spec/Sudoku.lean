/-! Specification of sudoku. Grids are lists of 81 bytes, row by row. Nothing here mentions the solver. -/
namespace Sudoku.Spec

/-- The digits 1 to 9. -/
def digits : List UInt8 := [1, 2, 3, 4, 5, 6, 7, 8, 9]

/-- Entries of row `i` (`none` for a missing entry). -/
def row (g : List UInt8) (i : Nat) : List (Option UInt8) := (List.range 9).map fun j => g[9 * i + j]?
/-- Entries of column `j`. -/
def col (g : List UInt8) (j : Nat) : List (Option UInt8) := (List.range 9).map fun i => g[9 * i + j]?
/-- Entries of the 3x3 box in box row `a` and box column `b`. -/
def box (g : List UInt8) (a b : Nat) : List (Option UInt8) :=
  (List.range 9).map fun k => g[9 * (3 * a + k / 3) + (3 * b + k % 3)]?

/-- A finished sudoku: 81 entries; every row, column and box holds each digit exactly once. -/
structure Valid (g : List UInt8) : Prop where
  size : g.length = 81
  rows : ∀ i < 9, (row g i).Perm (digits.map some)
  cols : ∀ j < 9, (col g j).Perm (digits.map some)
  boxes : ∀ a < 3, ∀ b < 3, (box g a b).Perm (digits.map some)

/-- `g` is a finished sudoku that agrees with the non-zero entries of `p`. -/
def Completes (p g : List UInt8) : Prop :=
  Valid g ∧ ∀ (i : Nat) (v : UInt8), p[i]? = some v → v ≠ 0 → g[i]? = some v

/-- A clue: cell (0 to 80) and digit (1 to 9). -/
structure Clue where
  cell : Nat
  digit : Nat
  deriving DecidableEq, Repr

/-- What the solver makes of the entry `v` at index `i`: nothing for 0; the clue "cell `i` holds `v`" for
1 to 9; for larger values the clue whose number `9 * i + v - 1` it happens to be, which belongs to another
cell; nothing again when there is no such clue. -/
def clue (v : UInt8) (i : Nat) : Option Clue :=
  if v = 0 then none
  else if v.toNat ≤ 9 then some ⟨i, v.toNat⟩
  else if 9 * i + v.toNat - 1 < 729 then some ⟨(9 * i + v.toNat - 1) / 9, (9 * i + v.toNat - 1) % 9 + 1⟩
  else none

/-- The clues of a puzzle, in order. -/
def clues (p : List UInt8) : List Clue := p.zipIdx.filterMap fun e => clue e.1 e.2

def sameRow (x y : Clue) : Prop := x.cell / 9 = y.cell / 9
def sameCol (x y : Clue) : Prop := x.cell % 9 = y.cell % 9
def sameBox (x y : Clue) : Prop := x.cell / 27 = y.cell / 27 ∧ x.cell % 9 / 3 = y.cell % 9 / 3

instance (x y : Clue) : Decidable (sameRow x y) := inferInstanceAs (Decidable (_ = _))
instance (x y : Clue) : Decidable (sameCol x y) := inferInstanceAs (Decidable (_ = _))
instance (x y : Clue) : Decidable (sameBox x y) := inferInstanceAs (Decidable (_ ∧ _))

/-- Two clues exclude each other (this includes a clue and itself): same cell, or same digit in one row,
column or box. -/
def clash (x y : Clue) : Bool :=
  x.cell = y.cell ∨ (x.digit = y.digit ∧ (sameRow x y ∨ sameCol x y ∨ sameBox x y))

/-- `g` satisfies the clues `cs`. -/
def Meets (g : List UInt8) (cs : List Clue) : Prop := ∀ c ∈ cs, g[c.cell]? = some (UInt8.ofNat c.digit)

/-- What becomes of a puzzle with given clues. -/
inductive Verdict
  /-- the clues do not exclude each other: the search runs -/
  | search
  /-- `Err(NoSolution)` before the search -/
  | reject
  /-- a freed node is dereferenced: undefined behaviour -/
  | dangling
  deriving DecidableEq, Repr

/-- The clues are taken in order until one clashes with an earlier one; only the *earliest* clue it clashes
with matters, and whether the two are in one box with the same digit. -/
def verdict (seen : List Clue) : List Clue → Verdict
  | [] => .search
  | x :: rest =>
    match seen.find? (clash x) with
    | none => verdict (seen ++ [x]) rest
    | some a => if x.digit = a.digit ∧ sameBox x a then .reject else .dangling

end Sudoku.Spec

namespace Sudoku.Spec

/-- Cells `i` and `j` are in one box. -/
def boxed (i j : Nat) : Prop := i / 27 = j / 27 ∧ i % 9 / 3 = j % 9 / 3
/-- Cells `i` and `j` are in one row, column or box. -/
def linked (i j : Nat) : Prop := i / 9 = j / 9 ∨ i % 9 = j % 9 ∨ boxed i j

/-- The puzzle holds the same non-zero digit at `i` and at `j`, which are in one row, column or box. -/
def Twin (p : List UInt8) (i j : Nat) : Prop :=
  ∃ d : UInt8, d ≠ 0 ∧ p[i]? = some d ∧ p[j]? = some d ∧ linked i j

end Sudoku.Spec

/-! ### Solving by hand

What somebody solving a sudoku with pencil marks does: look at all the *questions* still open (what goes into a
cell, and where a digit goes in a row, column or box), take the first one with the fewest possible answers and
try its answers in order. -/
namespace Sudoku.Spec

/-- The possible answers to each of the 324 questions on an empty grid: the digit of each cell; for each row,
each column and each box the place of each digit. -/
def questions : List (List Clue) :=
  ((List.range 81).map fun c => (List.range 9).map fun d => ⟨c, d + 1⟩) ++
  ((List.range 9).flatMap fun i => (List.range 9).map fun d => (List.range 9).map fun j => ⟨9 * i + j, d + 1⟩) ++
  ((List.range 9).flatMap fun j => (List.range 9).map fun d => (List.range 9).map fun i => ⟨9 * i + j, d + 1⟩) ++
  ((List.range 3).flatMap fun a => (List.range 3).flatMap fun b => (List.range 9).map fun d =>
    (List.range 9).map fun k => ⟨9 * (3 * a + k / 3) + (3 * b + k % 3), d + 1⟩)

/-- The questions left open by the entries `A`, each with the answers that clash with none of the entries. -/
def openQuestions (A : List Clue) : List (List Clue) :=
  (questions.filter fun q => A.all fun a => decide (a ∉ q)).map fun q => q.filter fun x => A.all fun a => !clash x a

/-- The first of the shortest lists. -/
def shortest : List (List Clue) → Option (List Clue)
  | [] => none
  | q :: rest => match shortest rest with
    | none => some q
    | some q' => if q'.length < q.length then some q' else some q

/-- Fill in at most `n` more entries after `A`; the first way that leaves no question open. -/
def fill : Nat → List Clue → Option (List Clue)
  | 0, A => if openQuestions A = [] then some A else none
  | n + 1, A => match shortest (openQuestions A) with
    | none => some A
    | some q => q.findSome? fun x => fill n (A ++ [x])

/-- The grid `g` with exactly the entries `A`. -/
def Shows (g : List UInt8) (A : List Clue) : Prop :=
  g.length = 81 ∧ (∀ x ∈ A, g[x.cell]? = some (UInt8.ofNat x.digit)) ∧ ∀ c < 81, ∃ x ∈ A, x.cell = c

end Sudoku.Spec
