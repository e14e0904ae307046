import Verif.Model.Sudoku
import Verif.Model.Maze
import Verif.Model.Nonogram

/-!
The texts of the errors: `Display`, derived by `thiserror` from the `#[error("..")]` attributes. `{0}` is the
`Display` form of the payload: a `char` or a `str` is written as it is, a `usize` in decimal digits.
-/

/-- dancing_links/mod.rs:9-16 `DancingLinksError`. -/
def DancingLinks.DLError.text : DancingLinks.DLError → List Char
  | .indexError => "Index out of bounds".toList
  | .invalidRow => "Row cannot be added to solution".toList
  | .noSolution => "No solution exists".toList

/-- sudoku/mod.rs:39-46 `SudokuError`. -/
def Sudoku.SudokuError.text : Sudoku.SudokuError → List Char
  | .invalidInteger c => "invalid integer `".toList ++ [c] ++ "`, must be integer 1-9 (use `0` for an empty space)".toList
  | .invalidSize n => "sudoku must by 9 x 9, got ".toList ++ Nat.toDigits 10 n ++ " entries".toList
  | .noSolution => "sudoku has no solution".toList

/-- maze/mod.rs:16-21 `MazeError`. -/
def Maze.MazeError.text : Maze.MazeError → List Char
  | .InvalidDimensions => "maze dimensions are invalid".toList
  | .InvalidSolution => "maze solution is invalid".toList

/-- nonogram/mod.rs:21-32 `NonogramError`. -/
def Nonogram.NonogramError.text : Nonogram.NonogramError → List Char
  | .EmptyPuzzle => "puzzle cannot be empty".toList
  | .InvalidRule field => "invalid rule `".toList ++ field ++ "`".toList
  | .InvalidRuleDimension => "invalid rule dimension".toList
  | .NoSolution => "puzzle has no solution".toList
  | .InvalidDimensions => "invalid dimensions".toList
