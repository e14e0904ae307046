import Verif.Proofs.Builds
import Verif.Props.MazeLimit
import Verif.Props.MazeFar
import Verif.Props.MazePrintAll
import Verif.Props.Sudoku
import Verif.Props.NonogramZero
import Verif.Props.NonogramMany
import Verif.Props.NonogramPrintAll

/-! Property theorems on the two build modes (C113). The first argument of the models says whether overflow is checked
(`true`, debug build) or wraps around (`false`, release build). -/

namespace Maze.Props
open Maze

/-- C113. `create_maze`, for all `usize` dimensions and all draws: the build modes agree, even on products that overflow. -/
theorem C113_create_maze (rnd : Nat → Nat) {w h : Nat} (hw : w < 2 ^ 64) (hh : h < 2 ^ 64) (alg : MazeAlgorithm) :
    createMaze true rnd w h alg = createMaze false rnd w h alg := by
  rcases createMaze_tighter rnd w h alg with hp | he
  · rw [hp]
    have hn : ¬ (1 ≤ w ∧ 1 ≤ h ∧ w * h * 24 < 2 ^ 63) := by
      intro hn
      obtain ⟨r, hr⟩ := (C81_returns_iff true rnd hw hh alg).1.2 hn
      rw [hp] at hr
      cases hr
    exact ((C81_returns_iff false rnd hw hh alg).2 hn).symm
  · exact he

example (rnd : Nat → Nat) : createMaze true rnd 30 20 .RecursiveBacktrack = createMaze false rnd 30 20 .RecursiveBacktrack :=
  C113_create_maze rnd (by decide) (by decide) _

/-- C113. `print_maze`: the debug build panics or the two builds have the same outcome. -/
theorem C113_print_maze (w h : Nat) (grid : List MazeNode) :
    printMaze true w h grid = .panic ∨ printMaze true w h grid = printMaze false w h grid := printMaze_tighter w h grid

/-- C113. The same for `print_maze_solution`. -/
theorem C113_print_maze_solution (img : Img) (route : List MazeDirection) :
    printMazeSolution true img route = .panic ∨ printMazeSolution true img route = printMazeSolution false img route :=
  printMazeSolution_tighter img route

/-- Both alternatives occur, and the first with a different outcome of the release build. -/
example {g : List MazeNode} (hg : g = List.replicate 429496730 ⟨false, false⟩) :
    printMaze true 429496730 1 g ≠ printMaze false 429496730 1 g := by
  obtain ⟨⟨img, h1, _⟩, h2⟩ := C105_small_picture hg
  rw [h1, h2]
  exact fun h => by cases h

example : ∃ img, printMaze true 1 1 [⟨true, false⟩] = .ok (.ok img) ∧ printMaze false 1 1 [⟨true, false⟩] = .ok (.ok img) := by
  obtain ⟨img, h, _⟩ := (C105_debug (w := 1) (h := 1) (g := [⟨true, false⟩]) rfl).1 (by omega)
  rcases C113_print_maze 1 1 [⟨true, false⟩] with hp | he
  · rw [hp] at h; cases h
  · exact ⟨img, h, he ▸ h⟩

end Maze.Props

namespace Sudoku.Props
open Sudoku

/-- C113. `print_sudoku`: the build modes agree on all puzzles. -/
theorem C113_print_sudoku (text : TextFn) (p : List UInt8) : printSudoku true text p = printSudoku false text p := by
  rcases printSudoku_tighter text p with hp | he
  · by_cases h : p.length = 81
    · obtain ⟨_, img, _, e, _⟩ := C12_print true text p h
      rw [hp] at e
      cases e
    · have h' : p.length ≠ gridSize * gridSize := h
      unfold printSudoku
      rw [if_pos h', if_pos h']
  · exact he

end Sudoku.Props

namespace Nonogram.Props
open Nonogram Nonogram.Spec

/-- C113. `parse_nonogram_rules`. -/
theorem C113_parse (text : List Char) (bound : Nat) :
    parseNonogramRules true text bound = .panic ∨ parseNonogramRules true text bound = parseNonogramRules false text bound :=
  parseAll_tighter bound _

/-- C113. `solve_nonogram`. -/
theorem C113_solve (col row : List (List Nat)) :
    solveNonogram true col row = .panic ∨ solveNonogram true col row = solveNonogram false col row :=
  solveNonogram_tighter col row

/-- C113. On puzzles with at least one row, sizes within the limits, the build modes agree. -/
theorem C113_solve_same (col row : List (List Nat)) (hs : Sized col row) :
    solveNonogram true col row = solveNonogram false col row := by
  rcases solveNonogram_tighter col row with hp | he
  · rw [hp, (C112_panics false col row hs).2 ((C112_panics true col row hs).1 hp)]
  · exact he

example : solveNonogram true [[2], [1]] [[2], [0, 1]] = solveNonogram false [[2], [1]] [[2], [0, 1]] :=
  C113_solve_same _ _ (by refine ⟨?_, ?_, ?_, ?_, ?_⟩ <;> first | decide | (unfold Spec.Small; decide))

/-- C113. `print_nonogram`. -/
theorem C113_print (text : TextFn) (width height : Nat) (col row : List (List Nat)) :
    printNonogram true text width height col row = .panic ∨
    printNonogram true text width height col row = printNonogram false text width height col row :=
  printNonogram_tighter text width height col row

/-- C113. `print_nonogram_solution`. -/
theorem C113_print_solution (width height : Nat) (image : Img) (grid : List Bool) :
    printNonogramSolution true width height image grid = .panic ∨
    printNonogramSolution true width height image grid = printNonogramSolution false width height image grid :=
  printNonogramSolution_tighter width height image grid

/-- Both alternatives occur, and the first with a different outcome of the release build. -/
example : parseNonogramRules true "18446744073709551615,1".toList 5 ≠ parseNonogramRules false "18446744073709551615,1".toList 5 ∧
    parseNonogramRules true "1,2;3".toList 5 = parseNonogramRules false "1,2;3".toList 5 := by decide

example (image : Img) : printNonogramSolution true 429496730 1 image [] ≠ printNonogramSolution false 429496730 1 image [] := by
  rw [(C108_errors 429496730 1 image []).1 (by decide)]
  have h : printNonogramSolution false 429496730 1 image [] = .ok (.error .InvalidDimensions) := by
    unfold printNonogramSolution ruleSide
    simp only [mulW, Bool.false_eq_true, if_false, List.length_nil]
    rfl
  rw [h]
  exact fun h => by cases h

example (text : TextFn) (l : List (List Nat)) (hl : l.length = 2 ^ 30) :
    printNonogram true text l.length l.length l l ≠ printNonogram false text l.length l.length l l := by
  obtain ⟨⟨img, h1, _⟩, h2⟩ := C111_empty text l l hl hl
  rw [h1, h2]
  exact fun h => by cases h

example : Sized [[2], [1]] [[2], [1]] := by
  refine ⟨?_, ?_, ?_, ?_, ?_⟩ <;> first | decide | (unfold Spec.Small; decide)

end Nonogram.Props
