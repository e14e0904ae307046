import Verif.Proofs.PrintTarget
import Verif.Props.MazePrintAll
import Verif.Props.NonogramPrintAll
import Verif.Props.NonogramSolutionAll

/-! C135: `print_maze`, `print_nonogram` and `print_nonogram_solution` on targets with a 32-bit or 64-bit `usize`. -/
namespace PrintTarget.Props
open Maze Nonogram Nonogram.Spec

/-- C135: as long as the number of cells is a `usize`, `print_maze` does what it does on a 64-bit target, except that it panics when the
buffer of the picture would exceed `isize::MAX` bytes. -/
theorem C135_maze {ws : Nat} (hws : ws = 4 ∨ ws = 8) (oc : Bool) {w h : Nat} (g : List MazeNode) (hn : w * h < 2 ^ (8 * ws)) :
    printMazeT ws oc w h g =
      if g.length = w * h ∧ 2 ^ (8 * ws - 1) ≤ 3 * ((10 * w + 1) % 2 ^ 32) * ((10 * h + 1) % 2 ^ 32) then .panic
      else printMaze oc w h g :=
  printMazeT_eq hws oc (mulW_ok hn)

/-- C135: for pictures whose sides fit in `u32`, whatever the grid: a picture of `10w+1` by `10h+1` pixels is returned exactly if the grid
has `w * h` cells and the buffer fits, and no other picture is ever returned. -/
theorem C135_maze_ok {ws : Nat} (hws : ws = 4 ∨ ws = 8) (oc : Bool) {w h : Nat} (g : List MazeNode) (h1 : 10 * w + 1 < 2 ^ 32)
    (h2 : 10 * h + 1 < 2 ^ 32) :
    (g.length = w * h ∧ 3 * (10 * w + 1) * (10 * h + 1) < 2 ^ (8 * ws - 1) →
      ∃ img, printMazeT ws oc w h g = .ok (.ok img) ∧ img.width = 10 * w + 1 ∧ img.height = 10 * h + 1) ∧
    (¬ (g.length = w * h ∧ 3 * (10 * w + 1) * (10 * h + 1) < 2 ^ (8 * ws - 1)) →
      printMazeT ws oc w h g = .panic ∨ printMazeT ws oc w h g = .ok (.error .InvalidDimensions)) := by
  have hl63 : 2 ^ (8 * ws - 1) ≤ 2 ^ 63 := Nat.pow_le_pow_right (by omega) (by omega)
  have hl : 2 ^ (8 * ws - 1) ≤ 2 ^ (8 * ws) := Nat.pow_le_pow_right (by omega) (by omega)
  have hle : w * h ≤ 3 * (10 * w + 1) * (10 * h + 1) := Nat.mul_le_mul (by omega) (by omega)
  constructor
  · rintro ⟨hg, hf⟩
    rw [C135_maze hws oc g (by omega), Nat.mod_eq_of_lt h1, Nat.mod_eq_of_lt h2, if_neg (by omega)]
    have e : printMaze oc w h g = printMaze true w h g := by
      cases oc
      · exact (Maze.Props.C105_same h1 h2).symm
      · rfl
    obtain ⟨img, a, b, c, _⟩ := (Maze.Props.C105_debug hg).1 ⟨h1, h2, by omega⟩
    exact ⟨img, e.trans a, b, c⟩
  · intro hne
    by_cases hp : w * h < 2 ^ (8 * ws)
    · rw [C135_maze hws oc g hp, Nat.mod_eq_of_lt h1, Nat.mod_eq_of_lt h2]
      split
      · exact .inl rfl
      · exact .inr ((Maze.Props.C31_invalid_dimensions oc g).1.mpr (by omega))
    · have hp : 2 ^ (8 * ws) ≤ w * h := by omega
      cases oc with
      | true => left; unfold printMazeT mulW; rw [if_neg (by omega)]; rfl
      | false =>
        by_cases hg : g.length = w * h % 2 ^ (8 * ws)
        · exact .inl (printMazeT_wrap hws hp hg h1 h2)
        · right
          unfold printMazeT mulW
          rw [if_neg (by omega), if_neg (by decide), Prog.ok_bind, if_pos (fun e => hg e.symm)]
          rfl

/-- C135: with overflow checks `print_maze` panics whenever the number of cells is no `usize`. -/
theorem C135_maze_debug {ws w h : Nat} (g : List MazeNode) (hn : 2 ^ (8 * ws) ≤ w * h) : printMazeT ws true w h g = .panic := by
  unfold printMazeT mulW
  rw [if_neg (by omega)]
  rfl

/-- C135: without overflow checks a 32-bit target accepts an empty grid as a maze of `2^31` by 2 cells, and draws it as a picture of 1 by
21 pixels; a 64-bit target reports the wrong dimensions. -/
theorem C135_maze_wraps :
    (∃ img, printMazeT 4 false (2 ^ 31) 2 [] = .ok (.ok img) ∧ img.width = 1 ∧ img.height = 21) ∧
    printMazeT 8 false (2 ^ 31) 2 [] = .ok (.error .InvalidDimensions) ∧ printMazeT 4 true (2 ^ 31) 2 [] = .panic := by
  refine ⟨?_, ?_, C135_maze_debug _ (by decide)⟩
  · exact ⟨_, rfl, rfl, rfl⟩
  · rw [C135_maze (.inr rfl) false [] (by decide), if_neg (by simp)]
    exact (Maze.Props.C31_invalid_dimensions false []).1.mpr (by simp)

/-- C135: `print_nonogram` does what it does on a 64-bit target, except that it panics when the buffer of the picture would exceed
`isize::MAX` bytes. -/
theorem C135_nonogram {ws : Nat} (hws : ws = 4 ∨ ws = 8) (oc : Bool) (text : TextFn) (w h : Nat) (col row : List (List Nat)) :
    printNonogramT ws oc text w h col row =
      if w = col.length ∧ h = row.length ∧ 2 ^ (8 * ws - 1) ≤ 3 * side32 w * side32 h then .panic
      else printNonogram oc text w h col row :=
  printNonogramT_eq hws oc text w h col row

/-- C135: as long as the number of squares is a `usize`, `print_nonogram_solution` does what it does on a 64-bit target. -/
theorem C135_solution {ws : Nat} (oc : Bool) {w h : Nat} (image : Img) (grid : List Bool) (hn : w * h < 2 ^ (8 * ws)) :
    printNonogramSolutionT ws oc w h image grid = printNonogramSolution oc w h image grid := by
  unfold printNonogramSolutionT printNonogramSolution
  rw [mulW_ok hn]
  rfl

/-- C135: more squares than a `usize` counts, in a picture whose sides fit in `u32`: with overflow checks `print_nonogram_solution`
panics. Without them it reports wrong dimensions as on a 64-bit target, because no such picture fits in the memory of the target. -/
theorem C135_solution_large {ws : Nat} (hws : ws = 4 ∨ ws = 8) {w h : Nat} (image : Img) (grid : List Bool)
    (hn : 2 ^ (8 * ws) ≤ w * h) (hw : side w < 2 ^ 32) (hh : side h < 2 ^ 32)
    (hi : 3 * image.width * image.height < 2 ^ (8 * ws - 1)) :
    printNonogramSolutionT ws true w h image grid = .panic ∧
    printNonogramSolutionT ws false w h image grid = .ok (.error .InvalidDimensions) := by
  unfold printNonogramSolutionT mulW
  constructor
  · rw [ruleSide_ok true hw, ruleSide_ok true hh, Prog.ok_bind, Prog.ok_bind, if_neg (by omega)]
    rfl
  · rw [ruleSide_ok false hw, ruleSide_ok false hh, Prog.ok_bind, Prog.ok_bind, if_neg (by omega), if_neg (by decide), Prog.ok_bind,
      imageSide_ok false hw, imageSide_ok false hh]
    split
    · rfl
    · simp only [Prog.ok_bind]
      by_cases ew : image.width = side w
      · by_cases eh : image.height = side h
        · exfalso
          have hl : 2 ^ (8 * ws - 1) ≤ 2 ^ (8 * ws) := Nat.pow_le_pow_right (by omega) (by omega)
          have : w * h ≤ 3 * image.width * image.height := by
            rw [ew, eh]; unfold side; exact Nat.mul_le_mul (by omega) (by omega)
          omega
        · simp only [ew, eh, ne_eq, not_true_eq_false, not_false_eq_true, if_true, if_false]; rfl
      · simp only [ew, ne_eq, not_false_eq_true, if_true]; rfl

/-- C135: without overflow checks a 32-bit target accepts an empty grid as the solution of a puzzle of `2^31` by 2 squares, for an
image of 150 by 250 pixels, and returns that image; a 64-bit target reports the wrong dimensions. -/
theorem C135_solution_wraps (px : Nat → Nat → Rgb) :
    printNonogramSolutionT 4 false (2 ^ 31) 2 ⟨150, 250, px⟩ [] = .ok (.ok ⟨150, 250, px⟩) ∧
    printNonogramSolutionT 8 false (2 ^ 31) 2 ⟨150, 250, px⟩ [] = .ok (.error .InvalidDimensions) :=
  ⟨rfl, rfl⟩

/-- C135: with 8 bytes these are the functions of the main model, for all `u32` dimensions. -/
theorem C135_64 (oc : Bool) (text : TextFn) {w h : Nat} (hw : w < 2 ^ 32) (hh : h < 2 ^ 32) (g : List MazeNode)
    (col row : List (List Nat)) (image : Img) (grid : List Bool) :
    printMazeT 8 oc w h g = printMaze oc w h g ∧ printNonogramT 8 oc text w h col row = printNonogram oc text w h col row ∧
    printNonogramSolutionT 8 oc w h image grid = printNonogramSolution oc w h image grid := by
  have hp : w * h < 2 ^ 64 := by
    have := Nat.mul_lt_mul'' hw hh
    omega
  exact ⟨by unfold printMazeT printMaze; rw [mulW_ok hp]; rfl, rfl, C135_solution oc image grid hp⟩

/-- A maze of two cells on a 32-bit target. -/
example : ∃ img, printMazeT 4 true 2 1 [⟨false, true⟩, ⟨true, false⟩] = .ok (.ok img) ∧ img.width = 21 ∧ img.height = 11 :=
  (C135_maze_ok (.inl rfl) true _ (by omega) (by omega)).1 ⟨rfl, by omega⟩

/-- A maze of `2^17` by `2^17` cells cannot be drawn on a 32-bit target. -/
example (oc : Bool) (g : List MazeNode) :
    printMazeT 4 oc (2 ^ 17) (2 ^ 17) g = .panic ∨ printMazeT 4 oc (2 ^ 17) (2 ^ 17) g = .ok (.error .InvalidDimensions) :=
  (C135_maze_ok (.inl rfl) oc g (by omega) (by omega)).2 (by omega)

example (image : Img) (grid : List Bool) (hi : 3 * image.width * image.height < 2 ^ 31) :
    printNonogramSolutionT 4 false (2 ^ 17) (2 ^ 17) image grid = .ok (.error .InvalidDimensions) :=
  (C135_solution_large (.inl rfl) image grid (by omega) (by decide) (by decide) hi).2

end PrintTarget.Props
