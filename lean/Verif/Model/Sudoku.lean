import Verif.Model.DancingLinks
import Verif.Model.Image

/-! Model of `/repo/src/puzzles/sudoku/mod.rs`. -/
namespace Sudoku
open DancingLinks

/-- sudoku/mod.rs:12 `GRID_SIZE`. -/
def gridSize : Nat := 9

/-- sudoku/mod.rs:22-31: one iteration of the inner loop of the `const` block. -/
def constraintsInner (index : Nat) (c : List (List Nat)) (inner : Nat) : List (List Nat) :=
  let c := c.modify index (·.set inner (index * 9 + inner))                                    -- 22
  let c := c.modify (index + 81) (·.set inner ((index % 9) + inner * 9 + (index / 9) * 81))    -- 23
  let c := c.modify (index + 162) (·.set inner (index + inner * 81))                           -- 24
  c.modify (index + 243) (·.set inner ((index % 9) + (inner % 3) * 9 + (inner / 3) * 81
    + ((index % 27) / 9) * 27 + (index / 27) * 243))                                           -- 25-29

/-- sudoku/mod.rs:14-36 `SUDOKU_CONSTRAINTS`: the array filled by the two nested `while` loops. The
indices are all in range, so the array writes are `List.modify`/`List.set`. -/
def constraints : List (List Nat) :=
  (List.range 81).foldl (fun c index => (List.range 9).foldl (constraintsInner index) c)
    (List.replicate 324 (List.replicate 9 0))

/-- sudoku/mod.rs:38-46 `SudokuError`. -/
inductive SudokuError
  | invalidInteger (c : Char)
  | invalidSize (n : Nat)
  | noSolution
  deriving DecidableEq, Repr

/-- `char::to_digit(10)`: `Some` exactly for `'0'..='9'`. -/
def toDigit10 (c : Char) : Option Nat :=
  if 48 ≤ c.toNat ∧ c.toNat ≤ 57 then some (c.toNat - 48) else none

/-- sudoku/mod.rs:49-56: `.map(..).collect::<Result<Vec<u8>, _>>()`, which stops at the first error. -/
def collectDigits : List Char → Except SudokuError (List UInt8)
  | [] => .ok []
  | c :: cs =>
    match toDigit10 c with
    | none => .error (.invalidInteger c)
    | some x =>
      match collectDigits cs with
      | .error e => .error e
      | .ok v => .ok (UInt8.ofNat x :: v)

/-- sudoku/mod.rs:48-63 `parse_sudoku`. -/
def parseSudoku (puzzle : String) : Except SudokuError (List UInt8) :=
  match collectDigits puzzle.toList with                              -- 49-56
  | .error e => .error e
  | .ok puzzle =>
    if puzzle.length ≠ gridSize * gridSize then                       -- 58-60
      .error (.invalidSize puzzle.length)
    else .ok puzzle                                                   -- 62

/-- sudoku/mod.rs:76-86: the loop over the givens. Returns `true` when the loop ran to its end and `false`
when it hit the `return Err(NoSolution)` of line 84, with the matrix at that point. An `IndexError` is
ignored by the code. `index * 9 + value - 1` cannot overflow. -/
def addGivens : List (UInt8 × Nat) → Matrix → Heap → Prog (Bool × Matrix × Heap)
  | [], m, h => .ok (true, m, h)
  | (value, index) :: rest, m, h => do
    if value = 0 then                                                 -- 77-79
      addGivens rest m h
    else
      let (result, m, h) ← addSolution m h (index * 9 + value.toNat - 1)   -- 81
      match result with                                               -- 83-85
      | .error .invalidRow => .ok (false, m, h)
      | _ => addGivens rest m h

/-- sudoku/mod.rs:65-91 `solve_sudoku`, together with the memory it leaves behind. The memory initially
holds no node. `sort_unstable` on integers is any sorting function. -/
def solveSudoku (puzzle : List UInt8) : Prog (Except SudokuError (List UInt8) × Heap) := do
  if puzzle.length ≠ gridSize * gridSize then                         -- 66-68
    .ok (.error (.invalidSize puzzle.length), Heap.empty)
  else
    let (m, h) ← Matrix.new Heap.empty constraints                    -- 70-74
    let (go, m, h) ← addGivens puzzle.zipIdx m h                      -- 76-86
    if go = false then
      let h ← m.drop h                                                -- 84: `matrix` goes out of scope
      .ok (.error .noSolution, h)
    else
      let (res, h) ← m.solve h                                        -- 88
      match res with
      | .error _ => .ok (.error .noSolution, h)
      | .ok solution =>
        let solution := solution.mergeSort (· ≤ ·)                    -- 89
        .ok (.ok (solution.map fun num => UInt8.ofNat (num % 9) + 1), h)  -- 90

/-- sudoku/mod.rs:106-117: one iteration of the two nested loops of `print_sudoku`. -/
def printLines (oc : Bool) (gridPos : Nat) (image : Img) (lineCoord : Nat) : Prog Img := do
  let gridCoord := gridPos * 100                                      -- 106
  let image ← if gridPos % 3 = 0 ∧ gridPos ≠ 0 ∧ gridPos ≠ gridSize - 1 then do      -- 108-114
      let image ← image.putPixel lineCoord (gridCoord + 1) blackPixel
      let g1 ← subW oc 32 gridCoord 1
      let image ← image.putPixel lineCoord g1 blackPixel
      let image ← image.putPixel (gridCoord + 1) lineCoord blackPixel
      image.putPixel g1 lineCoord blackPixel
    else pure image
  let image ← image.putPixel lineCoord gridCoord blackPixel           -- 116
  image.putPixel gridCoord lineCoord blackPixel                       -- 117

/-- sudoku/mod.rs:104-119: the two nested loops `0..grid_size`, `0..image_size`. -/
def printGrid (oc : Bool) (size imageSize : Nat) (image : Img) : Prog Img :=
  forIn' (List.range size) image fun image gridPos =>
    forIn' (List.range imageSize) image (printLines oc gridPos)

/-- sudoku/mod.rs:122-137: one iteration of the text loop. -/
def printNumber (text : TextFn) (image : Img) (e : UInt8 × Nat) : Img :=
  if e.1 = 0 then image
  else text.draw image blackPixel ((e.2 % gridSize) * 100 + 25) ((e.2 / gridSize) * 100 + 5) 100
    (toString e.1.toNat)

/-- sudoku/mod.rs:93-141 `print_sudoku`. -/
def printSudoku (oc : Bool) (text : TextFn) (puzzle : List UInt8) : Prog (Except SudokuError Img) := do
  if puzzle.length ≠ gridSize * gridSize then                         -- 94-96
    .ok (.error (.invalidSize puzzle.length))
  else
    let imageSize := gridSize * 100                                   -- 98
    let image ← Img.fromPixel imageSize imageSize whitePixel          -- 100
    let image ← printGrid oc gridSize imageSize image                 -- 104-119
    let image := puzzle.zipIdx.foldl (printNumber text) image         -- 121-138
    .ok (.ok image)

end Sudoku
