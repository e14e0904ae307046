import Verif.Model.Sudoku
import Verif.Model.DancingWrap

/-! `solve_sudoku` with the arithmetic of a build with (`oc`) or without overflow checks, for a target whose `usize` has `bits` bits: the counters of the headers, the
row number of a given and the digits of the answer. -/
namespace Sudoku
open DancingLinks

/-- sudoku/mod.rs:76-86, as `addGivens`. -/
def addGivensB (oc : Bool) (bits : Nat) : List (UInt8 × Nat) → Matrix → Heap → Prog (Bool × Matrix × Heap)
  | [], m, h => .ok (true, m, h)
  | (value, index) :: rest, m, h => do
    if value = 0 then                                                 -- 77-79
      addGivensB oc bits rest m h
    else
      let x ← mulW oc bits index 9                                      -- 81
      let x ← addW oc bits x value.toNat
      let x ← subW oc bits x 1
      let (result, m, h) ← addSolutionG (.build oc bits) m h x
      match result with                                               -- 83-85
      | .error .invalidRow => .ok (false, m, h)
      | _ => addGivensB oc bits rest m h

/-- sudoku/mod.rs:90: the digit of a row of the answer, `(num % 9) as u8 + 1`. -/
def digitB (oc : Bool) (num : Nat) : Prog UInt8 := do
  let x ← addW oc 8 (num % 9 % 2 ^ 8) 1
  return UInt8.ofNat x

/-- sudoku/mod.rs:65-91 `solve_sudoku`, as `solveSudoku`. -/
def solveSudokuB (oc : Bool) (bits : Nat) (puzzle : List UInt8) : Prog (Except SudokuError (List UInt8) × Heap) := do
  if puzzle.length ≠ gridSize * gridSize then                         -- 66-68
    .ok (.error (.invalidSize puzzle.length), Heap.empty)
  else
    let (m, h) ← Matrix.new Heap.empty constraints                    -- 70-74
    let (go, m, h) ← addGivensB oc bits puzzle.zipIdx m h                  -- 76-86
    if go = false then
      let h ← m.drop h                                                -- 84
      .ok (.error .noSolution, h)
    else
      let (res, h) ← m.solveG (.build oc bits) h                           -- 88
      match res with
      | .error _ => .ok (.error .noSolution, h)
      | .ok solution =>
        let solution := solution.mergeSort (· ≤ ·)                    -- 89
        let digits ← solution.mapM (digitB oc)                        -- 90
        .ok (.ok digits, h)

end Sudoku
