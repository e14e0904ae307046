import Verif.Model.Sudoku

/-!
`DancingMatrix::new` and `solve_sudoku` once more, over an arbitrary memory and an arbitrary allocator. The other functions
of `Model/DancingLinks.lean` do not allocate and are used as they are.

The allocator is a function `al`: its `k`-th call (`k = 1, 2, ...`) returns the address `al k`, or null if `al k = 0`. The memory
before the first call can have any contents. `Model/DancingLinks.lean` is the case `al k = k` over an empty memory.
-/
namespace DancingLinks

/-- `alloc(NODE_LAYOUT)` (node.rs:29, 68). `h.next` counts the calls. A null result changes nothing. -/
def Heap.allocAt (al : Nat → Nat) (h : Heap) : Nat × Heap :=
  if al h.next = 0 then (0, { h with next := h.next + 1 })
  else (al h.next, { mem := fun q => if q = al h.next then .uninit else h.mem q, next := h.next + 1 })

/-- node.rs:23-62 `Node::new`. -/
def Node.newAt (al : Nat → Nat) (h : Heap) (header rowPrevious colPrevious row : Nat) : Prog (Nat × Heap) := do
  let (ptr, h) := h.allocAt al                                        -- 29
  let node : Node := { header, left := ptr, right := ptr, up := ptr, down := ptr, row }  -- 30-37
  let (node, h) ← if rowPrevious ≠ 0 then do                          -- 39
      let rp ← h.read rowPrevious
      let node := { node with left := rowPrevious, right := rp.right }  -- 40-41
      let rp ← h.read rowPrevious
      let h ← h.setLeft rp.right ptr                                  -- 44
      let h ← h.setRight rowPrevious ptr                              -- 45
      pure (node, h)
    else pure (node, h)
  let (node, h) ← if colPrevious ≠ 0 then do                          -- 49
      let cp ← h.read colPrevious
      let node := { node with up := colPrevious, down := cp.down }    -- 50-51
      let cp ← h.read colPrevious
      let h ← h.setUp cp.down ptr                                     -- 54
      let h ← h.setDown colPrevious ptr                               -- 55
      pure (node, h)
    else pure (node, h)
  let h ← h.write ptr node                                            -- 59
  return (ptr, h)

/-- node.rs:67-91 `Node::new_header`. -/
def Node.newHeaderAt (al : Nat → Nat) (h : Heap) (previous numRows : Nat) : Prog (Nat × Heap) := do
  let (ptr, h) := h.allocAt al                                        -- 68
  let node : Node := { header := 0, left := ptr, right := ptr, up := ptr, down := ptr, row := numRows }
  let (node, h) ← if previous ≠ 0 then do                             -- 78
      let pv ← h.read previous
      let node := { node with left := previous, right := pv.right }   -- 79-80
      let pv ← h.read previous
      let h ← h.setLeft pv.right ptr                                  -- 83
      let h ← h.setRight previous ptr                                 -- 84
      pure (node, h)
    else pure (node, h)
  let h ← h.write ptr node                                            -- 88
  return (ptr, h)

/-- mod.rs:36-45: one iteration of the inner loop of `new`; state is (heap, rows, col_curr). -/
def newCellAt (al : Nat → Nat) (header : Nat) (s : Heap × List Nat × Nat) (index : Nat) :
    Prog (Heap × List Nat × Nat) := do
  let (h, rows, colCurr) := s
  let rows := if index ≥ rows.length then                              -- 37-39 `resize(index + 1, null)`
      rows ++ List.replicate (index + 1 - rows.length) 0 else rows
  let rp ← getP rows index
  let (new, h) ← Node.newAt al h header rp colCurr index               -- 41
  let rows ← setP rows index new                                       -- 43
  return (h, rows, new)                                                -- 44

/-- mod.rs:32-48: one iteration of the outer loop of `new`; state is (heap, rows, curr). -/
def newColumnAt (al : Nat → Nat) (s : Heap × List Nat × Nat) (constraint : List Nat) :
    Prog (Heap × List Nat × Nat) := do
  let (h, rows, curr) := s
  let (new, h) ← Node.newHeaderAt al h curr constraint.length          -- 33
  let (h, rows, _) ← forIn' constraint (h, rows, new) (newCellAt al new)    -- 35-45
  return (h, rows, new)                                                -- 47

/-- mod.rs:25-55 `DancingMatrix::new`. The iterator of iterators is a list of lists. -/
def Matrix.newAt (al : Nat → Nat) (h : Heap) (constraints : List (List Nat)) : Prog (Matrix × Heap) := do
  let (root, h) ← Node.newHeaderAt al h 0 0                            -- 30
  let (h, rows, _) ← forIn' constraints (h, [], root) (newColumnAt al) -- 31-48
  return ({ root, rows, partialSolution := [] }, h)                    -- 50-54

end DancingLinks

namespace Sudoku
open DancingLinks

/-- sudoku/mod.rs:65-91 `solve_sudoku` with the allocator `al` over the memory `h`; the result is the answer and the memory
afterwards. -/
def solveSudokuAt (al : Nat → Nat) (h : Heap) (puzzle : List UInt8) :
    Prog (Except SudokuError (List UInt8) × Heap) := do
  if puzzle.length ≠ gridSize * gridSize then                         -- 66-68
    .ok (.error (.invalidSize puzzle.length), h)
  else
    let (m, h) ← Matrix.newAt al h constraints                        -- 70-74
    let (go, m, h) ← addGivens puzzle.zipIdx m h                      -- 76-86
    if go = false then
      let h ← m.drop h                                                -- 84: `matrix` goes out of scope
      .ok (.error .noSolution, h)
    else
      let (res, h) ← m.solve h                                        -- 88
      match res with
      | .error _ => .ok (.error .noSolution, h)
      | .ok solution =>
        let solution := solution.mergeSort (· ≤ ·)                    -- 89
        .ok (.ok (solution.map fun num => UInt8.ofNat (num % 9) + 1), h)  -- 90

end Sudoku
