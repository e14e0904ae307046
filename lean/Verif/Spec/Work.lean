import Verif.Spec.DancingLinks
import Verif.Model.Sudoku

/-!
The work of the dancing links at pointer level: the code of `cover_column`, `uncover_column`, `free_chain`, `add_solution`,
`solve_helper`, `solve` and `drop` with a counter that is increased by every call of a node iterator's `next` (node.rs:228),
also by the call that `skip(1)` makes and by the one that ends a loop. Between two such calls the code makes a bounded number
of memory accesses. `new` counts the nodes it makes and the entries that it adds to `rows`.
-/
namespace DancingLinks.Spec
open DancingLinks

/-- The memory and the counter. -/
abbrev Work := Heap × Nat

/-- `for x in it { body }`. -/
def workIter (d : Dir) (it : Iter) (s : Work) (body : Work → Nat → Prog Work) : Prog Work := do
  let s ← forIter Prod.fst d it s fun s p => body (s.1, s.2 + 1) p
  return (s.1, s.2 + 1)

/-- `for x in iter_<d>(node) { body }`. -/
def workAll (d : Dir) (s : Work) (node : Nat) (body : Work → Nat → Prog Work) : Prog Work :=
  workIter d (iter node) s body

/-- `for x in iter_<d>(node).skip(1) { body }`. -/
def workSkip1 (d : Dir) (s : Work) (node : Nat) (body : Work → Nat → Prog Work) : Prog Work := do
  let it ← iterSkip1 d s.1 node
  workIter d it (s.1, s.2 + 1) body

/-- A step without loops. -/
def still (f : Heap → Nat → Prog Heap) (s : Work) (p : Nat) : Prog Work := do
  let h ← f s.1 p
  return (h, s.2)

/-- `cover_column`, node.rs:117-130. -/
def workCover (s : Work) (node : Nat) : Prog Work := do
  let node ← toHeader s.1 node
  let s ← still coverHorizontal s node
  workSkip1 .down s node fun s row => workSkip1 .right s row (still coverCell)

/-- `uncover_column`, node.rs:135-148. -/
def workUncover (s : Work) (node : Nat) : Prog Work := do
  let node ← toHeader s.1 node
  let s ← workSkip1 .up s node fun s row => workSkip1 .left s row (still uncoverCell)
  still uncoverHorizontal s node

/-- node.rs:159-163. -/
def workFreeRow (s : Work) (row : Nat) : Prog Work := do
  let s ← workSkip1 .right s row (still Heap.dealloc)
  still Heap.dealloc s row

/-- `free_chain`, node.rs:153-167. -/
def workFree (s : Work) (node : Nat) : Prog Work := do
  let node ← toHeader s.1 node
  let s ← workSkip1 .down s node workFreeRow
  still Heap.dealloc s node

/-- mod.rs:98-101. -/
def workChoose (s : Work) (root : Nat) : Prog (Nat × Nat) := do
  let it ← iterSkip1 .right s.1 root
  let t ← forIter (fun t : (Heap × Option Nat) × Nat => t.1.1) .right it ((s.1, none), s.2 + 1) fun t p => do
    let u ← pickMin t.1 p
    return (u, t.2 + 1)
  let c ← expectP t.1.2
  return (c, t.2 + 1)

mutual
/-- `solve_helper`, mod.rs:93-129. -/
def workHelper (root : Nat) (s : Work) (ps : List Nat) : Prog (Bool × Work × List Nat) := do
  if ← isEmpty s.1 root then
    return (true, s, ps)
  let (constraint, k) ← workChoose s root
  let s ← workCover (s.1, k) constraint
  let it ← iterSkip1 .down s.1 constraint
  workRows root constraint it (s.1, s.2 + 1) ps
partial_fixpoint
/-- The `for row in ..` loop of `solve_helper`. -/
def workRows (root constraint : Nat) (it : Iter) (s : Work) (ps : List Nat) : Prog (Bool × Work × List Nat) := do
  let (x, it) ← it.next .down s.1
  match x with
  | none =>
    let s ← workUncover (s.1, s.2 + 1) constraint
    return (false, s, ps)
  | some row =>
    let n ← s.1.read row
    let ps := ps ++ [n.row]
    let s ← workSkip1 .right (s.1, s.2 + 1) row workCover
    let (found, s, ps) ← workHelper root s ps
    if found then
      let s ← workSkip1 .right s row workFree
      let s ← workFree s constraint
      return (true, s, ps)
    let s ← workSkip1 .left s row workUncover
    let ps := ps.dropLast
    workRows root constraint it s ps
partial_fixpoint
end

/-- `drop`, mod.rs:136-144. -/
def workDrop (m : Matrix) (s : Work) : Prog Work :=
  workAll .right s m.root fun s header => workAll .down s header (still Heap.dealloc)

/-- `solve`, mod.rs:85-91. -/
def workSolve (m : Matrix) (s : Work) : Prog (Except DLError (List Nat) × Work) := do
  let (found, s, ps) ← workHelper m.root s m.partialSolution
  let s ← workDrop m s
  if found then return (.ok ps, s)
  else return (.error .noSolution, s)

/-- `add_solution`, mod.rs:57-83; the call itself counts one. -/
def workAdd (m : Matrix) (s : Work) (row : Nat) : Prog (Except DLError Unit × Matrix × Work) := do
  let s : Work := (s.1, s.2 + 1)
  if row ≥ m.rows.length then
    return (.error .indexError, m, s)
  let m := { m with partialSolution := m.partialSolution ++ [row] }
  let row ← getP m.rows row
  if row = 0 then
    return (.error .invalidRow, m, s)
  let n ← s.1.read row
  let it ← iterSkip1 .down s.1 n.header
  let t ← forIter (fun t : (Heap × List Nat) × Nat => t.1.1) .down it ((s.1, m.rows), s.2 + 1) fun t p => do
    let u ← nullRow t.1 p
    return (u, t.2 + 1)
  let m := { m with rows := t.1.2 }
  let s ← workAll .right (s.1, t.2 + 1) row workCover
  let s ← workSkip1 .right s row workFree
  let s ← workFree s row
  return (.ok (), m, s)

/-- One turn of the inner loop of `new`, mod.rs:36-45. -/
def workCell (header : Nat) (s : (Heap × List Nat × Nat) × Nat) (index : Nat) : Prog ((Heap × List Nat × Nat) × Nat) := do
  let t ← newCell header s.1 index
  return (t, s.2 + 1 + (t.2.1.length - s.1.2.1.length))

/-- One turn of the outer loop of `new`, mod.rs:32-48. -/
def workColumn (s : (Heap × List Nat × Nat) × Nat) (constraint : List Nat) : Prog ((Heap × List Nat × Nat) × Nat) := do
  let ((h, rows, curr), k) := s
  let (new, h) ← Node.newHeader h curr constraint.length
  let ((h, rows, _), k) ← forIn' constraint ((h, rows, new), k + 1) (workCell new)
  return ((h, rows, new), k)

/-- `new`, mod.rs:25-55. -/
def workNew (h : Heap) (constraints : List (List Nat)) : Prog (Matrix × Work) := do
  let (root, h) ← Node.newHeader h 0 0
  let ((h, rows, _), k) ← forIn' constraints ((h, [], root), 1) workColumn
  return ({ root, rows, partialSolution := [] }, (h, k))

/-- The histories `Hist` with the counter: `new`, then any sequence of `add_solution` calls that return. -/
inductive WorkHist (M : List (List Nat)) : List (Nat × Except DLError Unit) → Matrix → Work → Prop
  | new {m s} : workNew Heap.empty M = .ok (m, s) → WorkHist M [] m s
  | add {log m s r res m' s'} : WorkHist M log m s → workAdd m s r = .ok (res, m', s') →
      WorkHist M (log ++ [(r, res)]) m' s'

end DancingLinks.Spec

namespace Sudoku.Spec
open DancingLinks DancingLinks.Spec

/-- sudoku/mod.rs:76-86: the loop over the givens; every turn counts one. -/
def workGivens : List (UInt8 × Nat) → Matrix → Work → Prog (Bool × Matrix × Work)
  | [], m, s => .ok (true, m, s)
  | (value, index) :: rest, m, s => do
    let s : Work := (s.1, s.2 + 1)
    if value = 0 then
      workGivens rest m s
    else
      let (result, m, s) ← workAdd m s (index * 9 + value.toNat - 1)
      match result with
      | .error .invalidRow => .ok (false, m, s)
      | _ => workGivens rest m s

/-- `solve_sudoku`, sudoku/mod.rs:65-91; the digits of the answer count one each, sorting them is not counted. -/
def workSudoku (puzzle : List UInt8) : Prog (Except SudokuError (List UInt8) × Work) := do
  if puzzle.length ≠ gridSize * gridSize then
    .ok (.error (.invalidSize puzzle.length), (Heap.empty, 0))
  else
    let (m, s) ← workNew Heap.empty constraints
    let (go, m, s) ← workGivens puzzle.zipIdx m s
    if go = false then
      let s ← workDrop m s
      .ok (.error .noSolution, s)
    else
      let (res, s) ← workSolve m s
      match res with
      | .error _ => .ok (.error .noSolution, s)
      | .ok solution =>
        let solution := solution.mergeSort (· ≤ ·)
        .ok (.ok (solution.map fun num => UInt8.ofNat (num % 9) + 1), (s.1, s.2 + solution.length))

end Sudoku.Spec
