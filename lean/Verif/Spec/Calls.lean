import Verif.Spec.DancingLinks
import Verif.Spec.Sudoku
import Verif.Model.Sudoku

/-!
Counting the calls of `solve_helper`: the code of `solve_helper`, `solve` and `solve_sudoku` with a counter, and the number
of nodes of the search tree of Algorithm X that are visited up to the first solution.
-/
namespace DancingLinks.Spec
open DancingLinks

mutual
/-- `solve_helper` (dancing_links/mod.rs:93-129); `k` counts the calls. -/
def countedHelper (root : Nat) (h : Heap) (ps : List Nat) (k : Nat) : Prog (Bool × Heap × List Nat × Nat) := do
  let k := k + 1
  if ← isEmpty h root then
    return (true, h, ps, k)
  let constraint ← chooseColumn h root
  let h ← coverColumn h constraint
  let it ← iterSkip1 .down h constraint
  countedRows root constraint it h ps k
partial_fixpoint

/-- The `for row in ..` loop of `solve_helper`. -/
def countedRows (root constraint : Nat) (it : Iter) (h : Heap) (ps : List Nat) (k : Nat) :
    Prog (Bool × Heap × List Nat × Nat) := do
  let (x, it) ← it.next .down h
  match x with
  | none =>
    let h ← uncoverColumn h constraint
    return (false, h, ps, k)
  | some row =>
    let n ← h.read row
    let ps := ps ++ [n.row]
    let h ← forSkip1 .right h row coverColumn
    let (found, h, ps, k) ← countedHelper root h ps k
    if found then
      let h ← forSkip1 .right h row freeChain
      let h ← freeChain h constraint
      return (true, h, ps, k)
    let h ← forSkip1 .left h row uncoverColumn
    let ps := ps.dropLast
    countedRows root constraint it h ps k
partial_fixpoint
end

/-- `solve`, with the number of calls of `solve_helper`. -/
def countedSolve (m : Matrix) (h : Heap) : Prog ((Except DLError (List Nat) × Heap) × Nat) := do
  let (found, h, ps, k) ← countedHelper m.root h m.partialSolution 0
  let h ← m.drop h
  if found then return ((.ok ps, h), k)
  else return ((.error .noSolution, h), k)

/-- The elements of a list up to and including the first one that satisfies `p`. -/
def tried {α : Type} (p : α → Bool) : List α → List α
  | [] => []
  | x :: l => if p x then [x] else x :: tried p l

/-- The nodes of the search tree of Algorithm X visited until the first solution is found, or all of them if there is
none: one for the matrix itself, and those below for every row tried. -/
def visits : Nat → List (List Nat) → Nat
  | 0, _ => 1
  | n + 1, M =>
    match firstShortest M with
    | none => 1
    | some col => 1 + ((tried (fun r => (search n (residual M [r])).isSome) col).map fun r => visits n (residual M [r])).sum

end DancingLinks.Spec

namespace Sudoku.Spec
open DancingLinks DancingLinks.Spec

/-- `solve_sudoku` (sudoku/mod.rs:65-91), with the number of calls of `solve_helper`. -/
def countedSudoku (puzzle : List UInt8) : Prog ((Except SudokuError (List UInt8) × Heap) × Nat) := do
  if puzzle.length ≠ gridSize * gridSize then
    .ok ((.error (.invalidSize puzzle.length), Heap.empty), 0)
  else
    let (m, h) ← Matrix.new Heap.empty constraints
    let (go, m, h) ← addGivens puzzle.zipIdx m h
    if go = false then
      let h ← m.drop h
      .ok ((.error .noSolution, h), 0)
    else
      let ((res, h), k) ← countedSolve m h
      match res with
      | .error _ => .ok ((.error .noSolution, h), k)
      | .ok solution =>
        let solution := solution.mergeSort (· ≤ ·)
        .ok ((.ok (solution.map fun num => UInt8.ofNat (num % 9) + 1), h), k)

/-- The entries `A` can be completed by singles: as long as a question is open, some open question has exactly one
possible answer (a cell with one candidate, or a digit with one place in a row, column or box), and this answer is
entered. -/
inductive Singles : List Clue → Prop
  | done {A : List Clue} : openQuestions A = [] → Singles A
  | step {A : List Clue} {x : Clue} : [x] ∈ openQuestions A → Singles (A ++ [x]) → Singles A

end Sudoku.Spec
