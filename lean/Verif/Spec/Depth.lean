import Verif.Model.DancingLinks

/-!
`solve_helper` (mod.rs:93-129) with a bound on the depth of its recursion: `boundedHelper root n` is the same code in
which the call at depth `n` fails. A result of it is a result computed with a stack of at most `n` frames of
`solve_helper`.
-/
namespace DancingLinks.Spec
open DancingLinks

/-- The `for row in ..` loop of `solve_helper`, with the recursive call as a parameter. -/
def rowsWith (rec : Heap → List Nat → Prog (Bool × Heap × List Nat)) (constraint : Nat) (it : Iter) (h : Heap)
    (ps : List Nat) : Prog (Bool × Heap × List Nat) := do
  let (x, it) ← it.next .down h
  match x with
  | none =>
    let h ← uncoverColumn h constraint
    return (false, h, ps)
  | some row =>
    let n ← h.read row
    let ps := ps ++ [n.row]
    let h ← forSkip1 .right h row coverColumn
    let (found, h, ps) ← rec h ps
    if found then
      let h ← forSkip1 .right h row freeChain
      let h ← freeChain h constraint
      return (true, h, ps)
    let h ← forSkip1 .left h row uncoverColumn
    let ps := ps.dropLast
    rowsWith rec constraint it h ps
partial_fixpoint

/-- `solve_helper` with a stack of at most `n` frames. -/
def boundedHelper (root : Nat) : Nat → Heap → List Nat → Prog (Bool × Heap × List Nat)
  | 0, _, _ => .panic
  | n + 1, h, ps => do
    if ← isEmpty h root then
      return (true, h, ps)
    let constraint ← chooseColumn h root
    let h ← coverColumn h constraint
    let it ← iterSkip1 .down h constraint
    rowsWith (boundedHelper root n) constraint it h ps

/-- `solve` with a stack of at most `n` frames of `solve_helper`. -/
def boundedSolve (m : Matrix) (n : Nat) (h : Heap) : Prog (Except DLError (List Nat) × Heap) := do
  let (found, h, ps) ← boundedHelper m.root n h m.partialSolution
  let h ← m.drop h
  if found then return (.ok ps, h)
  else return (.error .noSolution, h)

end DancingLinks.Spec
