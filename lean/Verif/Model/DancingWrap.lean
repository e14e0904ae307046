import Verif.Model.DancingLinks

/-!
The dancing links functions with the arithmetic of the `usize` counters of the headers (node.rs:127 `row -= 1` and
node.rs:142 `row += 1`) as a parameter: a build with overflow checks panics at the limits of `usize`, a release build
wraps around. `Model/DancingLinks.lean` is the instance `Arith.model`, which checks the subtraction and lets the
addition grow (Proofs/DL/Wrap.lean: `solveG_model`, `addSolutionG_model`). When no constraint
repeats a row, no counter ever leaves its range and the instances agree (C131).
-/
namespace DancingLinks

/-- What `row -= 1` and `row += 1` do to a counter. -/
structure Arith where
  dec : Nat → Prog Nat
  inc : Nat → Prog Nat

/-- The arithmetic of `Model/DancingLinks.lean`: the decrement is checked. -/
def Arith.model : Arith := { dec := fun x => if x = 0 then .panic else .ok (x - 1), inc := fun x => .ok (x + 1) }

/-- The arithmetic of a build with (`oc`) or without overflow checks, for a target whose `usize` has `bits` bits. -/
def Arith.build (oc : Bool) (bits : Nat := 64) : Arith := { dec := fun x => subW oc bits x 1, inc := fun x => addW oc bits x 1 }

/-- node.rs:126-127. -/
def coverCellG (A : Arith) (h : Heap) (col : Nat) : Prog Heap := do
  let h ← coverVertical h col                                         -- 126
  let n ← h.read col                                                  -- 127
  let hd ← h.read n.header
  let v ← A.dec hd.row
  h.setRow n.header v

/-- node.rs:117-130 `cover_column`. -/
def coverColumnG (A : Arith) (h : Heap) (node : Nat) : Prog Heap := do
  let node ← toHeader h node                                          -- 118-120
  let h ← coverHorizontal h node                                      -- 122
  forSkip1 .down h node fun h row =>                                  -- 124
    forSkip1 .right h row (coverCellG A)                              -- 125-128

/-- node.rs:142-143. -/
def uncoverCellG (A : Arith) (h : Heap) (col : Nat) : Prog Heap := do
  let n ← h.read col                                                  -- 142
  let hd ← h.read n.header
  let v ← A.inc hd.row
  let h ← h.setRow n.header v
  uncoverVertical h col                                               -- 143

/-- node.rs:135-148 `uncover_column`. -/
def uncoverColumnG (A : Arith) (h : Heap) (node : Nat) : Prog Heap := do
  let node ← toHeader h node                                          -- 136-138
  let h ← forSkip1 .up h node fun h row =>                            -- 140
    forSkip1 .left h row (uncoverCellG A)                             -- 141-144
  uncoverHorizontal h node                                            -- 147

/-- mod.rs:57-83 `add_solution`. -/
def addSolutionG (A : Arith) (m : Matrix) (h : Heap) (row : Nat) : Prog (Except DLError Unit × Matrix × Heap) := do
  if row ≥ m.rows.length then                                          -- 58-60
    return (.error .indexError, m, h)
  let m := { m with partialSolution := m.partialSolution ++ [row] }    -- 62
  let row ← getP m.rows row                                            -- 63
  if row = 0 then                                                      -- 65-67
    return (.error .invalidRow, m, h)
  let n ← h.read row                                                   -- 69
  let it ← iterSkip1 .down h n.header
  let s ← forIter Prod.fst .down it (h, m.rows) nullRow                -- 69-71
  let m := { m with rows := s.2 }
  let h ← forAll .right h row (coverColumnG A)                         -- 73-75
  let h ← forSkip1 .right h row freeChain                              -- 77-79
  let h ← freeChain h row                                              -- 80
  return (.ok (), m, h)                                                -- 82

mutual
/-- mod.rs:93-129 `solve_helper`; returns (found, heap, partial_solution). -/
def solveHelperG (A : Arith) (root : Nat) (h : Heap) (ps : List Nat) : Prog (Bool × Heap × List Nat) := do
  if ← isEmpty h root then                                             -- 94-96
    return (true, h, ps)
  let constraint ← chooseColumn h root                                 -- 98-101
  let h ← coverColumnG A h constraint                                  -- 103
  let it ← iterSkip1 .down h constraint                                -- 104
  solveRowsG A root constraint it h ps
partial_fixpoint
/-- mod.rs:104-128: the loop of `solve_helper` and the code after it. -/
def solveRowsG (A : Arith) (root constraint : Nat) (it : Iter) (h : Heap) (ps : List Nat) :
    Prog (Bool × Heap × List Nat) := do
  let (x, it) ← it.next .down h
  match x with
  | none =>
    let h ← uncoverColumnG A h constraint                              -- 126
    return (false, h, ps)                                              -- 128
  | some row =>
    let n ← h.read row
    let ps := ps ++ [n.row]                                            -- 105
    let h ← forSkip1 .right h row (coverColumnG A)                     -- 107-109
    let (found, h, ps) ← solveHelperG A root h ps                      -- 111
    if found then
      let h ← forSkip1 .right h row freeChain                          -- 112-114
      let h ← freeChain h constraint                                   -- 115
      return (true, h, ps)                                             -- 117
    let h ← forSkip1 .left h row (uncoverColumnG A)                    -- 120-122
    let ps := ps.dropLast                                              -- 124
    solveRowsG A root constraint it h ps
partial_fixpoint
end

/-- mod.rs:85-91 `solve(mut self)`; `self` is dropped on return. -/
def Matrix.solveG (A : Arith) (m : Matrix) (h : Heap) : Prog (Except DLError (List Nat) × Heap) := do
  let (found, h, ps) ← solveHelperG A m.root h m.partialSolution
  let h ← m.drop h
  if found then return (.ok ps, h)
  else return (.error .noSolution, h)

end DancingLinks
