import Verif.Model.Nonogram
import Verif.Spec.Counted

/-!
`solve_nonogram` with a counter of its steps. A step is a turn of a loop, an item of a vector that is made, collected or
cloned, or an item of a mapped iterator. Otherwise the code is that of the model.
-/
namespace Nonogram.Spec
open Nonogram Counted

/-- right_left.rs:22-25, one block. -/
def countedBlock (states : List Node) (value : Nat) : Counted (List Node) := do
  tick (value + 1)
  liftM (pushBlock states value)

/-- right_left.rs:20-27. -/
def countedStates (rule : List Nat) : Counted (List Node) := do
  tick 2
  let states ← Counted.forIn rule [Node.Start, Node.End] countedBlock
  liftM (setP states (states.length - 1) Node.End)

/-- right_left.rs:19-42 `RuleMachine::new`. -/
def countedNew (rule : List Nat) : Counted RuleMachine := do
  let leftStates ← countedStates rule
  let rightStates ← countedStates rule.reverse
  pure ⟨leftStates, rightStates⟩

/-- right_left.rs:148-161, one step for each square looked at. -/
def countedLookahead (last : Nat) : List Square → List Nat → Counted (Option (List Nat))
  | [], m => pure (some m)
  | q :: qs, m => do
    tick 1
    if q = .Filled then pure none else countedLookahead last qs (m ++ [last])

/-- right_left.rs:109-118: a clone costs the length of the vector. -/
def countedStay (curr : Node) (square : Option Square) (state : Nat) (m : List Nat) (new : Matches) : Counted Matches :=
  match curr with
  | .Start | .Fill => pure new
  | .Space | .End =>
    if square ≠ some .Filled then do
      tick m.length
      liftM (setP new state (some (m ++ [state])))
    else pure new

/-- right_left.rs:106-167. -/
def countedVisit (states : List Node) (square : Option Square) (rest : List Square) (state : Nat) (m : List Nat)
    (new : Matches) : Counted Visit := do
  let curr ← liftM (getP states state)
  let next ← liftM (getP states (state + 1))
  let new ← countedStay curr square state m new
  match next with
  | .Start => liftM (Prog.panic : Prog Visit)
  | .Fill =>
    if square ≠ some .Blocked then do
      let new ← liftM (setP new (state + 1) (some (m ++ [state + 1])))
      pure (.next new)
    else pure (.next new)
  | .Space =>
    if square ≠ some .Filled then do
      let new ← liftM (setP new (state + 1) (some (m ++ [state + 1])))
      pure (.next new)
    else pure (.next new)
  | .End =>
    match states[state + 2]? with
    | some .Fill => do
      let new ← if square ≠ some .Filled then (do
          tick m.length
          liftM (setP new (state + 1) (some (m ++ [state + 1])))) else pure new
      let new ← if square ≠ some .Blocked then liftM (setP new (state + 2) (some (m ++ [state + 2]))) else pure new
      pure (.next new)
    | some _ => liftM (Prog.panic : Prog Visit)
    | none => do
      let r ← (match square with
        | some q => countedLookahead (state + 1) (q :: rest) m
        | none => pure (some m))
      match r with
      | none => pure (.next new)
      | some m' => do
        let new ← liftM (setP new (state + 2) (some m'))
        pure (.breakOuter new)

/-- right_left.rs:101-168, one step for each item of `old_state`, occupied or not. -/
def countedVisits (states : List Node) (square : Option Square) (rest : List Square) :
    List (Option (List Nat) × Nat) → Matches → Counted Visit
  | [], new => pure (.next new)
  | (none, _) :: l, new => do
    tick 1
    countedVisits states square rest l new
  | (some m, state) :: l, new => do
    tick 1
    match ← countedVisit states square rest state m new with
    | .next new => countedVisits states square rest l new
    | .breakOuter new => pure (.breakOuter new)

/-- right_left.rs:98-175, one step for each turn. -/
def countedLoop (states : List Node) : List Square → Matches → Matches → Counted Matches
  | [], old, new => do
    tick 1
    match ← countedVisits states none [] old.zipIdx new with
    | .next new => pure new
    | .breakOuter new => pure new
  | q :: rest, old, new => do
    tick 1
    match ← countedVisits states (some q) rest old.zipIdx new with
    | .next new => countedLoop states rest new (old.map fun _ => none)
    | .breakOuter new => pure new

/-- right_left.rs:89-188 `find_left`: the two vectors, the loop, and one step for each item of the result. -/
def countedFindLeft (states : List Node) (grid : List Square) : Counted (Option (List Bool)) := do
  tick (2 * (states.length + 1))
  let old ← liftM (vecRepeat 24 (none : Option (List Nat)) (states.length + 1))
  let new ← liftM (vecRepeat 24 (none : Option (List Nat)) (states.length + 1))
  let old ← liftM (setP old 0 (some []))
  let new ← countedLoop states grid old new
  match ← liftM (getP new states.length) with
  | none => pure none
  | some m => do
    tick m.length
    let bs ← liftM (mapP (stateFilled states) m)
    pure (some bs)

/-- right_left.rs:57-83, one step for each turn. -/
def countedBody (oc : Bool) (left right : List Bool) (s : LState) (i : Nat) : Counted LState := do
  tick 1
  liftM (lineBody oc left right s i)

/-- right_left.rs:44-86 `RuleMachine::right_left`. -/
def countedRightLeft (oc : Bool) (m : RuleMachine) (grid : List Square) :
    Counted (Except NonogramError (List Square × Bool)) := do
  match ← countedFindLeft m.leftStates grid with
  | none => pure (.error .NoSolution)
  | some left =>
    match ← countedFindLeft m.rightStates grid.reverse with
    | none => pure (.error .NoSolution)
    | some right => do
      let s ← Counted.forIn (List.range left.length) ⟨grid, false, 0, 0, false, false⟩ (countedBody oc left right)
      pure (.ok (s.grid, s.changed))

/-- mod.rs:100, 104-108: one step for each reference collected. -/
def countedStep (oc : Bool) (m : RuleMachine) (ps : List Nat) (s : List Square × Bool) :
    Counted (Except NonogramError (List Square × Bool)) := do
  tick ps.length
  match ← countedRightLeft oc m (readAt s.1 ps) with
  | .error e => pure (.error e)
  | .ok (line, changed) => pure (.ok (writeAt s.1 ps line, s.2 || changed))

/-- mod.rs:99-101. -/
def countedCols (oc : Bool) (width : Nat) :
    List (RuleMachine × Nat) → List Square × Bool → Counted (Except NonogramError (List Square × Bool))
  | [], s => pure (.ok s)
  | (m, index) :: l, s => do
    let ps ← liftM (colPositions s.1.length width index)
    match ← countedStep oc m ps s with
    | .error e => pure (.error e)
    | .ok s => countedCols oc width l s

/-- mod.rs:103-109. -/
def countedRows (oc : Bool) (width : Nat) :
    List (RuleMachine × Nat) → List Square × Bool → Counted (Except NonogramError (List Square × Bool))
  | [], s => pure (.ok s)
  | (m, index) :: l, s => do
    let ps ← liftM (rowPositions oc s.1.length width index)
    match ← countedStep oc m ps s with
    | .error e => pure (.error e)
    | .ok s => countedRows oc width l s

/-- mod.rs:96-114. -/
def countedPass (oc : Bool) (width : Nat) (cols rows : List RuleMachine) (grid : List Square) :
    Counted (List Square ⊕ Except NonogramError (List Square)) := do
  match ← countedCols oc width cols.zipIdx (grid, false) with
  | .error e => pure (.inr (.error e))
  | .ok s =>
    match ← countedRows oc width rows.zipIdx s with
    | .error e => pure (.inr (.error e))
    | .ok s => if s.2 then pure (.inl s.1) else pure (.inr (.ok s.1))

/-- mod.rs:93, 94. -/
def countedMachines : List (List Nat) → Counted (List RuleMachine)
  | [] => pure []
  | rule :: rules => do
    let m ← countedNew rule
    let ms ← countedMachines rules
    pure (m :: ms)

/-- mod.rs:86-117 `right_left`. -/
def countedPropagation (oc : Bool) (grid : List Square) (col row : List (List Nat)) :
    Counted (Except NonogramError (List Square)) := do
  let width := col.length
  let cols ← countedMachines col
  let rows ← countedMachines row
  Counted.loop (countedPass oc width cols rows) grid

/-- mod.rs:71-84 `solve_nonogram`: the vector of squares, the propagation, the vector of results. -/
def countedSolve (oc : Bool) (col row : List (List Nat)) : Counted (Except NonogramError (List Bool)) := do
  let width := col.length
  let height := row.length
  let n ← liftM (mulW oc 64 width height)
  tick n
  let grid ← liftM (vecRepeat 1 Square.Blank n)
  match ← countedPropagation oc grid col row with
  | .error e => pure (.error e)
  | .ok grid => do
    let grid := recursiveBacktrack grid col row
    tick grid.length
    pure (.ok (grid.map fun q => decide (q = .Filled)))

/-- A bound on the steps of `find_left` on a line of `L` squares with `S` states. -/
def findCost (S L : Nat) : Nat := 2 * (S + 1) + (L + 1) * ((S + 1) * (2 * L + 1) + L + 2) + (L + 1)

/-- A bound on the steps for one line of `L` squares whose rule has `M` as the sum of its numbers and its length. -/
def lineCost (M L : Nat) : Nat := L + (2 * findCost (M + 2) L + (L + 1))

end Nonogram.Spec
