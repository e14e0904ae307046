import Verif.Model.Maze
import Verif.Spec.Counted
import Verif.Spec.DisjointSetCost

/-!
`create_maze` with a counter of its steps. A step is a turn of a loop, a call of `find_helper` or an item of a vector that
is made. Otherwise the code is that of the model.
-/
namespace Maze.Spec
open Maze Counted

/-- `common_set` with its calls of `find_helper` counted. -/
def countedCommon (conn : DisjointSet.DSU) (i j : Nat) : Counted (Option Bool × DisjointSet.DSU) :=
  Prog.bind (DisjointSet.Spec.countedCommonSet conn 0 i j) fun r => Prog.ok ((r.1, r.2.1), r.2.2)

/-- `union` with its calls of `find_helper` counted. -/
def countedUnite (conn : DisjointSet.DSU) (i j : Nat) : Counted (Option Nat × DisjointSet.DSU) :=
  Prog.bind (DisjointSet.Spec.countedUnion conn 0 i j) fun r => Prog.ok ((r.1, r.2.1), r.2.2)

/-- recursive_backtrack.rs:58-69. -/
def countedTryOpen (s : VState) (coordinate next opened : Nat) (opn : MazeNode → MazeNode) :
    Counted (VState ⊕ (Option Nat × VState)) := do
  let (common, conn) ← countedCommon s.conn coordinate next
  let common ← liftM (expectP common)
  if common then pure (.inl { s with conn := conn }) else do
    let node ← liftM (getP s.maze opened)
    let maze ← liftM (setP s.maze opened (opn node))
    let (u, conn) ← countedUnite conn coordinate next
    let _ ← liftM (expectP u)
    pure (.inr (some next, { s with maze := maze, conn := conn }))

/-- recursive_backtrack.rs:50-131. -/
def countedVisitDir (oc : Bool) (coordinate width height : Nat) (s : VState) :
    MazeDirection → Counted (VState ⊕ (Option Nat × VState))
  | .Right =>
    if width = 0 then liftM (Prog.panic : Prog (VState ⊕ (Option Nat × VState))) else do
    let w1 ← liftM (subW oc 64 width 1)
    if coordinate % width = w1 then pure (.inl s) else do
    let next ← liftM (addW oc 64 coordinate 1)
    countedTryOpen s coordinate next coordinate (fun n => { n with right := false })
  | .Down => do
    let h1 ← liftM (subW oc 64 height 1)
    let lim ← liftM (mulW oc 64 width h1)
    if coordinate ≥ lim then pure (.inl s) else do
    let next ← liftM (addW oc 64 coordinate width)
    countedTryOpen s coordinate next coordinate (fun n => { n with down := false })
  | .Left =>
    if width = 0 then liftM (Prog.panic : Prog (VState ⊕ (Option Nat × VState))) else
    if coordinate % width = 0 then pure (.inl s) else do
    let next ← liftM (subW oc 64 coordinate 1)
    countedTryOpen s coordinate next next (fun n => { n with right := false })
  | .Up =>
    if coordinate < width then pure (.inl s) else do
    let next ← liftM (subW oc 64 coordinate width)
    countedTryOpen s coordinate next next (fun n => { n with down := false })

/-- recursive_backtrack.rs:48-132: one turn, one step. -/
def countedVisitBody (oc : Bool) (rnd : Nat → Nat) (coordinate width height : Nat) (s : VState) :
    Counted (VState ⊕ (Option Nat × VState)) := do
  tick 1
  if s.visitable.isEmpty then pure (.inr (none, s)) else do
    let (d, visitable) ← liftM (chooseRandom (rnd s.k) s.visitable)
    let d ← liftM (expectP d)
    countedVisitDir oc coordinate width height { s with visitable := visitable, k := s.k + 1 } d

/-- recursive_backtrack.rs:40-135 `visit_next`. -/
def countedVisitNext (oc : Bool) (rnd : Nat → Nat) (coordinate width height : Nat) (s : VState) :
    Counted (Option Nat × VState) :=
  Counted.loop (countedVisitBody oc rnd coordinate width height) s

/-- recursive_backtrack.rs:19-35: one turn, one step. -/
def countedBacktrackBody (oc : Bool) (rnd : Nat → Nat) (width height : Nat) (s : RState) :
    Counted (RState ⊕ List MazeNode) := do
  tick 1
  match s.path with
  | [] => pure (.inr s.maze)
  | coordinate :: rest => do
    let visitable ← liftM (getP s.canVisit coordinate)
    let (r, v) ← countedVisitNext oc rnd coordinate width height ⟨s.maze, s.conn, visitable, s.k⟩
    let canVisit ← liftM (setP s.canVisit coordinate v.visitable)
    match r with
    | some next => pure (.inl ⟨v.maze, v.conn, next :: coordinate :: rest, canVisit, v.k⟩)
    | none => pure (.inl ⟨v.maze, v.conn, rest, canVisit, v.k⟩)

/-- recursive_backtrack.rs:5-38: a vector of `n` cells takes `n` steps, `n` vectors of four directions `5 * n`. -/
def countedBacktrack (oc : Bool) (rnd : Nat → Nat) (width height : Nat) : Counted (List MazeNode) := do
  let n ← liftM (mulW oc 64 width height)
  tick n
  let maze ← liftM (vecRepeat 2 MazeNode.new n)
  tick n
  let conn ← liftM (DisjointSet.withSize n)
  tick (5 * n)
  let canVisit ← liftM (vecRepeat 24
    [MazeDirection.Right, MazeDirection.Down, MazeDirection.Left, MazeDirection.Up] n)
  Counted.loop (countedBacktrackBody oc rnd width height) ⟨maze, conn, [0], canVisit, 0⟩

/-- maze/mod.rs:88-100: one turn, one step. -/
def countedSolutionBody (oc : Bool) (width : Nat) (pathTree : List PathNode) (s : Nat × List MazeDirection) :
    Counted ((Nat × List MazeDirection) ⊕ List MazeDirection) := do
  tick 1
  liftM (solutionBody oc width pathTree s)

/-- maze/mod.rs:75-131: one turn, one step. -/
def countedBfsBody (oc : Bool) (width height : Nat) (grid : List MazeNode) (s : BState) :
    Counted (BState ⊕ (List MazeNode × List MazeDirection)) := do
  tick 1
  match s.traversal with
  | [] => liftM (Prog.panic : Prog (BState ⊕ (List MazeNode × List MazeDirection)))
  | coordinate :: rest =>
    let s := { s with traversal := rest }
    if width = 0 then liftM (Prog.panic : Prog (BState ⊕ (List MazeNode × List MazeDirection))) else do
    let h1 ← liftM (subW oc 64 height 1)
    if coordinate / width = h1 then
      let s := { s with foundPaths := s.foundPaths + 1 }
      if s.foundPaths = width then do
        let node ← liftM (getP grid coordinate)
        let grid ← liftM (setP grid coordinate { node with down := false })
        let solution ← (Counted.loop (countedSolutionBody oc width s.pathTree) (coordinate, []) : Counted _)
        pure (.inr (grid, solution))
      else do
        let s ← liftM (expand oc grid width coordinate s)
        pure (.inl s)
    else do
      let s ← liftM (expand oc grid width coordinate s)
      pure (.inl s)

/-- maze/mod.rs:58-132 `create_maze`. -/
def countedCreate (oc : Bool) (rnd : Nat → Nat) (width height : Nat) (algorithm : MazeAlgorithm) :
    Counted (List MazeNode × List MazeDirection) := do
  let grid ← match algorithm with
    | .RecursiveBacktrack => countedBacktrack oc rnd width height
  let n ← liftM (mulW oc 64 width height)
  tick n
  let pathTree ← liftM (vecRepeat 16 PathNode.Unvisited n)
  let pathTree ← liftM (setP pathTree 0 .Start)
  Counted.loop (countedBfsBody oc width height grid) ⟨pathTree, [0], 0⟩

end Maze.Spec
