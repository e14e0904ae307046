import Verif.Model.Maze

/-!
`create_maze` for a target whose `usize` has `ws` bytes (`ws` = 2, 4 or 8). `Model/Maze.lean` is for 64-bit targets. What
depends on the target: the arithmetic on `usize`, the limit `isize::MAX` of allocations, and the sizes of a `Vec` (three
words), an `Element` of the disjoint sets and a `PathNode` (two words); a `MazeNode` has two bytes everywhere.
-/
namespace Maze

/-- `vec![x; n]`, as `vecRepeat`. -/
def vecRepeatT (ws : Nat) {α : Type} (elemSize : Nat) (x : α) (n : Nat) : Prog (List α) :=
  if n * elemSize < 2 ^ (8 * ws - 1) then .ok (List.replicate n x) else .panic

/-- recursive_backtrack.rs:50-131, as `visitDir`. -/
def visitDirT (ws : Nat) (oc : Bool) (coordinate width height : Nat) (s : VState) :
    MazeDirection → Prog (VState ⊕ (Option Nat × VState))
  | .Right => do                                                       -- lines 51-70
    if width = 0 then .panic else
    let w1 ← subW oc (8 * ws) width 1
    if coordinate % width = w1 then return .inl s else
    let next ← addW oc (8 * ws) coordinate 1
    tryOpen s coordinate next coordinate (fun n => { n with right := false })
  | .Down => do                                                        -- lines 71-90
    let h1 ← subW oc (8 * ws) height 1
    let lim ← mulW oc (8 * ws) width h1
    if coordinate ≥ lim then return .inl s else
    let next ← addW oc (8 * ws) coordinate width
    tryOpen s coordinate next coordinate (fun n => { n with down := false })
  | .Left => do                                                        -- lines 91-110
    if width = 0 then .panic else
    if coordinate % width = 0 then return .inl s else
    let next ← subW oc (8 * ws) coordinate 1
    tryOpen s coordinate next next (fun n => { n with right := false })
  | .Up => do                                                          -- lines 111-130
    if coordinate < width then return .inl s else
    let next ← subW oc (8 * ws) coordinate width
    tryOpen s coordinate next next (fun n => { n with down := false })

/-- recursive_backtrack.rs:48-132, as `visitBody`. -/
def visitBodyT (ws : Nat) (oc : Bool) (rnd : Nat → Nat) (coordinate width height : Nat) (s : VState) :
    Prog (VState ⊕ (Option Nat × VState)) := do
  if s.visitable.isEmpty then return .inr (none, s)                    -- lines 48, 134
  let (d, visitable) ← chooseRandom (rnd s.k) s.visitable              -- line 49
  let d ← expectP d
  visitDirT ws oc coordinate width height { s with visitable := visitable, k := s.k + 1 } d

/-- recursive_backtrack.rs:40-135, as `visitNext`. -/
def visitNextT (ws : Nat) (oc : Bool) (rnd : Nat → Nat) (coordinate width height : Nat) (s : VState) :
    Prog (Option Nat × VState) :=
  loop (visitBodyT ws oc rnd coordinate width height) s

/-- recursive_backtrack.rs:19-35, as `backtrackBody`. -/
def backtrackBodyT (ws : Nat) (oc : Bool) (rnd : Nat → Nat) (width height : Nat) (s : RState) :
    Prog (RState ⊕ List MazeNode) :=
  match s.path with
  | [] => .ok (.inr s.maze)                                            -- lines 19, 37
  | coordinate :: rest => do                                           -- line 20
    let visitable ← getP s.canVisit coordinate                         -- line 28
    let (r, v) ← visitNextT ws oc rnd coordinate width height ⟨s.maze, s.conn, visitable, s.k⟩
    let canVisit ← setP s.canVisit coordinate v.visitable
    match r with
    | some next =>                                                     -- line 30
      return .inl ⟨v.maze, v.conn, next :: coordinate :: rest, canVisit, v.k⟩
    | none => return .inl ⟨v.maze, v.conn, rest, canVisit, v.k⟩        -- lines 31-33

/-- recursive_backtrack.rs:5-38, as `recursiveBacktrack`. -/
def recursiveBacktrackT (ws : Nat) (oc : Bool) (rnd : Nat → Nat) (width height : Nat) : Prog (List MazeNode) := do
  let n ← mulW oc (8 * ws) width height
  let maze ← vecRepeatT ws 2 MazeNode.new n                            -- line 6
  let conn ← vecRepeatT ws (2 * ws) DisjointSet.Element.new n          -- line 7, disjoint_set.rs:35-39
  let canVisit ← vecRepeatT ws (3 * ws)                                -- lines 10-18
    [MazeDirection.Right, MazeDirection.Down, MazeDirection.Left, MazeDirection.Up] n
  loop (backtrackBodyT ws oc rnd width height) ⟨maze, conn, [0], canVisit, 0⟩

/-- maze/mod.rs:89-97, as `stepDir`. -/
def stepDirT (ws : Nat) (oc : Bool) (width current parent : Nat) : Prog MazeDirection := do
  let right ← addW oc (8 * ws) current 1
  if parent = right then return .Left else
  let down ← addW oc (8 * ws) current width
  if parent = down then return .Up else
  let c1 ← subW oc (8 * ws) current 1
  if parent = c1 then return .Right else
  return .Down

/-- maze/mod.rs:88-100, as `solutionBody`. -/
def solutionBodyT (ws : Nat) (oc : Bool) (width : Nat) (pathTree : List PathNode) (s : Nat × List MazeDirection) :
    Prog ((Nat × List MazeDirection) ⊕ List MazeDirection) := do
  match ← getP pathTree s.1 with
  | .Path parent =>
    let d ← stepDirT ws oc width s.1 parent
    return .inl (parent, s.2 ++ [d])
  | _ => return .inr s.2

/-- maze/mod.rs:106-130, as `expand`. -/
def expandT (ws : Nat) (oc : Bool) (grid : List MazeNode) (width coordinate : Nat) (s : BState) : Prog BState := do
  let right ← addW oc (8 * ws) coordinate 1                            -- line 106
  let node ← getP grid coordinate
  let s ← tryVisit s node.right coordinate right                       -- lines 107-110
  let down ← addW oc (8 * ws) coordinate width                         -- line 112
  let s ← tryVisit s node.down coordinate down                         -- lines 113-116
  let s ← (if 1 ≤ coordinate then do                                   -- lines 118-123
      let node ← getP grid (coordinate - 1)
      tryVisit s node.right coordinate (coordinate - 1)
    else pure s)
  if width ≤ coordinate then do                                        -- lines 125-130
    let node ← getP grid (coordinate - width)
    tryVisit s node.down coordinate (coordinate - width)
  else pure s

/-- maze/mod.rs:75-131, as `bfsBody`. -/
def bfsBodyT (ws : Nat) (oc : Bool) (width height : Nat) (grid : List MazeNode) (s : BState) :
    Prog (BState ⊕ (List MazeNode × List MazeDirection)) := do
  match s.traversal with
  | [] => .panic                                                       -- lines 76-78 `expect`
  | coordinate :: rest =>
    let s := { s with traversal := rest }
    if width = 0 then .panic else
    let h1 ← subW oc (8 * ws) height 1
    if coordinate / width = h1 then                                    -- line 80
      let s := { s with foundPaths := s.foundPaths + 1 }               -- line 81
      if s.foundPaths = width then                                     -- line 83
        let node ← getP grid coordinate
        let grid ← setP grid coordinate { node with down := false }    -- line 84
        let solution ← loop (solutionBodyT ws oc width s.pathTree) (coordinate, [])
        return .inr (grid, solution)                                   -- line 102
      else
        let s ← expandT ws oc grid width coordinate s
        return .inl s
    else
      let s ← expandT ws oc grid width coordinate s
      return .inl s

/-- maze/mod.rs:58-132 `create_maze`, as `createMaze`. -/
def createMazeT (ws : Nat) (oc : Bool) (rnd : Nat → Nat) (width height : Nat) (algorithm : MazeAlgorithm) :
    Prog (List MazeNode × List MazeDirection) := do
  let grid ← match algorithm with                                      -- lines 63-65
    | .RecursiveBacktrack => recursiveBacktrackT ws oc rnd width height
  let n ← mulW oc (8 * ws) width height
  let pathTree ← vecRepeatT ws (2 * ws) PathNode.Unvisited n           -- line 67
  let pathTree ← setP pathTree 0 .Start                                -- line 68
  loop (bfsBodyT ws oc width height grid) ⟨pathTree, [0], 0⟩           -- lines 70-131

end Maze
