import Verif.Base
import Verif.Model.DisjointSet
import Verif.Model.Image

/-!
Model of /repo/src/util.rs (`choose_random`), /repo/src/puzzles/maze/recursive_backtrack.rs and
/repo/src/puzzles/maze/mod.rs.

Randomness. `thread_rng()` is an arbitrary infinite sequence of draws `rnd : Nat → Nat`; the number of
draws made so far is threaded through as `k`. `(0..len).choose(rng)` is `None` for `len = 0` and otherwise
`rnd k % len`: every index is possible, nothing is assumed about the distribution. Theorems quantify over
`rnd`.

Arithmetic. Products of the caller's `width` and `height`, sums with coordinates and all subtractions are machine
operations (`mulW`, `addW`, `subW`, 64 bit). The counter `found_paths` is on `Nat`: it is at most the number of cells.
-/
namespace Maze

/-- maze/mod.rs:15-21 `MazeError`. -/
inductive MazeError where
  | InvalidDimensions
  | InvalidSolution
  deriving DecidableEq, Repr

/-- maze/mod.rs:23-26 `MazeAlgorithm`. -/
inductive MazeAlgorithm where
  | RecursiveBacktrack
  deriving DecidableEq, Repr

/-- maze/mod.rs:28-32 `MazeNode`. -/
structure MazeNode where
  right : Bool
  down : Bool
  deriving DecidableEq, Repr

/-- maze/mod.rs:35-40 `MazeNode::new`. -/
def MazeNode.new : MazeNode := { right := true, down := true }

/-- maze/mod.rs:43-49 `MazeDirection`. -/
inductive MazeDirection where
  | Right
  | Down
  | Left
  | Up
  deriving DecidableEq, Repr

/-- maze/mod.rs:51-56 `PathNode`. -/
inductive PathNode where
  | Start
  | Path (parent : Nat)
  | Unvisited
  deriving DecidableEq, Repr

/-! ### util.rs -/

/-- `Vec::swap_remove(idx)`: panics out of range; the last element takes the place of the removed one. -/
def swapRemove {α : Type} (v : List α) (idx : Nat) : Prog (α × List α) := do
  let x ← getP v idx
  match v.getLast? with
  | none => .panic
  | some l => return (x, (v.set idx l).dropLast)

/-- `(0..len).choose(&mut thread_rng())` where `draw` is the next random number. -/
def chooseIdx (draw len : Nat) : Option Nat := if len = 0 then none else some (draw % len)

/-- util.rs:11-14 `choose_random`. -/
def chooseRandom {α : Type} (draw : Nat) (v : List α) : Prog (Option α × List α) := do
  match chooseIdx draw v.length with                    -- line 12
  | none => return (none, v)
  | some idx =>
    let (x, v) ← swapRemove v idx                       -- line 13
    return (some x, v)

/-! ### recursive_backtrack.rs -/

/-- What `visit_next` changes: the wall grid, the disjoint set, the directions left for the current cell,
and the number of random draws made. -/
structure VState where
  maze : List MazeNode
  conn : DisjointSet.DSU
  visitable : List MazeDirection
  k : Nat

/-- recursive_backtrack.rs:58-69 (and 78-89, 98-109, 118-129): test `common_set`, open the wall (`opened`
is the index of the cell owning the wall, `open` clears it), `union`, return `Some(next)`. -/
def tryOpen (s : VState) (coordinate next opened : Nat) (opn : MazeNode → MazeNode) :
    Prog (VState ⊕ (Option Nat × VState)) := do
  let (common, conn) ← DisjointSet.commonSet s.conn coordinate next    -- lines 58-60
  let common ← expectP common
  if common then
    return .inl { s with conn := conn }                                -- line 62 `continue`
  let node ← getP s.maze opened
  let maze ← setP s.maze opened (opn node)                             -- line 65
  let (u, conn) ← DisjointSet.union conn coordinate next               -- lines 66-68
  let _ ← expectP u
  return .inr (some next, { s with maze := maze, conn := conn })       -- line 69

/-- recursive_backtrack.rs:50-131: the `match` on the drawn direction. -/
def visitDir (oc : Bool) (coordinate width height : Nat) (s : VState) :
    MazeDirection → Prog (VState ⊕ (Option Nat × VState))
  | .Right => do                                                       -- lines 51-70
    if width = 0 then .panic else
    let w1 ← subW oc 64 width 1
    if coordinate % width = w1 then return .inl s else
    let next ← addW oc 64 coordinate 1
    tryOpen s coordinate next coordinate (fun n => { n with right := false })
  | .Down => do                                                        -- lines 71-90
    let h1 ← subW oc 64 height 1
    let lim ← mulW oc 64 width h1
    if coordinate ≥ lim then return .inl s else
    let next ← addW oc 64 coordinate width
    tryOpen s coordinate next coordinate (fun n => { n with down := false })
  | .Left => do                                                        -- lines 91-110
    if width = 0 then .panic else
    if coordinate % width = 0 then return .inl s else
    let next ← subW oc 64 coordinate 1
    tryOpen s coordinate next next (fun n => { n with right := false })
  | .Up => do                                                          -- lines 111-130
    if coordinate < width then return .inl s else
    let next ← subW oc 64 coordinate width
    tryOpen s coordinate next next (fun n => { n with down := false })

/-- recursive_backtrack.rs:48-132: one turn of the `while` loop. -/
def visitBody (oc : Bool) (rnd : Nat → Nat) (coordinate width height : Nat) (s : VState) :
    Prog (VState ⊕ (Option Nat × VState)) := do
  if s.visitable.isEmpty then return .inr (none, s)                    -- lines 48, 134
  let (d, visitable) ← chooseRandom (rnd s.k) s.visitable              -- line 49
  let d ← expectP d
  visitDir oc coordinate width height { s with visitable := visitable, k := s.k + 1 } d

/-- recursive_backtrack.rs:40-135 `visit_next`. -/
def visitNext (oc : Bool) (rnd : Nat → Nat) (coordinate width height : Nat) (s : VState) :
    Prog (Option Nat × VState) :=
  loop (visitBody oc rnd coordinate width height) s

/-- Local variables of `recursive_backtrack`. -/
structure RState where
  maze : List MazeNode
  conn : DisjointSet.DSU
  path : List Nat
  canVisit : List (List MazeDirection)
  k : Nat

/-- recursive_backtrack.rs:19-35: one turn of the `while` loop. The `Vec` `path` is kept with its last
element first, so `push` is `::`. -/
def backtrackBody (oc : Bool) (rnd : Nat → Nat) (width height : Nat) (s : RState) :
    Prog (RState ⊕ List MazeNode) :=
  match s.path with
  | [] => .ok (.inr s.maze)                                            -- lines 19, 37
  | coordinate :: rest => do                                           -- line 20
    let visitable ← getP s.canVisit coordinate                         -- line 28
    let (r, v) ← visitNext oc rnd coordinate width height ⟨s.maze, s.conn, visitable, s.k⟩
    let canVisit ← setP s.canVisit coordinate v.visitable
    match r with
    | some next =>                                                     -- line 30
      return .inl ⟨v.maze, v.conn, next :: coordinate :: rest, canVisit, v.k⟩
    | none => return .inl ⟨v.maze, v.conn, rest, canVisit, v.k⟩        -- lines 31-33

/-- recursive_backtrack.rs:5-38 `recursive_backtrack` (`MazeNode` is 2 bytes, `Vec<_>` 24). -/
def recursiveBacktrack (oc : Bool) (rnd : Nat → Nat) (width height : Nat) : Prog (List MazeNode) := do
  let n ← mulW oc 64 width height
  let maze ← vecRepeat 2 MazeNode.new n                                -- line 6
  let conn ← DisjointSet.withSize n                                    -- line 7
  let canVisit ← vecRepeat 24                                          -- lines 10-18
    [MazeDirection.Right, MazeDirection.Down, MazeDirection.Left, MazeDirection.Up] n
  loop (backtrackBody oc rnd width height) ⟨maze, conn, [0], canVisit, 0⟩

/-! ### mod.rs: create_maze -/

/-- maze/mod.rs:89-97: the direction pushed for one step from `parent` to `current`. -/
def stepDir (oc : Bool) (width current parent : Nat) : Prog MazeDirection := do
  let right ← addW oc 64 current 1
  if parent = right then return .Left else
  let down ← addW oc 64 current width
  if parent = down then return .Up else
  let c1 ← subW oc 64 current 1
  if parent = c1 then return .Right else
  return .Down

/-- maze/mod.rs:88-100: one turn of `while let PathNode::Path(parent) = path_tree[current]`. -/
def solutionBody (oc : Bool) (width : Nat) (pathTree : List PathNode) (s : Nat × List MazeDirection) :
    Prog ((Nat × List MazeDirection) ⊕ List MazeDirection) := do
  match ← getP pathTree s.1 with
  | .Path parent =>
    let d ← stepDir oc width s.1 parent
    return .inl (parent, s.2 ++ [d])
  | _ => return .inr s.2

/-- Local variables of `create_maze`. -/
structure BState where
  pathTree : List PathNode
  traversal : List Nat
  foundPaths : Nat

/-- maze/mod.rs:107-110 (113-116, 119-122, 126-129): `if !wall && matches!(path_tree[to], Unvisited)
{ path_tree[to] = Path(from); traversal.push_back(to) }`. -/
def tryVisit (s : BState) (wall : Bool) (frm to : Nat) : Prog BState := do
  if wall then return s
  match ← getP s.pathTree to with
  | .Unvisited =>
    let pathTree ← setP s.pathTree to (.Path frm)
    return { s with pathTree := pathTree, traversal := s.traversal ++ [to] }
  | _ => return s

/-- maze/mod.rs:106-130: look at the four neighbours. -/
def expand (oc : Bool) (grid : List MazeNode) (width coordinate : Nat) (s : BState) : Prog BState := do
  let right ← addW oc 64 coordinate 1                                  -- line 106
  let node ← getP grid coordinate
  let s ← tryVisit s node.right coordinate right                       -- lines 107-110
  let down ← addW oc 64 coordinate width                               -- line 112
  let s ← tryVisit s node.down coordinate down                         -- lines 113-116
  let s ← (if 1 ≤ coordinate then do                                   -- lines 118-123
      let node ← getP grid (coordinate - 1)
      tryVisit s node.right coordinate (coordinate - 1)
    else pure s)
  if width ≤ coordinate then do                                        -- lines 125-130
    let node ← getP grid (coordinate - width)
    tryVisit s node.down coordinate (coordinate - width)
  else pure s

/-- maze/mod.rs:75-131: one turn of the breadth-first search. -/
def bfsBody (oc : Bool) (width height : Nat) (grid : List MazeNode) (s : BState) :
    Prog (BState ⊕ (List MazeNode × List MazeDirection)) := do
  match s.traversal with
  | [] => .panic                                                       -- lines 76-78 `expect`
  | coordinate :: rest =>
    let s := { s with traversal := rest }
    if width = 0 then .panic else
    let h1 ← subW oc 64 height 1
    if coordinate / width = h1 then                                    -- line 80
      let s := { s with foundPaths := s.foundPaths + 1 }               -- line 81
      if s.foundPaths = width then                                     -- line 83
        let node ← getP grid coordinate
        let grid ← setP grid coordinate { node with down := false }    -- line 84
        let solution ← loop (solutionBody oc width s.pathTree) (coordinate, [])
        return .inr (grid, solution)                                   -- line 102
      else
        let s ← expand oc grid width coordinate s
        return .inl s
    else
      let s ← expand oc grid width coordinate s
      return .inl s

/-- maze/mod.rs:58-132 `create_maze` (`PathNode` is 16 bytes). -/
def createMaze (oc : Bool) (rnd : Nat → Nat) (width height : Nat) (algorithm : MazeAlgorithm) :
    Prog (List MazeNode × List MazeDirection) := do
  let grid ← match algorithm with                                      -- lines 63-65
    | .RecursiveBacktrack => recursiveBacktrack oc rnd width height
  let n ← mulW oc 64 width height
  let pathTree ← vecRepeat 16 PathNode.Unvisited n                     -- line 67
  let pathTree ← setP pathTree 0 .Start                                -- line 68
  loop (bfsBody oc width height grid) ⟨pathTree, [0], 0⟩               -- lines 70-131

/-! ### mod.rs: print_maze, print_maze_solution -/

/-- `for k in lo..=hi { image.put_pixel(x(k), y(k), c) }` with 32-bit coordinates computed by `f`. -/
def putLoop (img : Img) (lo hi : Nat) (c : Rgb) (f : Nat → Prog (Nat × Nat)) : Prog Img :=
  _root_.forIn' (List.range' lo (hi + 1 - lo)) img fun img k => do
    let (x, y) ← f k
    img.putPixel x y c

/-- maze/mod.rs:150-164: draw the walls of one cell. -/
def printNode (oc : Bool) (width : Nat) (img : Img) (p : MazeNode × Nat) : Prog Img := do
  let idx := p.2 % 2 ^ 32                                              -- line 150 `i as u32`
  if width = 0 then .panic else
  let x := idx % width                                                 -- line 151
  let y := idx / width                                                 -- line 152
  let img ← (if p.1.right then
      putLoop img 0 10 blackPixel fun k => do                          -- lines 154-158
        let a ← mulW oc 32 (← addW oc 32 x 1) 10
        let b ← addW oc 32 (← mulW oc 32 y 10) k
        return (a, b)
    else pure img)
  if p.1.down then
    putLoop img 0 10 blackPixel fun k => do                            -- lines 160-164
      let a ← addW oc 32 (← mulW oc 32 x 10) k
      let b ← mulW oc 32 (← addW oc 32 y 1) 10
      return (a, b)
  else pure img

/-- maze/mod.rs:134-168 `print_maze`; `width`, `height` are `u32`. The product on line 135 is of `usize`s and
cannot overflow. -/
def printMaze (oc : Bool) (width height : Nat) (grid : List MazeNode) : Prog (Except MazeError Img) := do
  if width * height ≠ grid.length then return .error .InvalidDimensions
  let iw ← addW oc 32 (← mulW oc 32 width 10) 1
  let ih ← addW oc 32 (← mulW oc 32 height 10) 1
  let img ← Img.fromPixel iw ih whitePixel                             -- line 139
  let img ← _root_.forIn' (List.range img.height) img fun img row => img.putPixel 0 row blackPixel
  let img ← _root_.forIn' (List.range' 10 (img.width - 10)) img fun img col => img.putPixel col 0 blackPixel
  let img ← _root_.forIn' grid.zipIdx img (printNode oc width)
  return .ok img

/-- Local variables of `print_maze_solution`. -/
structure PState where
  img : Img
  x : Nat
  y : Nat

/-- maze/mod.rs:186-231: one step of the walk; `.error` is the early `return Err(..)`. All arithmetic is on
`u32`. `||` evaluates its right side only if needed; the model computes both sides of the overflow-capable
comparisons only when Rust does. -/
def solutionStep (oc : Bool) (s : PState) : MazeDirection → Prog (Except MazeError PState)
  | .Right => do                                                       -- lines 187-197
    let a ← addW oc 32 (← mulW oc 32 s.x 10) 16
    if s.img.width < a then return .error .InvalidSolution
    let b ← addW oc 32 (← mulW oc 32 s.y 10) 6
    if s.img.height < b then return .error .InvalidSolution
    let img ← putLoop s.img 0 10 redPixel fun k => do
      let px ← addW oc 32 (← addW oc 32 (← mulW oc 32 s.x 10) k) 5
      let py ← addW oc 32 (← mulW oc 32 s.y 10) 5
      return (px, py)
    let x ← addW oc 32 s.x 1
    return .ok ⟨img, x, s.y⟩
  | .Down => do                                                        -- lines 198-208
    let a ← addW oc 32 (← mulW oc 32 s.x 10) 6
    if s.img.width < a then return .error .InvalidSolution
    let b ← addW oc 32 (← mulW oc 32 s.y 10) 16
    if s.img.height < b then return .error .InvalidSolution
    let img ← putLoop s.img 0 10 redPixel fun k => do
      let px ← addW oc 32 (← mulW oc 32 s.x 10) 5
      let py ← addW oc 32 (← addW oc 32 (← mulW oc 32 s.y 10) k) 5
      return (px, py)
    let y ← addW oc 32 s.y 1
    return .ok ⟨img, s.x, y⟩
  | .Left => do                                                        -- lines 209-219
    let a ← mulW oc 32 s.x 10
    if a < 15 then return .error .InvalidSolution
    let b ← addW oc 32 (← mulW oc 32 s.y 10) 6
    if s.img.height < b then return .error .InvalidSolution
    let img ← putLoop s.img 0 10 redPixel fun k => do
      let px ← addW oc 32 (← subW oc 32 (← mulW oc 32 s.x 10) k) 5
      let py ← addW oc 32 (← mulW oc 32 s.y 10) 5
      return (px, py)
    let x ← subW oc 32 s.x 1
    return .ok ⟨img, x, s.y⟩
  | .Up => do                                                          -- lines 220-230
    let a ← addW oc 32 (← mulW oc 32 s.x 10) 6
    if s.img.width < a then return .error .InvalidSolution
    let b ← mulW oc 32 s.y 10
    if b < 15 then return .error .InvalidSolution
    let img ← putLoop s.img 0 10 redPixel fun k => do
      let px ← addW oc 32 (← mulW oc 32 s.x 10) 5
      let py ← addW oc 32 (← subW oc 32 (← mulW oc 32 s.y 10) k) 5
      return (px, py)
    let y ← subW oc 32 s.y 1
    return .ok ⟨img, s.x, y⟩

/-- maze/mod.rs:185-232: the `for step in solution.iter().rev()` loop, over the already reversed list. -/
def solutionSteps (oc : Bool) (s : PState) : List MazeDirection → Prog (Except MazeError PState)
  | [] => .ok (.ok s)
  | d :: ds => do
    match ← solutionStep oc s d with
    | .error e => return .error e
    | .ok s => solutionSteps oc s ds

/-- maze/mod.rs:170-243 `print_maze_solution`. -/
def printMazeSolution (oc : Bool) (unsolved : Img) (solution : List MazeDirection) :
    Prog (Except MazeError Img) := do
  if unsolved.width < 6 ∨ unsolved.height < 6 then return .error .InvalidDimensions   -- lines 174-176
  let img ← putLoop unsolved 0 5 redPixel fun k => do                  -- lines 181-183 (`x = y = 0`)
    let px ← addW oc 32 0 5
    let py ← addW oc 32 0 k
    return (px, py)
  match ← solutionSteps oc ⟨img, 0, 0⟩ solution.reverse with
  | .error e => return .error e
  | .ok s =>
    let a ← addW oc 32 (← mulW oc 32 s.x 10) 6                         -- line 234
    if s.img.width < a then return .error .InvalidSolution
    let b ← addW oc 32 (← mulW oc 32 s.y 10) 16
    if s.img.height < b then return .error .InvalidSolution
    let img ← putLoop s.img 1 5 redPixel fun k => do                   -- lines 238-240
      let px ← addW oc 32 (← mulW oc 32 s.x 10) 5
      let py ← addW oc 32 (← addW oc 32 (← mulW oc 32 s.y 10) k) 5
      return (px, py)
    return .ok img

end Maze
