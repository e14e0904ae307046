import Verif.Spec.Maze

/-! Dead ends of mazes. -/
namespace Maze.Spec

/-- The number of directions in which a walker can leave cell `c` without leaving the maze. -/
def doors (w h : Nat) (g : List MazeNode) (c : Nat) : Nat :=
  [MazeDirection.Right, .Down, .Left, .Up].countP fun d => (move w h g c d).isSome

/-- The dead ends other than the first cell. -/
def deadEnds (w h : Nat) (g : List MazeNode) : List Nat :=
  (List.range (w * h)).filter fun c => decide (c ≠ 0 ∧ doors w h g c = 1)

end Maze.Spec
