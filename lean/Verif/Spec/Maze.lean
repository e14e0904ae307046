import Verif.Model.Maze
import Mathlib.Combinatorics.SimpleGraph.Basic
import Mathlib.Combinatorics.SimpleGraph.Paths
import Mathlib.Combinatorics.SimpleGraph.Acyclic
import Mathlib.Data.List.Shortlex

/-!
What a maze, a passage, a route, and a picture of a maze are, written without reference to the algorithms.

Cells are numbered row by row: cell `c` of a maze of width `w` is in column `c % w` and row `c / w`.
-/
namespace Maze.Spec

/-- Cell `c` has no right wall. -/
def rightOpen (g : List MazeNode) (c : Nat) : Bool := g[c]?.any (fun n => !n.right)
/-- Cell `c` has no bottom wall. -/
def downOpen (g : List MazeNode) (c : Nat) : Bool := g[c]?.any (fun n => !n.down)

/-- `b` is the right or the lower neighbour of `a` and there is no wall between them. -/
def Passage (w : Nat) (g : List MazeNode) (a b : Nat) : Prop :=
  (b = a + 1 ∧ a % w + 1 < w ∧ rightOpen g a = true) ∨ (b = a + w ∧ downOpen g a = true)

/-- The maze as a graph on its `w * h` cells. -/
def graph (w h : Nat) (g : List MazeNode) : SimpleGraph (Fin (w * h)) :=
  SimpleGraph.fromRel fun a b => Passage w g a b

/-- The neighbouring cell in a direction, walls disregarded; `none` outside the grid. -/
def nbr (w h c : Nat) : MazeDirection → Option Nat
  | .Right => if c % w + 1 < w then some (c + 1) else none
  | .Down => if c + w < w * h then some (c + w) else none
  | .Left => if 0 < c % w then some (c - 1) else none
  | .Up => if w ≤ c then some (c - w) else none

/-- Is the wall on that side of cell `c` absent? -/
def sideOpen (w : Nat) (g : List MazeNode) (c : Nat) : MazeDirection → Bool
  | .Right => rightOpen g c
  | .Down => downOpen g c
  | .Left => rightOpen g (c - 1)
  | .Up => downOpen g (c - w)

/-- One move of a walker that respects walls and the edge of the grid. -/
def move (w h : Nat) (g : List MazeNode) (c : Nat) (d : MazeDirection) : Option Nat :=
  if sideOpen w g c d then nbr w h c d else none

/-- The cells visited by a walker who starts in `c` and follows a list of directions; `none` if the walker
hits a wall or the edge. -/
def walk (w h : Nat) (g : List MazeNode) (c : Nat) : List MazeDirection → Option (List Nat)
  | [] => some [c]
  | d :: ds =>
    match move w h g c d with
    | none => none
    | some c' => (walk w h g c' ds).map (c :: ·)

/-- Cell `a` lies on a route from cell 0 to cell `b` that visits no cell twice. -/
def OnRoute (w h : Nat) (g : List MazeNode) (a b : Nat) : Prop :=
  ∃ (h0 : 0 < w * h) (ha : a < w * h) (hb : b < w * h)
    (p : (graph w h g).Walk ⟨0, h0⟩ ⟨b, hb⟩), p.IsPath ∧ ⟨a, ha⟩ ∈ p.support

/-- Of any two neighbouring cells, separated by a wall or not, one lies on the route from cell 0 to the other:
the maze has no two neighbouring cells in different branches. -/
def DepthFirst (w h : Nat) (g : List MazeNode) : Prop :=
  ∀ a b d, a < w * h → nbr w h a d = some b → OnRoute w h g a b ∨ OnRoute w h g b a

/-- A closed maze: one entry per cell, the right walls of the last column and the bottom walls of the last row
stand, and the passages form a tree. -/
structure ClosedTree (w h : Nat) (g : List MazeNode) : Prop where
  len : g.length = w * h
  right : ∀ c, c < w * h → c % w = w - 1 → rightOpen g c = false
  bottom : ∀ c, c < w * h → c / w = h - 1 → downOpen g c = false
  tree : (graph w h g).IsTree

/-- A walk from cell 0 to cell `b` that visits no cell twice, as a list of directions. -/
def Route (w h : Nat) (g : List MazeNode) (b : Nat) (ds : List MazeDirection) : Prop :=
  ∃ cells, walk w h g 0 ds = some cells ∧ cells.getLast? = some b ∧ cells.Nodup

/-- The order of the directions: right, down, left, up. -/
def rank : MazeDirection → Nat
  | .Right => 0
  | .Down => 1
  | .Left => 2
  | .Up => 3

/-- Routes by length, routes of equal length as in a dictionary. -/
def Before (a b : List MazeDirection) : Prop := List.Shortlex (fun x y => rank x < rank y) a b

end Maze.Spec

namespace Maze.Spec

/-! ### Pictures -/

/-- Pixel `(x, y)` of the picture of a maze of width `w` belongs to the left border, to the top border (which
leaves the entrance in columns 1 to 9 open), or to a wall of some cell. Cells are 10 pixels apart. -/
def WallPixel (w : Nat) (g : List MazeNode) (x y : Nat) : Prop :=
  x = 0 ∨ (y = 0 ∧ 10 ≤ x) ∨
  ∃ c n, g[c]? = some n ∧
    ((n.right = true ∧ x = 10 * (c % w + 1) ∧ 10 * (c / w) ≤ y ∧ y ≤ 10 * (c / w) + 10) ∨
     (n.down = true ∧ y = 10 * (c / w + 1) ∧ 10 * (c % w) ≤ x ∧ x ≤ 10 * (c % w) + 10))

/-- The wall pixels when cell numbers are cut to 32 bits: the walls of cell `c` are drawn at cell `c mod 2^32`. -/
def DrawnWall (w : Nat) (g : List MazeNode) (x y : Nat) : Prop :=
  ∃ c n, g[c]? = some n ∧
    ((n.right = true ∧ x = 10 * (c % 2 ^ 32 % w + 1) ∧ 10 * (c % 2 ^ 32 / w) ≤ y ∧ y ≤ 10 * (c % 2 ^ 32 / w) + 10) ∨
     (n.down = true ∧ y = 10 * (c % 2 ^ 32 / w + 1) ∧ 10 * (c % 2 ^ 32 % w) ≤ x ∧ x ≤ 10 * (c % 2 ^ 32 % w) + 10))

/-- The unit vector of a direction (`y` grows downwards). -/
def vec : MazeDirection → Int × Int
  | .Right => (1, 0)
  | .Down => (0, 1)
  | .Left => (-1, 0)
  | .Up => (0, -1)

/-- `a` and `b` are opposite directions. -/
def Opposite (a b : MazeDirection) : Prop := (vec a).1 + (vec b).1 = 0 ∧ (vec a).2 + (vec b).2 = 0

/-- The cell reached from cell `p` (column, row) by a list of directions, edges disregarded. -/
def endPos (p : Int × Int) (ds : List MazeDirection) : Int × Int :=
  ds.foldl (fun p d => (p.1 + (vec d).1, p.2 + (vec d).2)) p

/-- The 11 pixels from the centre of cell `p` to the centre of the next cell in direction `d`. -/
def segment (p : Int × Int) (d : MazeDirection) : List (Int × Int) :=
  (List.range 11).map fun (k : Nat) =>
    (10 * p.1 + 5 + (k : Int) * (vec d).1, 10 * p.2 + 5 + (k : Int) * (vec d).2)

/-- The pixels of all segments of a route starting in cell `p`. -/
def segments (p : Int × Int) : List MazeDirection → List (Int × Int)
  | [] => []
  | d :: ds => segment p d ++ segments (p.1 + (vec d).1, p.2 + (vec d).2) ds

/-- The pixels of the whole route: from the top edge to the centre of the first cell, the segments, and five
pixels down from the centre of the last cell. -/
def routePixels (ds : List MazeDirection) : List (Int × Int) :=
  (List.range 6).map (fun (k : Nat) => ((5 : Int), (k : Int))) ++ segments (0, 0) ds ++
    (List.range 5).map (fun (k : Nat) => (10 * (endPos (0, 0) ds).1 + 5, 10 * (endPos (0, 0) ds).2 + 6 + (k : Int)))

/-- A pixel position lies in an image. -/
def InImage (W H : Nat) (p : Int × Int) : Prop := 0 ≤ p.1 ∧ p.1 < W ∧ 0 ≤ p.2 ∧ p.2 < H

/-- Some step of the route goes left out of column 1 or up out of row 1. -/
def BackToEdge (p : Int × Int) : List MazeDirection → Prop
  | [] => False
  | d :: ds => (d = .Left ∧ p.1 = 1) ∨ (d = .Up ∧ p.2 = 1) ∨
      BackToEdge (p.1 + (vec d).1, p.2 + (vec d).2) ds

/-- Some step of the route from cell `p` goes right out of column 429496728 or down out of row 429496728, where
`10 * 429496728 + 16 = 2^32`, and the steps before it stay in the image and never go back to the edge. -/
def Overrun (W H : Nat) (p : Int × Int) (ds : List MazeDirection) : Prop :=
  ∃ pre d post, ds = pre ++ d :: post ∧ (∀ q ∈ segments p pre, InImage W H q) ∧ ¬ BackToEdge p pre ∧
    ((d = .Right ∧ (endPos p pre).1 = 429496728) ∨ (d = .Down ∧ (endPos p pre).2 = 429496728))

end Maze.Spec
