import Verif.Spec.Maze

/-!
The textbook random depth-first search: every cell has its own order of the four directions, fixed in advance, and
a recursive search from cell 0 tries the directions of each cell in that order.
-/
namespace Maze.Spec

/-- The four directions. -/
def directions : List MazeDirection := [.Right, .Down, .Left, .Up]

/-- Remove the wall on one side of cell `c`. -/
def openSide (w : Nat) (g : List MazeNode) (c : Nat) : MazeDirection → List MazeNode
  | .Right => g.modify c fun n => { n with right := false }
  | .Down => g.modify c fun n => { n with down := false }
  | .Left => g.modify (c - 1) fun n => { n with right := false }
  | .Up => g.modify (c - w) fun n => { n with down := false }

/-- The recursive search: `Explores w h ord c ds (V, g) (V', g')` says that trying the directions `ds` in cell `c`
in that order, entering every neighbour that has not been visited and trying all its directions before going on,
turns the visited cells `V` and the walls `g` into `V'` and `g'`. -/
inductive Explores (w h : Nat) (ord : Nat → List MazeDirection) :
    Nat → List MazeDirection → List Nat × List MazeNode → List Nat × List MazeNode → Prop
  | nil (c s) : Explores w h ord c [] s s
  | skip {c d ds s t} (hb : ∀ b, nbr w h c d = some b → b ∈ s.1) (ht : Explores w h ord c ds s t) :
      Explores w h ord c (d :: ds) s t
  | enter {c d ds b s s1 t} (hb : nbr w h c d = some b) (hn : b ∉ s.1)
      (h1 : Explores w h ord b (ord b) (b :: s.1, openSide w s.2 c d) s1) (ht : Explores w h ord c ds s1 t) :
      Explores w h ord c (d :: ds) s t

/-- `g` is the maze made by the search from cell 0 with all walls standing. -/
def MadeBy (w h : Nat) (ord : Nat → List MazeDirection) (g : List MazeNode) : Prop :=
  ∃ V, Explores w h ord 0 (ord 0) ([0], List.replicate (w * h) MazeNode.new) (V, g)

/-- An order of the four directions for every cell. -/
abbrev Orders (w h : Nat) : Type := Fin (w * h) → {l : List MazeDirection // l.Perm directions}

/-- The order of cell `c`. -/
def Orders.at {w h : Nat} (f : Orders w h) (c : Nat) : List MazeDirection :=
  if hc : c < w * h then (f ⟨c, hc⟩).1 else []

/-! ### Rows and columns exchanged -/

/-- The cell in row `c % w` and column `c / w` of a maze with `h` columns and `w` rows. -/
def trCell (w h c : Nat) : Nat := h * (c % w) + c / w

/-- The same direction seen with rows and columns exchanged. -/
def trDir : MazeDirection → MazeDirection
  | .Right => .Down
  | .Down => .Right
  | .Left => .Up
  | .Up => .Left

def trNode (n : MazeNode) : MazeNode := ⟨n.down, n.right⟩

/-- The maze of `w` columns and `h` rows seen with rows and columns exchanged. -/
def trGrid (w h : Nat) (g : List MazeNode) : List MazeNode :=
  (List.range (h * w)).map fun c => (g[trCell h w c]?.map trNode).getD MazeNode.new

/-- The sequence of draws that starts with `d`. -/
def drawSeq {m N : Nat} (d : Fin m → Fin N) (i : Nat) : Nat := if hi : i < m then (d ⟨i, hi⟩).1 else 0

end Maze.Spec
