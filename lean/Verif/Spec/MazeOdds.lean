import Verif.Spec.Shuffle
import Mathlib.SetTheory.Cardinal.Finite
import Mathlib.Algebra.BigOperators.Group.Finset.Basic

/-! How likely a maze is, in terms of its passages. -/
namespace Maze.Spec

/-- A passage out of cell `c` in direction `d` that leads away from cell 0: `c` lies on the route to the next cell. -/
def Away (w h : Nat) (g : List MazeNode) (c : Nat) (d : MazeDirection) : Prop :=
  ∃ u, move w h g c d = some u ∧ OnRoute w h g c u

/-- The neighbour of cell `c` in direction `e`, separated by a wall or not, lies beyond the neighbour in
direction `d` (or is that neighbour): every route from cell 0 to it goes through the neighbour in direction `d`. -/
def Beyond (w h : Nat) (g : List MazeNode) (c : Nat) (d e : MazeDirection) : Prop :=
  ∃ u v, nbr w h c d = some u ∧ nbr w h c e = some v ∧ OnRoute w h g u v

/-- The number of neighbours of cell `c` that lie beyond its neighbour in direction `d`. -/
noncomputable def beyond (w h : Nat) (g : List MazeNode) (c : Nat) (d : MazeDirection) : Nat :=
  Nat.card {e // Beyond w h g c d e}

open Classical in
/-- The product of these numbers over all passages, each taken in the direction that leads away from cell 0. -/
noncomputable def odds (w h : Nat) (g : List MazeNode) : Nat :=
  ∏ c ∈ Finset.range (w * h), (directions.map fun d => if Away w h g c d then beyond w h g c d else 1).prod

/-- The number of passages, taken in the direction that leads away from cell 0, beyond which three neighbours of
their first cell lie. -/
noncomputable def triples (w h : Nat) (g : List MazeNode) : Nat :=
  Nat.card {p : Fin (w * h) × MazeDirection // Away w h g p.1 p.2 ∧ beyond w h g p.1 p.2 = 3}

end Maze.Spec
