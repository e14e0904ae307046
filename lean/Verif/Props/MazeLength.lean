import Verif.Props.MazeRoute
import Verif.Proofs.Maze.Snake

/-! C103: how long the route of a created maze can be. -/
namespace Maze.Props
open Maze Maze.Spec

variable {w h : Nat}

/-- C103, the bounds. Whatever is drawn, the route of a created maze has at least `width + height - 2` directions and at
most `width * height - 1`. -/
theorem C103_bounds (oc : Bool) (rnd : Nat → Nat) (alg : MazeAlgorithm) (hw : 1 ≤ w) (hh : 1 ≤ h)
    (hn : w * h * 24 < 2 ^ 63) :
    ∃ g sol, createMaze oc rnd w h alg = .ok (g, sol) ∧ w + h - 2 ≤ sol.length ∧ sol.length ≤ w * h - 1 := by
  obtain ⟨g, sol, e, h1, hR⟩ := createMaze_result oc rnd hw hh hn alg
  refine ⟨g, sol, h1, hR.long hw hh, ?_⟩
  rcases Nat.lt_or_ge 1 w with h2 | h2
  · obtain ⟨g', sol', x, h1', _, _, _, _, _, h3, _⟩ := C84_route_counts oc rnd alg h2 hh hn
    rw [h1] at h1'
    cases h1'
    omega
  · obtain rfl : w = 1 := by omega
    rw [hR.narrow rfl, List.length_replicate]
    omega

/-- C103, the upper bound is attained: for every width and height some draws give a route through all cells. -/
theorem C103_longest (oc : Bool) (alg : MazeAlgorithm) (hw : 1 ≤ w) (hh : 1 ≤ h) (hn : w * h * 24 < 2 ^ 63) :
    ∃ rnd g sol, createMaze oc rnd w h alg = .ok (g, sol) ∧ sol.length = w * h - 1 := by
  obtain ⟨rnd, g, sol, e, h1, he, _, h2, h3⟩ := (snake_ham (w := w) (h := h)).create oc alg hw hh hn
  refine ⟨rnd, g, sol, h1, ?_⟩
  have hwh : w * (h - 1) + w = w * h := by rw [← Nat.mul_succ]; congr 1; omega
  rw [h2]
  by_cases hp : (h - 1) % 2 = 0
  · have := h3 (w - 1) (by omega)
    simp only [snake, if_pos hp] at this ⊢
    omega
  · have := h3 0 (by omega)
    simp only [snake, if_neg hp] at this ⊢
    omega

/-- C103, the lower bound is attained: for every width and height some draws give a route of `width + height - 2`
directions. -/
theorem C103_shortest (oc : Bool) (alg : MazeAlgorithm) (hw : 1 ≤ w) (hh : 1 ≤ h) (hn : w * h * 24 < 2 ^ 63) :
    ∃ rnd g sol, createMaze oc rnd w h alg = .ok (g, sol) ∧ sol.length = w + h - 2 := by
  obtain ⟨rnd, g, sol, e, h1, he, _, h2, h3⟩ := (comb_ham hw hh).create oc alg hw hh hn
  refine ⟨rnd, g, sol, h1, ?_⟩
  obtain ⟨g', sol', h1', h4, _⟩ := C103_bounds oc rnd alg hw hh hn
  rw [h1] at h1'
  cases h1'
  have : comb w h e (h - 1) = h - 1 + e := by
    simp only [comb]
    split
    · omega
    · rw [if_pos (by omega)]
  omega

/-- A concrete case: the routes of mazes of 5 by 4 cells have between 7 and 19 directions, and both happen. -/
example : (∀ rnd, ∃ g sol, createMaze true rnd 5 4 .RecursiveBacktrack = .ok (g, sol) ∧ 7 ≤ sol.length ∧ sol.length ≤ 19) ∧
    (∃ rnd g sol, createMaze true rnd 5 4 .RecursiveBacktrack = .ok (g, sol) ∧ sol.length = 7) ∧
    ∃ rnd g sol, createMaze true rnd 5 4 .RecursiveBacktrack = .ok (g, sol) ∧ sol.length = 19 :=
  ⟨fun rnd => C103_bounds (w := 5) (h := 4) true rnd _ (by omega) (by omega) (by omega),
    C103_shortest (w := 5) (h := 4) true _ (by omega) (by omega) (by omega),
    C103_longest (w := 5) (h := 4) true _ (by omega) (by omega) (by omega)⟩

end Maze.Props
