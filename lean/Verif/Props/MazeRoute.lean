import Verif.Props.Maze
import Verif.Proofs.Maze.Walks

/-! C84: what can be said about the directions of a route by counting them. -/
namespace Maze.Props
open Maze Maze.Spec Maze.Walks

variable {w h : Nat}

/-- C84. The directions of a created maze of width at least 2, counted. With `x` the column of the exit: `Right` occurs
`x` times more than `Left`, `Down` occurs `height - 1` times more than `Up`; so there are at least `x + height - 1`
directions, and their number has the parity of `x + height - 1`. There are fewer than `width * height`, and no direction
is followed by the opposite one. -/
theorem C84_route_counts (oc : Bool) (rnd : Nat → Nat) (alg : MazeAlgorithm) (hw : 2 ≤ w) (hh : 1 ≤ h)
    (hn : w * h * 24 < 2 ^ 63) :
    ∃ g sol x, createMaze oc rnd w h alg = .ok (g, sol) ∧ x < w ∧ downOpen g (w * (h - 1) + x) = true ∧
      sol.count .Right = sol.count .Left + x ∧ sol.count .Down = sol.count .Up + (h - 1) ∧
      (∃ k, sol.length = x + (h - 1) + 2 * k) ∧ sol.length < w * h ∧
      ∀ i a b, sol[i]? = some a → sol[i + 1]? = some b → ¬ Opposite a b := by
  obtain ⟨g, sol, e, h1, hR⟩ := createMaze_result oc rnd (by omega) hh hn alg
  obtain ⟨cells, c1, c2, c3⟩ := hR.wide hw
  have hb := hR.bottom
  have hc := walk_counts (by omega) c1 c2
  have he : w * (h - 1) + e % w = e := by rw [← hb]; exact Nat.div_add_mod e w
  have hcnt := count_dirs sol
  have h0 : 0 < w * h := Nat.mul_pos (by omega) (by omega)
  simp only [Nat.zero_mod, Nat.zero_div, List.count_reverse] at hc
  rw [hb] at hc
  refine ⟨g, sol, e % w, h1, Nat.mod_lt _ (by omega), ?_, by omega, by omega,
    ⟨sol.count .Left + sol.count .Up, by omega⟩, ?_, ?_⟩
  · rw [he]; exact (hR.exits e hR.he hR.bottom).mpr rfl
  · have hl := walk_length c1
    rw [List.length_reverse] at hl
    have hsub : cells ⊆ List.range (w * h) := fun x hx => List.mem_range.2 (walk_lt h0 c1 x hx)
    have := (List.subperm_of_subset c3 hsub).length_le
    rw [List.length_range] at this
    omega
  · intro i a b ha hb' hab
    have hi := (List.getElem?_eq_some_iff.1 hb').1
    refine walk_no_return c1 c3 (sol.length - 1 - (i + 1)) b a ?_ ?_ ⟨by rw [Int.add_comm]; exact hab.1, by rw [Int.add_comm]; exact hab.2⟩
    · rw [List.getElem?_reverse (by omega), show sol.length - 1 - (sol.length - 1 - (i + 1)) = i + 1 by omega]; exact hb'
    · rw [List.getElem?_reverse (by omega), show sol.length - 1 - (sol.length - 1 - (i + 1) + 1) = i by omega]; exact ha

/-- A concrete case: a maze of 5 by 3 cells. -/
example (rnd : Nat → Nat) : ∃ g sol x, createMaze true rnd 5 3 .RecursiveBacktrack = .ok (g, sol) ∧ x < 5 ∧
    sol.count .Right = sol.count .Left + x ∧ sol.count .Down = sol.count .Up + 2 ∧ sol.length < 15 := by
  obtain ⟨g, sol, x, h1, h2, _, h3, h4, _, h5, _⟩ := C84_route_counts (w := 5) (h := 3) true rnd .RecursiveBacktrack
    (by omega) (by omega) (by omega)
  exact ⟨g, sol, x, h1, h2, h3, h4, h5⟩

end Maze.Props
