import Verif.Proofs.Maze.Steps
import Verif.Proofs.Maze.Order
import Verif.Proofs.Nonogram.Passes
import Verif.Props.Nonogram

/-!
Property theorems about the number of turns of the loops (C76, C77). `Runs body n s t` says that `n` turns of the
loop lead from `s` to `t` without leaving it; `loop_iff` and `loop_diverge_iff` show that `Runs` describes the
executions of `loop`.
-/

/-! ### C76: create_maze -/

namespace Maze.Props
open Maze Maze.Spec

variable {w h : Nat}

/-- C76. For positive dimensions and all draws the outer loop of `recursive_backtrack` makes exactly
`2 * w * h - 1` turns and consumes exactly `4 * w * h` draws. -/
theorem C76_backtrack (oc : Bool) (rnd : Nat → Nat) (hw : 1 ≤ w) (hh : 1 ≤ h) (hn : w * h * 24 < 2 ^ 63) :
    recursiveBacktrack oc rnd w h = loop (backtrackBody oc rnd w h) (initState w h) ∧
    ∃ t, Runs (backtrackBody oc rnd w h) (2 * (w * h) - 1) (initState w h) t ∧ t.k = 4 * (w * h) ∧
      ∃ g, backtrackBody oc rnd w h t = .ok (.inr g) ∧ recursiveBacktrack oc rnd w h = .ok g := by
  have e := recursiveBacktrack_eq oc rnd (w := w) (h := h) hn
  obtain ⟨t, r, h1, h2⟩ := recursiveBacktrack_runs oc rnd hw hh hn
  have hb : backtrackBody oc rnd w h t = .ok (.inr t.maze) := by simp [backtrackBody, h1]
  exact ⟨e, t, r, h2, t.maze, hb, by rw [e, r.loop, loop_inr hb]⟩

example (rnd : Nat → Nat) : ∃ t, Runs (backtrackBody true rnd 30 20) 1199 (initState 30 20) t ∧ t.k = 2400 := by
  obtain ⟨_, t, r, hk, _⟩ := C76_backtrack (w := 30) (h := 20) true rnd (by omega) (by omega) (by omega)
  exact ⟨t, r, hk⟩

/-- C76, second part: the breadth-first search takes at most `w * h` cells from its queue. -/
theorem C76_search (oc : Bool) (rnd : Nat → Nat) (alg : MazeAlgorithm) (hw : 1 ≤ w) (hh : 1 ≤ h)
    (hn : w * h * 24 < 2 ^ 63) :
    ∃ g g' sol n t, recursiveBacktrack oc rnd w h = .ok g ∧ createMaze oc rnd w h alg = .ok (g', sol) ∧
      Runs (bfsBody oc w h g) n ⟨(List.replicate (w * h) PathNode.Unvisited).set 0 .Start, [0], 0⟩ t ∧
      bfsBody oc w h g t = .ok (.inr (g', sol)) ∧ n + 1 ≤ w * h := by
  obtain ⟨g, g', sol, n, t, h1, h2, h3, h4, h5⟩ := createMaze_runs oc rnd hw hh hn alg
  exact ⟨g, g', sol, n, t, h1, h2, h3, h4, h5⟩

end Maze.Props

/-! ### C77: solve_nonogram -/

namespace Nonogram.Props
open Nonogram Nonogram.Spec

/-- C77. The propagation started on any grid makes at most one pass more than the grid has unknown squares, less
those that stay unknown. -/
theorem C77_passes (oc : Bool) (col row : List (List Nat)) (hf : Fits col row) (g : List Square)
    (hg : g.length = col.length * row.length) :
    ∃ cs rs n t a, rightLeft oc g col row = loop (passBody oc col.length cs rs) g ∧
      Runs (passBody oc col.length cs rs) n g t ∧ passBody oc col.length cs rs t = .ok (.inr a) ∧
      rightLeft oc g col row = .ok a ∧ n + t.count .Blank ≤ g.count .Blank := by
  obtain ⟨cs, hc, hcm⟩ := machines (fun r hr => hf.small r (List.mem_append_left _ hr))
  obtain ⟨rs, hr, hrm⟩ := machines (fun r hr => hf.small r (List.mem_append_right _ hr))
  have e : rightLeft oc g col row = loop (passBody oc col.length cs rs) g := by
    unfold rightLeft
    simp only
    rw [hc, Prog.ok_bind, hr, Prog.ok_bind]
  obtain ⟨n, t, a, r, ht, hn⟩ := pass_runs oc hf hcm hrm _ g rfl hg
  exact ⟨cs, rs, n, t, a, e, r, ht, by rw [e, r.loop, loop_inr ht], hn⟩

/-- The hypotheses of C77 are met by a blank 2 x 2 grid. -/
example : ∃ cs rs n t, Runs (passBody true 2 cs rs) n (List.replicate 4 .Blank) t ∧ n ≤ 4 := by
  obtain ⟨cs, rs, n, t, a, _, h2, _, _, h5⟩ := C77_passes true _ _ fits_two_two (List.replicate 4 .Blank) (by decide)
  exact ⟨cs, rs, n, t, h2, by simp at h5; omega⟩

end Nonogram.Props
