import Verif.Props.Steps
import Verif.Proofs.Maze.Stack

/-! C114: the stack of `recursive_backtrack` and the queue of the search in every state that is reached. `Runs body n s t`
says that `n` turns of the loop lead from `s` to `t`. -/
namespace Maze.Props
open Maze Maze.Spec

variable {w h : Nat}

/-- C114, the stack. After any number of turns and whatever was drawn, the stack is a route through the maze as carved so
far: it starts in the first cell, each cell is one move from the one before, no cell occurs twice. So there are never more
than `w * h` cells on it. -/
theorem C114_stack (oc : Bool) (rnd : Nat → Nat) (hw : 1 ≤ w) (hh : 1 ≤ h) (hn : w * h * 24 < 2 ^ 63) (n : Nat) (t : RState)
    (r : Runs (backtrackBody oc rnd w h) n (initState w h) t) :
    (t.path ≠ [] → t.path.reverse.head? = some 0) ∧ t.path.Nodup ∧ (∀ c ∈ t.path, c < w * h) ∧
    (t.path.reverse.IsChain fun a b => ∃ d, move w h t.maze a d = some b) ∧ t.path.length ≤ w * h := by
  have S := SInv.runs hw hh (by omega) r (init_sinv (Nat.mul_pos hw hh))
  have hlt : ∀ c ∈ t.path, c < w * h := fun c hc => (S.oinv.path c hc).choose_spec.choose
  refine ⟨fun hne => ?_, S.nodup, hlt, ?_, ?_⟩
  · rw [List.head?_reverse]
    exact S.bottom hne
  · rw [List.isChain_reverse]
    exact S.chain.imp fun _ _ ⟨_, _, hab⟩ => adj_move hw hab
  · have := (S.nodup.subperm (fun c hc => List.mem_range.2 (hlt c hc) : t.path ⊆ List.range (w * h))).length_le
    rwa [List.length_range] at this

example (rnd : Nat → Nat) : ∃ t, Runs (backtrackBody true rnd 30 20) 1199 (initState 30 20) t ∧ t.path.length ≤ 600 := by
  obtain ⟨_, t, r, _⟩ := C76_backtrack (w := 30) (h := 20) true rnd (by omega) (by omega) (by omega)
  exact ⟨t, r, (C114_stack true rnd (by omega) (by omega) (by omega) _ t r).2.2.2.2⟩

/-- C114: the bound is attained in every grid; for suitable draws all cells are on the stack. -/
theorem C114_full (oc : Bool) (hw : 1 ≤ w) (hh : 1 ≤ h) (hn : w * h * 24 < 2 ^ 63) :
    ∃ rnd n t, Runs (backtrackBody oc rnd w h) n (initState w h) t ∧ t.path.length = w * h := by
  obtain ⟨rnd, t, r, hl⟩ := stack_full oc hw hh (by omega)
  exact ⟨rnd, _, t, r, hl⟩

example : ∃ rnd n t, Runs (backtrackBody true rnd 30 20) n (initState 30 20) t ∧ t.path.length = 600 :=
  C114_full (w := 30) (h := 20) true (by omega) (by omega) (by omega)

/-- C114, the queue. After `n` turns of the search in the carved maze, `n` different cells have been taken from the queue,
the cells in it are different from those and from each other, and there are at most `w * h - n` of them. -/
theorem C114_queue (oc : Bool) (rnd : Nat → Nat) (hw : 1 ≤ w) (hh : 1 ≤ h) (hn : w * h * 24 < 2 ^ 63) (g : List MazeNode)
    (hg : recursiveBacktrack oc rnd w h = .ok g) (n : Nat) (t : BState)
    (r : Runs (bfsBody oc w h g) n ⟨(List.replicate (w * h) PathNode.Unvisited).set 0 .Start, [0], 0⟩ t) :
    ∃ taken : List Nat, taken.length = n ∧ (taken ++ t.traversal).Nodup ∧ (∀ c ∈ taken ++ t.traversal, c < w * h) ∧
      n + t.traversal.length ≤ w * h := by
  obtain ⟨_, _, _, _, _, hP, _, h2⟩ := createMaze_spec oc rnd hw hh hn .RecursiveBacktrack
  rw [hg] at h2
  obtain rfl := Prog.ok.inj h2
  obtain ⟨d, P, H, hlen⟩ := bfs_runs hP hw hh (by omega) r (init_tree hw hh g)
  refine ⟨P, by simpa using hlen, H.nodup, fun c hc => H.lt hc, ?_⟩
  have := (H.nodup.subperm (fun c hc => List.mem_range.2 (H.lt hc) : P ++ t.traversal ⊆ List.range (w * h))).length_le
  rw [List.length_range, List.length_append, hlen] at this
  simpa using this

/-- The runs of both theorems exist: the loops leave 30 x 20 cells after 1199 turns and fewer than 600. -/
example (rnd : Nat → Nat) : (∃ t, Runs (backtrackBody true rnd 30 20) 1199 (initState 30 20) t) ∧
    ∃ g n t, recursiveBacktrack true rnd 30 20 = .ok g ∧ n + 1 ≤ 600 ∧
      Runs (bfsBody true 30 20 g) n ⟨(List.replicate (30 * 20) PathNode.Unvisited).set 0 .Start, [0], 0⟩ t := by
  obtain ⟨_, t, r, _⟩ := C76_backtrack (w := 30) (h := 20) true rnd (by omega) (by omega) (by omega)
  obtain ⟨g, _, _, n, t', h1, _, r', _, h3⟩ := C76_search (w := 30) (h := 20) true rnd .RecursiveBacktrack (by omega)
    (by omega) (by omega)
  exact ⟨⟨t, r⟩, g, n, t', h1, h3, r'⟩

end Maze.Props
