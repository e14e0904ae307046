import Verif.Proofs.Maze.Ends
import Verif.Props.MazeShape

/-!
C119: dead ends of created mazes, and the dimensions for which every perfect maze can be created.
-/
namespace Maze.Props
open Maze.Spec

variable {w h : Nat}

/-- C119, dead ends are apart. Of two cells of a created maze that are next to each other, with or without a wall between
them, and of which neither is the first cell, at most one is a dead end. -/
theorem C119_apart (oc : Bool) (rnd : Nat → Nat) (alg : MazeAlgorithm) (hw : 1 ≤ w) (hh : 1 ≤ h)
    (hn : w * h * 24 < 2 ^ 63) : ∃ g sol, createMaze oc rnd w h alg = .ok (g, sol) ∧
      ∀ a b d, a < w * h → nbr w h a d = some b → a ≠ 0 → b ≠ 0 → doors w h g a = 1 → doors w h g b ≠ 1 := by
  obtain ⟨g, sol, h1, hD⟩ := C70_depth_first oc rnd alg hw hh hn
  refine ⟨g, sol, h1, ?_⟩
  intro a b d ha hd ha0 hb0 da db
  refine ends_apart hw hD (a := a) (b := b) ?_ ?_ hd <;>
    simp only [deadEnds, List.mem_filter, List.mem_range, decide_eq_true_eq]
  · exact ⟨ha, ha0, da⟩
  · exact ⟨ham_nbr_lt ha hd hw, hb0, db⟩

/-- Not so for the first cell: in a 2 x 2 maze that goes round the four cells the last one is next to it. -/
example : doors 2 2 round 0 = 1 ∧ doors 2 2 round 2 = 1 ∧ nbr 2 2 0 .Down = some 2 := by decide

/-- Not so for perfect mazes in general: three neighbouring dead ends. -/
example : doors 3 2 (teeth 3 2) 3 = 1 ∧ doors 3 2 (teeth 3 2) 4 = 1 ∧ doors 3 2 (teeth 3 2) 5 = 1 ∧
    nbr 3 2 3 .Right = some 4 ∧ ClosedTree 3 2 (teeth 3 2) :=
  ⟨by decide, by decide, by decide, by decide, teeth_closed (by omega) (by omega)⟩

/-- C119, their number. A created maze of at least two cells has at least one dead end besides the first cell, and at most
half of its cells are such dead ends. -/
theorem C119_number (oc : Bool) (rnd : Nat → Nat) (alg : MazeAlgorithm) (hw : 1 ≤ w) (hh : 1 ≤ h)
    (hn : w * h * 24 < 2 ^ 63) : ∃ g sol, createMaze oc rnd w h alg = .ok (g, sol) ∧
      (2 ≤ w * h → 1 ≤ (deadEnds w h g).length) ∧ 2 * (deadEnds w h g).length ≤ w * h := by
  obtain ⟨g, sol, h1, hD⟩ := C70_depth_first oc rnd alg hw hh hn
  obtain ⟨g1, sol1, e, h2, hR⟩ := createMaze_result oc rnd (by omega) (by omega) hn alg
  rw [h1] at h2
  obtain ⟨rfl, rfl⟩ : g = g1 ∧ sol = sol1 := by simpa using h2
  exact ⟨g, sol, h1, fun h2 => List.length_pos_iff.mpr (ends_some hw hR.tree h2), ends_half hw hD⟩

example (rnd : Nat → Nat) : ∃ g sol, createMaze true rnd 30 20 .RecursiveBacktrack = .ok (g, sol) ∧
    1 ≤ (deadEnds 30 20 g).length ∧ (deadEnds 30 20 g).length ≤ 300 := by
  obtain ⟨g, sol, h1, h2, h3⟩ := C119_number (w := 30) (h := 20) true rnd .RecursiveBacktrack (by omega) (by omega) (by omega)
  exact ⟨g, sol, h1, h2 (by omega), by omega⟩

/-- C119, the least number. For all dimensions with at least two cells some draws give exactly one dead end besides the
first cell. -/
theorem C119_one (oc : Bool) (alg : MazeAlgorithm) (hw : 1 ≤ w) (hh : 1 ≤ h) (h2 : 2 ≤ w * h)
    (hn : w * h * 24 < 2 ^ 63) : ∃ rnd g sol, createMaze oc rnd w h alg = .ok (g, sol) ∧ (deadEnds w h g).length = 1 := by
  have H := snake_ham (w := w) (h := h)
  obtain ⟨rnd, h1⟩ := (C71_range oc hw hh hn _).mpr ⟨H.closed hw hh, H.depthFirst hw hh⟩
  obtain ⟨g, g', sol, e, h3, hP, hS, h4⟩ := createMaze_spec oc rnd hw hh hn alg
  rw [h1] at h4
  obtain rfl : hamGrid w h (snake w) = g := by simpa using h4
  obtain ⟨hg, rfl⟩ := hS.opened
  exact ⟨rnd, _, sol, h3, H.one_end hw hh h2 (graph_exit hw hh hg hS.he hS.bottom)⟩

example : ∃ rnd g sol, createMaze true rnd 30 20 .RecursiveBacktrack = .ok (g, sol) ∧ (deadEnds 30 20 g).length = 1 :=
  C119_one true _ (by omega) (by omega) (by omega) (by omega)

/-- C119, all perfect mazes. `recursive_backtrack` can make every perfect maze with its outer walls exactly if there is
only one row or only one column. -/
theorem C119_all (oc : Bool) (hw : 1 ≤ w) (hh : 1 ≤ h) (hn : w * h * 24 < 2 ^ 63) :
    (∀ g, ClosedTree w h g → ∃ rnd, recursiveBacktrack oc rnd w h = .ok g) ↔ w = 1 ∨ h = 1 := by
  constructor
  · intro H
    by_contra hc
    have hc' := (C71_range oc hw hh hn _).mp (H _ (teeth_closed hw hh))
    have h0 : 0 < w * h := Nat.mul_pos hw hh
    refine DepthFirst.entrance hc'.1.tree.isAcyclic hc'.2 (by omega) (by omega) ⟨?_, ?_⟩
    · rw [teeth_right h0]; simp; omega
    · rw [teeth_down h0]; simp; omega
  · intro hl g hC
    exact (C71_range oc hw hh hn g).mpr ⟨hC, line_depthFirst hl hw hC.tree⟩

/-- Such a maze of one row of three cells. -/
example : ClosedTree 3 1 (teeth 3 1) ∧ teeth 3 1 = [⟨false, true⟩, ⟨false, true⟩, ⟨true, true⟩] :=
  ⟨teeth_closed (by omega) (by omega), by decide⟩

end Maze.Props
