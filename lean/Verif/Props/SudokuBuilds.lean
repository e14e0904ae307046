import Verif.Proofs.Sudoku.Wrap
import Verif.Props.Sudoku
import Verif.Props.DancingLimit

/-! C132: `solve_sudoku` in a debug and in a release build. -/
namespace Sudoku.Props
open DancingLinks DancingLinks.Spec Sudoku.Spec

/-- C132: for every byte slice, a build with overflow checks and one without, for a target whose `usize` has 16 bits or
more, have the outcome of `Model/Sudoku.lean`:
result, final memory and undefined behaviour. So every theorem about `solveSudoku` is one about both builds. -/
theorem C132_builds (oc : Bool) {bits : Nat} (hb : 16 ≤ bits) (p : List UInt8) : solveSudokuB oc bits p = solveSudoku p := solveSudokuB_eq oc hb p

/-- C132: no input makes either build panic or run forever. -/
theorem C132_total (oc : Bool) {bits : Nat} (hb : 16 ≤ bits) (p : List UInt8) : solveSudokuB oc bits p ≠ .panic ∧ solveSudokuB oc bits p ≠ .diverge := by
  rw [C132_builds oc hb]
  by_cases hp : p.length = 81
  · have key := solveSudoku_spec p hp
    cases hv : verdict [] (clues p) with
    | search => rw [hv] at key; obtain ⟨res, h, e, _⟩ := key; rw [e]; exact ⟨nofun, nofun⟩
    | reject => rw [hv] at key; obtain ⟨h, e, _⟩ := key; rw [e]; exact ⟨nofun, nofun⟩
    | dangling => rw [hv] at key; simp only at key; rw [key]; exact ⟨nofun, nofun⟩
  · have : solveSudoku p = .ok (.error (.invalidSize p.length), Heap.empty) := by
      unfold solveSudoku; rw [if_pos (by unfold gridSize; omega)]
    rw [this]; exact ⟨nofun, nofun⟩

/-- C132: on puzzles with entries from 0 to 9 both builds return a completion whenever there is one. -/
theorem C132_complete (oc : Bool) {bits : Nat} (hb : 16 ≤ bits) (p : List UInt8) (hp : p.length = 81) (h9 : ∀ v ∈ p, v.toNat ≤ 9) :
    (∃ g, Completes p g) ↔ ∃ g h, solveSudokuB oc bits p = .ok (.ok g, h) ∧ Completes p g ∧ AllFreed h := by
  constructor
  · intro hc
    obtain ⟨g, h, e, c⟩ := C02_solve_complete p hp h9 hc
    exact ⟨g, h, (C132_builds oc hb p).trans e, c, C06_no_leak p _ h e⟩
  · rintro ⟨g, _, _, c, _⟩
    exact ⟨g, c⟩

example (oc : Bool) {bits : Nat} (hb : 16 ≤ bits) : ∃ g h, solveSudokuB oc bits puzzle = .ok (.ok g, h) ∧ Completes puzzle g ∧ AllFreed h :=
  (C132_complete oc hb puzzle puzzle_ok.1 puzzle_ok.2.1).1 ⟨sample, puzzle_ok.2.2⟩

/-- The undefined behaviour of C05 is the same in both builds. -/
example (oc : Bool) {bits : Nat} (hb : 16 ≤ bits) : solveSudokuB oc bits (1 :: 0 :: 0 :: 1 :: List.replicate 77 0) = .ub := by
  rw [C132_builds oc hb]
  have key := solveSudoku_spec (1 :: 0 :: 0 :: 1 :: List.replicate 77 0) (by decide +kernel)
  rw [show verdict [] (clues (1 :: 0 :: 0 :: 1 :: List.replicate 77 0)) = .dangling by decide +kernel] at key
  exact key

/-- C132: building the matrix of the sudoku constraints never reaches the limit of a vector, on any target. -/
theorem C132_matrix {ws : Nat} (hws : ws = 2 ∨ ws = 4 ∨ ws = 8) (oc : Bool) :
    ∃ r, Matrix.new Heap.empty constraints = .ok r ∧ Matrix.newL ws oc Heap.empty constraints = .ok (.ok r) := by
  refine DancingLinks.Props.C128_small hws oc constraints fun l hl i h => ?_
  have : i < 729 := occurs_iff.mp ⟨l, hl, h⟩
  rcases hws with rfl | rfl | rfl <;> omega

end Sudoku.Props
