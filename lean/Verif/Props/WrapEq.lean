import Verif.Spec.DancingWrap
import Verif.Proofs.DL.WrapEq
import Verif.Proofs.DL.FuelWrap
import Verif.Proofs.Sudoku.Small
import Verif.Props.DancingLinks
import Verif.Props.RepSound

/-! C131: overflow checks make no difference to dancing links when no constraint repeats a row. -/
namespace DancingLinks.Props
open DancingLinks DancingLinks.Spec

/-- The lengths of the constraints and the row numbers are `usize` values of a target with `bits` bits. -/
def Usize (bits : Nat) (M : List (List Nat)) : Prop := ∀ col ∈ M, col.length < 2 ^ bits ∧ ∀ r ∈ col, r < 2 ^ bits

/-- C131: when no constraint repeats a row, a build with overflow checks (`oc`) and one without reach the same states as
`Model/DancingLinks.lean`, by the same calls with the same results, and continue from each of them in the same way: the
same result (including undefined behaviour) of any further `add_solution`, the same result and memory of `solve`. -/
theorem C131_builds (oc : Bool) (bits : Nat) (M : List (List Nat)) (nd : ∀ col ∈ M, col.Nodup) (fits : Usize bits M) (log) (m : Matrix) (h : Heap) :
    (HistG (.build oc bits) M log m h ↔ Hist M log m h) ∧
    (Hist M log m h → (∀ r, addSolutionG (.build oc bits) m h r = addSolution m h r) ∧ m.solveG (.build oc bits) h = m.solve h) :=
  ⟨WrapEq.hist_iff (WrapEq.build_agrees oc bits) nd, fun H =>
    ⟨fun r => WrapEq.addSolution_eq (WrapEq.build_agrees oc bits) nd H r,
      WrapEq.solve_eq (WrapEq.build_agrees oc bits) (Nat.two_pow_pos bits) nd fits H⟩⟩

/-- C131: so in both builds, after any calls, `solve` returns: rows that extend the accepted ones to an exact cover, or
`NoSolution` when there is none; and every node has been freed. -/
theorem C131_answer (oc : Bool) (bits : Nat) (M : List (List Nat)) (nd : ∀ col ∈ M, col.Nodup) (fits : Usize bits M) (log) (m : Matrix) (h : Heap)
    (H : HistG (.build oc bits) M log m h) : ∃ res h', m.solveG (.build oc bits) h = .ok (res, h') ∧ AllFreed h' ∧
      ((∃ S, res = .ok (pushed log ++ S) ∧ ExactCover M (accepted log ++ S)) ∨
       (res = .error .noSolution ∧ ¬ ∃ S, ExactCover M S ∧ ∀ a ∈ accepted log, a ∈ S)) := by
  have B := C131_builds oc bits M nd fits log m h
  have H' := B.1.1 H
  rw [(B.2 H').2]
  exact solve_hist (hist_inv nd H')

/-- The constraints of sudoku meet the hypotheses, so every call of the solver runs alike in both builds. -/
theorem C131_sudoku (oc : Bool) (log) (m : Matrix) (h : Heap) :
    (HistG (.build oc) Sudoku.constraints log m h ↔ Hist Sudoku.constraints log m h) ∧
    (Hist Sudoku.constraints log m h → (∀ r, addSolutionG (.build oc) m h r = addSolution m h r) ∧
      m.solveG (.build oc) h = m.solve h) := by
  refine C131_builds oc 64 _ Sudoku.constraints_nodup ?_ log m h
  intro col hc
  have := Sudoku.constraints_small col hc
  exact ⟨by omega, fun r hr => by have := this.2 r hr; omega⟩

/-- Without the hypothesis on repeated rows the builds differ (see also `C130_builds`). -/
theorem C131_repeats : Usize 64 [[0, 0, 0]] ∧ solveNewG (.build true) [[0, 0, 0]] ≠ solveNewG (.build false) [[0, 0, 0]] := by
  refine ⟨by unfold Usize; decide +kernel, ?_⟩
  rw [C130_builds.1, C130_builds.2.1]
  nofun

/-- Knuth's matrix after a history with an accepted row and two refused ones, in both builds. -/
example (oc : Bool) : ∃ m h, HistG (.build oc) knuth [(3, .ok ()), (1, .error .invalidRow), (9, .error .indexError)] m h := by
  obtain ⟨m, h, H⟩ := hist_example
  exact ⟨m, h, (C131_builds oc 64 _ knuth_nodup (by unfold Usize; decide +kernel) _ m h).1.2 H⟩

end DancingLinks.Props
