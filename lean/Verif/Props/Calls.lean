import Verif.Proofs.Sudoku.Singles
import Verif.Props.Depth

/-!
Property theorems about the number of calls of `solve_helper` (C85, C86). `countedSolve` and `countedSudoku` are `solve` and
`solve_sudoku` with a counter of these calls.
-/
namespace DancingLinks.Props
open DancingLinks DancingLinks.Spec

/-- C85. After any history of `add_solution` calls, `solve` calls `solve_helper` once for each node of the search tree of
Algorithm X that is visited up to the first solution, starting with the matrix left by the accepted rows. -/
theorem C85_calls (M : List (List Nat)) (hM : ∀ col ∈ M, col.Nodup) (log) (m : Matrix) (h : Heap) (H : Hist M log m h) :
    ∃ r, m.solve h = .ok r ∧
      countedSolve m h = .ok (r, visits (residual M (accepted log)).length (residual M (accepted log))) := by
  obtain ⟨res, h', e, _⟩ := solve_hist (hist_inv hM H)
  refine ⟨(res, h'), e, ?_⟩
  rw [countedSolve_hist (hist_inv hM H) (Nat.le_refl _), e]
  rfl

/-- C85, dead ends: if some constraint has no rows left, `solve` fails without any choice, in one call. -/
theorem C85_dead_end (M : List (List Nat)) (hM : ∀ col ∈ M, col.Nodup) (log) (m : Matrix) (h : Heap) (H : Hist M log m h)
    (hd : [] ∈ residual M (accepted log)) : ∃ h', countedSolve m h = .ok ((.error .noSolution, h'), 1) := by
  obtain ⟨r, e, ec⟩ := C85_calls M hM log m h H
  obtain ⟨h', hs⟩ := C65_algorithm_x M hM log m h H
  generalize hR : residual M (accepted log) = R at *
  have hf : firstShortest R = some [] := by
    have hle : ∀ (R : List (List Nat)), [] ∈ R → firstShortest R = some [] := by
      intro R
      induction R with
      | nil => simp
      | cons c R ih =>
        intro hc
        simp only [firstShortest]
        rcases List.mem_cons.1 hc with rfl | hc
        · cases firstShortest R <;> simp
        · rw [ih hc]
          cases c <;> simp
    exact hle R hd
  obtain ⟨n, hn⟩ : ∃ n, R.length = n + 1 := ⟨R.length - 1, by have := List.length_pos_of_mem hd; omega⟩
  have hX : algorithmX R = none := by simp [algorithmX, hn, search, hf]
  rw [hX] at hs
  rw [hs] at e
  refine ⟨h', ?_⟩
  rw [ec, ← Prog.ok.inj e, hn]
  simp [visits, hf, tried]

/-- Knuth's matrix: row 1 is tried first and costs two calls before row 3 leads to the cover 3, 0, 4. -/
example : ∃ m h r, Hist knuth [] m h ∧ m.solve h = .ok r ∧ countedSolve m h = .ok (r, 6) := by
  have hM : ∀ col ∈ knuth, (col : List Nat).Nodup := by decide
  obtain ⟨m, h, _, H, _⟩ := new_ok _ hM
  obtain ⟨r, h1, h2⟩ := C85_calls _ hM _ m h H
  exact ⟨m, h, r, H, h1, by
    rw [h2, show visits (residual knuth (accepted [])).length (residual knuth (accepted [])) = 6 by decide]⟩

/-- A dead end: a constraint without rows. -/
example : ∃ m h h', Hist [[0, 1], [], [1]] [] m h ∧ countedSolve m h = .ok ((.error .noSolution, h'), 1) := by
  have hM : ∀ col ∈ [[0, 1], [], [1]], (col : List Nat).Nodup := by decide
  obtain ⟨m, h, _, H, _⟩ := new_ok _ hM
  obtain ⟨h', e⟩ := C85_dead_end _ hM _ m h H (by decide)
  exact ⟨m, h, h', H, e⟩

end DancingLinks.Props

namespace Sudoku.Props
open DancingLinks DancingLinks.Spec Sudoku Sudoku.Spec

/-- C86. If a sudoku can be solved by singles (see `Singles`), it has exactly one completion, `solve_sudoku` returns it,
and it never goes back on a choice: it calls `solve_helper` once for each of the `81 - n` cells to fill in and once more
to see that the grid is full. This holds whatever order the singles are entered in by hand. -/
theorem C86_singles (p : List UInt8) (hp : p.length = 81) (hc : (clues p).Pairwise fun a x => clash x a = false)
    (hs : Singles (clues p)) :
    ∃ g h, Valid g ∧ Meets g (clues p) ∧ (∀ g', Valid g' → Meets g' (clues p) → g' = g) ∧
      solveSudoku p = .ok (.ok g, h) ∧ countedSudoku p = .ok ((.ok g, h), 82 - (clues p).length) := by
  have hv := (verdict_search_iff (clues p) [] calm_nil).2 (by simpa [Calm] using hc)
  have hF : Fine (clues p) := ⟨clues_WF hp, hc⟩
  have key := solveSudoku_spec p hp
  rw [hv] at key
  obtain ⟨res, h, e, _, hr⟩ := key
  have hfill := hs.fill 324 _ hF (by omega)
  obtain ⟨A, hA⟩ := Option.isSome_iff_exists.1 hfill
  obtain ⟨h', hb⟩ := C66_by_hand p hp hc
  rw [hA] at hb
  obtain ⟨g', _, e'⟩ := hb
  rw [e] at e'
  rcases hr with ⟨g, rfl, V, hm⟩ | ⟨rfl, _⟩
  · refine ⟨g, h, V, hm, fun g' V' hm' => hs.unique hF V' V hm' hm, e, ?_⟩
    rw [countedSudoku_eq, e]
    simp only [Prog.ok_bind, Prog.pure_eq, hp, hv, and_self, if_true]
    have := hs.visits 324 _ hF (by omega)
    rw [show DancingLinks.Spec.visits 324 (residual constraints ((clues p).map num)) = 82 - (clues p).length by omega]
  · cases e'

/-- The counter changes nothing else: for every input there is a number of calls. -/
theorem C86_counter (p : List UInt8) : ∃ k, countedSudoku p = (do let r ← solveSudoku p; return (r, k)) :=
  ⟨_, countedSudoku_eq p⟩

theorem puzzle_calm : (clues puzzle).Pairwise fun a x => clash x a = false := by decide +kernel

theorem puzzle_singles : Singles (clues puzzle) := runSingles_singles 9 _ (by decide +kernel)

/-- A concrete case: the sample without its first row is solved in ten calls. -/
example : ∃ h, countedSudoku puzzle = .ok ((.ok sample, h), 10) := by
  have hlen : puzzle.length = 81 := by decide +kernel
  obtain ⟨g, h, V, hm, hu, _, h2⟩ := C86_singles puzzle hlen puzzle_calm puzzle_singles
  have : Meets sample (clues puzzle) := by unfold Meets; decide +kernel
  refine ⟨h, ?_⟩
  rw [h2, hu sample sample_valid this, show (clues puzzle).length = 72 by decide +kernel]

end Sudoku.Props
