import Verif.Props.Sudoku
import Verif.Proofs.Sudoku.Symmetry

/-! C83: rearranged sudokus. -/
namespace Sudoku.Props
open Sudoku Sudoku.Spec DancingLinks

/-- A grid completes a puzzle exactly if the rearranged grid completes the rearranged puzzle. -/
theorem move_completes_iff (S : Symmetry) {p g : List UInt8} (hp : p.length = 81) (h9 : ∀ v ∈ p, v.toNat ≤ 9)
    (hg : g.length = 81) (h9' : ∀ v ∈ g, v.toNat ≤ 9) : Completes (S.move p) (S.move g) ↔ Completes p g := by
  refine ⟨fun h => ?_, S.move_completes hp⟩
  have := S.inv.move_completes (S.move_length p) h
  rwa [S.move_move hp h9, S.move_move hg h9'] at this

theorem inv_completes (S : Symmetry) {p g : List UInt8} (hp : p.length = 81) (h9 : ∀ v ∈ p, v.toNat ≤ 9)
    (h : Completes (S.move p) g) : Completes p (S.inv.move g) := by
  have := S.inv.move_completes (S.move_length p) h
  rwa [S.move_move hp h9] at this

/-- C83. Rearranging a sudoku (exchanging rows and columns, turning it, permuting rows inside a band, permuting bands,
renaming digits, and all combinations) does not change whether `solve_sudoku` returns a grid; and if the completion is
unique, the answer to the rearranged puzzle is the rearranged answer. -/
theorem C83_symmetry (S : Symmetry) (p : List UInt8) (hp : p.length = 81) (h9 : ∀ v ∈ p, v.toNat ≤ 9) :
    ((∃ g h, solveSudoku p = .ok (.ok g, h)) ↔ ∃ g h, solveSudoku (S.move p) = .ok (.ok g, h)) ∧
    ∀ g h, solveSudoku p = .ok (.ok g, h) → (∀ g', Completes p g' → g' = g) →
      ∃ h', solveSudoku (S.move p) = .ok (.ok (S.move g), h') := by
  have hm := S.move_length p
  have hm9 := S.move_le h9
  refine ⟨⟨?_, ?_⟩, ?_⟩
  · rintro ⟨g, h, e⟩
    obtain ⟨g', h', e', _⟩ := C02_solve_complete _ hm hm9 ⟨_, S.move_completes hp (C01_solve_sound p g h hp h9 e)⟩
    exact ⟨g', h', e'⟩
  · rintro ⟨g, h, e⟩
    have := inv_completes S hp h9 (C01_solve_sound _ g h hm hm9 e)
    obtain ⟨g', h', e', _⟩ := C02_solve_complete p hp h9 ⟨_, this⟩
    exact ⟨g', h', e'⟩
  · intro g h e hu
    have hc := C01_solve_sound p g h hp h9 e
    refine C04_unique _ _ hm hm9 (S.move_completes hp hc) fun g' hg' => ?_
    have h1 := hu _ (inv_completes S hp h9 hg')
    have h2 := S.inv.move_move hg'.1.size fun v hv => (valid_entries hg'.1 v hv).2
    rw [← h1]
    exact h2.symm

/-- The sample with its first row erased has one completion only. -/
theorem puzzle_unique : Completes puzzle sample ∧ ∀ g, Completes puzzle g → g = sample := by
  have hlen : puzzle.length = 81 := by decide +kernel
  have hsame : ∀ i < 81, ∀ v ∈ puzzle[i]?, v ≠ 0 → sample[i]? = some v := by decide +kernel
  refine ⟨⟨sample_valid, fun i v hi h0 =>
    hsame i (by rw [← hlen]; exact (List.getElem?_eq_some_iff.1 hi).1) v hi h0⟩, fun g hg => ?_⟩
  have hrest : ∀ i < 81, 9 ≤ i → ∃ v ∈ puzzle[i]?, v ≠ 0 ∧ sample[i]? = some v := by decide +kernel
  have hlow : ∀ i < 81, 9 ≤ i → g[i]? = sample[i]? := fun i hi h9 => by
    obtain ⟨v, h1, h2, h3⟩ := hrest i hi h9
    rw [h3]; exact hg.2 i v h1 h2
  have hcol : ∀ j < 9, ∃ d ∈ digits, sample[j]? = some d ∧ ∀ c ∈ colCells j, c ≠ j → 9 ≤ c ∧ c < 81 ∧ sample[c]? ≠ some d := by
    decide +kernel
  apply List.ext_getElem?
  intro i
  by_cases h9 : 9 ≤ i
  · by_cases hi : i < 81
    · exact hlow i hi h9
    · rw [List.getElem?_eq_none (by rw [hg.1.size]; omega), List.getElem?_eq_none (by rw [sample_valid.size]; omega)]
  · obtain ⟨d, hd, h1, h2⟩ := hcol i (by omega)
    obtain ⟨c, hc, e⟩ := ((valid_iff g).mp hg.1).2 (colCells i)
      (by simp only [units, List.mem_append, List.mem_map, List.mem_range]; exact .inl (.inr ⟨i, by omega, rfl⟩)) d hd
    by_cases hci : c = i
    · rw [← hci, e, hci, h1]
    · obtain ⟨a1, a2, a3⟩ := h2 c hc hci
      rw [hlow c a2 a1] at e
      exact absurd e a3

/-- A concrete case: the puzzle above after a quarter turn, an exchange of two rows, a rotation of the bands and a renaming
of the digits. -/
example : ∃ h, solveSudoku ((quarterTurn.comp (swapRows.comp (rotateBands.comp shiftDigits))).move puzzle) =
    .ok (.ok ((quarterTurn.comp (swapRows.comp (rotateBands.comp shiftDigits))).move sample), h) := by
  have hlen : puzzle.length = 81 := by decide +kernel
  have h9 : ∀ v ∈ puzzle, v.toNat ≤ 9 := by decide +kernel
  obtain ⟨h, e⟩ := C04_unique puzzle sample hlen h9 puzzle_unique.1 puzzle_unique.2
  exact (C83_symmetry _ puzzle hlen h9).2 sample h e puzzle_unique.2

end Sudoku.Props
