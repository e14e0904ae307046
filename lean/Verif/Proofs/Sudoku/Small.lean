import Verif.Proofs.Sudoku.Cover

/-! Helper lemma: the lengths and row numbers of the sudoku constraints are small. -/
namespace Sudoku
open DancingLinks DancingLinks.Spec

theorem constraints_small : ∀ col ∈ constraints, col.length < 1000 ∧ ∀ r ∈ col, r < 1000 := by
  intro col hc
  have hr : ∀ r ∈ col, r < 729 := fun r hr => occurs_iff.1 ⟨col, hc, hr⟩
  have hle := ((constraints_nodup col hc).subperm (l₂ := List.range 729) fun r h => List.mem_range.2 (hr r h)).length_le
  rw [List.length_range] at hle
  exact ⟨by omega, fun r h => by have := hr r h; omega⟩

end Sudoku
