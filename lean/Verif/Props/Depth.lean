import Verif.Proofs.DL.Depth
import Verif.Props.DancingLinks
import Verif.Props.Sudoku

/-!
Property theorems about the depth of the recursion of `solve_helper` (C80). `boundedSolve m n` is `solve` with a stack
of at most `n` frames of `solve_helper`.
-/
namespace DancingLinks.Props
open DancingLinks DancingLinks.Spec

/-- C80. After any history, `solve` needs no more frames of `solve_helper` than there are columns, plus one. -/
theorem C80_depth (M : List (List Nat)) (hM : ∀ col ∈ M, col.Nodup) (log) (m : Matrix) (h : Heap) (H : Hist M log m h) :
    boundedSolve m (M.length + 1) h = m.solve h := by
  refine boundedSolve_hist (hist_inv hM H) (k := 1) (fun col hc r hr => ?_) (by omega)
  exact List.length_pos_of_mem (List.mem_filter.mpr ⟨hc, by simpa using hr⟩)

/-- C80, for matrices all of whose rows have at least `k` columns. -/
theorem C80_depth_rows (M : List (List Nat)) (hM : ∀ col ∈ M, col.Nodup) (k : Nat) (hk : 1 ≤ k)
    (hr : ∀ col ∈ M, ∀ r ∈ col, k ≤ (M.filter fun col => decide (r ∈ col)).length) (log) (m : Matrix) (h : Heap)
    (H : Hist M log m h) : boundedSolve m (M.length / k + 1) h = m.solve h := by
  refine boundedSolve_hist (hist_inv hM H) hr ?_
  rw [Nat.mul_succ]
  have h1 := Nat.div_add_mod M.length k
  have h2 := Nat.mod_lt M.length hk
  omega

/-- C80, lower bound: with `n` frames `solve` can add at most `n - 1` rows to those added before. -/
theorem C80_frames (M : List (List Nat)) (hM : ∀ col ∈ M, col.Nodup) (log) (m : Matrix) (h : Heap)
    (H : Hist M log m h) (n : Nat) (sol : List Nat) (h' : Heap) (hs : boundedSolve m n h = .ok (.ok sol, h')) :
    sol.length < (pushed log).length + n := by
  obtain ⟨h0, rows0, HR0, V0, RW, B, C, t, I, rfl, hp⟩ := hist_inv hM H
  rw [← hp]
  exact boundedSolve_grows hs

/-- Knuth's matrix after the history of `hist_example` (row 3 selected, two calls refused): a cover exists and `solve`
runs with eight frames; a result with `k` rows more than were added before needs more than `k` frames. -/
example : ∃ log m h, Hist knuth log m h ∧ accepted log = [3] ∧ boundedSolve m 8 h = m.solve h := by
  obtain ⟨m, h, H⟩ := hist_example
  have hlen : knuth.length = 7 := by decide
  have := C80_depth knuth (by decide) _ m h H
  rw [hlen] at this
  exact ⟨_, m, h, H, by decide, this⟩

/-- For Knuth's matrix itself (a cover of three rows) four frames suffice, although there are seven columns, because
every row has two columns at least; three frames do not. -/
example : ∃ m h, Hist knuth [] m h ∧ boundedSolve m 4 h = m.solve h ∧ boundedSolve m 3 h ≠ m.solve h := by
  have hM : ∀ col ∈ knuth, (col : List Nat).Nodup := by decide
  obtain ⟨m, h, _, H, _⟩ := new_ok _ hM
  refine ⟨m, h, H, C80_depth_rows _ hM 2 (by omega) (by decide) _ m h H, fun hb => ?_⟩
  obtain ⟨h', hs⟩ := C65_algorithm_x _ hM _ m h H
  rw [show algorithmX (residual knuth (accepted [])) = some [3, 0, 4] by decide] at hs
  rw [hs] at hb
  have := C80_frames _ hM _ m h H 3 _ h' hb
  simp [pushed] at this

end DancingLinks.Props

namespace Sudoku.Props
open DancingLinks DancingLinks.Spec Sudoku

/-- Every row of the sudoku matrix has (at least) four columns. -/
theorem four_columns {r : Nat} (hr : r < 729) :
    4 ≤ (constraints.filter fun col => decide (r ∈ col)).length := by
  rw [constraints_eq, List.filter_append, List.filter_append, List.filter_append]
  simp only [List.length_append]
  have one : ∀ (f : Nat → List Nat), (∃ k < 81, r ∈ f k) →
      1 ≤ (((List.range 81).map f).filter fun col => decide (r ∈ col)).length := by
    rintro f ⟨k, hk, hm⟩
    exact List.length_pos_of_mem (List.mem_filter.mpr
      ⟨List.mem_map.mpr ⟨k, List.mem_range.mpr hk, rfl⟩, by simpa using hm⟩)
  have h1 := one cellCol ⟨r / 9, by omega, mem_cellCol.mpr rfl⟩
  have h2 := one rowCol ⟨9 * (r / 81) + r % 9, by omega, mem_rowCol.mpr (by omega)⟩
  have h3 := one colCol ⟨r % 81, by omega, (mem_colCol (by omega)).mpr ⟨rfl, hr⟩⟩
  have h4 : 1 ≤ (((List.range 81).map boxCol).filter fun col => decide (r ∈ col)).length := by
    obtain ⟨A, x, B, y, d, e, hx, hB, hy, hd⟩ := decomp r
    refine one boxCol ⟨27 * A + 9 * B + d, by omega, (mem_boxCol' hB hd).mpr ⟨x, hx, y, hy, ?_⟩⟩
    omega
  omega

/-- C80, for sudoku: whatever givens were added, `solve` needs at most 82 frames of `solve_helper`. -/
theorem C80_sudoku (log) (m : Matrix) (h : Heap) (H : Hist constraints log m h) :
    boundedSolve m 82 h = m.solve h := by
  have hlen : constraints.length = 324 := by rw [constraints_eq]; simp
  have := DancingLinks.Props.C80_depth_rows constraints constraints_nodup 4 (by omega) (by
    intro col hc r hr
    exact four_columns (occurs_iff.mp ⟨col, hc, hr⟩)) log m h H
  rwa [hlen] at this

/-- C80, for sudoku: on the empty grid 81 frames are not enough. -/
theorem C80_sudoku_least (m : Matrix) (h : Heap) (H : Hist constraints [] m h) (n : Nat) (hn : n ≤ 81) :
    boundedSolve m n h ≠ m.solve h := by
  intro hb
  obtain ⟨res, h', e, _, ⟨S, rfl, h2⟩ | ⟨_, h2⟩⟩ := solve_hist (hist_inv constraints_nodup H)
  · rw [e] at hb
    have h3 := DancingLinks.Props.C80_frames _ constraints_nodup _ m h H n _ h' hb
    obtain ⟨f, _, hp, _⟩ := exactCover_sel (S := S) (by simpa [accepted] using h2)
    have h4 := hp.length_eq
    simp [pushed, sel] at h3 h4
    omega
  · obtain ⟨f, G, _⟩ := valid_good sample_valid
    exact h2 ⟨sel f, G.exactCover, by simp [accepted]⟩

/-- The matrix of the empty sudoku exists. -/
example : ∃ m h, Hist constraints [] m h ∧ boundedSolve m 82 h = m.solve h ∧ boundedSolve m 81 h ≠ m.solve h := by
  obtain ⟨m, h, _, H, _⟩ := DancingLinks.Props.new_ok _ constraints_nodup
  exact ⟨m, h, H, C80_sudoku _ m h H, C80_sudoku_least m h H 81 (by omega)⟩

end Sudoku.Props
