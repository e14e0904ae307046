import Verif.Proofs.Sudoku.Work
import Verif.Props.TreeSize

/-!
Property theorems about the work done at the level of pointers (C102). `Spec/Work.lean` repeats `matrix.rs` and `solve_sudoku`
with a counter of the steps: one for every `next` of an iterator, every call of a function on a node and every turn of a loop.
`nodes M` is the number of nodes of the matrix `M`: the root, one header per constraint and one cell per entry.
-/
namespace DancingLinks.Props
open DancingLinks DancingLinks.Spec

/-- C102, `new`: one step for every node that is built and one for every entry of the table of rows. -/
theorem C102_new (M : List (List Nat)) (hM : ∀ col ∈ M, col.Nodup) : ∃ m h, Matrix.new Heap.empty M = .ok (m, h) ∧
    workNew Heap.empty M = .ok (m, (h, nodes M + m.rows.length)) ∧
    ∀ r, m.rows.length ≤ r ↔ ∀ col ∈ M, ∀ x ∈ col, x < r := by
  obtain ⟨m, h, e, H, _⟩ := new_ok M hM
  exact ⟨m, h, e, workNew_eq e, rows_le (hist_inv hM H)⟩

/-- Knuth's matrix: 24 nodes and 6 rows. -/
example : ∃ m h, Matrix.new Heap.empty knuth = .ok (m, h) ∧ workNew Heap.empty knuth = .ok (m, (h, 24 + m.rows.length)) := by
  obtain ⟨m, h, h1, h2, _⟩ := C102_new knuth (by decide)
  exact ⟨m, h, h1, h2⟩

/-- C102, `add_solution`: an amortised bound. After any history, a call costs at most one step, and eleven for each node that it
removes from the matrix; the potential is eleven times the number of nodes left. -/
theorem C102_add (M : List (List Nat)) (hM : ∀ col ∈ M, col.Nodup) (log) (m : Matrix) (h : Heap) (H : Hist M log m h)
    (r : Nat) (res) (m' : Matrix) (h' : Heap) (e : addSolution m h r = .ok (res, m', h')) :
    ∃ k, workAdd m (h, 0) r = .ok (res, m', (h', k)) ∧
      k + 11 * nodes (residual M (accepted (log ++ [(r, res)]))) ≤ 1 + 11 * nodes (residual M (accepted log)) := by
  obtain ⟨k, e1, b⟩ := workAdd_hist (hist_inv hM H) e 0
  exact ⟨k, e1, by omega⟩

/-- Row 3 of Knuth's matrix. -/
example : ∃ (m : Matrix) (h : Heap) (res : _) (m' : Matrix) (h' : Heap) (k : Nat), addSolution m h 3 = .ok (res, m', h') ∧
    workAdd m (h, 0) 3 = .ok (res, m', (h', k)) ∧ k ≤ 1 + 11 * 24 := by
  obtain ⟨m, h, _, H, _⟩ := new_ok knuth knuth_nodup
  have h1 := (C16_add_outcome _ knuth_nodup _ m h H 3).2
  rw [show expected knuth (accepted []) 3 = .accepted by decide] at h1
  obtain ⟨m1, g1, e1, _⟩ := h1
  obtain ⟨k, h2, h3⟩ := C102_add knuth knuth_nodup _ m h H 3 _ m1 g1 e1
  have : nodes (residual knuth (accepted [])) = 24 := by decide
  exact ⟨m, h, _, m1, g1, k, e1, h2, by omega⟩

/-- C102, histories: `new` and any sequence of `n` calls of `add_solution` together make at most `12 * nodes M + n` steps, and
one for every entry of the table of rows. -/
theorem C102_history (M : List (List Nat)) (hM : ∀ col ∈ M, col.Nodup) (log) (m : Matrix) (h : Heap) (H : Hist M log m h) :
    ∃ k, WorkHist M log m (h, k) ∧ k ≤ 12 * nodes M + m.rows.length + log.length := by
  have key : ∃ k, WorkHist M log m (h, k) ∧
      k + 11 * nodes (residual M (accepted log)) ≤ 12 * nodes M + m.rows.length + log.length := by
    induction H with
    | new e =>
      have := nodes_residual_le M (accepted [])
      exact ⟨_, .new (workNew_eq e), by simp only [List.length_nil]; omega⟩
    | @add log m h r res m' h' H e ih =>
      obtain ⟨k, W, b⟩ := ih
      obtain ⟨k', e', b'⟩ := workAdd_hist (hist_inv hM H) e k
      refine ⟨k', .add W e', ?_⟩
      rw [rows_eq (hist_inv hM H) (hist_inv hM (H.add e))] at b
      simp only [List.length_append, List.length_singleton]
      omega
  obtain ⟨k, W, b⟩ := key
  exact ⟨k, W, by omega⟩

example : ∃ log m h k, accepted log = [3] ∧ WorkHist knuth log m (h, k) ∧ k ≤ 12 * 24 + m.rows.length + log.length := by
  obtain ⟨m, h, H⟩ := hist_example
  obtain ⟨k, h1, h2⟩ := C102_history knuth (by decide) _ m h H
  exact ⟨_, m, h, k, by decide, h1, h2⟩

/-- C102, `solve`: after any history, at most `15` steps for each node left and each call of `solve_helper` (C85), the release of
the memory included. -/
theorem C102_solve (M : List (List Nat)) (hM : ∀ col ∈ M, col.Nodup) (log) (m : Matrix) (h : Heap) (H : Hist M log m h) :
    ∃ res h' n k, m.solve h = .ok (res, h') ∧ countedSolve m h = .ok ((res, h'), n) ∧
      workSolve m (h, 0) = .ok (res, (h', k)) ∧ k ≤ 15 * nodes (residual M (accepted log)) * n := by
  obtain ⟨r, e, hc⟩ := C85_calls M hM log m h H
  obtain ⟨res, h', k, e1, e2, b⟩ := workSolve_hist (hist_inv hM H) (Nat.le_refl _) 0
  rw [e] at e1
  cases e1
  exact ⟨res, h', _, k, e, hc, e2, by omega⟩

/-- C102, `drop`: giving back a matrix costs at most four steps for each node left. -/
theorem C102_drop (M : List (List Nat)) (hM : ∀ col ∈ M, col.Nodup) (log) (m : Matrix) (h : Heap) (H : Hist M log m h) :
    ∃ h' k, m.drop h = .ok h' ∧ workDrop m (h, 0) = .ok (h', k) ∧ k ≤ 4 * nodes (residual M (accepted log)) := by
  obtain ⟨h', k, e1, e2, b⟩ := workDrop_hist (hist_inv hM H) 0
  exact ⟨h', k, e1, e2, by omega⟩

/-- A concrete case: Knuth's matrix has 24 nodes and is searched in 6 calls, so `solve` makes at most 2160 steps. -/
example : ∃ m h res h' k, Hist knuth [] m h ∧ m.solve h = .ok (res, h') ∧ workSolve m (h, 0) = .ok (res, (h', k)) ∧
    k ≤ 2160 := by
  have hM : ∀ col ∈ knuth, (col : List Nat).Nodup := by decide
  obtain ⟨m, h, _, H, _⟩ := new_ok _ hM
  obtain ⟨res, h', n, k, e1, e2, e3, b⟩ := C102_solve _ hM _ m h H
  obtain ⟨r, _, h2⟩ := C85_calls _ hM _ m h H
  rw [e2, show visits (residual knuth (accepted [])).length (residual knuth (accepted [])) = 6 by decide] at h2
  obtain ⟨_, rfl⟩ : _ ∧ n = 6 := by simpa using h2
  refine ⟨m, h, res, h', k, H, e1, e3, ?_⟩
  have : nodes (residual knuth (accepted [])) = 24 := by decide
  omega

end DancingLinks.Props

namespace Sudoku.Props
open DancingLinks DancingLinks.Spec Sudoku Sudoku.Spec

/-- C102, `solve_sudoku`: whenever it returns, it has made at most `48615` steps for each call of `solve_helper` and `53000`
besides. -/
theorem C102_sudoku (p : List UInt8) (res) (h : Heap) (e : solveSudoku p = .ok (res, h)) :
    ∃ n k, countedSudoku p = .ok ((res, h), n) ∧ workSudoku p = .ok (res, (h, k)) ∧ k ≤ 48615 * n + 53000 := by
  have hc := countedSudoku_eq p
  rw [e] at hc
  obtain ⟨k, h1, h2⟩ := workSudoku_le p e hc
  exact ⟨_, k, hc, h1, h2⟩

example : ∃ g h n k, countedSudoku puzzle = .ok ((.ok g, h), n) ∧ workSudoku puzzle = .ok (.ok g, (h, k)) ∧ k ≤ 48615 * n + 53000 := by
  obtain ⟨g, h, e, _⟩ := C02_solve_complete puzzle puzzle_ok.1 puzzle_ok.2.1 ⟨sample, puzzle_ok.2.2⟩
  obtain ⟨n, k, h1, h2, h3⟩ := C102_sudoku puzzle _ h e
  exact ⟨g, h, n, k, h1, h2, h3⟩

/-- C102, easy puzzles: a sudoku that can be solved by singles is solved in less than 4.1 million steps. -/
theorem C102_singles (p : List UInt8) (hp : p.length = 81) (hc : (clues p).Pairwise fun a x => clash x a = false)
    (hs : Singles (clues p)) : ∃ g h k, Valid g ∧ Meets g (clues p) ∧ workSudoku p = .ok (.ok g, (h, k)) ∧
      k ≤ 48615 * (82 - (clues p).length) + 53000 := by
  obtain ⟨g, h, V, hm, _, e, hn⟩ := C86_singles p hp hc hs
  obtain ⟨k, h1, h2⟩ := workSudoku_le p e hn
  exact ⟨g, h, k, V, hm, h1, h2⟩

/-- C102, hard puzzles: with `n` clues the number of steps is at most
`48615 * (1 + 9 + ... + 9 ^ (81 - n)) + 53000`. -/
theorem C102_all (p : List UInt8) (hp : p.length = 81) (res) (h : Heap) (e : solveSudoku p = .ok (res, h)) :
    ∃ k, workSudoku p = .ok (res, (h, k)) ∧
      k ≤ 48615 * (∑ i ∈ Finset.range (82 - (clues p).length), 9 ^ i) + 53000 := by
  obtain ⟨n, hn, hb⟩ := C97_sudoku p hp
  rw [e] at hn
  obtain ⟨k, h1, h2⟩ := workSudoku_le p e hn
  exact ⟨k, h1, h2.trans (by gcongr)⟩

/-- A concrete case: the sample without its first row. -/
example : ∃ h k, workSudoku puzzle = .ok (.ok sample, (h, k)) ∧ k ≤ 539150 := by
  have hlen : puzzle.length = 81 := by decide +kernel
  obtain ⟨g, h, V, hm, hu, e, hn⟩ := C86_singles puzzle hlen puzzle_calm puzzle_singles
  have : Meets sample (clues puzzle) := by unfold Meets; decide +kernel
  obtain ⟨k, h1, h2⟩ := workSudoku_le puzzle e hn
  rw [hu sample sample_valid this]
  rw [show (clues puzzle).length = 72 by decide +kernel] at h2
  exact ⟨h, k, h1, by omega⟩

end Sudoku.Props
