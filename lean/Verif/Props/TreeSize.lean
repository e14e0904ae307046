import Verif.Proofs.Sudoku.TreeSize
import Verif.Props.Calls
import Verif.Spec.Hard

/-! C97: how many calls of `solve_helper` there can be. -/
namespace DancingLinks.Props
open DancingLinks DancingLinks.Spec DancingLinks.TreeSize

/-- C97, upper bound. If no constraint has more than `b` rows and every row lies in at least `q` constraints, then after any
history of `add_solution` calls that leaves at most `q * d` constraints, `solve` calls `solve_helper` at most
`1 + b + ... + b ^ d` times. -/
theorem C97_upper (M : List (List Nat)) (hM : ∀ col ∈ M, col.Nodup) (log) (m : Matrix) (h : Heap) (H : Hist M log m h)
    (q b d : Nat) (hb : ∀ col ∈ M, col.length ≤ b)
    (hq : ∀ col ∈ M, ∀ x ∈ col, q ≤ M.countP (fun col => decide (x ∈ col)))
    (hd : (residual M (accepted log)).length ≤ q * d) :
    ∃ r k, m.solve h = .ok r ∧ countedSolve m h = .ok (r, k) ∧ k ≤ ∑ i ∈ Finset.range (d + 1), b ^ i := by
  obtain ⟨r, h1, h2⟩ := C85_calls M hM log m h H
  exact ⟨r, _, h1, h2, visits_le _ _ d (Dense.residual ⟨hb, hq⟩ _) hd⟩

/-- The bound on Knuth's matrix: at most three rows in a constraint, each row in at least two of seven constraints. -/
example : ∃ m h r k, Hist knuth [] m h ∧ m.solve h = .ok r ∧ countedSolve m h = .ok (r, k) ∧ k ≤ 121 := by
  have hM : ∀ col ∈ knuth, (col : List Nat).Nodup := by decide
  obtain ⟨m, h, _, H, _⟩ := new_ok _ hM
  obtain ⟨r, k, h1, h2, h3⟩ := C97_upper _ hM _ m h H 2 3 4 (by decide) (by decide) (by decide)
  exact ⟨m, h, r, k, H, h1, h2, Nat.le_trans h3 (by decide)⟩

theorem hard_ge {n k : Nat} {col : List Nat} (h : col ∈ hard n k) : ∀ x ∈ col, k ≤ x := by
  induction n generalizing k with
  | zero =>
    simp only [hard, List.mem_cons, List.not_mem_nil, or_false] at h
    rcases h with rfl | rfl | rfl <;> simp
  | succ n ih =>
    rcases List.mem_cons.1 h with rfl | h
    · simp
    · intro x hx; have := ih h x hx; omega

theorem hard_two {n k : Nat} {col : List Nat} (h : col ∈ hard n k) : col.length = 2 ∧ col.Nodup := by
  induction n generalizing k with
  | zero =>
    simp only [hard, List.mem_cons, List.not_mem_nil, or_false] at h
    rcases h with rfl | rfl | rfl <;> simp
  | succ n ih =>
    rcases List.mem_cons.1 h with rfl | h
    · simp
    · exact ih h

theorem hard_residual (n k r : Nat) (hr : r = k ∨ r = k + 1) : residual (hard (n + 1) k) [r] = hard n (k + 2) := by
  have hmem : r ∈ [k, k + 1] := by rcases hr with rfl | rfl <;> simp
  have hno : ∀ col ∈ hard n (k + 2), r ∉ col := fun col hc hx => by have := hard_ge hc r hx; omega
  unfold residual
  simp only [hard, List.all_cons, List.all_nil, Bool.and_true]
  rw [List.filter_cons_of_neg (by simp [hmem]), List.filter_eq_self.2 fun col hc => by simpa using hno col hc]
  refine (List.map_congr_left fun col hc => ?_).trans (List.map_id _)
  refine List.filter_eq_self.2 fun x hx => ?_
  simp only [Bool.not_eq_true', conflict, List.any_eq_false, decide_eq_true_eq, not_and]
  intro c' hc' hxc hrc
  rcases List.mem_cons.1 hc' with rfl | hc'
  · have := hard_ge hc x hx
    simp at hxc; omega
  · exact hno _ hc' hrc

theorem hard_first (n k : Nat) : firstShortest (hard (n + 1) k) = some [k, k + 1] :=
  firstShortest_head fun d hd => by rw [(hard_two hd).1]; rfl

theorem hard_none (n k : Nat) : search (n + 3) (hard n k) = none ∧ visits (n + 3) (hard n k) + 1 = 4 * 2 ^ n := by
  induction n generalizing k with
  | zero =>
    have h0 : firstShortest (hard 0 k) = some [k, k + 1] := by simp [hard, firstShortest]
    have h1 : residual (hard 0 k) [k] = [[]] := by
      simp [residual, hard, conflict]
    have h2 : residual (hard 0 k) [k + 1] = [[]] := by
      simp [residual, hard, conflict]
    constructor
    · simp [search, h0, h1, h2, firstShortest]
    · simp [visits, h0, h1, h2, firstShortest, search, tried]
  | succ n ih =>
    obtain ⟨i1, i2⟩ := ih (k + 2)
    have h1 := hard_residual n k k (.inl rfl)
    have h2 := hard_residual n k (k + 1) (.inr rfl)
    constructor
    · rw [show n + 1 + 3 = (n + 3) + 1 by omega, search, hard_first]
      simp [h1, h2, i1]
    · rw [show n + 1 + 3 = (n + 3) + 1 by omega, visits, hard_first]
      simp only [tried, h1, h2, i1, Option.isSome_none, Bool.false_eq_true, if_false, List.map_cons, List.map_nil,
        List.sum_cons, List.sum_nil]
      rw [Nat.pow_succ]; omega

theorem hard_length (n k : Nat) : (hard n k).length = n + 3 := by
  induction n generalizing k with
  | zero => rfl
  | succ n ih => simp [hard, ih]

theorem hard_count (n k x : Nat) : (hard n k).countP (fun col => decide (x ∈ col)) ≤ 2 := by
  induction n generalizing k with
  | zero =>
    by_cases h1 : x = k
    · subst h1; simp [hard]
    · by_cases h2 : x = k + 1
      · subst h2; simp [hard]
      · simp only [hard, List.countP_cons, List.countP_nil, List.mem_cons, List.not_mem_nil, or_false, h1, h2]
        split <;> simp
  | succ n ih =>
    rw [hard, List.countP_cons]
    by_cases hx : x ∈ [k, k + 1]
    · have : (hard n (k + 2)).countP (fun col => decide (x ∈ col)) = 0 := by
        rw [List.countP_eq_zero]
        intro col hc hm
        have := hard_ge hc x (of_decide_eq_true hm)
        simp only [List.mem_cons, List.not_mem_nil, or_false] at hx
        omega
      rw [this, if_pos (decide_eq_true hx)]
      omega
    · rw [if_neg (by simpa using hx)]
      exact ih (k + 2)

/-- C97, lower bound. The problem `hard n 0` has `n + 3` constraints of two rows each, and no row lies in more than two
constraints; `solve` finds that there is no solution with `2 ^ (n + 2) - 1` calls of `solve_helper`. -/
theorem C97_exponential (n : Nat) :
    ((hard n 0).length = n + 3 ∧ (∀ col ∈ hard n 0, col.length = 2 ∧ col.Nodup) ∧
      ∀ x, (hard n 0).countP (fun col => decide (x ∈ col)) ≤ 2) ∧
    ∃ m h h', Matrix.new Heap.empty (hard n 0) = .ok (m, h) ∧
      m.solve h = .ok (.error .noSolution, h') ∧
      countedSolve m h = .ok ((.error .noSolution, h'), 2 ^ (n + 2) - 1) := by
  refine ⟨⟨hard_length n 0, fun col hc => hard_two hc, hard_count n 0⟩, ?_⟩
  have hM : ∀ col ∈ hard n 0, col.Nodup := fun col hc => (hard_two hc).2
  obtain ⟨m, h, e, H, _⟩ := new_ok _ hM
  obtain ⟨r, h1, h2⟩ := C85_calls _ hM _ m h H
  obtain ⟨h', hs⟩ := C65_algorithm_x _ hM _ m h H
  have hres : residual (hard n 0) (accepted []) = hard n 0 := by simp [accepted, residual]
  rw [hres] at h2 hs
  rw [hard_length] at h2
  have hX : algorithmX (hard n 0) = none := by unfold algorithmX; rw [hard_length]; exact (hard_none n 0).1
  rw [hX] at hs
  refine ⟨m, h, h', e, hs, ?_⟩
  have hv := (hard_none n 0).2
  rw [hs] at h1
  rw [h2, ← Prog.ok.inj h1, show visits (n + 3) (hard n 0) = 2 ^ (n + 2) - 1 by rw [Nat.pow_succ, Nat.pow_succ]; omega]

/-- With 20 free choices: more than four million calls. -/
example : ∃ m h h', Matrix.new Heap.empty (hard 20 0) = .ok (m, h) ∧
    countedSolve m h = .ok ((.error .noSolution, h'), 4194303) := by
  obtain ⟨_, m, h, h', h1, _, h2⟩ := C97_exponential 20
  exact ⟨m, h, h', h1, h2⟩

end DancingLinks.Props

namespace Sudoku.Props
open DancingLinks DancingLinks.Spec Sudoku Sudoku.Spec

/-- Every row of the sudoku matrix lies in four constraints, one of each kind. -/
theorem four_constraints {r : Nat} (hr : r < 729) : 4 ≤ constraints.countP (fun col => decide (r ∈ col)) := by
  have one : ∀ (f : Nat → List Nat) (k : Nat), k < 81 → r ∈ f k →
      1 ≤ ((List.range 81).map f).countP (fun col => decide (r ∈ col)) := fun f k hk hm =>
    List.countP_pos_iff.2 ⟨f k, List.mem_map.2 ⟨k, List.mem_range.2 hk, rfl⟩, by simpa using hm⟩
  have h1 := one cellCol (r / 9) (by omega) ((by decide +kernel : ∀ r < 729, r ∈ cellCol (r / 9)) r hr)
  have h2 := one rowCol (r % 9 + 9 * (r / 81)) (by omega)
    ((by decide +kernel : ∀ r < 729, r ∈ rowCol (r % 9 + 9 * (r / 81))) r hr)
  have h3 := one colCol (r % 81) (by omega) ((by decide +kernel : ∀ r < 729, r ∈ colCol (r % 81)) r hr)
  have h4 := one boxCol (r % 9 + 9 * (r / 9 % 9 / 3) + 27 * (r / 81 / 3)) (by omega)
    ((by decide +kernel : ∀ r < 729, r ∈ boxCol (r % 9 + 9 * (r / 9 % 9 / 3) + 27 * (r / 81 / 3))) r hr)
  rw [constraints_eq, List.countP_append, List.countP_append, List.countP_append]
  omega

theorem constraints_dense : TreeSize.Dense constraints 4 9 := by
  have h9 : ∀ col ∈ constraints, col.length ≤ 9 := by rw [constraints_eq]; decide +kernel
  have hlt : ∀ col ∈ constraints, ∀ x ∈ col, x < 729 := by rw [constraints_eq]; decide +kernel
  exact ⟨h9, fun col hc x hx => four_constraints (hlt col hc x hx)⟩

/-- C97, sudoku. `solve_sudoku` calls `solve_helper` at most `1 + 9 + ... + 9 ^ (81 - n)` times, `n` the number of clues. -/
theorem C97_sudoku (p : List UInt8) (hp : p.length = 81) : ∃ k, countedSudoku p = (do let r ← solveSudoku p; return (r, k)) ∧
    k ≤ ∑ i ∈ Finset.range (82 - (clues p).length), 9 ^ i := by
  refine ⟨_, countedSudoku_eq p, ?_⟩
  split
  · next hc =>
    have hcalm := (verdict_search_iff (clues p) [] calm_nil).1 hc.2
    have hwf := clues_WF hp
    have hl := TreeSize.length_residual (M := constraints) (q := 4) ((clues p).map num) (fun a ha => by
        obtain ⟨x, hx, rfl⟩ := List.mem_map.1 ha
        have hlt := num_lt (hwf x hx)
        exact four_constraints hlt) (by
        rw [List.pairwise_map]
        refine List.Pairwise.imp_of_mem ?_ (by simpa [Calm] using hcalm)
        intro a x ha hx hcl
        rw [conflict_num (hwf x hx) (hwf a ha)]
        exact hcl)
    rw [constraints_length, List.length_map] at hl
    have := TreeSize.visits_le 324 _ (81 - (clues p).length) (constraints_dense.residual ((clues p).map num)) (by omega)
    rwa [show 82 - (clues p).length = 81 - (clues p).length + 1 by omega]
  · exact Nat.zero_le _

/-- With one row erased at most `1 + 9 + ... + 9 ^ 9` calls. -/
example : ∃ k, countedSudoku puzzle = (do let r ← solveSudoku puzzle; return (r, k)) ∧ k ≤ ∑ i ∈ Finset.range 10, 9 ^ i := by
  obtain ⟨k, h1, h2⟩ := C97_sudoku puzzle puzzle_ok.1
  rw [show (clues puzzle).length = 72 by decide +kernel] at h2
  exact ⟨k, h1, h2⟩

end Sudoku.Props
