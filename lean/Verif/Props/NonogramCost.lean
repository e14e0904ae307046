import Verif.Proofs.Nonogram.Cost
import Verif.Props.Nonogram

/-! C95: the number of steps of `solve_nonogram`. -/
namespace Nonogram.Props
open Nonogram Nonogram.Spec Nonogram.Cost Counted

/-- C95. `solve_nonogram` on `w` columns and `h` rows whose rules have at most `M` as the sum of their numbers and their
length: the code with a counter returns the same, after at most the given number of steps. -/
theorem C95_steps (oc : Bool) (col row : List (List Nat)) (hf : Fits col row) (M : Nat)
    (hM : ∀ rule ∈ col ++ row, rule.sum + rule.length ≤ M) :
    ∃ r t, solveNonogram oc col row = .ok r ∧ countedSolve oc col row = Prog.ok (r, t) ∧
      t ≤ 2 * (col.length * row.length) + 2 * (M + 2) * (col.length + row.length) +
        (col.length * row.length + 1) * (col.length * lineCost M row.length + row.length * lineCost M col.length) := by
  have hsum : ∀ rule : List Nat, (rule.map (· + 1)).sum = rule.sum + rule.length := by
    intro rule
    induction rule with
    | nil => rfl
    | cons x xs ih => simp [ih]; omega
  have hb : col.length * row.length < 2 ^ 63 := hf.size
  have hb' : col.length * row.length < 2 ^ 64 := by omega
  have hcM : ∀ r ∈ col, (r.map (· + 1)).sum ≤ M := fun r hr => by rw [hsum]; exact hM r (by simp [hr])
  have hrM : ∀ r ∈ row, (r.map (· + 1)).sum ≤ M := fun r hr => by rw [hsum]; exact hM r (by simp [hr])
  obtain ⟨cs, hc, hcm⟩ := machines (fun r hr => hf.small r (List.mem_append_left _ hr))
  obtain ⟨rs, hr, hrm⟩ := machines (fun r hr => hf.small r (List.mem_append_right _ hr))
  have prop : ∀ g : List Square, g.length = col.length * row.length → Costs (rightLeft oc g col row)
      (countedPropagation oc g col row) (fun r => ∀ g', r = .ok g' → g'.length = col.length * row.length)
      (2 * (M + 2) * (col.length + row.length) + (blanks g + 1) * passCost M col.length row.length) := by
    intro g hg
    have key : Costs (rightLeft oc g col row) (countedPropagation oc g col row) (fun _ => True)
        (2 * (M + 2) * (col.length + row.length) + (blanks g + 1) * passCost M col.length row.length) := by
      unfold rightLeft countedPropagation
      refine Costs.le (Costs.bind (machines_cost col hcM) fun cs' e1 h1 => Costs.bind (machines_cost row hrM) fun rs' e2 h2 =>
        (?_ : Costs _ _ _ ((blanks g + 1) * passCost M col.length row.length))) ?_
      · obtain rfl : cs = cs' := by rw [hc] at e1; cases e1; rfl
        obtain rfl : rs = rs' := by rw [hr] at e2; cases e2; rfl
        exact Costs.loop (I := fun g => g.length = col.length * row.length) (μ := blanks) (Q := fun _ => True)
          (fun g hg => (pass_cost oc hf hcm hrm h1.2 h2.2 g hg).mono (fun r _ h => by cases r <;> exact h) (Nat.le_refl _)) g hg
      · generalize 2 * (M + 2) = c
        rw [Nat.mul_add c, Nat.mul_comm c, Nat.mul_comm c]; omega
    refine key.mono (fun r hr _ g' hg' => ?_) (Nat.le_refl _)
    subst hg'
    rcases rightLeft_spec oc hf hg with ⟨_, _, _, h⟩ | ⟨g2, h1, _, h⟩
    · rw [h] at hr; cases hr
    · rw [h] at hr; cases hr
      exact (Passes.le (allJobs_good hf) hg h1).1.trans hg
  have hrep : vecRepeat 1 Square.Blank (col.length * row.length) = .ok (List.replicate (col.length * row.length) .Blank) := by
    unfold vecRepeat; rw [if_pos (by omega)]
  have total : Costs (solveNonogram oc col row) (countedSolve oc col row) (fun _ => True)
      (solveCost M col.length row.length) := by
    unfold solveNonogram countedSolve
    refine Costs.le (Costs.bind (Costs.lift _) fun n hn _ => (?_ : Costs _ _ _ (solveCost M col.length row.length))) (by omega)
    obtain rfl : col.length * row.length = n := by rw [mulW_ok hb'] at hn; cases hn; rfl
    refine Costs.le (Costs.tick (Costs.bind (Costs.lift _) fun g hg _ =>
      (?_ : Costs _ _ _ (2 * (M + 2) * (col.length + row.length) +
        (col.length * row.length + 1) * passCost M col.length row.length + col.length * row.length)))) ?_
    · rw [hrep] at hg
      cases hg
      have := prop (List.replicate (col.length * row.length) .Blank) (by simp)
      rw [show blanks (List.replicate (col.length * row.length) Square.Blank) = col.length * row.length by simp [blanks]] at this
      refine Costs.bind this fun r _ hr => ?_
      cases r with
      | error e => exact (Costs.ret trivial).le (Nat.zero_le _)
      | ok g =>
        have hl : (recursiveBacktrack g col row).length = col.length * row.length := hr g rfl
        exact (Costs.tick (Costs.ret trivial)).le (by rw [hl]; omega)
    · unfold solveCost; omega
  obtain ⟨r, hr, _⟩ := C47_terminates oc col row hf
  rw [hr] at total
  obtain ⟨_, t, h1, h2⟩ := total
  exact ⟨r, t, hr, h2, h1⟩

example : ∃ r t, solveNonogram true [[2], [1]] [[2], [1]] = .ok r ∧ countedSolve true [[2], [1]] [[2], [1]] = Prog.ok (r, t) := by
  obtain ⟨r, t, h1, h2, _⟩ := C95_steps true _ _ fits_two_two 3 (by decide)
  exact ⟨r, t, h1, h2⟩

/-- C95, square puzzles: if the rules fit into their lines, at most `420 * n ^ 6` steps are made. -/
theorem C95_square (oc : Bool) (n : Nat) (col row : List (List Nat)) (hf : Fits col row) (hc : col.length = n)
    (hr : row.length = n) (hM : ∀ rule ∈ col ++ row, rule.sum + rule.length ≤ n + 1) :
    ∃ r t, solveNonogram oc col row = .ok r ∧ countedSolve oc col row = Prog.ok (r, t) ∧ t ≤ 420 * n ^ 6 := by
  obtain ⟨r, t, h1, h2, h3⟩ := C95_steps oc col row hf (n + 1) hM
  refine ⟨r, t, h1, h2, Nat.le_trans h3 ?_⟩
  have hn : 1 ≤ n := hr ▸ hf.rows
  rw [hc, hr]
  unfold lineCost findCost
  obtain ⟨k, rfl⟩ : ∃ k, n = k + 1 := ⟨n - 1, by omega⟩
  ring_nf
  generalize k ^ 2 = a, k ^ 3 = b, k ^ 4 = c, k ^ 5 = d, k ^ 6 = e
  omega

/-- The counter counts: a rule `1` and a line of one unknown square take 22 steps. -/
example : countedFindLeft [.Start, .End, .Fill, .End] [.Blank] = Prog.ok (some [true], 22) := rfl

/-- The hypotheses of C95 are met. -/
example : ∃ r t, solveNonogram true [[2], [1]] [[2], [1]] = .ok r ∧ countedSolve true [[2], [1]] [[2], [1]] = Prog.ok (r, t) ∧
    t ≤ 420 * 2 ^ 6 :=
  C95_square true 2 _ _ fits_two_two rfl rfl (by decide)

end Nonogram.Props
