import Verif.Model.SudokuWrap
import Verif.Proofs.Sudoku.Solve
import Verif.Proofs.DL.WrapEq
import Verif.Proofs.Sudoku.Small

/-! Helper lemmas for C132: `solve_sudoku` in both builds. -/
namespace Sudoku
open DancingLinks DancingLinks.Spec
open DancingLinks.Limit (bind_ok)

theorem digitB_eq (oc : Bool) : digitB oc = fun num => pure (UInt8.ofNat (num % 9) + 1) := by
  funext num
  have h : num % 9 % 2 ^ 8 = num % 9 := by omega
  unfold digitB
  rw [h, addW_ok (by omega)]
  simp [UInt8.ofNat_add]

attribute [local irreducible] constraints

theorem two_pow_le {bits : Nat} (hb : 16 ≤ bits) : 65536 ≤ 2 ^ bits :=
  Nat.le_trans (by decide) (Nat.pow_le_pow_right (by decide) hb)

theorem constraints_usize {bits : Nat} (hb : 16 ≤ bits) : ∀ col ∈ constraints, col.length < 2 ^ bits ∧ ∀ r ∈ col, r < 2 ^ bits := by
  have hN := two_pow_le hb
  intro col hc
  have := constraints_small col hc
  exact ⟨by omega, fun r hr => by have := this.2 r hr; omega⟩

theorem addGivensB_eq (oc : Bool) {bits : Nat} (hb : 16 ≤ bits) (l : List (UInt8 × Nat)) (hl : ∀ e ∈ l, e.2 < 81) : ∀ log m h, Hist constraints log m h →
    addGivensB oc bits l m h = addGivens l m h := by
  have hN := two_pow_le hb
  induction l with
  | nil => intro log m h _; rfl
  | cons e l ih =>
    obtain ⟨v, i⟩ := e
    intro log m h H
    have ih := ih fun e he => hl e (by simp [he])
    have hi : i < 81 := hl (v, i) (by simp)
    by_cases hv : v = 0
    · simp only [addGivensB, addGivens, if_pos hv]
      exact ih log m h H
    · have h0 : 0 < v.toNat := by
        rcases Nat.eq_zero_or_pos v.toNat with h | h
        · exact absurd (UInt8.toNat_inj.1 (by simpa using h)) hv
        · exact h
      have h1 : v.toNat < 256 := UInt8.toNat_lt v
      simp only [addGivensB, addGivens, if_neg hv]
      rw [mulW_ok (by omega), Prog.ok_bind, addW_ok (by omega), Prog.ok_bind, subW_ok (by omega), Prog.ok_bind,
        WrapEq.addSolution_eq (WrapEq.build_agrees oc bits) constraints_nodup H]
      cases ea : addSolution m h (i * 9 + v.toNat - 1) with
      | panic => rfl
      | ub => rfl
      | diverge => rfl
      | ok x =>
        obtain ⟨res, m', h'⟩ := x
        simp only [Prog.ok_bind]
        have H' := Hist.add H ea
        rcases res with (_ | _) | _
        all_goals first
          | rfl
          | exact ih _ _ _ H'

theorem addGivens_hist (l : List (UInt8 × Nat)) : ∀ log m h, Hist constraints log m h → ∀ b m' h', addGivens l m h = .ok (b, m', h') →
    ∃ log', Hist constraints log' m' h' := by
  induction l with
  | nil => intro log m h H b m' h' e; cases e; exact ⟨log, H⟩
  | cons e l ih =>
    obtain ⟨v, i⟩ := e
    intro log m h H b m' h' e
    simp only [addGivens] at e
    split at e
    · exact ih log m h H b m' h' e
    · obtain ⟨⟨res, m1, h1⟩, ea, e⟩ := bind_ok e
      have H' := Hist.add H ea
      rcases res with (_ | _) | _
      all_goals first
        | exact ih _ _ _ H' _ _ _ e
        | (cases e; exact ⟨_, H'⟩)

theorem solveSudokuB_eq (oc : Bool) {bits : Nat} (hb : 16 ≤ bits) (p : List UInt8) : solveSudokuB oc bits p = solveSudoku p := by
  unfold solveSudokuB solveSudoku
  split
  · rfl
  · rename_i hp
    obtain ⟨m, h, e, H, _⟩ := Props.new_ok constraints constraints_nodup
    have hp : p.length = 81 := by simpa [gridSize] using hp
    rw [e, Prog.ok_bind, Prog.ok_bind]
    simp only
    rw [addGivensB_eq oc hb _ (zipIdx_lt hp) _ _ _ H]
    cases ea : addGivens p.zipIdx m h with
    | panic => rfl
    | ub => rfl
    | diverge => rfl
    | ok x =>
      obtain ⟨go, m', h'⟩ := x
      obtain ⟨log', H'⟩ := addGivens_hist _ _ _ _ H _ _ _ ea
      simp only [Prog.ok_bind]
      split
      · rfl
      · rw [WrapEq.solve_eq (WrapEq.build_agrees oc bits) (Nat.two_pow_pos bits) constraints_nodup (constraints_usize hb) H', digitB_eq]
        simp only [List.mapM_pure]
        rfl

end Sudoku
