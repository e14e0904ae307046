import Verif.Model.Errors
import Verif.Props.Sudoku
import Verif.Props.Nonogram

/-!
Property theorems about the texts of the errors (C75).
-/
namespace Errors.Props

/-! ### C75: the text of an error identifies it, with its payload -/

theorem toDigits_inj {m n : Nat} (h : Nat.toDigits 10 m = Nat.toDigits 10 n) : m = n := by
  have h1 : Nat.ofDigitChars 10 (Nat.toDigits 10 m) 0 = m := Nat.ofDigitChars_ten_toDigits
  have h2 : Nat.ofDigitChars 10 (Nat.toDigits 10 n) 0 = n := Nat.ofDigitChars_ten_toDigits
  rw [h] at h1
  exact h1.symm.trans h2

theorem get_pre {a b : List Char} {i : Nat} {c : Char} (h : a[i]? = some c) : (a ++ b)[i]? = some c := by
  rw [List.getElem?_append_left (List.getElem?_eq_some_iff.mp h).1, h]

theorem differ {a b : List Char} (i : Nat) (c d : Char) (ha : a[i]? = some c) (hb : b[i]? = some d) (hn : c ≠ d) :
    a ≠ b := by
  rintro rfl
  rw [ha] at hb
  exact hn (Option.some.inj hb)

/-- C75, for `DancingLinksError`. -/
theorem C75_dancing_links : Function.Injective DancingLinks.DLError.text := by
  intro a b h
  cases a <;> cases b <;> first | rfl | (revert h; decide)

/-- C75, for `MazeError`. -/
theorem C75_maze : Function.Injective Maze.MazeError.text := by
  intro a b h
  cases a <;> cases b <;> first | rfl | (revert h; decide)

/-- C75, for `SudokuError`. -/
theorem C75_sudoku : Function.Injective Sudoku.SudokuError.text := by
  have i0 : ∀ c, (Sudoku.SudokuError.invalidInteger c).text[0]? = some 'i' := fun c => get_pre (get_pre (by decide))
  have s0 : ∀ n, (Sudoku.SudokuError.invalidSize n).text[0]? = some 's' := fun c => get_pre (get_pre (by decide))
  have s7 : ∀ n, (Sudoku.SudokuError.invalidSize n).text[7]? = some 'm' := fun c => get_pre (get_pre (by decide))
  have n0 : Sudoku.SudokuError.noSolution.text[0]? = some 's' := by decide
  have n7 : Sudoku.SudokuError.noSolution.text[7]? = some 'h' := by decide
  intro a b h
  cases a with
  | invalidInteger c =>
    cases b with
    | invalidInteger d =>
      have := List.append_cancel_left (List.append_cancel_right h)
      rw [(List.cons.inj this).1]
    | invalidSize n => exact absurd h (differ 0 _ _ (i0 c) (s0 n) (by decide))
    | noSolution => exact absurd h (differ 0 _ _ (i0 c) n0 (by decide))
  | invalidSize m =>
    cases b with
    | invalidInteger d => exact absurd h (differ 0 _ _ (s0 m) (i0 d) (by decide))
    | invalidSize n => rw [toDigits_inj (List.append_cancel_left (List.append_cancel_right h))]
    | noSolution => exact absurd h (differ 7 _ _ (s7 m) n7 (by decide))
  | noSolution =>
    cases b with
    | invalidInteger d => exact absurd h (differ 0 _ _ n0 (i0 d) (by decide))
    | invalidSize n => exact absurd h (differ 7 _ _ n7 (s7 n) (by decide))
    | noSolution => rfl

/-- C75, for `NonogramError`. -/
theorem C75_nonogram : Function.Injective Nonogram.NonogramError.text := by
  have r0 : ∀ f, (Nonogram.NonogramError.InvalidRule f).text[0]? = some 'i' := fun c => get_pre (get_pre (by decide))
  have r8 : ∀ f, (Nonogram.NonogramError.InvalidRule f).text[8]? = some 'r' := fun c => get_pre (get_pre (by decide))
  have r13 : ∀ f, (Nonogram.NonogramError.InvalidRule f).text[13]? = some '`' := fun c => get_pre (get_pre (by decide))
  -- no other text looks like that of `InvalidRule`
  have other : ∀ f e, (∀ f', e ≠ Nonogram.NonogramError.InvalidRule f') →
      (Nonogram.NonogramError.InvalidRule f).text ≠ e.text := by
    intro f e he
    cases e with
    | EmptyPuzzle => exact differ 0 _ 'p' (r0 f) (by decide) (by decide)
    | InvalidRule f' => exact absurd rfl (he f')
    | InvalidRuleDimension => exact differ 13 _ 'd' (r13 f) (by decide) (by decide)
    | NoSolution => exact differ 0 _ 'p' (r0 f) (by decide) (by decide)
    | InvalidDimensions => exact differ 8 _ 'd' (r8 f) (by decide) (by decide)
  intro a b h
  by_cases ha : ∃ f, a = .InvalidRule f
  · obtain ⟨f, rfl⟩ := ha
    by_cases hb : ∃ f, b = .InvalidRule f
    · obtain ⟨f', rfl⟩ := hb
      rw [List.append_cancel_left (List.append_cancel_right h)]
    · exact absurd h (other f b fun f' e => hb ⟨f', e⟩)
  · by_cases hb : ∃ f, b = .InvalidRule f
    · obtain ⟨f', rfl⟩ := hb
      exact absurd h.symm (other f' a fun f e => ha ⟨f, e⟩)
    · cases a <;> cases b <;> first | rfl | exact absurd ⟨_, rfl⟩ ha | exact absurd ⟨_, rfl⟩ hb | (revert h; decide)

example : (Sudoku.SudokuError.invalidSize 80).text = "sudoku must by 9 x 9, got 80 entries".toList := by decide
example : (Nonogram.NonogramError.InvalidRule "1x".toList).text = "invalid rule `1x`".toList := by decide

end Errors.Props
