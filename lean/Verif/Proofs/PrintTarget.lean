import Verif.Model.PrintTarget
import Verif.Proofs.Nonogram.PrintAll

/-! Helper lemmas: the printing functions on 32-bit and 64-bit targets. -/
namespace PrintTarget

/-- The buffer of an image: the two targets agree, or the limit of the smaller one is exceeded. -/
theorem fromPixel_bind {ws : Nat} (hws : ws = 4 ∨ ws = 8) {α : Type} (w h : Nat) (c : Rgb) (f : Img → Prog α) :
    (Img.fromPixelT ws w h c >>= f) =
      if 2 ^ (8 * ws - 1) ≤ 3 * w * h then .panic else Img.fromPixel w h c >>= f := by
  unfold Img.fromPixelT Img.fromPixel
  have : 2 ^ (8 * ws - 1) ≤ 2 ^ 63 := Nat.pow_le_pow_right (by omega) (by omega)
  by_cases h1 : 3 * w * h < 2 ^ (8 * ws - 1)
  · rw [if_pos h1, if_neg (by omega), if_pos (by omega)]
  · rw [if_neg h1, if_pos (by omega)]
    rfl

/-- A side of the picture of a maze. -/
theorem mazeSide (oc : Bool) (n : Nat) :
    (∃ a, mulW oc 32 n 10 = .ok a ∧ (addW oc 32 a 1 = .ok ((10 * n + 1) % 2 ^ 32) ∨ addW oc 32 a 1 = .panic)) ∨
    mulW oc 32 n 10 = .panic := by
  unfold mulW
  by_cases h1 : n * 10 < 2 ^ 32
  · rw [if_pos h1]
    refine .inl ⟨_, rfl, ?_⟩
    unfold addW
    by_cases h2 : n * 10 + 1 < 2 ^ 32
    · rw [if_pos h2]; left; congr 1; omega
    · rw [if_neg h2]; cases oc
      · left; simp only [Bool.false_eq_true, if_false]; congr 1; omega
      · right; rfl
  · rw [if_neg h1]
    cases oc
    · refine .inl ⟨_, rfl, .inl ?_⟩
      unfold addW
      split
      · congr 1; omega
      · simp only [Bool.false_eq_true, if_false]; congr 1; omega
    · exact .inr rfl

open Maze in
/-- `print_maze` where the product of the dimensions is computed as `n`. -/
theorem printMazeT_eq {ws : Nat} (hws : ws = 4 ∨ ws = 8) (oc : Bool) {w h : Nat} {g : List MazeNode}
    (hn : mulW oc (8 * ws) w h = .ok (w * h)) :
    printMazeT ws oc w h g =
      if g.length = w * h ∧ 2 ^ (8 * ws - 1) ≤ 3 * ((10 * w + 1) % 2 ^ 32) * ((10 * h + 1) % 2 ^ 32) then .panic
      else printMaze oc w h g := by
  unfold printMazeT printMaze
  rw [hn, Prog.ok_bind]
  by_cases hl : w * h = g.length
  · simp only [hl, ne_eq, not_true_eq_false, if_false, true_and]
    rcases mazeSide oc w with ⟨a, h1, h2 | h2⟩ | h1
    · simp only [h1, h2, Prog.ok_bind]
      rcases mazeSide oc h with ⟨b, h3, h4 | h4⟩ | h3
      · simp only [h3, h4, Prog.ok_bind]
        rw [fromPixel_bind hws]
      · simp only [h3, h4, Prog.ok_bind]; split <;> rfl
      · simp only [h3]; split <;> rfl
    · simp only [h1, h2, Prog.ok_bind]; split <;> rfl
    · simp only [h1]; split <;> rfl
  · rw [if_pos hl, if_pos hl, if_neg (by omega)]

open Maze in
/-- `print_maze` where the product wraps: what is left to say when both sides of the picture fit in 32 bits. -/
theorem printMazeT_wrap {ws : Nat} (hws : ws = 4 ∨ ws = 8) {w h : Nat} {g : List MazeNode} (hp : 2 ^ (8 * ws) ≤ w * h)
    (hg : g.length = w * h % 2 ^ (8 * ws)) (h1 : 10 * w + 1 < 2 ^ 32) (h2 : 10 * h + 1 < 2 ^ 32) :
    printMazeT ws false w h g = .panic := by
  have hn : mulW false (8 * ws) w h = .ok (w * h % 2 ^ (8 * ws)) := by
    unfold mulW; rw [if_neg (by omega)]; rfl
  unfold printMazeT
  rw [hn, Prog.ok_bind, if_neg (by rw [hg]; exact fun h => h rfl), mulW_ok (by omega), Prog.ok_bind, addW_ok (by omega), Prog.ok_bind,
    mulW_ok (by omega), Prog.ok_bind, addW_ok (by omega), Prog.ok_bind, fromPixel_bind hws, if_pos]
  have : 2 ^ (8 * ws - 1) ≤ 2 ^ (8 * ws) := Nat.pow_le_pow_right (by omega) (by omega)
  exact Nat.le_trans (Nat.le_trans this hp) (Nat.mul_le_mul (by omega) (by omega))

/-- The side of the picture of a nonogram. -/
theorem nonogramSide (oc : Bool) (n : Nat) :
    (∃ a, Nonogram.ruleSide oc n = .ok a ∧
      (Nonogram.imageSide oc n a = .ok (Nonogram.Spec.side32 n) ∨ Nonogram.imageSide oc n a = .panic)) ∨
    Nonogram.ruleSide oc n = .panic := by
  cases oc with
  | false => exact .inl ⟨_, Nonogram.ruleSide_wrap n, .inl (Nonogram.imageSide_wrap n)⟩
  | true =>
    unfold Nonogram.ruleSide
    by_cases h1 : n * 10 < 2 ^ 32
    · rw [mulW_ok h1]
      refine .inl ⟨_, rfl, ?_⟩
      unfold Nonogram.imageSide
      by_cases h2 : n * 50 < 2 ^ 32
      · rw [mulW_ok h2, Prog.ok_bind]
        unfold addW
        split
        · left; congr 1
          unfold Nonogram.Spec.side32 Nonogram.Spec.margin32
          rw [Nat.mod_eq_of_lt (a := 10 * n) (by omega), Nat.mod_eq_of_lt] <;> rw [Nat.mul_comm 10 n, Nat.mul_comm 50 n]
          assumption
        · right; rfl
      · right; unfold mulW; rw [if_neg h2]; rfl
    · right; unfold mulW; rw [if_neg h1]; rfl

open Nonogram Nonogram.Spec in
theorem printNonogramT_eq {ws : Nat} (hws : ws = 4 ∨ ws = 8) (oc : Bool) (text : TextFn) (w h : Nat) (col row : List (List Nat)) :
    printNonogramT ws oc text w h col row =
      if w = col.length ∧ h = row.length ∧ 2 ^ (8 * ws - 1) ≤ 3 * side32 w * side32 h then .panic
      else printNonogram oc text w h col row := by
  unfold printNonogramT printNonogram
  by_cases hl : w ≠ col.length ∨ h ≠ row.length
  · rw [if_pos hl, if_pos hl, if_neg (by omega)]
  · rw [if_neg hl, if_neg hl]
    have hw : w = col.length := by omega
    have hh : h = row.length := by omega
    simp only [hw, hh, true_and]
    rcases nonogramSide oc col.length with ⟨a, h1, h2⟩ | h1
    · rcases nonogramSide oc row.length with ⟨b, h3, h4⟩ | h3
      · rcases h2 with h2 | h2
        · rcases h4 with h4 | h4
          · simp only [h1, h2, h3, h4, Prog.ok_bind]
            rw [fromPixel_bind hws]
          · simp only [h1, h2, h3, h4, Prog.ok_bind]; split <;> rfl
        · simp only [h1, h2, h3, Prog.ok_bind]; split <;> rfl
      · simp only [h1, h3, Prog.ok_bind]; split <;> rfl
    · simp only [h1]; split <;> rfl

end PrintTarget
