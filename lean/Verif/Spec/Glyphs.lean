import Verif.Model.Image

/-! What has to hold of the font for a printed sudoku to be readable. Nothing of this is assumed of `draw_text_mut` elsewhere. -/
namespace Sudoku.Spec

/-- The digits 1 to 9, written in black at size 100 on white, fill a box of 70 times 90 pixels with a picture `shade` of
their own, and change nothing outside of the box. `shade 0` is a white box. -/
structure Glyphs (text : TextFn) (shade : Nat → Nat → Nat → Rgb) : Prop where
  inside : ∀ (img : Img) (x y d a b : Nat), x + 70 ≤ img.width → y + 90 ≤ img.height → 1 ≤ d → d ≤ 9 → a < 70 → b < 90 →
    img.px (x + a) (y + b) = ⟨255, 255, 255⟩ → (text.draw img ⟨0, 0, 0⟩ x y 100 (toString d)).px (x + a) (y + b) = shade d a b
  outside : ∀ (img : Img) (x y d : Nat), x + 70 ≤ img.width → y + 90 ≤ img.height → 1 ≤ d → d ≤ 9 → ∀ u v : Nat,
    ¬ (x ≤ u ∧ u < x + 70 ∧ y ≤ v ∧ v < y + 90) → (text.draw img ⟨0, 0, 0⟩ x y 100 (toString d)).px u v = img.px u v
  white : ∀ a b : Nat, shade 0 a b = ⟨255, 255, 255⟩
  distinct : ∀ d ≤ 9, ∀ e ≤ 9, d ≠ e → ∃ a < 70, ∃ b < 90, shade d a b ≠ shade e a b

end Sudoku.Spec
