import Verif.Proofs.Nonogram.PrintAll

/-!
Property theorems for `print_nonogram` on every input (C111): puzzles of any size, with and without overflow checks.

`text` is the opaque text-drawing function, which is taken to return on all positions.
-/
namespace Nonogram.Props
open Nonogram Nonogram.Spec

/-- C111, overflow checks on: the picture of C50 if all positions and the buffer fit, a panic otherwise. -/
theorem C111_debug (text : TextFn) (col row : List (List Nat)) :
    (Drawable col row → ∃ img, printNonogram true text col.length row.length col row = .ok (.ok img) ∧
      img.width = 50 * col.length + max 150 (10 * col.length) ∧
      img.height = 50 * row.length + max 150 (10 * row.length) ∧
      ∀ x < img.width, ∀ y < img.height,
        (OnLine col.length x ∨ OnLine row.length y → img.px x y = ⟨105, 105, 105⟩) ∧
        (¬ (OnLine col.length x ∨ OnLine row.length y) →
          img.px x y = (page text col.length row.length (texts col row)).px x y)) ∧
    (¬ Drawable col row → printNonogram true text col.length row.length col row = .panic) :=
  ⟨printNonogram_px true text col row, printNonogram_debug_panic text col row⟩

/-- C111, overflow checks off: all positions are cut to 32 bits. The call returns if the buffer fits and all pixels of
grid lines lie in the picture, and panics otherwise. -/
theorem C111_release (text : TextFn) (col row : List (List Nat)) :
    let W := side32 col.length
    let H := side32 row.length
    let fits := 3 * W * H < 2 ^ 63 ∧ (0 < H → ∀ x, OnLine32 col.length x → x < W) ∧
      (0 < W → ∀ y, OnLine32 row.length y → y < H)
    (fits → ∃ img, printNonogram false text col.length row.length col row = .ok (.ok img) ∧ img.width = W ∧ img.height = H ∧
      ∀ x < W, ∀ y < H,
        (OnLine32 col.length x ∨ OnLine32 row.length y → img.px x y = ⟨105, 105, 105⟩) ∧
        (¬ (OnLine32 col.length x ∨ OnLine32 row.length y) →
          img.px x y = (page32 text col.length row.length (texts32 col row)).px x y)) ∧
    (¬ fits → printNonogram false text col.length row.length col row = .panic) :=
  printNonogram_release text col row

/-- C111: where a build with overflow checks draws a picture, a build without draws the same one. -/
theorem C111_same (text : TextFn) (col row : List (List Nat)) (img : Img)
    (h : printNonogram true text col.length row.length col row = .ok (.ok img)) :
    printNonogram false text col.length row.length col row = .ok (.ok img) := by
  by_cases hd : Drawable col row
  · rw [printNonogram_eq true text col row hd] at h
    rw [printNonogram_eq false text col row hd, h]
  · rw [printNonogram_debug_panic text col row hd] at h
    cases h

/-- C111: a puzzle with `2^30` columns and rows: without overflow checks the sides are cut to 0 and an empty picture is
returned as a success, with overflow checks the call panics. -/
theorem C111_empty (text : TextFn) (col row : List (List Nat)) (hc : col.length = 2 ^ 30) (hr : row.length = 2 ^ 30) :
    (∃ img, printNonogram false text col.length row.length col row = .ok (.ok img) ∧ img.width = 0 ∧ img.height = 0) ∧
    printNonogram true text col.length row.length col row = .panic := by
  have s0 : side32 (2 ^ 30) = 0 := by decide
  refine ⟨?_, (C111_debug text col row).2 fun hd => ?_⟩
  · obtain ⟨img, h1, h2, h3, _⟩ := (C111_release text col row).1 ⟨by rw [hc, s0, Nat.mul_zero, Nat.zero_mul]; decide,
      fun h => absurd h (by rw [hr, s0]; decide), fun h => absurd h (by rw [hc, s0]; decide)⟩
    exact ⟨img, h1, h2.trans (by rw [hc, s0]), h3.trans (by rw [hr, s0])⟩
  · have := hd.width
    rw [hc] at this
    unfold side at this
    omega

/-- Such puzzles exist. -/
example (text : TextFn) : ∃ col row : List (List Nat), ∃ img,
    printNonogram false text col.length row.length col row = .ok (.ok img) ∧ img.width = 0 ∧ img.height = 0 := by
  obtain ⟨l, hl⟩ : ∃ l : List (List Nat), l.length = 2 ^ 30 := ⟨List.replicate (2 ^ 30) [], List.length_replicate⟩
  obtain ⟨⟨img, h⟩, _⟩ := C111_empty text l l hl hl
  exact ⟨l, l, img, h⟩

/-- The condition of the picture is met by a puzzle of ordinary size. -/
example : Drawable [[2], [1]] [[2], [1]] := by
  have hs : side 2 = 250 := rfl
  exact ⟨by simp [hs], by simp [hs], by simp [hs], by simp⟩

end Nonogram.Props
