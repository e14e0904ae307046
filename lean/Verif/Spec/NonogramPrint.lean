import Verif.Model.Image

/-! What the nonogram images look like. -/
namespace Nonogram.Spec

/-- Width (height) of the area for the rules of `n` columns (rows). -/
def margin (n : Nat) : Nat := max 150 (10 * n)

/-- Width (height) of the image. -/
def side (n : Nat) : Nat := 50 * n + margin n

/-- The grid lines of one direction: one every 50 pixels after the margin, every fifth three pixels thick. -/
def OnLine (n x : Nat) : Prop :=
  ∃ k < n, x = 50 * k + margin n ∨ k % 5 = 0 ∧ (x = 50 * k + margin n + 1 ∨ x + 1 = 50 * k + margin n)

/-- The pixels strictly between the grid lines `k` and `k + 1`. -/
def Inside (n k x : Nat) : Prop := 50 * k + margin n < x ∧ x < 50 * (k + 1) + margin n

/-- A text to draw: position and contents. -/
structure Text where
  x : Nat
  y : Nat
  s : String

/-- The numbers of column `x` stand below each other, 30 pixels apart. -/
def colTexts (n x : Nat) (rule : List Nat) : List Text :=
  rule.zipIdx.map fun (v, y) => ⟨50 * x + margin n + 15, 30 * y + 10, toString v⟩

/-- The numbers of a row are one text. -/
def rowText (n y : Nat) (rule : List Nat) : Text :=
  ⟨10, 50 * y + margin n + 10, String.intercalate "  " (rule.map toString)⟩

/-- All texts, in the order in which they are drawn. -/
def texts (col row : List (List Nat)) : List Text :=
  (col.zipIdx.flatMap fun (rule, x) => colTexts col.length x rule) ++
  row.zipIdx.map fun (rule, y) => rowText row.length y rule

/-- The texts on a white background. -/
def page (text : TextFn) (w h : Nat) (ts : List Text) : Img :=
  ts.foldl (fun i t => text.draw i ⟨0, 0, 0⟩ t.x t.y 30 t.s) ⟨side w, side h, fun _ _ => ⟨255, 255, 255⟩⟩

/-- The sizes the images may have: sides within `i32`, buffer below `isize::MAX` bytes. -/
structure Printable (w h : Nat) : Prop where
  width : side w < 2 ^ 31
  height : side h < 2 ^ 31
  size : 3 * side w * side h < 2 ^ 63

/-- The puzzles whose images can be drawn without overflow: sides and positions of texts within `u32`, buffer below
`isize::MAX` bytes. -/
structure Drawable (col row : List (List Nat)) : Prop where
  width : side col.length < 2 ^ 32
  height : side row.length < 2 ^ 32
  size : 3 * side col.length * side row.length < 2 ^ 63
  rules : ∀ r ∈ col, 30 * r.length < 2 ^ 32 + 20

/-! The same with all numbers cut to 32 bits. -/

/-- The number before `c`; before 0 comes `2^32 - 1`. -/
def pred32 (c : Nat) : Nat := if c = 0 then 4294967295 else c - 1

def margin32 (n : Nat) : Nat := max 150 (10 * n % 2 ^ 32)
def side32 (n : Nat) : Nat := (50 * n + margin32 n) % 2 ^ 32
def OnLine32 (n x : Nat) : Prop :=
  ∃ k < n, x = (50 * k + margin32 n) % 2 ^ 32 ∨
    k % 5 = 0 ∧ (x = (50 * k + margin32 n + 1) % 2 ^ 32 ∨ x = pred32 ((50 * k + margin32 n) % 2 ^ 32))
def colTexts32 (n x : Nat) (rule : List Nat) : List Text :=
  rule.zipIdx.map fun (v, y) => ⟨(50 * x + margin32 n + 15) % 2 ^ 32, (30 * y + 10) % 2 ^ 32, toString v⟩
def rowText32 (n y : Nat) (rule : List Nat) : Text :=
  ⟨10, (50 * y + margin32 n + 10) % 2 ^ 32, String.intercalate "  " (rule.map toString)⟩
def texts32 (col row : List (List Nat)) : List Text :=
  (col.zipIdx.flatMap fun (rule, x) => colTexts32 col.length x rule) ++
  row.zipIdx.map fun (rule, y) => rowText32 row.length y rule
def page32 (text : TextFn) (w h : Nat) (ts : List Text) : Img :=
  ts.foldl (fun i t => text.draw i ⟨0, 0, 0⟩ t.x t.y 30 t.s) ⟨side32 w, side32 h, fun _ _ => ⟨255, 255, 255⟩⟩

/-- A number of 32 bits read as a signed number. -/
def signed32 (c : Nat) : Int := if c < 2 ^ 31 then c else (c : Int) - 2 ^ 32

/-- The pixels of square `k` that are painted when positions are cut to 32 bits and read as signed numbers: 49 of them,
as far as they are in the image, but none if they would reach `2^31` or if the image is larger than `2^31`. -/
def Painted32 (n k x : Nat) : Prop :=
  side32 n ≤ 2 ^ 31 ∧ x < side32 n ∧ signed32 ((50 * k + margin32 n + 1) % 2 ^ 32) ≤ x ∧
    x ≤ signed32 ((50 * k + margin32 n + 1) % 2 ^ 32) + 48 ∧ signed32 ((50 * k + margin32 n + 1) % 2 ^ 32) + 48 < 2 ^ 31

end Nonogram.Spec
