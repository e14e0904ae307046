import Verif.Model.Nonogram
import Verif.Model.Image

/-! Model of `print_nonogram` and `print_nonogram_solution` (src/puzzles/nonogram/mod.rs). All arithmetic is on `u32`.
Texts are drawn by the opaque parameter `text` (see `Model/Image.lean`); `draw_filled_rect_mut` and `Rect` are
`imageproc` functions, not part of /repo, and modelled here from their source. -/
namespace Nonogram

/-- mod.rs:131, 132, 209, 210, 224, 225: `max(150, n * 10)`. -/
def ruleSide (oc : Bool) (n : Nat) : Prog Nat := do
  let a ← mulW oc 32 n 10
  return max 150 a

/-- mod.rs:135, 136, 179, 190, 213, 214: `n * 50 + rule`. -/
def imageSide (oc : Bool) (n rule : Nat) : Prog Nat := do
  let a ← mulW oc 32 n 50
  addW oc 32 a rule

/-- mod.rs:145-157: one number of a column rule. -/
def printColNumber (oc : Bool) (text : TextFn) (x : Nat) (image : Img) (e : Nat × Nat) : Prog Img := do
  let y ← addW oc 32 (← mulW oc 32 (e.2 % 2 ^ 32) 30) 10               -- 146
  return text.draw image blackPixel x y 30 (toString e.1)

/-- mod.rs:142-158: one column rule. -/
def printColRule (oc : Bool) (text : TextFn) (ruleWidth : Nat) (image : Img) (e : List Nat × Nat) : Prog Img := do
  let x ← addW oc 32 (← addW oc 32 (← mulW oc 32 (e.2 % 2 ^ 32) 50) ruleWidth) 15      -- 143
  _root_.forIn' e.1.zipIdx image (printColNumber oc text x)

/-- mod.rs:160-176: one row rule. -/
def printRowRule (oc : Bool) (text : TextFn) (ruleHeight : Nat) (image : Img) (e : List Nat × Nat) : Prog Img := do
  let y ← addW oc 32 (← addW oc 32 (← mulW oc 32 (e.2 % 2 ^ 32) 50) ruleHeight) 10     -- 161
  return text.draw image blackPixel 10 y 30 (String.intercalate "  " (e.1.map toString))

/-- mod.rs:179-186: one pixel row of the vertical line `x`. -/
def printVertical (oc : Bool) (ruleWidth x : Nat) (image : Img) (y : Nat) : Prog Img := do
  let c ← addW oc 32 (← mulW oc 32 x 50) ruleWidth
  let image ← image.putPixel c y grayPixel                             -- 180
  if x % 5 = 0 then
    let image ← image.putPixel (← addW oc 32 c 1) y grayPixel          -- 183
    image.putPixel (← subW oc 32 c 1) y grayPixel                      -- 184
  else return image

/-- mod.rs:190-197: one pixel column of the horizontal line `y`. -/
def printHorizontal (oc : Bool) (ruleHeight y : Nat) (image : Img) (x : Nat) : Prog Img := do
  let c ← addW oc 32 (← mulW oc 32 y 50) ruleHeight
  let image ← image.putPixel x c grayPixel                             -- 191
  if y % 5 = 0 then
    let image ← image.putPixel x (← addW oc 32 c 1) grayPixel          -- 194
    image.putPixel x (← subW oc 32 c 1) grayPixel                      -- 195
  else return image

/-- mod.rs:121-201 `print_nonogram`. -/
def printNonogram (oc : Bool) (text : TextFn) (width height : Nat) (col row : List (List Nat)) :
    Prog (Except NonogramError Img) := do
  if width ≠ col.length ∨ height ≠ row.length then return .error .InvalidDimensions    -- 127-129
  let ruleWidth ← ruleSide oc width
  let ruleHeight ← ruleSide oc height
  let image ← Img.fromPixel (← imageSide oc width ruleWidth) (← imageSide oc height ruleHeight) whitePixel
  let image ← _root_.forIn' col.zipIdx image (printColRule oc text ruleWidth)          -- 142-158
  let image ← _root_.forIn' row.zipIdx image (printRowRule oc text ruleHeight)         -- 160-176
  let image ← _root_.forIn' (List.range width) image fun image x => do                 -- 178-187
    let bound ← imageSide oc height ruleHeight
    _root_.forIn' (List.range bound) image (printVertical oc ruleWidth x)
  let image ← _root_.forIn' (List.range height) image fun image y => do                -- 189-198
    let bound ← imageSide oc width ruleWidth
    _root_.forIn' (List.range bound) image (printHorizontal oc ruleHeight y)
  return .ok image

/-- `n as i32` for a `u32`. -/
def asI32 (n : Nat) : Int := if n < 2 ^ 31 then n else (n : Int) - 2 ^ 32

/-- The result `v` of an `i32` operation, with overflow checks or wrapping. -/
def i32 (oc : Bool) (v : Int) : Prog Int :=
  if -2 ^ 31 ≤ v ∧ v < 2 ^ 31 then .ok v
  else if oc then .panic else .ok ((v + 2 ^ 31) % 2 ^ 32 - 2 ^ 31)

/-- `imageproc::rect::Rect`. -/
structure Rect where
  left : Int
  top : Int
  width : Nat
  height : Nat

/-- `Rect::at(x, y).of_size(w, h)`: asserts that the size is not zero. -/
def Rect.ofSize (x y : Int) (w h : Nat) : Prog Rect :=
  if 0 < w ∧ 0 < h then .ok ⟨x, y, w, h⟩ else .panic

/-- `Rect::right`: `self.left + (self.width as i32) - 1`; also `Rect::bottom`. -/
def Rect.far (oc : Bool) (near : Int) (size : Nat) : Prog Int := do
  let a ← i32 oc (near + asI32 size)
  i32 oc (a - 1)

/-- `Rect::intersect`. -/
def Rect.intersect (oc : Bool) (a b : Rect) : Prog (Option Rect) := do
  let left := max a.left b.left
  let top := max a.top b.top
  let right := min (← Rect.far oc a.left a.width) (← Rect.far oc b.left b.width)
  let bottom := min (← Rect.far oc a.top a.height) (← Rect.far oc b.top b.height)
  if right < left ∨ bottom < top then return none
  let w ← i32 oc (right - left)
  let h ← i32 oc (bottom - top)
  return some ⟨left, top, (w % 2 ^ 32).toNat + 1, (h % 2 ^ 32).toNat + 1⟩

/-- `imageproc::drawing::draw_filled_rect_mut`. -/
def drawFilledRect (oc : Bool) (image : Img) (rect : Rect) (c : Rgb) : Prog Img := do
  let bounds ← Rect.ofSize 0 0 image.width image.height
  match ← Rect.intersect oc bounds rect with
  | none => return image
  | some r =>
    _root_.forIn' (List.range r.height) image fun image dy =>
      _root_.forIn' (List.range r.width) image fun image dx => do
        let x ← addW oc 32 (r.left % 2 ^ 32).toNat dx
        let y ← addW oc 32 (r.top % 2 ^ 32).toNat dy
        image.putPixel x y c

/-- mod.rs:219-232: one square. -/
def printSquare (oc : Bool) (width height : Nat) (image : Img) (e : Bool × Nat) : Prog Img := do
  if e.1 = false then return image                                     -- 220-222
  if width = 0 then .panic                                             -- `%` and `/` by zero
  else
    let x ← addW oc 32 (← addW oc 32 (← mulW oc 32 (e.2 % 2 ^ 32 % width) 50) (← ruleSide oc width)) 1   -- 224
    let y ← addW oc 32 (← addW oc 32 (← mulW oc 32 (e.2 % 2 ^ 32 / width) 50) (← ruleSide oc height)) 1  -- 225
    let rect ← Rect.ofSize (asI32 x) (asI32 y) 49 49                   -- 229
    drawFilledRect oc image rect blackPixel

/-- mod.rs:203-235 `print_nonogram_solution`. In the condition, `||` evaluates its right sides only if needed. -/
def printNonogramSolution (oc : Bool) (width height : Nat) (image : Img) (grid : List Bool) :
    Prog (Except NonogramError Img) := do
  let ruleWidth ← ruleSide oc width
  let ruleHeight ← ruleSide oc height
  if grid.length ≠ width * height then return .error .InvalidDimensions
  if image.width ≠ (← imageSide oc width ruleWidth) then return .error .InvalidDimensions
  if image.height ≠ (← imageSide oc height ruleHeight) then return .error .InvalidDimensions
  let image ← _root_.forIn' grid.zipIdx image (printSquare oc width height)
  return .ok image

end Nonogram
