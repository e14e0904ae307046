import Verif.Model.Maze
import Verif.Model.NonogramPrint

/-!
The printing functions for a target whose `usize` has `ws` bytes (`ws` = 4 or 8; `Model/Maze.lean` and `Model/NonogramPrint.lean` are
for 64-bit targets). What depends on the target: the product of `usize`s compared with the length of the grid, and the limit
`isize::MAX` of the buffer of an image. The casts `as usize` of a `u32` are exact on these targets; all other arithmetic is on `u32`.
-/

/-- `RgbImage::from_pixel`, as `Img.fromPixel`. -/
def Img.fromPixelT (ws w h : Nat) (c : Rgb) : Prog Img :=
  if 3 * w * h < 2 ^ (8 * ws - 1) then .ok ⟨w, h, fun _ _ => c⟩ else .panic

namespace Maze

/-- maze/mod.rs:134-168 `print_maze`, as `printMaze`. -/
def printMazeT (ws : Nat) (oc : Bool) (width height : Nat) (grid : List MazeNode) : Prog (Except MazeError Img) := do
  let n ← mulW oc (8 * ws) width height                                -- line 135
  if n ≠ grid.length then return .error .InvalidDimensions
  let iw ← addW oc 32 (← mulW oc 32 width 10) 1
  let ih ← addW oc 32 (← mulW oc 32 height 10) 1
  let img ← Img.fromPixelT ws iw ih whitePixel                         -- line 139
  let img ← _root_.forIn' (List.range img.height) img fun img row => img.putPixel 0 row blackPixel
  let img ← _root_.forIn' (List.range' 10 (img.width - 10)) img fun img col => img.putPixel col 0 blackPixel
  let img ← _root_.forIn' grid.zipIdx img (printNode oc width)
  return .ok img

end Maze

namespace Nonogram

/-- nonogram/mod.rs:121-201 `print_nonogram`, as `printNonogram`. -/
def printNonogramT (ws : Nat) (oc : Bool) (text : TextFn) (width height : Nat) (col row : List (List Nat)) :
    Prog (Except NonogramError Img) := do
  if width ≠ col.length ∨ height ≠ row.length then return .error .InvalidDimensions    -- 127-129
  let ruleWidth ← ruleSide oc width
  let ruleHeight ← ruleSide oc height
  let image ← Img.fromPixelT ws (← imageSide oc width ruleWidth) (← imageSide oc height ruleHeight) whitePixel
  let image ← _root_.forIn' col.zipIdx image (printColRule oc text ruleWidth)          -- 142-158
  let image ← _root_.forIn' row.zipIdx image (printRowRule oc text ruleHeight)         -- 160-176
  let image ← _root_.forIn' (List.range width) image fun image x => do                 -- 178-187
    let bound ← imageSide oc height ruleHeight
    _root_.forIn' (List.range bound) image (printVertical oc ruleWidth x)
  let image ← _root_.forIn' (List.range height) image fun image y => do                -- 189-198
    let bound ← imageSide oc width ruleWidth
    _root_.forIn' (List.range bound) image (printHorizontal oc ruleHeight y)
  return .ok image

/-- nonogram/mod.rs:203-235 `print_nonogram_solution`, as `printNonogramSolution`. -/
def printNonogramSolutionT (ws : Nat) (oc : Bool) (width height : Nat) (image : Img) (grid : List Bool) :
    Prog (Except NonogramError Img) := do
  let ruleWidth ← ruleSide oc width
  let ruleHeight ← ruleSide oc height
  let n ← mulW oc (8 * ws) width height                                -- 212
  if grid.length ≠ n then return .error .InvalidDimensions
  if image.width ≠ (← imageSide oc width ruleWidth) then return .error .InvalidDimensions
  if image.height ≠ (← imageSide oc height ruleHeight) then return .error .InvalidDimensions
  let image ← _root_.forIn' grid.zipIdx image (printSquare oc width height)
  return .ok image

end Nonogram
