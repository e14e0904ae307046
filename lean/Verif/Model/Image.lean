import Verif.Base

/-! Images (`image::RgbImage`) and the text-drawing parameter. The `image` and `imageproc` crates are not
part of /repo; this file fixes what the models assume of them. -/

/-- `image::Rgb<u8>`. -/
structure Rgb where
  r : UInt8
  g : UInt8
  b : UInt8
  deriving DecidableEq, Repr

/-- src/util.rs:4 `WHITE_PIXEL`. -/
def whitePixel : Rgb := ⟨255, 255, 255⟩
/-- src/util.rs:5 `BLACK_PIXEL`. -/
def blackPixel : Rgb := ⟨0, 0, 0⟩

/-- src/util.rs:6 `RED_PIXEL`. -/
def redPixel : Rgb := ⟨255, 0, 0⟩
/-- src/util.rs:7 `GRAY_PIXEL`. -/
def grayPixel : Rgb := ⟨105, 105, 105⟩

/-- `RgbImage`: the buffer is a function; only its values inside `width × height` are meaningful. -/
structure Img where
  width : Nat
  height : Nat
  px : Nat → Nat → Rgb

/-- `RgbImage::from_pixel`: panics when the `3 * w * h`-byte buffer exceeds `isize::MAX` bytes. Memory
exhaustion is not modelled. -/
def Img.fromPixel (w h : Nat) (c : Rgb) : Prog Img :=
  if 3 * w * h < 2 ^ 63 then .ok ⟨w, h, fun _ _ => c⟩ else .panic

/-- The buffer with one pixel replaced. -/
def Img.set (img : Img) (x y : Nat) (c : Rgb) : Img :=
  { img with px := fun a b => if a = x ∧ b = y then c else img.px a b }

/-- `put_pixel`: panics out of bounds. -/
def Img.putPixel (img : Img) (x y : Nat) (c : Rgb) : Prog Img :=
  if x < img.width ∧ y < img.height then .ok (img.set x y c) else .panic

/-- `imageproc::drawing::draw_text_mut(image, colour, x, y, scale, font, text)` for the fixed font of the
repository: some function that keeps the dimensions of the image and does not panic. Everything else about
it is left open. `x`, `y` are the coordinates before the cast to `i32`. -/
structure TextFn where
  draw : Img → Rgb → Nat → Nat → Nat → String → Img
  width : ∀ i c x y s t, (draw i c x y s t).width = i.width
  height : ∀ i c x y s t, (draw i c x y s t).height = i.height
