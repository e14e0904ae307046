import Verif.Model.Image

/-! Model of `image_to_png_bytes` in /repo/src/lib.rs. The encoder of the `image` crate is a parameter. -/
namespace Png

/-- `std::io::Cursor<&mut Vec<u8>>`: a vector and a position in it. -/
structure Cursor where
  bytes : List UInt8
  pos : Nat

/-- `Cursor::new(&mut bytes)`. -/
def Cursor.new (bytes : List UInt8) : Cursor := ⟨bytes, 0⟩

/-- `Write::write_all` of the cursor: the vector is filled with zeros up to the position, then bytes are overwritten and
the rest is appended. -/
def Cursor.writeAll (c : Cursor) (buf : List UInt8) : Cursor :=
  let v := c.bytes ++ List.replicate (c.pos - c.bytes.length) 0
  ⟨v.take c.pos ++ buf ++ v.drop (c.pos + buf.length), c.pos + buf.length⟩

/-- `ImageBuffer::write_to(writer, ImageFormat::Png)`: some sequence of `write_all` calls, then `Ok(())` or an error. The
buffer holds only the pixels inside of the image, so nothing else can matter. The encoder is assumed not to seek, although
the writer would allow it. -/
structure Encoder (ε : Type) where
  writes : Img → List (List UInt8)
  error : Img → Option ε
  inside : ∀ i j : Img, i.width = j.width → i.height = j.height →
    (∀ x < i.width, ∀ y < i.height, i.px x y = j.px x y) → writes i = writes j ∧ error i = error j

/-- lib.rs:20-25 `image_to_png_bytes`. -/
def imageToPngBytes {ε : Type} (E : Encoder ε) (image : Img) : Except ε (List UInt8) :=
  let cursor := (E.writes image).foldl Cursor.writeAll (Cursor.new [])    -- lines 21-22
  match E.error image with
  | some e => .error e                                                    -- line 22, `?`
  | none => .ok cursor.bytes                                              -- line 24

end Png
