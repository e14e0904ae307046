import Verif.Model.Png

/-! Equal images and lossless encoders. -/
namespace Png.Spec

/-- Images of the same size with the same pixels. -/
def SameImage (i j : Img) : Prop :=
  i.width = j.width ∧ i.height = j.height ∧ ∀ x < i.width, ∀ y < i.height, i.px x y = j.px x y

/-- An encoder that loses nothing: images with the same bytes are the same. -/
def Lossless {ε : Type} (E : Encoder ε) : Prop :=
  ∀ i j, E.error i = none → E.error j = none → (E.writes i).flatten = (E.writes j).flatten → SameImage i j

end Png.Spec
