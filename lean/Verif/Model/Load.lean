import Verif.Model.Image
import Mathlib.Data.Real.Basic

/-!
# akaze: making a float image from a picture

Source: /repo/akaze/src/image.rs 45-109.  `DynamicImage::grayscale` and the luminance of a float pixel belong to the `image`
crate and are parameters.  A quotient is the rounding `rnd` of the exact one, as IEEE division is; the whole numbers that
are divided have at most 16 bits and are exact in `f32`.
-/

namespace Verif.Akaze

/-- The kinds of picture that `grayscale` returns, image.rs 46-105; the last one is every other kind. -/
inductive Gray where
  | luma8 (i : Img (Fin 256))
  | luma16 (i : Img (Fin 65536))
  | lumaA8 (i : Img (Fin 256 × Fin 256))
  | lumaA16 (i : Img (Fin 65536 × Fin 65536))
  | rgb32F (i : Img (ℝ × ℝ × ℝ))
  | rgba32F (i : Img (ℝ × ℝ × ℝ × ℝ))
  | other

/-- `ImageBuffer::from_fn(width, height, ..)` with `image[(x, y)]`. -/
def Img.convert {A B : Type} (i : Img A) (f : A → B) : Option (Img B) :=
  Img.ofFnM i.w i.h (fun x y => (i.get x y).map f)

/-- `f32::from(v) / top`. -/
noncomputable def quotient (rnd : ℝ → ℝ) (v top : Nat) : ℝ := rnd ((v : ℝ) / (top : ℝ))

/-- image.rs 45-109 `from_dynamic` after `grayscale`; `none` is the panic at the end. -/
noncomputable def fromGray (rnd : ℝ → ℝ) (luma : ℝ × ℝ × ℝ → ℝ) (lumaA : ℝ × ℝ × ℝ × ℝ → ℝ) : Gray → Option (Img ℝ)
  | .luma8 i => i.convert (fun v => quotient rnd v 255)
  | .luma16 i => i.convert (fun v => quotient rnd v 65535)
  | .lumaA8 i => i.convert (fun v => quotient rnd v.1 255)
  | .lumaA16 i => i.convert (fun v => quotient rnd v.1 65535)
  | .rgb32F i => i.convert luma
  | .rgba32F i => i.convert lumaA
  | .other => none

end Verif.Akaze
