import Verif.Spec.FloatPinhole

/-!
# Cameras with radial distortion and pixels with finite numbers
-/

namespace Verif.Geo.Rounded

open Verif.Akaze
open Verif.Bicubic (Flt)

variable {D : Type} [FloatOps D] {J : Ieee D}

/-- A camera with radial distortion and a pixel: the normalised image coordinates of the pixel are `ρ` from the centre, and the
distortion there changes distances by the fraction `σ`, not 0 and at most 1/8. -/
structure SeesK1 (J : Ieee D) (k : FIntrinsicsK1 D) (px py : D) (fx fy cx cy s k1 x y K β ρ σ : ℝ) : Prop where
  sees : Sees J k.simple px py fx fy cx cy s x y K β
  val_k1 : J.val k.k1 = .num k1
  pos : 0 < ρ
  radius : ρ * ρ = ((x - cx - s * ((y - cy) / fy)) / fx) * ((x - cx - s * ((y - cy) / fy)) / fx) +
    ((y - cy) / fy) * ((y - cy) / fy)
  inside : ρ ≤ 9 / 10 * β
  strength : σ = k1 * (ρ * ρ)
  ne_zero : σ ≠ 0
  small : |σ| ≤ 1 / 8

/-- The floating point type is precise enough and has enough range, and the pixel is far enough from the centre. -/
structure EnoughK1 (u η M K β ρ σ k1 : ℝ) : Prop where
  enough : Enough u η M K β
  away : 1024 * (u * (K * β)) ≤ ρ
  strong : 2048 * u ≤ |σ|
  tiny_ρ : 4096 * η ≤ u * (ρ * ρ)
  tiny_σ : 4096 * η ≤ u * |σ|
  tiny_k1 : 1024 * η ≤ u * |k1|
  range_k1 : 8 * |k1| ≤ M
  range_σ : 64 ≤ M * |σ|

end Verif.Geo.Rounded
