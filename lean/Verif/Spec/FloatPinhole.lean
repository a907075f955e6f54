import Verif.Model.FloatPinhole
import Verif.Lemmas.FloatError

/-!
# Cameras and pixels with finite numbers
-/

namespace Verif.Geo.Rounded

open Verif.Akaze
open Verif.Bicubic (Flt)
open Verif.Akaze.FloatOps (sqrt)
open Verif.Akaze.FloatBits (isSignNegative)
open P3P (fdot)

variable {D : Type} [FloatOps D] {J : Ieee D} {u η M : ℝ}

/-- A camera and a pixel: all numbers are finite and at most `K`, the focal lengths at least 1, and the normalised image
coordinates of the pixel are at most `β`. -/
structure Sees (J : Ieee D) (k : FIntrinsics D) (px py : D) (fx fy cx cy s x y K β : ℝ) : Prop where
  val_fx : J.val k.fx = .num fx
  val_fy : J.val k.fy = .num fy
  val_cx : J.val k.cx = .num cx
  val_cy : J.val k.cy = .num cy
  val_skew : J.val k.skew = .num s
  val_x : J.val px = .num x
  val_y : J.val py = .num y
  fx_range : 1 ≤ fx ∧ fx ≤ K
  fy_range : 1 ≤ fy ∧ fy ≤ K
  cx_range : |cx| ≤ K
  cy_range : |cy| ≤ K
  skew_range : |s| ≤ K
  x_range : |x| ≤ K
  y_range : |y| ≤ K
  x_view : |(x - cx - s * ((y - cy) / fy)) / fx| ≤ β
  y_view : |(y - cy) / fy| ≤ β

/-- The floating point type is precise enough and has enough range for numbers up to `K`. -/
structure Enough (u η M K β : ℝ) : Prop where
  one_le : 1 ≤ β
  le : β ≤ K
  precise : u * K ≤ 1 / 1024
  tiny : 1024 * (η * K) ≤ u
  range : 16 * (K * β) ≤ M

/-- `0.0 / 0.0` is not a number. -/
def ZeroOverZero (J : Ieee D) : Prop := ∀ a b : D, J.val a = .num 0 → J.val b = .num 0 → J.val (a / b) = .nan

end Verif.Geo.Rounded
