import Verif.Model.FloatGeom

/-!
# cv-pinhole with floating point numbers

Source: /repo/cv-pinhole/src/lib.rs, cited at each definition.
-/

namespace Verif.Geo.Rounded

open Verif.Akaze (FloatOps FloatBits)
open Verif.Akaze.FloatOps (lit lt le abs sqrt)
open Verif.Akaze.FloatBits (isFinite isNan isSignNegative)

variable {D : Type} [FloatOps D] [FloatBits D]

/-- lib.rs 32-36 `CameraIntrinsics`. -/
structure FIntrinsics (D : Type) where
  fx : D
  fy : D
  cx : D
  cy : D
  skew : D

/-- lib.rs 108-110: the normalised image coordinates of a pixel. -/
def FIntrinsics.normalised (k : FIntrinsics D) (px py : D) : D × D :=
  let y := (py - k.cy) / k.fy
  let x := ((px - k.cx) - k.skew * y) / k.fx
  (x, y)

/-- lib.rs 104-112 `calibrate`. -/
def FIntrinsics.calibrate (k : FIntrinsics D) (px py : D) : V3 D :=
  let n := k.normalised px py
  fnormalize ⟨n.1, n.2, 1⟩

/-- lib.rs 136-139: the pixel of normalised image coordinates. -/
def FIntrinsics.pixel (k : FIntrinsics D) (x y : D) : D × D := (x * k.fx + k.skew * y + k.cx, y * k.fy + k.cy)

/-- lib.rs 133-141 `uncalibrate`. -/
def FIntrinsics.uncalibrate (k : FIntrinsics D) (b : V3 D) : Option (D × D) :=
  if isSignNegative b.z then none else some (k.pixel (b.x / b.z) (b.y / b.z))

/-- lib.rs 150-153 `CameraIntrinsicsK1Distortion`. -/
structure FIntrinsicsK1 (D : Type) where
  simple : FIntrinsics D
  k1 : D

/-- lib.rs 192-203 `calibrate`. -/
def FIntrinsicsK1.calibrate (k : FIntrinsicsK1 D) (px py : D) : V3 D :=
  let d := k.simple.normalised px py
  let r2 := d.1 * d.1 + d.2 * d.2
  fnormalize ⟨d.1 / (1 + k.k1 * r2), d.2 / (1 + k.k1 * r2), 1⟩

/-- lib.rs 229-233: the relative change of the distance from the centre. -/
def FIntrinsicsK1.change (k : FIntrinsicsK1 D) (u2 : D) : D :=
  (-(2 * k.k1 * u2 + sqrt (1 - 4 * k.k1 * u2) - 1)) / (2 * k.k1 * u2)

/-- lib.rs 225-241 `uncalibrate`. -/
def FIntrinsicsK1.uncalibrate (k : FIntrinsicsK1 D) (b : V3 D) : Option (D × D) :=
  if isSignNegative b.z then none
  else
    let x := b.x / b.z
    let y := b.y / b.z
    let m := k.change (x * x + y * y)
    some (k.simple.pixel (x * (1 + m)) (y * (1 + m)))

end Verif.Geo.Rounded
