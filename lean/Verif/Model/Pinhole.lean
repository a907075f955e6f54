import Verif.Model.Pose

/-!
# cv-pinhole: camera intrinsics, radial distortion, camera specifications

`none` on the outside is a result that is not a finite number.
-/

namespace Verif.Geo

/-- `nalgebra::Vector2` / `Point2`. -/
@[ext] structure V2 (K : Type) where
  x : K
  y : K
deriving DecidableEq

/-- `norm_squared`. -/
@[lin] def V2.normSq {K : Type} [CommRing K] (a : V2 K) : K := a.x * a.x + a.y * a.y

/-- Division; dividing by zero is infinite or not a number. -/
noncomputable def cdiv (a b : ℝ) : Option ℝ := if b = 0 then none else some (a / b)

/-- Square root; of a negative number it is not a number. -/
noncomputable def csqrt (a : ℝ) : Option ℝ := if a < 0 then none else some (Real.sqrt a)

/-- cv-pinhole/src/lib.rs 32-36 `CameraIntrinsics`. -/
structure Intrinsics where
  focals : V2 ℝ
  principal : V2 ℝ
  skew : ℝ

/-- lib.rs 75-82 `matrix`. -/
def Intrinsics.matrix (k : Intrinsics) : M3 ℝ :=
  ⟨k.focals.x, k.skew, k.principal.x, 0, k.focals.y, k.principal.y, 0, 0, 1⟩

/-- lib.rs 108-111: pixel to normalised image coordinates. -/
noncomputable def Intrinsics.normalised (k : Intrinsics) (p : V2 ℝ) : Option (V2 ℝ) := do
  let y ← cdiv (p.y - k.principal.y) k.focals.y
  let x ← cdiv (p.x - k.principal.x - k.skew * y) k.focals.x
  pure ⟨x, y⟩

/-- lib.rs 104-112 `calibrate`. -/
noncomputable def Intrinsics.calibrate (k : Intrinsics) (p : V2 ℝ) : Option (V3 ℝ) := do
  let n ← k.normalised p
  V3.normalize ⟨n.x, n.y, 1⟩

/-- lib.rs 135-140: normalised image coordinates to pixel. -/
def Intrinsics.pixel (k : Intrinsics) (n : V2 ℝ) : V2 ℝ :=
  ⟨n.x * k.focals.x + k.skew * n.y + k.principal.x, n.y * k.focals.y + k.principal.y⟩

/-- `b.xy() / b.z`. -/
noncomputable def project (b : V3 ℝ) : Option (V2 ℝ) := do
  let x ← cdiv b.x b.z
  let y ← cdiv b.y b.z
  pure ⟨x, y⟩

/-- lib.rs 133-141 `uncalibrate`; the inner `none` is returned for a bearing that points
backwards. -/
noncomputable def Intrinsics.uncalibrate (k : Intrinsics) (b : V3 ℝ) : Option (Option (V2 ℝ)) :=
  if b.z < 0 then some none
  else do
    let n ← project b
    pure (some (k.pixel n))

/-- lib.rs 150-153 `CameraIntrinsicsK1Distortion`. -/
structure IntrinsicsK1 where
  simple : Intrinsics
  k1 : ℝ

/-- lib.rs 192-203 `calibrate`. -/
noncomputable def IntrinsicsK1.calibrate (k : IntrinsicsK1) (p : V2 ℝ) : Option (V3 ℝ) := do
  let d ← k.simple.normalised p
  let x ← cdiv d.x (1 + k.k1 * d.normSq)
  let y ← cdiv d.y (1 + k.k1 * d.normSq)
  V3.normalize ⟨x, y, 1⟩

/-- lib.rs 225-240 `uncalibrate`. -/
noncomputable def IntrinsicsK1.uncalibrate (k : IntrinsicsK1) (b : V3 ℝ) :
    Option (Option (V2 ℝ)) :=
  if b.z < 0 then some none
  else do
    let u ← project b
    let root ← csqrt (1 - 4 * k.k1 * u.normSq)
    let m ← cdiv (-(2 * k.k1 * u.normSq + root - 1)) (2 * k.k1 * u.normSq)
    pure (some (k.simple.pixel ⟨u.x * (1 + m), u.y * (1 + m)⟩))

/-- lib.rs 250-253 `CameraSpecification`. -/
structure CameraSpec where
  pixels : V2 Nat
  pixelDimensions : V2 ℝ

/-- lib.rs 257-265 `from_sensor` (dividing by zero pixels is not modelled; `x / 0 = 0` in Lean). -/
noncomputable def CameraSpec.fromSensor (pixels : V2 Nat) (sensor : V2 ℝ) : CameraSpec :=
  ⟨pixels, ⟨sensor.x / pixels.x, sensor.y / pixels.y⟩⟩

/-- lib.rs 268-274 `from_sensor_square` (zero pixels as in `fromSensor`). -/
noncomputable def CameraSpec.fromSensorSquare (pixels : V2 Nat) (width : ℝ) : CameraSpec :=
  ⟨pixels, ⟨width / pixels.x, width / pixels.x⟩⟩

/-- lib.rs 279-283 `intrinsics_centered`. -/
noncomputable def CameraSpec.intrinsicsCentered (s : CameraSpec) (focal : ℝ) : Intrinsics :=
  ⟨⟨focal, focal⟩, ⟨s.pixelDimensions.x / 2 - 1 / 2, s.pixelDimensions.y / 2 - 1 / 2⟩, 0⟩

end Verif.Geo
