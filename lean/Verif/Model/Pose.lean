import Mathlib.Analysis.Real.Sqrt
import Mathlib.Analysis.SpecialFunctions.Trigonometric.Basic
import Verif.Model.Linear

/-!
# cv-core: points, poses, so(3)

Numbers are exact reals. A computation whose floating point result would not be a number is `none`.
Signed zeros do not exist here: the code negates a vector whose `w` is `-0.0`, the model does not.
-/

namespace Verif.Geo

/-- nalgebra `norm`. -/
noncomputable def V3.norm (a : V3 ℝ) : ℝ := Real.sqrt a.normSq

/-- nalgebra `normalize` / `unscale(norm)`; the zero vector gives NaN. -/
noncomputable def V3.normalize (a : V3 ℝ) : Option (V3 ℝ) :=
  if a.norm = 0 then none else some (V3.smul (1 / a.norm) a)

/-- cv-core/src/point.rs 20-25 `Projective::from_homogeneous`; a zero direction gives NaN. -/
noncomputable def fromHomogeneous (p : V4 ℝ) : Option (V4 ℝ) :=
  let q := if p.w < 0 then p.neg else p
  if q.xyz.norm = 0 then none else some (V4.smul (1 / q.xyz.norm) q)

/-- cv-core/src/point.rs 37-39 `point` with nalgebra `Point3::from_homogeneous`: nothing if `w` is
zero, else `xyz / w`. -/
noncomputable def toPoint (p : V4 ℝ) : Option (V3 ℝ) :=
  if p.w = 0 then none else some (V3.smul (1 / p.w) p.xyz)

/-- cv-core/src/point.rs 42-44 `from_point`. -/
noncomputable def fromPoint (p : V3 ℝ) : Option (V4 ℝ) := fromHomogeneous ⟨p.x, p.y, p.z, 1⟩

/-- cv-core/src/point.rs 47-49 `bearing`. -/
def bearing (p : V4 ℝ) : V3 ℝ := p.xyz

/-- cv-core/src/pose.rs 125-127 `transform` and 131-133 `pose_output`. -/
noncomputable def transform (a : Iso ℝ) (p : V4 ℝ) : Option (V4 ℝ) := fromHomogeneous (a.homMul p)

/-- cv-core/src/pose.rs 37-41 `scale`: scales the translation. -/
@[lin] def Iso.scale {K : Type} [CommRing K] (s : K) (a : Iso K) : Iso K := ⟨a.rot, V3.smul s a.t⟩

/-- cv-core/src/pose.rs 321-323 `from_camera_poses`. -/
def fromCameraPoses {K : Type} [CommRing K] (a b : Iso K) : Iso K := b.inv.mul a

/-! ## so(3), cv-core/src/so3.rs -/

section
variable {K : Type} [CommRing K]

/-- so3.rs 178-180 `vee`. -/
@[lin] def vee (m : M3 K) : V3 K := ⟨m.m32, m.m13, m.m21⟩

/-- so3.rs 190-203 `hat2`. -/
@[lin] def hat2 (w : V3 K) : M3 K :=
  ⟨-(w.y * w.y) - w.z * w.z, w.x * w.y, w.x * w.z,
   w.x * w.y, -(w.x * w.x) - w.z * w.z, w.y * w.z,
   w.x * w.z, w.y * w.z, -(w.x * w.x) - w.y * w.y⟩

/-- so3.rs 207-209 `bracket`. -/
@[lin] def bracket (a b : V3 K) : V3 K :=
  vee (((M3.hat a).mul (M3.hat b)).sub ((M3.hat b).mul (M3.hat a)))

/-- nalgebra `Rotation3::from_axis_angle`, its matrix in Rodrigues' form; `s`, `c` are sine and
cosine of the angle. -/
@[lin] def rodrigues (u : V3 K) (s c : K) : M3 K :=
  (M3.one.add (M3.smul s (M3.hat u))).add (M3.smul (1 - c) (hat2 u))

end

/-- nalgebra `Rotation3::from_scaled_axis`, used by so3.rs 57 and in the exponential map 251-263
(there, below a squared angle of machine epsilon, a first order approximation is used instead, which
is not modelled). -/
noncomputable def expRot (w : V3 ℝ) : M3 ℝ :=
  if w.norm = 0 then M3.one
  else rodrigues (V3.smul (1 / w.norm) w) (Real.sin w.norm) (Real.cos w.norm)

/-- so3.rs 15-19 `Se3TangentSpace`. -/
@[ext] structure Tangent where
  translation : V3 ℝ
  rotation : V3 ℝ

/-- so3.rs 46-51 `inverse`. -/
@[lin] def Tangent.inverse (a : Tangent) : Tangent := ⟨a.translation.neg, a.rotation.neg⟩

/-- so3.rs 56-59 `isometry`. -/
noncomputable def Tangent.isometry (a : Tangent) : Iso ℝ :=
  ⟨expRot a.rotation, (expRot a.rotation).mulVec a.translation⟩

/-! ## The Jacobian of a pose, cv-core/src/pose.rs -/

section
variable {K : Type} [CommRing K]

/-- A 4×6 matrix as its six columns. -/
structure M46 (K : Type) where
  c1 : V4 K
  c2 : V4 K
  c3 : V4 K
  c4 : V4 K
  c5 : V4 K
  c6 : V4 K

/-- Product with a vector of translation and rotation. -/
@[lin] def M46.mulVec (J : M46 K) (t w : V3 K) : V4 K :=
  ((((((V4.smul t.x J.c1).add (V4.smul t.y J.c2)).add (V4.smul t.z J.c3)).add
    (V4.smul w.x J.c4)).add (V4.smul w.y J.c5)).add (V4.smul w.z J.c6))

/-- pose.rs 135-139 `pose_rotated_output`, first part. -/
@[lin] def rotated (a : Iso K) (p : V4 K) : V4 K :=
  ⟨(a.rot.mulVec p.xyz).x, (a.rot.mulVec p.xyz).y, (a.rot.mulVec p.xyz).z, p.w⟩

/-- pose.rs 148-174 `pose_jacobian_self`. `dp_dt` is `w` times the identity. `dp_ds` is the
translation matrix times the homogeneous cross matrix, its first three rows become columns. -/
@[lin] def poseJacobianSelf (a : Iso K) (p : V4 K) : M46 K :=
  let y := (rotated a p).xyz
  let w := (a.homMul p).w
  let h := M3.hat y
  { c1 := ⟨w, 0, 0, 0⟩
    c2 := ⟨0, w, 0, 0⟩
    c3 := ⟨0, 0, w, 0⟩
    c4 := ⟨h.m11, h.m12, h.m13, a.t.x⟩
    c5 := ⟨h.m21, h.m22, h.m23, a.t.y⟩
    c6 := ⟨h.m31, h.m32, h.m33, a.t.z⟩ }

end

end Verif.Geo
