import Verif.Model.Pinhole

/-!
# cv-pinhole: essential matrices

The singular value decomposition of nalgebra is a parameter; `IsSVD` says what is expected of it.
-/

namespace Verif.Geo

/-- essential.rs 260-264 `From<CameraToCamera>`. -/
@[lin] def essential {K : Type} [CommRing K] (a : Iso K) : M3 K := (M3.hat a.t).mul a.rot

/-- essential.rs 266-275 `residual`: bearings are divided by their depth. -/
noncomputable def essentialResidual (E : M3 ℝ) (a b : V3 ℝ) : Option ℝ := do
  let ax ← cdiv a.x a.z
  let ay ← cdiv a.y a.z
  let az ← cdiv a.z a.z
  let bx ← cdiv b.x b.z
  let b_y ← cdiv b.y b.z
  let bz ← cdiv b.z b.z
  pure |V3.dot ⟨bx, b_y, bz⟩ (E.mulVec ⟨ax, ay, az⟩)|

/-- A result of nalgebra's `SVD`: `u`, the singular values, `v_t`. -/
structure SVD (K : Type) where
  u : M3 K
  s1 : K
  s2 : K
  s3 : K
  vt : M3 K

/-- `svd.recompose()`. -/
def SVD.recompose {K : Type} [CommRing K] (d : SVD K) : M3 K :=
  (d.u.mul (M3.diag d.s1 d.s2 d.s3)).mul d.vt

/-- essential.rs 64-77 `recondition`, given the decomposition. -/
noncomputable def recondition (d : SVD ℝ) : M3 ℝ :=
  SVD.recompose ⟨d.u, (d.s1 + d.s2) / 2, (d.s1 + d.s2) / 2, 0, d.vt⟩

/-- Negate the last column. -/
@[lin] def negCol3 {K : Type} [CommRing K] (A : M3 K) : M3 K :=
  ⟨A.m11, A.m12, -A.m13, A.m21, A.m22, -A.m23, A.m31, A.m32, -A.m33⟩

/-- Negate the last row. -/
@[lin] def negRow3 {K : Type} [CommRing K] (A : M3 K) : M3 K :=
  ⟨A.m11, A.m12, A.m13, A.m21, A.m22, A.m23, -A.m31, -A.m32, -A.m33⟩

/-- essential.rs 122-124 `w`. -/
@[lin] def wMat {K : Type} [CommRing K] : M3 K := ⟨0, -1, 0, 1, 0, 0, 0, 0, 1⟩

/-- essential.rs 138-144. -/
noncomputable def fixU (u : M3 ℝ) : M3 ℝ := if u.det < 0 then negCol3 u else u

/-- essential.rs 145-150. -/
noncomputable def fixV (v : M3 ℝ) : M3 ℝ := if v.det < 0 then negRow3 v else v

/-- essential.rs 114-162 `possible_rotations_unscaled_translation`, given the decomposition. -/
noncomputable def possibleRotations (d : SVD ℝ) : M3 ℝ × M3 ℝ × V3 ℝ :=
  (((fixU d.u).mul wMat).mul (fixV d.vt), ((fixU d.u).mul wMat.transpose).mul (fixV d.vt),
    (fixU d.u).col3)

/-- essential.rs 184-191 `possible_rotations`, given the decomposition. -/
noncomputable def possibleRotationPair (d : SVD ℝ) : List (M3 ℝ) :=
  match possibleRotations d with
  | (a, b, _) => [a, b]

/-- essential.rs 217-231 `possible_unscaled_poses`, given the decomposition. -/
noncomputable def possiblePoses (d : SVD ℝ) : List (Iso ℝ) :=
  match possibleRotations d with
  | (a, b, t) => [⟨a, t⟩, ⟨b, t⟩, ⟨a, t.neg⟩, ⟨b, t.neg⟩]

/-- essential.rs 237-249 `possible_unscaled_poses_bearing`. -/
noncomputable def possiblePosesBearing (d : SVD ℝ) : List (Iso ℝ) :=
  match possibleRotations d with
  | (a, b, t) => [⟨a, t⟩, ⟨b, t⟩]

end Verif.Geo
