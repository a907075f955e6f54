import Mathlib.Analysis.SpecialFunctions.Trigonometric.Inverse
import Verif.Model.SfmHistory
import Verif.Model.Optimize

/-!
# cv-core: the logarithm of a pose; cv-sfm: optimising the poses with the constraints

Numbers are exact reals.
-/

namespace Verif.Geo

/-- nalgebra `Rotation3::scaled_axis` as used by cv-core/src/so3.rs 266-281 (the log map): the axis is the normalised
skew part of the matrix and the angle the arc cosine of half the trace less one; without an axis the result is zero.
Simplification: nalgebra has no axis when the length of the skew part is at most machine epsilon, the model only when it
is zero. -/
noncomputable def logRot (A : M3 ℝ) : V3 ℝ :=
  let s : V3 ℝ := ⟨A.m32 - A.m23, A.m13 - A.m31, A.m21 - A.m12⟩
  if s.norm = 0 then V3.zero else V3.smul (Real.arccos ((A.trace - 1) / 2)) (V3.smul (1 / s.norm) s)

/-- cv-core/src/pose.rs 54-59 `se3`; the six numbers are kept as two vectors. -/
noncomputable def Iso.se3 (a : Iso ℝ) : Tangent := ⟨a.t, logRot a.rot⟩

/-- cv-core/src/pose.rs 62-66 `from_se3`. -/
noncomputable def Tangent.pose (v : Tangent) : Iso ℝ := ⟨expRot v.rotation, v.translation⟩

noncomputable instance : Mul (Iso ℝ) := ⟨Iso.mul⟩
noncomputable instance : Inv (Iso ℝ) := ⟨Iso.inv⟩

end Verif.Geo

namespace Verif.Sfm

open Verif.Geo

/-- cv-sfm lib.rs 1905-1935, the numeric part of `constrain_view`. Exact numbers are always finite, so `none` only stands
for the panic at a view that is not there. Sum and product with a number are those of `Model/Optimize`. -/
noncomputable def constrainPose (rate : ℝ) (R : Recon (Iso ℝ)) (v : Nat) (es : List (Nat × Iso ℝ)) : Option (Iso ℝ) :=
  do
    let V ← R.views.get v
    let deltas ← es.mapM (fun e => do
      let O ← R.views.get e.1
      pure ((e.2 * O.pose) * V.pose⁻¹).se3)
    pure (((Tangent.sum deltas).scale rate).pose * V.pose)

/-- The answers used by the optimisation, with the numeric part of `constrain_view` filled in. -/
noncomputable def Oracle.withRate (ω : Oracle (Iso ℝ)) (rate : ℝ) : Oracle (Iso ℝ) :=
  { ω with constrain := constrainPose rate }

end Verif.Sfm
