import Verif.Model.Residual
import Verif.Spec.Triangulate

/-!
# What residuals should say
-/

namespace Verif.Geo

/-- The cosine of the angle between two vectors. -/
noncomputable def cosine (a b : V3 ℝ) : ℝ := a.dot b / (a.norm * b.norm)

/-- `x` is seen by the camera exactly opposite to the direction `b`. -/
def Behind (pose : Iso ℝ) (b x : V3 ℝ) : Prop := b.normSq = 1 ∧ ∃ d > 0, pose.point x = V3.smul (-d) b

/-- The pinhole image of a point in front of the camera: `x/z`, `y/z`. -/
def ImageOf (v : V3 ℝ) (i : V2 ℝ) : Prop := v.z ≠ 0 ∧ v.z * i.x = v.x ∧ v.z * i.y = v.y

end Verif.Geo
