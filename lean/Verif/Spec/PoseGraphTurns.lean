import Verif.Spec.PoseGraph
import Verif.Model.Pose

/-!
# Specification: how far the cameras are turned away from what the constraints ask for
-/

namespace Verif.Sfm

open Verif.Geo

/-- The rotation by an angle about an axis of length one. -/
noncomputable def turn (n : V3 ℝ) (a : ℝ) : M3 ℝ := rodrigues n (Real.sin a) (Real.cos a)

/-- The angle of a rotation, between zero and a half turn. -/
noncomputable def angleOf (A : M3 ℝ) : ℝ := Real.arccos ((A.trace - 1) / 2)

/-- By how much the orientations of cameras at the poses `X` disagree with the motions asked for: the squared angles
between how the cameras are oriented and how they are asked to be. -/
noncomputable def turnDisagreement (asks : List (Nat × Nat × Iso ℝ)) (X : Nat → Iso ℝ) : ℝ :=
  (asks.map (fun a => angleOf ((a.2.2.rot.mul (X a.2.1).rot).mul (X a.1).rot.transpose) ^ 2)).sum

/-- All cameras and all constraints are turned about the same axis, as those of a vehicle on a plane are. -/
structure AboutAxis (n : V3 ℝ) (R : Recon (Iso ℝ)) : Prop where
  unit : n.normSq = 1
  poses : ∀ v, R.LiveView v → ∃ a, (R.poseAt v).rot = turn n a
  constraints : ∀ k c, R.constraints.get k = some c → (∃ a, c.first.rot = turn n a) ∧ ∃ a, c.second.rot = turn n a

end Verif.Sfm
