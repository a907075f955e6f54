import Verif.Model.SfmGeometry

/-!
# cv-sfm: landmarks as seen without one of the views

Source: /repo/cv-sfm/src/lib.rs. `none` stands for a panic.
-/

namespace Verif.Sfm

open Verif.Geo

variable {C : Type}

/-- lib.rs 356-377: the observations that `landmark_pose_bearings_without_view` and lib.rs 3010-3012 go through. -/
def observationsWithout (L : Landmark) (v : Nat) : List (Nat × Nat) := L.entries.filter (fun o => o.1 != v)

/-- lib.rs 3003-3027 `is_landmark_robust_without_view`. As for `areObservationsRobust`, all bearings are computed. -/
noncomputable def isRobustWithout (W : World C) (R : Recon (Iso ℝ)) (l v : Nat) : Option Bool := do
  let L ← R.landmarks.get l
  let pbs ← (observationsWithout L v).mapM (poseBearing W R)
  pure ((combinations (pbs.map (fun p => p.1.inv.rot.mulVec p.2))).any (fun p => angularlyRobust W p.1 p.2))

/-- lib.rs 3030-3045 `triangulate_landmark_robust_without_view`; `some none` if the landmark is not robust without the view
or cannot be triangulated. -/
noncomputable def triangulateWithout (W : World C) (R : Recon (Iso ℝ)) (l v : Nat) : Option (Option (V4 ℝ)) := do
  let L ← R.landmarks.get l
  let robust ← isRobustWithout W R l v
  let pbs ← (observationsWithout L v).mapM (poseBearing W R)
  pure (if robust then W.triangulate pbs else none)

end Verif.Sfm
