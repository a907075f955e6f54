import Verif.Model.Triangulate

/-!
# Residuals of poses and reprojection errors

Sources: /repo/cv-core/src/pose.rs 194-202 and 248-300, /repo/cv-core/src/triangulation.rs,
/repo/cv-pinhole/src/lib.rs 314-372.  Exact reals.  In the residuals `none` is NaN.
-/

namespace Verif.Geo

/-- pose.rs 194-202 `Model<FeatureWorldMatch> for WorldToCamera`: bearing `b` and world point `w`. NaN if the point is at the
optical centre. -/
noncomputable def worldResidual (pose : Iso ℝ) (b : V3 ℝ) (w : V4 ℝ) : Option ℝ := do
  let p ← transform pose w
  pure (1 - b.dot (bearing p))

/-- pose.rs 255-273: the design matrix, the same sum as in the eigenvalue triangulator with the identity for the first
camera. -/
def residualSystem (pose : Iso ℝ) (a b : V3 ℝ) : M4 := linearSystem [⟨Iso.one, a⟩, ⟨pose, b⟩]

/-- pose.rs 282-285: `min_by_key(|n| n.abs().to_bits())`, the first smallest absolute value. -/
noncomputable def leastAbs4 (vals : Fin 4 → ℝ) : Fin 4 := least4 (fun i => |vals i|)

/-- pose.rs 248-300 `Model<FeatureMatch> for CameraToCamera`; the eigenvalue solver is a parameter. A solver that fails and
a point that is not finite give 2; a point at the centre of the second camera gives NaN. -/
noncomputable def cameraResidual (solver : M4 → Option Eigen4) (pose : Iso ℝ) (a b : V3 ℝ) : Option ℝ :=
  match solver (residualSystem pose a b) with
  | none => some 2
  | some e =>
    match fromHomogeneous (e.vecs (leastAbs4 e.vals)) with
    | none => some 2
    | some p => do
      let q ← transform pose p
      pure (1 / 2 * (1 - a.dot (bearing p) + 1 - b.dot (bearing q)))

/-- triangulation.rs 20-38 `triangulate_observations_to_camera`, the default method on top of any triangulator `tri`: the
first camera is the world. -/
noncomputable def toCamera (tri : List Observation → Option (V4 ℝ)) (c : V3 ℝ) (pairs : List Observation) :
    Option (V4 ℝ) := do
  let p ← tri (⟨Iso.one, c⟩ :: pairs)
  fromHomogeneous p

/-- triangulation.rs 52-66: every triangulator of observations is a relative triangulator. -/
noncomputable def relativeOf (tri : List Observation → Option (V4 ℝ)) (pose : Iso ℝ) (a b : V3 ℝ) : Option (V4 ℝ) :=
  toCamera tri a [⟨pose, b⟩]

/-- nalgebra: difference. -/
@[lin] def V2.sub {K : Type} [CommRing K] (a b : V2 K) : V2 K := ⟨a.x - b.x, a.y - b.y⟩

/-- nalgebra `norm`. -/
noncomputable def V2.norm (a : V2 ℝ) : ℝ := Real.sqrt a.normSq

/-- cv-pinhole/src/lib.rs 314-337 `pose_reprojection_error`. The outer `none` is the `None` of the code, the inner one a
component that is not a finite number. -/
noncomputable def reprojectionError (tri : Iso ℝ → V3 ℝ → V3 ℝ → Option (V4 ℝ)) (pose : Iso ℝ) (a b : V3 ℝ) :
    Option (Option (V2 ℝ × V2 ℝ)) :=
  match tri pose a b with
  | none => none
  | some pa =>
    if (bearing pa).z < 0 then none
    else
      match transform pose pa with
      | none => some none
      | some pb =>
        if (bearing pb).z < 0 then none
        else some do
          let an ← project a
          let bn ← project b
          let ra ← project (bearing pa)
          let rb ← project (bearing pb)
          pure (an.sub ra, bn.sub rb)

/-- cv-pinhole/src/lib.rs 365-372 `average_pose_reprojection_error`. -/
noncomputable def averageReprojectionError (tri : Iso ℝ → V3 ℝ → V3 ℝ → Option (V4 ℝ)) (pose : Iso ℝ) (a b : V3 ℝ) :
    Option (Option ℝ) :=
  (reprojectionError tri pose a b).map (fun r => r.map (fun e =>
    (e.1.norm + e.2.norm) * (1 / 2)))

end Verif.Geo
