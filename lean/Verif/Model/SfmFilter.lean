import Verif.Model.SfmGeometry
import Verif.Model.Triangulate

/-!
# cv-sfm: the geometric tests of the filters

Source: /repo/cv-sfm/src/lib.rs 1306-1317, 2657-2813, 2874-2891, 2978-3002.  The filters themselves are in
`Model/SfmOps`; this file replaces the answers assumed there by the computations of the program.
-/

namespace Verif.Sfm

open Verif.Geo

variable {C : Type}

/-- The two settings that bound the error of an observation. -/
structure Limits where
  /-- `settings.maximum_sine_distance` -/
  maxSine : ℝ
  /-- `settings.maximum_cosine_distance` -/
  maxCosine : ℝ

/-- lib.rs 1306-1317 `is_bi_landmark_robust`. -/
noncomputable def biLandmarkRobust (pose : Iso ℝ) (a b : V3 ℝ) (maxSine : ℝ) : Bool :=
  decide (epipolarLoss pose.t (pose.rot.mulVec a) b < maxSine)

/-- lib.rs 2722 and 2648: the cosine distance between an observation and a point; `none` if it is not a number, which
happens for a point that is the centre of the camera. -/
noncomputable def cosineDistance (p : V4 ℝ) (o : Iso ℝ × V3 ℝ) : Option ℝ :=
  (transform o.1 p).map (fun q => 1 - (bearing q).dot o.2)

/-- lib.rs 2874-2891 `triangulate_landmark`; the outer `none` is a panic. -/
noncomputable def triangulateLandmark (W : World C) (R : Recon (Iso ℝ)) (l : Nat) : Option (Option (V4 ℝ)) := do
  let L ← R.landmarks.get l
  let pbs ← L.entries.mapM (poseBearing W R)
  pure (if 2 ≤ L.entries.length then W.triangulate pbs else none)

/-- lib.rs 2692-2708: the test of a landmark with two observations. -/
noncomputable def twoViewTest (W : World C) (lim : Limits) (R : Recon (Iso ℝ)) (l : Nat) : Option Bool := do
  let L ← R.landmarks.get l
  let pbs ← L.entries.mapM (poseBearing W R)
  match pbs with
  | [a, b] => pure (biLandmarkRobust (b.1.mul a.1.inv) a.2 b.2 lim.maxSine)
  | _ => none

/-- lib.rs 2717-2723: the test of one observation.  A comparison with a number that is none is false. -/
noncomputable def tooFar (W : World C) (lim : Limits) (R : Recon (Iso ℝ)) (p : V4 ℝ) (o : Nat × Nat) : Option Bool := do
  let pb ← poseBearing W R o
  match cosineDistance p pb with
  | none => pure false
  | some x => pure (decide (lim.maxCosine < x))

/-- The oracle whose tests of landmarks are those of the program; the other answers are those of `ω`.  A lookup that
panics in the program is given an arbitrary value: `C87_lookups` shows that there is none. -/
noncomputable def geoOracle (W : World C) (lim : Limits) (ω : Oracle (Iso ℝ)) : Oracle (Iso ℝ) :=
  { ω with
    triangulates := fun R l => ((triangulateRobust W R l).getD none).isSome
    robust := fun R l => (isLandmarkRobust W R l).getD false
    biRobust := fun R l => (twoViewTest W lim R l).getD false
    disagrees := fun R l => ((triangulateLandmark W R l).getD none).map (fun p v f => (tooFar W lim R p (v, f)).getD false) }

end Verif.Sfm
