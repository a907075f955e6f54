import Verif.Model.FloatOptimize
import Verif.Model.SfmGeometry

/-!
# Residuals and acceptance tests with floating point numbers

Sources: /repo/cv-core/src/pose.rs 194-202 and 248-300, /repo/cv-pinhole/src/essential.rs 266-275,
/repo/cv-core/src/triangulation.rs 20-38, /repo/cv-sfm/src/lib.rs. The models of `Residual.lean`, `Essential.lean`,
`SfmFilter.lean` and `SfmStartGeo.lean` with the operations of `f64`. The eigenvalue solver of nalgebra and the
triangulator of the user are parameters.
-/

namespace Verif.Geo.Rounded

open Verif.Akaze (FloatOps FloatBits)
open Verif.Akaze.FloatOps (lit lt le abs sqrt)
open P3P (fsub fsmul fdot fcross fmulVec fmul)

variable {D : Type} [FloatOps D] [FloatBits D]

/-- The comparison of sample consensus (arrsac) with the threshold of the user. -/
def finlier (residual threshold : D) : Bool := lt residual threshold

/-- pose.rs 194-202 `Model<FeatureWorldMatch> for WorldToCamera`. -/
def fworldResidual (pose : Iso D) (b : V3 D) (w : V4 D) : D := 1 - fdot b (fbearing (ftransform pose w))

/-- pose.rs 248-300 `Model<FeatureMatch> for CameraToCamera`: `vector` is the eigenvector chosen in lines 276-286, or
nothing. -/
def fcameraResidual (vector : Iso D → V3 D → V3 D → Option (V4 D)) (pose : Iso D) (a b : V3 D) : D :=
  match vector pose a b with
  | none => lit 2
  | some v =>
    let p := fhomogeneous v
    if allFinite p then lit (1 / 2) * (1 - fdot a (fbearing p) + 1 - fdot b (fbearing (ftransform pose p)))
    else lit 2

/-- nalgebra: a row times a matrix. -/
def frowMul (v : V3 D) (A : M3 D) : V3 D :=
  ⟨fdot v ⟨A.m11, A.m21, A.m31⟩, fdot v ⟨A.m12, A.m22, A.m32⟩, fdot v ⟨A.m13, A.m23, A.m33⟩⟩

/-- essential.rs 266-275 `Model<FeatureMatch> for EssentialMatrix`. -/
def fessentialResidual (E : M3 D) (a b : V3 D) : D :=
  abs (fdot (frowMul (funscale b b.z) E) (funscale a a.z))

/-- lib.rs 1306-1317 `is_bi_landmark_robust`. -/
def fbiRobust (pose : Iso D) (a b : V3 D) (maxSine : D) : Bool := lt (floss pose.t (fmulVec pose.rot a) b) maxSine

/-- lib.rs 2894-2904 `is_bi_observation_angularly_robust`. -/
def fangular (a b : V3 D) (minCosine : D) : Bool := lt minCosine (1 - fdot a b)

/-- lib.rs 1344-1346, 2648, 2722: the cosine distance between an observation and a point. -/
def fcosineDistance (p : V4 D) (o : FObservation D) : D := 1 - fdot (fbearing (ftransform o.pose p)) o.bearing

/-- lib.rs 1344: the same in the camera the point is given in. -/
def fcentreDistance (p : V4 D) (c : V3 D) : D := 1 - fdot (fbearing p) c

/-- triangulation.rs 20-38 `triangulate_observations_to_camera`. -/
def ftoCamera (tri : List (FObservation D) → Option (V4 D)) (c : V3 D) (pairs : List (FObservation D)) : Option (V4 D) :=
  (tri (⟨⟨fone, fzero⟩, c⟩ :: pairs)).map fhomogeneous

/-- lib.rs 1320-1360 `is_tri_landmark_robust`. -/
def ftriRobust (tri : List (FObservation D) → Option (V4 D)) (p q : Iso D) (c f s : V3 D) (maxCosine minCosine : D) :
    Bool :=
  match ftoCamera tri c [⟨p, f⟩, ⟨q, s⟩] with
  | none => false
  | some point =>
    let fc := fmulVec (finv p).rot f
    let sc := fmulVec (finv q).rot s
    let satisfied := lt (fcentreDistance point c) maxCosine && lt (fcosineDistance point ⟨p, f⟩) maxCosine &&
      lt (fcosineDistance point ⟨q, s⟩) maxCosine
    let incidence := fangular c fc minCosine || fangular c sc minCosine || fangular fc sc minCosine
    satisfied && incidence

/-- lib.rs 2622-2655 `is_observation_consistent`; an empty list of other observations is `unreachable!`. -/
def fconsistent (tri : List (FObservation D) → Option (V4 D)) (maxSine maxCosine : D) (o : FObservation D)
    (others : List (FObservation D)) : Option Bool :=
  match others with
  | [] => none
  | [x] => some (fbiRobust (fisoMul x.pose (finv o.pose)) o.bearing x.bearing maxSine)
  | _ => some (((tri (others ++ [o])).map fun p => (others ++ [o]).all fun y => lt (fcosineDistance p y) maxCosine).getD
      false)

/-- lib.rs 2907-2936 `are_observations_robust`: `views` is the number of views of the reconstruction. -/
def fobservationsRobust (minObservations views : Nat) (minCosine : D) (os : List (FObservation D)) : Bool :=
  decide (min minObservations views ≤ os.length) &&
    (Sfm.combinations (os.map FObservation.ray)).any fun p => fangular p.1 p.2 minCosine

/-- lib.rs 2717-2728: the observations of a landmark with more than two observations that are kept, given the point of the
landmark. -/
def fkept (maxCosine : D) (p : V4 D) (os : List (FObservation D)) : List (FObservation D) :=
  os.filter fun o => !lt maxCosine (fcosineDistance p o)

end Verif.Geo.Rounded
