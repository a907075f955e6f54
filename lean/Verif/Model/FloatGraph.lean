import Verif.Model.FloatResidual
import Verif.Model.PoseGraph
import Verif.Model.SfmStartGeo

/-!
# cv-sfm: graph optimisation, normalisation and relative scales with floating point numbers

Source: /repo/cv-sfm/src/lib.rs and /repo/cv-core/src/{pose,so3}.rs. The numeric parts of `Model/PoseGraph`,
`Model/SfmGeometry` and `Model/SfmStartGeo` with the operations of `f64`; the tables are those of `Model/SfmOps`, which do not
depend on the type of poses. Parameters: `log` is nalgebra's `Rotation3::scaled_axis`, `exp` the exponential of so3.rs 248-261
(which for small angles ends in an iteration of nalgebra), `normal` is `is_normal`.
-/

namespace Verif.Geo.Rounded

open Verif.Akaze (FloatOps FloatBits)
open Verif.Akaze.FloatOps (lit lt le abs sqrt)
open Verif.Akaze.FloatBits (isFinite isNan isSignNegative)
open P3P (fsub fsmul fdot fcross fmulVec fmul fpoint)

variable {D : Type} [FloatOps D] [FloatBits D]

/-- nalgebra: product and inverse of poses, for the tables of `Model/SfmOps`. -/
scoped instance : Mul (Iso D) := ⟨fisoMul⟩
omit [FloatBits D] in
scoped instance : Inv (Iso D) := ⟨finv⟩

/-- pose.rs 54-59 `se3` with so3.rs 264-274: a logarithm with NaN counts as zero. -/
def fse3 (log : M3 D → V3 D) (a : Iso D) : FTangent D := ⟨a.t, orZero (log a.rot)⟩

/-- lib.rs 1929: all six numbers are finite. -/
def FTangent.allFinite (g : FTangent D) : Bool :=
  isFinite g.translation.x && isFinite g.translation.y && isFinite g.translation.z &&
    isFinite g.rotation.x && isFinite g.rotation.y && isFinite g.rotation.z

/-- lib.rs 1912-1927: the sum of the six numbers over the constraints, given with the pose of the other view. -/
def fnetDelta (log : M3 D → V3 D) (scale : D) (pose : Iso D) (es : List (Iso D × Iso D)) : FTangent D :=
  (fsum (es.map fun e => fse3 log (fisoMul (fisoMul e.1 e.2) (finv pose)))).scale scale

/-- lib.rs 1929-1935 with pose.rs 62-66. -/
def fmovedPose (log : M3 D → V3 D) (exp : V3 D → M3 D) (scale : D) (pose : Iso D) (es : List (Iso D × Iso D)) :
    Option (Iso D) :=
  let d := fnetDelta log scale pose es
  if d.allFinite then some (fisoMul ⟨exp d.rotation, d.translation⟩ pose) else none

/-- lib.rs 1905-1935, the numeric part of `constrain_view`. A view that is not there gives nothing here; that it panics is
part of `constrainView`. -/
def fconstrain (log : M3 D → V3 D) (exp : V3 D → M3 D) (scale : D) (R : Sfm.Recon (Iso D)) (v : Nat)
    (es : List (Nat × Iso D)) : Option (Iso D) := do
  let V ← R.views.get v
  let others ← es.mapM fun e => (R.views.get e.1).map fun O => (e.2, O.pose)
  fmovedPose log exp scale V.pose others

/-- average 0.13 `Mean`: the mean is updated with each number; `empty` is the answer for no numbers. -/
def fmeanLoop : Nat → D → List D → D
  | _, avg, [] => avg
  | n, avg, x :: l => fmeanLoop (n + 1) (avg + (x - avg) / ((n + 1 : Nat) : D)) l
def fmean (empty : D) (l : List D) : D := if l.isEmpty then empty else fmeanLoop 0 0 l

/-- lib.rs 2251-2258: the distances of the points from the first view. -/
def fdistances (pose : Iso D) (points : List (V4 D)) : List D :=
  points.filterMap fun w => (fpoint (ftransform pose w)).map fnorm

/-- lib.rs 2241-2283 `normalize_reconstruction`; `points` are the robust landmarks of the first view, triangulated. -/
def fnormalizeRecon (normal : D → Bool) (empty : D) (points : Sfm.Recon (Iso D) → Sfm.View (Iso D) → Option (List (V4 D)))
    (R : Sfm.Recon (Iso D)) (first : Nat) : Option (Sfm.Recon (Iso D)) := do
  let V ← R.views.get first
  let ps ← points R V
  let mean := fmean empty (fdistances V.pose ps)
  if normal mean then
    some (R.mapPoses (fun p => ⟨(fisoMul p (finv V.pose)).rot, fsmul (1 / mean) (fisoMul p (finv V.pose)).t⟩)
      (fun p => ⟨p.rot, fsmul (1 / mean) p.t⟩))
  else some R

/-- lib.rs 1022-1036: the relative scale of one match, from the points triangulated with either pose. -/
def frelativeScale (normal : D → Bool) (fp sp : V4 D) : Option D := do
  let f ← fpoint fp
  let s ← fpoint sp
  let ratio := fnormSq f / fnormSq s
  if normal ratio then some ratio else none

/-- lib.rs 1050-1055: the root of the middle ratio after sorting. -/
def fmedianScale (sort : List D → List D) (ratios : List D) : Option D := (Sfm.median (sort ratios)).map sqrt

end Verif.Geo.Rounded
