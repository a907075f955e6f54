import Verif.Model.FloatGeom
import Verif.Model.Optimize

/-!
# cv-optimize with floating point numbers

Sources: /repo/cv-optimize/src/single_view_optimizer.rs, /repo/cv-optimize/src/three_view_optimizer.rs,
/repo/cv-core/src/so3.rs, /repo/cv-core/src/pose.rs. The model of `Optimize.lean` with the operations of `f64`. The sums of
nalgebra are taken from the first to the last term; a product of a vector and a number is written with the number first. Log
output is left out. `top` stands for `f64::INFINITY`.
-/

namespace Verif.Geo.Rounded

open Verif.Akaze (FloatOps FloatBits)
open Verif.Akaze.FloatOps (lit lt le abs sqrt)
open Verif.Akaze.FloatBits (isFinite isNan isSignNegative)
open P3P (fsub fsmul fdot fcross fmulVec fmul fpoint)

variable {D : Type} [FloatOps D] [FloatBits D]

/-! ## Poses and tangent vectors -/

/-- nalgebra: the identity matrix. -/
def fone : M3 D := ⟨1, 0, 0, 0, 1, 0, 0, 0, 1⟩

/-- nalgebra `Rotation3::from_axis_angle` for an angle that is not zero. -/
def faxisAngle (u : V3 D) (angle : D) : M3 D :=
  let s := FloatOps.sin angle
  let c := FloatOps.cos angle
  let k := 1 - c
  ⟨u.x * u.x + (1 - u.x * u.x) * c, u.x * u.y * k - u.z * s, u.x * u.z * k + u.y * s,
    u.x * u.y * k + u.z * s, u.y * u.y + (1 - u.y * u.y) * c, u.y * u.z * k - u.x * s,
    u.x * u.z * k - u.y * s, u.y * u.z * k + u.x * s, u.z * u.z + (1 - u.z * u.z) * c⟩

/-- nalgebra `Rotation3::from_scaled_axis`. -/
def fexpRot (w : V3 D) : M3 D :=
  if FloatOps.eq (fnorm w) 0 then fone else faxisAngle (funscale w (fnorm w)) (fnorm w)

/-- so3.rs 56-59 `isometry`. -/
def FTangent.isometry (g : FTangent D) : Iso D := ⟨fexpRot g.rotation, fmulVec (fexpRot g.rotation) g.translation⟩

/-- nalgebra: the product of two isometries. -/
def fisoMul (a b : Iso D) : Iso D := ⟨fmul a.rot b.rot, fadd a.t (fmulVec a.rot b.t)⟩

/-- so3.rs 37-42 `identity`. -/
def FTangent.zero : FTangent D := ⟨fzero, fzero⟩

/-- so3.rs 139-144 `add_assign`. -/
def FTangent.add (a b : FTangent D) : FTangent D := ⟨fadd a.translation b.translation, fadd a.rotation b.rotation⟩

/-- so3.rs 78-82 `scale`. -/
def FTangent.scale (s : D) (a : FTangent D) : FTangent D := ⟨fsmul s a.translation, fsmul s a.rotation⟩

/-- so3.rs 87-90 `scale_translation`. -/
def FTangent.scaleTranslation (s : D) (a : FTangent D) : FTangent D := ⟨fsmul s a.translation, a.rotation⟩

/-- so3.rs 95-98 `scale_rotation`. -/
def FTangent.scaleRotation (s : D) (a : FTangent D) : FTangent D := ⟨a.translation, fsmul s a.rotation⟩

/-- so3.rs 123-125 `l1`. -/
def FTangent.l1 (a : FTangent D) : FTangent D := FTangent.new (fnormalize a.translation) (fnormalize a.rotation)

/-- The sums of the loops, which start from the identity. -/
def fsum (gs : List (FTangent D)) : FTangent D := gs.foldl FTangent.add FTangent.zero

/-- pose.rs 125-133 `transform`: the homogeneous matrix times the point, then `from_homogeneous`. -/
def ftransform (p : Iso D) (v : V4 D) : V4 D :=
  fhomogeneous ⟨p.rot.m11 * v.x + p.rot.m12 * v.y + p.rot.m13 * v.z + p.t.x * v.w,
    p.rot.m21 * v.x + p.rot.m22 * v.y + p.rot.m23 * v.z + p.t.y * v.w,
    p.rot.m31 * v.x + p.rot.m32 * v.y + p.rot.m33 * v.z + p.t.z * v.w,
    0 * v.x + 0 * v.y + 0 * v.z + 1 * v.w⟩

/-! ## What the loops share -/

/-- single_view_optimizer.rs 50-57, three_view_optimizer.rs 74-81. -/
def ftrack (best t : D) : D × Bool := if lt t best then (t, true) else (best, false)

/-- single_view_optimizer.rs 29-76 and 93-133, three_view_optimizer.rs 36-122 and 139-198. -/
def foptimizeLoop {P : Type} (sizes : P → List D) (update : P → P) : Nat → List D → Nat → P → P
  | 0, _, _, p => p
  | n + 1, bests, idle, p =>
    let tracked := List.zipWith ftrack bests (sizes p)
    let idle := if tracked.any (fun x => x.2) then 0 else idle + 1
    if 50 ≤ idle then p
    else foptimizeLoop sizes update n (tracked.map (fun x => x.1)) idle (update p)

/-- single_view_optimizer.rs 31-45, three_view_optimizer.rs 49-67 for one pose. -/
def fstepL1 (tscale eps rate : D) (gs : List (FTangent D)) : FTangent D :=
  let ts := gs.foldl (fun s g => s + 1 / (fnorm g.translation + tscale * eps)) 0
  let rs := gs.foldl (fun s g => s + 1 / (fnorm g.rotation + eps)) 0
  (((fsum (gs.map FTangent.l1)).scale rate).scaleTranslation (1 / ts)).scaleRotation (1 / rs)

/-- The lengths of both parts. -/
def FTangent.sizes (a : FTangent D) : List D := [fnorm a.translation, fnorm a.rotation]

/-! ## One view -/

/-- single_view_optimizer.rs 4-14 `landmark_delta`. -/
def flandmarkDelta (pose : Iso D) (lm : V3 D × V4 D) : Option (FTangent D) :=
  (fpoint (ftransform pose lm.2)).map (fun x => fworldPoseGradient x lm.1)

/-- single_view_optimizer.rs 34-40. -/
def flandmarkDeltas (pose : Iso D) (lms : List (V3 D × V4 D)) : List (FTangent D) :=
  lms.filterMap (flandmarkDelta pose)

/-- single_view_optimizer.rs 16-78 `single_view_simple_optimize_l1`. -/
def fsingleViewL1 (top : D) (pose : Iso D) (eps rate : D) (n : Nat) (lms : List (V3 D × V4 D)) : Iso D :=
  if lms.isEmpty then pose
  else foptimizeLoop (fun p => (fsum ((flandmarkDeltas p lms).map FTangent.l1)).sizes)
    (fun p => fisoMul (fstepL1 (fnorm p.t) eps rate (flandmarkDeltas p lms)).isometry p) n [top, top] 0 pose

/-- single_view_optimizer.rs 92, 101-102, 126. -/
def fsingleStepL2 (rate : D) (lms : List (V3 D × V4 D)) (p : Iso D) : Iso D :=
  fisoMul (((fsum (flandmarkDeltas p lms)).scale (1 / (lms.length : D))).scale rate).isometry p

/-- single_view_optimizer.rs 80-135 `single_view_simple_optimize_l2`. -/
def fsingleViewL2 (top : D) (pose : Iso D) (rate : D) (n : Nat) (lms : List (V3 D × V4 D)) : Iso D :=
  if lms.isEmpty then pose
  else foptimizeLoop (fun p => (fsum (flandmarkDeltas p lms)).sizes) (fsingleStepL2 rate lms) n [top, top] 0 pose

/-! ## Three views -/

/-- The bearings of one landmark in the centre, first and second view. -/
structure FBearings (D : Type) where
  center : V3 D
  first : V3 D
  second : V3 D

/-- three_view_optimizer.rs 7-21 `landmark_gradients`. -/
def flandmarkGradients (p : Iso D × Iso D) (o : FBearings D) : FTangent D × FTangent D :=
  fthreeViewGradients o.center (fmulVec p.1.rot o.first) p.1.t (fmulVec p.2.rot o.second) p.2.t

/-- The gradients of the first and of the second pose. -/
def ffirstGradients (p : Iso D × Iso D) (os : List (FBearings D)) : List (FTangent D) :=
  os.map (fun o => (flandmarkGradients p o).1)
def fsecondGradients (p : Iso D × Iso D) (os : List (FBearings D)) : List (FTangent D) :=
  os.map (fun o => (flandmarkGradients p o).2)

/-- three_view_optimizer.rs 101-107, 183-189, 252-254. -/
def fmovePoses (p : Iso D × Iso D) (d e : FTangent D) : Iso D × Iso D := (fisoMul d.isometry p.1, fisoMul e.isometry p.2)

/-- Lines 33, 136, 212 and 123, 199, 271. -/
def finvPoses (p : Iso D × Iso D) : Iso D × Iso D := (finv p.1, finv p.2)

/-- three_view_optimizer.rs 45-67 and 101-107. -/
def fthreeStepL1 (eps rate : D) (os : List (FBearings D)) (p : Iso D × Iso D) : Iso D × Iso D :=
  let tscale := 0 + fnorm p.1.t + fnorm p.2.t
  fmovePoses p (fstepL1 tscale eps rate (ffirstGradients p os)) (fstepL1 tscale eps rate (fsecondGradients p os))

/-- three_view_optimizer.rs 23-124 `three_view_simple_optimize_l1`. -/
def fthreeViewL1 (top : D) (poses : Iso D × Iso D) (eps rate : D) (n : Nat) (os : List (FBearings D)) : Iso D × Iso D :=
  if os.isEmpty then poses
  else finvPoses (foptimizeLoop
    (fun p => (fsum ((ffirstGradients p os).map FTangent.l1)).sizes ++
      (fsum ((fsecondGradients p os).map FTangent.l1)).sizes)
    (fthreeStepL1 eps rate os) n [top, top, top, top] 0 (finvPoses poses))

/-- three_view_optimizer.rs 135, 141-155 and 183-189. -/
def fthreeStepL2 (rate : D) (os : List (FBearings D)) (p : Iso D × Iso D) : Iso D × Iso D :=
  fmovePoses p ((fsum (ffirstGradients p os)).scale (1 / (os.length : D) * rate))
    ((fsum (fsecondGradients p os)).scale (1 / (os.length : D) * rate))

/-- three_view_optimizer.rs 126-200 `three_view_simple_optimize_l2`. -/
def fthreeViewL2 (top : D) (poses : Iso D × Iso D) (rate : D) (n : Nat) (os : List (FBearings D)) : Iso D × Iso D :=
  if os.isEmpty then poses
  else finvPoses (foptimizeLoop
    (fun p => (fsum (ffirstGradients p os)).sizes ++ (fsum (fsecondGradients p os)).sizes)
    (fthreeStepL2 rate os) n [top, top, top, top] 0 (finvPoses poses))

/-- three_view_optimizer.rs 245, 247: a quotient that is not finite counts as zero. -/
def finiteOrZero (x : D) : D := if isFinite x then x else 0

/-- three_view_optimizer.rs 234-249 for one pose; the number of gradients is that of the landmarks. -/
def fadaptiveStep (gs : List (FTangent D)) : FTangent D :=
  let k : D := 1 / (gs.length : D)
  let l2 := (fsum gs).scale k
  let tstd := gs.foldl (fun s g => s + fnorm g.translation) 0 * k
  let rstd := gs.foldl (fun s g => s + fnorm g.rotation) 0 * k
  (l2.scaleTranslation (finiteOrZero (fnorm l2.translation / tstd))).scaleRotation
    (finiteOrZero (fnorm l2.rotation / rstd))

/-- three_view_optimizer.rs 219-254. -/
def fthreeStepAdaptive (os : List (FBearings D)) (p : Iso D × Iso D) : Iso D × Iso D :=
  fmovePoses p (fadaptiveStep (ffirstGradients p os)) (fadaptiveStep (fsecondGradients p os))

/-- three_view_optimizer.rs 203-272 `three_view_adaptive_optimize_l2`. -/
def fthreeViewAdaptive (poses : Iso D × Iso D) (n : Nat) (os : List (FBearings D)) : Iso D × Iso D :=
  if os.isEmpty then poses
  else finvPoses ((List.replicate n ()).foldl (fun p _ => fthreeStepAdaptive os p) (finvPoses poses))

end Verif.Geo.Rounded
