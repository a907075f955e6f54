import Verif.Model.FloatTwist
import Verif.Model.Triangulate

/-!
# cv-geom with floating point numbers

Sources: /repo/cv-geom/src/epipolar.rs, /repo/cv-geom/src/triangulation.rs, /repo/cv-core/src/point.rs,
/repo/cv-core/src/so3.rs. The model of `Triangulate.lean` with the operations of `f64`, so that every value may be NaN or
infinite. The eigenvalue and singular value decompositions of nalgebra are parameters. The sums of nalgebra (`dot`,
`norm_squared`, products with matrices) are taken from the first to the last term. Nothing is assumed about the
signs of zero and of NaN.
-/

namespace Verif.Akaze

open Verif.Bicubic (Flt)

/-- `is_finite`, `is_nan` and `is_sign_negative` of `f64`. -/
class FloatBits (F : Type) where
  isFinite : F → Bool
  isNan : F → Bool
  isSignNegative : F → Bool

/-- What is assumed of these. -/
structure IeeeBits {F : Type} [FloatOps F] [FloatBits F] (J : Ieee F) : Prop where
  isFinite : ∀ a : F, FloatBits.isFinite a = true ↔ ∃ x, J.val a = .num x
  isNan : ∀ a : F, FloatBits.isNan a = true ↔ J.val a = .nan
  sign_num : ∀ (a : F) (x : ℝ), J.val a = .num x → x ≠ 0 → (FloatBits.isSignNegative a = true ↔ x < 0)
  sign_inf : ∀ (a : F) (s : Bool), J.val a = .inf s → FloatBits.isSignNegative a = s

end Verif.Akaze

namespace Verif.Geo.Rounded

open Verif.Akaze (FloatOps FloatBits)
open Verif.Akaze.FloatOps (lit lt le abs sqrt)
open Verif.Akaze.FloatBits (isFinite isNan isSignNegative)
open P3P (fsub fsmul fdot fcross fmulVec fpoint)

variable {D : Type} [FloatOps D] [FloatBits D]

/-- `0.0` three times: `Vector3::zeros()`. -/
def fzero : V3 D := ⟨0, 0, 0⟩
/-- nalgebra: `a + b`. -/
def fadd (a b : V3 D) : V3 D := ⟨a.x + b.x, a.y + b.y, a.z + b.z⟩
/-- nalgebra: `-a`. -/
def fneg (a : V3 D) : V3 D := ⟨-a.x, -a.y, -a.z⟩
/-- nalgebra: `a / s`, `a.unscale(s)`. -/
def funscale (a : V3 D) (s : D) : V3 D := ⟨a.x / s, a.y / s, a.z / s⟩
/-- nalgebra: `norm_squared`. -/
def fnormSq (a : V3 D) : D := fdot a a
/-- nalgebra: `norm`. -/
def fnorm (a : V3 D) : D := sqrt (fnormSq a)
/-- nalgebra: `normalize`, `UnitVector3::new_normalize`. -/
def fnormalize (a : V3 D) : V3 D := funscale a (fnorm a)
/-- nalgebra: the inverse of an isometry. -/
def finv (p : Iso D) : Iso D :=
  ⟨⟨p.rot.m11, p.rot.m21, p.rot.m31, p.rot.m12, p.rot.m22, p.rot.m32, p.rot.m13, p.rot.m23, p.rot.m33⟩,
    fmulVec ⟨p.rot.m11, p.rot.m21, p.rot.m31, p.rot.m12, p.rot.m22, p.rot.m32, p.rot.m13, p.rot.m23, p.rot.m33⟩
      (fneg p.t)⟩

/-- `is_sign_positive`. -/
def isSignPositive (a : D) : Bool := !isSignNegative a

/-- point.rs 20-25 `from_homogeneous`. -/
def fhomogeneous (p : V4 D) : V4 D :=
  let q := if isSignNegative p.w then (⟨-p.x, -p.y, -p.z, -p.w⟩ : V4 D) else p
  let n := fnorm ⟨q.x, q.y, q.z⟩
  ⟨q.x / n, q.y / n, q.z / n, q.w / n⟩

/-- point.rs 47-49 `bearing`. -/
def fbearing (p : V4 D) : V3 D := ⟨p.x, p.y, p.z⟩

/-- point.rs 42-44 `from_point`. -/
def ffromPoint (p : V3 D) : V4 D := fhomogeneous ⟨p.x, p.y, p.z, 1⟩

/-- triangulation.rs 117-119 and the same text elsewhere: no NaN, no infinity. -/
def allFinite (p : V4 D) : Bool := isFinite p.x && isFinite p.y && isFinite p.z && isFinite p.w

/-- triangulation.rs 493-514, epipolar.rs 17-38. -/
def fcorrectL1 (t a b : V3 D) : V3 D × V3 D :=
  let ca := fcross a t
  let na := funscale ca (fnorm ca)
  let cb := fcross b t
  let nb := funscale cb (fnorm cb)
  if lt (fnorm ca) (fnorm cb) then (fnormalize (fsub a (fsmul (fdot a nb) nb)), b)
  else (a, fnormalize (fsub b (fsmul (fdot b na) na)))

/-- triangulation.rs 579-590. -/
def fcorrectLInf (t a b : V3 D) : V3 D × V3 D :=
  let na := fcross (fadd a b) t
  let nb := fcross (fsub a b) t
  let n := if lt (fnormSq nb) (fnormSq na) then funscale na (sqrt (fnormSq na)) else funscale nb (sqrt (fnormSq nb))
  (fnormalize (fsub a (fsmul (fdot a n) n)), fnormalize (fsub b (fsmul (fdot b n) n)))

/-- triangulation.rs 516-529, 592-605; with the names exchanged epipolar.rs 40-51. -/
def fmeet (t a b : V3 D) : Option (V4 D) :=
  let z := fcross b a
  let p := fhomogeneous ⟨b.x, b.y, b.z, fnormSq z / fdot z (fcross t a)⟩
  if allFinite p then
    if isSignPositive (fdot (fbearing p) a) && isSignPositive (fdot (fbearing p) b) then some p else none
  else none

/-- triangulation.rs 472-530 `AngularL1Triangulator::triangulate_relative`. -/
def fangularL1 (pose : Iso D) (a b : V3 D) : Option (V4 D) :=
  let rel := finv pose
  let c := fcorrectL1 (fnormalize rel.t) (fmulVec rel.rot b) a
  fmeet rel.t c.1 c.2

/-- triangulation.rs 558-606 `AngularLInfinityTriangulator::triangulate_relative`. -/
def fangularLInf (pose : Iso D) (a b : V3 D) : Option (V4 D) :=
  let rel := finv pose
  let c := fcorrectLInf (fnormalize rel.t) (fmulVec rel.rot b) a
  fmeet rel.t c.1 c.2

/-- epipolar.rs 9-53 `two_view_same_space_triangulate_sine_l1`. -/
def fsameSpace (t a b : V3 D) : Option (V3 D) :=
  let c := fcorrectL1 t a b
  (fmeet t c.2 c.1).bind fpoint

/-- so3.rs 15-19 `Se3TangentSpace`. -/
structure FTangent (D : Type) where
  translation : V3 D
  rotation : V3 D

/-- so3.rs 24-29: zero if one of the coordinates is NaN. -/
def orZero (v : V3 D) : V3 D := if isNan v.x || isNan v.y || isNan v.z then fzero else v

/-- so3.rs 23-34 `Se3TangentSpace::new`. -/
def FTangent.new (t r : V3 D) : FTangent D := ⟨orZero t, orZero r⟩

/-- epipolar.rs 56-71 `two_view_rotation_gradient`. -/
def frotationGradient (t a b : V3 D) : V3 D := fcross (fnormalize (fcross b t)) (fnormalize (fcross a t))

/-- epipolar.rs 119-127, 128-136, 138-147. -/
def fawayFrom (p b : V3 D) : V3 D := fsub p (fsmul (fdot p b) b)

/-- epipolar.rs 85-166 `three_view_gradients`. -/
def fthreeViewGradients (c f ftoc s stoc : V3 D) : FTangent D × FTangent D :=
  let stof := fsub stoc ftoc
  let rotCf := frotationGradient ftoc c f
  let rotCs := frotationGradient stoc c s
  let rotFs := frotationGradient stof f s
  let rotSf := fneg rotFs
  let third : D := 1 / 3
  let twoThirds : D := 2 / 3
  let firstRotation := fadd (fsmul twoThirds rotCf) (fsmul third rotSf)
  let secondRotation := fadd (fsmul twoThirds rotCs) (fsmul third rotFs)
  let transF := ((fsameSpace (fneg stoc) c s).map fun p => fawayFrom (fsub p ftoc) f).getD fzero
  let transS := ((fsameSpace (fneg ftoc) c f).map fun p => fawayFrom (fsub p stoc) s).getD fzero
  let transC := ((fsameSpace (fneg stof) f s).map fun p =>
    let q := fadd p ftoc
    fsub (fsmul (fdot q c) c) q).getD fzero
  (FTangent.new (fadd (fsmul twoThirds transF) (fsmul third transC)) firstRotation,
   FTangent.new (fadd (fsmul twoThirds transS) (fsmul third transC)) secondRotation)

/-- epipolar.rs 174-179 `point_gradient`. -/
def fpointGradient (t b : V3 D) : V3 D := fsub t (fsmul (fdot t b) b)

/-- epipolar.rs 188-193 `world_pose_gradient`. -/
def fworldPoseGradient (t b : V3 D) : FTangent D :=
  FTangent.new (fsub (fsmul (fdot t b) b) t) (fcross (fnormalize t) b)

/-- epipolar.rs 197-233 `loss`. -/
def floss (t a b : V3 D) : D :=
  let ca := fcross a t
  let cb := fcross b t
  let residual :=
    if lt (fnormSq ca) (fnormSq cb) then abs (fdot a (fsmul (1 / sqrt (fnormSq cb)) cb))
    else abs (fdot b (fsmul (1 / sqrt (fnormSq ca)) ca))
  if isNan residual || isSignNegative (fdot a b) then 1 else residual

/-- An observation: world to camera pose and bearing. -/
structure FObservation (D : Type) where
  pose : Iso D
  bearing : V3 D

/-- triangulation.rs 123-125. -/
def FObservation.ray (o : FObservation D) : V3 D := fmulVec (finv o.pose).rot o.bearing
/-- triangulation.rs 257. -/
def FObservation.centre (o : FObservation D) : V3 D := (finv o.pose).t

/-- triangulation.rs 121-128, 433-440. -/
def fcheiral (os : List (FObservation D)) (p : V4 D) : Bool :=
  os.all fun o => isSignPositive (fdot o.ray (fbearing p))

/-- triangulation.rs 82-130 `LinearEigenTriangulator::triangulate_observations`: `vector` is the eigenvector of the least
eigenvalue of the matrix built from the observations, or nothing. -/
def flinearEigen (vector : List (FObservation D) → Option (V4 D)) (os : List (FObservation D)) : Option (V4 D) :=
  if os.length < 2 then none
  else do
    let v ← vector os
    let p := fhomogeneous v
    if allFinite p then if fcheiral os p then some p else none else none

/-- triangulation.rs 246-265. The sum starts with zero. -/
def frefineDelta (scale : D) (os : List (FObservation D)) (x : V3 D) : V3 D :=
  fsmul scale (os.foldl (fun s o => fadd s (fpointGradient (fsub o.centre x) o.ray)) fzero)

/-- triangulation.rs 248-272. -/
def frefinePoint (scale eps : D) (os : List (FObservation D)) : Nat → V3 D → V3 D
  | 0, x => x
  | n + 1, x =>
    let d := frefineDelta scale os x
    let x' := fadd x d
    if lt (fnormSq d / fnormSq x') (eps * eps) then x' else frefinePoint scale eps os n x'

/-- triangulation.rs 228-276 `SineL1Triangulator::triangulate_observations`. -/
def fsineL1 (vector : List (FObservation D) → Option (V4 D)) (rate eps : D) (iterations : Nat)
    (os : List (FObservation D)) : Option (V4 D) := do
  let p ← flinearEigen vector os
  match fpoint p with
  | none => some p
  | some x => some (ffromPoint (frefinePoint (rate / (os.length : D)) eps os iterations x))

/-- triangulation.rs 322-363 `RelativeDltTriangulator::triangulate_relative`: `last` is the last right singular vector of
the design matrix of the pose and the bearings, or nothing. -/
def frelativeDlt (last : Iso D → V3 D → V3 D → Option (V4 D)) (pose : Iso D) (a b : V3 D) : Option (V4 D) := do
  let v ← last pose a b
  let p := fhomogeneous v
  if allFinite p then
    if isSignPositive (fdot (fbearing p) a) && isSignPositive (fdot (fbearing p) (fmulVec (finv pose).rot b)) then some p
    else none
  else none

/-- triangulation.rs 408-420. -/
def fnearestAlong (centre m : V3 D) (o : FObservation D) : D :=
  let trans := fsub centre o.centre
  let q := fcross m o.ray
  fdot (fsmul (1 / fnormSq q) q) (fcross o.ray trans)

/-- triangulation.rs 389-443 `MeanMeanTriangulator::triangulate_observations`. -/
def fmeanMean (os : List (FObservation D)) : Option (V4 D) :=
  let total : D := os.length
  let centre := funscale (os.foldl (fun s o => fadd s o.centre) fzero) total
  let m := fnormalize (os.foldl (fun s o => fadd s o.ray) fzero)
  let distance := os.foldl (fun s o => s + fnearestAlong centre m o) 0 / total
  let w := 1 / distance
  let v := fadd m (fsmul w centre)
  let p := fhomogeneous ⟨v.x, v.y, v.z, w⟩
  if allFinite p then if fcheiral os p then some p else none else none

end Verif.Geo.Rounded
