import Verif.Model.Pinhole

/-!
# cv-geom: triangulation and epipolar gradients

Sources: /repo/cv-geom/src/triangulation.rs and /repo/cv-geom/src/epipolar.rs.  Exact reals; `none`
stands both for the `None` of the code and for a result that is not finite (which the code filters
to `None`, except where said).  `is_sign_positive` is `0 ≤ x` (no negative zero).  Multiplying an
isometry with a unit vector only rotates it (nalgebra).
-/

namespace Verif.Geo

/-! ## Two views, in the frame of one of them -/

/-- triangulation.rs 493-514 and the same text at epipolar.rs 17-38: algorithms 12 and 13 of the
paper; the bearing that is less perpendicular to the translation is moved into the plane of the
other. `none`: NaN. -/
noncomputable def correctL1 (t a b : V3 ℝ) : Option (V3 ℝ × V3 ℝ) :=
  let ca := a.cross t
  let cb := b.cross t
  if ca.norm < cb.norm then do
    let nb ← cb.normalize
    let a' ← (a.sub (V3.smul (a.dot nb) nb)).normalize
    pure (a', b)
  else do
    let na ← ca.normalize
    let b' ← (b.sub (V3.smul (b.dot na) na)).normalize
    pure (a, b')

/-- triangulation.rs 579-590: the plane that minimises the larger angle. -/
noncomputable def correctLInf (t a b : V3 ℝ) : Option (V3 ℝ × V3 ℝ) :=
  let na := (a.add b).cross t
  let nb := (a.sub b).cross t
  do
    let n ← if nb.normSq < na.normSq then na.normalize else nb.normalize
    let a' ← (a.sub (V3.smul (a.dot n) n)).normalize
    let b' ← (b.sub (V3.smul (b.dot n) n)).normalize
    pure (a', b')

/-- triangulation.rs 516-528, 592-604; with the names exchanged epipolar.rs 40-51: the point on the
ray of `b` at the intersection, `t` the centre of the camera of `a` seen from that of `b`. -/
noncomputable def meet (t a b : V3 ℝ) : Option (V4 ℝ) := do
  let z := b.cross a
  let w ← cdiv z.normSq (z.dot (t.cross a))
  let p ← fromHomogeneous ⟨b.x, b.y, b.z, w⟩
  if 0 ≤ (bearing p).dot a ∧ 0 ≤ (bearing p).dot b then some p else none

/-- triangulation.rs 472-530 `AngularL1Triangulator::triangulate_relative`. -/
noncomputable def angularL1 (pose : Iso ℝ) (a b : V3 ℝ) : Option (V4 ℝ) := do
  let rel := pose.inv
  let a' := rel.rot.mulVec b
  let n ← rel.t.normalize
  let (a'', b'') ← correctL1 n a' a
  meet rel.t a'' b''

/-- triangulation.rs 558-606 `AngularLInfinityTriangulator::triangulate_relative`. -/
noncomputable def angularLInf (pose : Iso ℝ) (a b : V3 ℝ) : Option (V4 ℝ) := do
  let rel := pose.inv
  let a' := rel.rot.mulVec b
  let n ← rel.t.normalize
  let (a'', b'') ← correctLInf n a' a
  meet rel.t a'' b''

/-- epipolar.rs 9-53 `two_view_same_space_triangulate_sine_l1`: the point in the frame of `a`. -/
noncomputable def sineL1SameSpace (t a b : V3 ℝ) : Option (V3 ℝ) := do
  let (a', b') ← correctL1 t a b
  let p ← meet t b' a'
  toPoint p

/-! ## Gradients -/

/-- cv-core/src/so3.rs 23-34 `Se3TangentSpace::new`: a part that is not a number becomes zero. -/
def Tangent.new (t r : Option (V3 ℝ)) : Tangent := ⟨t.getD V3.zero, r.getD V3.zero⟩

/-- epipolar.rs 56-71 `two_view_rotation_gradient`. -/
noncomputable def rotationGradient (t a b : V3 ℝ) : Option (V3 ℝ) := do
  let nb ← (b.cross t).normalize
  let na ← (a.cross t).normalize
  pure (nb.cross na)

/-- epipolar.rs 119-127, 128-136, 138-147: from the triangulated point to its projection on `b`. -/
def awayFrom (p b : V3 ℝ) : V3 ℝ := p.sub (V3.smul (p.dot b) b)

/-- epipolar.rs 85-166 `three_view_gradients`. -/
noncomputable def threeViewGradients (c f ftoc s stoc : V3 ℝ) : Tangent × Tangent :=
  let stof := stoc.sub ftoc
  let rotCf := rotationGradient ftoc c f
  let rotCs := rotationGradient stoc c s
  let rotFs := rotationGradient stof f s
  let firstRotation := do
    let x ← rotCf
    let y ← rotFs
    pure ((V3.smul (2 / 3) x).add (V3.smul (1 / 3) y.neg))
  let secondRotation := do
    let x ← rotCs
    let y ← rotFs
    pure ((V3.smul (2 / 3) x).add (V3.smul (1 / 3) y))
  let transF := ((sineL1SameSpace stoc.neg c s).map (fun p => awayFrom (p.sub ftoc) f)).getD V3.zero
  let transS := ((sineL1SameSpace ftoc.neg c f).map (fun p => awayFrom (p.sub stoc) s)).getD V3.zero
  let transC := ((sineL1SameSpace stof.neg f s).map (fun p => (awayFrom (p.add ftoc) c).neg)).getD V3.zero
  (Tangent.new (some ((V3.smul (2 / 3) transF).add (V3.smul (1 / 3) transC))) firstRotation,
   Tangent.new (some ((V3.smul (2 / 3) transS).add (V3.smul (1 / 3) transC))) secondRotation)

/-- epipolar.rs 174-179 `point_gradient`. -/
@[lin] def pointGradient (t b : V3 ℝ) : V3 ℝ := t.sub (V3.smul (t.dot b) b)

/-- epipolar.rs 188-193 `world_pose_gradient`. -/
noncomputable def worldPoseGradient (t b : V3 ℝ) : Tangent :=
  Tangent.new (some ((V3.smul (t.dot b) b).sub t)) (t.normalize.map (fun n => n.cross b))

/-- epipolar.rs 197-233 `loss`. A residual that is not a number counts as 1. -/
noncomputable def epipolarLoss (t a b : V3 ℝ) : ℝ :=
  let ca := a.cross t
  let cb := b.cross t
  let residual :=
    if ca.normSq < cb.normSq then (cdiv 1 (Real.sqrt cb.normSq)).map (fun r => |a.dot (V3.smul r cb)|)
    else (cdiv 1 (Real.sqrt ca.normSq)).map (fun r => |b.dot (V3.smul r ca)|)
  match residual with
  | none => 1
  | some r => if a.dot b < 0 then 1 else r

/-! ## Many views -/

/-- An observation: world to camera pose and bearing. -/
structure Observation where
  pose : Iso ℝ
  bearing : V3 ℝ

/-- triangulation.rs 123-125: the bearing in the world. -/
@[lin] def Observation.ray (o : Observation) : V3 ℝ := o.pose.inv.rot.mulVec o.bearing

/-- The optical centre: translation of the inverse pose. -/
@[lin] def Observation.centre (o : Observation) : V3 ℝ := o.pose.inv.t

/-- A 4×4 matrix by rows. -/
@[ext] structure M4 where
  r1 : V4 ℝ
  r2 : V4 ℝ
  r3 : V4 ℝ
  r4 : V4 ℝ

@[lin] def M4.zero : M4 := ⟨⟨0, 0, 0, 0⟩, ⟨0, 0, 0, 0⟩, ⟨0, 0, 0, 0⟩, ⟨0, 0, 0, 0⟩⟩
@[lin] def M4.add (A B : M4) : M4 := ⟨A.r1.add B.r1, A.r2.add B.r2, A.r3.add B.r3, A.r4.add B.r4⟩
@[lin] def M4.mulVec (A : M4) (v : V4 ℝ) : V4 ℝ := ⟨A.r1.dot v, A.r2.dot v, A.r3.dot v, A.r4.dot v⟩
/-- `v vᵀ`. -/
@[lin] def M4.outer (v : V4 ℝ) : M4 := ⟨V4.smul v.x v, V4.smul v.y v, V4.smul v.z v, V4.smul v.w v⟩

/-- triangulation.rs 94-102: the pose as a 3×4 matrix, its rows. -/
@[lin] def poseRow1 (p : Iso ℝ) : V4 ℝ := ⟨p.rot.m11, p.rot.m12, p.rot.m13, p.t.x⟩
@[lin] def poseRow2 (p : Iso ℝ) : V4 ℝ := ⟨p.rot.m21, p.rot.m22, p.rot.m23, p.t.y⟩
@[lin] def poseRow3 (p : Iso ℝ) : V4 ℝ := ⟨p.rot.m31, p.rot.m32, p.rot.m33, p.t.z⟩

/-- triangulation.rs 104: `bearingᵀ pose`. -/
@[lin] def alongRow (o : Observation) : V4 ℝ :=
  ((V4.smul o.bearing.x (poseRow1 o.pose)).add (V4.smul o.bearing.y (poseRow2 o.pose))).add
    (V4.smul o.bearing.z (poseRow3 o.pose))

/-- triangulation.rs 104-105: `termᵀ term` for `term = pose - bearing bearingᵀ pose`. -/
@[lin] def termSquare (o : Observation) : M4 :=
  ((M4.outer ((poseRow1 o.pose).sub (V4.smul o.bearing.x (alongRow o)))).add
    (M4.outer ((poseRow2 o.pose).sub (V4.smul o.bearing.y (alongRow o))))).add
    (M4.outer ((poseRow3 o.pose).sub (V4.smul o.bearing.z (alongRow o))))

/-- triangulation.rs 91-106: the matrix `a`. -/
def linearSystem (os : List Observation) : M4 := os.foldl (fun A o => A.add (termSquare o)) M4.zero

/-- A result of `try_symmetric_eigen` on a 4×4 matrix. -/
structure Eigen4 where
  vals : Fin 4 → ℝ
  vecs : Fin 4 → V4 ℝ

/-- triangulation.rs 110-115: `min_by_key`, the first minimum. -/
noncomputable def least4 (vals : Fin 4 → ℝ) : Fin 4 :=
  [1, 2, 3].foldl (fun best i => if vals i < vals best then i else best) 0

/-- triangulation.rs 121-128 (and 433-440 in `MeanMeanTriangulator`, see Model/MeanMean): the cheirality test. -/
def cheiral (os : List Observation) (p : V4 ℝ) : Prop := ∀ o ∈ os, 0 ≤ o.ray.dot (bearing p)

open Classical in
/-- triangulation.rs 82-130 `LinearEigenTriangulator::triangulate_observations`; the eigenvalue solver
is a parameter. -/
noncomputable def linearEigen (solver : M4 → Option Eigen4) (os : List Observation) : Option (V4 ℝ) :=
  if os.length < 2 then none
  else do
    let e ← solver (linearSystem os)
    let p ← fromHomogeneous (e.vecs (least4 e.vals))
    if cheiral os p then some p else none

/-- triangulation.rs 246-265: the sum of the gradients, scaled. -/
noncomputable def refineDelta (rate : ℝ) (os : List Observation) (x : V3 ℝ) : V3 ℝ :=
  V3.smul (rate / os.length)
    (os.foldl (fun s o => s.add (pointGradient (o.centre.sub x) o.ray)) V3.zero)

/-- triangulation.rs 248-272: the refinement loop. `delta² / point²` is not a number if both are zero,
then the loop goes on (with zero steps). -/
noncomputable def refinePoint (rate eps : ℝ) (os : List Observation) : Nat → V3 ℝ → V3 ℝ
  | 0, x => x
  | n + 1, x =>
    let d := refineDelta rate os x
    let x' := x.add d
    match cdiv d.normSq x'.normSq with
    | some q => if q < eps * eps then x' else refinePoint rate eps os n x'
    | none => refinePoint rate eps os n x'

/-- triangulation.rs 228-276 `SineL1Triangulator::triangulate_observations`. -/
noncomputable def sineL1 (solver : M4 → Option Eigen4) (rate eps : ℝ) (iterations : Nat)
    (os : List Observation) : Option (V4 ℝ) := do
  let p ← linearEigen solver os
  match toPoint p with
  | none => some p
  | some x => fromPoint (refinePoint rate eps os iterations x)

/-- triangulation.rs 329-342: the rows of the design matrix. -/
@[lin] def dltRow1 (a : V3 ℝ) : V4 ℝ := ⟨-a.z, 0, a.x, 0⟩
@[lin] def dltRow2 (a : V3 ℝ) : V4 ℝ := ⟨0, -a.z, a.y, 0⟩
@[lin] def dltRow3 (pose : Iso ℝ) (b : V3 ℝ) : V4 ℝ :=
  (V4.smul b.x (poseRow3 pose)).sub (V4.smul b.z (poseRow1 pose))
@[lin] def dltRow4 (pose : Iso ℝ) (b : V3 ℝ) : V4 ℝ :=
  (V4.smul b.y (poseRow3 pose)).sub (V4.smul b.z (poseRow2 pose))
@[lin] def dltDesign (pose : Iso ℝ) (a b : V3 ℝ) : M4 :=
  ⟨dltRow1 a, dltRow2 a, dltRow3 pose b, dltRow4 pose b⟩

/-- triangulation.rs 322-363 `RelativeDltTriangulator::triangulate_relative`; the singular value
decomposition is a parameter that gives the last right singular vector. -/
noncomputable def relativeDlt (last : M4 → Option (V4 ℝ)) (pose : Iso ℝ) (a b : V3 ℝ) : Option (V4 ℝ) := do
  let v ← last (dltDesign pose a b)
  let p ← fromHomogeneous v
  if 0 ≤ (bearing p).dot a ∧ 0 ≤ (bearing p).dot (pose.inv.rot.mulVec b) then some p else none

/-- cv-core/src/triangulation.rs 21-36 and 52-67: the multi-view triangulator used for two views. -/
def relativeObservations (pose : Iso ℝ) (a b : V3 ℝ) : List Observation :=
  [⟨Iso.one, a⟩, ⟨pose, b⟩]

end Verif.Geo
