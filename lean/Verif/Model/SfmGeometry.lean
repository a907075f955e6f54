import Verif.Model.SfmHistory
import Verif.Model.Pose

/-!
# cv-sfm: robust landmarks, normalising and exporting a reconstruction

Source: /repo/cv-sfm/src/lib.rs and export.rs. Poses are isometries over the real numbers. `none` stands for a panic.
-/

namespace Verif.Sfm

open Verif.Geo

/-- What these functions use of the frames and the settings, and the triangulator. A `Normal` homogeneous vector stands
for a `WorldPoint`. -/
structure World (C : Type) where
  /-- lib.rs 235-237 `bearing` of a feature of a frame. -/
  bearing : Nat → Nat → Option (V3 ℝ)
  /-- lib.rs 243-245 `color` of a feature of a frame. -/
  colour : Nat → Nat → Option C
  /-- lib.rs `triangulate_pose_bearings`: the triangulator given by the user. -/
  triangulate : List (Iso ℝ × V3 ℝ) → Option (V4 ℝ)
  /-- `settings.robust_minimum_observations`. -/
  minObservations : Nat
  /-- `settings.robust_observation_incidence_minimum_cosine_distance`. -/
  minCosine : ℝ

variable {C : Type}

/-- `tuple_combinations` of pairs. -/
def combinations {α : Type _} : List α → List (α × α)
  | [] => []
  | a :: l => l.map (fun b => (a, b)) ++ combinations l

/-- lib.rs 2894-2904 `is_bi_observation_angularly_robust`. -/
noncomputable def angularlyRobust (W : World C) (a b : V3 ℝ) : Bool := decide (1 - a.dot b > W.minCosine)

/-- lib.rs 293-302 `observation_bearing` and the pose of the view. -/
def poseBearing (W : World C) (R : Recon (Iso ℝ)) (o : Nat × Nat) : Option (Iso ℝ × V3 ℝ) := do
  let V ← R.views.get o.1
  let b ← W.bearing V.frame o.2
  pure (V.pose, b)

/-- lib.rs 2907-2937 `are_observations_robust`. The program stops computing bearings at the first pair found; here all
are computed, so that the model panics whenever the program could. -/
noncomputable def areObservationsRobust (W : World C) (R : Recon (Iso ℝ)) (obs : List (Nat × Nat)) : Option Bool := do
  let pbs ← obs.mapM (poseBearing W R)
  pure (decide (min W.minObservations R.views.size ≤ obs.length) &&
    (combinations (pbs.map (fun p => p.1.inv.rot.mulVec p.2))).any (fun p => angularlyRobust W p.1 p.2))

/-- lib.rs 2978-2989 `is_landmark_robust`. -/
noncomputable def isLandmarkRobust (W : World C) (R : Recon (Iso ℝ)) (l : Nat) : Option Bool := do
  let L ← R.landmarks.get l
  areObservationsRobust W R L.entries

/-- lib.rs 2944-2957 `is_merged_landmark_robust`. -/
noncomputable def isMergedRobust (W : World C) (R : Recon (Iso ℝ)) (a b : Nat) : Option Bool := do
  let A ← R.landmarks.get a
  let B ← R.landmarks.get b
  areObservationsRobust W R (A.entries ++ B.entries)

/-- lib.rs 2992-3002 `triangulate_landmark_robust`; `some none` if the landmark is not robust or cannot be
triangulated. -/
noncomputable def triangulateRobust (W : World C) (R : Recon (Iso ℝ)) (l : Nat) : Option (Option (V4 ℝ)) := do
  let L ← R.landmarks.get l
  let robust ← areObservationsRobust W R L.entries
  let pbs ← L.entries.mapM (poseBearing W R)
  pure (if robust then W.triangulate pbs else none)

/-- The distance of a point from a camera; nothing for a point at infinity, and `some none` if it is not a number
(lib.rs 2256 and 2323). -/
noncomputable def distanceFrom (pose : Iso ℝ) (p : V4 ℝ) : Option (Option ℝ) :=
  match transform pose p with
  | none => some none
  | some q => (toPoint q).map (fun x => some x.norm)

/-- The mean of a list of numbers; `none` if there are none or one of them is not a number. -/
noncomputable def meanOf (l : List (Option ℝ)) : Option ℝ :=
  if l = [] then none else (l.mapM id).map (fun l => l.sum / l.length)

/-- lib.rs 2251-2258 and 2316-2325: the mean distance of the robust landmarks of a view. -/
noncomputable def meanDistance (W : World C) (R : Recon (Iso ℝ)) (V : View (Iso ℝ)) : Option (Option ℝ) := do
  let points ← V.landmarks.mapM (triangulateRobust W R)
  pure (meanOf ((points.filterMap id).filterMap (distanceFrom V.pose)))

/-- lib.rs 2241-2283 `normalize_reconstruction`; `first` is the key of the first view. `is_normal` is modelled as not
zero. -/
noncomputable def normalizeReconstruction (W : World C) (R : Recon (Iso ℝ)) (first : Nat) : Option (Recon (Iso ℝ)) := do
  let V ← R.views.get first
  let mean ← meanDistance W R V
  match mean with
  | none => pure R
  | some m =>
    if m = 0 then pure R
    else pure (R.mapPoses (fun p => (p.mul V.pose.inv).scale (1 / m)) (fun p => p.scale (1 / m)))

/-- export.rs 13-18 `ExportCamera`. -/
structure ExportCamera where
  center : V3 ℝ
  up : V3 ℝ
  forward : V3 ℝ
  focal : ℝ

/-- lib.rs 2326-2332. -/
noncomputable def exportCamera (pose : Iso ℝ) (meanDistance : ℝ) : ExportCamera :=
  let c2w := pose.inv
  ⟨c2w.point V3.zero, c2w.rot.mulVec (V3.neg ⟨0, 1, 0⟩), c2w.rot.mulVec ⟨0, 0, 1⟩, meanDistance * 0.01⟩

/-- The content of the exported file: vertices with colours, and triangles if there are faces. -/
structure Mesh (C : Type) where
  vertices : List (V3 ℝ × C)
  faces : List (List ℤ)

/-- `as i32` of an index. -/
def asI32 (n : Nat) : ℤ := (BitVec.ofNat 32 n).toInt

/-- export.rs 62-74 `add_vertex`; the index is the number of vertices before. -/
def Mesh.addVertex (m : Mesh C) (p : V3 ℝ) (c : C) : Mesh C × Nat := ({ m with vertices := m.vertices ++ [(p, c)] }, m.vertices.length)

/-- export.rs 76-85 `add_triangle`. -/
def Mesh.addTriangle (m : Mesh C) (a b c : Nat) : Mesh C :=
  { m with faces := m.faces ++ [[asI32 a, asI32 b, asI32 c]] }

/-- export.rs 96-105: a corner of the picture drawn for a camera. -/
noncomputable def corner (cam : ExportCamera) (up right : ℤ) : V3 ℝ :=
  ((cam.center.add (V3.smul cam.focal cam.forward)).add (V3.smul cam.focal (V3.smul (up : ℝ) cam.up))).add
    (V3.smul cam.focal (V3.smul (right : ℝ) (cam.forward.cross cam.up)))

/-- export.rs 88-113: one camera. -/
noncomputable def addCamera (cameraColor : C) (faces : Bool) (m : Mesh C) (cam : ExportCamera) : Mesh C :=
  let (m, center) := m.addVertex cam.center cameraColor
  let (m, upRight) := m.addVertex (corner cam 1 1) cameraColor
  let (m, upLeft) := m.addVertex (corner cam 1 (-1)) cameraColor
  let (m, downLeft) := m.addVertex (corner cam (-1) (-1)) cameraColor
  let (m, downRight) := m.addVertex (corner cam (-1) 1) cameraColor
  if faces then
    (((m.addTriangle center downRight upRight).addTriangle center upRight upLeft).addTriangle center upLeft
      downLeft).addTriangle center downLeft downRight
  else m

/-- export.rs 20-129 `export` up to the writing of the file. -/
noncomputable def exportMesh (cameraColor : C) (points : List (V3 ℝ × C)) (cameras : List ExportCamera) (faces : Bool) :
    Mesh C :=
  points.foldl (fun m p => (m.addVertex p.1 p.2).1) (cameras.foldl (addCamera cameraColor faces) ⟨[], []⟩)

/-- lib.rs 2291-2308: a landmark with its colour, taken from its first observation. -/
noncomputable def exportPoint (W : World C) (R : Recon (Iso ℝ)) (l : Nat) : Option (Option (V3 ℝ × C)) := do
  let p ← triangulateRobust W R l
  match p.bind toPoint with
  | none => pure none
  | some x =>
    let L ← R.landmarks.get l
    let o ← L.entries.head?
    let V ← R.views.get o.1
    let c ← W.colour V.frame o.2
    pure (some (x, c))

/-- lib.rs 2314-2333: a view. A mean distance that is not a number makes corners that are none; the model has no such
numbers and uses zero for them. -/
noncomputable def exportView (W : World C) (R : Recon (Iso ℝ)) (V : View (Iso ℝ)) : Option ExportCamera := do
  let mean ← meanDistance W R V
  pure (exportCamera V.pose (mean.getD 0))

/-- lib.rs 2285-2340 `export_reconstruction` up to the writing of the file. -/
noncomputable def exportReconstruction (W : World C) (cameraColor : C) (R : Recon (Iso ℝ)) (faces : Bool) :
    Option (Mesh C) := do
  let points ← R.landmarks.keys.mapM (exportPoint W R)
  let cameras ← (R.views.map.entries.map Prod.snd).mapM (exportView W R)
  pure (exportMesh cameraColor (points.filterMap id) cameras faces)

end Verif.Sfm
