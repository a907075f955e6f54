import Verif.Model.SfmGeometry
import Verif.Spec.Sfm

/-!
# Specification: robust observations, normal form and exported meshes
-/

namespace Verif.Sfm

open Verif.Geo

variable {C : Type}

/-- The camera of the observation sees its feature in the direction `v` of the world. -/
def SeenAlong (W : World C) (R : Recon (Iso ℝ)) (o : Nat × Nat) (v : V3 ℝ) : Prop :=
  ∃ V, R.views.get o.1 = some V ∧ W.bearing V.frame o.2 = some (V.pose.rot.mulVec v)

/-- Enough observations, two of which come from sufficiently different directions. -/
def Robust (W : World C) (R : Recon (Iso ℝ)) (obs : List (Nat × Nat)) : Prop :=
  (W.minObservations ≤ obs.length ∨ R.views.size ≤ obs.length) ∧
    ∃ o ∈ obs, ∃ o' ∈ obs, ∃ v v', SeenAlong W R o v ∧ SeenAlong W R o' v' ∧ 1 - v.dot v' > W.minCosine

/-- All poses are rotations with a translation. -/
def RigidPoses (R : Recon (Iso ℝ)) : Prop := ∀ v V, R.views.get v = some V → V.pose.Rigid

/-- Bearings are unit vectors. -/
def UnitBearings (W : World C) : Prop := ∀ f n b, W.bearing f n = some b → b.normSq = 1

/-- The observation exists: its view is there and the frame has the feature. -/
def HasBearing (W : World C) (R : Recon (Iso ℝ)) (o : Nat × Nat) : Prop :=
  ∃ V b, R.views.get o.1 = some V ∧ W.bearing V.frame o.2 = some b

/-- Frames have bearings and colours of all the features of their views. -/
def FramesComplete (W : World C) (R : Recon (Iso ℝ)) : Prop :=
  ∀ v V f, R.views.get v = some V → f < V.landmarks.length →
    (∃ b, W.bearing V.frame f = some b) ∧ ∃ c, W.colour V.frame f = some c

/-- The motion from the space of one camera to that of another. -/
def relativePose (a b : View (Iso ℝ)) : Iso ℝ := b.pose.mul a.pose.inv

/-- The constraint holds for the poses of the cameras. -/
def Recon.Fulfils (R : Recon (Iso ℝ)) (c : Constraint (Iso ℝ)) : Prop :=
  ∃ V0 V1 V2, R.views.get c.v0 = some V0 ∧ R.views.get c.v1 = some V1 ∧ R.views.get c.v2 = some V2 ∧
    c.first = relativePose V0 V1 ∧ c.second = relativePose V0 V2

/-- What normalising should do to a reconstruction: with one scale `s`, the first view goes to the origin and all motions
between views and in constraints keep their rotation while their translation is multiplied by `s`. -/
structure NormalForm (R R' : Recon (Iso ℝ)) (first : Nat) (s : ℝ) : Prop where
  positive : 0 < s
  origin : ∃ V, R'.views.get first = some V ∧ V.pose = Iso.one
  sameViews : ∀ v, R'.LiveView v ↔ R.LiveView v
  view : ∀ v V V', R.views.get v = some V → R'.views.get v = some V' → V'.frame = V.frame ∧ V'.landmarks = V.landmarks
  relative : ∀ u v U V U' V', R.views.get u = some U → R.views.get v = some V → R'.views.get u = some U' →
    R'.views.get v = some V' → relativePose U' V' = (relativePose U V).scale s
  rigid : RigidPoses R'
  landmarks : R'.landmarks = R.landmarks
  constraints : ∀ k c', R'.constraints.get k = some c' ↔ ∃ c, R.constraints.get k = some c ∧
    c' = ⟨c.v0, c.v1, c.v2, c.first.scale s, c.second.scale s⟩
  fulfilled : ∀ k c c', R.constraints.get k = some c → R'.constraints.get k = some c' → R.Fulfils c → R'.Fulfils c'

/-- The second point is the first one after the motion `T` and the change of scale `s`. The origin cannot be represented
as a direction with a reciprocal distance, so nothing is asked of a point that is moved there. -/
def Follows (T : Iso ℝ) (s : ℝ) : Option (V4 ℝ) → Option (V4 ℝ) → Prop
  | none, y => y = none
  | some x, y => (∃ p, toPoint x = some p ∧ T.point p = V3.zero) ∨
    ∃ z, y = some z ∧ z.xyz.normSq = 1 ∧ 0 ≤ z.w ∧ toPoint z = (toPoint x).map (fun p => V3.smul s (T.point p))

/-- When the world is moved so that the camera of the view is at the origin and scaled by `s`, the triangulator finds the
moved points of the landmarks of that view. -/
def TriangulatorFollows (W : World C) (R : Recon (Iso ℝ)) (V : View (Iso ℝ)) (s : ℝ) : Prop :=
  ∀ l ∈ V.landmarks, ∀ L r, R.landmarks.get l = some L → L.entries.mapM (poseBearing W R) = some r →
    Follows V.pose s (W.triangulate r) (W.triangulate (r.map (fun p => ((p.1.mul V.pose.inv).scale s, p.2))))

end Verif.Sfm
