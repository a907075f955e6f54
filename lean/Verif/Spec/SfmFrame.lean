import Verif.Model.SfmFrame
import Verif.Model.SfmGeometry
import Verif.Spec.Extract

/-!
# Specification: the features of a picture
-/

namespace Verif.Sfm

open Verif.Geo

/-- Sorting by response, largest first, in some order among equals. -/
structure SortsFeatures (sort : List (List (BitVec 8) × Feature) → List (List (BitVec 8) × Feature)) : Prop where
  perm : ∀ l, (sort l).Perm l
  sorted : ∀ l, (sort l).Pairwise (fun a b => b.2.response ≤ a.2.response)

/-- The entry belongs to this keypoint with this descriptor. -/
structure FeatureOf (camera : IntrinsicsK1) (picture : Akaze.Img (Fin 3 → Nat)) (k : Akaze.KeyPoint)
    (d : List (BitVec 8)) (e : List (BitVec 8) × Feature) : Prop where
  descriptor : e.1 = d
  response : e.2.response = k.response
  bearing : e.2.bearing = camera.calibrate ⟨k.x, k.y⟩
  colour : Bicubic.interpolate Bicubic.u8 picture k.x k.y (fun _ => 0) = some e.2.colour

/-- A camera that can be used: focal lengths are not zero, and there is no distortion or a positive one. -/
structure Usable (camera : IntrinsicsK1) : Prop where
  x : camera.simple.focals.x ≠ 0
  y : camera.simple.focals.y ≠ 0
  k1 : 0 ≤ camera.k1

/-- What a usable camera makes of some point of its picture. -/
def Calibrated (b : Option (V3 ℝ)) : Prop := ∃ camera p, Usable camera ∧ b = camera.calibrate p

/-- The bearings are those of features of pictures, and every feature of a frame has one. -/
structure World.FromPictures {C P : Type} (W : World C) (d : Data P) : Prop where
  bearing : ∀ f n b, W.bearing f n = some b → Calibrated (some b)
  every : ∀ f F, d.frames.get f = some F → ∀ n, n < F.nfeat → Calibrated (W.bearing f n)

end Verif.Sfm
