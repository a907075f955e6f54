import Verif.Model.Bicubic
import Verif.Model.Descriptor
import Verif.Model.Pinhole

/-!
# cv-sfm: the features of a picture

Source: /repo/cv-sfm/src/lib.rs 2195-2236.  The gray float image (`Model/Load`) and the picture in colour are given; `none`
stands for a panic or an unchecked read outside the picture.
-/

namespace Verif.Sfm

open Verif.Geo

/-- lib.rs 59-65 `Feature`. A bearing whose computation divides by zero is not a number, here `none`. -/
structure Feature where
  bearing : Option (V3 ℝ)
  response : ℝ
  colour : Fin 3 → Nat

/-- lib.rs 2218-2231: one feature, from a keypoint, its descriptor and its colour. -/
noncomputable def makeFeature (camera : IntrinsicsK1) (x : Akaze.KeyPoint × List (BitVec 8) × (Fin 3 → Nat)) :
    List (BitVec 8) × Feature :=
  (x.2.1, ⟨camera.calibrate ⟨x.1.x, x.1.y⟩, x.1.response, x.2.2⟩)

/-- lib.rs 2195-2236 `kps_descriptors`. `sortK` and `sortF` are the two unstable sorts by response. The `maximum_features`
and the threshold are part of the settings `s`. -/
noncomputable def kpsDescriptors (s : Akaze.Settings) (sortK : List Akaze.KeyPoint → List Akaze.KeyPoint)
    (sortF : List (List (BitVec 8) × Feature) → List (List (BitVec 8) × Feature)) (camera : IntrinsicsK1)
    (gray : Akaze.Img ℝ) (picture : Akaze.Img (Fin 3 → Nat)) : Option (List (List (BitVec 8) × Feature)) := do
  let (keypoints, descriptors) ← Akaze.extract s sortK gray
  let colours ← keypoints.mapM (fun k => Bicubic.interpolate Bicubic.u8 picture k.x k.y (fun _ => 0))
  pure (sortF ((keypoints.zip (descriptors.zip colours)).map (makeFeature camera)))

end Verif.Sfm
