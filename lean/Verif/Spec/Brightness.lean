import Verif.Model.Descriptor

/-!
# Specification: a change of brightness and contrast
-/

namespace Verif.Akaze

/-- The image with every pixel `v` replaced by `a * v + b`. -/
noncomputable def relight (a b : ℝ) (i : Img ℝ) : Img ℝ := ⟨i.w, i.h, i.data.map (fun v => a * v + b)⟩

/-- The keypoint with its response multiplied by `c`. -/
noncomputable def KeyPoint.amplify (c : ℝ) (k : KeyPoint) : KeyPoint := { k with response := c * k.response }

/-- Sorting looks only at how the responses compare: it does the same if all are multiplied by a positive number. -/
def SortsByComparison (sort : List KeyPoint → List KeyPoint) : Prop :=
  ∀ (c : ℝ) l, 0 < c → sort (l.map (KeyPoint.amplify c)) = (sort l).map (KeyPoint.amplify c)

end Verif.Akaze
