import Verif.Model.Image
import Mathlib.Analysis.SpecialFunctions.Exp
import Mathlib.Analysis.SpecialFunctions.Trigonometric.Basic
import Mathlib.Analysis.Real.Sqrt

/-!
# akaze: blurring with a Gaussian

Source: /repo/akaze/src/image.rs 342-389, with exact real arithmetic.
-/

namespace Verif.Akaze

/-- image.rs 349-351 `gaussian`. -/
noncomputable def gaussian (r : ℝ) (x : Int) : ℝ :=
  1 / (Real.sqrt (2 * Real.pi) * r) * Real.exp (-((x : ℝ) ^ 2) / (2 * r ^ 2))

/-- image.rs 383-389 `gaussian_blur`; the assertion on sigma panics. -/
noncomputable def blur (image : Img ℝ) (r : ℝ) : Option (Img ℝ) :=
  if 0 < r then gaussianBlur (gaussian r) ⌈2 * r⌉₊ image else none

end Verif.Akaze
