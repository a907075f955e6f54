import Verif.Model.Image
import Mathlib.Algebra.BigOperators.Group.Finset.Basic

/-!
# Specification: what filters should compute
-/

namespace Verif.Akaze

variable {K : Type _}

/-- `f x y` is the pixel of the image at `x`, `y`. -/
def Img.Shows (i : Img K) (w h : Nat) (f : Nat → Nat → K) : Prop :=
  i.w = w ∧ i.h = h ∧ i.WF ∧ ∀ x y, x < w → y < h → i.get x y = some (f x y)

/-- The position `n` places on from `x - r`, moved to the nearest of `0 .. size-1`. -/
def clampAt (size r x n : Nat) : Nat := (min (max ((x : Int) + n - r) 0) (size - 1)).toNat

/-- Correlation of a line of pixels, extended by repeating its ends, with a kernel centred at `x`. -/
def correlate [CommRing K] (kernel : List K) (size : Nat) (line : Nat → K) (x : Nat) : K :=
  ∑ n ∈ Finset.range kernel.length, line (clampAt size (kernel.length / 2) x n) * kernel.getD n 0

end Verif.Akaze
