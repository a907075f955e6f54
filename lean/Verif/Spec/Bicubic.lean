import Verif.Spec.Image
import Mathlib.Algebra.Order.Archimedean.Real.Basic

/-!
# Specification: bicubic interpolation
-/

namespace Verif.Bicubic

/-- The cubic Hermite interpolation between `v1` at 0 and `v2` at 1, where the slopes at both are half the difference
of the neighbours (Catmull and Rom). -/
noncomputable def catmull (v0 v1 v2 v3 t : ℝ) : ℝ :=
  (1 + 2 * t) * (1 - t) ^ 2 * v1 + t * (1 - t) ^ 2 * ((v2 - v0) / 2) +
    t ^ 2 * (3 - 2 * t) * v2 + t ^ 2 * (t - 1) * ((v3 - v1) / 2)

/-- Interpolation in a grid, first along the rows and then along the column. -/
noncomputable def bicubic (f : Nat → Nat → ℝ) (x y : ℝ) : ℝ :=
  let i := ⌊x⌋.toNat
  let j := ⌊y⌋.toNat
  let row := fun j => catmull (f (i - 1) j) (f i j) (f (i + 1) j) (f (i + 2) j) (x - ⌊x⌋)
  catmull (row (j - 1)) (row j) (row (j + 1)) (row (j + 2)) (y - ⌊y⌋)

/-- Along a line of `size` pixels the four pixels around `x` and the one after them exist. -/
def Surrounded (size : Nat) (x : ℝ) : Prop := 1 ≤ ⌊x⌋ ∧ ⌊x⌋ + 3 < size

/-- Along a line of `size` pixels the four pixels around `x` exist. -/
def HasFour (size : Nat) (x : ℝ) : Prop := 1 ≤ ⌊x⌋ ∧ ⌊x⌋ + 2 < size

end Verif.Bicubic
