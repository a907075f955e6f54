import Verif.Model.Orient
import Verif.Spec.Detect

/-!
# Specification: the exact place and the orientation of keypoints
-/

namespace Verif.Akaze

/-- `u`, `v` is where the quadratic polynomial with the central differences of `f` at `x`, `y` is stationary. -/
def Stationary (f : Nat → Nat → ℝ) (x y : Nat) (u v : ℝ) : Prop :=
  (f (x + 1) y - f (x - 1) y) / 2 + (f (x + 1) y + f (x - 1) y - 2 * f x y) * u +
      (f (x + 1) (y + 1) + f (x - 1) (y - 1) - f (x + 1) (y - 1) - f (x - 1) (y + 1)) / 4 * v = 0 ∧
  (f x (y + 1) - f x (y - 1)) / 2 + (f (x + 1) (y + 1) + f (x - 1) (y - 1) - f (x + 1) (y - 1) - f (x - 1) (y + 1)) / 4 * u +
      (f x (y + 1) + f x (y - 1) - 2 * f x y) * v = 0

/-- The direction of a vector is in the window that starts at the angle `a` and has a width of sixty degrees. -/
def InWindow (a : ℝ) (v : ℝ × ℝ) : Prop :=
  ∃ θ, v.1 = √(v.1 ^ 2 + v.2 ^ 2) * Real.cos θ ∧ v.2 = √(v.1 ^ 2 + v.2 ^ 2) * Real.sin θ ∧ a < θ ∧ θ < a + Real.pi / 3

open Classical in
/-- The sum of the vectors in a window. Vectors that are zero do not matter. -/
noncomputable def sumIn (a : ℝ) (l : List (ℝ × ℝ)) : ℝ × ℝ := (l.filter (fun v => decide (InWindow a v))).sum

/-- The square of the length. -/
def sqLen (v : ℝ × ℝ) : ℝ := v.1 ^ 2 + v.2 ^ 2

/-- `angle` is the direction of the longest sum among the windows that start at the multiples of 0.15; zero if
all sums are zero. -/
def IsDominant (l : List (ℝ × ℝ)) (angle : ℝ) : Prop :=
  ((∀ k : Nat, (k : ℝ) * 0.15 < 2 * Real.pi → sumIn (k * 0.15) l = (0, 0)) ∧ angle = 0) ∨
  ∃ k : Nat, (k : ℝ) * 0.15 < 2 * Real.pi ∧ sumIn (k * 0.15) l ≠ (0, 0) ∧
    (∀ j : Nat, (j : ℝ) * 0.15 < 2 * Real.pi → sqLen (sumIn (j * 0.15) l) ≤ sqLen (sumIn (k * 0.15) l)) ∧
    0 ≤ angle ∧ angle < 2 * Real.pi ∧
    sumIn (k * 0.15) l = (√(sqLen (sumIn (k * 0.15) l)) * Real.cos angle, √(sqLen (sumIn (k * 0.15) l)) * Real.sin angle)

/-- The weight of a sample, from the table of the program. -/
noncomputable def weightAt (i j : ℤ) : ℝ := (gauss25.getD j.natAbs []).getD i.natAbs 0

/-- The weighted gradients at the pixels nearest to a grid of width `s` around `xf`, `yf`. -/
noncomputable def samplesAt (fx fy : Nat → Nat → ℝ) (xf yf : ℝ) (s : ℤ) : List (ℝ × ℝ) :=
  offsets.map (fun p =>
    let px := ⌊xf + p.1 * s + 1 / 2⌋.toNat
    let py := ⌊yf + p.2 * s + 1 / 2⌋.toNat
    (weightAt p.1 p.2 * fx px py, weightAt p.1 p.2 * fy px py))

end Verif.Akaze
