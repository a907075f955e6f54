import Verif.Spec.FloatRounding
import Mathlib.Analysis.SpecialFunctions.Trigonometric.Basic

/-!
# Matrices near rotations
-/

namespace Verif.Geo.Rounded

open Verif.Akaze

variable {D : Type} [FloatOps D]

/-- `F` moves every vector as `X` does, up to `e` times the length of the vector. -/
def Near (e : ℝ) (F X : M3 ℝ) : Prop := ∀ v : V3 ℝ, ((F.mulVec v).sub (X.mulVec v)).norm ≤ e * v.norm

/-- The rotations are near to within `e`, the translations to within `d`. -/
def NearIso (e d : ℝ) (P X : Iso ℝ) : Prop := Near e P.rot X.rot ∧ (P.t.sub X.t).norm ≤ d

/-- The entries are finite, and the matrix is a rotation up to `e`. -/
def RotWithin (J : Ieee D) (e : ℝ) (A : M3 D) : Prop := ∃ F X, HasM J A F ∧ X.IsRot ∧ Near e F X

/-- The floating point type is precise enough and has enough range for entries of rotations. -/
structure FineRot (u η M : ℝ) : Prop where
  precise : u ≤ 1 / 1024
  tiny : 1024 * η ≤ u
  range : 16 ≤ M

/-- The sine and cosine of the floating point type are accurate to within two units of rounding. -/
structure SinCos (J : Ieee D) (u : ℝ) : Prop where
  sin : ∀ a x, J.val a = .num x → ∃ s, J.val (FloatOps.sin a) = .num s ∧ |s - Real.sin x| ≤ 2 * u
  cos : ∀ a x, J.val a = .num x → ∃ s, J.val (FloatOps.cos a) = .num s ∧ |s - Real.cos x| ≤ 2 * u

/-- The floating point type is precise enough and has enough range for a rotation vector of length `r`. -/
structure FineTurn (u η M r : ℝ) : Prop where
  pos : 0 < r
  precise : u ≤ 1 / 8192
  tiny : 1024 * η ≤ u
  tiny_length : 1024 * η ≤ u * r
  tiny_square : 2048 * η ≤ u * (r * r)
  range : 16 ≤ M
  range_length : 2 * r ≤ M
  range_square : 16 * (r * r) ≤ M

end Verif.Geo.Rounded
