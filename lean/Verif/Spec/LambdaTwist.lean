import Verif.Model.LambdaTwist

/-!
# What a solution of the three point problem is
-/

namespace Verif.Geo.P3P

/-- The depths along the three bearings give triangle sides of the right length (law of cosines). -/
structure Tri.Fits (k : Tri) (l : V3 ℝ) : Prop where
  side12 : l.x ^ 2 + l.y ^ 2 - 2 * k.c12 * (l.x * l.y) = k.a12
  side13 : l.x ^ 2 + l.z ^ 2 - 2 * k.c31 * (l.x * l.z) = k.a13
  side23 : l.y ^ 2 + l.z ^ 2 - 2 * k.c23 * (l.y * l.z) = k.a23

/-- How far the three sides are off, in total. -/
def Tri.misfit (k : Tri) (l : V3 ℝ) : ℝ :=
  |l.x ^ 2 + l.y ^ 2 - 2 * k.c12 * (l.x * l.y) - k.a12| +
  |l.x ^ 2 + l.z ^ 2 - 2 * k.c31 * (l.x * l.z) - k.a13| +
  |l.y ^ 2 + l.z ^ 2 - 2 * k.c23 * (l.y * l.z) - k.a23|

/-- The pose maps the world point to the bearing at the given depth. -/
def Sees (p : Iso ℝ) (x y : V3 ℝ) (depth : ℝ) : Prop := p.point x = V3.smul depth y

/-- The three world points are on one line (or coincide). -/
def Collinear (x1 x2 x3 : V3 ℝ) : Prop := (x1.sub x2).cross (x1.sub x3) = V3.zero

/-- No division by zero in the computation of the depths from the root `g`, in terms of the matrix
`D0` of the pencil of conics: the square coefficient of the first depth is not zero; `D0` has two
non-zero eigenvalues; no eigenvector is orthogonal to the third axis; and `D0` has no point with the
second depth zero in common with the conic that compares the first two sides. -/
structure Tri.Regular (k : Tri) (g : ℝ) : Prop where
  corner : (k.d0 g).m11 ≠ 0
  rank : -((k.d0 g).m12 ^ 2) - (k.d0 g).m13 ^ 2 - (k.d0 g).m23 ^ 2 +
    (k.d0 g).m11 * ((k.d0 g).m22 + (k.d0 g).m33) + (k.d0 g).m22 * (k.d0 g).m33 ≠ 0
  third : ∀ (e x y : ℝ), e ≠ 0 → (k.d0 g).mulVec ⟨x, y, 0⟩ = V3.smul e ⟨x, y, 0⟩ → x = 0 ∧ y = 0
  line : ∀ w : ℝ, ¬ (V3.dot ⟨w, 0, 1⟩ ((k.d0 g).mulVec ⟨w, 0, 1⟩) = 0 ∧
    k.a13 * w ^ 2 = k.a12 * (w ^ 2 + 1 - 2 * k.c31 * w))

end Verif.Geo.P3P
