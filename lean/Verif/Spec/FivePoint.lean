import Verif.Spec.EightPoint
import Verif.Model.FivePoint

/-!
# What the five-point solver should satisfy
-/

namespace Verif.Geo

variable {K : Type} [Field K]

/-- The value of the polynomial at a point. -/
def Poly.eval (p : Poly K) (x y z : K) : K :=
  p.xxx * x ^ 3 + p.xxy * (x ^ 2 * y) + p.xyy * (x * y ^ 2) + p.yyy * y ^ 3 + p.xxz * (x ^ 2 * z) +
    p.xyz * (x * y * z) + p.yyz * (y ^ 2 * z) + p.xzz * (x * z ^ 2) + p.yzz * (y * z ^ 2) +
    p.zzz * z ^ 3 + p.xx * x ^ 2 + p.xy * (x * y) + p.yy * y ^ 2 + p.xz * (x * z) +
    p.yz * (y * z) + p.zz * z ^ 2 + p.x * x + p.y * y + p.z * z + p.one

/-- The four basis matrices and their combination `x E1 + y E2 + z E3 + w E4`. -/
def basisMatrix (n : Nullspace K) (c : V4 K → K) : M3 K :=
  ⟨c (n 0), c (n 3), c (n 6), c (n 1), c (n 4), c (n 7), c (n 2), c (n 5), c (n 8)⟩

/-- `x E1 + y E2 + z E3 + w E4`. -/
def mixture (n : Nullspace K) (x y z w : K) : M3 K :=
  ((M3.smul x (basisMatrix n V4.x)).add (M3.smul y (basisMatrix n V4.y))).add
    ((M3.smul z (basisMatrix n V4.z)).add (M3.smul w (basisMatrix n V4.w)))

/-- The trace constraint matrix `E Eᵀ E - tr(E Eᵀ) / 2 E`, zero on essential matrices. -/
def traceConstraint (E : M3 K) : M3 K :=
  ((E.mul E.transpose).mul E).sub (M3.smul (1 / 2 * (E.mul E.transpose).trace) E)

/-- An entry of a matrix by row and column. -/
def M3.entry (A : M3 K) (i j : Fin 3) : K :=
  ![![A.m11, A.m12, A.m13], ![A.m21, A.m22, A.m23], ![A.m31, A.m32, A.m33]] i j

/-- The basis matrices are linearly independent. -/
def Independent (n : Nullspace K) : Prop :=
  ∀ x y z w : K, mixture n x y z w = M3.zero → x = 0 ∧ y = 0 ∧ z = 0 ∧ w = 0

/-- The monomials 10 to 19. -/
def monomials (x y z : K) : Fin 10 → K :=
  ![x ^ 2, x * y, y ^ 2, x * z, y * z, z ^ 2, x, y, z, 1]

/-- What is expected of the linear algebra. -/
structure FiveSolver.Correct (sv : FiveSolver) : Prop where
  symmetric : ∀ S e, sv.symmetric S = some e → IsSymEigen S e
  /-- the sorted indices are all indices, by eigenvalue -/
  sort_perm : ∀ vals, (sv.sort vals).Perm (List.finRange 9)
  sort_sorted : ∀ vals, (sv.sort vals).Pairwise (fun i j => vals i ≤ vals j)
  /-- a solution of a regular system -/
  lu : ∀ A B M, sv.lu A B = some M → A * M = B ∧ IsUnit A.det
  /-- the real roots among the eigenvalues are eigenvalues -/
  eigenvalues : ∀ A l v, (v : Fin 10 → ℝ) ≠ 0 → A.mulVec v = l • v → (l, 0) ∈ sv.eigenvalues A
  /-- ten eigenvalues -/
  count : ∀ A, (sv.eigenvalues A).length = 10
  zero : ∀ e ∈ sv.eigenvalues 0, e = (0, 0)
  /-- the null vector is an eigenvector -/
  eigenvector : ∀ A l v, sv.eigenvector A l = some v → v ≠ 0 ∧ A.mulVec v = l • v
  /-- and found for every eigenvalue -/
  found : ∀ A l v, (v : Fin 10 → ℝ) ≠ 0 → A.mulVec v = l • v → (sv.eigenvector A l).isSome

end Verif.Geo
