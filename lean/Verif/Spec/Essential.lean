import Verif.Model.Essential

/-!
# What a singular value decomposition and an essential matrix are
-/

namespace Verif.Geo

/-- `d` is a singular value decomposition of `E`, with the singular values in descending order. -/
structure IsSVD (E : M3 ℝ) (d : SVD ℝ) : Prop where
  eq : d.recompose = E
  u_orth : d.u.transpose.mul d.u = M3.one
  v_orth : d.vt.mul d.vt.transpose = M3.one
  ord12 : d.s2 ≤ d.s1
  ord23 : d.s3 ≤ d.s2
  nonneg : 0 ≤ d.s3

/-- Essential matrices are those of relative poses. -/
def IsEssential (E : M3 ℝ) : Prop := ∃ a : Iso ℝ, a.Rigid ∧ E = essential a

/-- Squared Frobenius norm. -/
@[lin] def M3.frobSq {K : Type} [CommRing K] (A : M3 K) : K :=
  A.m11 * A.m11 + A.m12 * A.m12 + A.m13 * A.m13 + A.m21 * A.m21 + A.m22 * A.m22 + A.m23 * A.m23 +
    A.m31 * A.m31 + A.m32 * A.m32 + A.m33 * A.m33

end Verif.Geo
