import Verif.Spec.Essential
import Verif.Model.EightPoint

/-!
# What the eight-point estimate should satisfy
-/

namespace Verif.Geo

/-- The epipolar constraint `bᵀ E a = 0`. -/
def Match.Satisfies (m : Match) (E : M3 ℝ) : Prop := V3.dot m.b (E.mulVec m.a) = 0

/-- `e` is an orthonormal basis of eigenvectors of `S` with their eigenvalues (in any order). -/
structure IsSymEigen (S : Matrix (Fin 9) (Fin 9) ℝ) (e : SymEigen) : Prop where
  unit : ∀ i, e.vecs i ⬝ᵥ e.vecs i = 1
  orth : ∀ i j, i ≠ j → e.vecs i ⬝ᵥ e.vecs j = 0
  eigen : ∀ i, S.mulVec (e.vecs i) = e.vals i • e.vecs i

/-- The matches determine `E` up to scale. -/
def Determines (ms : List Match) (E : M3 ℝ) : Prop :=
  (∀ m ∈ ms, m.Satisfies E) ∧ ∀ F, (∀ m ∈ ms, m.Satisfies F) → ∃ k : ℝ, F = M3.smul k E

end Verif.Geo
