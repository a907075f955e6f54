import Mathlib.Analysis.Matrix.Spectrum
import Mathlib.LinearAlgebra.Matrix.Charpoly.Eigs
import Mathlib.LinearAlgebra.Matrix.ToLinearEquiv
import Mathlib.Data.List.Sort
import Verif.Spec.FivePoint

/-!
# Solvers with the properties assumed of nalgebra exist

The hypotheses `FiveSolver.Correct` of the five-point theorems can be met, and stay met if one
answer is replaced by another correct one.
-/

namespace Verif.Geo

open Classical in
/-- A solver for symmetric matrices. -/
noncomputable def refSym (S : Matrix (Fin 9) (Fin 9) ℝ) : Option SymEigen :=
  if h : S.IsHermitian then
    some ⟨h.eigenvalues, fun i j => (h.eigenvectorUnitary : Matrix (Fin 9) (Fin 9) ℝ) j i⟩
  else none

theorem refSym_correct (S : Matrix (Fin 9) (Fin 9) ℝ) (e : SymEigen) (h : refSym S = some e) :
    IsSymEigen S e := by
  unfold refSym at h
  split at h
  · rename_i hS
    injection h with h
    subst h
    have hU : star (hS.eigenvectorUnitary : Matrix (Fin 9) (Fin 9) ℝ) *
        (hS.eigenvectorUnitary : Matrix (Fin 9) (Fin 9) ℝ) = 1 :=
      Unitary.coe_star_mul_self _
    have key : ∀ i j, (fun k => (hS.eigenvectorUnitary : Matrix (Fin 9) (Fin 9) ℝ) k i) ⬝ᵥ
        (fun k => (hS.eigenvectorUnitary : Matrix (Fin 9) (Fin 9) ℝ) k j) =
        (1 : Matrix (Fin 9) (Fin 9) ℝ) i j := by
      intro i j
      rw [← hU, Matrix.mul_apply]
      rfl
    refine ⟨fun i => ?_, fun i j hij => ?_, fun i => ?_⟩
    · exact (key i i).trans (Matrix.one_apply_eq i)
    · exact (key i j).trans (Matrix.one_apply_ne hij)
    · have := hS.mulVec_eigenvectorBasis i
      have e : (fun j => (hS.eigenvectorUnitary : Matrix (Fin 9) (Fin 9) ℝ) j i) =
          (hS.eigenvectorBasis i).ofLp := by
        funext j
        rw [Matrix.IsHermitian.eigenvectorUnitary_apply]
      simp only [e]
      exact this
  · exact nomatch h

/-- It always answers on a Gram matrix. -/
theorem refSym_gram (A : Matrix (Fin 5) (Fin 9) ℝ) : (refSym (A.transpose * A)).isSome := by
  unfold refSym
  rw [dif_pos]
  · rfl
  · exact Matrix.isHermitian_conjTranspose_mul_self A

open Classical in
/-- Sorting indices by value. -/
noncomputable def refSort (vals : Fin 9 → ℝ) : List (Fin 9) :=
  (List.finRange 9).mergeSort (fun i j => decide (vals i ≤ vals j))

open Classical in
/-- Solving a linear system. -/
noncomputable def refLu (A B : Matrix (Fin 10) (Fin 10) ℝ) : Option (Matrix (Fin 10) (Fin 10) ℝ) :=
  if IsUnit A.det then some (A⁻¹ * B) else none

/-- The real eigenvalues with multiplicity, filled up to ten. -/
noncomputable def refEigenvalues (A : Matrix (Fin 10) (Fin 10) ℝ) : List (ℝ × ℝ) :=
  A.charpoly.roots.toList.map (fun r => (r, 0)) ++
    List.replicate (10 - A.charpoly.roots.card) (0, 1)

open Classical in
/-- Some eigenvector. -/
noncomputable def refEigenvector (A : Matrix (Fin 10) (Fin 10) ℝ) (l : ℝ) : Option (Fin 10 → ℝ) :=
  if h : ∃ v : Fin 10 → ℝ, v ≠ 0 ∧ A.mulVec v = l • v then some h.choose else none

/-- All together. -/
noncomputable def refSolver : FiveSolver :=
  ⟨refSym, refSort, refLu, refEigenvalues, refEigenvector⟩

theorem root_of_eigenvector {A : Matrix (Fin 10) (Fin 10) ℝ} {l : ℝ} {v : Fin 10 → ℝ} (hv : v ≠ 0)
    (h : A.mulVec v = l • v) : l ∈ A.charpoly.roots := by
  rw [Polynomial.mem_roots A.charpoly_monic.ne_zero, Polynomial.IsRoot.def, Matrix.eval_charpoly]
  apply Matrix.exists_mulVec_eq_zero_iff.mp
  refine ⟨v, hv, ?_⟩
  rw [Matrix.sub_mulVec, h]
  funext i
  simp [Matrix.scalar_apply]

theorem refSolver_correct : refSolver.Correct where
  symmetric := refSym_correct
  sort_perm vals := List.mergeSort_perm _ _
  sort_sorted vals := by
    have := List.pairwise_mergeSort (le := fun i j => decide (vals i ≤ vals j))
      (fun a b c h1 h2 => by simp only [decide_eq_true_eq] at *; exact h1.trans h2)
      (fun a b => by simp only [Bool.or_eq_true, decide_eq_true_eq]; exact le_total _ _)
      (List.finRange 9)
    exact this.imp (fun h => by simpa using h)
  lu A B M h := by
    change refLu A B = some M at h
    unfold refLu at h
    split at h
    · rename_i hu
      injection h with h
      subst h
      exact ⟨by rw [← mul_assoc, Matrix.mul_nonsing_inv _ hu, one_mul], hu⟩
    · exact nomatch h
  eigenvalues A l v hv h := by
    refine List.mem_append_left _ (List.mem_map.mpr ⟨l, ?_, rfl⟩)
    exact Multiset.mem_toList.mpr (root_of_eigenvector hv h)
  count A := by
    show (refEigenvalues A).length = 10
    have h1 : A.charpoly.roots.card ≤ 10 := by
      refine (Polynomial.card_roots' _).trans ?_
      rw [Matrix.charpoly_natDegree_eq_dim]
      simp
    simp [refEigenvalues]
    omega
  zero e he := by
    change e ∈ refEigenvalues 0 at he
    unfold refEigenvalues at he
    have hr : (0 : Matrix (Fin 10) (Fin 10) ℝ).charpoly.roots = Multiset.replicate 10 0 := by
      rw [Matrix.charpoly_zero]
      simp [Polynomial.roots_pow, Multiset.nsmul_singleton]
    rw [hr] at he
    simp at he
    exact he.symm
  eigenvector A l v h := by
    change refEigenvector A l = some v at h
    unfold refEigenvector at h
    split at h
    · rename_i hex
      injection h with h
      subst h
      exact hex.choose_spec
    · exact nomatch h
  found A l v hv h := by
    show (refEigenvector A l).isSome
    unfold refEigenvector
    rw [dif_pos ⟨v, hv, h⟩]
    rfl

open Classical in
/-- A solver that answers `e` for the symmetric matrix `S` and `v` for the eigenvalue `l` of `A`. -/
noncomputable def overSolver (S : Matrix (Fin 9) (Fin 9) ℝ) (e : SymEigen)
    (srt : List (Fin 9)) (A : Matrix (Fin 10) (Fin 10) ℝ) (l : ℝ) (v : Fin 10 → ℝ) : FiveSolver where
  symmetric S' := if S' = S then some e else refSym S'
  sort vals := if vals = e.vals then srt else refSort vals
  lu := refLu
  eigenvalues := refEigenvalues
  eigenvector A' l' := if A' = A ∧ l' = l then some v else refEigenvector A' l'

theorem overSolver_correct {S : Matrix (Fin 9) (Fin 9) ℝ} {e : SymEigen} {srt : List (Fin 9)}
    {A : Matrix (Fin 10) (Fin 10) ℝ} {l : ℝ} {v : Fin 10 → ℝ} (he : IsSymEigen S e)
    (hp : srt.Perm (List.finRange 9)) (hs : srt.Pairwise (fun i j => e.vals i ≤ e.vals j))
    (hv : v ≠ 0) (hA : A.mulVec v = l • v) : (overSolver S e srt A l v).Correct where
  symmetric S' e' h := by
    simp only [overSolver] at h
    split at h
    · rename_i h'; cases h; rw [h']; exact he
    · exact refSym_correct _ _ h
  sort_perm vals := by
    simp only [overSolver]
    split
    · exact hp
    · exact refSolver_correct.sort_perm vals
  sort_sorted vals := by
    simp only [overSolver]
    split
    · rename_i h; rw [h]; exact hs
    · exact refSolver_correct.sort_sorted vals
  lu := refSolver_correct.lu
  eigenvalues := refSolver_correct.eigenvalues
  count := refSolver_correct.count
  zero := refSolver_correct.zero
  eigenvector A' l' v' h := by
    simp only [overSolver] at h
    split at h
    · rename_i h'; cases h; rw [h'.1, h'.2]; exact ⟨hv, hA⟩
    · exact refSolver_correct.eigenvector _ _ _ h
  found A' l' v' hv' h' := by
    simp only [overSolver]
    split
    · rfl
    · exact refSolver_correct.found _ _ _ hv' h'

end Verif.Geo
