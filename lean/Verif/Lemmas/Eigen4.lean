import Mathlib.Analysis.Matrix.Spectrum
import Verif.Lemmas.LinearTriangulate

/-!
# A correct eigenvalue solver for 4×4 matrices exists
-/

namespace Verif.Geo

/-- As a matrix. -/
def M4.toMatrix (A : M4) : Matrix (Fin 4) (Fin 4) ℝ := Matrix.of fun i j =>
  ![![A.r1.x, A.r1.y, A.r1.z, A.r1.w] j, ![A.r2.x, A.r2.y, A.r2.z, A.r2.w] j,
    ![A.r3.x, A.r3.y, A.r3.z, A.r3.w] j, ![A.r4.x, A.r4.y, A.r4.z, A.r4.w] j] i

def V4.ofFun (f : Fin 4 → ℝ) : V4 ℝ := ⟨f 0, f 1, f 2, f 3⟩

theorem exists_eigen4 {A : M4} (h : ∀ v w : V4 ℝ, v.dot (A.mulVec w) = w.dot (A.mulVec v)) :
    ∃ e, IsEigen4 A e := by
  have hS : A.toMatrix.IsHermitian := by
    have h12 := h ⟨1, 0, 0, 0⟩ ⟨0, 1, 0, 0⟩
    have h13 := h ⟨1, 0, 0, 0⟩ ⟨0, 0, 1, 0⟩
    have h14 := h ⟨1, 0, 0, 0⟩ ⟨0, 0, 0, 1⟩
    have h23 := h ⟨0, 1, 0, 0⟩ ⟨0, 0, 1, 0⟩
    have h24 := h ⟨0, 1, 0, 0⟩ ⟨0, 0, 0, 1⟩
    have h34 := h ⟨0, 0, 1, 0⟩ ⟨0, 0, 0, 1⟩
    simp only [lin, mul_zero, mul_one, zero_mul, one_mul, add_zero, zero_add] at h12 h13 h14 h23 h24 h34
    ext i j
    fin_cases i <;> fin_cases j <;>
      simp [M4.toMatrix, Matrix.conjTranspose_apply, h12, h13, h14, h23, h24, h34]
  have hU : star (hS.eigenvectorUnitary : Matrix (Fin 4) (Fin 4) ℝ) *
      (hS.eigenvectorUnitary : Matrix (Fin 4) (Fin 4) ℝ) = 1 :=
    Unitary.coe_star_mul_self _
  have key : ∀ i j, (V4.ofFun fun k => (hS.eigenvectorUnitary : Matrix (Fin 4) (Fin 4) ℝ) k i).dot
      (V4.ofFun fun k => (hS.eigenvectorUnitary : Matrix (Fin 4) (Fin 4) ℝ) k j) =
      (1 : Matrix (Fin 4) (Fin 4) ℝ) i j := by
    intro i j
    rw [← hU, Matrix.mul_apply, Fin.sum_univ_four]
    rfl
  refine ⟨⟨hS.eigenvalues, fun i => V4.ofFun fun j =>
    (hS.eigenvectorUnitary : Matrix (Fin 4) (Fin 4) ℝ) j i⟩, fun i => ?_, fun i j hij => ?_, fun i => ?_⟩
  · exact (key i i).trans (Matrix.one_apply_eq i)
  · exact (key i j).trans (Matrix.one_apply_ne hij)
  · have h1 := hS.mulVec_eigenvectorBasis i
    have e : (fun j => (hS.eigenvectorUnitary : Matrix (Fin 4) (Fin 4) ℝ) j i) =
        (hS.eigenvectorBasis i).ofLp := by
      funext j
      rw [Matrix.IsHermitian.eigenvectorUnitary_apply]
    rw [← e] at h1
    have h2 := fun k => congrFun h1 k
    ext
    · have := h2 0
      rw [Matrix.mulVec, dotProduct, Fin.sum_univ_four] at this
      simpa [M4.toMatrix, V4.ofFun, lin] using this
    · have := h2 1
      rw [Matrix.mulVec, dotProduct, Fin.sum_univ_four] at this
      simpa [M4.toMatrix, V4.ofFun, lin] using this
    · have := h2 2
      rw [Matrix.mulVec, dotProduct, Fin.sum_univ_four] at this
      simpa [M4.toMatrix, V4.ofFun, lin] using this
    · have := h2 3
      rw [Matrix.mulVec, dotProduct, Fin.sum_univ_four] at this
      simpa [M4.toMatrix, V4.ofFun, lin] using this

/-- The eigenvalue triangulator's matrix always has a decomposition. -/
theorem linearSystem_eigen (os : List Observation) : ∃ e, IsEigen4 (linearSystem os) e :=
  exists_eigen4 (linearSystem_symm os)

/-- A matrix with a kernel has a last right singular vector. -/
theorem exists_last {A : M4} {x : V4 ℝ} (hx : x.dot x ≠ 0) (h : A.mulVec x = ⟨0, 0, 0, 0⟩) :
    ∃ v, IsLast A v := by
  have hp : 0 < x.dot x := lt_of_le_of_ne (V4.dot_self_nonneg x) (Ne.symm hx)
  have hs := Real.mul_self_sqrt hp.le
  have hsp := Real.sqrt_pos.mpr hp
  generalize Real.sqrt (x.dot x) = s at hs hsp
  refine ⟨V4.smul (1 / s) x, ?_, fun u => ?_⟩
  · rw [V4.smul_dot, V4.dot_smul, ← hs]
    field_simp
  · have : A.mulVec (V4.smul (1 / s) x) = V4.smul (1 / s) (A.mulVec x) := by
      generalize 1 / s = k
      lin3
    rw [this, h]
    have e : (V4.smul (1 / s) (⟨0, 0, 0, 0⟩ : V4 ℝ)).dot (V4.smul (1 / s) ⟨0, 0, 0, 0⟩) = 0 := by
      generalize 1 / s = k
      simp only [lin]; ring
    rw [e, zero_mul]
    exact V4.dot_self_nonneg _

end Verif.Geo
