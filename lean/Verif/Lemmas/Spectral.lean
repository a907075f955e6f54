import Mathlib.Analysis.InnerProductSpace.Spectrum
import Mathlib.Analysis.InnerProductSpace.PiL2

/-!
# Explicit steps along a symmetric operator
-/

namespace Verif.Akaze

variable {E : Type _} [NormedAddCommGroup E] [InnerProductSpace ℝ E] [FiniteDimensional ℝ E]

open scoped InnerProductSpace

theorem steps_repr {T : E →ₗ[ℝ] E} (hT : T.IsSymmetric) {n : Nat} (hn : Module.finrank ℝ E = n)
    (i : Fin n) : ∀ (steps : List ℝ) (v : E),
      (hT.eigenvectorBasis hn).repr (steps.foldl (fun v s => v + s • T v) v) i =
        (steps.map (fun s => 1 + s * hT.eigenvalues hn i)).prod * (hT.eigenvectorBasis hn).repr v i := by
  intro steps
  induction steps with
  | nil => intro v; simp
  | cons s steps ih =>
    intro v
    have h := hT.eigenvectorBasis_apply_self_apply hn v i
    rw [List.foldl_cons, ih, List.map_cons, List.prod_cons]
    rw [map_add, map_smul, PiLp.add_apply, PiLp.smul_apply, h]
    simp only [smul_eq_mul, RCLike.ofReal_real_eq_id, id_eq]
    ring

/-- If no rate of decay up to `L` is amplified by the steps, no vector grows. -/
theorem cycle_norm {T : E →ₗ[ℝ] E} (hT : T.IsSymmetric) {L : ℝ} (h0 : ∀ v, ⟪T v, v⟫_ℝ ≤ 0)
    (hL : ∀ v, -(L * ‖v‖ ^ 2) ≤ ⟪T v, v⟫_ℝ) {steps : List ℝ}
    (hs : ∀ m, 0 ≤ m → m ≤ L → |(steps.map (fun s => 1 - s * m)).prod| ≤ 1) (v : E) :
    ‖steps.foldl (fun v s => v + s • T v) v‖ ≤ ‖v‖ := by
  have hn : Module.finrank ℝ E = Module.finrank ℝ E := rfl
  rw [← (hT.eigenvectorBasis hn).repr.norm_map, ← (hT.eigenvectorBasis hn).repr.norm_map v,
    EuclideanSpace.norm_eq, EuclideanSpace.norm_eq]
  refine Real.sqrt_le_sqrt (Finset.sum_le_sum (fun i _ => ?_))
  rw [steps_repr]
  have he : ⟪T (hT.eigenvectorBasis hn i), hT.eigenvectorBasis hn i⟫_ℝ = hT.eigenvalues hn i := by
    rw [hT.apply_eigenvectorBasis, real_inner_smul_left, real_inner_self_eq_norm_sq,
      (hT.eigenvectorBasis hn).norm_eq_one]
    simp
  have h1 := h0 (hT.eigenvectorBasis hn i)
  have h2 := hL (hT.eigenvectorBasis hn i)
  rw [he] at h1 h2
  rw [(hT.eigenvectorBasis hn).norm_eq_one] at h2
  have h3 := hs (-(hT.eigenvalues hn i)) (by linarith) (by linarith)
  simp only [mul_neg, sub_neg_eq_add] at h3
  rw [norm_mul, mul_pow]
  calc ‖(steps.map (fun s => 1 + s * hT.eigenvalues hn i)).prod‖ ^ 2 * _
      ≤ 1 * ‖(hT.eigenvectorBasis hn).repr v i‖ ^ 2 := by
        refine mul_le_mul_of_nonneg_right ?_ (sq_nonneg _)
        rw [Real.norm_eq_abs]
        exact pow_le_one₀ (abs_nonneg _) h3
    _ = _ := one_mul _

end Verif.Akaze
