import Verif.Model.Fed
import Mathlib.LinearAlgebra.Lagrange
import Mathlib.Analysis.SpecialFunctions.Trigonometric.Inverse
import Mathlib.Algebra.Polynomial.Derivative
import Mathlib.Analysis.SpecialFunctions.Arsinh
import Mathlib.Analysis.SpecialFunctions.Trigonometric.DerivHyp
import Mathlib.Analysis.SpecialFunctions.Trigonometric.Series
import Mathlib.Analysis.Complex.ExponentialBounds

/-!
# The sum of the squared cosecants

`sin ((2n+1)φ) = sin φ · Q n (sin² φ)` for a polynomial `Q n` of degree `n`; its roots are `sin² (jπ/(2n+1))`,
and the sum of their reciprocals is read off the first two coefficients.
-/

namespace Verif.Akaze

open Polynomial

/-- The polynomials, with `Q 0 = 1`, `Q 1 = 3 - 4X`. -/
noncomputable def Q : Nat → ℝ[X]
  | 0 => 1
  | 1 => C 3 - C 4 * X
  | n + 2 => (C 2 - C 4 * X) * Q (n + 1) - Q n

theorem Q_sin (n : Nat) (φ : ℝ) :
    Real.sin ((2 * n + 1) * φ) = Real.sin φ * (Q n).eval (Real.sin φ * Real.sin φ) := by
  have hstep : ∀ a : ℝ, Real.sin (a + 2 * φ) =
      (2 - 4 * (Real.sin φ * Real.sin φ)) * Real.sin a - Real.sin (a - 2 * φ) := by
    intro a
    rw [Real.sin_add, Real.sin_sub, Real.cos_two_mul]
    have := Real.sin_sq_add_cos_sq φ
    linear_combination (2 * Real.sin a * 2) * this
  induction n using Nat.twoStepInduction with
  | zero => simp [Q]
  | one =>
    have := hstep φ
    rw [show φ - 2 * φ = -φ by ring, Real.sin_neg] at this
    rw [show (2 * ((1 : Nat) : ℝ) + 1) * φ = φ + 2 * φ by push_cast; ring, this]
    simp only [Q, eval_sub, eval_mul, eval_C, eval_X]
    ring
  | more n ih1 ih2 =>
    have h := hstep ((2 * ((n + 1 : Nat) : ℝ) + 1) * φ)
    have e1 : (2 * ((n + 1 : Nat) : ℝ) + 1) * φ + 2 * φ = (2 * ((n + 2 : Nat) : ℝ) + 1) * φ := by
      push_cast; ring
    have e2 : (2 * ((n + 1 : Nat) : ℝ) + 1) * φ - 2 * φ = (2 * (n : ℝ) + 1) * φ := by
      push_cast; ring
    rw [e1, e2, ih1, ih2] at h
    rw [h]
    simp only [Q, eval_sub, eval_mul, eval_C, eval_X]
    ring

theorem Q_degree (n : Nat) : (Q n).degree = n ∧ (Q n).coeff n = (-4) ^ n := by
  suffices h : (Q n).natDegree ≤ n ∧ (Q n).coeff n = (-4) ^ n by
    refine ⟨?_, h.2⟩
    refine le_antisymm (Polynomial.degree_le_of_natDegree_le h.1) ?_
    exact Polynomial.le_degree_of_ne_zero (by rw [h.2]; positivity)
  induction n using Nat.twoStepInduction with
  | zero => simp [Q]
  | one =>
    constructor
    · unfold Q
      compute_degree
    · simp [Q]
  | more n ih1 ih2 =>
    have hc : ∀ m, ((C 2 - C 4 * X) * Q (n + 1) : ℝ[X]).coeff (m + 1) =
        2 * (Q (n + 1)).coeff (m + 1) - 4 * (Q (n + 1)).coeff m := by
      intro m
      rw [sub_mul, coeff_sub, coeff_C_mul, mul_assoc, coeff_C_mul, coeff_X_mul]
    constructor
    · rw [natDegree_le_iff_coeff_eq_zero]
      intro m hm
      obtain ⟨m, rfl⟩ : ∃ k, m = k + 1 := ⟨m - 1, by omega⟩
      simp only [Q, coeff_sub, hc]
      rw [coeff_eq_zero_of_natDegree_lt (by omega), coeff_eq_zero_of_natDegree_lt (by omega),
        coeff_eq_zero_of_natDegree_lt (by omega)]
      ring
    · simp only [Q, coeff_sub, hc]
      rw [coeff_eq_zero_of_natDegree_lt (p := Q (n + 1)) (n := n + 1 + 1) (by omega),
        coeff_eq_zero_of_natDegree_lt (p := Q n) (n := n + 2) (by omega), ih2.2]
      ring

theorem Q_coeffs (n : Nat) : (Q n).eval 0 = 2 * n + 1 ∧
    (derivative (Q n)).eval 0 = -((2 * n + 1) * (2 * n * (n + 1) / 3)) := by
  induction n using Nat.twoStepInduction with
  | zero => simp [Q]
  | one => norm_num [Q]
  | more n ih1 ih2 =>
    obtain ⟨a1, a2⟩ := ih1
    obtain ⟨b1, b2⟩ := ih2
    push_cast at *
    constructor
    · simp only [Q, eval_sub, eval_mul, eval_C, eval_X, a1, b1]
      ring
    · simp only [Q, derivative_sub, derivative_mul, derivative_C, derivative_X, eval_sub, eval_mul,
        eval_add, eval_C, eval_X, eval_zero, eval_one, a2, b1, b2]
      ring

/-- The polynomial is determined by `n` different roots. -/
theorem Q_factor {n : Nat} {y : Nat → ℝ} (hinj : Set.InjOn y (Finset.range n))
    (hr : ∀ i ∈ Finset.range n, (Q n).eval (y i) = 0) :
    Q n = C ((-4) ^ n) * ∏ i ∈ Finset.range n, (X - C (y i)) := by
  set s := Finset.range n
  have hm : (∏ i ∈ s, (X - C (y i))).Monic := monic_prod_of_monic _ _ (fun i _ => monic_X_sub_C _)
  have hd : (∏ i ∈ s, (X - C (y i))).natDegree = n := by
    rw [natDegree_prod_of_monic _ _ (fun i _ => monic_X_sub_C _)]
    simp [s]
  refine Polynomial.eq_of_degree_sub_lt_of_eval_finset_eq (s.image y) ?_ ?_
  · rw [Finset.card_image_of_injOn hinj, Finset.card_range]
    have hne : ((-4 : ℝ)) ^ n ≠ 0 := by positivity
    have hd2 : (C ((-4 : ℝ) ^ n) * ∏ i ∈ s, (X - C (y i))).degree = n := by
      rw [degree_C_mul hne, degree_eq_natDegree hm.ne_zero, hd]
    have hq := Q_degree n
    have : (Q n).degree = (C ((-4 : ℝ) ^ n) * ∏ i ∈ s, (X - C (y i))).degree := by rw [hd2, hq.1]
    rw [← hq.1]
    refine degree_sub_lt_left this (fun e => ?_) ?_
    · rw [e] at hq; simp at hq
    · rw [leadingCoeff_mul, leadingCoeff_C, hm.leadingCoeff, mul_one, ← hq.2]
      unfold leadingCoeff
      rw [natDegree_eq_of_degree_eq_some hq.1]
  · intro x hx
    obtain ⟨i, hi, rfl⟩ := Finset.mem_image.mp hx
    rw [hr i hi, eval_mul, eval_prod, Finset.prod_eq_zero hi (by simp), mul_zero]

/-- The sum of the reciprocals of the roots. -/
theorem sum_inverse_roots {n : Nat} {y : Nat → ℝ} (hinj : Set.InjOn y (Finset.range n))
    (h0 : ∀ i ∈ Finset.range n, y i ≠ 0) (hr : ∀ i ∈ Finset.range n, (Q n).eval (y i) = 0) :
    ∑ i ∈ Finset.range n, 1 / y i = 2 * n * (n + 1) / 3 := by
  have hprod := Q_factor hinj hr
  set s := Finset.range n
  obtain ⟨c0, c1⟩ := Q_coeffs n
  rw [hprod] at c0 c1
  rw [eval_mul, eval_C, eval_prod] at c0
  rw [derivative_C_mul, eval_mul, eval_C, derivative_prod_finset, eval_finsetSum] at c1
  have hterm : ∀ i ∈ s, ((∏ j ∈ s.erase i, (X - C (y j))) * derivative (X - C (y i))).eval 0 =
      (∏ j ∈ s, (X - C (y j)).eval 0) * (-(1 / y i)) := by
    intro i hi
    rw [derivative_X_sub_C, mul_one, eval_prod, ← Finset.mul_prod_erase s _ hi]
    simp only [eval_sub, eval_X, eval_C, zero_sub]
    have := h0 i hi
    field_simp
  rw [Finset.sum_congr rfl hterm, ← Finset.mul_sum, ← mul_assoc, c0, Finset.sum_neg_distrib] at c1
  have hn : (2 * (n : ℝ) + 1) ≠ 0 := by positivity
  have := mul_left_cancel₀ hn (c1.trans (by ring : _ = (2 * (n : ℝ) + 1) * (-(2 * n * (n + 1) / 3))))
  linarith

/-- The squared cosines of the steps are the roots. -/
noncomputable def root (n k : Nat) : ℝ :=
  Real.cos (Real.pi * (2 * (k : ℝ) + 1) * (1 / (4 * (n : ℝ) + 2))) *
    Real.cos (Real.pi * (2 * (k : ℝ) + 1) * (1 / (4 * (n : ℝ) + 2)))

theorem roots (n : Nat) : Set.InjOn (root n) (Finset.range n) ∧ (∀ k ∈ Finset.range n, 0 < root n k) ∧
    ∀ k ∈ Finset.range n, (Q n).eval (root n k) = 0 := by
  have hpi := Real.pi_pos
  have hN : (0 : ℝ) < 2 * n + 1 := by positivity
  -- the complementary angle
  let φ : Nat → ℝ := fun k => ((n : ℝ) - k) * Real.pi / (2 * n + 1)
  have hcos : ∀ k : Nat, Real.cos (Real.pi * (2 * (k : ℝ) + 1) * (1 / (4 * (n : ℝ) + 2))) = Real.sin (φ k) := by
    intro k
    rw [← Real.cos_pi_div_two_sub]
    congr 1
    simp only [φ]
    field_simp
    ring
  have hrange : ∀ k ∈ Finset.range n, 0 < φ k ∧ φ k < Real.pi / 2 := by
    intro k hk
    rw [Finset.mem_range] at hk
    have h1 : (0 : ℝ) < (n : ℝ) - k := by
      rw [sub_pos]; exact_mod_cast hk
    have h2 : (n : ℝ) - k ≤ n := by
      have : (0 : ℝ) ≤ k := Nat.cast_nonneg k
      linarith
    refine ⟨by positivity, ?_⟩
    simp only [φ]
    rw [div_lt_div_iff₀ hN (by norm_num)]
    nlinarith
  have hroot : root n = fun k => Real.sin (φ k) * Real.sin (φ k) := by
    funext k; simp only [root, hcos]
  rw [hroot]
  refine ⟨?_, ?_, ?_⟩
  · intro a ha b hb hab
    obtain ⟨a1, a2⟩ := hrange a ha
    obtain ⟨b1, b2⟩ := hrange b hb
    have sa : 0 < Real.sin (φ a) := Real.sin_pos_of_pos_of_lt_pi a1 (by linarith)
    have sb : 0 < Real.sin (φ b) := Real.sin_pos_of_pos_of_lt_pi b1 (by linarith)
    have hs : Real.sin (φ a) = Real.sin (φ b) := by
      have : Real.sin (φ a) * Real.sin (φ a) = Real.sin (φ b) * Real.sin (φ b) := hab
      nlinarith
    have hφ : φ a = φ b := Real.injOn_sin ⟨by linarith, by linarith⟩ ⟨by linarith, by linarith⟩ hs
    simp only [φ] at hφ
    rw [div_left_inj' hN.ne', mul_left_inj' hpi.ne'] at hφ
    have : (a : ℝ) = b := by linarith
    exact_mod_cast this
  · intro k hk
    obtain ⟨h1, h2⟩ := hrange k hk
    have := Real.sin_pos_of_pos_of_lt_pi h1 (by linarith)
    positivity
  · intro k hk
    obtain ⟨h1, h2⟩ := hrange k hk
    have hs := Real.sin_pos_of_pos_of_lt_pi h1 (by linarith)
    have h := Q_sin n (φ k)
    have e : (2 * (n : ℝ) + 1) * φ k = ((n - k : Nat) : ℝ) * Real.pi := by
      rw [Finset.mem_range] at hk
      simp only [φ]
      rw [Nat.cast_sub hk.le]
      field_simp
    rw [e, Real.sin_nat_mul_pi] at h
    exact (mul_eq_zero.mp h.symm).resolve_left hs.ne'

theorem sum_secants (n : Nat) :
    ∑ k ∈ Finset.range n,
      1 / (Real.cos (Real.pi * (2 * (k : ℝ) + 1) * (1 / (4 * (n : ℝ) + 2))) *
        Real.cos (Real.pi * (2 * (k : ℝ) + 1) * (1 / (4 * (n : ℝ) + 2)))) = 2 * n * (n + 1) / 3 := by
  obtain ⟨h1, h2, h3⟩ := roots n
  exact sum_inverse_roots (y := root n) h1 (fun i hi => (h2 i hi).ne') h3

/-- The product that decides stability. -/
theorem prod_roots (n : Nat) (y : ℝ) :
    (2 * n + 1) * ∏ k ∈ Finset.range n, (1 - y / root n k) = (Q n).eval y := by
  obtain ⟨h1, h2, h3⟩ := roots n
  have hf := Q_factor h1 h3
  have c0 := (Q_coeffs n).1
  have e : ∀ z, (Q n).eval z = (-4) ^ n * ∏ k ∈ Finset.range n, (z - root n k) := by
    intro z
    rw [hf, eval_mul, eval_C, eval_prod]
    simp only [eval_sub, eval_X, eval_C]
  rw [← c0, e, e, mul_assoc, ← Finset.prod_mul_distrib]
  refine congrArg _ (Finset.prod_congr rfl (fun k hk => ?_))
  have := (h2 k hk).ne'
  field_simp
  ring

theorem abs_sin_mul_le (m : Nat) (θ : ℝ) : |Real.sin (m * θ)| ≤ m * |Real.sin θ| := by
  induction m with
  | zero => simp
  | succ m ih =>
    have e : ((m + 1 : Nat) : ℝ) * θ = m * θ + θ := by push_cast; ring
    rw [e, Real.sin_add]
    calc |Real.sin (m * θ) * Real.cos θ + Real.cos (m * θ) * Real.sin θ|
        ≤ |Real.sin (m * θ) * Real.cos θ| + |Real.cos (m * θ) * Real.sin θ| := abs_add_le _ _
      _ ≤ |Real.sin (m * θ)| * 1 + 1 * |Real.sin θ| := by
        rw [abs_mul, abs_mul]
        exact add_le_add (mul_le_mul_of_nonneg_left (Real.abs_cos_le_one _) (abs_nonneg _))
          (mul_le_mul_of_nonneg_right (Real.abs_cos_le_one _) (abs_nonneg _))
      _ ≤ ((m + 1 : Nat) : ℝ) * |Real.sin θ| := by push_cast; linarith

theorem Q_bound (n : Nat) {y : ℝ} (h0 : 0 ≤ y) (h1 : y ≤ 1) : |(Q n).eval y| ≤ 2 * n + 1 := by
  have hs : Real.sin (Real.arcsin (Real.sqrt y)) = Real.sqrt y :=
    Real.sin_arcsin (by linarith [Real.sqrt_nonneg y]) (Real.sqrt_le_one.mpr h1)
  have h := Q_sin n (Real.arcsin (Real.sqrt y))
  rw [hs, Real.mul_self_sqrt h0] at h
  rcases h0.eq_or_lt with rfl | hpos
  · rw [(Q_coeffs n).1, abs_of_nonneg (by positivity)]
  · have hsq := Real.sqrt_pos.mpr hpos
    have hb := abs_sin_mul_le (2 * n + 1) (Real.arcsin (Real.sqrt y))
    push_cast at hb
    rw [h, hs, abs_mul, abs_of_pos hsq] at hb
    exact le_of_mul_le_mul_left (by linarith) hsq

/-- No frequency up to the limit is amplified by a whole cycle. -/
theorem prod_bound (n : Nat) {y : ℝ} (h0 : 0 ≤ y) (h1 : y ≤ 1) :
    |∏ k ∈ Finset.range n, (1 - y / root n k)| ≤ 1 := by
  have h := Q_bound n h0 h1
  have hn : (0 : ℝ) < 2 * n + 1 := by positivity
  rw [← prod_roots, abs_mul, abs_of_pos hn] at h
  exact le_of_mul_le_mul_left (by linarith) hn

/-- The polynomials above the limit. -/
theorem Q_cosh (n : Nat) (t : ℝ) :
    (-1) ^ n * Real.cosh ((2 * n + 1) * t) = Real.cosh t * (Q n).eval (Real.cosh t * Real.cosh t) := by
  have hstep : ∀ a : ℝ, Real.cosh (a + 2 * t) =
      (4 * (Real.cosh t * Real.cosh t) - 2) * Real.cosh a - Real.cosh (a - 2 * t) := by
    intro a
    rw [Real.cosh_add, Real.cosh_sub, Real.cosh_two_mul]
    have := Real.cosh_sq t
    linear_combination (-2 * Real.cosh a) * this
  induction n using Nat.twoStepInduction with
  | zero => simp [Q]
  | one =>
    have := hstep t
    rw [show t - 2 * t = -t by ring, Real.cosh_neg] at this
    rw [show (2 * ((1 : Nat) : ℝ) + 1) * t = t + 2 * t by push_cast; ring, this]
    simp only [Q, eval_sub, eval_mul, eval_C, eval_X]
    ring
  | more n ih1 ih2 =>
    have h := hstep ((2 * ((n + 1 : Nat) : ℝ) + 1) * t)
    have e1 : (2 * ((n + 1 : Nat) : ℝ) + 1) * t + 2 * t = (2 * ((n + 2 : Nat) : ℝ) + 1) * t := by
      push_cast; ring
    have e2 : (2 * ((n + 1 : Nat) : ℝ) + 1) * t - 2 * t = (2 * (n : ℝ) + 1) * t := by
      push_cast; ring
    rw [e1, e2] at h
    rw [h]
    simp only [Q, eval_sub, eval_mul, eval_C, eval_X]
    rw [pow_succ] at ih2
    rw [pow_succ, pow_succ]
    linear_combination (2 - 4 * (Real.cosh t * Real.cosh t)) * ih2 - ih1

/-- A little above the limit the cycle still damps. -/
theorem prod_bound_above (n : Nat) {e : ℝ} (hn : 1 ≤ n) (h0 : 0 ≤ e) (h1 : (2 * n + 1) ^ 2 * e ≤ 2) :
    |∏ k ∈ Finset.range n, (1 - (1 + e) / root n k)| ≤ 1 := by
  have hn' : (1 : ℝ) ≤ n := by exact_mod_cast hn
  set t := Real.arsinh (Real.sqrt e)
  have hs : Real.sinh t = Real.sqrt e := Real.sinh_arsinh _
  have hc : Real.cosh t * Real.cosh t = 1 + e := by
    have := Real.cosh_sq t
    rw [hs, Real.sq_sqrt h0] at this
    rw [← pow_two, this]; ring
  have h := Q_cosh n t
  rw [hc] at h
  have hc1 : 1 ≤ Real.cosh t := Real.one_le_cosh t
  have ht0 : 0 ≤ t := Real.arsinh_nonneg_iff.mpr (Real.sqrt_nonneg e)
  have ht : t ^ 2 ≤ e := by
    have h1 : t ≤ Real.sqrt e := by rw [← hs]; exact Real.self_le_sinh_iff.mpr ht0
    have := pow_le_pow_left₀ ht0 h1 2
    rwa [Real.sq_sqrt h0] at this
  have hcosh : Real.cosh ((2 * n + 1) * t) ≤ 2 * n + 1 := by
    refine (Real.cosh_le_exp_half_sq _).trans ?_
    have : ((2 * (n : ℝ) + 1) * t) ^ 2 / 2 ≤ 1 := by
      rw [mul_pow]
      have := mul_le_mul_of_nonneg_left ht (sq_nonneg (2 * (n : ℝ) + 1))
      linarith
    have h3 := Real.exp_one_lt_three
    have := Real.exp_le_exp.mpr this
    linarith
  have hq : |(Q n).eval (1 + e)| ≤ 2 * n + 1 := by
    have habs : Real.cosh ((2 * n + 1) * t) = Real.cosh t * |(Q n).eval (1 + e)| := by
      have := congrArg abs h
      rw [abs_mul, abs_pow, abs_neg, abs_one, one_pow, one_mul, abs_of_pos (Real.cosh_pos _), abs_mul,
        abs_of_pos (Real.cosh_pos _)] at this
      exact this
    have := abs_nonneg ((Q n).eval (1 + e))
    nlinarith
  have hp : (0 : ℝ) < 2 * n + 1 := by positivity
  rw [← prod_roots, abs_mul, abs_of_pos hp] at hq
  exact le_of_mul_le_mul_left (by linarith) hp

end Verif.Akaze
