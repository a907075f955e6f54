import Verif.Props.Orient
import Mathlib.Analysis.Complex.ExponentialBounds
import Mathlib.Analysis.Real.Pi.Bounds

/-!
# The weights of the samples that give the orientation (C75)
-/

namespace Verif.Akaze

theorem exp_bounds : (0.923116346384 : ℝ) < Real.exp (-(2 / 25)) ∧ Real.exp (-(2 / 25)) < 0.923116346389 := by
  have h := Real.exp_bound (x := -(2 / 25)) (by rw [abs_neg, abs_of_pos] <;> norm_num) (n := 8) (by norm_num)
  rw [abs_le] at h
  simp only [Finset.sum_range_succ, Finset.sum_range_zero, Nat.factorial, abs_neg] at h
  rw [abs_of_pos (by norm_num : (0 : ℝ) < 2 / 25)] at h
  norm_num at h
  constructor <;> linarith [h.1, h.2]

/-- **C75** The gradients are taken at the 109 points of the grid that are less than six steps away, each point once, and
their weights are those of a Gaussian with a standard deviation of 2.5 steps, up to `1e-7`. -/
theorem C75_weights : offsets.Nodup ∧ offsets.length = 109 ∧
    (∀ i j : ℤ, (i, j) ∈ offsets ↔ i ^ 2 + j ^ 2 < 6 ^ 2) ∧
    ∀ i j : ℤ, i ^ 2 + j ^ 2 < 6 ^ 2 →
      |weightAt i j - Real.exp (-(i ^ 2 + j ^ 2) / (2 * 2.5 ^ 2)) / (2 * Real.pi * 2.5 ^ 2)| ≤ 1e-7 := by
  refine ⟨by decide, by decide, fun i j => ?_, fun i j h => ?_⟩
  · constructor
    · intro h
      unfold offsets at h
      have := (List.mem_filter.1 h).2
      simp only [decide_eq_true_eq] at this
      nlinarith
    · intro h
      have h1 : -6 < i ∧ i < 6 := by constructor <;> nlinarith [sq_nonneg j]
      have h2 : -6 < j ∧ j < 6 := by constructor <;> nlinarith [sq_nonneg i]
      unfold offsets
      refine List.mem_filter.2 ⟨?_, by simp only [decide_eq_true_eq]; nlinarith⟩
      refine List.mem_flatMap.2 ⟨(j + 6).toNat, List.mem_range.2 (by omega), List.mem_map.2 ⟨(i + 6).toNat, List.mem_range.2 (by omega), ?_⟩⟩
      ext <;> simp <;> omega
  · have h1 : i.natAbs ≤ 5 := by
      have : -6 < i ∧ i < 6 := by constructor <;> nlinarith [sq_nonneg j]
      omega
    have h2 : j.natAbs ≤ 5 := by
      have : -6 < j ∧ j < 6 := by constructor <;> nlinarith [sq_nonneg i]
      omega
    have e : Real.exp (-((i : ℝ) ^ 2 + (j : ℝ) ^ 2) / (2 * 2.5 ^ 2)) =
        Real.exp (-(2 / 25)) ^ (i.natAbs ^ 2 + j.natAbs ^ 2) := by
      rw [← Real.exp_nat_mul]
      congr 1
      have a1 : ((i.natAbs : ℝ)) ^ 2 = (i : ℝ) ^ 2 := by
        rw [Nat.cast_natAbs, Int.cast_abs, sq_abs]
      have a2 : ((j.natAbs : ℝ)) ^ 2 = (j : ℝ) ^ 2 := by
        rw [Nat.cast_natAbs, Int.cast_abs, sq_abs]
      push_cast
      rw [a1, a2]
      norm_num
      ring
    rw [e]
    unfold weightAt
    generalize i.natAbs = a at *
    generalize j.natAbs = b at *
    obtain ⟨q1, q2⟩ := exp_bounds
    have p1 := Real.pi_gt_d20
    have p2 := Real.pi_lt_d20
    generalize Real.exp (-(2 / 25)) = q at *
    have key : ∀ (n : Nat) (v : ℝ), v - 1e-7 ≤ 0.923116346384 ^ n / (2 * 3.1415926535897932385 * 2.5 ^ 2) →
        0.923116346389 ^ n / (2 * 3.1415926535897932384 * 2.5 ^ 2) ≤ v + 1e-7 →
        |v - q ^ n / (2 * Real.pi * 2.5 ^ 2)| ≤ 1e-7 := by
      intro n v hv1 hv2
      have u1 : (0.923116346384 : ℝ) ^ n / (2 * 3.1415926535897932385 * 2.5 ^ 2) ≤ q ^ n / (2 * Real.pi * 2.5 ^ 2) :=
        div_le_div₀ (by positivity) (pow_le_pow_left₀ (by norm_num) q1.le n) (by positivity) (by nlinarith)
      have u2 : q ^ n / (2 * Real.pi * 2.5 ^ 2) ≤ (0.923116346389 : ℝ) ^ n / (2 * 3.1415926535897932384 * 2.5 ^ 2) :=
        div_le_div₀ (by positivity) (pow_le_pow_left₀ (by linarith) q2.le n) (by norm_num) (by nlinarith)
      rw [abs_le]
      constructor <;> linarith
    refine key _ _ ?_ ?_ <;> clear key e h p1 p2 q1 q2 <;> interval_cases a <;> interval_cases b <;> norm_num [gauss25]

end Verif.Akaze
