import Mathlib.Topology.Order.IntermediateValue
import Mathlib.Topology.Instances.Real.Lemmas
import Verif.Props.LambdaTwistBasic

/-!
# Newton's method on a cubic, from the outer side of a root
-/

namespace Verif.Geo.P3P

/-- The cubic seen from the point `t` in direction `σ`. -/
structure Side (b c d t σ m p v : ℝ) : Prop where
  sq : σ * σ = 1
  val : ∀ u, cubic b c d (t + σ * u) = σ * (m + p * u + v * u ^ 2 + u ^ 3)
  der : ∀ u, cubicDeriv b c (t + σ * u) = p + 2 * v * u + 3 * u ^ 2
  hp : 0 ≤ p
  hv : 0 ≤ v

variable {b c d t σ m p v u0 : ℝ}

theorem Side.step (h : Side b c d t σ m p v) (h0 : m + p * u0 + v * u0 ^ 2 + u0 ^ 3 = 0) (hu0 : 0 ≤ u0)
    {u : ℝ} (hu : 0 ≤ u) (hB : 0 < p + 2 * v * u + 3 * u ^ 2) :
    ∃ u', newtonStep b c d (t + σ * u) = some (t + σ * u') ∧ u0 ≤ u' ∧
      (u0 ≤ u → u' - u0 ≤ 2 / 3 * (u - u0)) := by
  have hne : p + 2 * v * u + 3 * u ^ 2 ≠ 0 := hB.ne'
  refine ⟨u - (m + p * u + v * u ^ 2 + u ^ 3) / (p + 2 * v * u + 3 * u ^ 2), ?_, ?_, ?_⟩
  · unfold newtonStep
    rw [h.val, h.der, cdiv_of_ne hne]
    simp only [Option.map_some, Option.some.injEq]
    field_simp
    ring
  · rw [le_sub_comm, div_le_iff₀ hB]
    have : (u - u0) * (p + 2 * v * u + 3 * u ^ 2) - (m + p * u + v * u ^ 2 + u ^ 3) =
        (u - u0) ^ 2 * (v + 2 * u + u0) := by linear_combination -h0
    have h2 : 0 ≤ (u - u0) ^ 2 * (v + 2 * u + u0) :=
      mul_nonneg (sq_nonneg _) (by linarith [h.hv])
    linarith
  · intro hle
    have : (u - u0) / 3 ≤ (m + p * u + v * u ^ 2 + u ^ 3) / (p + 2 * v * u + 3 * u ^ 2) := by
      rw [le_div_iff₀ hB]
      have e : (m + p * u + v * u ^ 2 + u ^ 3) - (u - u0) / 3 * (p + 2 * v * u + 3 * u ^ 2) =
        (u - u0) * (2 / 3 * p + v * (u / 3 + u0) + u * u0 + u0 ^ 2) := by linear_combination h0
      have e2 : 0 ≤ (u - u0) * (2 / 3 * p + v * (u / 3 + u0) + u * u0 + u0 ^ 2) := by
        apply mul_nonneg (by linarith)
        have := h.hp
        have := mul_nonneg h.hv (by linarith : 0 ≤ u / 3 + u0)
        have := mul_nonneg hu hu0
        have := sq_nonneg u0
        linarith
      linarith
    linarith

theorem Side.deriv_pos (h : Side b c d t σ m p v) (hpos : 0 < p ∨ 0 < u0) (hu0 : 0 ≤ u0) {u : ℝ}
    (hu : u0 ≤ u) : 0 < p + 2 * v * u + 3 * u ^ 2 := by
  have h1 := mul_nonneg h.hv (hu0.trans hu)
  rcases hpos with hp | hp
  · have := sq_nonneg u; linarith
  · have := h.hp
    have : 0 < u ^ 2 := pow_pos (hp.trans_le hu) 2
    linarith

theorem Side.fixed (h : Side b c d t σ m p v) (h0 : m + p * u0 + v * u0 ^ 2 + u0 ^ 3 = 0)
    (hpos : 0 < p ∨ 0 < u0) (hu0 : 0 ≤ u0) : ∀ (n : Nat) (u : ℝ), u0 ≤ u →
    ∃ u', newtonFixed b c d n (t + σ * u) = some (t + σ * u') ∧ u0 ≤ u' ∧
      u' - u0 ≤ (2 / 3) ^ n * (u - u0) := by
  intro n
  induction n with
  | zero => intro u hu; exact ⟨u, rfl, hu, by simp⟩
  | succ n ih =>
    intro u hu
    obtain ⟨w, h1, h2, h3⟩ := h.step h0 hu0 (hu0.trans hu) (h.deriv_pos hpos hu0 hu)
    obtain ⟨w', h4, h5, h6⟩ := ih w h2
    refine ⟨w', ?_, h5, ?_⟩
    · rw [newtonFixed, h1]; exact h4
    · have := mul_le_mul_of_nonneg_left (h3 hu) (by positivity : (0 : ℝ) ≤ (2 / 3) ^ n)
      rw [pow_succ]
      linarith

theorem Side.until (h : Side b c d t σ m p v) (h0 : m + p * u0 + v * u0 ^ 2 + u0 ^ 3 = 0)
    (hpos : 0 < p ∨ 0 < u0) (hu0 : 0 ≤ u0) : ∀ (n : Nat) (u : ℝ), u0 ≤ u →
    ∃ u', newtonUntil b c d n (t + σ * u) = some (t + σ * u') ∧ u0 ≤ u' ∧ u' ≤ u ∧
      (|cubic b c d (t + σ * u')| ≤ 1 / 10 ^ 13 ∨ u' - u0 ≤ (2 / 3) ^ n * (u - u0)) := by
  intro n
  induction n with
  | zero => intro u hu; exact ⟨u, rfl, hu, le_refl u, by simp⟩
  | succ n ih =>
    intro u hu
    rw [newtonUntil]
    split
    · obtain ⟨w, h1, h2, h3⟩ := h.step h0 hu0 (hu0.trans hu) (h.deriv_pos hpos hu0 hu)
      obtain ⟨w', h4, h5, h6, h7⟩ := ih w h2
      have h3 := h3 hu
      refine ⟨w', ?_, h5, by linarith, ?_⟩
      · rw [h1]; exact h4
      · refine h7.imp id fun h7 => ?_
        have := mul_le_mul_of_nonneg_left h3 (by positivity : (0 : ℝ) ≤ (2 / 3) ^ n)
        rw [pow_succ]
        linarith
    · rename_i hle
      exact ⟨u, rfl, hu, le_refl u, Or.inl (not_lt.mp hle)⟩

theorem Side.dist (h : Side b c d t σ m p v) (x y : ℝ) :
    |(t + σ * x) - (t + σ * y)| = |x - y| := by
  have e : (t + σ * x) - (t + σ * y) = σ * (x - y) := by ring
  have hs : |σ| = 1 := by
    rcases mul_self_eq_one_iff.mp h.sq with h | h <;> rw [h] <;> simp
  rw [e, abs_mul, hs, one_mul]

theorem Side.root (h : Side b c d t σ m p v) (h0 : m + p * u0 + v * u0 ^ 2 + u0 ^ 3 = 0) :
    cubic b c d (t + σ * u0) = 0 := by rw [h.val, h0, mul_zero]

theorem exists_root {s : ℝ} (hs : 0 ≤ s) (hm : m ≤ 0) (hf : 0 ≤ m + p * s + v * s ^ 2 + s ^ 3) :
    ∃ u0, 0 ≤ u0 ∧ u0 ≤ s ∧ m + p * u0 + v * u0 ^ 2 + u0 ^ 3 = 0 := by
  have hc : ContinuousOn (fun u : ℝ => m + p * u + v * u ^ 2 + u ^ 3) (Set.Icc 0 s) := by
    apply Continuous.continuousOn; fun_prop
  obtain ⟨u, hu, e⟩ := intermediate_value_Icc hs hc (show (0 : ℝ) ∈ Set.Icc _ _ from
    ⟨by simpa using hm, hf⟩)
  exact ⟨u, hu.1, hu.2, e⟩

/-- Both loops, from a point on the outer side. -/
theorem Side.loops (h : Side b c d t σ m p v) (h0 : m + p * u0 + v * u0 ^ 2 + u0 ^ 3 = 0)
    (hpos : 0 < p ∨ 0 < u0) (hu0 : 0 ≤ u0) (i j : Nat) {u : ℝ} (hu : u0 ≤ u) :
    ∃ r, (newtonFixed b c d i (t + σ * u)).bind (newtonUntil b c d j) = some r ∧
      |r - (t + σ * u0)| ≤ (2 / 3) ^ i * |(t + σ * u) - (t + σ * u0)| ∧
      (|cubic b c d r| ≤ 1 / 10 ^ 13 ∨
        |r - (t + σ * u0)| ≤ (2 / 3) ^ (i + j) * |(t + σ * u) - (t + σ * u0)|) := by
  obtain ⟨w, h1, h2, h3⟩ := h.fixed h0 hpos hu0 i u hu
  obtain ⟨w', h4, h5, h6, h7⟩ := h.until h0 hpos hu0 j w h2
  refine ⟨t + σ * w', ?_, ?_, ?_⟩
  · rw [h1]; exact h4
  · rw [h.dist, h.dist, abs_of_nonneg (by linarith), abs_of_nonneg (by linarith)]
    linarith
  · refine h7.imp id fun h7 => ?_
    rw [h.dist, h.dist, abs_of_nonneg (by linarith), abs_of_nonneg (by linarith)]
    have := mul_le_mul_of_nonneg_left h3 (by positivity : (0 : ℝ) ≤ (2 / 3) ^ j)
    rw [pow_add]
    linarith

end Verif.Geo.P3P
