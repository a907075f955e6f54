import Verif.Lemmas.GraphDescent
import Mathlib.Analysis.Normed.Module.FiniteDimension
import Mathlib.Analysis.SpecificLimits.Basic

/-! Helper lemmas: on a graph whose edges ask for equal values, descent is geometric, also with disturbances. -/

namespace Verif.Graph

open Filter

/-! ## Sequences -/

/-- A sequence that shrinks geometrically apart from disturbances that vanish. -/
theorem shrinks {a d : Nat → ℝ} {σ C : ℝ} (hσ : 0 < σ) (hσ1 : σ ≤ 1) (ha : ∀ k, 0 ≤ a k)
    (hd : Tendsto d atTop (nhds 0)) (h : ∀ k, a (k + 1) ≤ (1 - σ + C * d k) * a k + C * d k) : Tendsto a atTop (nhds 0) := by
  have hCd : Tendsto (fun k => C * d k) atTop (nhds 0) := by
    have := hd.const_mul C
    rwa [mul_zero] at this
  rw [Metric.tendsto_atTop]
  intro η hη
  obtain ⟨N, hN⟩ := (Metric.tendsto_atTop.mp hCd) (min (σ / 2) (σ * η / 4)) (by positivity)
  have hN' : ∀ k, N ≤ k → C * d k ≤ σ / 2 ∧ C * d k ≤ σ * η / 4 := by
    intro k hk
    have := hN k hk
    rw [Real.dist_eq, sub_zero] at this
    have h1 := (le_abs_self _).trans this.le
    exact ⟨h1.trans (min_le_left _ _), h1.trans (min_le_right _ _)⟩
  have step : ∀ j, a (N + j) - η / 2 ≤ (1 - σ / 2) ^ j * a N := by
    intro j
    induction j with
    | zero =>
      rw [pow_zero, one_mul, Nat.add_zero]
      linarith
    | succ j ih =>
      obtain ⟨h1, h2⟩ := hN' (N + j) (Nat.le_add_right N j)
      have h3 := h (N + j)
      have h4 := ha (N + j)
      have h5 : (1 - σ + C * d (N + j)) * a (N + j) ≤ (1 - σ / 2) * a (N + j) :=
        mul_le_mul_of_nonneg_right (by linarith) h4
      have h6 := mul_le_mul_of_nonneg_left ih (show 0 ≤ 1 - σ / 2 by linarith)
      have h7 : a (N + (j + 1)) = a (N + j + 1) := rfl
      rw [h7, pow_succ']
      nlinarith
  have hp : Tendsto (fun j => (1 - σ / 2) ^ j * a N) atTop (nhds 0) := by
    have := (tendsto_pow_atTop_nhds_zero_of_lt_one (show 0 ≤ 1 - σ / 2 by linarith) (by linarith)).mul_const (a N)
    rwa [zero_mul] at this
  obtain ⟨M, hM⟩ := (Metric.tendsto_atTop.mp hp) (η / 2) (by linarith)
  refine ⟨N + M, ?_⟩
  intro k hk
  obtain ⟨j, rfl⟩ := Nat.exists_eq_add_of_le (show N ≤ k by omega)
  have h1 := hM j (by omega)
  rw [Real.dist_eq, sub_zero] at h1 ⊢
  have h2 := (le_abs_self _).trans_lt h1
  have h3 := step j
  rw [abs_of_nonneg (ha _)]
  linarith

/-! ## The gap -/

variable {vs : List Nat} {es : Edges}

theorem pull_add (hw : ∀ e ∈ es, e.2.2 = 0) (x y : Nat → ℝ) (v : Nat) :
    pull es (fun u => x u + y u) v = pull es x v + pull es y v := by
  unfold pull
  rw [← sum_map_add]
  congr 1
  apply List.map_congr_left
  intro e he
  have := hw e (List.mem_filter.mp he).1
  unfold res
  rw [this]
  ring

theorem pull_mul (hw : ∀ e ∈ es, e.2.2 = 0) (c : ℝ) (x : Nat → ℝ) (v : Nat) :
    pull es (fun u => c * x u) v = c * pull es x v := by
  unfold pull
  rw [← sum_map_mul]
  congr 1
  apply List.map_congr_left
  intro e he
  have := hw e (List.mem_filter.mp he).1
  unfold res
  rw [this]
  ring

theorem pull_congr {x y : Nat → ℝ} (h : ∀ e ∈ es, x e.1 = y e.1 ∧ x e.2.1 = y e.2.1) (v : Nat) : pull es x v = pull es y v := by
  unfold pull
  congr 1
  apply List.map_congr_left
  intro e he
  obtain ⟨h1, h2⟩ := h e (List.mem_filter.mp he).1
  unfold res
  rw [h1, h2]

section
variable (hn : vs.Nodup) (hv : ∀ e ∈ es, e.1 ∈ vs) (hs : (es.map flip).Perm es) (hw : ∀ e ∈ es, e.2.2 = 0)
include hn hv hs hw

theorem pull_symm (x y : Nat → ℝ) : over vs (fun v => y v * pull es x v) = over vs (fun v => x v * pull es y v) := by
  rw [over_pull hn hv hs, over_pull hn hv hs]
  congr 2
  apply List.map_congr_left
  intro e he
  unfold res
  rw [hw e he]
  ring

theorem energy_pull (x : Nat → ℝ) : energy es x = -2 * over vs (fun v => x v * pull es x v) := by
  rw [over_pull hn hv hs]
  have : energy es x = -1 * (es.map (fun e => (x e.1 - x e.2.1) * res x e)).sum := by
    rw [← sum_map_mul]
    unfold energy
    congr 1
    apply List.map_congr_left
    intro e he
    unfold res
    rw [hw e he]
    ring
  rw [this]
  ring

/-- The energy is at most a multiple of the squared pulls. -/
theorem gap : ∃ c > 0, ∀ x : Nat → ℝ, energy es x ≤ c * over vs (fun v => pull es x v * pull es x v) := by
  classical
  have hend : ∀ e ∈ es, e.1 ∈ vs ∧ e.2.1 ∈ vs := fun e he =>
    ⟨hv e he, hv (flip e) (hs.mem_iff.mp (List.mem_map.mpr ⟨e, he, rfl⟩))⟩
  let V := {v : Nat // v ∈ vs} → ℝ
  let ext : V → Nat → ℝ := fun y n => if h : n ∈ vs then y ⟨n, h⟩ else 0
  have hext : ∀ (y : V) (v : Nat) (h : v ∈ vs), ext y v = y ⟨v, h⟩ := fun y v h => dif_pos h
  let f : V →ₗ[ℝ] V :=
    { toFun := fun y v => pull es (ext y) v.1
      map_add' := by
        intro y z
        funext v
        show pull es (ext (y + z)) v.1 = pull es (ext y) v.1 + pull es (ext z) v.1
        rw [← pull_add hw]
        apply pull_congr
        intro e he
        obtain ⟨h1, h2⟩ := hend e he
        rw [hext _ _ h1, hext _ _ h1, hext _ _ h1, hext _ _ h2, hext _ _ h2, hext _ _ h2]
        exact ⟨rfl, rfl⟩
      map_smul' := by
        intro c y
        funext v
        show pull es (ext (c • y)) v.1 = c * pull es (ext y) v.1
        rw [← pull_mul hw]
        apply pull_congr
        intro e he
        obtain ⟨h1, h2⟩ := hend e he
        rw [hext _ _ h1, hext _ _ h1, hext _ _ h2, hext _ _ h2]
        exact ⟨rfl, rfl⟩ }
  obtain ⟨g, hg⟩ := f.rangeRestrict.exists_rightInverse_of_surjective f.range_rangeRestrict
  let G : LinearMap.range f →L[ℝ] V := LinearMap.toContinuousLinearMap g
  refine ⟨2 * (vs.length * ‖G‖) + 1, by positivity, ?_⟩
  intro x
  -- the values at the vertices
  let y : V := fun v => x v.1
  let u : LinearMap.range f := ⟨f y, LinearMap.mem_range_self f y⟩
  have hu : f (g u) = f y := by
    have := congrArg Subtype.val (LinearMap.congr_fun hg u)
    exact this
  have hfy : ∀ (v : Nat) (h : v ∈ vs), f y ⟨v, h⟩ = pull es x v := by
    intro v h
    show pull es (ext y) v = pull es x v
    apply pull_congr
    intro e he
    obtain ⟨h1, h2⟩ := hend e he
    exact ⟨hext _ _ h1, hext _ _ h2⟩
  have h1 : over vs (fun v => x v * pull es x v) = over vs (fun v => ext (g u) v * pull es x v) := by
    rw [← pull_symm hn hv hs hw (ext (g u)) x]
    unfold over
    congr 1
    apply List.map_congr_left
    intro v h
    rw [← hfy v h, ← hu]
    rfl
  have hsum : 0 ≤ over vs (fun v => pull es x v * pull es x v) := sum_map_nonneg _ _ (fun v _ => mul_self_nonneg _)
  have hone : ∀ v ∈ vs, pull es x v * pull es x v ≤ over vs (fun v => pull es x v * pull es x v) := by
    intro v h
    refine List.single_le_sum ?_ _ (List.mem_map.mpr ⟨v, h, rfl⟩)
    intro a ha
    obtain ⟨w, _, rfl⟩ := List.mem_map.mp ha
    exact mul_self_nonneg _
  have hnorm : ‖u‖ ≤ Real.sqrt (over vs (fun v => pull es x v * pull es x v)) := by
    show ‖f y‖ ≤ _
    rw [pi_norm_le_iff_of_nonneg (Real.sqrt_nonneg _)]
    rintro ⟨v, h⟩
    rw [hfy v h, Real.norm_eq_abs]
    apply Real.le_sqrt_of_sq_le
    rw [sq_abs, pow_two]
    exact hone v h
  have hg' : ∀ v ∈ vs, |ext (g u) v * pull es x v| ≤ ‖G‖ * over vs (fun v => pull es x v * pull es x v) := by
    intro v h
    rw [hext _ _ h, abs_mul]
    have a1 : |g u ⟨v, h⟩| ≤ ‖G‖ * Real.sqrt (over vs (fun v => pull es x v * pull es x v)) := by
      have b1 : ‖g u ⟨v, h⟩‖ ≤ ‖g u‖ := norm_le_pi_norm (g u) ⟨v, h⟩
      have b2 : ‖G u‖ ≤ ‖G‖ * ‖u‖ := G.le_opNorm u
      have b3 := mul_le_mul_of_nonneg_left hnorm (norm_nonneg G)
      exact (b1.trans b2).trans b3
    have a2 : |pull es x v| ≤ Real.sqrt (over vs (fun v => pull es x v * pull es x v)) := by
      apply Real.le_sqrt_of_sq_le
      rw [sq_abs, pow_two]
      exact hone v h
    have a3 := mul_le_mul a1 a2 (abs_nonneg _) (mul_nonneg (norm_nonneg G) (Real.sqrt_nonneg _))
    rw [mul_assoc, Real.mul_self_sqrt hsum] at a3
    exact a3
  have h2 : -over vs (fun v => ext (g u) v * pull es x v) ≤
      vs.length * (‖G‖ * over vs (fun v => pull es x v * pull es x v)) := by
    have b1 := sum_map_le vs (fun v => -1 * (ext (g u) v * pull es x v))
      (fun _ => ‖G‖ * over vs (fun v => pull es x v * pull es x v)) (fun v h => by
        have := neg_le_abs (ext (g u) v * pull es x v)
        have := hg' v h
        linarith)
    rw [sum_map_mul, List.map_const', List.sum_replicate, nsmul_eq_mul] at b1
    unfold over
    unfold over at b1
    linarith
  rw [energy_pull hn hv hs hw, h1]
  nlinarith

/-- Descent with a disturbance. -/
theorem descend_disturbed {D r : ℝ} (hD : ∀ v ∈ vs, (degree es v : ℝ) ≤ D) (hr : 0 < r) (hrD : 2 * (r * D) ≤ 1) :
    ∃ σ K, 0 < σ ∧ σ ≤ 1 ∧ 0 ≤ K ∧ ∀ x u : Nat → ℝ,
      energy es (fun v => descend r es x v + u v) ≤ (1 - σ) * energy es x + K * over vs (fun v => u v * u v) := by
  obtain ⟨c, hc, hgap⟩ := gap hn hv hs hw
  -- the part of the energy that goes
  obtain ⟨ρ, hρ0, hρ1, hρ⟩ : ∃ ρ, 0 < ρ ∧ ρ ≤ 1 ∧ ∀ x, energy es (descend r es x) ≤ (1 - ρ) * energy es x := by
    refine ⟨min (2 * r / c) 1, by positivity, min_le_right _ _, ?_⟩
    intro x
    have h1 := energy_descend hn hv hs r hD x
    have h2 := hgap x
    have hG : 0 ≤ over vs (fun v => pull es x v * pull es x v) := sum_map_nonneg _ _ (fun v _ => mul_self_nonneg _)
    have hE : 0 ≤ energy es x := sum_map_nonneg _ _ (fun v _ => mul_self_nonneg _)
    generalize over vs (fun v => pull es x v * pull es x v) = G at *
    have h3 : energy es (descend r es x) ≤ energy es x - 2 * r * G := by
      have : 0 ≤ r * G * (1 - 2 * (r * D)) := mul_nonneg (mul_nonneg hr.le hG) (by linarith)
      nlinarith
    have h4 : 2 * r / c * energy es x ≤ 2 * r * G := by
      rw [div_mul_eq_mul_div, div_le_iff₀ hc]
      nlinarith
    have h5 : min (2 * r / c) 1 * energy es x ≤ 2 * r / c * energy es x :=
      mul_le_mul_of_nonneg_right (min_le_left _ _) hE
    linarith
  have hadd : ∀ x u : Nat → ℝ, energy es (fun v => x v + u v) ≤
      (1 + ρ / 2) * energy es x + (1 + 2 / ρ) * (es.map (fun e => (u e.1 - u e.2.1) * (u e.1 - u e.2.1))).sum := by
    intro x u
    unfold energy
    rw [← sum_map_mul, ← sum_map_mul, ← sum_map_add]
    apply sum_map_le
    intro e _
    have e1 : res (fun v => x v + u v) e = res x e - (u e.1 - u e.2.1) := by unfold res; ring
    rw [e1]
    generalize res x e = p
    generalize u e.1 - u e.2.1 = q
    have h1 : 0 ≤ ρ / 2 * ((p + 2 / ρ * q) * (p + 2 / ρ * q)) := mul_nonneg (by linarith) (mul_self_nonneg _)
    have h2 : ρ / 2 * ((p + 2 / ρ * q) * (p + 2 / ρ * q)) = ρ / 2 * (p * p) + 2 * (p * q) + 2 / ρ * (q * q) := by
      field_simp
      ring
    nlinarith
  have hD0 : 0 ≤ max D 0 := le_max_right _ _
  refine ⟨ρ / 2, (1 + 2 / ρ) * (4 * max D 0), by linarith, by linarith, by positivity, ?_⟩
  intro x u
  have h1 := hadd (descend r es x) u
  have h2 := hρ x
  have h3 := sum_differences_le hn hv hs (D := max D 0) (fun v h => (hD v h).trans (le_max_left _ _)) u
  have hE : 0 ≤ energy es x := sum_map_nonneg _ _ (fun v _ => mul_self_nonneg _)
  have h4 := mul_le_mul_of_nonneg_left h2 (show 0 ≤ 1 + ρ / 2 by linarith)
  have h5 := mul_le_mul_of_nonneg_left h3 (show 0 ≤ 1 + 2 / ρ by positivity)
  have h6 : (1 + ρ / 2) * ((1 - ρ) * energy es x) ≤ (1 - ρ / 2) * energy es x := by
    nlinarith [mul_nonneg (mul_self_nonneg ρ) hE]
  linarith

end

end Verif.Graph
