import Verif.Lemmas.CubeRoot

/-!
# C63: the root of the cubic
-/

namespace Verif.Geo.P3P

variable {b c d : ℝ}

theorem cubic_at (b c d t u : ℝ) : cubic b c d (t + u) =
    cubic b c d t + cubicDeriv b c t * u + (3 * t + b) * u ^ 2 + u ^ 3 := by
  unfold cubic cubicDeriv; ring

theorem cubicDeriv_at (b c t u : ℝ) : cubicDeriv b c (t + u) =
    cubicDeriv b c t + 2 * (3 * t + b) * u + 3 * u ^ 2 := by
  unfold cubicDeriv; ring

/-- The two stationary points: the outer side of each, and the starting point there. -/
theorem start_of_lt (h : 3 * c < b * b) : ∃ t σ m v s, Side b c d t σ m 0 v ∧ m < 0 ∧ 0 < v ∧ 0 < s ∧
    v * s ^ 2 = -m ∧ cubeStart b c d = some (t + σ * s) := by
  set w := Real.sqrt (b * b - 3 * c) with hw
  have hw0 : 0 < w := Real.sqrt_pos.mpr (by linarith)
  have hww : w * w = b * b - 3 * c := Real.mul_self_sqrt (by linarith)
  have e1 : 3 * ((-b - w) / 3) + b = -w := by ring
  have e2 : 3 * ((-b + w) / 3) + b = w := by ring
  have d1 : cubicDeriv b c ((-b - w) / 3) = 0 := by
    unfold cubicDeriv; linear_combination (1 / 3) * hww
  have d2 : cubicDeriv b c ((-b + w) / 3) = 0 := by
    unfold cubicDeriv; linear_combination (1 / 3) * hww
  unfold cubeStart
  rw [if_pos h.le]
  simp only
  rw [← hw, e1, e2]
  by_cases hk : 0 < cubic b c d ((-b - w) / 3)
  · rw [if_pos hk]
    generalize hK : cubic b c d ((-b - w) / 3) = K at hk
    have hq : -K / -w = K / w := by rw [neg_div_neg_eq]
    have hpos : 0 < K / w := div_pos hk hw0
    refine ⟨(-b - w) / 3, -1, -K, w, Real.sqrt (K / w), ⟨by ring, ?_, ?_, le_refl _, hw0.le⟩, by linarith,
      hw0, Real.sqrt_pos.mpr hpos, ?_, ?_⟩
    · intro u
      rw [cubic_at, hK, d1, e1]; ring
    · intro u
      rw [cubicDeriv_at, d1, e1]; ring
    · rw [Real.sq_sqrt hpos.le, mul_div_cancel₀ _ hw0.ne', neg_neg]
    · rw [cdiv_of_ne (neg_ne_zero.mpr hw0.ne'), hq]
      simp only [bind, Option.bind_some, csqrt, if_neg (not_lt.mpr hpos.le), pure,
        Option.some.injEq]
      ring
  · rw [if_neg hk]
    have hK2 : cubic b c d ((-b + w) / 3) = cubic b c d ((-b - w) / 3) - 4 * w ^ 3 / 27 := by
      have : (-b + w) / 3 = (-b - w) / 3 + 2 * w / 3 := by ring
      rw [this, cubic_at, d1, e1]; ring
    have hneg : cubic b c d ((-b + w) / 3) < 0 := by
      rw [hK2]
      have := pow_pos hw0 3
      linarith [not_lt.mp hk]
    generalize hK : cubic b c d ((-b + w) / 3) = K at hneg
    have hpos : 0 < -K / w := div_pos (by linarith) hw0
    refine ⟨(-b + w) / 3, 1, K, w, Real.sqrt (-K / w), ⟨by ring, ?_, ?_, le_refl _, hw0.le⟩, hneg,
      hw0, Real.sqrt_pos.mpr hpos, ?_, ?_⟩
    · intro u
      rw [one_mul, cubic_at, hK, d2, e2]; ring
    · intro u
      rw [one_mul, cubicDeriv_at, d2, e2]
    · rw [Real.sq_sqrt hpos.le, mul_div_cancel₀ _ hw0.ne']
    · rw [cdiv_of_ne hw0.ne']
      simp only [bind, Option.bind_some, csqrt, if_neg (not_lt.mpr hpos.le), pure,
        Option.some.injEq]
      ring

/-- **C63** The starting point is NaN exactly if the cubic has a stationary inflection point. -/
theorem C63_start_nan (b c d : ℝ) : cubeStart b c d = none ↔ b * b = 3 * c := by
  constructor
  · intro h
    by_contra hne
    rcases lt_or_gt_of_ne hne with hlt | hlt
    · unfold cubeStart at h
      rw [if_neg (not_le.mpr hlt)] at h
      simp only at h
      split at h <;> exact nomatch h
    · obtain ⟨t, σ, m, v, s, _, _, _, _, _, e⟩ := start_of_lt (d := d) hlt
      rw [e] at h
      exact nomatch h
  · intro h
    unfold cubeStart
    rw [if_pos h.ge, h, sub_self, Real.sqrt_zero]
    simp only [sub_zero, add_zero]
    have : 3 * (-b / 3) + b = 0 := by ring
    rw [this]
    simp [cdiv]

/-- **C63** (the full claim is false) No root is found for `r³ = 1`. -/
theorem C63_cube_of_one_not_found : cubeRoot 0 0 (-1) = none ∧ cubic 0 0 (-1) 1 = 0 := by
  constructor
  · unfold cubeRoot
    rw [(C63_start_nan 0 0 (-1)).mpr (by norm_num)]
    rfl
  · norm_num [cubic]

/-- **C63** With two stationary points a root is always found: each Newton step from the starting point
reduces the distance to a root by at least a third, no step divides by zero, and the loop ends either
with a value of at most 1e-13 or after 50 steps. -/
theorem C63_two_stationary_points_partial (d : ℝ) (h : 3 * c < b * b) :
    ∃ start root r, cubeStart b c d = some start ∧ cubic b c d root = 0 ∧
      cubeRoot b c d = some r ∧ |r - root| ≤ (2 / 3) ^ 7 * |start - root| ∧
      (|cubic b c d r| ≤ 1 / 10 ^ 13 ∨ |r - root| ≤ (2 / 3) ^ 50 * |start - root|) := by
  obtain ⟨t, σ, m, v, s, hS, hm, hv, hs, hvs, he⟩ := start_of_lt (d := d) h
  have hf : 0 ≤ m + 0 * s + v * s ^ 2 + s ^ 3 := by
    have := pow_pos hs 3
    linarith
  obtain ⟨u0, h1, h2, h3⟩ := exists_root hs.le hm.le hf
  have hu0 : 0 < u0 := by
    rcases h1.lt_or_eq with h | h
    · exact h
    · rw [← h] at h3
      exfalso
      have : m = 0 := by linear_combination h3
      linarith
  obtain ⟨r, h4, h5, h6⟩ := hS.loops h3 (Or.inr hu0) h1 7 43 h2
  refine ⟨_, _, r, he, hS.root h3, ?_, h5, h6⟩
  unfold cubeRoot
  rw [he]
  exact h4

/-- **C63** With no stationary point the derivative is positive everywhere. -/
theorem deriv_pos_of_lt (h : b * b < 3 * c) (r : ℝ) : 0 < cubicDeriv b c r := by
  unfold cubicDeriv
  nlinarith [sq_nonneg (3 * r + b)]

theorem newtonFixed_some (h : b * b < 3 * c) (n : Nat) (r : ℝ) : ∃ r', newtonFixed b c d n r = some r' := by
  induction n generalizing r with
  | zero => exact ⟨r, rfl⟩
  | succ n ih =>
    rw [newtonFixed, newtonStep, cdiv_of_ne (deriv_pos_of_lt h r).ne']
    exact ih _

theorem newtonUntil_some (h : b * b < 3 * c) (n : Nat) (r : ℝ) : ∃ r', newtonUntil b c d n r = some r' := by
  induction n generalizing r with
  | zero => exact ⟨r, rfl⟩
  | succ n ih =>
    rw [newtonUntil]
    split
    · rw [newtonStep, cdiv_of_ne (deriv_pos_of_lt h r).ne']
      exact ih _
    · exact ⟨r, rfl⟩

/-- **C63** The result is NaN exactly if the cubic has a stationary inflection point. -/
theorem C63_nan_iff (b c d : ℝ) : cubeRoot b c d = none ↔ b * b = 3 * c := by
  constructor
  · intro h
    by_contra hne
    rcases lt_or_gt_of_ne hne with hlt | hlt
    · have hs : cubeStart b c d ≠ none := fun e => hne ((C63_start_nan b c d).mp e)
      obtain ⟨s, hs⟩ := Option.ne_none_iff_exists'.mp hs
      obtain ⟨r1, h1⟩ := newtonFixed_some (d := d) hlt 7 s
      obtain ⟨r2, h2⟩ := newtonUntil_some (d := d) hlt 43 r1
      unfold cubeRoot at h
      rw [hs, Option.bind_some, h1, Option.bind_some, h2] at h
      exact nomatch h
    · obtain ⟨_, _, r, _, _, e, _⟩ := C63_two_stationary_points_partial d hlt
      rw [e] at h
      exact nomatch h
  · intro h
    unfold cubeRoot
    rw [(C63_start_nan b c d).mpr h]
    rfl

/-- **C63** With no stationary point a root is found the same way, counting from the first step on,
unless both the slope at the inflection point is below 1e-4 and the value there is positive (then the
search starts on the wrong side, and only the absence of divisions by zero is shown). -/
theorem C63_no_stationary_point_partial (h : b * b < 3 * c)
    (hstart : 1 / 10000 ≤ cubicDeriv b c (-b / 3) ∨ cubic b c d (-b / 3) ≤ 0) :
    ∃ start first root r, cubeStart b c d = some start ∧ newtonStep b c d start = some first ∧
      cubic b c d root = 0 ∧ cubeRoot b c d = some r ∧ |r - root| ≤ (2 / 3) ^ 6 * |first - root| ∧
      (|cubic b c d r| ≤ 1 / 10 ^ 13 ∨ |r - root| ≤ (2 / 3) ^ 49 * |first - root|) := by
  have hp : 0 < cubicDeriv b c (-b / 3) := deriv_pos_of_lt h _
  have hv : 3 * (-b / 3) + b = 0 := by ring
  generalize hP : cubicDeriv b c (-b / 3) = p at hp hstart
  generalize hM : cubic b c d (-b / 3) = M at hstart
  -- the search runs on the side `σ`, and starts at distance `u ≥ 0`
  have hside : ∃ σ m u, Side b c d (-b / 3) σ m p 0 ∧ m ≤ 0 ∧ 0 ≤ u ∧
      cubeStart b c d = some (-b / 3 + σ * u) := by
    have hst : cubeStart b c d = if p < 1 / 10000 then some (-b / 3 + 1) else some (-b / 3) := by
      unfold cubeStart
      rw [if_neg (not_le.mpr h)]
      simp only [hP, abs_of_pos hp]
    rcases le_or_gt M 0 with hM0 | hM0
    · refine ⟨1, M, if p < 1 / 10000 then 1 else 0, ⟨by ring, ?_, ?_, hp.le, le_refl _⟩, hM0, ?_, ?_⟩
      · intro u; rw [one_mul, cubic_at, hM, hP, hv]; ring
      · intro u; rw [one_mul, cubicDeriv_at, hP, hv]
      · split <;> norm_num
      · rw [hst]; split <;> simp
    · have hp4 := hstart.resolve_right (not_le.mpr hM0)
      refine ⟨-1, -M, 0, ⟨by ring, ?_, ?_, hp.le, le_refl _⟩, by linarith, le_refl _, ?_⟩
      · intro u; rw [cubic_at, hM, hP, hv]; ring
      · intro u; rw [cubicDeriv_at, hP, hv]; ring
      · rw [hst, if_neg (not_lt.mpr hp4)]; simp
  obtain ⟨σ, m, u, hS, hm, hu, he⟩ := hside
  have hs : 0 ≤ -m / p := div_nonneg (by linarith) hp.le
  obtain ⟨u0, h1, h2, h3⟩ := exists_root (v := 0) (p := p) hs hm (by
    have e : p * (-m / p) = -m := mul_div_cancel₀ _ hp.ne'
    have := pow_nonneg hs 3
    rw [e]
    linarith)
  have hB : 0 < p + 2 * 0 * u + 3 * u ^ 2 := by have := sq_nonneg u; linarith
  obtain ⟨w, hw1, hw2, _⟩ := hS.step h3 h1 hu hB
  obtain ⟨r, h4, h5, h6⟩ := hS.loops h3 (Or.inl hp) h1 6 43 hw2
  refine ⟨_, _, _, r, he, hw1, hS.root h3, ?_, h5, h6⟩
  unfold cubeRoot
  rw [he, Option.bind_some]
  show ((newtonStep b c d _).bind (newtonFixed b c d 6)).bind _ = _
  rw [hw1]
  exact h4

/-- Both cases occur: `r³ - 3 r + 1` has two stationary points, `r³ + r - 1` has none. -/
example : ∃ start root r, cubeStart 0 (-3) 1 = some start ∧ cubic 0 (-3) 1 root = 0 ∧
    cubeRoot 0 (-3) 1 = some r ∧ |r - root| ≤ (2 / 3) ^ 7 * |start - root| ∧
    (|cubic 0 (-3) 1 r| ≤ 1 / 10 ^ 13 ∨ |r - root| ≤ (2 / 3) ^ 50 * |start - root|) :=
  C63_two_stationary_points_partial 1 (by norm_num)

example : cubeRoot 0 1 (-1) ≠ none := by
  rw [Ne, C63_nan_iff]; norm_num

example : (0 : ℝ) * 0 < 3 * 1 ∧ (1 / 10000 : ℝ) ≤ cubicDeriv 0 1 (-0 / 3) := by
  norm_num [cubicDeriv]

end Verif.Geo.P3P
