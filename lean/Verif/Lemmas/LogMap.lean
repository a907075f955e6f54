import Verif.Model.PoseGraph
import Verif.Lemmas.Pose

/-! Helper lemmas: the logarithm of a rotation. -/

namespace Verif.Geo

/-- The skew part of a matrix as a vector, twice. -/
@[lin] def skewPart {K : Type} [CommRing K] (A : M3 K) : V3 K :=
  ⟨A.m32 - A.m23, A.m13 - A.m31, A.m21 - A.m12⟩

theorem logRot_eq (A : M3 ℝ) : logRot A = if (skewPart A).norm = 0 then V3.zero else
    V3.smul (Real.arccos ((A.trace - 1) / 2)) (V3.smul (1 / (skewPart A).norm) (skewPart A)) := rfl

/-- For a rotation: `(1 + tr A) (A + Aᵀ) = (tr² A - 1) I + s sᵀ`. -/
theorem M3.IsRot.symm_part {A : M3 ℝ} (h : A.IsRot) :
    M3.smul (1 + A.trace) (A.add A.transpose) =
      (M3.smul (A.trace * A.trace - 1) M3.one).add (M3.outer (skewPart A) (skewPart A)) := by
  have h1 := h.orth
  have h2 := h.orth'
  have h3 := h.transpose_eq_adj
  obtain ⟨a, b, c, d, e, f, g, i, j⟩ := A
  simp only [lin, M3.adj, M3.mk.injEq] at h1 h2 h3 ⊢
  obtain ⟨p1, p2, p3, p4, p5, p6, p7, p8, p9⟩ := h1
  obtain ⟨q1, q2, q3, q4, q5, q6, q7, q8, q9⟩ := h2
  obtain ⟨r1, r2, r3, r4, r5, r6, r7, r8, r9⟩ := h3
  refine ⟨?_, ?_, ?_, ?_, ?_, ?_, ?_, ?_, ?_⟩
  · linear_combination 2 * r1 + q1 - p5 - p9
  · linear_combination r2 + r4 + p2 + q2
  · linear_combination r7 + r3 + p3 + q3
  · linear_combination r2 + r4 + p2 + q2
  · linear_combination 2 * r5 + q5 - p1 - p9
  · linear_combination r6 + r8 + p6 + q6
  · linear_combination r7 + r3 + p3 + q3
  · linear_combination r6 + r8 + p6 + q6
  · linear_combination 2 * r9 + q9 - p1 - p5


theorem M3.IsRot.normSq_skew {A : M3 ℝ} (h : A.IsRot) :
    (skewPart A).normSq = (1 + A.trace) * (3 - A.trace) := by
  have h1 := congrArg M3.trace h.symm_part
  have e1 : (M3.smul (1 + A.trace) (A.add A.transpose)).trace = (1 + A.trace) * (2 * A.trace) := by
    simp only [lin]; ring
  have e2 : ((M3.smul (A.trace * A.trace - 1) M3.one).add (M3.outer (skewPart A) (skewPart A))).trace =
      3 * (A.trace * A.trace - 1) + (skewPart A).normSq := by simp only [lin]; ring
  rw [e1, e2] at h1
  linear_combination -h1

/-- The trace of a rotation lies between -1 and 3. -/
theorem M3.IsRot.trace_bounds {A : M3 ℝ} (h : A.IsRot) : -1 ≤ A.trace ∧ A.trace ≤ 3 := by
  have h1 := h.normSq_skew
  have h2 := (skewPart A).normSq_nonneg
  rw [h1] at h2
  constructor <;> nlinarith

/-- A rotation without a skew part is the identity or a half turn. -/
theorem M3.IsRot.skew_zero {A : M3 ℝ} (h : A.IsRot) (h0 : skewPart A = V3.zero) (ht : A.trace ≠ -1) : A = M3.one := by
  have h1 := h.normSq_skew
  have h3 : A.trace = 3 := by
    rw [h0] at h1
    have h2 : (1 + A.trace) * (3 - A.trace) = 0 := by rw [← h1]; simp only [lin]; ring
    rcases mul_eq_zero.mp h2 with h | h
    · exact absurd (by linarith) ht
    · linarith
  have h4 := h.symm_part
  rw [h3, h0] at h4
  obtain ⟨a, b, c, d, e, f, g, i, j⟩ := A
  simp only [lin, V3.mk.injEq, M3.mk.injEq] at h0 h4 ⊢
  obtain ⟨s1, s2, s3⟩ := h0
  obtain ⟨t1, t2, t3, t4, t5, t6, t7, t8, t9⟩ := h4
  refine ⟨?_, ?_, ?_, ?_, ?_, ?_, ?_, ?_, ?_⟩ <;> linarith

theorem rodrigues_of_skew {A : M3 ℝ} (h : A.IsRot) (ht : 1 + A.trace ≠ 0) :
    (M3.one.add (M3.smul (1 / 2) (M3.hat (skewPart A)))).add
      (M3.smul (1 / (2 * (1 + A.trace))) (hat2 (skewPart A))) = A := by
  have hs := h.normSq_skew
  have hsym := h.symm_part
  obtain ⟨k, hk⟩ : ∃ k, k = 1 / (2 * (1 + A.trace)) := ⟨_, rfl⟩
  have hk1 : k * (1 + A.trace) = 1 / 2 := by rw [hk]; field_simp
  rw [← hk]
  clear hk
  obtain ⟨a, b, c, d, e, f, g, i, j⟩ := A
  simp only [lin, M3.mk.injEq] at hs hsym hk1 ⊢
  obtain ⟨t1, t2, t3, t4, t5, t6, t7, t8, t9⟩ := hsym
  refine ⟨?_, ?_, ?_, ?_, ?_, ?_, ?_, ?_, ?_⟩
  · linear_combination -k * t1 - k * hs + (2 * a - 2) * hk1
  · linear_combination -k * t2 + (b + d) * hk1
  · linear_combination -k * t3 + (c + g) * hk1
  · linear_combination -k * t4 + (b + d) * hk1
  · linear_combination -k * t5 - k * hs + (2 * e - 2) * hk1
  · linear_combination -k * t6 + (f + i) * hk1
  · linear_combination -k * t7 + (c + g) * hk1
  · linear_combination -k * t8 + (f + i) * hk1
  · linear_combination -k * t9 - k * hs + (2 * j - 2) * hk1

/-- The exponential of the logarithm. -/
theorem expRot_logRot {A : M3 ℝ} (h : A.IsRot) (ht : A.trace ≠ -1) : expRot (logRot A) = A := by
  rw [logRot_eq]
  by_cases h0 : (skewPart A).norm = 0
  · rw [if_pos h0, expRot_zero, h.skew_zero (V3.norm_eq_zero.mp h0) ht]
  · rw [if_neg h0]
    have hn : 0 < (skewPart A).norm := lt_of_le_of_ne (V3.norm_nonneg _) (Ne.symm h0)
    obtain ⟨hb1, hb2⟩ := h.trace_bounds
    set n := (skewPart A).norm with hndef
    have hnn : n * n = (1 + A.trace) * (3 - A.trace) := by rw [hndef, V3.norm_mul_self, h.normSq_skew]
    set c := (A.trace - 1) / 2 with hc
    have hc1 : -1 ≤ c := by rw [hc]; linarith
    have hc2 : c ≤ 1 := by rw [hc]; linarith
    have hcos : Real.cos (Real.arccos c) = c := Real.cos_arccos hc1 hc2
    have hsin : Real.sin (Real.arccos c) = n / 2 := by
      rw [Real.sin_arccos]
      have : 1 - c ^ 2 = (n / 2) ^ 2 := by
        rw [hc]; linear_combination -hnn / 4
      rw [this, Real.sqrt_sq (by positivity)]
    have hpos : 0 < Real.arccos c := by
      rw [Real.arccos_pos]
      by_contra hge
      have : c = 1 := le_antisymm hc2 (not_lt.mp hge)
      have h3 : A.trace = 3 := by rw [hc] at this; linarith
      rw [h3] at hnn
      nlinarith
    set u := V3.smul (1 / n) (skewPart A) with hu
    have hu1 : u.normSq = 1 := by
      apply V3.normalize_normSq
      intro e
      exact h0 (V3.norm_eq_zero.mpr e)
    have hun : u.norm = 1 := V3.norm_of_normSq zero_le_one (by rw [hu1]; ring)
    have hw : (V3.smul (Real.arccos c) u).norm = Real.arccos c := by
      rw [V3.norm_smul, hun, mul_one, abs_of_pos hpos]
    have hne : V3.smul (Real.arccos c) u ≠ V3.zero := by
      intro e
      have := V3.norm_eq_zero.mpr e
      rw [hw] at this
      exact hpos.ne' this
    rw [expRot_of_ne hne, hw, hcos, hsin]
    have e1 : V3.smul (1 / Real.arccos c) (V3.smul (Real.arccos c) u) = u := by
      have := hpos.ne'
      ext <;> simp only [lin] <;> field_simp
    rw [e1, hu]
    have hsym := h.symm_part
    have ht1 : 1 + A.trace ≠ 0 := fun e => ht (by linarith)
    have hk : (1 - c) * (1 / n) * (1 / n) = 1 / (2 * (1 + A.trace)) := by
      have h3 : 3 - A.trace ≠ 0 := by
        intro e
        rw [e] at hnn
        nlinarith
      have : (1 - c) = (3 - A.trace) / 2 := by rw [hc]; ring
      rw [this]
      have h' : (3 - A.trace) / 2 * (1 / n) * (1 / n) = (3 - A.trace) / (2 * (n * n)) := by
        field_simp
      rw [h', hnn]
      field_simp
    have key : rodrigues (V3.smul (1 / n) (skewPart A)) (n / 2) c =
        (M3.one.add (M3.smul (1 / 2) (M3.hat (skewPart A)))).add
          (M3.smul ((1 - c) * (1 / n) * (1 / n)) (hat2 (skewPart A))) := by
      ext <;> simp only [lin] <;> field_simp <;> ring
    rw [key, hk]
    exact rodrigues_of_skew h ht1

/-- The logarithm of the exponential. -/
theorem logRot_expRot {w : V3 ℝ} (h : w.norm < Real.pi) : logRot (expRot w) = w := by
  by_cases h0 : w = V3.zero
  · subst h0
    rw [expRot_zero, logRot_eq, if_pos]
    rw [V3.norm_eq_zero]
    lin3
  · have hn := V3.norm_pos h0
    rw [expRot_of_ne h0]
    have hs : 0 < Real.sin w.norm := Real.sin_pos_of_pos_of_lt_pi hn h
    have hu1 := V3.normalize_normSq h0
    have e1 : skewPart (rodrigues (V3.smul (1 / w.norm) w) (Real.sin w.norm) (Real.cos w.norm)) =
        V3.smul (2 * Real.sin w.norm) (V3.smul (1 / w.norm) w) := by lin3
    have e2 : (V3.smul (2 * Real.sin w.norm) (V3.smul (1 / w.norm) w)).norm = 2 * Real.sin w.norm := by
      have hun : (V3.smul (1 / w.norm) w).norm = 1 := V3.norm_of_normSq zero_le_one (by rw [hu1]; ring)
      rw [V3.norm_smul, hun, mul_one, abs_of_pos (by positivity)]
    rw [logRot_eq, e1, e2, if_neg (by positivity), rodrigues_trace, hu1]
    have e3 : (3 - 2 * (1 - Real.cos w.norm) * 1 - 1) / 2 = Real.cos w.norm := by ring
    rw [e3, Real.arccos_cos hn.le h.le]
    have h1 := hs.ne'
    have h2 := hn.ne'
    ext <;> simp only [lin] <;> field_simp

/-- The logarithm of a half turn is zero. -/
theorem logRot_half {A : M3 ℝ} (h : A.IsRot) (ht : A.trace = -1) : logRot A = V3.zero := by
  rw [logRot_eq, if_pos]
  rw [V3.norm_eq_zero, ← V3.normSq_eq_zero, h.normSq_skew, ht]
  ring

theorem logRot_one : logRot M3.one = V3.zero := by
  rw [logRot_eq, if_pos]
  rw [V3.norm_eq_zero]
  lin3

end Verif.Geo
