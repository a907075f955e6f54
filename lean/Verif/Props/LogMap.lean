import Mathlib.Analysis.Real.Pi.Bounds
import Verif.Lemmas.PoseGraphMoves

/-!
# C84: poses as vectors of se(3)
-/

namespace Verif.Geo

/-- **C84** Every rotation but a half turn is the exponential of its logarithm. -/
theorem C84_exp_log_partial {A : M3 ℝ} (hA : A.IsRot) (h : A.trace ≠ -1) : expRot (logRot A) = A := expRot_logRot hA h

/-- **C84** Rotation vectors shorter than a half turn are recovered exactly. -/
theorem C84_log_exp_partial (w : V3 ℝ) (h : w.norm < Real.pi) : logRot (expRot w) = w := logRot_expRot h

/-- **C84** The logarithm is at most a half turn long, and turns back when the rotation is inverted. -/
theorem C84_log_bounds {A : M3 ℝ} (hA : A.IsRot) :
    (logRot A).norm ≤ Real.pi ∧ logRot A.transpose = (logRot A).neg ∧
      (A.trace ≠ -1 → Real.cos (logRot A).norm = (A.trace - 1) / 2) := by
  have hneg : skewPart A.transpose = (skewPart A).neg := by lin3
  have htr : A.transpose.trace = A.trace := by simp only [lin]
  obtain ⟨hb1, hb2⟩ := hA.trace_bounds
  refine ⟨?_, ?_, ?_⟩
  · rw [logRot_eq]
    split
    · rw [V3.norm_eq_zero.mpr rfl]
      exact Real.pi_pos.le
    · rename_i h0
      have h1 : (V3.smul (1 / (skewPart A).norm) (skewPart A)).norm = 1 :=
        V3.norm_of_normSq zero_le_one (by
          rw [V3.normalize_normSq (fun e => h0 (V3.norm_eq_zero.mpr e))]
          ring)
      rw [V3.norm_smul, h1, mul_one, abs_of_nonneg (Real.arccos_nonneg _)]
      exact Real.arccos_le_pi _
  · rw [logRot_eq, logRot_eq, hneg, V3.norm_neg, htr]
    split
    · lin3
    · lin3
  · intro h
    rw [logRot_eq]
    split
    · rename_i h0
      have := hA.skew_zero (V3.norm_eq_zero.mp h0) h
      rw [this, V3.norm_eq_zero.mpr rfl, Real.cos_zero]
      simp only [lin]
      norm_num
    · rename_i h0
      have h1 : (V3.smul (1 / (skewPart A).norm) (skewPart A)).norm = 1 :=
        V3.norm_of_normSq zero_le_one (by
          rw [V3.normalize_normSq (fun e => h0 (V3.norm_eq_zero.mpr e))]
          ring)
      rw [V3.norm_smul, h1, mul_one, abs_of_nonneg (Real.arccos_nonneg _)]
      exact Real.cos_arccos (by linarith) (by linarith)

/-- **C84** A pose is recovered from its vector, unless its rotation is a half turn. -/
theorem C84_pose_round_trip_partial {a : Iso ℝ} (ha : a.Rigid) (h : a.rot.trace ≠ -1) : a.se3.pose = a := by
  unfold Iso.se3 Tangent.pose
  simp only [expRot_logRot ha h]

/-- **C84** A vector is recovered from its pose, if its rotation is shorter than a half turn. Different vectors of this
kind are different poses. -/
theorem C84_vector_round_trip_partial (v : Tangent) (h : v.rotation.norm < Real.pi) : v.pose.Rigid ∧ v.pose.se3 = v := by
  refine ⟨expRot_isRot _, ?_⟩
  unfold Iso.se3 Tangent.pose
  simp only [logRot_expRot h]

/-- **C84** What is missing: the logarithm of every half turn is zero, so the pose that comes back has no rotation. -/
theorem C84_half_turn_lost {a : Iso ℝ} (ha : a.Rigid) (h : a.rot.trace = -1) :
    a.se3.pose = ⟨M3.one, a.t⟩ ∧ a.se3.pose ≠ a := by
  have h1 : a.se3.pose = ⟨M3.one, a.t⟩ := by
    unfold Iso.se3 Tangent.pose
    simp only [logRot_half ha h, expRot_zero]
  refine ⟨h1, ?_⟩
  intro e
  rw [h1] at e
  have : a.rot = M3.one := by rw [← e]
  rw [this] at h
  simp only [lin] at h
  norm_num at h

/-- A half turn about the vertical: the camera faces backwards. -/
theorem C84_backwards : ∃ a : Iso ℝ, a.Rigid ∧ a.se3.pose ≠ a :=
  ⟨⟨M3.diag (-1) 1 (-1), ⟨1, 2, 3⟩⟩, ⟨by ext <;> simp only [lin] <;> norm_num, by simp only [lin]; norm_num⟩,
    (C84_half_turn_lost ⟨by ext <;> simp only [lin] <;> norm_num, by simp only [lin]; norm_num⟩
      (by simp only [lin]; norm_num)).2⟩

/-- A quarter turn about the vertical with a translation meets the hypotheses. -/
example : let a : Iso ℝ := ⟨⟨0, 0, 1, 0, 1, 0, -1, 0, 0⟩, ⟨1, 2, 3⟩⟩
    a.Rigid ∧ a.rot.trace ≠ -1 ∧ a.rot ≠ M3.one := by
  refine ⟨⟨by ext <;> simp only [lin] <;> norm_num, by simp only [lin]; norm_num⟩, by simp only [lin]; norm_num, ?_⟩
  intro e
  have := congrArg M3.m11 e
  simp only [lin] at this
  norm_num at this

/-- A rotation vector of length one. -/
example : (⟨0.6, 0, 0.8⟩ : V3 ℝ).norm < Real.pi := by
  rw [V3.norm_of_normSq (r := 1) zero_le_one (by simp only [lin]; norm_num)]
  linarith [Real.pi_gt_three]

end Verif.Geo
