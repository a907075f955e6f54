import Mathlib.Analysis.SpecialFunctions.Trigonometric.Deriv
import Mathlib.Tactic.Positivity
import Mathlib.Tactic.FieldSimp
import Mathlib.Tactic.Linarith
import Verif.Model.Pose
import Verif.Lemmas.Linear

/-!
# Lemmas about points, poses and so(3)
-/

namespace Verif.Geo

namespace V3

theorem normSq_nonneg (a : V3 ℝ) : 0 ≤ a.normSq := by
  simp only [lin]
  nlinarith [mul_self_nonneg a.x, mul_self_nonneg a.y, mul_self_nonneg a.z]

theorem norm_nonneg (a : V3 ℝ) : 0 ≤ a.norm := Real.sqrt_nonneg _

theorem norm_mul_self (a : V3 ℝ) : a.norm * a.norm = a.normSq :=
  Real.mul_self_sqrt a.normSq_nonneg

theorem normSq_eq_zero {a : V3 ℝ} : a.normSq = 0 ↔ a = zero := by
  constructor
  · intro h
    simp only [lin] at h
    have hx := mul_self_nonneg a.x
    have hy := mul_self_nonneg a.y
    have hz := mul_self_nonneg a.z
    ext <;> simp only [lin]
    · exact mul_self_eq_zero.mp (by linarith)
    · exact mul_self_eq_zero.mp (by linarith)
    · exact mul_self_eq_zero.mp (by linarith)
  · rintro rfl
    simp only [lin]; ring

theorem norm_eq_zero {a : V3 ℝ} : a.norm = 0 ↔ a = zero := by
  rw [← normSq_eq_zero, ← norm_mul_self, mul_self_eq_zero]

theorem norm_pos {a : V3 ℝ} (h : a ≠ zero) : 0 < a.norm :=
  lt_of_le_of_ne a.norm_nonneg (fun e => h (norm_eq_zero.mp e.symm))

theorem norm_of_normSq {a : V3 ℝ} {r : ℝ} (hr : 0 ≤ r) (h : a.normSq = r * r) : a.norm = r := by
  unfold norm
  rw [h, Real.sqrt_mul_self hr]

theorem norm_smul (s : ℝ) (a : V3 ℝ) : (smul s a).norm = |s| * a.norm := by
  refine norm_of_normSq (mul_nonneg (abs_nonneg s) a.norm_nonneg) ?_
  rw [normSq_smul, ← norm_mul_self, ← abs_mul_abs_self s]
  ring

theorem norm_neg (a : V3 ℝ) : a.neg.norm = a.norm := by
  unfold norm; rw [normSq_neg]

theorem normalize_normSq {a : V3 ℝ} (h : a ≠ zero) : (smul (1 / a.norm) a).normSq = 1 := by
  have := norm_pos h
  rw [normSq_smul, ← norm_mul_self]
  field_simp

end V3

theorem xyz_neg {K : Type} [CommRing K] (p : V4 K) : p.neg.xyz = p.xyz.neg := rfl
theorem xyz_smul {K : Type} [CommRing K] (s : K) (p : V4 K) :
    (V4.smul s p).xyz = V3.smul s p.xyz := rfl

/-- The sign that makes `w` non-negative. -/
noncomputable def sgn (w : ℝ) : ℝ := if w < 0 then -1 else 1

theorem fromHomogeneous_eq (p : V4 ℝ) : fromHomogeneous p =
    if p.xyz.norm = 0 then none else some (V4.smul (sgn p.w / p.xyz.norm) p) := by
  unfold fromHomogeneous sgn
  by_cases h : p.w < 0
  · simp only [if_pos h, xyz_neg, V3.norm_neg]
    split
    · rfl
    · congr 1
      lin3
  · simp only [if_neg h]

theorem sgn_mul_nonneg (w : ℝ) : 0 ≤ sgn w * w := by
  unfold sgn
  split
  · linarith
  · linarith

theorem sgn_abs (w : ℝ) : |sgn w| = 1 := by
  unfold sgn
  split
  · simp
  · simp

theorem sgn_ne (w : ℝ) : sgn w ≠ 0 := by
  unfold sgn
  split
  · norm_num
  · norm_num

theorem sgn_of_nonneg {w : ℝ} (h : 0 ≤ w) : sgn w = 1 := by
  unfold sgn
  rw [if_neg (not_lt.mpr h)]

/-- Scaling by a factor that keeps the sign of `w` does not matter. -/
theorem fromHomogeneous_smul {s : ℝ} (p : V4 ℝ) (hs : 0 < s) :
    fromHomogeneous (V4.smul s p) = fromHomogeneous p := by
  rw [fromHomogeneous_eq, fromHomogeneous_eq]
  have hn : (V4.smul s p).xyz.norm = s * p.xyz.norm := by
    rw [xyz_smul, V3.norm_smul, abs_of_pos hs]
  have hw : sgn (V4.smul s p).w = sgn p.w := by
    unfold sgn
    have : (V4.smul s p).w < 0 ↔ p.w < 0 := by
      show s * p.w < 0 ↔ _
      constructor
      · intro h; by_contra hc; push Not at hc; nlinarith [mul_nonneg hs.le hc]
      · intro h; nlinarith
    by_cases h : p.w < 0
    · rw [if_pos h, if_pos (this.mpr h)]
    · rw [if_neg h, if_neg (fun h' => h (this.mp h'))]
  rw [hn, hw]
  by_cases h0 : p.xyz.norm = 0
  · rw [if_pos h0, if_pos (by rw [h0, mul_zero])]
  · rw [if_neg h0, if_neg (mul_ne_zero hs.ne' h0)]
    congr 1
    have := hs.ne'
    ext <;> simp only [lin] <;> field_simp

/-! ## so(3) -/

section
variable {K : Type} [CommRing K]

theorem vee_hat (w : V3 K) : vee (M3.hat w) = w := by lin3

theorem hat_mul_hat (w : V3 K) : (M3.hat w).mul (M3.hat w) = hat2 w := by lin3

theorem bracket_eq_cross (a b : V3 K) : bracket a b = a.cross b := by lin3

theorem rodrigues_gram (u : V3 K) (s c : K) :
    (rodrigues u s c).transpose.mul (rodrigues u s c) =
      M3.one.add (M3.smul (2 * (1 - c) - s * s - (1 - c) * (1 - c) * u.normSq) (hat2 u)) := by
  lin3

theorem rodrigues_det (u : V3 K) (s c : K) : (rodrigues u s c).det =
    (1 - (1 - c) * u.normSq) * (1 - (1 - c) * u.normSq) + s * s * u.normSq := by
  simp only [lin]; ring

/-- Rodrigues' matrix about a unit axis is a proper rotation. -/
theorem rodrigues_isRot {u : V3 K} {s c : K} (hu : u.normSq = 1) (hsc : s * s + c * c = 1) :
    (rodrigues u s c).IsRot := by
  refine ⟨?_, ?_⟩
  · rw [rodrigues_gram, hu]
    have : 2 * (1 - c) - s * s - (1 - c) * (1 - c) * 1 = 0 := by linear_combination -hsc
    rw [this]
    lin3
  · rw [rodrigues_det, hu]
    linear_combination hsc

theorem rodrigues_neg (u : V3 K) (s c : K) :
    rodrigues u.neg s c = (rodrigues u s c).transpose := by lin3

theorem rodrigues_axis (u : V3 K) (s c : K) : (rodrigues u s c).mulVec u = u := by lin3

theorem rodrigues_mulVec (u v : V3 K) (s c : K) : (rodrigues u s c).mulVec v =
    (v.add (V3.smul s (u.cross v))).add (V3.smul (1 - c) (u.cross (u.cross v))) := by lin3

theorem rodrigues_trace (u : V3 K) (s c : K) :
    (rodrigues u s c).trace = 3 - 2 * (1 - c) * u.normSq := by simp only [lin]; ring

end

theorem sin_cos (x : ℝ) : Real.sin x * Real.sin x + Real.cos x * Real.cos x = 1 := by
  have := Real.sin_sq_add_cos_sq x
  nlinarith

theorem expRot_zero : expRot V3.zero = M3.one := by
  unfold expRot
  rw [if_pos (V3.norm_eq_zero.mpr rfl)]

theorem expRot_of_ne {w : V3 ℝ} (h : w ≠ V3.zero) :
    expRot w = rodrigues (V3.smul (1 / w.norm) w) (Real.sin w.norm) (Real.cos w.norm) := by
  unfold expRot
  rw [if_neg (fun e => h (V3.norm_eq_zero.mp e))]

theorem expRot_isRot (w : V3 ℝ) : (expRot w).IsRot := by
  by_cases h : w = V3.zero
  · subst h
    rw [expRot_zero]
    exact M3.IsRot.one
  · rw [expRot_of_ne h]
    exact rodrigues_isRot (V3.normalize_normSq h) (sin_cos _)

theorem expRot_neg (w : V3 ℝ) : expRot w.neg = (expRot w).transpose := by
  by_cases h : w = V3.zero
  · subst h
    have : (V3.zero : V3 ℝ).neg = V3.zero := by lin3
    rw [this, expRot_zero, M3.transpose_one]
  · have h' : w.neg ≠ V3.zero := by
      intro e
      apply h
      rw [← V3.neg_neg w, e]
      lin3
    rw [expRot_of_ne h', expRot_of_ne h, V3.norm_neg, ← rodrigues_neg]
    congr 1
    lin3

/-- The one-parameter rotation along `w`, with signed angle. -/
theorem expRot_path {w : V3 ℝ} (h : w ≠ V3.zero) (e : ℝ) : expRot (V3.smul e w) =
    rodrigues (V3.smul (1 / w.norm) w) (Real.sin (e * w.norm)) (Real.cos (e * w.norm)) := by
  have hn := V3.norm_pos h
  rcases lt_trichotomy e 0 with he | rfl | he
  · have hne : V3.smul e w ≠ V3.zero := by
      intro c
      have := V3.norm_smul e w
      rw [c, V3.norm_eq_zero.mpr rfl, abs_of_neg he] at this
      nlinarith
    rw [expRot_of_ne hne, V3.norm_smul, abs_of_neg he]
    have e1 : -e * w.norm = -(e * w.norm) := by ring
    rw [e1, Real.sin_neg, Real.cos_neg]
    have e2 : V3.smul (1 / -(e * w.norm)) (V3.smul e w) = (V3.smul (1 / w.norm) w).neg := by
      have := he.ne
      ext <;> simp only [lin] <;> field_simp
    rw [e2]
    lin3
  · have : V3.smul 0 w = V3.zero := by lin3
    rw [this, expRot_zero, zero_mul, Real.sin_zero, Real.cos_zero]
    lin3
  · have hne : V3.smul e w ≠ V3.zero := by
      intro c
      have := V3.norm_smul e w
      rw [c, V3.norm_eq_zero.mpr rfl, abs_of_pos he] at this
      nlinarith
    rw [expRot_of_ne hne, V3.norm_smul, abs_of_pos he]
    have e2 : V3.smul (1 / (e * w.norm)) (V3.smul e w) = V3.smul (1 / w.norm) w := by
      have := he.ne'
      ext <;> simp only [lin] <;> field_simp
    rw [e2]

/-- The derivative of the one-parameter rotation at the identity is the cross product. -/
theorem hasDerivAt_expRot (w y : V3 ℝ) :
    HasDerivAt (fun e : ℝ => ((expRot (V3.smul e w)).mulVec y).x) (w.cross y).x 0 ∧
    HasDerivAt (fun e : ℝ => ((expRot (V3.smul e w)).mulVec y).y) (w.cross y).y 0 ∧
    HasDerivAt (fun e : ℝ => ((expRot (V3.smul e w)).mulVec y).z) (w.cross y).z 0 := by
  by_cases h : w = V3.zero
  · subst h
    have e0 : ∀ e : ℝ, V3.smul e (V3.zero : V3 ℝ) = V3.zero := fun e => by lin3
    simp only [e0, expRot_zero, M3.one_mulVec]
    refine ⟨?_, ?_, ?_⟩ <;> simp only [lin, zero_mul, sub_zero] <;> exact hasDerivAt_const _ _
  · have hn := (V3.norm_pos h).ne'
    simp only [expRot_path h, rodrigues_mulVec]
    -- derivative of a + sin(e n) b + (1 - cos(e n)) c at zero is n b
    have key : ∀ a b c : ℝ, HasDerivAt (fun e : ℝ => a + Real.sin (e * w.norm) * b +
        (1 - Real.cos (e * w.norm)) * c) (w.norm * b) 0 := by
      intro a b c
      have h1 : HasDerivAt (fun e : ℝ => e * w.norm) w.norm 0 := by
        simpa using (hasDerivAt_id (0 : ℝ)).mul_const w.norm
      have hs := h1.sin
      have hc := h1.cos
      have := ((hs.mul_const b).const_add a).add ((hc.const_sub 1).mul_const c)
      refine this.congr_deriv ?_
      simp only [zero_mul, Real.cos_zero, Real.sin_zero]
      ring
    have hx : (w.cross y) = V3.smul w.norm ((V3.smul (1 / w.norm) w).cross y) := by
      ext <;> simp only [lin] <;> field_simp
    rw [hx]
    exact ⟨key y.x _ _, key y.y _ _, key y.z _ _⟩

end Verif.Geo
