import Verif.Lemmas.LogMap
import Verif.Lemmas.EpipolarPlane
import Verif.Lemmas.Essential
import Mathlib.Analysis.SpecialFunctions.Trigonometric.Bounds

/-! Helper lemmas: rotations as quaternions of length one. -/

namespace Verif.Geo

/-- A quaternion. -/
@[ext] structure Quat where
  w : ℝ
  v : V3 ℝ

namespace Quat

@[lin] def mul (p q : Quat) : Quat := ⟨p.w * q.w - p.v.dot q.v, ((V3.smul p.w q.v).add (V3.smul q.w p.v)).add (p.v.cross q.v)⟩
@[lin] def conj (q : Quat) : Quat := ⟨q.w, q.v.neg⟩
@[lin] def one : Quat := ⟨1, V3.zero⟩
@[lin] def dot (p q : Quat) : ℝ := p.w * q.w + p.v.dot q.v

/-- Of length one. -/
def Unit (q : Quat) : Prop := q.w * q.w + q.v.normSq = 1

/-- The rotation. -/
@[lin] def rot (q : Quat) : M3 ℝ :=
  ((M3.smul (q.w * q.w - q.v.normSq) M3.one).add (M3.smul (2 * q.w) (M3.hat q.v))).add (M3.smul 2 (M3.outer q.v q.v))

theorem rot_mul (p q : Quat) : (p.mul q).rot = p.rot.mul q.rot := by lin3
theorem rot_conj (q : Quat) : q.conj.rot = q.rot.transpose := by lin3
theorem rot_one : one.rot = M3.one := by lin3

theorem unit_one : one.Unit := by unfold Unit one; simp only [lin]; ring
theorem unit_conj {q : Quat} (h : q.Unit) : q.conj.Unit := by
  unfold Unit conj at *
  simp only [lin] at *
  linarith
theorem unit_mul {p q : Quat} (hp : p.Unit) (hq : q.Unit) : (p.mul q).Unit := by
  unfold Unit at *
  have : (p.mul q).w * (p.mul q).w + (p.mul q).v.normSq = (p.w * p.w + p.v.normSq) * (q.w * q.w + q.v.normSq) := by
    simp only [lin]; ring
  rw [this, hp, hq, one_mul]

theorem mul_conj_w (p q : Quat) : (p.mul q.conj).w = p.dot q := by simp only [lin]; ring
theorem dot_comm (p q : Quat) : p.dot q = q.dot p := by simp only [lin]; ring

/-- The scalar part from that of the quotient. -/
theorem w_quotient (p : Quat) {q : Quat} (hq : q.Unit) : p.w = p.dot q * q.w - (p.mul q.conj).v.dot q.v := by
  unfold Unit at hq
  have : p.dot q * q.w - (p.mul q.conj).v.dot q.v = p.w * (q.w * q.w + q.v.normSq) := by simp only [lin]; ring
  rw [this, hq, mul_one]

theorem rot_quotient (p q : Quat) : p.rot.mul q.rot.transpose = (p.mul q.conj).rot := by rw [rot_mul, rot_conj]

theorem unit_w {q : Quat} (h : q.Unit) : -1 ≤ q.w ∧ q.w ≤ 1 := by
  have := q.v.normSq_nonneg
  unfold Unit at h
  constructor <;> nlinarith

theorem rot_isRot {q : Quat} (h : q.Unit) : q.rot.IsRot := by
  have h1 : q.conj.mul q = one := by
    unfold Unit at h
    ext
    · simp only [lin] at h ⊢; linarith
    · simp only [lin]; ring
    · simp only [lin]; ring
    · simp only [lin]; ring
  constructor
  · show q.rot.transpose.mul q.rot = M3.one
    rw [← rot_conj, ← rot_mul, h1, rot_one]
  · have : q.rot.det = (q.w * q.w + q.v.normSq) ^ 3 := by simp only [lin]; ring
    rw [this]
    unfold Unit at h
    rw [h]
    ring

theorem rot_trace {q : Quat} (h : q.Unit) : (q.rot.trace - 1) / 2 = 2 * (q.w * q.w) - 1 := by
  unfold Unit at h
  have : q.rot.trace = 3 * (q.w * q.w) - q.v.normSq := by simp only [lin]; ring
  rw [this]
  linarith

theorem norm_v {q : Quat} (h : q.Unit) : q.v.norm = Real.sin (Real.arccos q.w) := by
  unfold Unit at h
  rw [Real.sin_arccos]
  unfold V3.norm
  congr 1
  linarith

theorem arccos_double {c : ℝ} (h0 : 0 ≤ c) (h1 : c ≤ 1) : Real.arccos (2 * (c * c) - 1) = 2 * Real.arccos c := by
  have e : Real.cos (2 * Real.arccos c) = 2 * (c * c) - 1 := by
    rw [Real.cos_two_mul, Real.cos_arccos (by linarith) h1]
    ring
  rw [← e, Real.arccos_cos]
  · have := Real.arccos_nonneg c
    linarith
  · have := Real.arccos_le_pi_div_two.mpr h0
    linarith

/-- The quaternion of a rotation vector. -/
noncomputable def exp (a : V3 ℝ) : Quat :=
  ⟨Real.cos (a.norm / 2), V3.smul (if a.norm = 0 then 1 / 2 else Real.sin (a.norm / 2) / a.norm) a⟩

theorem exp_unit (a : V3 ℝ) : (exp a).Unit := by
  unfold exp Unit
  by_cases h : a.norm = 0
  · have h2 := V3.norm_eq_zero.mp h
    subst h2
    simp only [h]
    simp only [lin]
    norm_num
  · simp only [if_neg h]
    have e : (V3.smul (Real.sin (a.norm / 2) / a.norm) a).normSq =
        (Real.sin (a.norm / 2) / a.norm) * (Real.sin (a.norm / 2) / a.norm) * a.normSq := by simp only [lin]; ring
    rw [e, ← V3.norm_mul_self]
    have h3 : Real.sin (a.norm / 2) / a.norm * (Real.sin (a.norm / 2) / a.norm) * (a.norm * a.norm) =
        Real.sin (a.norm / 2) * Real.sin (a.norm / 2) := by field_simp
    rw [h3]
    have := sin_cos (a.norm / 2)
    linarith

theorem exp_rot (a : V3 ℝ) : (exp a).rot = expRot a := by
  by_cases h : a.norm = 0
  · have h2 := V3.norm_eq_zero.mp h
    rw [h2, expRot_zero]
    have h3 : (V3.zero : V3 ℝ).norm = 0 := V3.norm_eq_zero.mpr rfl
    unfold exp
    simp only [h3]
    simp only [zero_div, Real.cos_zero, if_true]
    ext <;> simp only [lin] <;> norm_num
  · rw [expRot_of_ne (fun e => h (V3.norm_eq_zero.mpr e))]
    unfold exp
    simp only [if_neg h]
    have hn : a.normSq = a.norm * a.norm := (V3.norm_mul_self a).symm
    have hs : Real.sin a.norm = 2 * Real.sin (a.norm / 2) * Real.cos (a.norm / 2) := by
      rw [← Real.sin_two_mul]; congr 1; ring
    have hc : 1 - Real.cos a.norm = 2 * (Real.sin (a.norm / 2) * Real.sin (a.norm / 2)) := by
      have h1 : Real.cos a.norm = 2 * Real.cos (a.norm / 2) ^ 2 - 1 := by
        rw [← Real.cos_two_mul]; congr 1; ring
      have := sin_cos (a.norm / 2)
      rw [h1]
      nlinarith
    have hw := sin_cos (a.norm / 2)
    generalize Real.sin (a.norm / 2) = s at *
    generalize Real.cos (a.norm / 2) = c at *
    unfold rodrigues
    rw [hs, hc]
    generalize a.norm = N at *
    have key : ∀ u : V3 ℝ, u.normSq = 1 → (Quat.mk c (V3.smul s u)).rot =
        (M3.one.add (M3.smul (2 * s * c) (M3.hat u))).add (M3.smul (2 * (s * s)) (hat2 u)) := by
      intro u hu
      obtain ⟨x, y, z⟩ := u
      simp only [lin] at hu
      ext <;> simp only [lin]
      · linear_combination hw - s * s * hu + 2 * s * s * hu
      · ring
      · ring
      · ring
      · linear_combination hw - s * s * hu + 2 * s * s * hu
      · ring
      · ring
      · ring
      · linear_combination hw - s * s * hu + 2 * s * s * hu
    have e : V3.smul (s / N) a = V3.smul s (V3.smul (1 / N) a) := by
      ext <;> simp only [lin] <;> field_simp
    rw [e]
    apply key
    have : (V3.smul (1 / N) a).normSq = (1 / N) * (1 / N) * a.normSq := by simp only [lin]; ring
    rw [this, hn]
    field_simp

/-- How much longer the rotation vector is than twice the vector part. -/
noncomputable def stretch (c : ℝ) : ℝ := if c = 1 then 1 else Real.arccos c / Real.sin (Real.arccos c)

/-- Quaternions with positive scalar part from their rotation vectors. -/
theorem stretch_mul {c : ℝ} (h0 : 0 < c) (h1 : c ≤ 1) : stretch c * Real.sin (Real.arccos c) = Real.arccos c := by
  unfold stretch
  by_cases h : c = 1
  · rw [if_pos h, h, Real.arccos_one, Real.sin_zero, mul_zero]
  · rw [if_neg h]
    have hp : 0 < Real.arccos c := Real.arccos_pos.mpr (lt_of_le_of_ne h1 h)
    have hl : Real.arccos c < Real.pi / 2 := Real.arccos_lt_pi_div_two.mpr h0
    have : 0 < Real.sin (Real.arccos c) := Real.sin_pos_of_pos_of_lt_pi hp (by linarith [Real.pi_pos])
    field_simp

theorem stretch_nonneg {c : ℝ} (h0 : 0 < c) : 0 ≤ stretch c := by
  unfold stretch
  by_cases h : c = 1
  · rw [if_pos h]; exact zero_le_one
  · rw [if_neg h]
    have hp : 0 ≤ Real.arccos c := Real.arccos_nonneg c
    have hl : Real.arccos c < Real.pi / 2 := Real.arccos_lt_pi_div_two.mpr h0
    have : 0 ≤ Real.sin (Real.arccos c) := Real.sin_nonneg_of_nonneg_of_le_pi hp (by linarith [Real.pi_pos])
    positivity

theorem norm_log {q : Quat} (hq : q.Unit) (h0 : 0 < q.w) : (V3.smul (2 * stretch q.w) q.v).norm = 2 * Real.arccos q.w := by
  have h1 := (unit_w hq).2
  have h2 := stretch_nonneg h0
  rw [V3.norm_smul, abs_of_nonneg (by positivity), norm_v hq, mul_assoc, stretch_mul h0 h1]

theorem exp_log {q : Quat} (hq : q.Unit) (h0 : 0 < q.w) : exp (V3.smul (2 * stretch q.w) q.v) = q := by
  have h1 := (unit_w hq).2
  have hn := norm_log hq h0
  unfold exp
  rw [hn]
  have e1 : 2 * Real.arccos q.w / 2 = Real.arccos q.w := by ring
  rw [e1, Real.cos_arccos (by linarith) h1]
  ext1
  · rfl
  · show V3.smul _ (V3.smul (2 * stretch q.w) q.v) = q.v
    by_cases h : q.w = 1
    · have hv : q.v = V3.zero := by
        rw [← V3.norm_eq_zero, norm_v hq, h, Real.arccos_one, Real.sin_zero]
      rw [hv]
      lin3
    · have hp : 0 < Real.arccos q.w := Real.arccos_pos.mpr (lt_of_le_of_ne h1 h)
      rw [if_neg (by positivity)]
      have h2 := stretch_mul h0 h1
      have h3 : Real.sin (Real.arccos q.w) / (2 * Real.arccos q.w) * (2 * stretch q.w) = 1 := by
        have : Real.sin (Real.arccos q.w) / (2 * Real.arccos q.w) * (2 * stretch q.w) =
          (stretch q.w * Real.sin (Real.arccos q.w)) / Real.arccos q.w := by field_simp
        rw [this, h2, div_self hp.ne']
      have h4 : ∀ (a b : ℝ) (u : V3 ℝ), V3.smul a (V3.smul b u) = V3.smul (a * b) u := by intro a b u; lin3
      rw [h4, h3]
      lin3

/-- The logarithm of a rotation by less than a half turn. -/
theorem rot_log {q : Quat} (hq : q.Unit) (h0 : 0 < q.w) : q.rot = expRot (V3.smul (2 * stretch q.w) q.v) := by
  rw [← exp_rot, exp_log hq h0]

theorem norm_log_lt {q : Quat} (hq : q.Unit) (h0 : 0 < q.w) : (V3.smul (2 * stretch q.w) q.v).norm < Real.pi := by
  rw [norm_log hq h0]
  have := Real.arccos_lt_pi_div_two.mpr h0
  linarith

end Quat

theorem norm_rotated {A : M3 ℝ} (hA : A.IsRot) (w : V3 ℝ) : (A.mulVec w).norm = w.norm := by
  unfold V3.norm
  rw [hA.normSq_mulVec]

/-- Turning an exponential. -/
theorem expRot_conj {A : M3 ℝ} (hA : A.IsRot) (w : V3 ℝ) : expRot (A.mulVec w) = (A.mul (expRot w)).mul A.transpose := by
  have hn : (A.mulVec w).norm = w.norm := norm_rotated hA w
  by_cases h : w = V3.zero
  · subst h
    have e : A.mulVec V3.zero = V3.zero := by lin3
    rw [e, expRot_zero, M3.mul_one, hA.orth']
  · have h' : A.mulVec w ≠ V3.zero := by
      intro e
      rw [e, V3.norm_eq_zero.mpr rfl] at hn
      exact h (V3.norm_eq_zero.mp hn.symm)
    rw [expRot_of_ne h, expRot_of_ne h', hn]
    have e1 : V3.smul (1 / w.norm) (A.mulVec w) = A.mulVec (V3.smul (1 / w.norm) w) := by lin3
    rw [e1]
    generalize V3.smul (1 / w.norm) w = u
    generalize Real.sin w.norm = s
    generalize Real.cos w.norm = c
    have hh : M3.hat (A.mulVec u) = (A.mul (M3.hat u)).mul A.transpose := by
      have := hat_conj hA.transpose u
      rw [M3.transpose_transpose] at this
      exact this.symm
    unfold rodrigues
    rw [← hat_mul_hat, ← hat_mul_hat, hh]
    have h2 : ((A.mul (M3.hat u)).mul A.transpose).mul ((A.mul (M3.hat u)).mul A.transpose) =
        (A.mul ((M3.hat u).mul (M3.hat u))).mul A.transpose := by
      rw [M3.mul_assoc (A.mul (M3.hat u)), ← M3.mul_assoc A.transpose, ← M3.mul_assoc A.transpose, hA.orth, M3.one_mul]
      simp only [M3.mul_assoc]
    rw [h2]
    have h3 : M3.one = (A.mul M3.one).mul A.transpose := by rw [M3.mul_one, hA.orth']
    conv_lhs => rw [h3]
    generalize (M3.hat u).mul (M3.hat u) = G
    generalize M3.hat u = H
    have dist : ∀ (P Q B C : M3 ℝ), (B.mul (P.add Q)).mul C = ((B.mul P).mul C).add ((B.mul Q).mul C) := by
      intro P Q B C; lin3
    have scal : ∀ (t : ℝ) (P B C : M3 ℝ), (B.mul (M3.smul t P)).mul C = M3.smul t ((B.mul P).mul C) := by
      intro t P B C; lin3
    rw [dist, dist, scal, scal]

/-- The logarithm of a turned rotation. -/
theorem logRot_conj {A : M3 ℝ} (hA : A.IsRot) {w : V3 ℝ} (h : w.norm < Real.pi) :
    logRot ((A.mul (expRot w)).mul A.transpose) = A.mulVec w := by
  rw [← expRot_conj hA]
  apply logRot_expRot
  rw [norm_rotated hA]
  exact h

end Verif.Geo
