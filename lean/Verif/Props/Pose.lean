import Mathlib.Algebra.Group.Defs
import Verif.Lemmas.Pose

/-!
# C33-C37: points, poses and so(3)
-/

namespace Verif.Geo

/-! ## C33 -/

/-- **C33** Building a projective point fails (is not a number) exactly for a zero direction.
Otherwise the result has a unit bearing and a non-negative `w`, and is a non-zero multiple of the
input, a positive one unless `w` was negative. -/
theorem C33_from_homogeneous (p : V4 ℝ) :
    (fromHomogeneous p = none ↔ p.xyz = V3.zero) ∧
    ∀ q, fromHomogeneous p = some q →
      (bearing q).normSq = 1 ∧ 0 ≤ q.w ∧ ∃ s, q = V4.smul s p ∧ (0 ≤ p.w → 0 < s) ∧ (p.w < 0 → s < 0) := by
  rw [fromHomogeneous_eq]
  refine ⟨?_, ?_⟩
  · rw [← V3.norm_eq_zero]
    split <;> simp_all
  · intro q hq
    split at hq
    · cases hq
    · rename_i h0
      have hn : 0 < p.xyz.norm := lt_of_le_of_ne p.xyz.norm_nonneg (Ne.symm h0)
      cases hq
      refine ⟨?_, ?_, sgn p.w / p.xyz.norm, rfl, ?_, ?_⟩
      · unfold bearing
        rw [xyz_smul, V3.normSq_smul, ← V3.norm_mul_self]
        have : sgn p.w * sgn p.w = 1 := by rw [← abs_mul_abs_self, sgn_abs, one_mul]
        field_simp
        nlinarith
      · show 0 ≤ sgn p.w / p.xyz.norm * p.w
        rw [div_mul_eq_mul_div]
        exact div_nonneg (sgn_mul_nonneg _) hn.le
      · intro hw
        rw [sgn_of_nonneg hw]
        positivity
      · intro hw
        unfold sgn
        rw [if_pos hw]
        exact div_neg_of_neg_of_pos (by norm_num) hn

/-- **C33** Finite points other than the origin make the round trip exactly; the bearing points at
the point and `w` is the inverse distance. A point at infinity (`w = 0`) stays one: it has no
euclidean point. -/
theorem C33_round_trip (x : V3 ℝ) (hx : x ≠ V3.zero) :
    ∃ q, fromPoint x = some q ∧ toPoint q = some x ∧ V3.smul x.norm (bearing q) = x ∧
      q.w * x.norm = 1 := by
  have hn := V3.norm_pos hx
  have e : (⟨x.x, x.y, x.z, 1⟩ : V4 ℝ).xyz = x := rfl
  refine ⟨V4.smul (1 / x.norm) ⟨x.x, x.y, x.z, 1⟩, ?_, ?_, ?_, ?_⟩
  · unfold fromPoint
    rw [fromHomogeneous_eq, e, if_neg hn.ne', sgn_of_nonneg zero_le_one]
  · unfold toPoint
    have hw : (V4.smul (1 / x.norm) ⟨x.x, x.y, x.z, 1⟩ : V4 ℝ).w ≠ 0 := by
      show 1 / x.norm * 1 ≠ 0
      positivity
    rw [if_neg hw]
    congr 1
    ext <;> simp only [lin] <;> field_simp
  · unfold bearing
    ext <;> simp only [lin] <;> field_simp
  · show 1 / x.norm * 1 * x.norm = 1
    field_simp

theorem C33_infinity (p q : V4 ℝ) (h : fromHomogeneous p = some q) :
    (toPoint q = none ↔ p.w = 0) ∧ ∀ x, toPoint q = some x → V3.smul p.w x = p.xyz := by
  obtain ⟨_, _, s, rfl, h1, h2⟩ := (C33_from_homogeneous p).2 q h
  have hs : s ≠ 0 := by
    rcases lt_or_ge p.w 0 with hw | hw
    · exact (h2 hw).ne
    · exact (h1 hw).ne'
  unfold toPoint
  have hw : (V4.smul s p).w = s * p.w := rfl
  rw [hw]
  refine ⟨?_, ?_⟩
  · constructor
    · intro h
      by_contra h0
      rw [if_neg (mul_ne_zero hs h0)] at h
      cases h
    · intro h0
      rw [if_pos (by rw [h0, mul_zero])]
  · intro x hx
    split at hx
    · cases hx
    · rename_i h0
      cases hx
      have hw0 : p.w ≠ 0 := fun e => h0 (by rw [e, mul_zero])
      ext <;> simp only [lin] <;> field_simp

/-- A vector with negative `w`: (0, 3, 4, -5) becomes (0, -3/5, -4/5, 1), the point (0,-3/5,-4/5). -/
example : fromHomogeneous ⟨0, 3, 4, -5⟩ = some ⟨0, -3/5, -4/5, 1⟩ := by
  rw [fromHomogeneous_eq]
  have hn : (⟨0, 3, 4, -5⟩ : V4 ℝ).xyz.norm = 5 :=
    V3.norm_of_normSq (by norm_num) (by simp only [lin]; norm_num)
  rw [hn, if_neg (by norm_num)]
  unfold sgn
  rw [if_pos (by norm_num)]
  congr 1
  ext <;> simp only [lin] <;> norm_num

/-! ## C34 -/

/-- A projective point as the library stores it: unit bearing, non-negative `w`. -/
def Normal (p : V4 ℝ) : Prop := (bearing p).normSq = 1 ∧ 0 ≤ p.w

theorem normal_of_some {p q : V4 ℝ} (h : fromHomogeneous p = some q) : Normal q :=
  let r := (C33_from_homogeneous p).2 q h
  ⟨r.1, r.2.1⟩

theorem fromHomogeneous_normal {p : V4 ℝ} (h : Normal p) : fromHomogeneous p = some p := by
  have hn : p.xyz.norm = 1 := V3.norm_of_normSq zero_le_one (by rw [mul_one]; exact h.1)
  rw [fromHomogeneous_eq, hn, if_neg one_ne_zero, sgn_of_nonneg h.2]
  congr 1
  ext <;> simp only [lin] <;> ring

/-- **C34** Poses act on points: transforming by a product is transforming in turn, unless the
point in between is the camera centre (then there is no point in between). -/
theorem C34_transform_mul (a b : Iso ℝ) {p q : V4 ℝ} (hp : 0 ≤ p.w) (h : transform b p = some q) :
    transform (a.mul b) p = transform a q := by
  unfold transform at *
  obtain ⟨_, _, s, rfl, hs, _⟩ := (C33_from_homogeneous _).2 q h
  rw [Iso.homMul_mul, Iso.homMul_smul]
  exact (fromHomogeneous_smul _ (hs hp)).symm

/-- **C34** Transforming by a pose and back gives the point again. -/
theorem C34_transform_inverse {a : Iso ℝ} (ha : a.Rigid) {p q : V4 ℝ} (hp : Normal p)
    (h : transform a p = some q) : transform a.inv q = some p := by
  rw [← C34_transform_mul a.inv a hp.2 h, ha.inv_mul]
  unfold transform
  rw [Iso.homMul_one, fromHomogeneous_normal hp]

/-- **C34** The identity does nothing. -/
theorem C34_transform_one {p : V4 ℝ} (hp : Normal p) : transform Iso.one p = some p := by
  unfold transform
  rw [Iso.homMul_one, fromHomogeneous_normal hp]

/-- **C34** Points at infinity stay at infinity (and finite ones finite), and a finite point is
moved by the rigid motion. -/
theorem C34_transform_infinity (a : Iso ℝ) {p q : V4 ℝ} (h : transform a p = some q) :
    (q.w = 0 ↔ p.w = 0) ∧
    ∀ x y, toPoint p = some x → toPoint q = some y → y = a.point x := by
  unfold transform at h
  obtain ⟨_, _, s, rfl, h1, h2⟩ := (C33_from_homogeneous _).2 q h
  have hs : s ≠ 0 := by
    rcases lt_or_ge (a.homMul p).w 0 with hw | hw
    · exact (h2 hw).ne
    · exact (h1 hw).ne'
  have hw : (V4.smul s (a.homMul p)).w = s * p.w := rfl
  rw [hw]
  refine ⟨by rw [mul_eq_zero]; simp [hs], ?_⟩
  intro x y hx hy
  unfold toPoint at hx hy
  rw [hw] at hy
  split at hx
  · cases hx
  · rename_i hp
    rw [if_neg (mul_ne_zero hs hp)] at hy
    cases hx
    cases hy
    ext <;> simp only [lin] <;> field_simp

/-- **C34** `scale` is a change of unit: it keeps the rotation, is compatible with products, and the
scaled pose maps scaled points to scaled points. -/
theorem C34_scale {K : Type} [CommRing K] (s : K) (a b : Iso K) :
    (Iso.scale s (a.mul b) = (Iso.scale s a).mul (Iso.scale s b)) ∧
    ((Iso.scale s a).Rigid ↔ a.Rigid) ∧
    (∀ p : V3 K, (Iso.scale s a).point (V3.smul s p) = V3.smul s (a.point p)) :=
  ⟨by lin3, Iff.rfl, fun p => by lin3⟩

/-- **C34** `from_camera_poses`: for a camera with pose `a` in one reconstruction and pose `b` in
another, the transformed world point is seen by the second pose as the original one by the first. -/
theorem C34_from_camera_poses (a : Iso ℝ) {b : Iso ℝ} (hb : b.Rigid) {p q : V4 ℝ} (hp : 0 ≤ p.w)
    (h : transform (fromCameraPoses a b) p = some q) : transform b q = transform a p := by
  rw [← C34_transform_mul b _ hp h]
  unfold fromCameraPoses
  rw [← Iso.mul_assoc, hb.mul_inv, Iso.one_mul]

/-- The rigid motions. -/
def RigidMotion (K : Type) [CommRing K] := { a : Iso K // a.Rigid }

/-- **C34** They form a group, with the multiplication and inverse the code uses. -/
instance C34_group (K : Type) [CommRing K] : Group (RigidMotion K) where
  mul a b := ⟨a.1.mul b.1, a.2.mul b.2⟩
  one := ⟨Iso.one, Iso.Rigid.one⟩
  inv a := ⟨a.1.inv, a.2.inv⟩
  mul_assoc a b c := Subtype.ext (Iso.mul_assoc a.1 b.1 c.1)
  one_mul a := Subtype.ext (Iso.one_mul a.1)
  mul_one a := Subtype.ext (Iso.mul_one a.1)
  inv_mul_cancel a := Subtype.ext a.2.inv_mul

/-- A quarter turn about z with a translation is rigid; it moves (0,0,1) with `w = 1` to a point. -/
def quarter : Iso ℝ := ⟨⟨0, -1, 0, 1, 0, 0, 0, 0, 1⟩, ⟨1, 2, 0⟩⟩
theorem quarter_rigid : quarter.Rigid :=
  ⟨by unfold quarter; ext <;> simp only [lin] <;> norm_num,
   by unfold quarter; simp only [lin]; norm_num⟩
example : Normal ⟨0, 0, 1, 1⟩ ∧ ∃ q, transform quarter ⟨0, 0, 1, 1⟩ = some q := by
  refine ⟨⟨by unfold bearing; simp only [lin]; norm_num, by norm_num⟩, ?_⟩
  cases h : transform quarter ⟨0, 0, 1, 1⟩ with
  | some q => exact ⟨q, rfl⟩
  | none =>
    exfalso
    have := (C33_from_homogeneous _).1.mp h
    have hz : (quarter.homMul ⟨0, 0, 1, 1⟩).xyz.z = 0 := by rw [this]; rfl
    unfold quarter at hz
    simp only [lin] at hz
    norm_num at hz

/-! ## C35 -/

/-- **C35** The claimed inverse is the inverse exactly if the rotation leaves the translation
alone. -/
theorem C35_inverse_iff (a : Tangent) :
    a.inverse.isometry = a.isometry.inv ↔
      (expRot a.rotation).mulVec a.translation = a.translation := by
  have hr := expRot_isRot a.rotation
  unfold Tangent.isometry Tangent.inverse Iso.inv
  simp only [expRot_neg]
  rw [M3.mulVec_mulVec, hr.orth, M3.one_mulVec, M3.mulVec_neg]
  constructor
  · intro h
    have h2 : ((expRot a.rotation).transpose.mulVec a.translation).neg = a.translation.neg :=
      congrArg Iso.t h
    have h3 : (expRot a.rotation).transpose.mulVec a.translation = a.translation := by
      rw [← V3.neg_neg ((expRot a.rotation).transpose.mulVec a.translation), h2, V3.neg_neg]
    calc (expRot a.rotation).mulVec a.translation
        = (expRot a.rotation).mulVec ((expRot a.rotation).transpose.mulVec a.translation) := by
          rw [h3]
      _ = a.translation := by rw [M3.mulVec_mulVec, hr.orth', M3.one_mulVec]
  · intro h
    congr 1
    have : (expRot a.rotation).transpose.mulVec a.translation = a.translation := by
      calc (expRot a.rotation).transpose.mulVec a.translation
          = (expRot a.rotation).transpose.mulVec ((expRot a.rotation).mulVec a.translation) := by
            rw [h]
        _ = a.translation := by rw [M3.mulVec_mulVec, hr.orth, M3.one_mulVec]
    rw [this]

/-- The full statement is false: a translation across the rotation axis. -/
theorem C35_inverse_fails : ¬ ∀ a : Tangent, a.inverse.isometry = a.isometry.inv := by
  intro h
  have := (C35_inverse_iff ⟨⟨1, 0, 0⟩, ⟨0, 0, Real.pi⟩⟩).mp (h _)
  have hn : (⟨0, 0, Real.pi⟩ : V3 ℝ).norm = Real.pi :=
    V3.norm_of_normSq Real.pi_pos.le (by simp only [lin]; ring)
  have hz : (⟨0, 0, Real.pi⟩ : V3 ℝ) ≠ V3.zero := by
    intro e
    exact Real.pi_pos.ne' (congrArg V3.z e)
  simp only at this
  rw [expRot_of_ne hz, hn, Real.sin_pi, Real.cos_pi] at this
  have hx := congrArg V3.x this
  have := Real.pi_pos.ne'
  simp only [lin] at hx
  field_simp at hx
  norm_num at hx

/-- **C35** (partial: only translations along the rotation axis, and in particular no translation
or no rotation at all). -/
theorem C35_inverse_partial (a : Tangent) (h : a.rotation.cross a.translation = V3.zero) :
    a.inverse.isometry = a.isometry.inv := by
  rw [C35_inverse_iff]
  by_cases h0 : a.rotation = V3.zero
  · rw [h0, expRot_zero, M3.one_mulVec]
  · rw [expRot_of_ne h0, rodrigues_mulVec]
    have : (V3.smul (1 / a.rotation.norm) a.rotation).cross a.translation = V3.zero := by
      have e : (V3.smul (1 / a.rotation.norm) a.rotation).cross a.translation =
          V3.smul (1 / a.rotation.norm) (a.rotation.cross a.translation) := by lin3
      rw [e, h]
      lin3
    rw [this]
    lin3

/-- A screw motion. -/
example : (⟨1, 2, 3⟩ : V3 ℝ).cross ⟨2, 4, 6⟩ = V3.zero := by
  ext <;> simp only [lin] <;> norm_num

/-! ## C36 -/

/-- **C36** `hat` and `vee` are inverse on skew matrices, `hat a` acts as the cross product, `hat2`
is its square. -/
theorem C36_hat {K : Type} [CommRing K] (a b : V3 K) :
    vee (M3.hat a) = a ∧ (M3.hat a).mulVec b = a.cross b ∧ (M3.hat a).transpose = (M3.hat a).neg ∧
    (M3.hat a).mul (M3.hat a) = hat2 a :=
  ⟨vee_hat a, M3.hat_mulVec a b, by lin3, hat_mul_hat a⟩

/-- **C36** Every skew matrix is the `hat` of its `vee`. -/
theorem C36_hat_vee (A : M3 ℝ) (h : A.transpose = A.neg) : M3.hat (vee A) = A := by
  rw [M3.ext_iff] at h
  simp only [lin] at h
  obtain ⟨h1, h2, h3, h4, h5, h6, h7, h8, h9⟩ := h
  ext <;> simp only [lin] <;> linarith

/-- **C36** The bracket is the cross product: bilinear, antisymmetric, with the Jacobi identity. -/
theorem C36_bracket {K : Type} [CommRing K] (a b c : V3 K) (s : K) :
    bracket a b = a.cross b ∧
    bracket (a.add (V3.smul s b)) c = (bracket a c).add (V3.smul s (bracket b c)) ∧
    bracket a b = (bracket b a).neg ∧
    ((bracket a (bracket b c)).add (bracket b (bracket c a))).add (bracket c (bracket a b)) =
      V3.zero := by
  simp only [bracket_eq_cross]
  exact ⟨trivial, by lin3, by lin3, by lin3⟩

/-- **C36** The exponential map gives a proper rotation that fixes the axis, is inverted by negating
the vector, turns by the length of the vector (trace) and has the bracket as derivative. -/
theorem C36_exp (w y : V3 ℝ) :
    (expRot w).IsRot ∧ (expRot w).mulVec w = w ∧ (expRot w.neg).mul (expRot w) = M3.one ∧
    (expRot w).trace = 1 + 2 * Real.cos w.norm ∧
    HasDerivAt (fun e : ℝ => ((expRot (V3.smul e w)).mulVec y).x) (bracket w y).x 0 ∧
    HasDerivAt (fun e : ℝ => ((expRot (V3.smul e w)).mulVec y).y) (bracket w y).y 0 ∧
    HasDerivAt (fun e : ℝ => ((expRot (V3.smul e w)).mulVec y).z) (bracket w y).z 0 := by
  rw [bracket_eq_cross]
  refine ⟨expRot_isRot w, ?_, ?_, ?_, hasDerivAt_expRot w y⟩
  · by_cases h : w = V3.zero
    · subst h
      rw [expRot_zero, M3.one_mulVec]
    · rw [expRot_of_ne h, rodrigues_mulVec]
      have e : (V3.smul (1 / w.norm) w).cross w = V3.zero := by lin3
      rw [e]
      lin3
  · rw [expRot_neg]
    exact (expRot_isRot w).orth
  · by_cases h : w = V3.zero
    · subst h
      rw [expRot_zero, V3.norm_eq_zero.mpr rfl, Real.cos_zero]
      simp only [lin]
      norm_num
    · rw [expRot_of_ne h, rodrigues_trace, V3.normalize_normSq h]
      ring

/-- A concrete rotation: a quarter turn about the x axis takes y to z. -/
example : (expRot ⟨Real.pi / 2, 0, 0⟩).mulVec ⟨0, 1, 0⟩ = ⟨0, 0, 1⟩ := by
  have hp := Real.pi_pos
  have hn : (⟨Real.pi / 2, 0, 0⟩ : V3 ℝ).norm = Real.pi / 2 :=
    V3.norm_of_normSq (by positivity) (by simp only [lin]; ring)
  have hz : (⟨Real.pi / 2, 0, 0⟩ : V3 ℝ) ≠ V3.zero := by
    intro e
    have : Real.pi / 2 = 0 := congrArg V3.x e
    linarith
  rw [expRot_of_ne hz, hn, Real.sin_pi_div_two, Real.cos_pi_div_two]
  have := hp.ne'
  ext <;> simp only [lin] <;> field_simp <;> ring

/-! ## C37 -/

/-- The homogeneous output after perturbing the pose: the translation by `e * t`, the rotation on
the left by the rotation vector `e * w`. -/
noncomputable def perturbed (a : Iso ℝ) (p : V4 ℝ) (t w : V3 ℝ) (e : ℝ) : V4 ℝ :=
  (Iso.mk ((expRot (V3.smul e w)).mul a.rot) (a.t.add (V3.smul e t))).homMul p

/-- **C37** (partial: the last row is wrong.) Along every perturbation the first three components
of the output change as the Jacobian says; the last component does not change at all, but the
Jacobian claims the inner product of the translation and the rotation vector. -/
theorem C37_pose_jacobian_partial (a : Iso ℝ) (p : V4 ℝ) (t w : V3 ℝ) :
    HasDerivAt (fun e => (perturbed a p t w e).x) ((poseJacobianSelf a p).mulVec t w).x 0 ∧
    HasDerivAt (fun e => (perturbed a p t w e).y) ((poseJacobianSelf a p).mulVec t w).y 0 ∧
    HasDerivAt (fun e => (perturbed a p t w e).z) ((poseJacobianSelf a p).mulVec t w).z 0 ∧
    HasDerivAt (fun e => (perturbed a p t w e).w) 0 0 ∧
    ((poseJacobianSelf a p).mulVec t w).w = a.t.dot w := by
  obtain ⟨hx, hy, hz⟩ := hasDerivAt_expRot w (rotated a p).xyz
  have lin' : ∀ c d : ℝ, HasDerivAt (fun e : ℝ => (c + e * d) * p.w) (d * p.w) 0 := by
    intro c d
    have h := (((hasDerivAt_id (0 : ℝ)).mul_const d).const_add c).mul_const p.w
    simpa using h
  have hmul : ∀ e : ℝ, ((expRot (V3.smul e w)).mul a.rot).mulVec p.xyz =
      (expRot (V3.smul e w)).mulVec (rotated a p).xyz := by
    intro e
    rw [← M3.mulVec_mulVec]
    rfl
  refine ⟨?_, ?_, ?_, hasDerivAt_const _ _, by simp only [lin]; ring⟩
  · have h := hx.add (lin' a.t.x t.x)
    simp only [← hmul] at h
    refine h.congr_deriv ?_
    simp only [lin]; ring
  · have h := hy.add (lin' a.t.y t.y)
    simp only [← hmul] at h
    refine h.congr_deriv ?_
    simp only [lin]; ring
  · have h := hz.add (lin' a.t.z t.z)
    simp only [← hmul] at h
    refine h.congr_deriv ?_
    simp only [lin]; ring

/-- The full statement is false: with a translation, the last component of the Jacobian is not the
derivative. -/
theorem C37_jacobian_last_row_wrong : ∃ (a : Iso ℝ) (p : V4 ℝ) (t w : V3 ℝ), a.Rigid ∧
    ¬ HasDerivAt (fun e => (perturbed a p t w e).w) ((poseJacobianSelf a p).mulVec t w).w 0 := by
  refine ⟨⟨M3.one, ⟨1, 0, 0⟩⟩, ⟨0, 0, 1, 1⟩, V3.zero, ⟨1, 0, 0⟩, M3.IsRot.one, ?_⟩
  intro h
  have h0 := (C37_pose_jacobian_partial ⟨M3.one, ⟨1, 0, 0⟩⟩ ⟨0, 0, 1, 1⟩ V3.zero ⟨1, 0, 0⟩).2.2.2.1
  have := h.unique h0
  simp only [lin] at this
  norm_num at this

/-- **C37** The Jacobian for the input point is the matrix of the pose: the output is linear in the
point. -/
theorem C37_jacobian_input {K : Type} [CommRing K] (a : Iso K) (p dp : V4 K) :
    a.homMul (p.add dp) = (a.homMul p).add (a.homMul dp) := by lin3

end Verif.Geo
