import Verif.Props.EightPoint
import Verif.Props.Residual

/-!
# The four poses of an essential matrix against a match (C107)

A match tells the four candidate poses apart: the residual that sample consensus uses is 0 for the right one, and 1 or 2 for
the other three.
-/

namespace Verif.Geo

/-! ## The two rotations -/

theorem col3_unit {U : M3 ℝ} (hU : U.IsRot) : U.col3.normSq = 1 := by
  have e : U.mulVec ⟨0, 0, 1⟩ = U.col3 := by lin3
  rw [← e, M3.IsRot.normSq_mulVec hU]
  simp only [lin]; norm_num

theorem col3_dot {U : M3 ℝ} (hU : U.IsRot) (v : V3 ℝ) : U.col3.dot (U.mulVec v) = v.z := by
  have e : U.mulVec ⟨0, 0, 1⟩ = U.col3 := by lin3
  rw [← e, M3.IsRot.dot_mulVec hU]
  simp only [lin]; ring

theorem twin_sum {U V : M3 ℝ} (hU : U.IsRot) (w : V3 ℝ) :
    (((U.mul wMat).mul V).mulVec w).add (((U.mul wMat.transpose).mul V).mulVec w) =
      V3.smul (2 * U.col3.dot (((U.mul wMat).mul V).mulVec w)) U.col3 ∧
    U.col3.dot (((U.mul wMat.transpose).mul V).mulVec w) = U.col3.dot (((U.mul wMat).mul V).mulVec w) := by
  have e1 : U.col3.dot (((U.mul wMat).mul V).mulVec w) = (V.mulVec w).z := by
    rw [M3.mul_assoc, ← M3.mulVec_mulVec, col3_dot hU]
    simp only [lin]; ring
  have e2 : U.col3.dot (((U.mul wMat.transpose).mul V).mulVec w) = (V.mulVec w).z := by
    rw [M3.mul_assoc, ← M3.mulVec_mulVec, col3_dot hU]
    simp only [lin]; ring
  refine ⟨?_, by rw [e1, e2]⟩
  rw [e1]
  ext <;> simp only [lin] <;> ring

theorem wMat_rot : (wMat : M3 ℝ).IsRot := by
  refine ⟨by lin3, ?_⟩
  simp only [lin]; norm_num

/-- What the four poses are, in terms of the pose of the matrix. -/
theorem four_poses {a : Iso ℝ} (ha : a.Rigid) (ht : a.t ≠ V3.zero) {d : SVD ℝ} {k : ℝ} (hk : k ≠ 0)
    (h : IsSVD (M3.smul k (essential a)) d) :
    ∃ (l : ℝ) (T : V3 ℝ) (R : M3 ℝ), l ≠ 0 ∧ T.normSq = 1 ∧ a.t = V3.smul l T ∧ R.IsRot ∧
      (∀ w, R.mulVec w = (V3.smul (2 * T.dot (a.rot.mulVec w)) T).add (a.rot.mulVec w).neg) ∧
      (possiblePoses d).Perm [⟨a.rot, T⟩, ⟨R, T⟩, ⟨a.rot, T.neg⟩, ⟨R, T.neg⟩] ∧
      (possibleRotationPair d).Perm [a.rot, R] := by
  have e2 : M3.smul k (essential a) = essential ⟨a.rot, V3.smul k a.t⟩ := by lin3
  rw [e2] at h
  have ht' : V3.smul k a.t ≠ V3.zero := by
    intro hz
    apply ht
    have : V3.smul k⁻¹ (V3.smul k a.t) = a.t := by
      ext <;> simp only [lin] <;> field_simp
    rw [← this, hz]
    lin3
  obtain ⟨l, hl, htc, _, _, _, _, hc⟩ := h.structure (a := ⟨a.rot, V3.smul k a.t⟩) ha ht'
  have hU := fixU_isRot h.uO
  have hV := fixV_isRot h.vO
  have hA : (((fixU d.u).mul wMat).mul (fixV d.vt)).IsRot := (hU.mul wMat_rot).mul hV
  have hB : (((fixU d.u).mul wMat.transpose).mul (fixV d.vt)).IsRot := (hU.mul wMat_rot.transpose).mul hV
  have ht2 : a.t = V3.smul (l / k) (fixU d.u).col3 := by
    have h1 : V3.smul k a.t = V3.smul l (fixU d.u).col3 := htc
    have h2 : a.t = V3.smul k⁻¹ (V3.smul k a.t) := by ext <;> simp only [lin] <;> field_simp
    rw [h2, h1]
    ext <;> simp only [lin] <;> field_simp
  have sum := twin_sum (V := fixV d.vt) hU
  unfold possiblePoses possibleRotationPair possibleRotations
  have hr : a.rot = (⟨a.rot, V3.smul k a.t⟩ : Iso ℝ).rot := rfl
  rcases hc with ⟨_, e⟩ | ⟨_, e⟩
  · refine ⟨l / k, (fixU d.u).col3, _, div_ne_zero hl hk, col3_unit hU, ht2, hA, ?_, ?_, ?_⟩
    · intro w
      rw [hr, e, (sum w).2, ← (sum w).1]
      generalize (((fixU d.u).mul wMat).mul (fixV d.vt)).mulVec w = x
      generalize (((fixU d.u).mul wMat.transpose).mul (fixV d.vt)).mulVec w = y
      lin3
    · rw [hr, e]
      exact (List.Perm.swap _ _ _).trans (((List.Perm.swap _ _ _).cons _).cons _)
    · rw [hr, e]
      exact List.Perm.swap _ _ _
  · refine ⟨l / k, (fixU d.u).col3, _, div_ne_zero hl hk, col3_unit hU, ht2, hB, ?_, ?_, ?_⟩
    · intro w
      rw [hr, e, ← (sum w).1]
      generalize (((fixU d.u).mul wMat).mul (fixV d.vt)).mulVec w = x
      generalize (((fixU d.u).mul wMat.transpose).mul (fixV d.vt)).mulVec w = y
      lin3
    · rw [hr, e]
    · rw [hr, e]

/-- **C107** The two rotations of an essential matrix, of any scale and sign: one is that of the pose, and the other
differs from it by a half turn about the translation (the part along the translation is kept, the rest is reversed). -/
theorem C107_rotations {a : Iso ℝ} (ha : a.Rigid) (ht : a.t ≠ V3.zero) {d : SVD ℝ} {k : ℝ} (hk : k ≠ 0)
    (h : IsSVD (M3.smul k (essential a)) d) :
    ∃ R, R.IsRot ∧ (possibleRotationPair d).Perm [a.rot, R] ∧
      ∀ w, a.t.dot (R.mulVec w) = a.t.dot (a.rot.mulVec w) ∧
        a.t.cross (R.mulVec w) = (a.t.cross (a.rot.mulVec w)).neg := by
  obtain ⟨l, T, R, hl, hT, htl, hR, htwin, _, hpair⟩ := four_poses ha ht hk h
  refine ⟨R, hR, hpair, ?_⟩
  · intro w
    rw [htl, htwin]
    generalize a.rot.mulVec w = y
    constructor
    · have : (V3.smul l T).dot ((V3.smul (2 * T.dot y) T).add y.neg) =
          l * (2 * T.dot y * T.normSq - T.dot y) := by simp only [lin]; ring
      rw [this, hT]
      simp only [lin]; ring
    · lin3

/-! ## A match under the other rotation -/

/-- The residual does not see the sign of a bearing in the system that it solves. -/
theorem residualSystem_neg (pose : Iso ℝ) (a b : V3 ℝ) : residualSystem pose a b.neg = residualSystem pose a b := by
  have : termSquare ⟨pose, b.neg⟩ = termSquare ⟨pose, b⟩ := by
    ext <;> simp only [lin] <;> ring
  unfold residualSystem linearSystem
  simp only [List.foldl_cons, List.foldl_nil, this]

/-- For opposite bearings the residual is 1: the point at infinity is in front of one camera and behind the other. -/
theorem residual_opposite {solver : M4 → Option Eigen4} {pose : Iso ℝ} (hp : pose.Rigid) {a b : V3 ℝ} {e : Eigen4}
    (hs : solver (residualSystem pose a b) = some e) (he : IsEigen4 (residualSystem pose a b) e)
    (ha : a.normSq = 1) (hb : b.neg = pose.rot.mulVec a) (hn : b.cross pose.t ≠ V3.zero) :
    cameraResidual solver pose a b = some 1 := by
  have hn' : b.neg.cross pose.t ≠ V3.zero := by
    intro h
    apply hn
    have : b.cross pose.t = (b.neg.cross pose.t).neg := by lin3
    rw [this, h]
    lin3
  rw [← residualSystem_neg] at hs he
  obtain ⟨s, hs0, hv⟩ := residual_far hp ha hb hn' he
  have hr := residual_of_far hp hs ha hb hs0 hv
  rw [residualSystem_neg] at hs
  unfold cameraResidual at hr ⊢
  rw [residualSystem_neg] at hr
  simp only [hs] at hr ⊢
  cases hP : fromHomogeneous (e.vecs (leastAbs4 e.vals)) with
  | none =>
    have h0 := ((C33_from_homogeneous _).1).mp hP
    rw [hv] at h0
    have h1 : V3.smul s a = V3.zero := h0
    have h2 : (V3.smul s a).normSq = s * s := by rw [V3.normSq_smul, ha, mul_one]
    rw [h1] at h2
    have : s * s = 0 := by rw [← h2]; simp only [lin]; ring
    exact absurd (mul_self_eq_zero.mp this) hs0
  | some p =>
    rw [hP] at hr
    obtain ⟨q, hq, hr⟩ := Option.bind_eq_some_iff.mp hr
    have hr := Option.some.inj hr
    have hb1 : b.normSq = 1 := by rw [← V3.normSq_neg, hb, M3.IsRot.normSq_mulVec hp, ha]
    obtain ⟨h1, h2⟩ := unit_dot_range ha ((C33_from_homogeneous _).2 p hP).1
    obtain ⟨h3, h4⟩ := unit_dot_range hb1 ((C33_from_homogeneous _).2 q hq).1
    have e1 : b.neg.dot (bearing q) = -b.dot (bearing q) := by simp only [lin]; ring
    rw [e1] at hr
    simp only [hq, Option.bind_eq_bind, Option.bind_some, Option.pure_def, Option.some.injEq]
    split at hr <;> linarith

/-- Under the rotation of the other pair the point is in front of one camera and behind the other. -/
theorem residual_twin {solver : M4 → Option Eigen4} {R R' : M3 ℝ} {T u v x : V3 ℝ}
    (htwin : ∀ w, R'.mulVec w = (V3.smul (2 * T.dot (R.mulVec w)) T).add (R.mulVec w).neg)
    (hR' : R'.IsRot) {l : ℝ} (hu : Looks Iso.one u x) (hv : Looks ⟨R, V3.smul l T⟩ v x)
    (hn : v.cross (R.mulVec u) ≠ V3.zero) {s : ℝ} (hs1 : s ≠ 0) {e : Eigen4}
    (hs : solver (residualSystem ⟨R', V3.smul s T⟩ u v) = some e)
    (he : IsEigen4 (residualSystem ⟨R', V3.smul s T⟩ u v) e) :
    cameraResidual solver ⟨R', V3.smul s T⟩ u v = some 1 := by
  obtain ⟨hu1, d, hd, hx⟩ := hu
  obtain ⟨hv1, d', hd', hx'⟩ := hv
  have hx0 : x = V3.smul d u := by rw [← hx]; lin3
  have hRu : R.mulVec u = (V3.smul (d' / d) v).add (V3.smul (-(l / d)) T) := by
    have h1 : V3.smul d (R.mulVec u) = (V3.smul d' v).add (V3.smul (-l) T) := by
      rw [← hx', hx0]
      lin3
    have h2 : R.mulVec u = V3.smul d⁻¹ (V3.smul d (R.mulVec u)) := by ext <;> simp only [lin] <;> field_simp
    rw [h2, h1]
    ext <;> simp only [lin] <;> field_simp
  set D := 2 * T.dot (R.mulVec u) + l / d with hD
  have hR'u : R'.mulVec u = (V3.smul D T).add (V3.smul (-(d' / d)) v) := by
    rw [htwin]
    have : ∀ c : ℝ, (V3.smul c T).add (R.mulVec u).neg = (V3.smul (c + l / d) T).add (V3.smul (-(d' / d)) v) := by
      intro c
      rw [hRu]
      lin3
    rw [this]
  have hvT : v.cross T ≠ V3.zero := by
    intro h0
    apply hn
    rw [hRu]
    have : v.cross ((V3.smul (d' / d) v).add (V3.smul (-(l / d)) T)) = V3.smul (-(l / d)) (v.cross T) := by lin3
    rw [this, h0]
    lin3
  have scaled : ∀ {c : ℝ} {w : V3 ℝ}, c ≠ 0 → w ≠ V3.zero → V3.smul c w ≠ V3.zero := by
    intro c w hc hw h0
    apply hw
    have : w = V3.smul c⁻¹ (V3.smul c w) := by ext <;> simp only [lin] <;> field_simp
    rw [this, h0]
    lin3
  by_cases hD0 : D = 0
  · have h1 : R'.mulVec u = V3.smul (-(d' / d)) v := by rw [hR'u, hD0]; lin3
    have h2 : d' / d * (d' / d) = 1 := by
      have := M3.IsRot.normSq_mulVec hR' u
      rw [h1, V3.normSq_smul, hv1, hu1] at this
      linarith
    have h3 : d' / d = 1 := by
      have hpos : 0 < d' / d := div_pos hd' hd
      nlinarith
    refine residual_opposite (pose := ⟨R', V3.smul s T⟩) hR' hs he hu1 ?_ ?_
    · show v.neg = R'.mulVec u
      rw [h1, h3]
      lin3
    · show v.cross (V3.smul s T) ≠ V3.zero
      have : v.cross (V3.smul s T) = V3.smul s (v.cross T) := by lin3
      rw [this]
      exact scaled hs1 hvT
  · have hc : -(s / D) ≠ 0 := neg_ne_zero.mpr (div_ne_zero hs1 hD0)
    have hq : d' / d ≠ 0 := (div_pos hd' hd).ne'
    have key := C91_camera_exact (solver := solver) (pose := ⟨R', V3.smul s T⟩) (a := u) (b := v)
      (x := V3.smul (-(s / D)) u) (d := -(s / D)) (d' := s / D * (d' / d)) hR' hs he hu1 hv1 hc
      (mul_ne_zero (div_ne_zero hs1 hD0) hq) rfl ?_ ?_
    · rw [key]
      rcases lt_or_gt_of_ne (div_ne_zero hs1 hD0) with h0 | h0
      · rw [if_neg (by linarith), if_pos (mul_neg_of_neg_of_pos h0 (div_pos hd' hd)), zero_add]
      · rw [if_pos (by linarith), if_neg (not_lt.mpr (mul_pos h0 (div_pos hd' hd)).le), add_zero]
    · have : (⟨R', V3.smul s T⟩ : Iso ℝ).point (V3.smul (-(s / D)) u) =
          (V3.smul (-(s / D)) (R'.mulVec u)).add (V3.smul s T) := by lin3
      rw [this, hR'u]
      clear_value D
      ext <;> simp only [lin] <;> field_simp <;> ring
    · show u.cross (R'.transpose.mulVec v) ≠ V3.zero
      intro h0
      have h1 : R'.mulVec (u.cross (R'.transpose.mulVec v)) = (R'.mulVec u).cross v := by
        rw [← M3.IsRot.cross_mulVec hR', M3.mulVec_mulVec, M3.IsRot.orth' hR', M3.one_mulVec]
      rw [h0, M3.mulVec_zero, hR'u] at h1
      have h2 : ((V3.smul D T).add (V3.smul (-(d' / d)) v)).cross v = V3.smul (-D) (v.cross T) := by lin3
      exact scaled (neg_ne_zero.mpr hD0) hvT (h2 ▸ h1.symm)

/-- Under the right rotation the point is in front of both cameras or behind both, depending on the direction of the
translation. -/
theorem residual_same {solver : M4 → Option Eigen4} {R : M3 ℝ} (hR : R.IsRot) {T u v x : V3 ℝ} {l : ℝ} (hl : l ≠ 0)
    (hu : Looks Iso.one u x) (hv : Looks ⟨R, V3.smul l T⟩ v x)
    (hn : v.cross (R.mulVec u) ≠ V3.zero) {s : ℝ} (hs1 : s ≠ 0) {e : Eigen4}
    (hs : solver (residualSystem ⟨R, V3.smul s T⟩ u v) = some e)
    (he : IsEigen4 (residualSystem ⟨R, V3.smul s T⟩ u v) e) :
    cameraResidual solver ⟨R, V3.smul s T⟩ u v = some (if 0 < s / l then 0 else 2) := by
  obtain ⟨hu1, d, hd, hx⟩ := hu
  obtain ⟨hv1, d', hd', hx'⟩ := hv
  have hx0 : x = V3.smul d u := by rw [← hx]; lin3
  have hc : s / l ≠ 0 := div_ne_zero hs1 hl
  have key := C91_camera_exact (solver := solver) (pose := ⟨R, V3.smul s T⟩) (a := u) (b := v)
      (x := V3.smul (s / l * d) u) (d := s / l * d) (d' := s / l * d') hR hs he hu1 hv1 (mul_ne_zero hc hd.ne')
      (mul_ne_zero hc hd'.ne') rfl ?_ ?_
  · rw [key]
    rcases lt_or_gt_of_ne hc with h0 | h0
    · rw [if_pos (mul_neg_of_neg_of_pos h0 hd), if_pos (mul_neg_of_neg_of_pos h0 hd'), if_neg (by linarith)]
      norm_num
    · rw [if_neg (not_lt.mpr (mul_pos h0 hd).le), if_neg (not_lt.mpr (mul_pos h0 hd').le), if_pos h0, zero_add]
  · have h1 : (⟨R, V3.smul s T⟩ : Iso ℝ).point (V3.smul (s / l * d) u) =
        V3.smul (s / l) ((⟨R, V3.smul l T⟩ : Iso ℝ).point (V3.smul d u)) := by
      have : s = s / l * l := by field_simp
      generalize s / l = c at this
      subst this
      lin3
    rw [h1, ← hx0, hx']
    lin3
  · show u.cross (R.transpose.mulVec v) ≠ V3.zero
    intro h0
    have h1 : R.mulVec (u.cross (R.transpose.mulVec v)) = (R.mulVec u).cross v := by
      rw [← M3.IsRot.cross_mulVec hR, M3.mulVec_mulVec, M3.IsRot.orth' hR, M3.one_mulVec]
    rw [h0, M3.mulVec_zero] at h1
    apply hn
    rw [V3.cross_anticomm, ← h1]
    lin3

/-! ## The property -/

/-- The pose that the essential matrix cannot determine further: the translation has length one. -/
noncomputable def unitPose (a : Iso ℝ) : Iso ℝ := ⟨a.rot, V3.smul (1 / a.t.norm) a.t⟩

/-- A match of a point in front of both cameras, whose two bearings are not parallel. -/
def FrontMatch (a : Iso ℝ) (u v : V3 ℝ) : Prop :=
  (∃ x, Looks Iso.one u x ∧ Looks a v x) ∧ v.cross (a.rot.mulVec u) ≠ V3.zero

/-- An eigenvalue solver that always gives an answer, and a correct one. -/
def Solves (solver : M4 → Option Eigen4) : Prop :=
  ∀ pose a b, ∃ e, solver (residualSystem pose a b) = some e ∧ IsEigen4 (residualSystem pose a b) e

theorem smul_one (T : V3 ℝ) : V3.smul 1 T = T := by lin3
theorem smul_neg_one (T : V3 ℝ) : V3.smul (-1) T = T.neg := by lin3

/-- The residuals of the four poses, and which one the first is. -/
theorem four_residuals {a : Iso ℝ} (ha : a.Rigid) (ht : a.t ≠ V3.zero) {d : SVD ℝ} {k : ℝ} (hk : k ≠ 0)
    (h : IsSVD (M3.smul k (essential a)) d) {solver : M4 → Option Eigen4} (hs : Solves solver) :
    ∃ p q r, (possiblePoses d).Perm [unitPose a, p, q, r] ∧ ∀ u v, FrontMatch a u v →
      cameraResidual solver (unitPose a) u v = some 0 ∧ cameraResidual solver p u v = some 1 ∧
      cameraResidual solver q u v = some 2 ∧ cameraResidual solver r u v = some 1 := by
  obtain ⟨l, T, R, hl, hT, htl, hR, htwin, hperm, _⟩ := four_poses ha ht hk h
  have hal : (⟨a.rot, V3.smul l T⟩ : Iso ℝ) = a := by rw [← htl]
  have hnorm : a.t.norm = |l| := by rw [htl, V3.norm_smul, unit_norm hT, mul_one]
  have same : ∀ s : ℝ, s ≠ 0 → ∀ u v, FrontMatch a u v →
      cameraResidual solver ⟨a.rot, V3.smul s T⟩ u v = some (if 0 < s / l then 0 else 2) := by
    rintro s hs0 u v ⟨⟨x, hu, hv⟩, hn⟩
    obtain ⟨e, he, he'⟩ := hs ⟨a.rot, V3.smul s T⟩ u v
    rw [← hal] at hv
    exact residual_same ha hl hu hv hn hs0 he he'
  have twin : ∀ s : ℝ, s ≠ 0 → ∀ u v, FrontMatch a u v →
      cameraResidual solver ⟨R, V3.smul s T⟩ u v = some 1 := by
    rintro s hs0 u v ⟨⟨x, hu, hv⟩, hn⟩
    obtain ⟨e, he, he'⟩ := hs ⟨R, V3.smul s T⟩ u v
    rw [← hal] at hv
    exact residual_twin htwin hR hu hv hn hs0 he he'
  rw [← smul_neg_one] at hperm
  nth_rewrite 1 2 [← smul_one T] at hperm
  rcases lt_or_gt_of_ne hl with h0 | h0
  · have e : unitPose a = ⟨a.rot, V3.smul (-1) T⟩ := by
      unfold unitPose
      rw [hnorm, abs_of_neg h0, htl]
      congr 1
      have : -l ≠ 0 := neg_ne_zero.mpr hl
      ext <;> simp only [lin] <;> field_simp
    refine ⟨_, _, _, hperm.trans (l₃ := [unitPose a, ⟨R, V3.smul (-1) T⟩, ⟨a.rot, V3.smul 1 T⟩, ⟨R, V3.smul 1 T⟩]) ?_, ?_⟩
    · rw [e]
      exact List.perm_append_comm (l₁ := [_, _]) (l₂ := [_, _])
    · intro u v hm
      rw [e, same _ (by norm_num) u v hm, twin _ (by norm_num) u v hm, same _ one_ne_zero u v hm,
        twin _ one_ne_zero u v hm, if_pos (div_pos_of_neg_of_neg (by norm_num) h0),
        if_neg (not_lt.mpr (div_neg_of_pos_of_neg one_pos h0).le)]
      exact ⟨rfl, rfl, rfl, rfl⟩
  · have e : unitPose a = ⟨a.rot, V3.smul 1 T⟩ := by
      unfold unitPose
      rw [hnorm, abs_of_pos h0, htl]
      congr 1
      ext <;> simp only [lin] <;> field_simp
    refine ⟨_, _, _, hperm.trans (l₃ := [unitPose a, ⟨R, V3.smul 1 T⟩, ⟨a.rot, V3.smul (-1) T⟩, ⟨R, V3.smul (-1) T⟩]) ?_, ?_⟩
    · rw [e]
    · intro u v hm
      rw [e, same _ one_ne_zero u v hm, twin _ one_ne_zero u v hm, same _ (by norm_num) u v hm,
        twin _ (by norm_num) u v hm, if_pos (div_pos one_pos h0),
        if_neg (not_lt.mpr (div_neg_of_neg_of_pos (by norm_num) h0).le)]
      exact ⟨rfl, rfl, rfl, rfl⟩

/-- **C107** Take an essential matrix, of any scale and sign, of a pose with a translation, and any correct singular value
decomposition of it. For every match of a point in front of both cameras whose bearings are not parallel, the residuals of
the four poses are 0, 1, 1 and 2 in some order; the 0 belongs to the pose that made the matrix. -/
theorem C107_one_of_four {a : Iso ℝ} (ha : a.Rigid) (ht : a.t ≠ V3.zero) {d : SVD ℝ} {k : ℝ} (hk : k ≠ 0)
    (h : IsSVD (M3.smul k (essential a)) d) {solver : M4 → Option Eigen4} (hs : Solves solver) {u v : V3 ℝ}
    (hm : FrontMatch a u v) :
    ((possiblePoses d).map (fun p => cameraResidual solver p u v)).Perm [some 0, some 1, some 2, some 1] ∧
    ∀ p ∈ possiblePoses d, (cameraResidual solver p u v = some 0 ↔ p = unitPose a) := by
  obtain ⟨p, q, r, hp, hres⟩ := four_residuals ha ht hk h hs
  obtain ⟨h1, h2, h3, h4⟩ := hres u v hm
  constructor
  · have := hp.map (fun p => cameraResidual solver p u v)
    simpa only [List.map_cons, List.map_nil, h1, h2, h3, h4] using this
  · intro p' hp'
    have hmem := hp.mem_iff.mp hp'
    simp only [List.mem_cons, List.not_mem_nil, or_false] at hmem
    constructor
    · intro h0
      rcases hmem with rfl | rfl | rfl | rfl
      · rfl
      · rw [h2] at h0; norm_num at h0
      · rw [h3] at h0; norm_num at h0
      · rw [h4] at h0; norm_num at h0
    · rintro rfl
      exact h1

/-- Whether sample consensus counts a match as an inlier of a pose: its residual is below the threshold. -/
noncomputable def isInlier (solver : M4 → Option Eigen4) (threshold : ℝ) (p : Iso ℝ) (m : V3 ℝ × V3 ℝ) : Bool :=
  match cameraResidual solver p m.1 m.2 with
  | some r => decide (r < threshold)
  | none => false

/-- The number of inliers. -/
noncomputable def inliers (solver : M4 → Option Eigen4) (threshold : ℝ) (p : Iso ℝ) (ms : List (V3 ℝ × V3 ℝ)) : Nat :=
  (ms.filter (isInlier solver threshold p)).length

/-- **C107** So whatever the number of matches, and for every threshold up to 1, the right pose has all of them as inliers
and every other of the four poses has none. -/
theorem C107_inliers {a : Iso ℝ} (ha : a.Rigid) (ht : a.t ≠ V3.zero) {d : SVD ℝ} {k : ℝ} (hk : k ≠ 0)
    (h : IsSVD (M3.smul k (essential a)) d) {solver : M4 → Option Eigen4} (hs : Solves solver)
    {ms : List (V3 ℝ × V3 ℝ)} (hm : ∀ m ∈ ms, FrontMatch a m.1 m.2) {threshold : ℝ} (h0 : 0 < threshold)
    (h1 : threshold ≤ 1) :
    inliers solver threshold (unitPose a) ms = ms.length ∧
    ∀ p ∈ possiblePoses d, p ≠ unitPose a → inliers solver threshold p ms = 0 := by
  obtain ⟨p, q, r, hp, hres⟩ := four_residuals ha ht hk h hs
  unfold inliers
  constructor
  · congr 1
    apply List.filter_eq_self.mpr
    intro m hmem
    unfold isInlier
    rw [(hres _ _ (hm m hmem)).1]
    exact decide_eq_true h0
  · intro p' hp' hne
    rw [List.length_eq_zero_iff]
    apply List.filter_eq_nil_iff.mpr
    intro m hmem
    obtain ⟨_, h2, h3, h4⟩ := hres _ _ (hm m hmem)
    have hmem := hp.mem_iff.mp hp'
    simp only [List.mem_cons, List.not_mem_nil, or_false] at hmem
    unfold isInlier
    rcases hmem with rfl | rfl | rfl | rfl
    · exact absurd rfl hne
    · rw [h2]; simpa using h1
    · rw [h3]; simp only [decide_eq_true_eq, not_lt]; linarith
    · rw [h4]; simpa using h1

/-- **C107** The eight-point estimator on matches that determine the essential matrix up to scale: it returns four poses,
exactly one of which is consistent with any match of the scene. -/
theorem C107_eight_point {eig : Matrix (Fin 9) (Fin 9) ℝ → Option SymEigen} {svd : M3 ℝ → Option (SVD ℝ)}
    (heig : ∀ S e, eig S = some e → IsSymEigen S e) (hsvd : ∀ E d, svd E = some d → IsSVD E d) {a : Iso ℝ}
    (ha : a.Rigid) (ht : a.t ≠ V3.zero) {ms : List Match} (h₀ : Determines (ms.take 8) (essential a)) {d : SVD ℝ}
    (hrun : (eightPoint eig ms).bind svd = some d) {solver : M4 → Option Eigen4} (hs : Solves solver) {u v : V3 ℝ}
    (hm : FrontMatch a u v) :
    ((eightPointEstimate eig svd ms).map (fun p => cameraResidual solver p u v)).Perm [some 0, some 1, some 2, some 1] ∧
    ∀ p ∈ eightPointEstimate eig svd ms, (cameraResidual solver p u v = some 0 ↔ p = unitPose a) := by
  obtain ⟨E, hE, hd⟩ := Option.bind_eq_some_iff.mp hrun
  obtain ⟨k, hk, e⟩ := C44_estimate_unique heig hE h₀
  have hsv := hsvd E d hd
  rw [e] at hsv
  unfold eightPointEstimate
  rw [hrun]
  exact C107_one_of_four ha ht hk hsv hs hm

/-- A correct solver for every system. -/
theorem exists_solves : ∃ solver, Solves solver := by
  classical
  refine ⟨fun S => if h : ∃ e, IsEigen4 S e then some h.choose else none, fun pose a b => ?_⟩
  have h : ∃ e, IsEigen4 (residualSystem pose a b) e := linearSystem_eigen _
  exact ⟨h.choose, by simp only [dif_pos h], h.choose_spec⟩

/-- A case that meets the hypotheses: a camera that moves backwards, a matrix of another sign and scale, and a point to the
right. -/
example : ∃ (a : Iso ℝ) (d : SVD ℝ) (u v : V3 ℝ), a.Rigid ∧ a.t ≠ V3.zero ∧ IsSVD (M3.smul (-3) (essential a)) d ∧
    FrontMatch a u v := by
  refine ⟨⟨M3.one, ⟨0, 0, 2⟩⟩, ⟨⟨1, 0, 0, 0, 1, 0, 0, 0, 1⟩, 6, 6, 0, ⟨0, 1, 0, -1, 0, 0, 0, 0, 1⟩⟩,
    ⟨12 / 13, 0, 5 / 13⟩, ⟨4 / 5, 0, 3 / 5⟩, M3.IsRot.one, ?_, ⟨?_, by lin3, by lin3, le_refl _, by norm_num, le_refl _⟩,
    ⟨⟨6, 0, 5 / 2⟩, ⟨?_, 13 / 2, by norm_num, ?_⟩, ⟨?_, 15 / 2, by norm_num, ?_⟩⟩, ?_⟩
  · intro e
    have := congrArg V3.z e
    simp only [lin] at this
    norm_num at this
  · unfold SVD.recompose
    ext <;> simp only [lin] <;> norm_num
  · simp only [lin]; norm_num
  · ext <;> simp only [lin] <;> norm_num
  · simp only [lin]; norm_num
  · ext <;> simp only [lin] <;> norm_num
  · intro e
    have := congrArg V3.y e
    simp only [lin] at this
    norm_num at this

end Verif.Geo
