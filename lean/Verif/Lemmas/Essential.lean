import Verif.Spec.Essential
import Verif.Lemmas.Pose

/-!
# Lemmas about essential matrices
-/

namespace Verif.Geo

variable {K : Type} [CommRing K]

/-- An orthogonal matrix. -/
def M3.Orth (A : M3 K) : Prop := A.transpose.mul A = M3.one

theorem M3.det_sq_of_orth {A : M3 K} (h : A.Orth) : A.det * A.det = 1 := by
  have := congrArg M3.det h
  rwa [M3.det_mul, M3.det_transpose, M3.det_one] at this

theorem M3.Orth.transpose_eq {A : M3 K} (h : A.Orth) : A.transpose = M3.smul A.det A.adj := by
  have h1 : A.transpose.mul (A.mul A.adj) = A.adj := by
    rw [← M3.mul_assoc, h, M3.one_mul]
  rw [M3.mul_adj, M3.mul_smul_one] at h1
  rw [← h1]
  have : M3.smul A.det (M3.smul A.det A.transpose) = M3.smul (A.det * A.det) A.transpose := by lin3
  rw [this, M3.det_sq_of_orth h, M3.one_smul]

theorem M3.Orth.orth' {A : M3 K} (h : A.Orth) : A.mul A.transpose = M3.one := by
  rw [h.transpose_eq]
  have : A.mul (M3.smul A.det A.adj) = M3.smul A.det (A.mul A.adj) := by lin3
  rw [this, M3.mul_adj]
  have : M3.smul A.det (M3.smul A.det M3.one) = M3.smul (A.det * A.det) (M3.one : M3 K) := by lin3
  rw [this, M3.det_sq_of_orth h, M3.one_smul]

theorem M3.Orth.of_right {A : M3 K} (h : A.mul A.transpose = M3.one) : A.Orth := by
  have h2 : A.transpose.Orth := by
    unfold M3.Orth
    rw [M3.transpose_transpose, h]
  have := h2.orth'
  rwa [M3.transpose_transpose] at this

theorem M3.Orth.transpose {A : M3 K} (h : A.Orth) : A.transpose.Orth := by
  unfold M3.Orth
  rw [M3.transpose_transpose]
  exact h.orth'

theorem M3.Orth.mul {A B : M3 K} (h : A.Orth) (h' : B.Orth) : (A.mul B).Orth := by
  unfold M3.Orth
  rw [M3.transpose_mul, M3.mul_assoc, ← M3.mul_assoc A.transpose, h, M3.one_mul, h']

theorem negCol3_orth {A : M3 K} (h : A.Orth) : (negCol3 A).Orth := by
  unfold M3.Orth at *
  rw [M3.ext_iff] at *
  simp only [lin] at *
  obtain ⟨h1, h2, h3, h4, h5, h6, h7, h8, h9⟩ := h
  refine ⟨?_, ?_, ?_, ?_, ?_, ?_, ?_, ?_, ?_⟩
  · linear_combination h1
  · linear_combination h2
  · linear_combination -h3
  · linear_combination h4
  · linear_combination h5
  · linear_combination -h6
  · linear_combination -h7
  · linear_combination -h8
  · linear_combination h9

theorem negRow3_eq (A : M3 K) : negRow3 A = (negCol3 A.transpose).transpose := by lin3

theorem negRow3_orth {A : M3 K} (h : A.Orth) : (negRow3 A).Orth := by
  rw [negRow3_eq]
  exact (negCol3_orth h.transpose).transpose

theorem det_negCol3 (A : M3 K) : (negCol3 A).det = -A.det := by simp only [lin]; ring
theorem det_negRow3 (A : M3 K) : (negRow3 A).det = -A.det := by simp only [lin]; ring

theorem det_cases {A : M3 ℝ} (h : A.Orth) : A.det = 1 ∨ A.det = -1 := by
  have := M3.det_sq_of_orth h
  have h2 : (A.det - 1) * (A.det + 1) = 0 := by linarith
  rcases mul_eq_zero.mp h2 with h | h
  · exact Or.inl (by linarith)
  · exact Or.inr (by linarith)

theorem fixU_isRot {u : M3 ℝ} (h : u.Orth) : (fixU u).IsRot := by
  unfold fixU
  rcases det_cases h with hd | hd
  · rw [if_neg (by rw [hd]; norm_num)]
    exact ⟨h, hd⟩
  · rw [if_pos (by rw [hd]; norm_num)]
    exact ⟨negCol3_orth h, by rw [det_negCol3, hd]; norm_num⟩

theorem fixV_isRot {v : M3 ℝ} (h : v.Orth) : (fixV v).IsRot := by
  unfold fixV
  rcases det_cases h with hd | hd
  · rw [if_neg (by rw [hd]; norm_num)]
    exact ⟨h, hd⟩
  · rw [if_pos (by rw [hd]; norm_num)]
    exact ⟨negRow3_orth h, by rw [det_negRow3, hd]; norm_num⟩

theorem wMat_isRot : (wMat : M3 K).IsRot :=
  ⟨by lin3, by simp only [lin]; ring⟩

theorem IsSVD.uO {E : M3 ℝ} {d : SVD ℝ} (h : IsSVD E d) : d.u.Orth := h.u_orth
theorem IsSVD.vO {E : M3 ℝ} {d : SVD ℝ} (h : IsSVD E d) : d.vt.Orth := M3.Orth.of_right h.v_orth

/-- The sign fixes do not change the product when the last singular value is zero. -/
theorem fix_recompose (u v : M3 ℝ) (a b : ℝ) :
    ((fixU u).mul (M3.diag a b 0)).mul (fixV v) = (u.mul (M3.diag a b 0)).mul v := by
  have h1 : (negCol3 u).mul (M3.diag a b 0) = u.mul (M3.diag a b 0) := by lin3
  have h2 : ∀ A : M3 ℝ, (A.mul (M3.diag a b 0)).mul (negRow3 v) = (A.mul (M3.diag a b 0)).mul v := by
    intro A; lin3
  unfold fixU fixV
  split <;> split <;> simp only [h1, h2]

/-- The determinant of an essential matrix is zero. -/
theorem det_essential (a : Iso K) : (essential a).det = 0 := by
  unfold essential
  rw [M3.det_mul]
  have : (M3.hat a.t).det = 0 := by simp only [lin]; ring
  rw [this, zero_mul]

/-- The smallest singular value of an essential matrix is zero. -/
theorem IsSVD.s3_zero {a : Iso ℝ} {d : SVD ℝ} (h : IsSVD (essential a) d) : d.s3 = 0 := by
  have hd : d.u.det * (d.s1 * d.s2 * d.s3) * d.vt.det = 0 := by
    rw [← det_essential a, ← h.eq]
    unfold SVD.recompose
    rw [M3.det_mul, M3.det_mul]
    have : (M3.diag d.s1 d.s2 d.s3).det = d.s1 * d.s2 * d.s3 := by simp only [lin]; ring
    rw [this]
  have hu : d.u.det ≠ 0 := by
    rcases det_cases h.uO with e | e <;> rw [e] <;> norm_num
  have hv : d.vt.det ≠ 0 := by
    rcases det_cases h.vO with e | e <;> rw [e] <;> norm_num
  have hp : d.s1 * d.s2 * d.s3 = 0 := by
    rcases mul_eq_zero.mp hd with e | e
    · rcases mul_eq_zero.mp e with e | e
      · exact absurd e hu
      · exact e
    · exact absurd e hv
  have h12 := h.ord12
  have h23 := h.ord23
  have h3 := h.nonneg
  rcases mul_eq_zero.mp hp with e | e
  · rcases mul_eq_zero.mp e with e | e
    · linarith
    · linarith
  · exact e

/-- Conjugating the cross matrix by a rotation. -/
theorem hat_conj {A : M3 K} (h : A.IsRot) (v : V3 K) :
    (A.transpose.mul (M3.hat v)).mul A = M3.hat (A.transpose.mulVec v) := by
  have e : (A.transpose.mul (M3.hat v)).mul A = M3.hat (A.adj.mulVec v) := by lin3
  rw [e, ← h.transpose_eq_adj]

/-- The heart of the completeness proof: if `λ Z Q = diag (s1, s2, 0)` with a rotation `Q`, `Z` the
cross matrix of the last axis and `λ ≠ 0`, then the singular values are `|λ|` and `Q` is one of two
matrices. -/
theorem quarter_cases {Q : M3 ℝ} (hQ : Q.IsRot) {l s1 s2 : ℝ} (hl : l ≠ 0) (h1 : 0 ≤ s1)
    (h2 : 0 ≤ s2)
    (h : M3.smul l ((M3.hat ⟨0, 0, 1⟩).mul Q) = M3.diag s1 s2 0) :
    s1 = |l| ∧ s2 = |l| ∧ ((0 < l ∧ Q = wMat.transpose) ∨ (l < 0 ∧ Q = wMat)) := by
  have hO := hQ.orth'
  have hadj := hQ.transpose_eq_adj
  rw [M3.ext_iff] at h hO hadj
  simp only [lin] at h hO hadj
  obtain ⟨a11, a12, a13, a21, a22, a23, _, _, _⟩ := h
  obtain ⟨o11, _, _, _, o22, _, _, _, _⟩ := hO
  obtain ⟨_, _, j13, _, _, j23, _, _, j33⟩ := hadj
  have q22 : Q.m22 = 0 := by
    have : l * Q.m22 = 0 := by linarith
    exact (mul_eq_zero.mp this).resolve_left hl
  have q23 : Q.m23 = 0 := by
    have : l * Q.m23 = 0 := by linarith
    exact (mul_eq_zero.mp this).resolve_left hl
  have q11 : Q.m11 = 0 := by
    have : l * Q.m11 = 0 := by linarith
    exact (mul_eq_zero.mp this).resolve_left hl
  have q13 : Q.m13 = 0 := by
    have : l * Q.m13 = 0 := by linarith
    exact (mul_eq_zero.mp this).resolve_left hl
  have e1 : s1 = -(l * Q.m21) := by linarith
  have e2 : s2 = l * Q.m12 := by linarith
  rw [q22, q23] at o22
  rw [q11, q13] at o11
  have c12 : Q.m12 * Q.m12 = 1 := by linarith
  have c21 : Q.m21 * Q.m21 = 1 := by linarith
  have two : ∀ x : ℝ, x * x = 1 → x = 1 ∨ x = -1 := by
    intro x hx
    have : (x - 1) * (x + 1) = 0 := by linarith
    rcases mul_eq_zero.mp this with e | e
    · exact Or.inl (by linarith)
    · exact Or.inr (by linarith)
  rw [q22, q23] at j13
  rw [q11, q13] at j23
  rw [q11, q22] at j33
  rcases lt_or_gt_of_ne hl with hneg | hpos
  · have h12 : Q.m12 = -1 := by
      rcases two _ c12 with e | e
      · rw [e] at e2; linarith
      · exact e
    have h21 : Q.m21 = 1 := by
      rcases two _ c21 with e | e
      · exact e
      · rw [e] at e1; linarith
    rw [h12] at e2
    rw [h21] at e1
    rw [abs_of_neg hneg]
    refine ⟨by linarith, by linarith, Or.inr ⟨hneg, ?_⟩⟩
    rw [h12, h21] at j33
    ext <;> simp only [lin] <;> linarith
  · have h12 : Q.m12 = 1 := by
      rcases two _ c12 with e | e
      · exact e
      · rw [e] at e2; linarith
    have h21 : Q.m21 = -1 := by
      rcases two _ c21 with e | e
      · rw [e] at e1; linarith
      · exact e
    rw [h12] at e2
    rw [h21] at e1
    rw [abs_of_pos hpos]
    refine ⟨by linarith, by linarith, Or.inl ⟨hpos, ?_⟩⟩
    rw [h12, h21] at j33
    ext <;> simp only [lin] <;> linarith

/-- What any decomposition of an essential matrix with non-zero translation looks like, after the
sign fixes: the last column of `U` is parallel to the translation, the singular values are the
length of the translation, and the rotation between the two frames is a quarter turn. -/
theorem IsSVD.structure {a : Iso ℝ} (ha : a.Rigid) (ht : a.t ≠ V3.zero) {d : SVD ℝ}
    (h : IsSVD (essential a) d) :
    ∃ l : ℝ, l ≠ 0 ∧ a.t = V3.smul l (fixU d.u).col3 ∧ d.s1 = |l| ∧ d.s2 = |l| ∧ d.s3 = 0 ∧
      |l| = a.t.norm ∧
      ((0 < l ∧ a.rot = ((fixU d.u).mul wMat.transpose).mul (fixV d.vt)) ∨
       (l < 0 ∧ a.rot = ((fixU d.u).mul wMat).mul (fixV d.vt))) := by
  have h3 := h.s3_zero
  have hU := fixU_isRot h.uO
  have hV := fixV_isRot h.vO
  have hE : ((fixU d.u).mul (M3.diag d.s1 d.s2 0)).mul (fixV d.vt) = essential a := by
    rw [fix_recompose, ← h.eq]
    unfold SVD.recompose
    rw [h3]
  set U := fixU d.u with hUdef
  set V := fixV d.vt with hVdef
  -- the conjugated equation
  have hconj : (U.transpose.mul (essential a)).mul V.transpose = M3.diag d.s1 d.s2 0 := by
    rw [← hE]
    have : (U.transpose.mul ((U.mul (M3.diag d.s1 d.s2 0)).mul V)).mul V.transpose =
        ((U.transpose.mul U).mul (M3.diag d.s1 d.s2 0)).mul (V.mul V.transpose) := by
      simp only [M3.mul_assoc]
    rw [this, hU.orth, hV.orth', M3.one_mul, M3.mul_one]
  -- in terms of the rotated translation and a rotation `Q`
  have hQ : ((U.transpose.mul a.rot).mul V.transpose).IsRot :=
    (hU.transpose.mul ha).mul hV.transpose
  have hsplit : (U.transpose.mul (essential a)).mul V.transpose =
      (M3.hat (U.transpose.mulVec a.t)).mul ((U.transpose.mul a.rot).mul V.transpose) := by
    rw [← hat_conj hU]
    unfold essential
    have : ((U.transpose.mul (M3.hat a.t)).mul U).mul
        ((U.transpose.mul a.rot).mul V.transpose) =
        ((U.transpose.mul (M3.hat a.t)).mul (U.mul U.transpose)).mul (a.rot.mul V.transpose) := by
      simp only [M3.mul_assoc]
    rw [this, hU.orth', M3.mul_one]
    simp only [M3.mul_assoc]
  set Q := (U.transpose.mul a.rot).mul V.transpose with hQdef
  set s := U.transpose.mulVec a.t with hsdef
  rw [hsplit] at hconj
  -- the last row gives s × anything has no last component: s is along the last axis
  have hrow : ∀ v : V3 ℝ, (s.cross v).z = 0 := by
    intro v
    have e1 : ((M3.hat s).mul Q).mulVec (Q.transpose.mulVec v) = s.cross v := by
      rw [M3.mulVec_mulVec, M3.mul_assoc, hQ.orth', M3.mul_one, M3.hat_mulVec]
    rw [← e1, hconj]
    simp only [lin]; ring
  have hsx : s.x = 0 := by
    have := hrow ⟨0, 1, 0⟩
    simp only [lin] at this
    linarith
  have hsy : s.y = 0 := by
    have := hrow ⟨1, 0, 0⟩
    simp only [lin] at this
    linarith
  have hs : s = V3.smul s.z ⟨0, 0, 1⟩ := by
    ext
    · rw [hsx]; simp only [lin]; ring
    · rw [hsy]; simp only [lin]; ring
    · simp only [lin]; ring
  have hts : a.t = U.mulVec s := by
    rw [hsdef, M3.mulVec_mulVec, hU.orth', M3.one_mulVec]
  have htc : a.t = V3.smul s.z U.col3 := by
    rw [hts]
    conv_lhs => rw [hs]
    lin3
  have hz : s.z ≠ 0 := by
    intro e
    apply ht
    rw [htc, e]
    lin3
  have hq : M3.smul s.z ((M3.hat ⟨0, 0, 1⟩).mul Q) = M3.diag d.s1 d.s2 0 := by
    rw [← hconj]
    conv_rhs => rw [hs]
    lin3
  obtain ⟨e1, e2, e3⟩ := quarter_cases hQ hz (le_trans h.nonneg (le_trans h.ord23 h.ord12))
    (le_trans h.nonneg h.ord23) hq
  have hR : a.rot = (U.mul Q).mul V := by
    rw [hQdef]
    have : (U.mul ((U.transpose.mul a.rot).mul V.transpose)).mul V =
        ((U.mul U.transpose).mul a.rot).mul (V.transpose.mul V) := by simp only [M3.mul_assoc]
    rw [this, hU.orth', hV.orth, M3.one_mul, M3.mul_one]
  refine ⟨s.z, hz, htc, e1, e2, h3, ?_, ?_⟩
  · have hc : U.col3.norm = 1 := by
      apply V3.norm_of_normSq zero_le_one
      have := hU.orth
      rw [M3.ext_iff] at this
      simp only [lin] at this
      simp only [lin]
      linarith [this.2.2.2.2.2.2.2.2]
    rw [htc, V3.norm_smul, hc, mul_one]
  · rcases e3 with ⟨hp, e⟩ | ⟨hp, e⟩
    · exact Or.inl ⟨hp, by rw [hR, e]⟩
    · exact Or.inr ⟨hp, by rw [hR, e]⟩

end Verif.Geo
