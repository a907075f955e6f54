import Verif.Lemmas.Essential

/-!
# The closest essential matrix
-/

namespace Verif.Geo

theorem M3.frobSq_eq {K : Type} [CommRing K] (A : M3 K) :
    A.frobSq = (A.transpose.mul A).trace := by simp only [lin]; ring

theorem M3.trace_comm {K : Type} [CommRing K] (A B : M3 K) :
    (A.mul B).trace = (B.mul A).trace := by simp only [lin]; ring

theorem M3.frobSq_orth_left {K : Type} [CommRing K] {U : M3 K} (h : U.Orth) (A : M3 K) :
    (U.mul A).frobSq = A.frobSq := by
  rw [M3.frobSq_eq, M3.frobSq_eq, M3.transpose_mul, M3.mul_assoc, ← M3.mul_assoc U.transpose, h,
    M3.one_mul]

theorem M3.frobSq_orth_right {K : Type} [CommRing K] {V : M3 K} (h : V.Orth) (A : M3 K) :
    (A.mul V).frobSq = A.frobSq := by
  rw [M3.frobSq_eq, M3.frobSq_eq, M3.transpose_mul, M3.mul_assoc, M3.trace_comm, M3.mul_assoc,
    M3.mul_assoc, h.orth', M3.mul_one]

/-- Conjugating the cross matrix, in general. -/
theorem hat_conj' {K : Type} [CommRing K] (A : M3 K) (v : V3 K) :
    (A.transpose.mul (M3.hat v)).mul A = M3.hat (A.adj.mulVec v) := by lin3

/-- A diagonal entry of `hat s * O` is at most the length of `s`. -/
theorem diag_entry_le {x y a b n : ℝ} (hn : 0 ≤ n) (hs : x * x + y * y ≤ n * n)
    (ha : a * a + b * b ≤ 1) : x * a + y * b ≤ n := by
  have h1 : (x * a + y * b) * (x * a + y * b) ≤ n * n := by
    nlinarith [mul_self_nonneg (x * b - y * a), mul_self_nonneg x, mul_self_nonneg y,
      mul_self_nonneg a, mul_self_nonneg b,
      mul_le_mul hs ha (by nlinarith [mul_self_nonneg a, mul_self_nonneg b]) (by positivity)]
  exact abs_le_of_sq_le_sq' (by nlinarith) hn |>.2

/-- The antisymmetric part of a rotation is at most twice a unit. -/
theorem antisym_le {Q : M3 ℝ} (hQ : Q.IsRot) :
    (Q.m32 - Q.m23) * (Q.m32 - Q.m23) + (Q.m13 - Q.m31) * (Q.m13 - Q.m31) +
      (Q.m21 - Q.m12) * (Q.m21 - Q.m12) ≤ 4 := by
  have ho := hQ.orth
  have hadj := hQ.transpose_eq_adj
  rw [M3.ext_iff] at ho hadj
  simp only [lin] at ho hadj
  obtain ⟨o1, _, _, _, o2, _, _, _, o3⟩ := ho
  obtain ⟨j11, _, _, _, j22, _, _, _, j33⟩ := hadj
  have key : (Q.m32 - Q.m23) * (Q.m32 - Q.m23) + (Q.m13 - Q.m31) * (Q.m13 - Q.m31) +
      (Q.m21 - Q.m12) * (Q.m21 - Q.m12) =
      4 - (Q.m11 + Q.m22 + Q.m33 - 1) * (Q.m11 + Q.m22 + Q.m33 - 1) := by
    linear_combination o1 + o2 + o3 - 2 * j11 - 2 * j22 - 2 * j33
  rw [key]
  nlinarith [mul_self_nonneg (Q.m11 + Q.m22 + Q.m33 - 1)]

theorem trace_hat_sq_le {O : M3 ℝ} (hO : O.Orth) (s : V3 ℝ) :
    ((M3.hat s).mul O).trace * ((M3.hat s).mul O).trace ≤ 4 * s.normSq := by
  -- either the matrix or its opposite is a rotation
  have hb : (O.m32 - O.m23) * (O.m32 - O.m23) + (O.m13 - O.m31) * (O.m13 - O.m31) +
      (O.m21 - O.m12) * (O.m21 - O.m12) ≤ 4 := by
    rcases det_cases hO with h | h
    · exact antisym_le ⟨hO, h⟩
    · have hN : (O.neg).IsRot := by
        constructor
        · rw [← hO]; lin3
        · rw [show O.neg.det = -O.det by simp only [lin]; ring, h]; norm_num
      have := antisym_le hN
      simp only [lin] at this
      linarith
  have e : ((M3.hat s).mul O).trace = -(s.x * (O.m32 - O.m23) + s.y * (O.m13 - O.m31) +
      s.z * (O.m21 - O.m12)) := by simp only [lin]; ring
  rw [e]
  set a := O.m32 - O.m23
  set b := O.m13 - O.m31
  set c := O.m21 - O.m12
  simp only [lin]
  have h0 : 0 ≤ s.x * s.x + s.y * s.y + s.z * s.z := by
    nlinarith [mul_self_nonneg s.x, mul_self_nonneg s.y, mul_self_nonneg s.z]
  nlinarith [mul_self_nonneg (s.x * b - s.y * a), mul_self_nonneg (s.x * c - s.z * a),
    mul_self_nonneg (s.y * c - s.z * b), mul_le_mul_of_nonneg_left hb h0]

/-- The von Neumann style bound for essential matrices. -/
theorem diag_dot_le {O : M3 ℝ} (hO : O.Orth) (s : V3 ℝ) {s1 s2 s3 : ℝ} (h12 : s2 ≤ s1)
    (h23 : s3 ≤ s2) (h3 : 0 ≤ s3) :
    s1 * ((M3.hat s).mul O).m11 + s2 * ((M3.hat s).mul O).m22 + s3 * ((M3.hat s).mul O).m33 ≤
      (s1 + s2) * s.norm := by
  have hn := V3.norm_nonneg s
  have hnn := V3.norm_mul_self s
  have htr := trace_hat_sq_le hO s
  have ho' := hO
  unfold M3.Orth at ho'
  rw [M3.ext_iff] at ho'
  simp only [lin] at ho'
  obtain ⟨o1, _, _, _, o2, _, _, _, o3⟩ := ho'
  -- the diagonal entries
  have p1 : ((M3.hat s).mul O).m11 ≤ s.norm := by
    have := diag_entry_le (x := -s.z) (y := s.y) (a := O.m21) (b := O.m31) hn
      (by rw [hnn]; simp only [lin]; nlinarith [mul_self_nonneg s.x])
      (by nlinarith [mul_self_nonneg O.m11])
    simp only [lin]
    linarith
  have p2 : ((M3.hat s).mul O).m22 ≤ s.norm := by
    have := diag_entry_le (x := s.z) (y := -s.x) (a := O.m12) (b := O.m32) hn
      (by rw [hnn]; simp only [lin]; nlinarith [mul_self_nonneg s.y])
      (by nlinarith [mul_self_nonneg O.m22])
    simp only [lin]
    linarith
  have pt : ((M3.hat s).mul O).trace ≤ 2 * s.norm := by
    have : ((M3.hat s).mul O).trace * ((M3.hat s).mul O).trace ≤
        (2 * s.norm) * (2 * s.norm) := by nlinarith
    exact (abs_le_of_sq_le_sq' (by nlinarith) (by linarith)).2
  set G := (M3.hat s).mul O
  have et : G.trace = G.m11 + G.m22 + G.m33 := by simp only [lin]
  rw [et] at pt
  nlinarith [mul_le_mul_of_nonneg_left p1 (sub_nonneg.mpr h12),
    mul_le_mul_of_nonneg_left (add_le_add p1 p2) (sub_nonneg.mpr h23),
    mul_le_mul_of_nonneg_left pt h3]

/-- The squared length of the cross matrix times an orthogonal matrix. -/
theorem frobSq_hat_mul {O : M3 ℝ} (hO : O.Orth) (s : V3 ℝ) :
    ((M3.hat s).mul O).frobSq = 2 * s.normSq := by
  rw [M3.frobSq_orth_right hO]
  simp only [lin]; ring

theorem frobSq_diag_sub (G : M3 ℝ) (a b c : ℝ) : ((M3.diag a b c).sub G).frobSq =
    a * a + b * b + c * c - 2 * (a * G.m11 + b * G.m22 + c * G.m33) + G.frobSq := by
  simp only [lin]; ring

/-- No essential matrix is closer than the one returned by `recondition`. -/
theorem recondition_closest {E : M3 ℝ} {d : SVD ℝ} (h : IsSVD E d) {a : Iso ℝ} (ha : a.Rigid) :
    (E.sub (recondition d)).frobSq ≤ (E.sub (essential a)).frobSq := by
  have hU := h.uO
  have hV := h.vO
  -- the left hand side
  have hl : (E.sub (recondition d)).frobSq =
      (d.s1 - d.s2) * (d.s1 - d.s2) / 2 + d.s3 * d.s3 := by
    rw [← h.eq]
    unfold recondition SVD.recompose
    have : ((d.u.mul (M3.diag d.s1 d.s2 d.s3)).mul d.vt).sub
        ((d.u.mul (M3.diag ((d.s1 + d.s2) / 2) ((d.s1 + d.s2) / 2) 0)).mul d.vt) =
        (d.u.mul (M3.diag ((d.s1 - d.s2) / 2) (-((d.s1 - d.s2) / 2)) d.s3)).mul d.vt := by lin3
    rw [this, M3.frobSq_orth_right hV, M3.frobSq_orth_left hU]
    simp only [lin]; ring
  -- the right hand side, conjugated
  set O := (d.u.transpose.mul a.rot).mul d.vt.transpose with hOdef
  have hO : O.Orth := (hU.transpose.mul ha.orth).mul hV.transpose
  set s := d.u.adj.mulVec a.t with hsdef
  have hr : (E.sub (essential a)).frobSq =
      ((M3.diag d.s1 d.s2 d.s3).sub ((M3.hat s).mul O)).frobSq := by
    rw [← M3.frobSq_orth_left hU.transpose, ← M3.frobSq_orth_right hV.transpose]
    congr 1
    have hd : ((d.u.transpose.mul (E.sub (essential a))).mul d.vt.transpose) =
        ((d.u.transpose.mul E).mul d.vt.transpose).sub
          ((d.u.transpose.mul (essential a)).mul d.vt.transpose) := by lin3
    rw [hd]
    congr 1
    · rw [← h.eq]
      unfold SVD.recompose
      have : (d.u.transpose.mul ((d.u.mul (M3.diag d.s1 d.s2 d.s3)).mul d.vt)).mul
          d.vt.transpose = ((d.u.transpose.mul d.u).mul (M3.diag d.s1 d.s2 d.s3)).mul
            (d.vt.mul d.vt.transpose) := by simp only [M3.mul_assoc]
      rw [this, hU, hV.orth', M3.one_mul, M3.mul_one]
    · rw [hsdef, ← hat_conj', hOdef]
      unfold essential
      have : ((d.u.transpose.mul (M3.hat a.t)).mul d.u).mul
          ((d.u.transpose.mul a.rot).mul d.vt.transpose) =
          ((d.u.transpose.mul (M3.hat a.t)).mul (d.u.mul d.u.transpose)).mul
            (a.rot.mul d.vt.transpose) := by simp only [M3.mul_assoc]
      rw [this, hU.orth', M3.mul_one]
      simp only [M3.mul_assoc]
  rw [hl, hr, frobSq_diag_sub, frobSq_hat_mul hO]
  have hb := diag_dot_le hO s h.ord12 h.ord23 h.nonneg
  have hnn := V3.norm_mul_self s
  nlinarith [mul_self_nonneg ((d.s1 + d.s2) / 2 - s.norm)]

end Verif.Geo
