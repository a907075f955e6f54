import Verif.Lemmas.Recondition
import Verif.Props.Pose

/-!
# C41-C43: essential matrices
-/

namespace Verif.Geo

/-! ## C41 -/

/-- **C41** The residual is a number exactly if both bearings have depth, and is then the bilinear
form of the matrix, scaled by the depths. -/
theorem C41_residual (E : M3 ℝ) (a b : V3 ℝ) (r : ℝ) :
    essentialResidual E a b = some r ↔
      a.z ≠ 0 ∧ b.z ≠ 0 ∧ r = |V3.dot b (E.mulVec a)| / (|a.z| * |b.z|) := by
  unfold essentialResidual cdiv
  by_cases ha : a.z = 0
  · simp [ha]
  by_cases hb : b.z = 0
  · simp [ha, hb]
  simp only [ha, hb, if_false, Option.bind_eq_bind, Option.bind_some, Option.pure_def,
    Option.some.injEq, ne_eq, not_false_eq_true, true_and]
  have e : V3.dot ⟨b.x / b.z, b.y / b.z, b.z / b.z⟩
      (E.mulVec ⟨a.x / a.z, a.y / a.z, a.z / a.z⟩) = V3.dot b (E.mulVec a) / (a.z * b.z) := by
    simp only [lin]
    field_simp
  rw [e, abs_div, abs_mul]
  exact eq_comm

/-- **C41** The bilinear form of the essential matrix of a pose is the triple product of the
translation, the rotated first bearing and the second bearing. -/
theorem C41_triple_product (a : Iso ℝ) (x y : V3 ℝ) :
    V3.dot y ((essential a).mulVec x) = V3.dot a.t ((a.rot.mulVec x).cross y) := by
  simp only [lin]; ring

/-- **C41** The essential matrix of a pose has residual zero on the bearings of any point seen by
both cameras (with depth in both, on either side, at any distance). -/
theorem C41_epipolar_constraint (a : Iso ℝ) {p q : V4 ℝ} (h : transform a p = some q)
    (hp : (bearing p).z ≠ 0) (hq : (bearing q).z ≠ 0) :
    essentialResidual (essential a) (bearing p) (bearing q) = some 0 := by
  rw [C41_residual]
  refine ⟨hp, hq, ?_⟩
  have : V3.dot (bearing q) ((essential a).mulVec (bearing p)) = 0 := by
    unfold transform at h
    rw [fromHomogeneous_eq] at h
    split at h
    · exact nomatch h
    · injection h with h
      rw [← h]
      unfold bearing
      simp only [lin]
      ring
  rw [this, abs_zero, zero_div]

/-- **C41** Conversely, if the residual is zero and the first bearing is not along the translation,
then the second bearing is in the epipolar plane: the bearing that some point on the first ray
(or its extension) has in the second camera. -/
theorem C41_converse (a : Iso ℝ) {x y : V3 ℝ}
    (h : essentialResidual (essential a) x y = some 0)
    (hx : (a.t.cross (a.rot.mulVec x)) ≠ V3.zero) :
    ∃ α β : ℝ, y = (V3.smul α (a.rot.mulVec x)).add (V3.smul β a.t) := by
  obtain ⟨h1, h2, h3⟩ := (C41_residual _ _ _ _).mp h
  have hd : V3.dot y ((essential a).mulVec x) = 0 := by
    have : |V3.dot y ((essential a).mulVec x)| = 0 := by
      have hpos : 0 < |x.z| * |y.z| := mul_pos (abs_pos.mpr h1) (abs_pos.mpr h2)
      have := h3.symm
      rwa [div_eq_zero_iff, or_iff_left hpos.ne'] at this
    exact abs_eq_zero.mp this
  rw [C41_triple_product] at hd
  set c := a.rot.mulVec x
  set t := a.t
  have hn : (t.cross c).normSq ≠ 0 := fun e => hx (V3.normSq_eq_zero.mp e)
  have key : V3.smul (t.cross c).normSq y =
      ((V3.smul (V3.dot t (c.cross y)) (t.cross c)).add
        (V3.smul (V3.dot (y.cross c) (t.cross c)) t)).add
        (V3.smul (V3.dot (t.cross y) (t.cross c)) c) := by lin3
  rw [hd] at key
  refine ⟨V3.dot (t.cross y) (t.cross c) / (t.cross c).normSq,
    V3.dot (y.cross c) (t.cross c) / (t.cross c).normSq, ?_⟩
  have e : y = V3.smul (1 / (t.cross c).normSq) (V3.smul (t.cross c).normSq y) := by
    generalize (t.cross c).normSq = n at hn
    ext <;> simp only [lin] <;> field_simp
  refine e.trans ?_
  rw [key]
  generalize (t.cross c).normSq = n at hn
  generalize V3.dot (t.cross y) (t.cross c) = u
  generalize V3.dot (y.cross c) (t.cross c) = v
  ext <;> simp only [lin] <;> ring

/-! ## C42 -/

/-- **C42** Whatever decomposition is found, the returned rotations are proper and the returned
translation is a unit vector. -/
theorem C42_sound {E : M3 ℝ} {d : SVD ℝ} (h : IsSVD E d) :
    ∀ p ∈ possiblePoses d, p.Rigid ∧ p.t.normSq = 1 := by
  have hU := fixU_isRot h.uO
  have hV := fixV_isRot h.vO
  have hA : (((fixU d.u).mul wMat).mul (fixV d.vt)).IsRot := (hU.mul wMat_isRot).mul hV
  have hB : (((fixU d.u).mul wMat.transpose).mul (fixV d.vt)).IsRot :=
    (hU.mul wMat_isRot.transpose).mul hV
  have ht : (fixU d.u).col3.normSq = 1 := by
    have := hU.orth
    rw [M3.ext_iff] at this
    simp only [lin] at this
    simp only [lin]
    linarith [this.2.2.2.2.2.2.2.2]
  have ht' : (fixU d.u).col3.neg.normSq = 1 := by
    rw [← ht]; simp only [lin]; ring
  intro p hp
  unfold possiblePoses possibleRotations at hp
  simp only [List.mem_cons, List.not_mem_nil, or_false] at hp
  rcases hp with e | e | e | e <;> rw [e]
  · exact ⟨hA, ht⟩
  · exact ⟨hB, ht⟩
  · exact ⟨hA, ht'⟩
  · exact ⟨hB, ht'⟩

/-- The products of the frame and the quarter turn. -/
theorem essential_frame {U V : M3 ℝ} (hU : U.IsRot) :
    essential ⟨(U.mul wMat).mul V, U.col3⟩ = (U.mul (M3.diag (-1) (-1) 0)).mul V ∧
    essential ⟨(U.mul wMat.transpose).mul V, U.col3⟩ = (U.mul (M3.diag 1 1 0)).mul V := by
  have hc : ∀ W : M3 ℝ, (M3.hat U.col3).mul ((U.mul W).mul V) =
      (U.mul ((M3.hat ⟨0, 0, 1⟩).mul W)).mul V := by
    intro W
    have e0 : U.transpose.mulVec U.col3 = (⟨0, 0, 1⟩ : V3 ℝ) := by
      have := hU.orth
      rw [M3.ext_iff] at this
      simp only [lin] at this
      ext <;> simp only [lin] <;> linarith [this.2.2.1, this.2.2.2.2.2.1, this.2.2.2.2.2.2.2.2]
    rw [← e0, ← hat_conj hU]
    have : (U.mul (((U.transpose.mul (M3.hat U.col3)).mul U).mul W)).mul V =
        ((U.mul U.transpose).mul (M3.hat U.col3)).mul ((U.mul W).mul V) := by
      simp only [M3.mul_assoc]
    rw [this, hU.orth', M3.one_mul]
  unfold essential
  simp only [hc]
  constructor
  · congr 2; lin3
  · congr 2; lin3

/-- **C42** From the essential matrix of a pose with non-zero translation, every returned pose has
the same essential matrix up to a non-zero factor. -/
theorem C42_same_matrix {a : Iso ℝ} (ha : a.Rigid) (ht : a.t ≠ V3.zero) {d : SVD ℝ}
    (h : IsSVD (essential a) d) :
    ∀ p ∈ possiblePoses d, ∃ k : ℝ, |k| = a.t.norm ∧ M3.smul k (essential p) = essential a := by
  obtain ⟨l, hl, _, e1, e2, e3, en, _⟩ := h.structure ha ht
  have hU := fixU_isRot h.uO
  have hE : ((fixU d.u).mul (M3.diag |l| |l| 0)).mul (fixV d.vt) = essential a := by
    rw [fix_recompose, ← h.eq]
    unfold SVD.recompose
    rw [e1, e2, e3]
  obtain ⟨f1, f2⟩ := essential_frame (V := fixV d.vt) hU
  have hneg : ∀ (R : M3 ℝ) (t : V3 ℝ), essential ⟨R, t.neg⟩ = (essential ⟨R, t⟩).neg := by
    intro R t; lin3
  intro p hp
  unfold possiblePoses possibleRotations at hp
  simp only [List.mem_cons, List.not_mem_nil, or_false] at hp
  rcases hp with e | e | e | e <;> rw [e]
  · refine ⟨-|l|, by rw [abs_neg, abs_abs, en], ?_⟩
    rw [f1, ← hE]; lin3
  · refine ⟨|l|, by rw [abs_abs, en], ?_⟩
    rw [f2, ← hE]; lin3
  · refine ⟨|l|, by rw [abs_abs, en], ?_⟩
    rw [hneg, f1, ← hE]; lin3
  · refine ⟨-|l|, by rw [abs_neg, abs_abs, en], ?_⟩
    rw [hneg, f2, ← hE]; lin3

/-- **C42** One of the four returned poses is the original with its translation scaled to unit
length; it is found whatever decomposition the solver returns. -/
theorem C42_complete {a : Iso ℝ} (ha : a.Rigid) (ht : a.t ≠ V3.zero) {d : SVD ℝ}
    (h : IsSVD (essential a) d) :
    (⟨a.rot, V3.smul (1 / a.t.norm) a.t⟩ : Iso ℝ) ∈ possiblePoses d := by
  obtain ⟨l, hl, htc, _, _, _, en, hc⟩ := h.structure ha ht
  have hunit : V3.smul (1 / a.t.norm) a.t = V3.smul (1 / |l|) (V3.smul l (fixU d.u).col3) := by
    rw [← en, ← htc]
  unfold possiblePoses possibleRotations
  simp only [List.mem_cons, List.not_mem_nil, or_false]
  rw [hunit]
  rcases hc with ⟨hp, e⟩ | ⟨hn, e⟩
  · right; left
    rw [e, abs_of_pos hp]
    congr 1
    generalize (fixU d.u).col3 = c
    ext <;> simp only [lin] <;> field_simp
  · right; right; left
    rw [e, abs_of_neg hn]
    congr 1
    generalize (fixU d.u).col3 = c
    have : -l ≠ 0 := neg_ne_zero.mpr hl
    ext <;> simp only [lin] <;> field_simp

/-- **C42** The two poses returned without the choice of direction include the original up to the
direction of its translation. -/
theorem C42_complete_bearing {a : Iso ℝ} (ha : a.Rigid) (ht : a.t ≠ V3.zero) {d : SVD ℝ}
    (h : IsSVD (essential a) d) :
    ∃ p ∈ possiblePosesBearing d, p.rot = a.rot ∧ ∃ k : ℝ, |k| = a.t.norm ∧ a.t = V3.smul k p.t := by
  obtain ⟨l, hl, htc, _, _, _, en, hc⟩ := h.structure ha ht
  unfold possiblePosesBearing possibleRotations
  simp only [List.mem_cons, List.not_mem_nil, or_false]
  rcases hc with ⟨hp, e⟩ | ⟨hn, e⟩
  · exact ⟨_, Or.inr rfl, e.symm, l, en, htc⟩
  · exact ⟨_, Or.inl rfl, e.symm, l, en, htc⟩

/-! ## C43 -/

/-- **C43** Whatever the matrix and its decomposition, the result is the essential matrix of a
relative pose. -/
theorem C43_recondition_essential {E : M3 ℝ} {d : SVD ℝ} (h : IsSVD E d) :
    IsEssential (recondition d) := by
  have hU := fixU_isRot h.uO
  have hV := fixV_isRot h.vO
  refine ⟨⟨((fixU d.u).mul wMat.transpose).mul (fixV d.vt),
    V3.smul ((d.s1 + d.s2) / 2) (fixU d.u).col3⟩, (hU.mul wMat_isRot.transpose).mul hV, ?_⟩
  have hs : ∀ (k : ℝ) (R : M3 ℝ) (t : V3 ℝ), essential ⟨R, V3.smul k t⟩ =
      M3.smul k (essential ⟨R, t⟩) := by
    intro k R t; lin3
  rw [hs, (essential_frame (V := fixV d.vt) hU).2]
  unfold recondition SVD.recompose
  rw [← fix_recompose]
  lin3

/-- Being an essential matrix is stronger than the usual equations. -/
theorem essential_equations {a : Iso ℝ} (ha : a.Rigid) :
    (essential a).det = 0 ∧
    M3.smul 2 (((essential a).mul (essential a).transpose).mul (essential a)) =
      M3.smul ((essential a).mul (essential a).transpose).trace (essential a) := by
  refine ⟨det_essential a, ?_⟩
  have e : (essential a).mul (essential a).transpose =
      (M3.hat a.t).mul (M3.hat a.t).transpose := by
    unfold essential
    rw [M3.transpose_mul, M3.mul_assoc, ← M3.mul_assoc a.rot, M3.IsRot.orth' ha, M3.one_mul]
  rw [e]
  unfold essential
  rw [← M3.mul_assoc]
  have : ∀ A B : M3 ℝ, ∀ k l : ℝ, M3.smul k A = M3.smul l B → ∀ R : M3 ℝ,
      M3.smul k (A.mul R) = M3.smul l (B.mul R) := by
    intro A B k l hh R
    have h1 : M3.smul k (A.mul R) = (M3.smul k A).mul R := by lin3
    have h2 : M3.smul l (B.mul R) = (M3.smul l B).mul R := by lin3
    rw [h1, h2, hh]
  apply this
  lin3

/-- **C43** The result has determinant zero and satisfies the trace constraint. -/
theorem C43_recondition_equations {E : M3 ℝ} {d : SVD ℝ} (h : IsSVD E d) :
    (recondition d).det = 0 ∧
    M3.smul 2 (((recondition d).mul (recondition d).transpose).mul (recondition d)) =
      M3.smul ((recondition d).mul (recondition d).transpose).trace (recondition d) := by
  obtain ⟨a, ha, e⟩ := C43_recondition_essential h
  rw [e]
  exact essential_equations ha

/-- **C43** No essential matrix is closer to the given matrix in the Frobenius norm. -/
theorem C43_recondition_closest {E : M3 ℝ} {d : SVD ℝ} (h : IsSVD E d) {F : M3 ℝ}
    (hF : IsEssential F) : (E.sub (recondition d)).frobSq ≤ (E.sub F).frobSq := by
  obtain ⟨a, ha, e⟩ := hF
  rw [e]
  exact recondition_closest h ha

/-- **C43** Essential matrices are left unchanged. -/
theorem C43_recondition_fixes {E : M3 ℝ} {d : SVD ℝ} (h : IsSVD E d) (hE : IsEssential E) :
    recondition d = E := by
  have h1 := C43_recondition_closest h hE
  have h0 : (E.sub E).frobSq = 0 := by simp only [lin]; ring
  rw [h0] at h1
  have hz : ∀ A : M3 ℝ, A.frobSq ≤ 0 → A = M3.zero := by
    intro A hA
    simp only [lin] at hA
    have hs := fun x : ℝ => mul_self_nonneg x
    have e : ∀ x : ℝ, x * x ≤ 0 → x = 0 := fun x hx => mul_self_eq_zero.mp (le_antisymm hx (hs x))
    ext <;> simp only [lin] <;> apply e <;>
      linarith [hs A.m11, hs A.m12, hs A.m13, hs A.m21, hs A.m22, hs A.m23, hs A.m31, hs A.m32,
        hs A.m33]
  have := hz _ h1
  rw [M3.ext_iff] at this
  simp only [lin] at this
  obtain ⟨a1, a2, a3, a4, a5, a6, a7, a8, a9⟩ := this
  ext <;> linarith

/-! ## Cases meeting the hypotheses -/

/-- A sideways pose: a quarter turn and a translation of length two. -/
def sideways : Iso ℝ := ⟨⟨0, -1, 0, 1, 0, 0, 0, 0, 1⟩, ⟨0, 0, 2⟩⟩

theorem sideways_rigid : sideways.Rigid := by
  constructor
  · unfold sideways; lin3
  · unfold sideways; simp only [lin]; norm_num

/-- Its essential matrix has a decomposition, with a reflection in `U`. -/
example : ∃ d, IsSVD (essential sideways) d ∧ sideways.t ≠ V3.zero ∧ d.u.det < 0 := by
  refine ⟨⟨⟨1, 0, 0, 0, 1, 0, 0, 0, -1⟩, 2, 2, 0, ⟨-1, 0, 0, 0, -1, 0, 0, 0, 1⟩⟩,
    ⟨?_, by lin3, by lin3, le_refl _, by norm_num, le_refl _⟩, ?_, ?_⟩
  · unfold SVD.recompose sideways
    lin3
  · intro e
    have := congrArg V3.z e
    unfold sideways at this
    simp only [lin] at this
    norm_num at this
  · simp only [lin]; norm_num

/-- A matrix that is not essential and has a decomposition. -/
example : IsSVD (M3.diag 3 2 1) ⟨M3.one, 3, 2, 1, M3.one⟩ ∧ ¬ IsEssential (M3.diag 3 2 1) := by
  refine ⟨⟨by unfold SVD.recompose; lin3, by lin3, by lin3, by norm_num, by norm_num, by norm_num⟩,
    ?_⟩
  rintro ⟨a, _, e⟩
  have := det_essential a
  rw [← e] at this
  simp only [lin] at this
  norm_num at this

/-- A point seen by both cameras. -/
example : ∃ q, transform sideways ⟨0, 0, 1, 1⟩ = some q ∧ (bearing ⟨0, 0, 1, 1⟩).z ≠ 0 ∧
    (bearing q).z ≠ 0 := by
  unfold transform
  rw [fromHomogeneous_eq]
  have e : (sideways.homMul ⟨0, 0, 1, 1⟩) = ⟨0, 0, 3, 1⟩ := by
    unfold sideways; ext <;> simp only [lin] <;> norm_num
  rw [e]
  have hn : V3.norm (V4.xyz ⟨0, 0, 3, 1⟩ : V3 ℝ) = 3 :=
    V3.norm_of_normSq (by norm_num) (by simp only [lin]; norm_num)
  rw [hn, if_neg (by norm_num), sgn_of_nonneg (by norm_num)]
  refine ⟨_, rfl, ?_, ?_⟩
  · unfold bearing; simp only [lin]; norm_num
  · unfold bearing; simp only [lin]; norm_num

end Verif.Geo
