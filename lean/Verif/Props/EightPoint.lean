import Mathlib.LinearAlgebra.Matrix.ToLinearEquiv
import Verif.Spec.EightPoint
import Verif.Props.Essential

/-!
# C44: the eight-point algorithm
-/

namespace Verif.Geo

/-- The matrix as a vector, column by column. -/
def toColumns (E : M3 ℝ) : Fin 9 → ℝ :=
  ![E.m11, E.m21, E.m31, E.m12, E.m22, E.m32, E.m13, E.m23, E.m33]

theorem fromColumns_toColumns (E : M3 ℝ) : fromColumns (toColumns E) = E := rfl

theorem fromColumns_zero {v : Fin 9 → ℝ} (h : fromColumns v = M3.zero) : v = 0 := by
  unfold fromColumns at h
  rw [M3.ext_iff] at h
  simp only [lin] at h
  funext i
  fin_cases i <;> simp [h]

/-- One row encodes one constraint. -/
theorem epipolarRow_dot {m : Match} {r : Fin 9 → ℝ} (h : epipolarRow m = some r) (v : Fin 9 → ℝ) :
    m.a.z ≠ 0 ∧ r ⬝ᵥ v = V3.dot m.b ((fromColumns v).mulVec m.a) / (m.a.z * m.a.z) := by
  unfold epipolarRow at h
  split at h
  · exact nomatch h
  · rename_i hz
    refine ⟨hz, ?_⟩
    injection h with h
    rw [← h]
    simp only [dotProduct, Fin.sum_univ_succ, Fin.sum_univ_zero]
    simp only [V3.get, fromColumns, lin]
    simp
    field_simp
    ring

theorem epipolarRow_none {m : Match} : epipolarRow m = none ↔ m.a.z = 0 := by
  unfold epipolarRow
  split <;> simp_all

/-- What the rows are. -/
theorem epipolarRows_spec : ∀ (n : Nat) (ms : List Match) (rs : List (Fin 9 → ℝ)),
    epipolarRows n ms = some rs →
    rs.length = n ∧ (∀ v : Fin 9 → ℝ, (∀ r ∈ rs, r ⬝ᵥ v = 0) ↔
      ∀ m ∈ ms.take n, m.Satisfies (fromColumns v)) := by
  intro n
  induction n with
  | zero =>
    intro ms rs h
    simp only [epipolarRows, Option.some.injEq] at h
    subst h
    simp
  | succ n ih =>
    intro ms rs h
    cases ms with
    | nil =>
      simp only [epipolarRows, Option.map_eq_some_iff] at h
      obtain ⟨rs', h1, h2⟩ := h
      obtain ⟨i1, i2⟩ := ih [] rs' h1
      subst h2
      refine ⟨by simp [i1], fun v => ?_⟩
      have := i2 v
      simp only [List.take_nil, List.not_mem_nil, false_implies, implies_true, iff_true] at this ⊢
      intro r hr
      rcases List.mem_cons.mp hr with e | e
      · rw [e]; simp
      · exact this r e
    | cons m ms =>
      simp only [epipolarRows] at h
      split at h
      · rename_i r rs' e1 e2
        injection h with h
        subst h
        obtain ⟨i1, i2⟩ := ih ms rs' e2
        refine ⟨by simp [i1], fun v => ?_⟩
        obtain ⟨hz, hd⟩ := epipolarRow_dot e1 v
        have hr : r ⬝ᵥ v = 0 ↔ m.Satisfies (fromColumns v) := by
          rw [hd, div_eq_zero_iff, or_iff_left (mul_ne_zero hz hz)]
          rfl
        simp only [List.mem_cons, forall_eq_or_imp, List.take_succ_cons, hr, i2 v]
      · exact nomatch h

theorem epipolarRows_none : ∀ (n : Nat) (ms : List Match),
    epipolarRows n ms = none ↔ ∃ m ∈ ms.take n, m.a.z = 0 := by
  intro n
  induction n with
  | zero => intro ms; simp [epipolarRows]
  | succ n ih =>
    intro ms
    cases ms with
    | nil =>
      have := ih []
      simp only [epipolarRows, Option.map_eq_none_iff, this, List.take_nil]
    | cons m ms =>
      have h1 := ih ms
      have h2 := @epipolarRow_none m
      simp only [epipolarRows, List.take_succ_cons, List.mem_cons, exists_eq_or_imp, ← h1, ← h2]
      cases epipolarRow m <;> cases epipolarRows n ms <;> simp

/-- **C44** The system exists exactly if the first eight matches have depth in the first camera
(otherwise it holds infinities or NaN). -/
theorem C44_system_finite (ms : List Match) :
    encodeEpipolar ms = none ↔ ∃ m ∈ ms.take 8, m.a.z = 0 := by
  unfold encodeEpipolar
  rw [Option.map_eq_none_iff, epipolarRows_none]

/-- **C44** The system has a matrix in its null space exactly if the matrix satisfies the epipolar
constraint on the (first eight) matches. -/
theorem C44_null_space {ms : List Match} {A : Matrix (Fin 8) (Fin 9) ℝ}
    (h : encodeEpipolar ms = some A) (E : M3 ℝ) :
    A.mulVec (toColumns E) = 0 ↔ ∀ m ∈ ms.take 8, m.Satisfies E := by
  unfold encodeEpipolar at h
  obtain ⟨rs, h1, h2⟩ := Option.map_eq_some_iff.mp h
  obtain ⟨hl, hs⟩ := epipolarRows_spec 8 ms rs h1
  have := hs (toColumns E)
  rw [fromColumns_toColumns] at this
  rw [← this, ← h2]
  constructor
  · intro h r hr
    obtain ⟨i, hi, e⟩ := List.getElem_of_mem hr
    have := congrFun h ⟨i, by omega⟩
    simp only [Matrix.mulVec, Matrix.of_apply, Pi.zero_apply] at this
    rw [List.getElem?_eq_getElem hi, e] at this
    exact this
  · intro h
    funext i
    have hi : i.val < rs.length := by omega
    simp only [Matrix.mulVec, Matrix.of_apply, Pi.zero_apply]
    rw [List.getElem?_eq_getElem hi]
    exact h _ (List.getElem_mem hi)

/-- `min_by_key` finds a minimum. -/
theorem minIndex_le (vals : Fin 9 → ℝ) : ∀ (is : List (Fin 9)) (best : Fin 9),
    vals (minIndex vals best is) ≤ vals best ∧ ∀ i ∈ is, vals (minIndex vals best is) ≤ vals i := by
  intro is
  induction is with
  | nil => intro best; simp [minIndex]
  | cons i is ih =>
    intro best
    simp only [minIndex, List.mem_cons, forall_eq_or_imp]
    obtain ⟨h1, h2⟩ := ih (if vals i < vals best then i else best)
    refine ⟨?_, ?_, h2⟩
    · refine h1.trans ?_
      split
      · exact le_of_lt ‹_›
      · exact le_refl _
    · refine h1.trans ?_
      split
      · exact le_refl _
      · exact not_lt.mp ‹_›

theorem minIndex_min (vals : Fin 9 → ℝ) (j : Fin 9) :
    vals (minIndex vals 0 [1, 2, 3, 4, 5, 6, 7, 8]) ≤ vals j := by
  obtain ⟨h1, h2⟩ := minIndex_le vals [1, 2, 3, 4, 5, 6, 7, 8] 0
  fin_cases j
  · exact h1
  all_goals exact h2 _ (by decide)

theorem dot_self_eq_zero {n : Nat} {v : Fin n → ℝ} (h : v ⬝ᵥ v ≤ 0) : v = 0 := by
  have : v ⬝ᵥ v = 0 := le_antisymm h (Finset.sum_nonneg (fun i _ => mul_self_nonneg _))
  funext i
  have := (Finset.sum_eq_zero_iff_of_nonneg (fun i _ => mul_self_nonneg (v i))).mp this i
    (Finset.mem_univ i)
  exact mul_self_eq_zero.mp this

/-- An eight by nine matrix has a non-trivial null vector. -/
theorem exists_null (A : Matrix (Fin 8) (Fin 9) ℝ) : ∃ v : Fin 9 → ℝ, v ≠ 0 ∧ A.mulVec v = 0 := by
  let B : Matrix (Fin 9) (Fin 9) ℝ := fun i => if h : i.val < 8 then A ⟨i.val, h⟩ else 0
  have hB : B.det = 0 := Matrix.det_eq_zero_of_row_eq_zero 8 (fun j => by simp [B])
  obtain ⟨v, hv, h⟩ := Matrix.exists_mulVec_eq_zero_iff.mpr hB
  refine ⟨v, hv, ?_⟩
  funext i
  have := congrFun h ⟨i.val, by omega⟩
  simpa [B, Matrix.mulVec] using this

/-- The eigenvector of the least eigenvalue of `AᵀA` is in the null space of `A`. -/
theorem least_eigenvector {A : Matrix (Fin 8) (Fin 9) ℝ} {e : SymEigen}
    (h : IsSymEigen (A.transpose * A) e) :
    A.mulVec (e.vecs (minIndex e.vals 0 [1, 2, 3, 4, 5, 6, 7, 8])) = 0 := by
  have hval : ∀ i, e.vals i = A.mulVec (e.vecs i) ⬝ᵥ A.mulVec (e.vecs i) := by
    intro i
    have h1 : e.vecs i ⬝ᵥ (A.transpose * A).mulVec (e.vecs i) = e.vals i := by
      rw [h.eigen i, dotProduct_smul, h.unit i, smul_eq_mul, mul_one]
    rw [← h1, ← Matrix.mulVec_mulVec, Matrix.dotProduct_mulVec, Matrix.vecMul_transpose]
  obtain ⟨x, hx, hAx⟩ := exists_null A
  -- some eigenvalue is zero
  have hz : ∃ i, e.vals i = 0 := by
    by_contra hne
    push Not at hne
    apply hx
    let V : Matrix (Fin 9) (Fin 9) ℝ := e.vecs
    have hVV : V * V.transpose = 1 := by
      ext i j
      rw [Matrix.mul_apply, Matrix.one_apply]
      show e.vecs i ⬝ᵥ e.vecs j = _
      split
      · rename_i hij; rw [hij]; exact h.unit j
      · rename_i hij; exact h.orth i j hij
    have hVV' : V.transpose * V = 1 := mul_eq_one_comm.mp hVV
    have hc : V.mulVec x = 0 := by
      funext i
      have e1 : e.vals i * (e.vecs i ⬝ᵥ x) = 0 := by
        have : (e.vals i • e.vecs i) ⬝ᵥ x = 0 := by
          rw [← h.eigen i, ← Matrix.mulVec_mulVec, dotProduct_comm, Matrix.dotProduct_mulVec,
            Matrix.vecMul_transpose, hAx, zero_dotProduct]
        rwa [smul_dotProduct, smul_eq_mul] at this
      exact (mul_eq_zero.mp e1).resolve_left (hne i)
    calc x = (V.transpose * V).mulVec x := by rw [hVV', Matrix.one_mulVec]
      _ = V.transpose.mulVec (V.mulVec x) := (Matrix.mulVec_mulVec _ _ _).symm
      _ = 0 := by rw [hc, Matrix.mulVec_zero]
  obtain ⟨i, hi⟩ := hz
  apply dot_self_eq_zero
  rw [← hval, ← hi]
  exact minIndex_min _ _

/-- **C44** The estimate from (at most) eight matches with depth is a non-zero matrix that satisfies
the epipolar constraint on every one of them, whichever eigenbasis the solver returns. -/
theorem C44_estimate_sound {solver : Matrix (Fin 9) (Fin 9) ℝ → Option SymEigen}
    (hsolver : ∀ S e, solver S = some e → IsSymEigen S e) {ms : List Match} {E : M3 ℝ}
    (h : eightPoint solver ms = some E) :
    E ≠ M3.zero ∧ ∀ m ∈ ms.take 8, m.Satisfies E := by
  unfold eightPoint at h
  split at h
  · exact nomatch h
  · rename_i A hA
    split at h
    · exact nomatch h
    · rename_i e he
      injection h with h
      have hE := hsolver _ _ he
      constructor
      · intro hz
        rw [← h] at hz
        have := hE.unit (minIndex e.vals 0 [1, 2, 3, 4, 5, 6, 7, 8])
        rw [fromColumns_zero hz] at this
        simp at this
      · rw [← C44_null_space hA]
        have : toColumns E = e.vecs (minIndex e.vals 0 [1, 2, 3, 4, 5, 6, 7, 8]) := by
          rw [← h]
          funext i
          fin_cases i <;> rfl
        rw [this]
        exact least_eigenvector hE

/-- **C44** If the matches determine the essential matrix up to scale, the estimate is it. -/
theorem C44_estimate_unique {solver : Matrix (Fin 9) (Fin 9) ℝ → Option SymEigen}
    (hsolver : ∀ S e, solver S = some e → IsSymEigen S e) {ms : List Match} {E E₀ : M3 ℝ}
    (h : eightPoint solver ms = some E) (h₀ : Determines (ms.take 8) E₀) :
    ∃ k : ℝ, k ≠ 0 ∧ E = M3.smul k E₀ := by
  obtain ⟨hne, hs⟩ := C44_estimate_sound hsolver h
  obtain ⟨k, hk⟩ := h₀.2 E hs
  refine ⟨k, ?_, hk⟩
  rintro rfl
  apply hne
  rw [hk]
  lin3

theorem possiblePoses_neg {d : SVD ℝ} {R : M3 ℝ} {t : V3 ℝ}
    (h : (⟨R, t⟩ : Iso ℝ) ∈ possiblePoses d) : (⟨R, t.neg⟩ : Iso ℝ) ∈ possiblePoses d := by
  unfold possiblePoses possibleRotations at *
  simp only [List.mem_cons, List.not_mem_nil, or_false, Iso.mk.injEq] at *
  have nn : ∀ v : V3 ℝ, v.neg.neg = v := by intro v; lin3
  rcases h with ⟨h1, h2⟩ | ⟨h1, h2⟩ | ⟨h1, h2⟩ | ⟨h1, h2⟩ <;> subst h1 <;> subst h2 <;>
    simp [nn]

/-- **C44** The whole estimator: if eight matches come from a pose with non-zero translation and
determine its essential matrix up to scale, then the returned poses contain it with its translation
scaled to unit length. -/
theorem C44_estimator_complete {solver : Matrix (Fin 9) (Fin 9) ℝ → Option SymEigen}
    {svd : M3 ℝ → Option (SVD ℝ)} (hsolver : ∀ S e, solver S = some e → IsSymEigen S e)
    (hsvd : ∀ E d, svd E = some d → IsSVD E d) {a : Iso ℝ} (ha : a.Rigid) (ht : a.t ≠ V3.zero)
    {ms : List Match} (h₀ : Determines (ms.take 8) (essential a)) {d : SVD ℝ}
    (hrun : (eightPoint solver ms).bind svd = some d) :
    (⟨a.rot, V3.smul (1 / a.t.norm) a.t⟩ : Iso ℝ) ∈ eightPointEstimate solver svd ms := by
  unfold eightPointEstimate
  rw [hrun]
  obtain ⟨E, hE, hd⟩ := Option.bind_eq_some_iff.mp hrun
  obtain ⟨k, hk, e⟩ := C44_estimate_unique hsolver hE h₀
  have hs := hsvd E d hd
  have e2 : E = essential ⟨a.rot, V3.smul k a.t⟩ := by
    rw [e]; lin3
  rw [e2] at hs
  have ht' : V3.smul k a.t ≠ V3.zero := by
    intro hz
    apply ht
    have : V3.smul k⁻¹ (V3.smul k a.t) = a.t := by
      ext <;> simp only [lin] <;> field_simp
    rw [← this, hz]
    lin3
  have := C42_complete (a := ⟨a.rot, V3.smul k a.t⟩) ha ht' hs
  simp only [V3.norm_smul] at this
  have hn := V3.norm_pos ht
  rcases lt_or_gt_of_ne hk with hneg | hpos
  · have h2 := possiblePoses_neg this
    rw [abs_of_neg hneg] at h2
    have e3 : (V3.smul (1 / (-k * a.t.norm)) (V3.smul k a.t)).neg =
        V3.smul (1 / a.t.norm) a.t := by
      generalize a.t.norm = n at hn
      have : -k ≠ 0 := neg_ne_zero.mpr hk
      ext <;> simp only [lin] <;> field_simp
    rwa [e3] at h2
  · rw [abs_of_pos hpos] at this
    have e3 : V3.smul (1 / (k * a.t.norm)) (V3.smul k a.t) = V3.smul (1 / a.t.norm) a.t := by
      generalize a.t.norm = n at hn
      ext <;> simp only [lin] <;> field_simp
    rwa [e3] at this

/-- Matches of a pure sideways translation of eight points at various places. -/
def sidewaysMatches : List Match :=
  [⟨⟨0, 0, 1⟩, ⟨0, 0, 1⟩⟩, ⟨⟨1, 0, 1⟩, ⟨0, 0, 1⟩⟩, ⟨⟨0, 0, 1⟩, ⟨1, 0, 1⟩⟩, ⟨⟨1, 0, 1⟩, ⟨1, 0, 1⟩⟩,
    ⟨⟨0, 1, 1⟩, ⟨0, 1, 1⟩⟩, ⟨⟨0, -1, 1⟩, ⟨0, -1, 1⟩⟩, ⟨⟨1, 1, 1⟩, ⟨0, 1, 1⟩⟩,
    ⟨⟨0, 1, 1⟩, ⟨1, 1, 1⟩⟩]

/-- They determine the essential matrix up to scale. -/
example : Determines (sidewaysMatches.take 8) (essential ⟨M3.one, ⟨1, 0, 0⟩⟩) ∧
    encodeEpipolar sidewaysMatches ≠ none := by
  refine ⟨⟨?_, ?_⟩, ?_⟩
  · simp only [sidewaysMatches, List.take, List.mem_cons, List.not_mem_nil, or_false,
      forall_eq_or_imp, forall_eq, Match.Satisfies, lin]
    norm_num
  · intro F hF
    simp only [sidewaysMatches, List.take, List.mem_cons, List.not_mem_nil, or_false,
      forall_eq_or_imp, forall_eq, Match.Satisfies, lin] at hF
    obtain ⟨h1, h2, h3, h4, h5, h6, h7, h8⟩ := hF
    refine ⟨F.m32, ?_⟩
    ext <;> simp only [lin] <;> linarith
  · rw [Ne, C44_system_finite]
    simp only [sidewaysMatches, List.take, List.mem_cons, List.not_mem_nil, or_false,
      exists_eq_or_imp, exists_eq_left]
    norm_num

end Verif.Geo
