import Verif.Spec.FivePoint
import Verif.Props.EightPoint

/-!
# C45 and C46: the five-point solver
-/

namespace Verif.Geo

variable {K : Type} [Field K]

/-! ## C45 -/

/-- Value of a linear form. -/
def V4.form (v : V4 K) (x y z : K) : K := v.x * x + v.y * y + v.z * z + v.w

/-- No cubic terms. -/
def Poly.Quadratic (p : Poly K) : Prop :=
  p.xxx = 0 ∧ p.xxy = 0 ∧ p.xyy = 0 ∧ p.yyy = 0 ∧ p.xxz = 0 ∧ p.xyz = 0 ∧ p.yyz = 0 ∧ p.xzz = 0 ∧
    p.yzz = 0 ∧ p.zzz = 0

theorem eval_add (a b : Poly K) (x y z : K) : (a.add b).eval x y z = a.eval x y z + b.eval x y z := by
  simp only [Poly.eval, lin]; ring
theorem eval_sub (a b : Poly K) (x y z : K) : (a.sub b).eval x y z = a.eval x y z - b.eval x y z := by
  simp only [Poly.eval, lin]; ring
theorem eval_smul (k : K) (a : Poly K) (x y z : K) : (Poly.smul k a).eval x y z = k * a.eval x y z := by
  simp only [Poly.eval, lin]; ring
theorem eval_o1 (a b : V4 K) (x y z : K) : (o1 a b).eval x y z = a.form x y z * b.form x y z := by
  simp only [Poly.eval, V4.form, lin]; ring
theorem eval_o2 {a : Poly K} (h : a.Quadratic) (b : V4 K) (x y z : K) :
    (o2 a b).eval x y z = a.eval x y z * b.form x y z := by
  obtain ⟨h1, h2, h3, h4, h5, h6, h7, h8, h9, h10⟩ := h
  simp only [Poly.eval, V4.form, lin, h1, h2, h3, h4, h5, h6, h7, h8, h9, h10]; ring

theorem quad_o1 (a b : V4 K) : (o1 a b).Quadratic := by
  unfold Poly.Quadratic; simp [o1]
theorem quad_add {a b : Poly K} (ha : a.Quadratic) (hb : b.Quadratic) : (a.add b).Quadratic := by
  unfold Poly.Quadratic at *; simp_all [Poly.add]
theorem quad_sub {a b : Poly K} (ha : a.Quadratic) (hb : b.Quadratic) : (a.sub b).Quadratic := by
  unfold Poly.Quadratic at *; simp_all [Poly.sub]
theorem quad_smul {a : Poly K} (k : K) (ha : a.Quadratic) : (Poly.smul k a).Quadratic := by
  unfold Poly.Quadratic at *; simp_all [Poly.smul]

theorem quad_upper (n : Nullspace K) (i j : Fin 3) : (eetUpper n i j).Quadratic :=
  quad_add (quad_add (quad_o1 _ _) (quad_o1 _ _)) (quad_o1 _ _)
theorem quad_eet (n : Nullspace K) (i j : Fin 3) : (eet n i j).Quadratic := by
  unfold eet; split <;> exact quad_upper _ _ _
theorem quad_l (n : Nullspace K) (i j : Fin 3) : (lPoly n i j).Quadratic := by
  unfold lPoly
  split
  · exact quad_sub (quad_eet _ _ _)
      (quad_smul _ (quad_add (quad_add (quad_eet _ _ _) (quad_eet _ _ _)) (quad_eet _ _ _)))
  · exact quad_eet _ _ _

/-- The value of `e_poly[i][j]` is the entry in row `j`, column `i` of the mixture. -/
theorem form_ePoly (n : Nullspace K) (i j : Fin 3) (x y z : K) :
    (ePoly n i j).form x y z = (mixture n x y z 1).entry j i := by
  have h : ∀ a : Fin 9, (n a).form x y z =
      x * (n a).x + y * (n a).y + (z * (n a).z + 1 * (n a).w) := by
    intro a; unfold V4.form; ring
  fin_cases i <;> fin_cases j <;>
    simp [ePoly, M3.entry, mixture, basisMatrix, M3.add, M3.smul, V4.form] <;> ring

theorem eval_upper (n : Nullspace K) (i j : Fin 3) (x y z : K) : (eetUpper n i j).eval x y z =
    (mixture n x y z 1).entry 0 i * (mixture n x y z 1).entry 0 j +
      (mixture n x y z 1).entry 1 i * (mixture n x y z 1).entry 1 j +
      (mixture n x y z 1).entry 2 i * (mixture n x y z 1).entry 2 j := by
  unfold eetUpper
  simp only [eval_add, eval_o1, form_ePoly]

theorem eval_eet (n : Nullspace K) (i j : Fin 3) (x y z : K) : (eet n i j).eval x y z =
    (mixture n x y z 1).entry 0 i * (mixture n x y z 1).entry 0 j +
      (mixture n x y z 1).entry 1 i * (mixture n x y z 1).entry 1 j +
      (mixture n x y z 1).entry 2 i * (mixture n x y z 1).entry 2 j := by
  unfold eet
  split
  · exact eval_upper n i j x y z
  · rw [eval_upper]; ring

/-- **C45** Row 0, at any point, is the determinant of the mixture of the basis matrices. -/
theorem C45_determinant_row (n : Nullspace K) (x y z : K) :
    (constraintRow n 0).eval x y z = (mixture n x y z 1).det := by
  have : constraintRow n 0 = detRow n := rfl
  rw [this]
  unfold detRow
  simp only [eval_add, eval_sub, eval_o2 (quad_sub (quad_o1 _ _) (quad_o1 _ _)), eval_o1,
    form_ePoly]
  generalize mixture n x y z 1 = E
  simp [M3.entry, M3.det]
  ring

/-- **C45** Row `1 + 3 i + j`, at any point, is the entry in row `j`, column `i` of the trace
constraint of the mixture. -/
theorem C45_trace_rows (n : Nullspace K) (i j : Fin 3) (x y z : K) :
    (constraintRow n ⟨1 + 3 * i.val + j.val, by omega⟩).eval x y z =
      (traceConstraint (mixture n x y z 1)).entry j i := by
  have : constraintRow n ⟨1 + 3 * i.val + j.val, by omega⟩ = traceRow n i j := by
    fin_cases i <;> fin_cases j <;> rfl
  rw [this]
  unfold traceRow
  simp only [eval_add, eval_o2 (quad_l _ _ _), form_ePoly]
  have hl : ∀ i j, (lPoly n i j).eval x y z = (eet n i j).eval x y z -
      (if i = j then 1 / 2 * ((eet n 0 0).eval x y z + (eet n 1 1).eval x y z +
        (eet n 2 2).eval x y z) else 0) := by
    intro i j
    unfold lPoly
    split
    · simp only [eval_sub, eval_smul, eval_add]
    · rw [sub_zero]
  simp only [hl, eval_eet]
  generalize mixture n x y z 1 = E
  fin_cases i <;> fin_cases j <;>
    simp [M3.entry, traceConstraint, M3.sub, M3.mul, M3.smul, M3.transpose, M3.trace] <;> ring

/-- **C45** All ten rows vanish at a point exactly if the mixture there has determinant zero and
satisfies the trace constraint. -/
theorem C45_all_rows (n : Nullspace K) (x y z : K) :
    (∀ r, (constraintRow n r).eval x y z = 0) ↔
      (mixture n x y z 1).det = 0 ∧ traceConstraint (mixture n x y z 1) = M3.zero := by
  have hz : ∀ A : M3 K, A = M3.zero ↔ ∀ i j, A.entry i j = 0 := by
    intro A
    constructor
    · rintro rfl i j
      fin_cases i <;> fin_cases j <;> rfl
    · intro h
      ext
      · exact h 0 0
      · exact h 0 1
      · exact h 0 2
      · exact h 1 0
      · exact h 1 1
      · exact h 1 2
      · exact h 2 0
      · exact h 2 1
      · exact h 2 2
  rw [hz]
  constructor
  · intro h
    exact ⟨(C45_determinant_row n x y z) ▸ h 0, fun i j => (C45_trace_rows n j i x y z) ▸ h _⟩
  · rintro ⟨h1, h2⟩ r
    by_cases hr : r.val = 0
    · have : r = 0 := Fin.ext hr
      rw [this, C45_determinant_row, h1]
    · have : r = ⟨1 + 3 * ((r.val - 1) / 3) + (r.val - 1) % 3, by omega⟩ := by
        apply Fin.ext
        simp only
        omega
      have e := C45_trace_rows n ⟨(r.val - 1) / 3, by omega⟩ ⟨(r.val - 1) % 3, by omega⟩ x y z
      rw [h2] at e
      rw [this]
      exact e

/-- Essential matrices satisfy the constraints. -/
theorem traceConstraint_essential {E : M3 ℝ} (h : IsEssential E) :
    E.det = 0 ∧ traceConstraint E = M3.zero := by
  obtain ⟨a, ha, e⟩ := h
  obtain ⟨h1, h2⟩ := essential_equations ha
  rw [← e] at h1 h2
  refine ⟨h1, ?_⟩
  unfold traceConstraint
  generalize (E.mul E.transpose).trace = t at h2
  generalize (E.mul E.transpose).mul E = F at h2
  rw [M3.ext_iff] at h2
  simp only [lin] at h2
  obtain ⟨a1, a2, a3, a4, a5, a6, a7, a8, a9⟩ := h2
  ext <;> simp only [lin] <;> linarith

/-! ## C46 -/

theorem eval_split (p : Poly K) (x y z : K) : p.eval x y z =
    p.high ⬝ᵥ ![x ^ 3, x ^ 2 * y, x * y ^ 2, y ^ 3, x ^ 2 * z, x * y * z, y ^ 2 * z, x * z ^ 2,
      y * z ^ 2, z ^ 3] + p.low ⬝ᵥ monomials x y z := by
  simp [Poly.eval, Poly.high, Poly.low, monomials, dotProduct, Fin.sum_univ_succ]
  ring

/-- **C46** The monomials of a true solution are an eigenvector of the action matrix, with the
eigenvalue `-x`. -/
theorem C46_action_eigenvector {n : Nullspace ℝ} {m : Matrix (Fin 10) (Fin 10) ℝ}
    (hm : highBlock n * m = lowBlock n) (hu : IsUnit (highBlock n).det) {x y z : ℝ}
    (hE : IsEssential (mixture n x y z 1)) :
    (actionMatrix m).mulVec (monomials x y z) = (-x) • monomials x y z := by
  have hrows := (C45_all_rows n x y z).mpr (traceConstraint_essential hE)
  set hi : Fin 10 → ℝ := ![x ^ 3, x ^ 2 * y, x * y ^ 2, y ^ 3, x ^ 2 * z, x * y * z, y ^ 2 * z,
    x * z ^ 2, y * z ^ 2, z ^ 3] with hhi
  have h1 : (highBlock n).mulVec (hi + m.mulVec (monomials x y z)) = 0 := by
    rw [Matrix.mulVec_add, Matrix.mulVec_mulVec, hm]
    funext r
    have := hrows r
    rw [eval_split] at this
    exact this
  have h2 : hi + m.mulVec (monomials x y z) = 0 := by
    have := congrArg ((highBlock n)⁻¹).mulVec h1
    rwa [Matrix.mulVec_mulVec, Matrix.nonsing_inv_mul _ hu, Matrix.one_mulVec,
      Matrix.mulVec_zero] at this
  have h3 : ∀ r, (m r) ⬝ᵥ monomials x y z = - hi r := by
    intro r
    have := congrFun h2 r
    simp only [Pi.add_apply, Matrix.mulVec, Pi.zero_apply] at this
    linarith
  funext r
  fin_cases r
  · show m 0 ⬝ᵥ monomials x y z = _
    rw [h3]; simp [hhi, monomials]; ring
  · show m 1 ⬝ᵥ monomials x y z = _
    rw [h3]; simp [hhi, monomials]; ring
  · show m 2 ⬝ᵥ monomials x y z = _
    rw [h3]; simp [hhi, monomials]
  · show m 4 ⬝ᵥ monomials x y z = _
    rw [h3]; simp [hhi, monomials]; ring
  · show m 5 ⬝ᵥ monomials x y z = _
    rw [h3]; simp [hhi, monomials]; ring
  · show m 7 ⬝ᵥ monomials x y z = _
    rw [h3]; simp [hhi, monomials]
  · show ![-1, 0, 0, 0, 0, 0, 0, 0, 0, 0] ⬝ᵥ monomials x y z = _
    simp [monomials, dotProduct, Fin.sum_univ_succ]; ring
  · show ![0, -1, 0, 0, 0, 0, 0, 0, 0, 0] ⬝ᵥ monomials x y z = _
    simp [monomials, dotProduct, Fin.sum_univ_succ]
  · show ![0, 0, 0, -1, 0, 0, 0, 0, 0, 0] ⬝ᵥ monomials x y z = _
    simp [monomials, dotProduct, Fin.sum_univ_succ]
  · show ![0, 0, 0, 0, 0, 0, -1, 0, 0, 0] ⬝ᵥ monomials x y z = _
    simp [monomials, dotProduct, Fin.sum_univ_succ]

theorem combine_eq (n : Nullspace K) (v : V4 K) : combine n v = mixture n v.x v.y v.z v.w := by
  unfold combine mixture basisMatrix
  ext <;> simp only [lin] <;> ring

/-- What the code builds from the eigenvector of a true solution: the last four rows would be the
coefficients, but it takes the four rows before the last. -/
theorem rebuilt (n : Nullspace K) (c x y z : K) :
    combine n (fourRows (c • monomials x y z)) =
      mixture n (c * z ^ 2) (c * x) (c * y) (c * z) := by
  rw [combine_eq]
  simp [fourRows, monomials]

/-- **C46** (the claim is false) From the eigenvector of a true solution, the matrix built is a
non-zero multiple of the true essential matrix only at the points (1, 1, 1) and (-1, 1, -1); for
every other solution the true matrix is not recovered. -/
theorem C46_recovered_partial {n : Nullspace K} (hn : Independent n) {c : K} (hc : c ≠ 0)
    (x y z : K) :
    (∃ k : K, k ≠ 0 ∧ combine n (fourRows (c • monomials x y z)) =
        M3.smul k (mixture n x y z 1)) ↔
      (x, y, z) = (1, 1, 1) ∨ (x, y, z) = (-1, 1, -1) := by
  rw [rebuilt]
  constructor
  · rintro ⟨k, hk, e⟩
    have h0 : mixture n (c * z ^ 2 - k * x) (c * x - k * y) (c * y - k * z) (c * z - k) =
        M3.zero := by
      have : mixture n (c * z ^ 2 - k * x) (c * x - k * y) (c * y - k * z) (c * z - k) =
          (mixture n (c * z ^ 2) (c * x) (c * y) (c * z)).sub (M3.smul k (mixture n x y z 1)) := by
        unfold mixture
        generalize basisMatrix n V4.x = E1
        generalize basisMatrix n V4.y = E2
        generalize basisMatrix n V4.z = E3
        generalize basisMatrix n V4.w = E4
        lin3
      rw [this, e]
      generalize M3.smul k (mixture n x y z 1) = F
      lin3
    obtain ⟨h1, h2, h3, h4⟩ := hn _ _ _ _ h0
    have hkz : k = c * z := by linear_combination -h4
    have hz : z ≠ 0 := by
      rintro rfl
      apply hk
      rw [hkz, mul_zero]
    rw [hkz] at h1 h2 h3
    have e1 : z = x := by
      have : (c * z) * (z - x) = 0 := by linear_combination h1
      exact sub_eq_zero.mp ((mul_eq_zero.mp this).resolve_left (mul_ne_zero hc hz))
    have e3 : y = z ^ 2 := by
      have : c * (y - z ^ 2) = 0 := by linear_combination h3
      exact sub_eq_zero.mp ((mul_eq_zero.mp this).resolve_left hc)
    have e2 : x = z * y := by
      have : c * (x - z * y) = 0 := by linear_combination h2
      exact sub_eq_zero.mp ((mul_eq_zero.mp this).resolve_left hc)
    rw [← e1, e3] at e2
    have e4 : (z - 1) * (z + 1) = 0 := by
      have : z * ((z - 1) * (z + 1)) = 0 := by linear_combination -e2
      exact (mul_eq_zero.mp this).resolve_left hz
    rcases mul_eq_zero.mp e4 with h | h
    · left
      have hz1 : z = 1 := sub_eq_zero.mp h
      rw [e3, ← e1, hz1]; simp
    · right
      have hz1 : z = -1 := eq_neg_of_add_eq_zero_left h
      rw [e3, ← e1, hz1]; simp
  · rintro (h | h)
    · simp only [Prod.mk.injEq] at h
      obtain ⟨rfl, rfl, rfl⟩ := h
      refine ⟨c, hc, ?_⟩
      unfold mixture
      generalize basisMatrix n V4.x = E1
      generalize basisMatrix n V4.y = E2
      generalize basisMatrix n V4.z = E3
      generalize basisMatrix n V4.w = E4
      lin3
    · simp only [Prod.mk.injEq] at h
      obtain ⟨rfl, rfl, rfl⟩ := h
      refine ⟨-c, neg_ne_zero.mpr hc, ?_⟩
      unfold mixture
      generalize basisMatrix n V4.x = E1
      generalize basisMatrix n V4.y = E2
      generalize basisMatrix n V4.z = E3
      generalize basisMatrix n V4.w = E4
      lin3


/-! ### The null space -/

theorem nullity_four {thr : ℝ} {vals : Fin 9 → ℝ} {i₁ i₂ i₃ i₄ : Fin 9} {rest : List (Fin 9)}
    (h : nullity thr vals (i₁ :: i₂ :: i₃ :: i₄ :: rest) = some 4)
    (hs : (i₁ :: i₂ :: i₃ :: i₄ :: rest).Pairwise (fun i j => vals i ≤ vals j)) :
    ∀ i ∈ rest, thr < vals i := by
  have hs' : rest.Pairwise (fun i j => vals i ≤ vals j) := by
    simp only [List.pairwise_cons] at hs
    exact hs.2.2.2.2
  have h0 : nullity thr vals rest = some 0 := by
    simp only [nullity] at h
    split at h
    · cases h
    · split at h
      · cases h
      · split at h
        · cases h
        · split at h
          · cases h
          · simpa [Option.map_eq_some_iff] using h
  cases rest with
  | nil => simp
  | cons j js =>
    have hj : thr < vals j := by
      simp only [nullity] at h0
      split at h0
      · assumption
      · simp [Option.map_eq_some_iff] at h0
    intro i hi
    rcases List.mem_cons.mp hi with e | e
    · rw [e]; exact hj
    · exact hj.trans_le ((List.pairwise_cons.mp hs').1 i e)

theorem fiveRow_dot (m : Match) (v : Fin 9 → ℝ) :
    fiveRow m ⬝ᵥ v = V3.dot m.b ((fromColumns v).mulVec m.a) := by
  simp only [dotProduct, Fin.sum_univ_succ, Fin.sum_univ_zero]
  simp only [fiveRow, V3.get, fromColumns, lin]
  simp
  ring

/-- Expansion in the eigenvectors. -/
theorem eigen_expand {S : Matrix (Fin 9) (Fin 9) ℝ} {e : SymEigen} (h : IsSymEigen S e)
    (x : Fin 9 → ℝ) (r : Fin 9) : x r = ∑ i, (e.vecs i ⬝ᵥ x) * e.vecs i r := by
  let V : Matrix (Fin 9) (Fin 9) ℝ := Matrix.of e.vecs
  have hVV : V * V.transpose = 1 := by
    ext i j
    rw [Matrix.mul_apply, Matrix.one_apply]
    show e.vecs i ⬝ᵥ e.vecs j = _
    split
    · rename_i hij; rw [hij]; exact h.unit j
    · rename_i hij; exact h.orth i j hij
  have hVV' : V.transpose * V = 1 := mul_eq_one_comm.mp hVV
  have h1 : V.transpose.mulVec (V.mulVec x) = x := by
    rw [Matrix.mulVec_mulVec, hVV', Matrix.one_mulVec]
  have h2 := congrFun h1 r
  rw [← h2]
  simp only [Matrix.mulVec, dotProduct, Matrix.transpose_apply, V, Matrix.of_apply]
  exact Finset.sum_congr rfl (fun i _ => mul_comm _ _)

theorem mixture_columns (e : SymEigen) (i₁ i₂ i₃ i₄ : Fin 9) (x y z w : ℝ) :
    mixture (fun r => (⟨e.vecs i₁ r, e.vecs i₂ r, e.vecs i₃ r, e.vecs i₄ r⟩ : V4 ℝ)) x y z w =
      fromColumns (x • e.vecs i₁ + y • e.vecs i₂ + z • e.vecs i₃ + w • e.vecs i₄) := by
  unfold mixture basisMatrix fromColumns
  ext <;> simp only [lin, Pi.add_apply, Pi.smul_apply, smul_eq_mul] <;> ring

/-- **C46** When the null space is found, its four matrices are independent and every matrix that
satisfies the epipolar constraint on the five matches is a mixture of them. -/
theorem C46_null_space {sv : FiveSolver} (hsv : sv.Correct) {thr : ℝ} (hthr : 0 ≤ thr)
    {ms : Fin 5 → Match} {n : Nullspace ℝ} (h : nullspaceBasis sv thr ms = some n) :
    Independent n ∧
      ∀ F : M3 ℝ, (∀ i, (ms i).Satisfies F) → ∃ x y z w, F = mixture n x y z w := by
  unfold nullspaceBasis at h
  simp only at h
  set A : Matrix (Fin 5) (Fin 9) ℝ := Matrix.of (fun i => fiveRow (ms i)) with hA
  split at h
  · exact nomatch h
  · rename_i e he
    have hE := hsv.symmetric _ _ he
    have hp := hsv.sort_perm e.vals
    have hs := hsv.sort_sorted e.vals
    split at h
    · rename_i i₁ i₂ i₃ i₄ rest hn hl
      injection h with h
      subst h
      rw [hl] at hp hs hn
      have hrest := nullity_four hn hs
      have hnd : (i₁ :: i₂ :: i₃ :: i₄ :: rest).Nodup := hp.nodup_iff.mpr (List.nodup_finRange 9)
      simp only [List.nodup_cons, List.mem_cons, not_or] at hnd
      obtain ⟨⟨d12, d13, d14, -⟩, ⟨d23, d24, -⟩, ⟨d34, -⟩, -⟩ := hnd
      constructor
      · intro x y z w hz
        rw [mixture_columns] at hz
        have hz := fromColumns_zero hz
        have key : ∀ i, (e.vecs i) ⬝ᵥ
            (x • e.vecs i₁ + y • e.vecs i₂ + z • e.vecs i₃ + w • e.vecs i₄) = 0 := by
          intro i; rw [hz, dotProduct_zero]
        simp only [dotProduct_add, dotProduct_smul, smul_eq_mul] at key
        have k1 := key i₁
        have k2 := key i₂
        have k3 := key i₃
        have k4 := key i₄
        rw [hE.unit, hE.orth _ _ d12, hE.orth _ _ d13, hE.orth _ _ d14] at k1
        rw [hE.unit, hE.orth _ _ (Ne.symm d12), hE.orth _ _ d23, hE.orth _ _ d24] at k2
        rw [hE.unit, hE.orth _ _ (Ne.symm d13), hE.orth _ _ (Ne.symm d23), hE.orth _ _ d34] at k3
        rw [hE.unit, hE.orth _ _ (Ne.symm d14), hE.orth _ _ (Ne.symm d24),
          hE.orth _ _ (Ne.symm d34)] at k4
        refine ⟨by linarith, by linarith, by linarith, by linarith⟩
      · intro F hF
        have hAF : A.mulVec (toColumns F) = 0 := by
          funext i
          show fiveRow (ms i) ⬝ᵥ toColumns F = 0
          rw [fiveRow_dot, fromColumns_toColumns]
          exact hF i
        have hzero : ∀ i ∈ rest, e.vecs i ⬝ᵥ toColumns F = 0 := by
          intro i hi
          have h1 : e.vals i * (e.vecs i ⬝ᵥ toColumns F) = 0 := by
            have : (A.transpose * A).mulVec (e.vecs i) ⬝ᵥ toColumns F = 0 := by
              rw [← Matrix.mulVec_mulVec, Matrix.mulVec_transpose, ← Matrix.dotProduct_mulVec,
                hAF, dotProduct_zero]
            rwa [hE.eigen, smul_dotProduct, smul_eq_mul] at this
          exact (mul_eq_zero.mp h1).resolve_left (hthr.trans_lt (hrest i hi)).ne'
        refine ⟨e.vecs i₁ ⬝ᵥ toColumns F, e.vecs i₂ ⬝ᵥ toColumns F, e.vecs i₃ ⬝ᵥ toColumns F,
          e.vecs i₄ ⬝ᵥ toColumns F, ?_⟩
        rw [mixture_columns, ← fromColumns_toColumns F]
        congr 1
        funext r
        rw [fromColumns_toColumns]
        refine (eigen_expand hE (toColumns F) r).trans ?_
        have hsum : ∀ f : Fin 9 → ℝ, ∑ i, f i = ((i₁ :: i₂ :: i₃ :: i₄ :: rest).map f).sum := by
          intro f
          rw [(hp.map f).sum_eq, List.finRange, ← List.sum_ofFn]
          simp
        rw [hsum]
        have hr0 : (rest.map (fun i => (e.vecs i ⬝ᵥ toColumns F) * e.vecs i r)).sum = 0 := by
          apply List.sum_eq_zero
          intro a ha
          obtain ⟨i, hi, rfl⟩ := List.mem_map.mp ha
          rw [hzero i hi, zero_mul]
        simp only [List.map_cons, List.sum_cons, hr0, Pi.add_apply, Pi.smul_apply, smul_eq_mul]
        ring
    · exact nomatch h

/-! ### The whole solver -/

/-- **C46** (the claim is false) A degenerate sample, one without a null space of dimension four, is
not reported: the solver returns ten zero matrices whatever the matches. -/
theorem C46_degenerate_sample {sv : FiveSolver} (hsv : sv.Correct) {thr : ℝ} {ms : Fin 5 → Match}
    (h : nullspaceBasis sv thr ms = none) : fivePoint sv thr ms = List.replicate 10 M3.zero := by
  unfold fivePoint
  simp only [h]
  unfold essentialsFromAction
  have hone : ((fun _ => 1 : Fin 10 → ℝ)) ≠ 0 := fun e => one_ne_zero (congrFun e 0)
  obtain ⟨v, hv⟩ := Option.isSome_iff_exists.mp
    (hsv.found 0 0 (fun _ => 1) hone (by rw [Matrix.zero_mulVec, zero_smul]))
  have hall : ∀ l : List (ℝ × ℝ), (∀ e ∈ l, e = (0, 0)) →
      l.filterMap (fun e => if e.2 = 0 then (sv.eigenvector 0 e.1).map
        (fun v => combine (fun _ => (⟨0, 0, 0, 0⟩ : V4 ℝ)) (fourRows v)) else none) =
      List.replicate l.length M3.zero := by
    intro l
    induction l with
    | nil => intro _; rfl
    | cons e l ih =>
      intro hl
      have he := hl e (List.mem_cons_self)
      subst he
      rw [List.filterMap_cons_some (b := M3.zero), ih (fun e he => hl e (List.mem_cons_of_mem _ he))]
      · rfl
      · simp only [if_true, hv, Option.map_some]
        congr 1
        unfold combine
        ext <;> simp only [lin] <;> ring
  rw [hall _ hsv.zero, hsv.count]

/-- **C46** (the claim is false) The estimate of a degenerate sample is the same forty poses
whatever the matches. -/
theorem C46_degenerate_estimate {sv : FiveSolver} (hsv : sv.Correct) {thr : ℝ}
    {ms : Fin 5 → Match} (h : nullspaceBasis sv thr ms = none) {svd : M3 ℝ → Option (SVD ℝ)}
    {u : SVD ℝ} (hu : svd M3.zero = some u) :
    fivePointEstimate sv svd thr ms = (List.replicate 10 u).flatMap possiblePoses ∧
      (fivePointEstimate sv svd thr ms).length = 40 := by
  have : fivePointEstimate sv svd thr ms = (List.replicate 10 u).flatMap possiblePoses := by
    unfold fivePointEstimate
    rw [C46_degenerate_sample hsv h]
    congr 1
    rw [show (List.replicate 10 (M3.zero : M3 ℝ)) = [M3.zero, M3.zero, M3.zero, M3.zero, M3.zero,
      M3.zero, M3.zero, M3.zero, M3.zero, M3.zero] from rfl]
    simp [hu]
  refine ⟨this, ?_⟩
  rw [this, List.length_flatMap]
  simp [possiblePoses]

/-- **C46** (the claim is false) A true solution `(x, y, z)`, whose monomials are the eigenvector
found (up to scale) for its eigenvalue `-x`, gives one matrix of the answer, but this matrix is a
multiple of the true one only at two points. -/
theorem C46_pipeline_partial {sv : FiveSolver} (hsv : sv.Correct) {thr : ℝ} (hthr : 0 ≤ thr)
    {ms : Fin 5 → Match} {n : Nullspace ℝ} (h : nullspaceBasis sv thr ms = some n)
    {m : Matrix (Fin 10) (Fin 10) ℝ} (hm : sv.lu (highBlock n) (lowBlock n) = some m)
    {x y z : ℝ} (hE : IsEssential (mixture n x y z 1)) {c : ℝ}
    (hv : sv.eigenvector (actionMatrix m) (-x) = some (c • monomials x y z)) :
    combine n (fourRows (c • monomials x y z)) ∈ fivePoint sv thr ms ∧
      ((∃ k : ℝ, k ≠ 0 ∧ combine n (fourRows (c • monomials x y z)) =
          M3.smul k (mixture n x y z 1)) ↔ (x, y, z) = (1, 1, 1) ∨ (x, y, z) = (-1, 1, -1)) := by
  obtain ⟨h1, h2⟩ := hsv.lu _ _ _ hm
  have ha := C46_action_eigenvector h1 h2 hE
  have hne : monomials x y z ≠ 0 := by
    intro e
    have := congrFun e 9
    simp [monomials] at this
  obtain ⟨hv0, hv1⟩ := hsv.eigenvector _ _ _ hv
  have hc : c ≠ 0 := by
    rintro rfl
    exact hv0 (zero_smul _ _)
  refine ⟨?_, C46_recovered_partial (C46_null_space hsv hthr h).1 hc x y z⟩
  unfold fivePoint
  simp only [h, hm]
  unfold essentialsFromAction
  refine List.mem_filterMap.mpr ⟨(-x, 0), hsv.eigenvalues _ _ _ hne ha, ?_⟩
  simp [hv]

end Verif.Geo
