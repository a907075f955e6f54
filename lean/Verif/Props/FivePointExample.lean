import Verif.Lemmas.FiveSolver
import Verif.Props.FivePoint

/-!
# C46: five matches that meet the hypotheses
-/

namespace Verif.Geo.FiveEx

/-- Five matches of unit bearings. -/
noncomputable def ms : Fin 5 → Match :=
  ![⟨⟨-3/5, 0, 4/5⟩, ⟨0, 0, 1⟩⟩, ⟨⟨1, 0, 0⟩, ⟨1, 0, 0⟩⟩, ⟨⟨1, 0, 0⟩, ⟨0, 1, 0⟩⟩,
    ⟨⟨0, 1, 0⟩, ⟨0, 1, 0⟩⟩, ⟨⟨0, 3/5, 4/5⟩, ⟨1, 0, 0⟩⟩]

/-- The eigenvectors: four null vectors, then the five rows. -/
noncomputable def eig : SymEigen where
  vals := ![0, 0, 0, 0, 1, 1, 1, 1, 1]
  vecs := ![![0, 0, 0, 0, 0, 0, 0, -1, 0], ![0, 0, 0, 4/5, 0, 0, -3/5, 0, 0],
    ![0, 0, 4/5, 0, 0, 0, 0, 0, 3/5], ![0, 0, 0, 0, 0, 1, 0, 0, 0],
    ![0, 0, -3/5, 0, 0, 0, 0, 0, 4/5], ![1, 0, 0, 0, 0, 0, 0, 0, 0],
    ![0, 1, 0, 0, 0, 0, 0, 0, 0], ![0, 0, 0, 0, 1, 0, 0, 0, 0], ![0, 0, 0, 3/5, 0, 0, 4/5, 0, 0]]

/-- The null space. -/
noncomputable def n : Nullspace ℝ := fun r => ⟨eig.vecs 0 r, eig.vecs 1 r, eig.vecs 2 r, eig.vecs 3 r⟩

/-- The linear system. -/
noncomputable def A : Matrix (Fin 5) (Fin 9) ℝ := Matrix.of (fun i => fiveRow (ms i))

theorem A_rows (i : Fin 5) : A i = eig.vecs ⟨i.val + 4, by omega⟩ := by
  funext j
  fin_cases i <;> fin_cases j <;> simp [A, fiveRow, ms, eig, V3.get]

theorem unit (i : Fin 9) : eig.vecs i ⬝ᵥ eig.vecs i = 1 := by
  fin_cases i <;> simp [eig, dotProduct, Fin.sum_univ_succ] <;> norm_num

theorem orth (i j : Fin 9) (h : i ≠ j) : eig.vecs i ⬝ᵥ eig.vecs j = 0 := by
  fin_cases i <;> fin_cases j <;> first
    | exact absurd rfl h
    | (simp [eig, dotProduct, Fin.sum_univ_succ]; done)
    | (simp [eig, dotProduct, Fin.sum_univ_succ]; norm_num)

theorem eigen : IsSymEigen (A.transpose * A) eig := by
  refine ⟨unit, orth, fun i => ?_⟩
  rw [← Matrix.mulVec_mulVec]
  have hA : A.mulVec (eig.vecs i) = fun k => if k.val + 4 = i.val then 1 else 0 := by
    funext k
    show A k ⬝ᵥ eig.vecs i = _
    rw [A_rows]
    split
    · rename_i h
      have : (⟨k.val + 4, by omega⟩ : Fin 9) = i := Fin.ext h
      rw [this]; exact unit i
    · rename_i h
      exact orth _ _ (fun e => h (congrArg Fin.val e))
  rw [hA, Matrix.mulVec_transpose]
  funext r
  simp only [Matrix.vecMul, dotProduct, A_rows, Pi.smul_apply, smul_eq_mul]
  fin_cases i <;> simp [Fin.sum_univ_succ, eig]

theorem det_unit : IsUnit (highBlock n).det := by
  rw [isUnit_iff_ne_zero]
  intro h
  obtain ⟨u, hu, hz⟩ := Matrix.exists_mulVec_eq_zero_iff.mpr h
  apply hu
  have key : ∀ r, (constraintRow n r).high ⬝ᵥ u = 0 := fun r => congrFun hz r
  have h0 := key 0
  have h1 := key 1
  have h2 := key 2
  have h3 := key 3
  have h4 := key 4
  have h5 := key 5
  have h6 := key 6
  have h7 := key 7
  have h8 := key 8
  have h9 := key 9
  simp [constraintRow, detRow, traceRow, lPoly, eet, eetUpper, ePoly, n, eig, Poly.high, o1, o2,
    Poly.add, Poly.sub, Poly.smul, dotProduct, Fin.sum_univ_succ] at h0 h1 h2 h3 h4 h5 h6 h7 h8 h9
  norm_num at h0 h1 h2 h3 h4 h5 h6 h7 h8 h9
  funext r
  fin_cases r <;> simp <;> linarith

theorem true_solution : IsEssential (mixture n 1 0 0 1) := by
  refine ⟨⟨M3.one, ⟨1, 0, 0⟩⟩, ⟨?_, ?_⟩, ?_⟩
  · lin3
  · simp [lin]
  · unfold mixture basisMatrix n
    ext <;> simp [lin, eig]

/-- The solution of the linear system. -/
noncomputable def m : Matrix (Fin 10) (Fin 10) ℝ := (highBlock n)⁻¹ * lowBlock n

theorem eigenvector : (actionMatrix m).mulVec (monomials 1 0 0) = (-1 : ℝ) • monomials 1 0 0 :=
  C46_action_eigenvector
    (by rw [m, ← mul_assoc, Matrix.mul_nonsing_inv _ det_unit, one_mul]) det_unit true_solution

/-- A correct solver. -/
noncomputable def sv : FiveSolver :=
  overSolver (A.transpose * A) eig (List.finRange 9) (actionMatrix m) (-1) (monomials 1 0 0)

theorem sv_correct : sv.Correct := by
  refine overSolver_correct eigen (List.Perm.refl _) ?_ ?_ eigenvector
  · rw [List.pairwise_iff_getElem]
    intro i j hi hj hij
    simp only [List.getElem_finRange]
    simp at hi hj
    have : ∀ a b : Fin 9, a.val < b.val → eig.vals a ≤ eig.vals b := by
      intro a b hab
      fin_cases a <;> fin_cases b <;> first
        | (exfalso; revert hab; decide)
        | simp [eig]
    exact this _ _ (by simpa using hij)
  · intro e
    have := congrFun e 9
    simp [monomials] at this

theorem null_space : nullspaceBasis sv 0 ms = some n := by
  have h1 : sv.symmetric (A.transpose * A) = some eig := by simp [sv, overSolver]
  have h2 : sv.sort eig.vals = List.finRange 9 := by simp [sv, overSolver]
  have h3 : List.finRange 9 = [0, 1, 2, 3, 4, 5, 6, 7, 8] := by decide
  have h4 : nullity 0 eig.vals [0, 1, 2, 3, 4, 5, 6, 7, 8] = some 4 := by
    simp [nullity, eig]
  unfold nullspaceBasis
  simp only
  rw [show (Matrix.of (fun i => fiveRow (ms i)) : Matrix (Fin 5) (Fin 9) ℝ) = A from rfl, h1]
  simp only [h2, h3, h4]
  rfl

/-- All hypotheses of `C46_pipeline_partial` (hence of `C46_null_space`, `C46_action_eigenvector`
and `C46_recovered_partial`) hold for the five matches, with the true solution (1, 0, 0). -/
example : sv.Correct ∧ nullspaceBasis sv 0 ms = some n ∧ sv.lu (highBlock n) (lowBlock n) = some m ∧
    IsEssential (mixture n 1 0 0 1) ∧
    sv.eigenvector (actionMatrix m) (-1) = some ((1 : ℝ) • monomials 1 0 0) := by
  refine ⟨sv_correct, null_space, ?_, true_solution, ?_⟩
  · show refLu _ _ = _
    rw [refLu, if_pos det_unit]; rfl
  · simp [sv, overSolver]

/-- Five times the same match. -/
def same : Fin 5 → Match := fun _ => ⟨⟨0, 0, 1⟩, ⟨0, 0, 1⟩⟩

/-- A degenerate sample, as in `C46_degenerate_sample`. -/
theorem same_degenerate : nullspaceBasis refSolver 0 same = none := by
  cases h : nullspaceBasis refSolver 0 same with
  | none => rfl
  | some n =>
    exfalso
    obtain ⟨-, hF⟩ := C46_null_space refSolver_correct le_rfl h
    -- five independent matrices that satisfy the matches
    let B : Fin 5 → M3 ℝ := ![⟨1, 0, 0, 0, 0, 0, 0, 0, 0⟩, ⟨0, 1, 0, 0, 0, 0, 0, 0, 0⟩,
      ⟨0, 0, 1, 0, 0, 0, 0, 0, 0⟩, ⟨0, 0, 0, 1, 0, 0, 0, 0, 0⟩, ⟨0, 0, 0, 0, 1, 0, 0, 0, 0⟩]
    have hB : ∀ k, ∃ c : Fin 4 → ℝ, B k = mixture n (c 0) (c 1) (c 2) (c 3) := by
      intro k
      obtain ⟨x, y, z, w, e⟩ := hF (B k) (by
        intro i
        unfold Match.Satisfies same
        fin_cases k <;> simp [B, lin])
      exact ⟨![x, y, z, w], e⟩
    choose c hc using hB
    let C : Matrix (Fin 5) (Fin 5) ℝ :=
      Matrix.of (fun i k => if h : i.val < 4 then c k ⟨i.val, h⟩ else 0)
    have hdet : C.det = 0 := Matrix.det_eq_zero_of_row_eq_zero 4 (fun j => by simp [C])
    obtain ⟨u, hu, hz⟩ := Matrix.exists_mulVec_eq_zero_iff.mpr hdet
    have hz' : ∀ i : Fin 4, c 0 i * u 0 + c 1 i * u 1 + c 2 i * u 2 + c 3 i * u 3 + c 4 i * u 4 = 0 := by
      intro i
      have := congrFun hz ⟨i.val, by omega⟩
      simpa [C, Matrix.mulVec, dotProduct, Fin.sum_univ_five] using this
    have hsum : ((((M3.smul (u 0) (B 0)).add (M3.smul (u 1) (B 1))).add (M3.smul (u 2) (B 2))).add
        (M3.smul (u 3) (B 3))).add (M3.smul (u 4) (B 4)) = M3.zero := by
      have e : ((((M3.smul (u 0) (B 0)).add (M3.smul (u 1) (B 1))).add (M3.smul (u 2) (B 2))).add
          (M3.smul (u 3) (B 3))).add (M3.smul (u 4) (B 4)) =
          mixture n (c 0 0 * u 0 + c 1 0 * u 1 + c 2 0 * u 2 + c 3 0 * u 3 + c 4 0 * u 4)
            (c 0 1 * u 0 + c 1 1 * u 1 + c 2 1 * u 2 + c 3 1 * u 3 + c 4 1 * u 4)
            (c 0 2 * u 0 + c 1 2 * u 1 + c 2 2 * u 2 + c 3 2 * u 3 + c 4 2 * u 4)
            (c 0 3 * u 0 + c 1 3 * u 1 + c 2 3 * u 2 + c 3 3 * u 3 + c 4 3 * u 4) := by
        rw [hc 0, hc 1, hc 2, hc 3, hc 4]
        unfold mixture
        generalize basisMatrix n V4.x = E1
        generalize basisMatrix n V4.y = E2
        generalize basisMatrix n V4.z = E3
        generalize basisMatrix n V4.w = E4
        lin3
      rw [e, hz', hz', hz', hz']
      unfold mixture
      lin3
    rw [M3.ext_iff] at hsum
    simp [lin, B] at hsum
    apply hu
    funext i
    fin_cases i <;> simp [hsum]

end Verif.Geo.FiveEx
