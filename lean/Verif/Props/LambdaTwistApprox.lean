import Verif.Props.CubeRoot
import Verif.Props.LambdaTwist

/-!
# Three points: a flat cubic and inexact roots, properties C63 and C65
-/

namespace Verif.Geo.P3P

/-! ## C63: the case left out is one where no root is found -/

theorem flat_step {c u x : ℝ} (hc : 0 < c) (hc1 : c ≤ 1) (hx : 1 ≤ x) (hu : u ≤ -x) :
    ∃ u', newtonStep 0 c 2 u = some u' ∧ u' ≤ u / 2 := by
  have hd : 0 < cubicDeriv 0 c u := by
    unfold cubicDeriv
    have := mul_self_nonneg u
    linarith
  refine ⟨_, by rw [newtonStep, cdiv_of_ne hd.ne']; rfl, ?_⟩
  have h2 : 0 ≤ -u * (u * u - c) := by
    refine mul_nonneg (by linarith) ?_
    have : 1 ≤ u * u := by nlinarith
    linarith
  have h : u / 2 ≤ cubic 0 c 2 u / cubicDeriv 0 c u := by
    rw [le_div_iff₀ hd]
    unfold cubic cubicDeriv
    linarith
  linarith

theorem flat_fixed {c x : ℝ} (hc : 0 < c) (hc1 : c ≤ 1) (hx : 1 ≤ x) : ∀ (n : Nat) {u : ℝ}, u ≤ -(x * 2 ^ n) →
    ∃ r, newtonFixed 0 c 2 n u = some r ∧ r ≤ -x
  | 0, u, h => ⟨u, rfl, by simpa using h⟩
  | n + 1, u, h => by
    have h1 : (1 : ℝ) ≤ 2 ^ (n + 1) := one_le_pow₀ (by norm_num)
    obtain ⟨u', e, hu'⟩ := flat_step hc hc1 (le_trans hx (le_mul_of_one_le_right (by linarith) h1)) h
    obtain ⟨r, hr, hrx⟩ := flat_fixed hc hc1 hx n (u := u') (by rw [pow_succ] at h; linarith)
    exact ⟨r, by rw [newtonFixed, e, Option.bind_some, hr], hrx⟩

theorem flat_until {c x : ℝ} (hc : 0 < c) (hc1 : c ≤ 1) (hx : 1 ≤ x) : ∀ (n : Nat) {u : ℝ}, u ≤ -(x * 2 ^ n) →
    ∃ r, newtonUntil 0 c 2 n u = some r ∧ r ≤ -x
  | 0, u, h => ⟨u, rfl, by simpa using h⟩
  | n + 1, u, h => by
    have h1 : (1 : ℝ) ≤ 2 ^ (n + 1) := one_le_pow₀ (by norm_num)
    have hx1 := le_mul_of_one_le_right (by linarith : 0 ≤ x) h1
    rw [newtonUntil]
    split
    · obtain ⟨u', e, hu'⟩ := flat_step hc hc1 (le_trans hx hx1) h
      obtain ⟨r, hr, hrx⟩ := flat_until hc hc1 hx n (u := u') (by rw [pow_succ] at h; linarith)
      exact ⟨r, by rw [e, Option.bind_some, hr], hrx⟩
    · exact ⟨u, rfl, by linarith⟩

/-- **C63** (the full claim is false) The case left out by `C63_no_stationary_point_partial`: `r³ + 2^-200 r + 2` has its
only root between -2 and -1, but the second step divides by the slope at the inflection point and goes to `-2^201`, from
where the remaining steps do not come back. Starting where it does, the search returns a number below `-2^150`. -/
theorem C63_flat_not_found : (∃ root : ℝ, -2 ≤ root ∧ root ≤ -1 ∧ cubic 0 (1 / 2 ^ 200) 2 root = 0) ∧
    ∃ r, cubeRoot 0 (1 / 2 ^ 200) 2 = some r ∧ r ≤ -(2 : ℝ) ^ 150 := by
  constructor
  · have hcont : ContinuousOn (cubic 0 (1 / 2 ^ 200) 2) (Set.Icc (-2) (-1)) := by
      apply Continuous.continuousOn
      unfold cubic
      fun_prop
    obtain ⟨x, hx, e⟩ := intermediate_value_Icc (by norm_num : (-2 : ℝ) ≤ -1) hcont
      (show (0 : ℝ) ∈ Set.Icc (cubic 0 (1 / 2 ^ 200) 2 (-2)) (cubic 0 (1 / 2 ^ 200) 2 (-1)) by
        constructor <;> norm_num [cubic])
    exact ⟨x, hx.1, hx.2, e⟩
  · have hc : (0 : ℝ) < 1 / 2 ^ 200 := by positivity
    have hc1 : (1 / 2 ^ 200 : ℝ) ≤ 1 := by norm_num
    have hstart : cubeStart 0 (1 / 2 ^ 200) 2 = some 1 := by
      unfold cubeStart
      rw [if_neg (by norm_num)]
      simp only
      rw [if_pos (by norm_num [cubicDeriv])]
      norm_num
    have h1 : newtonStep 0 (1 / 2 ^ 200) 2 1 = some 0 := by
      rw [newtonStep, cdiv_of_ne (by norm_num [cubicDeriv])]
      norm_num [cubic, cubicDeriv]
    have h2 : newtonStep 0 (1 / 2 ^ 200) 2 0 = some (-2 ^ 201) := by
      rw [newtonStep, cdiv_of_ne (by norm_num [cubicDeriv])]
      norm_num [cubic, cubicDeriv]
    obtain ⟨r, hr, hr'⟩ := flat_fixed (c := 1 / 2 ^ 200) (x := 2 ^ 193) hc hc1 (by norm_num) 5 (u := -2 ^ 201)
      (by norm_num)
    obtain ⟨q, hq, hq'⟩ := flat_until (c := 1 / 2 ^ 200) (x := 2 ^ 150) hc hc1 (by norm_num) 43 (u := r)
      (hr'.trans (by norm_num))
    refine ⟨q, ?_, hq'⟩
    unfold cubeRoot
    rw [hstart, Option.bind_some]
    show (newtonFixed 0 (1 / 2 ^ 200) 2 (5 + 1 + 1) 1).bind _ = _
    rw [newtonFixed, h1, Option.bind_some, newtonFixed, h2, Option.bind_some, hr, Option.bind_some, hq]

/-! ## C65 for any root -/

theorem pushSolution_pos {k : Tri} {t : Option ℝ} {w0 w1 : ℝ} {l : V3 ℝ} (h : l ∈ k.pushSolution t w0 w1) :
    0 ≤ l.x ∧ 0 < l.y ∧ 0 < l.z := by
  unfold Tri.pushSolution at h
  split at h
  · simp at h
  · rename_i t
    split at h
    · rename_i ht
      split at h
      · simp at h
      · rename_i l' hl'
        split at h
        · rename_i hx
          obtain rfl := List.mem_singleton.1 h
          unfold Tri.possibleDepths at hl'
          obtain ⟨d, -, hl'⟩ := Option.bind_eq_some_iff.1 hl'
          split at hl'
          · rename_i hd
            obtain rfl := Option.some.inj hl'
            exact ⟨hx, Real.sqrt_pos.2 hd, mul_pos ht (Real.sqrt_pos.2 hd)⟩
          · cases hl'
        · simp at h
    · simp at h

theorem depths_pos {k : Tri} {solve : ℝ → ℝ → ℝ → Option ℝ} {l : V3 ℝ} (h : l ∈ k.depths solve) :
    0 ≤ l.x ∧ 0 < l.y ∧ 0 < l.z := by
  have hp : ∀ {v1 v2 r}, l ∈ k.pushSolutions v1 v2 r → 0 ≤ l.x ∧ 0 < l.y ∧ 0 < l.z := by
    intro v1 v2 r h
    unfold Tri.pushSolutions at h
    split at h
    · simp at h
    · split at h
      · exact (List.mem_append.1 h).elim pushSolution_pos pushSolution_pos
      · simp at h
  unfold Tri.depths at h
  split at h
  · simp at h
  · unfold Tri.depthsOf at h
    split at h
    · simp at h
    · unfold Tri.fromEigen at h
      simp only at h
      split at h
      · simp at h
      · exact (List.mem_append.1 h).elim hp hp

/-- Whatever the depths, the recovered affine map takes each world point to its bearing at its depth. -/
theorem recover_sees {x1 x2 x3 y1 y2 y3 l : V3 ℝ} {xinv : M3 ℝ}
    (hx : tryInverse (frame (x1.sub x2) (x1.sub x3)) = some xinv) :
    Sees (recoverPose xinv x1 y1 y2 y3 l) x1 y1 l.x ∧ Sees (recoverPose xinv x1 y1 y2 y3 l) x2 y2 l.y ∧
    Sees (recoverPose xinv x1 y1 y2 y3 l) x3 y3 l.z ∧ 0 ≤ (recoverPose xinv x1 y1 y2 y3 l).rot.det := by
  obtain ⟨hd, hX, hX'⟩ := tryInverse_spec hx
  set u := x1.sub x2 with hu
  set v := x1.sub x3 with hv
  set p := (V3.smul l.x y1).sub (V3.smul l.y y2) with hp
  set q := (V3.smul l.x y1).sub (V3.smul l.z y3) with hq
  have hrot : (recoverPose xinv x1 y1 y2 y3 l).rot = (frame p q).mul xinv := rfl
  have hRX : ((frame p q).mul xinv).mul (frame u v) = frame p q := by
    rw [M3.mul_assoc', hX']; lin3
  have hRu : ((frame p q).mul xinv).mulVec u = p := by
    have := congrArg M3.col1 hRX
    have e : ∀ R : M3 ℝ, (R.mul (frame u v)).col1 = R.mulVec u := by intro R; lin3
    rw [e] at this
    rw [this]; lin3
  have hRv : ((frame p q).mul xinv).mulVec v = q := by
    have := congrArg M3.col2 hRX
    have e : ∀ R : M3 ℝ, (R.mul (frame u v)).col2 = R.mulVec v := by intro R; lin3
    rw [e] at this
    rw [this]; lin3
  refine ⟨?_, ?_, ?_, ?_⟩
  · unfold Sees recoverPose
    lin3
  · have e : (recoverPose xinv x1 y1 y2 y3 l).point x2 =
        (V3.smul l.x y1).sub (((frame p q).mul xinv).mulVec u) := by
      show ((((frame p q).mul xinv).mulVec x2).add
        ((V3.smul l.x y1).sub (((frame p q).mul xinv).mulVec x1))) = _
      generalize (frame p q).mul xinv = R
      rw [hu]; lin3
    unfold Sees
    rw [e, hRu, hp]; lin3
  · have e : (recoverPose xinv x1 y1 y2 y3 l).point x3 =
        (V3.smul l.x y1).sub (((frame p q).mul xinv).mulVec v) := by
      show ((((frame p q).mul xinv).mulVec x3).add
        ((V3.smul l.x y1).sub (((frame p q).mul xinv).mulVec x1))) = _
      generalize (frame p q).mul xinv = R
      rw [hv]; lin3
    unfold Sees
    rw [e, hRv, hq]; lin3
  · have hdm : ∀ A B : M3 ℝ, (A.mul B).det = A.det * B.det := by
      intro A B; simp only [lin]; ring
    have h1 : 0 ≤ (frame p q).det := by
      rw [frame_det]
      unfold V3.normSq
      exact add_nonneg (add_nonneg (mul_self_nonneg _) (mul_self_nonneg _)) (mul_self_nonneg _)
    have h2 : 0 ≤ (frame u v).det := by
      rw [frame_det]
      unfold V3.normSq
      exact add_nonneg (add_nonneg (mul_self_nonneg _) (mul_self_nonneg _)) (mul_self_nonneg _)
    have h3 : (frame u v).det * xinv.det = 1 := by rw [← hdm, hX]; simp [lin]
    have h4 : 0 ≤ xinv.det := by
      by_contra hc
      have := mul_nonpos_of_nonneg_of_nonpos h2 (not_le.1 hc).le
      linarith
    rw [hrot, hdm]
    exact mul_nonneg h1 h4

/-- By how much a map changes the squared distance of two points. -/
def stretch (p : Iso ℝ) (a b : V3 ℝ) : ℝ := |((p.point a).sub (p.point b)).normSq - (a.sub b).normSq|

/-- **C65** Whatever root is used (exact or not) and however many refinement steps are made: each pose is made from an
affine map that sees the three points exactly along their bearings, without reflection. How far it is from a rigid motion
is what the refinement made small: the changes of the three squared distances add up to the misfit of the refined depths,
which is at most that of the depths found, and these are in front of the camera. -/
theorem C65_any_root {x1 x2 x3 y1 y2 y3 : V3 ℝ} (h1 : y1.normSq = 1) (h2 : y2.normSq = 1) (h3 : y3.normSq = 1)
    (solve : ℝ → ℝ → ℝ → Option ℝ) (toRotation : M3 ℝ → M3 ℝ) (n : Nat) {p : Iso ℝ}
    (hp : some p ∈ computePoses solve toRotation n (some x1) (some x2) (some x3) y1 y2 y3) :
    ∃ (A : Iso ℝ) (l l' : V3 ℝ), p = ⟨toRotation A.rot, A.t⟩ ∧ 0 ≤ A.rot.det ∧
      Sees A x1 y1 l'.x ∧ Sees A x2 y2 l'.y ∧ Sees A x3 y3 l'.z ∧
      stretch A x1 x2 + stretch A x1 x3 + stretch A x2 x3 = (Tri.of x1 x2 x3 y1 y2 y3).misfit l' ∧
      (Tri.of x1 x2 x3 y1 y2 y3).misfit l' ≤ (Tri.of x1 x2 x3 y1 y2 y3).misfit l ∧
      l ∈ (Tri.of x1 x2 x3 y1 y2 y3).depths solve ∧ 0 ≤ l.x ∧ 0 < l.y ∧ 0 < l.z := by
  unfold computePoses at hp
  simp only at hp
  split at hp
  · simp at hp
  · rename_i xinv hxi
    obtain ⟨l, hl, e⟩ := List.mem_map.1 hp
    obtain ⟨l', hr, e⟩ := Option.map_eq_some_iff.1 e
    obtain ⟨s1, s2, s3, hdet⟩ := recover_sees (y1 := y1) (y2 := y2) (y3 := y3) (l := l') hxi
    refine ⟨_, l, l', e.symm, hdet, s1, s2, s3, ?_, C49_refine_partial _ n l l' hr, hl, depths_pos hl⟩
    unfold stretch Tri.misfit
    rw [s1, s2, s3]
    congr 1
    · congr 1
      · congr 1
        simp only [Tri.of, lin] at h1 h2 ⊢
        linear_combination l'.x ^ 2 * h1 + l'.y ^ 2 * h2
      · congr 1
        simp only [Tri.of, lin] at h1 h3 ⊢
        linear_combination l'.x ^ 2 * h1 + l'.z ^ 2 * h3
    · congr 1
      simp only [Tri.of, lin] at h2 h3 ⊢
      linear_combination l'.y ^ 2 * h2 + l'.z ^ 2 * h3

/-- The case of C64: a pose is found. -/
example (n : Nat) : ∃ p, some p ∈ computePoses Example.solve id n (some Example.y1) (some Example.y2) (some Example.y3)
    Example.y1 Example.y2 Example.y3 :=
  ⟨Iso.one, C64_pose_found_partial (p := Iso.one) (l := ⟨1, 1, 1⟩) M3.IsRot.one (by norm_num [Example.y1, lin])
    (by norm_num [Example.y2, lin]) (by norm_num [Example.y3, lin]) (by norm_num [Sees, lin])
    (by norm_num [Sees, lin]) (by norm_num [Sees, lin]) one_pos one_pos one_pos
    (by norm_num [Collinear, Example.y1, Example.y2, Example.y3, lin]) Example.solve_exact (fun _ _ => rfl)
    Example.k_root Example.k_regular (by rw [Example.k_d0]; norm_num [lin]) n⟩

end Verif.Geo.P3P
