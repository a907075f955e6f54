import Mathlib.Tactic.Linarith
import Mathlib.Tactic.LinearCombination
import Mathlib.Tactic.FieldSimp
import Verif.Spec.LambdaTwist
import Verif.Lemmas.Linear
import Verif.Lemmas.Essential

/-!
# C47, C48, C49: parts of the three point solver
-/

namespace Verif.Geo.P3P

/-! ## C48 -/

theorem cdiv_of_ne {a b : ℝ} (h : b ≠ 0) : cdiv a b = some (a / b) := by simp [cdiv, h]
theorem cdiv_some {a b q : ℝ} (h : cdiv a b = some q) : b ≠ 0 ∧ q = a / b := by
  unfold cdiv at h
  split at h
  · exact nomatch h
  · rename_i hb; exact ⟨hb, (Option.some.inj h).symm⟩

/-- **C48** With a non-negative discriminant, and unless `c = 0` and `b ≥ 0`, the two numbers
returned are the two roots (with multiplicity). -/
theorem C48_roots_partial {b c : ℝ} (hd : 0 ≤ b * b - 4 * c) (hc : b < 0 ∨ c ≠ 0) :
    ∃ r s, root2real b c = (true, some r, some s) ∧ ∀ x, x ^ 2 + b * x + c = (x - r) * (x - s) := by
  set y := Real.sqrt (b * b - 4 * c) with hy
  have hyy : y * y = b * b - 4 * c := Real.mul_self_sqrt hd
  have hy0 : 0 ≤ y := Real.sqrt_nonneg _
  unfold root2real
  simp only
  rw [if_neg (not_lt.mpr hd), ← hy]
  split
  · refine ⟨_, _, rfl, fun x => ?_⟩
    linear_combination (1 / 4) * hyy
  · rename_i hb
    have hb : 0 ≤ b := not_lt.mp hb
    have hc : c ≠ 0 := hc.resolve_left (not_lt.mpr hb)
    have h1 : -b + y ≠ 0 := by
      intro h
      apply hc
      have : y = b := by linarith
      rw [this] at hyy
      linarith
    have h2 : -b - y ≠ 0 := by
      intro h
      have e1 : y = 0 := by linarith
      have e2 : b = 0 := by linarith
      rw [e1, e2] at hyy
      apply hc
      linarith
    rw [cdiv_of_ne h1, cdiv_of_ne h2]
    refine ⟨_, _, rfl, fun x => ?_⟩
    have e1 : 2 * c / (-b + y) = (-b - y) / 2 := by
      rw [div_eq_div_iff h1 two_ne_zero]; linear_combination hyy
    have e2 : 2 * c / (-b - y) = (-b + y) / 2 := by
      rw [div_eq_div_iff h2 two_ne_zero]; linear_combination hyy
    rw [e1, e2]
    linear_combination (1 / 4) * hyy

/-- **C48** A negative discriminant is reported, and then there is no real root. -/
theorem C48_no_real_root (b c : ℝ) :
    (root2real b c).1 = false ↔ ∀ x : ℝ, x ^ 2 + b * x + c ≠ 0 := by
  constructor
  · intro h x
    unfold root2real at h
    simp only at h
    split at h
    · rename_i hd
      nlinarith [sq_nonneg (2 * x + b)]
    · split at h <;> exact nomatch h
  · intro h
    unfold root2real
    simp only
    by_cases hd : b * b - 4 * c < 0
    · rw [if_pos hd]
    · exfalso
      have hd := not_lt.mp hd
      apply h ((-b + Real.sqrt (b * b - 4 * c)) / 2)
      have := Real.mul_self_sqrt hd
      linear_combination (1 / 4) * this

/-- **C48** (the full claim is false) For `c = 0` and `b ≥ 0` the root 0 is computed as 0/0. -/
theorem C48_zero_root_lost {b : ℝ} (hb : 0 ≤ b) : root2real b 0 =
    (true, none, if b = 0 then none else some 0) := by
  unfold root2real
  simp only [mul_zero, sub_zero]
  rw [if_neg (not_lt.mpr (mul_self_nonneg b)), if_neg (not_lt.mpr hb), Real.sqrt_mul_self hb]
  congr 2
  · simp [cdiv]
  · unfold cdiv
    by_cases h : b = 0
    · simp [h]
    · rw [if_neg, if_neg h]
      · simp
      · intro e; apply h; linarith

/-- **C48** A positive root is always returned. -/
theorem C48_positive_root {b c x : ℝ} (hx : 0 < x) (h : x ^ 2 + b * x + c = 0) :
    (root2real b c).2.1 = some x ∨ (root2real b c).2.2 = some x := by
  have hd : 0 ≤ b * b - 4 * c := by nlinarith [sq_nonneg (2 * x + b)]
  have hc : b < 0 ∨ c ≠ 0 := by
    by_contra hh
    push Not at hh
    obtain ⟨h1, h2⟩ := hh
    rw [h2] at h
    have := mul_nonneg h1 hx.le
    have := pow_pos hx 2
    linarith
  obtain ⟨r, s, e, hr⟩ := C48_roots_partial hd hc
  have := hr x
  rw [h] at this
  rw [e]
  rcases mul_eq_zero.mp this.symm with h1 | h1
  · left; simp only; congr 1; linarith
  · right; simp only; congr 1; linarith

/-- Whatever numbers are returned with a non-negative discriminant are roots. -/
theorem root2real_sound {b c r : ℝ} (hd : 0 ≤ b * b - 4 * c)
    (h : (root2real b c).2.1 = some r ∨ (root2real b c).2.2 = some r) : r ^ 2 + b * r + c = 0 := by
  by_cases hc : b < 0 ∨ c ≠ 0
  · obtain ⟨u, v, e, hr⟩ := C48_roots_partial hd hc
    rw [e] at h
    rw [hr r]
    rcases h with h | h <;> (have := Option.some.inj h; subst this; ring)
  · push Not at hc
    obtain ⟨hb, rfl⟩ := hc
    rw [C48_zero_root_lost hb] at h
    simp only at h
    rcases h with h | h
    · exact nomatch h
    · split at h
      · exact nomatch h
      · rw [← Option.some.inj h]; ring

/-- Both cases occur. -/
example : root2real 0 (-1) = (true, some (-1), some 1) := by
  have h : Real.sqrt (0 * 0 - 4 * -1) = 2 := by
    rw [show (0 * 0 - 4 * -1 : ℝ) = 2 * 2 by norm_num]
    exact Real.sqrt_mul_self (by norm_num)
  unfold root2real
  simp only [h]
  norm_num [cdiv]

/-! ## C49 -/

/-- The quadratic form of a step. -/
def Tri.form (k : Tri) (d : V3 ℝ) : V3 ℝ :=
  ⟨d.x ^ 2 + d.y ^ 2 - 2 * k.c12 * (d.x * d.y), d.x ^ 2 + d.z ^ 2 - 2 * k.c31 * (d.x * d.z),
    d.y ^ 2 + d.z ^ 2 - 2 * k.c23 * (d.y * d.z)⟩

/-- **C49** A step is an exact Newton step: the first order part of the residual vanishes, what is
left is the quadratic part of the step. -/
theorem C49_newton_step {k : Tri} {l l' : V3 ℝ} (h : k.gaussStep l = some l') :
    k.residual l' = k.form (l.sub l') := by
  unfold Tri.gaussStep at h
  simp only at h
  obtain ⟨det, h1, h2⟩ := Option.bind_eq_some_iff.mp h
  obtain ⟨hne, hdet⟩ := cdiv_some h1
  have h2 := Option.some.inj h2
  generalize hD : -(2 * l.x + k.b12 * l.y) * (2 * l.z + k.b13 * l.x) * (2 * l.y + k.b23 * l.z) -
    (2 * l.y + k.b12 * l.x) * (2 * l.x + k.b13 * l.z) * (2 * l.z + k.b23 * l.y) = D at hne hdet
  have hdD : det * D = 1 := by rw [hdet]; field_simp
  -- the step
  generalize hr : k.residual l = r at h2
  set j : V3 ℝ := V3.smul det (M3.mulVec ⟨-(2 * l.z + k.b13 * l.x) * (2 * l.y + k.b23 * l.z),
    -(2 * l.y + k.b12 * l.x) * (2 * l.z + k.b23 * l.y),
    (2 * l.y + k.b12 * l.x) * (2 * l.z + k.b13 * l.x),
    -(2 * l.x + k.b13 * l.z) * (2 * l.z + k.b23 * l.y),
    (2 * l.x + k.b12 * l.y) * (2 * l.z + k.b23 * l.y),
    -(2 * l.x + k.b12 * l.y) * (2 * l.z + k.b13 * l.x),
    (2 * l.x + k.b13 * l.z) * (2 * l.y + k.b23 * l.z),
    -(2 * l.x + k.b12 * l.y) * (2 * l.y + k.b23 * l.z),
    -(2 * l.y + k.b12 * l.x) * (2 * l.x + k.b13 * l.z)⟩ r) with hj
  have hl : l = l'.add j := by
    rw [← h2]; lin3
  have hs : l.sub l' = j := by
    rw [← h2]; lin3
  rw [hs]
  -- the linear system solved by the step
  have s1 : (2 * l.x + k.b12 * l.y) * j.x + (2 * l.y + k.b12 * l.x) * j.y = r.x := by
    rw [hj]; simp only [lin]; rw [← hD] at hdD; linear_combination r.x * hdD
  have s2 : (2 * l.x + k.b13 * l.z) * j.x + (2 * l.z + k.b13 * l.x) * j.z = r.y := by
    rw [hj]; simp only [lin]; rw [← hD] at hdD; linear_combination r.y * hdD
  have s3 : (2 * l.y + k.b23 * l.z) * j.y + (2 * l.z + k.b23 * l.y) * j.z = r.z := by
    rw [hj]; simp only [lin]; rw [← hD] at hdD; linear_combination r.z * hdD
  have e : l' = l.sub j := by rw [← h2]
  clear_value j
  rw [e]
  subst hr
  simp only [Tri.residual, Tri.form, lin, Tri.b12, Tri.b13, Tri.b23] at s1 s2 s3 ⊢
  ext
  · simp only; linear_combination -s1
  · simp only; linear_combination -s2
  · simp only; linear_combination -s3

theorem l1Norm_residual (k : Tri) (l : V3 ℝ) : l1Norm (k.residual l) = k.misfit l := by
  unfold l1Norm Tri.residual Tri.misfit Tri.b12 Tri.b13 Tri.b23
  simp only
  congr 1
  · congr 1
    · congr 1; ring
    · congr 1; ring
  · congr 1; ring

/-- **C49** Whatever the number of iterations, if no step divides by zero the total misfit of the result
is at most the initial one. (When a step divides by zero the code continues with infinities or NaN:
that case is the `none` of the model.) -/
theorem C49_refine_partial (k : Tri) : ∀ (n : Nat) (l l' : V3 ℝ), k.refine n l = some l' →
    k.misfit l' ≤ k.misfit l := by
  intro n
  simp only [← l1Norm_residual]
  induction n with
  | zero =>
    intro l l' h
    simp only [Tri.refine, Option.some.injEq] at h
    rw [h]
  | succ n ih =>
    intro l l' h
    rw [Tri.refine] at h
    split at h
    · rw [Option.some.inj h]
    · split at h
      · exact nomatch h
      · split at h
        · rw [Option.some.inj h]
        · rename_i l2 _ hle
          exact (ih _ _ h).trans (not_lt.mp hle)

theorem residual_zero_iff {k : Tri} {l : V3 ℝ} : k.residual l = V3.zero ↔ k.Fits l := by
  unfold Tri.residual Tri.b12 Tri.b13 Tri.b23
  constructor
  · intro h
    rw [V3.ext_iff] at h
    simp only [lin] at h
    exact ⟨by linear_combination h.1, by linear_combination h.2.1, by linear_combination h.2.2⟩
  · rintro ⟨h1, h2, h3⟩
    ext
    · simp only [lin]; linear_combination h1
    · simp only [lin]; linear_combination h2
    · simp only [lin]; linear_combination h3

/-- **C49** Exact depths are returned unchanged. -/
theorem C49_exact_unchanged {k : Tri} {l : V3 ℝ} (h : k.Fits l) (n : Nat) :
    k.refine n l = some l := by
  have hz := residual_zero_iff.mpr h
  cases n with
  | zero => rfl
  | succ n =>
    rw [Tri.refine, hz, if_pos]
    simp [l1Norm, V3.zero]

/-! ## C47 -/

theorem frame_det (a b : V3 ℝ) : (frame a b).det = (a.cross b).normSq := by
  simp only [lin]; ring

theorem normSq_eq_zero {v : V3 ℝ} (h : v.normSq = 0) : v = V3.zero := by
  simp only [lin] at h
  have h1 := mul_self_nonneg v.x
  have h2 := mul_self_nonneg v.y
  have h3 := mul_self_nonneg v.z
  ext
  · exact mul_self_eq_zero.mp (by linarith)
  · exact mul_self_eq_zero.mp (by linarith)
  · exact mul_self_eq_zero.mp (by linarith)

/-- **C47** The matrix of the world points is inverted exactly if they are not collinear. -/
theorem C47_inverse_exists (x1 x2 x3 : V3 ℝ) :
    tryInverse (frame (x1.sub x2) (x1.sub x3)) = none ↔ Collinear x1 x2 x3 := by
  unfold tryInverse Collinear
  rw [frame_det]
  constructor
  · intro h
    split at h
    · rename_i h0; exact normSq_eq_zero h0
    · exact nomatch h
  · intro h
    rw [if_pos]
    rw [h]; simp [lin]

theorem tryInverse_spec {A B : M3 ℝ} (h : tryInverse A = some B) :
    A.det ≠ 0 ∧ A.mul B = M3.one ∧ B.mul A = M3.one := by
  unfold tryInverse at h
  split at h
  · exact nomatch h
  · rename_i hd
    have h := Option.some.inj h
    refine ⟨hd, ?_, ?_⟩
    · have e : A.det * (1 / A.det) = 1 := by field_simp
      generalize 1 / A.det = q at h e
      subst h
      ext <;> simp only [lin] at e ⊢ <;> first | linear_combination e | ring
    · have e : A.det * (1 / A.det) = 1 := by field_simp
      generalize 1 / A.det = q at h e
      subst h
      ext <;> simp only [lin] at e ⊢ <;> first | linear_combination e | ring

theorem M3.mul_assoc' (A B C : M3 ℝ) : (A.mul B).mul C = A.mul (B.mul C) := by lin3

/-- **C47** Given depths that fit and points that are not collinear, the recovered pose is a proper
rotation and a translation, and maps each world point to its bearing at its depth. -/
theorem C47_pose_recovery {x1 x2 x3 y1 y2 y3 l : V3 ℝ} {xinv : M3 ℝ}
    (h1 : y1.normSq = 1) (h2 : y2.normSq = 1) (h3 : y3.normSq = 1)
    (hx : tryInverse (frame (x1.sub x2) (x1.sub x3)) = some xinv)
    (hl : (Tri.of x1 x2 x3 y1 y2 y3).Fits l) :
    (recoverPose xinv x1 y1 y2 y3 l).rot.IsRot ∧
      Sees (recoverPose xinv x1 y1 y2 y3 l) x1 y1 l.x ∧
      Sees (recoverPose xinv x1 y1 y2 y3 l) x2 y2 l.y ∧
      Sees (recoverPose xinv x1 y1 y2 y3 l) x3 y3 l.z := by
  obtain ⟨hd, hX, hX'⟩ := tryInverse_spec hx
  obtain ⟨s12, s13, s23⟩ := hl
  -- the same inner products on both sides
  set u := x1.sub x2 with hu
  set v := x1.sub x3 with hv
  set p := (V3.smul l.x y1).sub (V3.smul l.y y2) with hp
  set q := (V3.smul l.x y1).sub (V3.smul l.z y3) with hq
  have g11 : p.dot p = u.dot u := by
    simp only [Tri.of, lin, hp, hu] at s12 h1 h2 ⊢
    linear_combination s12 + l.x ^ 2 * h1 + l.y ^ 2 * h2
  have g22 : q.dot q = v.dot v := by
    simp only [Tri.of, lin, hq, hv] at s13 h1 h3 ⊢
    linear_combination s13 + l.x ^ 2 * h1 + l.z ^ 2 * h3
  have g12 : p.dot q = u.dot v := by
    simp only [Tri.of, lin, hp, hq, hu, hv] at s12 s13 s23 h1 h2 h3 ⊢
    linear_combination (1 / 2) * (s12 + s13 - s23) + l.x ^ 2 * h1
  have hgram : (frame p q).transpose.mul (frame p q) = (frame u v).transpose.mul (frame u v) := by
    have hcc : ∀ a b : V3 ℝ, (a.cross b).dot (a.cross b) = a.dot a * b.dot b - a.dot b * a.dot b := by
      intro a b; simp only [lin]; ring
    have hac : ∀ a b : V3 ℝ, a.dot (a.cross b) = 0 := by intro a b; simp only [lin]; ring
    have hbc : ∀ a b : V3 ℝ, b.dot (a.cross b) = 0 := by intro a b; simp only [lin]; ring
    have hm : ∀ a b : V3 ℝ, (frame a b).transpose.mul (frame a b) =
        ⟨a.dot a, a.dot b, a.dot (a.cross b), a.dot b, b.dot b, b.dot (a.cross b),
          a.dot (a.cross b), b.dot (a.cross b), (a.cross b).dot (a.cross b)⟩ := by
      intro a b; lin3
    rw [hm, hm, hcc, hcc, hac, hac, hbc, hbc, g11, g22, g12]
  have hrot : (recoverPose xinv x1 y1 y2 y3 l).rot = (frame p q).mul xinv := rfl
  have hRX : ((frame p q).mul xinv).mul (frame u v) = frame p q := by
    rw [M3.mul_assoc', hX']; lin3
  have hRu : ((frame p q).mul xinv).mulVec u = p := by
    have := congrArg M3.col1 hRX
    have e : ∀ R : M3 ℝ, (R.mul (frame u v)).col1 = R.mulVec u := by intro R; lin3
    rw [e] at this
    rw [this]; lin3
  have hRv : ((frame p q).mul xinv).mulVec v = q := by
    have := congrArg M3.col2 hRX
    have e : ∀ R : M3 ℝ, (R.mul (frame u v)).col2 = R.mulVec v := by intro R; lin3
    rw [e] at this
    rw [this]; lin3
  refine ⟨?_, ?_, ?_, ?_⟩
  · rw [hrot]
    constructor
    · have e : ((frame p q).mul xinv).transpose.mul ((frame p q).mul xinv) =
          (xinv.transpose.mul ((frame p q).transpose.mul (frame p q))).mul xinv := by lin3
      have e2 : (xinv.transpose.mul ((frame u v).transpose.mul (frame u v))).mul xinv =
          ((frame u v).mul xinv).transpose.mul ((frame u v).mul xinv) := by lin3
      rw [e, hgram, e2, hX]
      lin3
    · have hdm : ∀ A B : M3 ℝ, (A.mul B).det = A.det * B.det := by
        intro A B; simp only [lin]; ring
      have hdet : (frame p q).det = (frame u v).det := by
        rw [frame_det, frame_det]
        have hn : ∀ a b : V3 ℝ, (a.cross b).normSq = a.dot a * b.dot b - a.dot b * a.dot b := by
          intro a b; simp only [lin]; ring
        rw [hn, hn, g11, g22, g12]
      rw [hdm, hdet, ← hdm, hX]
      simp [lin]
  · unfold Sees recoverPose
    lin3
  · have e : (recoverPose xinv x1 y1 y2 y3 l).point x2 =
        (V3.smul l.x y1).sub (((frame p q).mul xinv).mulVec u) := by
      show ((((frame p q).mul xinv).mulVec x2).add
        ((V3.smul l.x y1).sub (((frame p q).mul xinv).mulVec x1))) = _
      generalize (frame p q).mul xinv = R
      rw [hu]; lin3
    unfold Sees
    rw [e, hRu, hp]; lin3
  · have e : (recoverPose xinv x1 y1 y2 y3 l).point x3 =
        (V3.smul l.x y1).sub (((frame p q).mul xinv).mulVec v) := by
      show ((((frame p q).mul xinv).mulVec x3).add
        ((V3.smul l.x y1).sub (((frame p q).mul xinv).mulVec x1))) = _
      generalize (frame p q).mul xinv = R
      rw [hv]; lin3
    unfold Sees
    rw [e, hRv, hq]; lin3

end Verif.Geo.P3P
