import Verif.Props.LambdaTwistBasic

/-!
# Lemmas for the depths of the three point solver
-/

namespace Verif.Geo.P3P

/-- Value of the quadratic form of a matrix. -/
@[lin] def qform (A : M3 ℝ) (v : V3 ℝ) : ℝ := v.dot (A.mulVec v)

namespace Tri

/-- The left hand sides of the three equations. -/
def m12 (k : Tri) (l : V3 ℝ) : ℝ := l.x ^ 2 + l.y ^ 2 - 2 * k.c12 * (l.x * l.y)
def m13 (k : Tri) (l : V3 ℝ) : ℝ := l.x ^ 2 + l.z ^ 2 - 2 * k.c31 * (l.x * l.z)
def m23 (k : Tri) (l : V3 ℝ) : ℝ := l.y ^ 2 + l.z ^ 2 - 2 * k.c23 * (l.y * l.z)

theorem det_d0 (k : Tri) (g : ℝ) :
    (k.d0 g).det = k.a23 * (k.p3 * g ^ 3 + k.p2 * g ^ 2 + k.p1 * g + k.p0) := by
  simp only [d0, lin, p3, p2, p1, p0, s12, s23, s31, blob]; ring

theorem qform_d0 (k : Tri) (g : ℝ) (l : V3 ℝ) :
    qform (k.d0 g) l = k.a23 * k.m12 l - k.a12 * k.m23 l - g * (k.a23 * k.m13 l - k.a13 * k.m23 l) := by
  simp only [d0, lin, m12, m13, m23]; ring

end Tri

/-! ## Singular symmetric matrices -/

/-- Symmetric. -/
structure Sym (x : M3 ℝ) : Prop where
  h21 : x.m21 = x.m12
  h31 : x.m31 = x.m13
  h32 : x.m32 = x.m23

theorem Tri.sym_d0 (k : Tri) (g : ℝ) : Sym (k.d0 g) := ⟨rfl, rfl, rfl⟩

/-- The sum of the principal minors, as the code computes it. -/
@[lin] def minors (x : M3 ℝ) : ℝ :=
  -(x.m12 * x.m12) - x.m13 * x.m13 - x.m23 * x.m23 + x.m11 * (x.m22 + x.m33) + x.m22 * x.m33

theorem normSq_nonneg (v : V3 ℝ) : 0 ≤ v.normSq := by
  simp only [lin]; nlinarith [mul_self_nonneg v.x, mul_self_nonneg v.y, mul_self_nonneg v.z]

theorem normSq_pos {v : V3 ℝ} (h : v ≠ V3.zero) : 0 < v.normSq :=
  lt_of_le_of_ne (normSq_nonneg v) (fun e => h (normSq_eq_zero e.symm))

/-- A singular symmetric matrix with an isotropic vector outside its kernel is not definite. -/
theorem minors_nonpos {x : M3 ℝ} (hs : Sym x) (hd : x.det = 0) {l : V3 ℝ} (hq : qform x l = 0)
    (hk : x.mulVec l ≠ V3.zero) : minors x ≤ 0 := by
  obtain ⟨h21, h31, h32⟩ := hs
  set u := x.mulVec l with hu
  have hpos : 0 < u.normSq := normSq_pos hk
  set n := l.cross u with hn
  have key : minors x * n.dot (x.adj.mulVec n) = (x.adj.mulVec n).normSq +
      x.det * (x.trace * n.normSq - n.dot (x.mulVec n)) := by
    clear_value n
    simp only [lin, h21, h31, h32]; ring
  have h1 : n.dot (x.adj.mulVec n) = qform x l * u.dot (x.mulVec u) - u.normSq ^ 2 := by
    rw [hn, hu]
    simp only [lin, h21, h31, h32]; ring
  rw [hd, h1, hq] at key
  have h2 := normSq_nonneg (x.adj.mulVec n)
  by_contra hc
  push Not at hc
  have := mul_pos hc (pow_pos hpos 2)
  linarith

theorem eigenVector_spec {x : M3 ℝ} (hs : Sym x) (hd : x.det = 0) {e : ℝ} {v : V3 ℝ}
    (he : e ^ 2 - x.trace * e + minors x = 0) (h : eigenVector x e = some v) :
    x.mulVec v = V3.smul e v ∧ v.normSq = 1 := by
  obtain ⟨h21, h31, h32⟩ := hs
  unfold eigenVector at h
  obtain ⟨tmp, ht, h⟩ := Option.bind_eq_some_iff.mp h
  obtain ⟨hne, htmp⟩ := cdiv_some ht
  obtain ⟨rn, hr, h⟩ := Option.bind_eq_some_iff.mp h
  obtain ⟨hne2, hrn⟩ := cdiv_some hr
  have h := (Option.some.inj h).symm
  generalize ha1 : -(e * x.m13 + (x.m12 * x.m23 - x.m13 * x.m22)) * tmp = a1 at h hrn hne2
  generalize ha2 : -(e * x.m23 + (x.m12 * x.m13 - x.m11 * x.m23)) * tmp = a2 at h hrn hne2
  have hm : tmp * (e * (x.m11 + x.m22) + -x.m11 * x.m22 - e * e + x.m12 * x.m12) = 1 := by
    rw [htmp, div_mul_cancel₀ _ hne]
  have hr2 : rn * rn * (a1 * a1 + a2 * a2 + 1) = 1 := by
    have h0 : 0 ≤ a1 * a1 + a2 * a2 + 1 := by nlinarith [mul_self_nonneg a1, mul_self_nonneg a2]
    have := Real.mul_self_sqrt h0
    rw [hrn]
    generalize Real.sqrt (a1 * a1 + a2 * a2 + 1) = q at hne2 this ⊢
    rw [← this]
    field_simp
  have c1 : (x.m11 - e) * a1 + x.m12 * a2 + x.m13 = 0 := by
    rw [← ha1, ← ha2]; linear_combination -x.m13 * hm
  have c2 : x.m12 * a1 + (x.m22 - e) * a2 + x.m23 = 0 := by
    rw [← ha1, ← ha2]; linear_combination -x.m23 * hm
  have c3 : x.m13 * a1 + x.m23 * a2 + (x.m33 - e) = 0 := by
    simp only [lin, h21, h31, h32] at hd he
    rw [← ha1, ← ha2]
    linear_combination -(x.m33 - e) * hm + tmp * (e * he - hd)
  subst h
  refine ⟨?_, ?_⟩
  · ext
    · simp only [lin]; linear_combination rn * c1
    · simp only [lin, h21]; linear_combination rn * c2
    · simp only [lin, h31, h32]; linear_combination rn * c3
  · simp only [lin]; linear_combination hr2

/-- What the decomposition of a singular symmetric matrix gives. -/
structure Eig (x : M3 ℝ) (v1 v2 : V3 ℝ) (e1 e2 : ℝ) : Prop where
  ev1 : x.mulVec v1 = V3.smul e1 v1
  ev2 : x.mulVec v2 = V3.smul e2 v2
  n1 : v1.normSq = 1
  n2 : v2.normSq = 1
  sum : e1 + e2 = x.trace
  prod : e1 * e2 = minors x
  ne : e1 ≠ e2
  order : |e2| ≤ |e1|

theorem eigenSingular_spec {x : M3 ℝ} (hs : Sym x) (hd : x.det = 0) (hm : minors x ≤ 0)
    {v1 v2 : V3 ℝ} {e1 e2 : ℝ} (h : eigenSingular x = some (v1, v2, e1, e2)) :
    Eig x v1 v2 e1 e2 := by
  unfold eigenSingular at h
  set b := -x.m11 - x.m22 - x.m33 with hb
  have hbt : b = -x.trace := by simp only [lin, hb]; ring
  change ((root2real b (minors x)).2.1.bind fun e => (root2real b (minors x)).2.2.bind fun f =>
    (fun p : ℝ × ℝ => (eigenVector x p.1).bind fun v1 => (eigenVector x p.2).bind fun v2 =>
      some (v1, v2, p.1, p.2)) (if |e| < |f| then (f, e) else (e, f))) = _ at h
  have hdisc : 0 ≤ b * b - 4 * minors x := by nlinarith [mul_self_nonneg b]
  have hbc : b < 0 ∨ minors x ≠ 0 := by
    by_contra hh
    push Not at hh
    rw [hh.2, C48_zero_root_lost hh.1] at h
    exact nomatch h
  obtain ⟨r, s, hrs, hf⟩ := C48_roots_partial hdisc hbc
  rw [hrs] at h
  have f0 := hf 0
  have f1 := hf 1
  have hsum : r + s = x.trace := by linear_combination -hbt + f1 - f0
  have hprod : r * s = minors x := by linear_combination -f0
  have hne : r ≠ s := by
    rintro rfl
    have h0 : r * r = 0 := le_antisymm (by rw [hprod]; exact hm) (mul_self_nonneg r)
    have hr : r = 0 := mul_self_eq_zero.mp h0
    rcases hbc with h1 | h1
    · rw [hbt, ← hsum, hr] at h1; simp at h1
    · exact h1 (by rw [← hprod, h0])
  have main : ∀ p q : ℝ, p + q = x.trace → p * q = minors x → p ≠ q → |q| ≤ |p| →
      ((eigenVector x p).bind fun v1 => (eigenVector x q).bind fun v2 => some (v1, v2, p, q)) =
        some (v1, v2, e1, e2) → Eig x v1 v2 e1 e2 := by
    intro p q h1 h2 h3 h4 h
    obtain ⟨w1, hw1, h⟩ := Option.bind_eq_some_iff.mp h
    obtain ⟨w2, hw2, h⟩ := Option.bind_eq_some_iff.mp h
    simp only [Option.some.injEq, Prod.mk.injEq] at h
    obtain ⟨rfl, rfl, rfl, rfl⟩ := h
    obtain ⟨a1, a2⟩ := eigenVector_spec hs hd (by rw [← h1, ← h2]; ring) hw1
    obtain ⟨b1, b2⟩ := eigenVector_spec hs hd (by rw [← h1, ← h2]; ring) hw2
    exact ⟨a1, b1, a2, b2, h1, h2, h3, h4⟩
  by_cases hlt : |r| < |s|
  · simp only [Option.bind_some, if_pos hlt] at h
    exact main s r (by rw [add_comm]; exact hsum) (by rw [mul_comm]; exact hprod) hne.symm hlt.le h
  · simp only [Option.bind_some, if_neg hlt] at h
    exact main r s hsum hprod hne (not_lt.mp hlt) h

/-- The quadratic form in terms of the two eigenvectors. -/
theorem Eig.qform {x : M3 ℝ} (hs : Sym x) {v1 v2 : V3 ℝ} {e1 e2 : ℝ} (h : Eig x v1 v2 e1 e2)
    (l : V3 ℝ) : qform x l = e1 * v1.dot l ^ 2 + e2 * v2.dot l ^ 2 := by
  obtain ⟨h21, h31, h32⟩ := hs
  have hort : v1.dot v2 = 0 := by
    have e : (x.mulVec v1).dot v2 = v1.dot (x.mulVec v2) := by
      simp only [lin, h21, h31, h32]; ring
    rw [h.ev1, h.ev2] at e
    have e' : (e1 - e2) * v1.dot v2 = 0 := by
      simp only [lin] at e ⊢; linear_combination e
    exact (mul_eq_zero.mp e').resolve_left (sub_ne_zero.mpr h.ne)
  set n := v1.cross v2 with hn
  have hQ : (M3.ofCols v1 v2 n).IsRot := by
    have n1 := h.n1
    have n2 := h.n2
    have hnn : n.normSq = 1 := by
      rw [hn]
      have : (v1.cross v2).normSq = v1.normSq * v2.normSq - v1.dot v2 ^ 2 := by
        simp only [lin]; ring
      rw [this, n1, n2, hort]; ring
    have hn1 : v1.dot n = 0 := by rw [hn]; simp only [lin]; ring
    have hn2 : v2.dot n = 0 := by rw [hn]; simp only [lin]; ring
    have hdet : (M3.ofCols v1 v2 n).det = n.normSq := by rw [hn]; simp only [lin]; ring
    refine ⟨?_, by rw [hdet, hnn]⟩
    clear_value n
    simp only [lin] at n1 n2 hort hnn hn1 hn2
    ext <;> simp only [lin] <;> linarith
  have hQ' := M3.IsRot.orth' hQ
  have htr : x.trace = v1.dot (x.mulVec v1) + v2.dot (x.mulVec v2) + n.dot (x.mulVec n) := by
    have e1 : (x.mul ((M3.ofCols v1 v2 n).mul (M3.ofCols v1 v2 n).transpose)).trace =
      v1.dot (x.mulVec v1) + v2.dot (x.mulVec v2) + n.dot (x.mulVec n) := by
      clear_value n
      simp only [lin]; ring
    rw [hQ', M3.mul_one] at e1
    exact e1
  have hnn : n.dot (x.mulVec n) = 0 := by
    have e1' : v1.dot (x.mulVec v1) = e1 := by
      rw [h.ev1]; have := h.n1; simp only [lin] at this ⊢; linear_combination e1 * this
    have e2' : v2.dot (x.mulVec v2) = e2 := by
      rw [h.ev2]; have := h.n2; simp only [lin] at this ⊢; linear_combination e2 * this
    rw [e1', e2', ← h.sum] at htr
    linarith
  have hl : l = ((V3.smul (v1.dot l) v1).add (V3.smul (v2.dot l) v2)).add (V3.smul (n.dot l) n) := by
    have : ((M3.ofCols v1 v2 n).mul (M3.ofCols v1 v2 n).transpose).mulVec l =
        ((V3.smul (v1.dot l) v1).add (V3.smul (v2.dot l) v2)).add (V3.smul (n.dot l) n) := by
      clear_value n
      lin3
    rw [hQ', M3.one_mulVec] at this
    exact this
  generalize hα : v1.dot l = α at hl
  generalize hβ : v2.dot l = β at hl
  generalize n.dot l = γ at hl
  have expand : P3P.qform x (((V3.smul α v1).add (V3.smul β v2)).add (V3.smul γ n)) =
      α ^ 2 * v1.dot (x.mulVec v1) + β ^ 2 * v2.dot (x.mulVec v2) + γ ^ 2 * n.dot (x.mulVec n) +
        2 * (α * β) * v2.dot (x.mulVec v1) + 2 * (α * γ) * n.dot (x.mulVec v1) +
        2 * (β * γ) * n.dot (x.mulVec v2) := by
    clear_value n
    simp only [lin, h21, h31, h32]; ring
  rw [hl, expand, hnn, h.ev1, h.ev2]
  have d1 : v1.dot (V3.smul e1 v1) = e1 := by
    have := h.n1; simp only [lin] at this ⊢; linear_combination e1 * this
  have d2 : v2.dot (V3.smul e2 v2) = e2 := by
    have := h.n2; simp only [lin] at this ⊢; linear_combination e2 * this
  have d3 : v2.dot (V3.smul e1 v1) = 0 := by
    simp only [lin] at hort ⊢; linear_combination e1 * hort
  have d4 : n.dot (V3.smul e1 v1) = 0 := by rw [hn]; simp only [lin]; ring
  have d5 : n.dot (V3.smul e2 v2) = 0 := by rw [hn]; simp only [lin]; ring
  rw [d1, d2, d3, d4, d5]
  ring

end Verif.Geo.P3P
