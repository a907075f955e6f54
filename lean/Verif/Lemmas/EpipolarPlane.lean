import Verif.Lemmas.Triangulate
import Mathlib.Analysis.SpecialFunctions.Trigonometric.Inverse
import Mathlib.Tactic.Linarith
import Mathlib.Tactic.Positivity

/-!
# Angles between bearings and planes
-/

namespace Verif.Geo

open Real

theorem V3.smul_dot {K : Type} [CommRing K] (s : K) (a b : V3 K) : (smul s a).dot b = s * a.dot b := by
  simp only [lin]; ring
theorem V3.dot_smul {K : Type} [CommRing K] (s : K) (a b : V3 K) : a.dot (smul s b) = s * a.dot b := by
  simp only [lin]; ring
theorem V3.sub_dot {K : Type} [CommRing K] (a b c : V3 K) : (a.sub b).dot c = a.dot c - b.dot c := by
  simp only [lin]; ring
theorem V3.dot_sub {K : Type} [CommRing K] (a b c : V3 K) : c.dot (a.sub b) = c.dot a - c.dot b := by
  simp only [lin]; ring

theorem cauchy_schwarz (a b : V3 ℝ) : a.dot b * a.dot b ≤ a.normSq * b.normSq := by
  have := V3.lagrange a b
  have h := V3.normSq_nonneg (a.cross b)
  linarith

theorem reject_normSq {a n : V3 ℝ} (ha : a.normSq = 1) (hn : n.normSq = 1) :
    (a.sub (V3.smul (a.dot n) n)).normSq = 1 - a.dot n * a.dot n := by
  have : (a.sub (V3.smul (a.dot n) n)).normSq =
      a.normSq - 2 * (a.dot n * a.dot n) + a.dot n * a.dot n * n.normSq := by simp only [lin]; ring
  rw [this, ha, hn]; ring

theorem abs_dot_le {a n : V3 ℝ} (ha : a.normSq = 1) (hn : n.normSq = 1) : |a.dot n| ≤ 1 := by
  have := cauchy_schwarz a n
  rw [ha, hn] at this
  exact abs_le_one_iff_mul_self_le_one.mpr (by linarith)

/-- The angle to any vector of a plane is at least the angle to the plane. -/
theorem plane_angle_le {a n c : V3 ℝ} (ha : a.normSq = 1) (hn : n.normSq = 1) (hc : c.normSq = 1)
    (h : c.dot n = 0) : arcsin |a.dot n| ≤ arccos (a.dot c) := by
  rw [arcsin_eq_arccos (abs_nonneg _)]
  apply arccos_le_arccos
  apply le_sqrt_of_sq_le
  have h1 := cauchy_schwarz (a.sub (V3.smul (a.dot n) n)) c
  rw [reject_normSq ha hn, hc, V3.sub_dot, V3.smul_dot, V3.dot_comm n c, h] at h1
  rw [sq_abs]
  nlinarith

/-- The normalised projection on a plane is at the angle to the plane. -/
theorem plane_angle_eq {a n a' : V3 ℝ} (ha : a.normSq = 1) (hn : n.normSq = 1)
    (h : (a.sub (V3.smul (a.dot n) n)).normalize = some a') :
    a'.normSq = 1 ∧ a'.dot n = 0 ∧ arccos (a.dot a') = arcsin |a.dot n| := by
  obtain ⟨h0, rfl⟩ := normalize_some h
  have hns := reject_normSq ha hn
  refine ⟨V3.normalize_normSq h0, ?_, ?_⟩
  · rw [V3.smul_dot, V3.sub_dot, V3.smul_dot, V3.dot_self n, hn]; ring
  · rw [arcsin_eq_arccos (abs_nonneg _), sq_abs]
    congr 1
    have hp := V3.norm_pos h0
    have hsq := V3.norm_mul_self (a.sub (V3.smul (a.dot n) n))
    have hd : a.dot (a.sub (V3.smul (a.dot n) n)) =
        (a.sub (V3.smul (a.dot n) n)).norm * (a.sub (V3.smul (a.dot n) n)).norm := by
      rw [hsq, hns, V3.dot_sub, V3.dot_smul, V3.dot_self, ha]
    rw [V3.dot_smul, hd]
    have : (a.sub (V3.smul (a.dot n) n)).norm = √(1 - a.dot n ^ 2) := by
      unfold V3.norm
      rw [hns, sq]
    rw [← this]
    field_simp

/-- `n` is the unit normal of a plane that contains `t`. -/
def IsNormal (t n : V3 ℝ) : Prop := n.normSq = 1 ∧ t.dot n = 0

theorem gram {t n : V3 ℝ} (h : IsNormal t n) (b : V3 ℝ) :
    b.dot (t.cross n) * b.dot (t.cross n) = (b.cross t).normSq - t.normSq * (b.dot n * b.dot n) := by
  obtain ⟨h1, h2⟩ := h
  have : b.dot (t.cross n) * b.dot (t.cross n) =
      b.normSq * t.normSq * n.normSq + 2 * (b.dot t * t.dot n * b.dot n) -
      b.normSq * (t.dot n * t.dot n) - t.normSq * (b.dot n * b.dot n) -
      n.normSq * (b.dot t * b.dot t) := by simp only [lin]; ring
  rw [this, V3.lagrange, h1, h2]; ring

theorem triple {t n : V3 ℝ} (h : IsNormal t n) (a b : V3 ℝ) :
    a.dot (b.cross t) = a.dot n * b.dot (t.cross n) - a.dot (t.cross n) * b.dot n := by
  obtain ⟨h1, h2⟩ := h
  have : a.dot n * b.dot (t.cross n) - a.dot (t.cross n) * b.dot n =
      n.normSq * a.dot (b.cross t) - t.dot n * (a.cross b).dot n := by simp only [lin]; ring
  rw [this, h1, h2]; ring

theorem cross_normSq_le {b t : V3 ℝ} (hb : b.normSq = 1) : (b.cross t).normSq ≤ t.normSq := by
  rw [V3.lagrange, hb]
  nlinarith [mul_self_nonneg (b.dot t)]

/-- The side of a right triangle on the sphere. -/
theorem side_le {u w q τ : ℝ} (hq : 0 < q) (h : w * w ≤ q * q - τ * (u * u)) (hτ : q * q ≤ τ) :
    |w| / q ≤ √(1 - u ^ 2) := by
  apply le_sqrt_of_sq_le
  rw [div_pow, sq_abs, div_le_iff₀ (by positivity)]
  nlinarith [mul_self_nonneg u, mul_nonneg (sub_nonneg.mpr hτ) (mul_self_nonneg u)]

/-- Moving only `a` into the plane of `b` and `t` is best, if `a` is nearer to `t`. -/
theorem l1_plane {t a b n : V3 ℝ} (ha : a.normSq = 1) (hb : b.normSq = 1) (hn : IsNormal t n)
    (hle : (a.cross t).norm ≤ (b.cross t).norm) (hb0 : b.cross t ≠ V3.zero) :
    arcsin |a.dot (V3.smul (1 / (b.cross t).norm) (b.cross t))| ≤
      arcsin |a.dot n| + arcsin |b.dot n| := by
  have hq := V3.norm_pos hb0
  have hqq := V3.norm_mul_self (b.cross t)
  have hpp := V3.norm_mul_self (a.cross t)
  have hW := side_le (u := b.dot n) (w := b.dot (t.cross n)) (τ := t.normSq) hq
    (by rw [gram hn, hqq]) (by rw [hqq]; exact cross_normSq_le hb)
  have hU := side_le (u := a.dot n) (w := a.dot (t.cross n)) (τ := t.normSq) hq
    (by rw [gram hn, hqq]
        have : (a.cross t).normSq ≤ (b.cross t).normSq := by
          rw [← hqq, ← hpp]
          exact mul_self_le_mul_self (V3.norm_nonneg _) hle
        linarith) (by rw [hqq]; exact cross_normSq_le hb)
  have hu := abs_dot_le ha hn.1
  have hv := abs_dot_le hb hn.1
  have hu0 : 0 ≤ |a.dot n| := abs_nonneg _
  have hv0 : 0 ≤ |b.dot n| := abs_nonneg _
  by_cases hS : π / 2 ≤ arcsin |a.dot n| + arcsin |b.dot n|
  · exact (arcsin_le_pi_div_two _).trans hS
  have hS' := not_le.mp hS
  have hnn : 0 ≤ arcsin |a.dot n| + arcsin |b.dot n| :=
    add_nonneg (arcsin_nonneg.mpr hu0) (arcsin_nonneg.mpr hv0)
  rw [arcsin_le_iff_le_sin' ⟨by linarith [pi_pos], hS'⟩, sin_add,
    sin_arcsin (by linarith) hu, sin_arcsin (by linarith) hv, cos_arcsin, cos_arcsin, sq_abs, sq_abs,
    V3.dot_smul, triple hn, abs_mul, abs_of_pos (div_pos one_pos hq)]
  have htri := abs_sub (a.dot n * b.dot (t.cross n)) (a.dot (t.cross n) * b.dot n)
  rw [abs_mul, abs_mul] at htri
  have h1 : 1 / (b.cross t).norm * |a.dot n * b.dot (t.cross n) - a.dot (t.cross n) * b.dot n| ≤
      1 / (b.cross t).norm * (|a.dot n| * |b.dot (t.cross n)| + |a.dot (t.cross n)| * |b.dot n|) :=
    mul_le_mul_of_nonneg_left htri (div_pos one_pos hq).le
  refine h1.trans ?_
  have e : 1 / (b.cross t).norm * (|a.dot n| * |b.dot (t.cross n)| + |a.dot (t.cross n)| * |b.dot n|) =
      |a.dot n| * (|b.dot (t.cross n)| / (b.cross t).norm) +
        |a.dot (t.cross n)| / (b.cross t).norm * |b.dot n| := by ring
  rw [e]
  exact add_le_add (mul_le_mul_of_nonneg_left hW hu0) (mul_le_mul_of_nonneg_right hU hv0)

/-- The better of the two bisecting planes is best for the larger angle. -/
theorem linf_plane {t a b n c : V3 ℝ} (hn : IsNormal t n) (hc0 : c ≠ V3.zero)
    (hc1 : ((a.add b).cross t).normSq ≤ c.normSq) (hc2 : ((a.sub b).cross t).normSq ≤ c.normSq)
    (hca : |a.dot c| = |a.dot (b.cross t)|) (hcb : |b.dot c| = |a.dot (b.cross t)|) :
    |a.dot (V3.smul (1 / c.norm) c)| ≤ max |a.dot n| |b.dot n| ∧
    |b.dot (V3.smul (1 / c.norm) c)| ≤ max |a.dot n| |b.dot n| := by
  have hq := V3.norm_pos hc0
  have hqq := V3.norm_mul_self c
  have ht0 := V3.normSq_nonneg t
  have hg : ∀ d : V3 ℝ, (d.cross t).normSq ≤ c.normSq → |d.dot (t.cross n)| ≤ c.norm := by
    intro d hd
    apply abs_le_of_sq_le_sq _ hq.le
    have := gram hn d
    nlinarith [mul_nonneg ht0 (mul_self_nonneg (d.dot n))]
  have hsum : |a.dot (t.cross n)| + |b.dot (t.cross n)| ≤ c.norm := by
    have h1 := hg _ hc1
    have h2 := hg _ hc2
    have e1 : (a.add b).dot (t.cross n) = a.dot (t.cross n) + b.dot (t.cross n) := by
      simp only [lin]; ring
    rw [e1] at h1
    rw [V3.sub_dot] at h2
    rcases abs_cases (a.dot (t.cross n)) with ⟨h, _⟩ | ⟨h, _⟩ <;>
    rcases abs_cases (b.dot (t.cross n)) with ⟨h', _⟩ | ⟨h', _⟩ <;> rw [h, h'] <;>
    linarith [abs_le.mp h1, abs_le.mp h2, (abs_le.mp h1).1, (abs_le.mp h1).2, (abs_le.mp h2).1,
      (abs_le.mp h2).2]
  have htri := abs_sub (a.dot n * b.dot (t.cross n)) (a.dot (t.cross n) * b.dot n)
  rw [abs_mul, abs_mul] at htri
  have hM0 : 0 ≤ max |a.dot n| |b.dot n| := le_max_of_le_left (abs_nonneg _)
  have hbound : |a.dot (b.cross t)| ≤ max |a.dot n| |b.dot n| * c.norm := by
    rw [triple hn]
    refine htri.trans ?_
    have h1 : |a.dot n| * |b.dot (t.cross n)| ≤ max |a.dot n| |b.dot n| * |b.dot (t.cross n)| :=
      mul_le_mul_of_nonneg_right (le_max_left _ _) (abs_nonneg _)
    have h2 : |a.dot (t.cross n)| * |b.dot n| ≤ |a.dot (t.cross n)| * max |a.dot n| |b.dot n| :=
      mul_le_mul_of_nonneg_left (le_max_right _ _) (abs_nonneg _)
    nlinarith [mul_le_mul_of_nonneg_left hsum hM0]
  rw [V3.dot_smul, V3.dot_smul, abs_mul, abs_mul, abs_of_pos (div_pos one_pos hq), hca, hcb]
  have : 1 / c.norm * |a.dot (b.cross t)| ≤ max |a.dot n| |b.dot n| := by
    rw [one_div, inv_mul_le_iff₀ hq]
    linarith
  exact ⟨this, this⟩

/-- Two coplanar vectors share a plane through `t`. -/
theorem exists_normal {t a b : V3 ℝ} (ht : t ≠ V3.zero) (h : t.dot (b.cross a) = 0) :
    ∃ n, IsNormal t n ∧ a.dot n = 0 ∧ b.dot n = 0 := by
  have hz : ∀ c : V3 ℝ, c ≠ V3.zero → (t.dot c = 0 ∧ a.dot c = 0 ∧ b.dot c = 0) →
      ∃ n, IsNormal t n ∧ a.dot n = 0 ∧ b.dot n = 0 := by
    rintro c hc ⟨h1, h2, h3⟩
    refine ⟨V3.smul (1 / c.norm) c, ⟨V3.normalize_normSq hc, ?_⟩, ?_, ?_⟩ <;>
      rw [V3.dot_smul] <;> simp [h1, h2, h3]
  by_cases ha : a.cross t = V3.zero
  · by_cases hb : b.cross t = V3.zero
    · -- both along `t`
      have hpar : ∀ d c : V3 ℝ, d.cross t = V3.zero → t.dot c = 0 → d.dot c = 0 := by
        intro d c hd hc
        have htt : t.normSq ≠ 0 := fun e => ht (V3.normSq_eq_zero.mp e)
        have key : t.normSq * d.dot c = t.dot d * t.dot c + (t.cross (d.cross t)).dot c := by
          simp only [lin]; ring
        rw [hd, hc] at key
        have : (t.cross V3.zero).dot c = 0 := by simp only [lin]; ring
        rw [this] at key
        exact (mul_eq_zero.mp (by rw [key]; ring)).resolve_left htt
      by_cases hxy : t.x = 0 ∧ t.y = 0
      · refine hz ⟨1, 0, 0⟩ (fun e => by simpa [V3.zero] using congrArg V3.x e) ?_
        have h0 : t.dot ⟨1, 0, 0⟩ = 0 := by simp only [lin]; linarith [hxy.1]
        exact ⟨h0, hpar _ _ ha h0, hpar _ _ hb h0⟩
      · refine hz ⟨t.y, -t.x, 0⟩ (fun e => hxy ?_) ?_
        · rw [V3.ext_iff] at e
          simp only [V3.zero] at e
          exact ⟨neg_eq_zero.mp e.2.1, e.1⟩
        · have h0 : t.dot ⟨t.y, -t.x, 0⟩ = 0 := by simp only [lin]; ring
          exact ⟨h0, hpar _ _ ha h0, hpar _ _ hb h0⟩
    · exact hz _ hb ⟨V3.dot_cross_right _ _, by
        rw [show a.dot (b.cross t) = -(t.dot (b.cross a)) by simp only [lin]; ring, h, neg_zero],
        V3.dot_cross_left _ _⟩
  · exact hz _ ha ⟨V3.dot_cross_right _ _, V3.dot_cross_left _ _, by
      rw [show b.dot (a.cross t) = t.dot (b.cross a) by simp only [lin]; ring, h]⟩

/-- Two vectors of one plane are coplanar with every vector of it. -/
theorem coplanar_of_normal {t n a b : V3 ℝ} (hn : IsNormal t n) (ha : a.dot n = 0) (hb : b.dot n = 0) :
    t.dot (b.cross a) = 0 := by
  have := triple hn a b
  rw [ha, hb] at this
  rw [show t.dot (b.cross a) = -a.dot (b.cross t) by simp only [lin]; ring, this]
  ring

end Verif.Geo
