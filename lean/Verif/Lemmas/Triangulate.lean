import Verif.Spec.Triangulate
import Verif.Lemmas.Pose
import Verif.Props.Pose
import Verif.Props.LambdaTwistBasic
import Mathlib.Tactic.Linarith
import Mathlib.Tactic.FieldSimp

/-!
# Helper lemmas for triangulation
-/

namespace Verif.Geo

theorem normalize_unit {a : V3 ℝ} (h : a.normSq = 1) : a.normalize = some a := by
  have hn : a.norm = 1 := V3.norm_of_normSq zero_le_one (by rw [h]; norm_num)
  unfold V3.normalize
  rw [hn, if_neg one_ne_zero]
  congr 1
  lin3

theorem normalize_of_ne {a : V3 ℝ} (h : a ≠ V3.zero) : a.normalize = some (V3.smul (1 / a.norm) a) := by
  unfold V3.normalize
  rw [if_neg (V3.norm_pos h).ne']

theorem normalize_some {a n : V3 ℝ} (h : a.normalize = some n) :
    a ≠ V3.zero ∧ n = V3.smul (1 / a.norm) a := by
  unfold V3.normalize at h
  split at h
  · simp at h
  · rename_i h0
    refine ⟨fun e => h0 (V3.norm_eq_zero.mpr e), ?_⟩
    simpa using h.symm

theorem ne_zero_of_unit {a : V3 ℝ} (h : a.normSq = 1) : a ≠ V3.zero := by
  intro e
  rw [V3.normSq_eq_zero.mpr e] at h
  norm_num at h

/-- Removing the component along a perpendicular vector does nothing. -/
theorem normalize_sub_perp {a n : V3 ℝ} (ha : a.normSq = 1) (h : a.dot n = 0) :
    (a.sub (V3.smul (a.dot n) n)).normalize = some a := by
  have : a.sub (V3.smul (a.dot n) n) = a := by rw [h]; lin3
  rw [this, normalize_unit ha]

/-- On exact data the L1 correction does nothing. -/
theorem correctL1_exact {t a b : V3 ℝ} (ha : a.normSq = 1) (hb : b.normSq = 1)
    (hc : a.dot (b.cross t) = 0) (hn : a.cross t ≠ V3.zero) : correctL1 t a b = some (a, b) := by
  have hc' : b.dot (a.cross t) = 0 := by
    have : b.dot (a.cross t) = -(a.dot (b.cross t)) := by simp only [lin]; ring
    rw [this, hc, neg_zero]
  have hd : ∀ (v w : V3 ℝ) (s : ℝ), v.dot w = 0 → v.dot (V3.smul s w) = 0 := by
    intro v w s h
    have : v.dot (V3.smul s w) = s * v.dot w := by simp only [lin]; ring
    rw [this, h, mul_zero]
  unfold correctL1
  simp only
  split
  · rename_i hlt
    have hbn : b.cross t ≠ V3.zero := by
      intro e
      rw [V3.norm_eq_zero.mpr e] at hlt
      exact absurd hlt (not_lt.mpr (V3.norm_nonneg _))
    rw [normalize_of_ne hbn]
    simp only [Option.bind_eq_bind, Option.bind_some]
    rw [normalize_sub_perp ha (hd _ _ _ hc)]
    rfl
  · rw [normalize_of_ne hn]
    simp only [Option.bind_eq_bind, Option.bind_some]
    rw [normalize_sub_perp hb (hd _ _ _ hc')]
    rfl

/-- On exact data the L∞ correction does nothing. -/
theorem correctLInf_exact {t a b : V3 ℝ} (ha : a.normSq = 1) (hb : b.normSq = 1)
    (hc : a.dot (b.cross t) = 0) (hn : (a.add b).cross t ≠ V3.zero) :
    correctLInf t a b = some (a, b) := by
  have hd : ∀ (v w : V3 ℝ) (s : ℝ), v.dot w = 0 → v.dot (V3.smul s w) = 0 := by
    intro v w s h
    have : v.dot (V3.smul s w) = s * v.dot w := by simp only [lin]; ring
    rw [this, h, mul_zero]
  have h1 : a.dot ((a.add b).cross t) = 0 := by
    have : a.dot ((a.add b).cross t) = a.dot (b.cross t) := by simp only [lin]; ring
    rw [this, hc]
  have h2 : b.dot ((a.add b).cross t) = 0 := by
    have : b.dot ((a.add b).cross t) = -a.dot (b.cross t) := by simp only [lin]; ring
    rw [this, hc, neg_zero]
  have h3 : a.dot ((a.sub b).cross t) = 0 := by
    have : a.dot ((a.sub b).cross t) = -a.dot (b.cross t) := by simp only [lin]; ring
    rw [this, hc, neg_zero]
  have h4 : b.dot ((a.sub b).cross t) = 0 := by
    have : b.dot ((a.sub b).cross t) = -a.dot (b.cross t) := by simp only [lin]; ring
    rw [this, hc, neg_zero]
  unfold correctLInf
  simp only
  split
  · rw [normalize_of_ne hn]
    simp only [Option.bind_eq_bind, Option.bind_some]
    rw [normalize_sub_perp ha (hd _ _ _ h1), normalize_sub_perp hb (hd _ _ _ h2)]
    rfl
  · rename_i hlt
    have hbn : (a.sub b).cross t ≠ V3.zero := by
      intro e
      apply hlt
      rw [V3.normSq_eq_zero.mpr e]
      exact lt_of_le_of_ne (V3.normSq_nonneg _) (fun e' => hn (V3.normSq_eq_zero.mp e'.symm))
    rw [normalize_of_ne hbn]
    simp only [Option.bind_eq_bind, Option.bind_some]
    rw [normalize_sub_perp ha (hd _ _ _ h3), normalize_sub_perp hb (hd _ _ _ h4)]
    rfl

/-- The intersection, when the two lines do meet at `l b = t + m a`. -/
theorem meet_exact {t a b : V3 ℝ} {l m : ℝ} (hb : b.normSq = 1) (hl : l ≠ 0)
    (ht : t = (V3.smul l b).sub (V3.smul m a)) (hn : b.cross a ≠ V3.zero) :
    meet t a b = if 0 < l ∧ 0 ≤ b.dot a then some ⟨b.x, b.y, b.z, 1 / l⟩ else none := by
  have hz : (b.cross a).normSq ≠ 0 := fun e => hn (V3.normSq_eq_zero.mp e)
  have hden : (b.cross a).dot (t.cross a) = l * (b.cross a).normSq := by
    subst ht; simp only [lin]; ring
  have hw : cdiv (b.cross a).normSq ((b.cross a).dot (t.cross a)) = some (1 / l) := by
    rw [hden, P3P.cdiv_of_ne (mul_ne_zero hl hz)]
    congr 1
    field_simp
  unfold meet
  simp only [Option.bind_eq_bind, hw, Option.bind_some]
  have hbn : b.norm = 1 := V3.norm_of_normSq zero_le_one (by rw [hb]; norm_num)
  have e : (⟨b.x, b.y, b.z, 1 / l⟩ : V4 ℝ).xyz = b := rfl
  rw [fromHomogeneous_eq, e, hbn, if_neg one_ne_zero]
  simp only [Option.bind_some, div_one]
  rcases lt_or_gt_of_ne hl with h | h
  · have hs : sgn (1 / l) = -1 := by
      unfold sgn; rw [if_pos (div_neg_of_pos_of_neg one_pos h)]
    rw [if_neg, if_neg]
    · rintro ⟨h', _⟩; exact absurd h' (not_lt.mpr h.le)
    · rintro ⟨_, h'⟩
      have : (bearing (V4.smul (sgn (1 / l)) ⟨b.x, b.y, b.z, 1 / l⟩)).dot b = -b.normSq := by
        rw [hs]; unfold bearing; simp only [lin]; ring
      rw [this, hb] at h'
      norm_num at h'
  · have hs : sgn (1 / l) = 1 := sgn_of_nonneg (div_pos one_pos h).le
    rw [hs]
    have e1 : V4.smul 1 (⟨b.x, b.y, b.z, 1 / l⟩ : V4 ℝ) = ⟨b.x, b.y, b.z, 1 / l⟩ := by lin3
    rw [e1]
    have e2 : bearing ⟨b.x, b.y, b.z, 1 / l⟩ = b := rfl
    rw [e2, V3.dot_self, hb]
    by_cases hab : 0 ≤ b.dot a
    · rw [if_pos ⟨hab, by norm_num⟩, if_pos ⟨h, hab⟩]
    · rw [if_neg (fun h' => hab h'.1), if_neg (fun h' => hab h'.2)]

/-- A vector in the plane of two independent ones. -/
theorem coplanar_decomp {t a b : V3 ℝ} (hc : t.dot (b.cross a) = 0) (hn : b.cross a ≠ V3.zero) :
    ∃ l m, t = (V3.smul l b).sub (V3.smul m a) := by
  have hz : (b.cross a).normSq ≠ 0 := fun e => hn (V3.normSq_eq_zero.mp e)
  have key : V3.smul (b.cross a).normSq t =
      ((V3.smul ((b.cross a).dot (t.cross a)) b).sub (V3.smul ((b.cross a).dot (t.cross b)) a)).add
        (V3.smul (t.dot (b.cross a)) (b.cross a)) := by lin3
  rw [hc] at key
  refine ⟨(b.cross a).dot (t.cross a) / (b.cross a).normSq,
    (b.cross a).dot (t.cross b) / (b.cross a).normSq, ?_⟩
  have e : t = V3.smul (1 / (b.cross a).normSq) (V3.smul (b.cross a).normSq t) := by
    generalize (b.cross a).normSq = q at hz
    ext <;> simp only [lin] <;> field_simp
  refine e.trans ?_
  rw [key]
  generalize (b.cross a).normSq = q at hz
  ext <;> simp only [V3.smul, V3.sub, V3.add] <;> ring

/-- What a result of `meet` is, for coplanar input. -/
theorem meet_some {t a b : V3 ℝ} {p : V4 ℝ} (hb : b.normSq = 1) (hc : t.dot (b.cross a) = 0)
    (h : meet t a b = some p) :
    ∃ l m, 0 < l ∧ 0 ≤ b.dot a ∧ t = (V3.smul l b).sub (V3.smul m a) ∧
      p = ⟨b.x, b.y, b.z, 1 / l⟩ := by
  have hden : (b.cross a).dot (t.cross a) ≠ 0 := by
    intro e
    unfold meet cdiv at h
    simp [e] at h
  have hn : b.cross a ≠ V3.zero := by
    intro e
    apply hden
    rw [e]; simp only [lin]; ring
  obtain ⟨l, m, ht⟩ := coplanar_decomp hc hn
  have hl : l ≠ 0 := by
    intro e
    apply hden
    subst e ht
    simp only [lin]; ring
  rw [meet_exact hb hl ht hn] at h
  split at h
  · rename_i h'
    exact ⟨l, m, h'.1, h'.2, ht, by simpa using h.symm⟩
  · simp at h

end Verif.Geo
