import Verif.Props.TriangulateOptimal

/-!
# C53: the epipolar loss
-/

namespace Verif.Geo

open Real

/-- The residual of the loss, written once: the volume of the three vectors over the larger area. -/
theorem loss_eq {t a b : V3 ℝ} (h : a.cross t ≠ V3.zero ∨ b.cross t ≠ V3.zero) (hab : 0 ≤ a.dot b) :
    epipolarLoss t a b = |t.dot (a.cross b)| / max (a.cross t).norm (b.cross t).norm := by
  have e1 : |a.dot (b.cross t)| = |t.dot (a.cross b)| := by congr 1; simp only [lin]; ring
  have e2 : |b.dot (a.cross t)| = |t.dot (a.cross b)| := by
    rw [← abs_neg]; congr 1; simp only [lin]; ring
  unfold epipolarLoss
  simp only
  by_cases hlt : (a.cross t).normSq < (b.cross t).normSq
  · rw [if_pos hlt]
    have hle : (a.cross t).norm ≤ (b.cross t).norm := Real.sqrt_le_sqrt hlt.le
    have h0 : √(b.cross t).normSq ≠ 0 :=
      (Real.sqrt_pos.mpr ((V3.normSq_nonneg _).trans_lt hlt)).ne'
    have hpos : 0 < (b.cross t).norm := lt_of_le_of_ne (V3.norm_nonneg _) (Ne.symm h0)
    rw [P3P.cdiv_of_ne h0, Option.map_some, max_eq_right hle]
    simp only [if_neg (not_lt.mpr hab)]
    rw [V3.dot_smul, abs_mul, e1]
    change |1 / (b.cross t).norm| * _ = _
    rw [abs_of_pos (div_pos one_pos hpos)]
    ring
  · rw [if_neg hlt]
    have hle : (b.cross t).norm ≤ (a.cross t).norm := Real.sqrt_le_sqrt (not_lt.mp hlt)
    have ha : a.cross t ≠ V3.zero := by
      intro e
      rcases h with h | h
      · exact h e
      · rw [V3.norm_eq_zero.mpr e] at hle
        exact h (V3.norm_eq_zero.mp (le_antisymm hle (V3.norm_nonneg _)))
    have hpos := V3.norm_pos ha
    have h0 : √(a.cross t).normSq ≠ 0 := hpos.ne'
    rw [P3P.cdiv_of_ne h0, Option.map_some, max_eq_left hle]
    simp only [if_neg (not_lt.mpr hab)]
    rw [V3.dot_smul, abs_mul, e2]
    change |1 / (a.cross t).norm| * _ = _
    rw [abs_of_pos (div_pos one_pos hpos)]
    ring

/-- **C53** Degenerate input and rays more than a right angle apart have loss one. -/
theorem C53_loss_one (t a b : V3 ℝ) :
    (a.dot b < 0 → epipolarLoss t a b = 1) ∧
    (a.cross t = V3.zero → b.cross t = V3.zero → epipolarLoss t a b = 1) := by
  constructor
  · intro h
    unfold epipolarLoss
    simp only
    split
    · rfl
    · rw [if_pos h]
  · intro h1 h2
    unfold epipolarLoss cdiv
    have : (V3.zero : V3 ℝ).normSq = 0 := by simp only [lin]; ring
    simp [h1, h2, this]

theorem abs_dot_le_norm (a b : V3 ℝ) (ha : a.normSq = 1) : |a.dot b| ≤ b.norm := by
  apply abs_le_of_sq_le_sq _ (V3.norm_nonneg _)
  have := cauchy_schwarz a b
  rw [ha] at this
  rw [sq, sq, V3.norm_mul_self]
  linarith

/-- **C53** The loss is between zero and one. -/
theorem C53_loss_bounded {t a b : V3 ℝ} (hb : b.normSq = 1) :
    0 ≤ epipolarLoss t a b ∧ epipolarLoss t a b ≤ 1 := by
  rcases lt_or_ge (a.dot b) 0 with hab | hab
  · rw [(C53_loss_one t a b).1 hab]; norm_num
  by_cases h : a.cross t ≠ V3.zero ∨ b.cross t ≠ V3.zero
  · rw [loss_eq h hab]
    have hpos : 0 < max (a.cross t).norm (b.cross t).norm := by
      rcases h with h | h
      · exact lt_max_of_lt_left (V3.norm_pos h)
      · exact lt_max_of_lt_right (V3.norm_pos h)
    refine ⟨div_nonneg (abs_nonneg _) hpos.le, ?_⟩
    rw [div_le_one hpos]
    have e2 : |b.dot (a.cross t)| = |t.dot (a.cross b)| := by
      rw [← abs_neg]; congr 1; simp only [lin]; ring
    rw [← e2]
    exact (abs_dot_le_norm b _ hb).trans (le_max_left _ _)
  · push Not at h
    rw [(C53_loss_one t a b).2 h.1 h.2]; norm_num

/-- **C53** The loss does not depend on the length or the sign of the translation. -/
theorem C53_loss_scale {s : ℝ} (hs : s ≠ 0) (t a b : V3 ℝ) :
    epipolarLoss (V3.smul s t) a b = epipolarLoss t a b := by
  rcases lt_or_ge (a.dot b) 0 with hab | hab
  · rw [(C53_loss_one _ a b).1 hab, (C53_loss_one _ a b).1 hab]
  have ec : ∀ v : V3 ℝ, v.cross (V3.smul s t) = V3.smul s (v.cross t) := by intro v; lin3
  have ez : ∀ v : V3 ℝ, v.cross (V3.smul s t) = V3.zero ↔ v.cross t = V3.zero := by
    intro v
    rw [← V3.norm_eq_zero, ec, V3.norm_smul, mul_eq_zero, V3.norm_eq_zero]
    exact ⟨fun h => h.resolve_left (abs_ne_zero.mpr hs), Or.inr⟩
  by_cases h : a.cross t ≠ V3.zero ∨ b.cross t ≠ V3.zero
  · have h' : a.cross (V3.smul s t) ≠ V3.zero ∨ b.cross (V3.smul s t) ≠ V3.zero := by
      rw [ne_eq, ne_eq, ez, ez]; exact h
    rw [loss_eq h hab, loss_eq h' hab, ec, ec, V3.norm_smul, V3.norm_smul, V3.smul_dot, abs_mul,
      ← mul_max_of_nonneg _ _ (abs_nonneg s), mul_div_mul_left _ _ (abs_ne_zero.mpr hs)]
  · push Not at h
    rw [(C53_loss_one t a b).2 h.1 h.2, (C53_loss_one _ a b).2 ((ez a).mpr h.1) ((ez b).mpr h.2)]

/-- **C53** With rays at most a right angle apart, the loss is zero exactly if the rays are coplanar with
the translation (and not both along it). -/
theorem C53_loss_zero_iff {t a b : V3 ℝ} (hab : 0 ≤ a.dot b) :
    epipolarLoss t a b = 0 ↔
      t.dot (a.cross b) = 0 ∧ (a.cross t ≠ V3.zero ∨ b.cross t ≠ V3.zero) := by
  by_cases h : a.cross t ≠ V3.zero ∨ b.cross t ≠ V3.zero
  · have hpos : 0 < max (a.cross t).norm (b.cross t).norm := by
      rcases h with h | h
      · exact lt_max_of_lt_left (V3.norm_pos h)
      · exact lt_max_of_lt_right (V3.norm_pos h)
    rw [loss_eq h hab, div_eq_zero_iff, abs_eq_zero]
    simp [hpos.ne', h]
  · simp only [h, and_false, iff_false]
    push Not at h
    rw [(C53_loss_one t a b).2 h.1 h.2]
    norm_num

/-- **C53** (partial) Exact geometry of a point in front of both cameras has loss zero, if the rays are
at most a right angle apart. (The property asks for zero always; see `C53_wide_angle`.) -/
theorem C53_exact_partial {pose : Iso ℝ} (hp : pose.Rigid) {a b x : V3 ℝ} (ha : Looks Iso.one a x)
    (hb : Looks pose b x) (hn : a.cross (pose.inv.rot.mulVec b) ≠ V3.zero)
    (hab : 0 ≤ a.dot (pose.inv.rot.mulVec b)) :
    epipolarLoss pose.inv.t a (pose.inv.rot.mulVec b) = 0 := by
  obtain ⟨l, hl, m, hm, ha1, hb1, hx, ht⟩ := rays_of_looks hp ha hb
  rw [C53_loss_zero_iff hab]
  constructor
  · rw [ht]; simp only [lin]; ring
  · left
    intro e
    apply hn
    have : V3.smul (-m) (a.cross (pose.inv.rot.mulVec b)) = a.cross pose.inv.t := by
      rw [ht]; lin3
    rw [e, ← V3.norm_eq_zero, V3.norm_smul, mul_eq_zero] at this
    rcases this with h | h
    · exact absurd h (abs_ne_zero.mpr (neg_ne_zero.mpr hm.ne'))
    · exact V3.norm_eq_zero.mp h

/-- **C53** The loss of an exact forward geometry can be one. -/
theorem C53_wide_angle : ∃ (pose : Iso ℝ) (a b x : V3 ℝ), pose.Rigid ∧ Looks Iso.one a x ∧
    Looks pose b x ∧ 0 < x.z ∧ 0 < (pose.point x).z ∧
    epipolarLoss pose.inv.t a (pose.inv.rot.mulVec b) = 1 := by
  refine ⟨⟨M3.one, ⟨-8, 0, 0⟩⟩, ⟨4 / 5, 0, 3 / 5⟩, ⟨-4 / 5, 0, 3 / 5⟩, ⟨4, 0, 3⟩, M3.IsRot.one,
    ⟨by simp only [lin]; norm_num, 5, by norm_num, by ext <;> simp only [lin] <;> norm_num⟩,
    ⟨by simp only [lin]; norm_num, 5, by norm_num, by ext <;> simp only [lin] <;> norm_num⟩,
    by norm_num, by simp only [lin]; norm_num, (C53_loss_one _ _ _).1 ?_⟩
  simp only [lin]; norm_num

/-- **C53** The loss is the sine of the smallest sum of angles by which the two bearings can be turned
to become coplanar with the translation. -/
theorem C53_loss_is_distance {t a b a' b' : V3 ℝ} (ha : a.normSq = 1) (hb : b.normSq = 1)
    (hab : 0 ≤ a.dot b) (h : correctL1 t a b = some (a', b')) :
    epipolarLoss t a b = sin (arccos (a.dot a') + arccos (b.dot b')) := by
  unfold correctL1 at h
  simp only at h
  split at h
  · rename_i hlt
    simp only [Option.bind_eq_bind, Option.bind_eq_some_iff] at h
    obtain ⟨n, hn, a'', ha'', he⟩ := h
    simp only [Option.pure_def, Option.some.injEq, Prod.mk.injEq] at he
    obtain ⟨rfl, rfl⟩ := he
    obtain ⟨hb0, rfl⟩ := normalize_some hn
    obtain ⟨_, _, h3⟩ := plane_angle_eq ha (V3.normalize_normSq hb0) ha''
    have hle := abs_dot_le ha (V3.normalize_normSq hb0)
    rw [h3, arccos_self hb, add_zero, sin_arcsin (by linarith [abs_nonneg (a.dot (V3.smul (1 / (b.cross t).norm) (b.cross t)))]) hle,
      loss_eq (Or.inr hb0) hab, max_eq_right hlt.le, V3.dot_smul, abs_mul,
      abs_of_pos (div_pos one_pos (V3.norm_pos hb0))]
    rw [show t.dot (a.cross b) = a.dot (b.cross t) by simp only [lin]; ring]
    ring
  · rename_i hlt
    simp only [Option.bind_eq_bind, Option.bind_eq_some_iff] at h
    obtain ⟨n, hn, a'', ha'', he⟩ := h
    simp only [Option.pure_def, Option.some.injEq, Prod.mk.injEq] at he
    obtain ⟨rfl, rfl⟩ := he
    obtain ⟨ha0, rfl⟩ := normalize_some hn
    obtain ⟨_, _, h3⟩ := plane_angle_eq hb (V3.normalize_normSq ha0) ha''
    have hle := abs_dot_le hb (V3.normalize_normSq ha0)
    rw [h3, arccos_self ha, zero_add, sin_arcsin (by linarith [abs_nonneg (b.dot (V3.smul (1 / (a.cross t).norm) (a.cross t)))]) hle,
      loss_eq (Or.inl ha0) hab, max_eq_left (not_lt.mp hlt), V3.dot_smul, abs_mul,
      abs_of_pos (div_pos one_pos (V3.norm_pos ha0))]
    rw [show t.dot (a.cross b) = -b.dot (a.cross t) by simp only [lin]; ring, abs_neg]
    ring

/-- A loss strictly between: the bearings of `C67`'s example. -/
example : epipolarLoss ⟨1, 0, 0⟩ ⟨3 / 5, 0, 4 / 5⟩ ⟨4 / 5, 3 / 5, 0⟩ = 3 / 5 := by
  have h1 : ((⟨3 / 5, 0, 4 / 5⟩ : V3 ℝ).cross ⟨1, 0, 0⟩).norm = 4 / 5 :=
    V3.norm_of_normSq (by norm_num) (by simp only [lin]; norm_num)
  have h2 : ((⟨4 / 5, 3 / 5, 0⟩ : V3 ℝ).cross ⟨1, 0, 0⟩).norm = 3 / 5 :=
    V3.norm_of_normSq (by norm_num) (by simp only [lin]; norm_num)
  rw [loss_eq (Or.inl (fun e => by rw [V3.norm_eq_zero.mpr e] at h1; norm_num at h1))
    (by simp only [lin]; norm_num), h1, h2]
  simp only [lin]
  norm_num

end Verif.Geo
