import Verif.Lemmas.Triangulate

/-!
# C50: two-view triangulation
-/

namespace Verif.Geo

/-- The relations between the two rays, in the frame of the first camera. -/
theorem rays_of_looks {pose : Iso ℝ} (hp : pose.Rigid) {a b x : V3 ℝ} (ha : Looks Iso.one a x)
    (hb : Looks pose b x) : ∃ l > 0, ∃ m > 0, a.normSq = 1 ∧ (pose.inv.rot.mulVec b).normSq = 1 ∧
      x = V3.smul l a ∧ pose.inv.t = (V3.smul l a).sub (V3.smul m (pose.inv.rot.mulVec b)) := by
  obtain ⟨ha1, l, hl, hxa⟩ := ha
  obtain ⟨hb1, m, hm, hxb⟩ := hb
  have hx : x = V3.smul l a := by
    rw [← hxa]; lin3
  refine ⟨l, hl, m, hm, ha1, ?_, hx, ?_⟩
  · rw [M3.IsRot.normSq_mulVec hp.inv, hb1]
  · have h1 : pose.inv.rot.mulVec (V3.smul m b) = x.sub pose.inv.t := by
      rw [← hxb]
      have h2 : pose.inv.rot.mulVec (pose.point x) =
          ((pose.rot.transpose.mul pose.rot).mulVec x).sub pose.inv.t := by lin3
      rw [h2, hp.orth, M3.one_mulVec]
    rw [M3.mulVec_smul] at h1
    rw [← hx, h1]
    lin3

/-- Same direction of the normalised translation. -/
theorem unit_translation {t a b : V3 ℝ} {l m : ℝ} (ht : t = (V3.smul l b).sub (V3.smul m a))
    (hn : b.cross a ≠ V3.zero) (hl : 0 < l) (hm : 0 < m) :
    ∃ n, t.normalize = some n ∧ a.dot (b.cross n) = 0 ∧ a.cross n ≠ V3.zero ∧
      (a.add b).cross n ≠ V3.zero := by
  have ht0 : t ≠ V3.zero := by
    intro e
    apply hn
    have : V3.smul l (b.cross a) = t.cross a := by rw [ht]; lin3
    rw [e] at this
    rw [V3.ext_iff] at this ⊢
    simp only [lin] at this ⊢
    obtain ⟨h1, h2, h3⟩ := this
    refine ⟨?_, ?_, ?_⟩ <;> apply mul_left_cancel₀ hl.ne' <;> linarith
  have hk : (1 / t.norm) ≠ 0 := (div_pos one_pos (V3.norm_pos ht0)).ne'
  refine ⟨_, normalize_of_ne ht0, ?_, ?_, ?_⟩
  · generalize 1 / t.norm = k
    rw [ht]; simp only [lin]; ring
  · generalize 1 / t.norm = k at hk
    intro e
    apply hn
    have : V3.smul (-(k * l)) (b.cross a) = a.cross (V3.smul k t) := by rw [ht]; lin3
    rw [e] at this
    have hkl : -(k * l) ≠ 0 := neg_ne_zero.mpr (mul_ne_zero hk hl.ne')
    rw [V3.ext_iff] at this ⊢
    simp only [V3.smul, V3.zero] at this ⊢
    obtain ⟨h1, h2, h3⟩ := this
    exact ⟨(mul_eq_zero.mp h1).resolve_left hkl, (mul_eq_zero.mp h2).resolve_left hkl,
      (mul_eq_zero.mp h3).resolve_left hkl⟩
  · generalize 1 / t.norm = k at hk
    intro e
    apply hn
    have : V3.smul (-(k * (l + m))) (b.cross a) = (a.add b).cross (V3.smul k t) := by rw [ht]; lin3
    rw [e] at this
    have hkl : -(k * (l + m)) ≠ 0 := neg_ne_zero.mpr (mul_ne_zero hk (by positivity))
    rw [V3.ext_iff] at this ⊢
    simp only [V3.smul, V3.zero] at this ⊢
    obtain ⟨h1, h2, h3⟩ := this
    exact ⟨(mul_eq_zero.mp h1).resolve_left hkl, (mul_eq_zero.mp h2).resolve_left hkl,
      (mul_eq_zero.mp h3).resolve_left hkl⟩

theorem toPoint_ray {a : V3 ℝ} {l : ℝ} (hl : 0 < l) :
    toPoint ⟨a.x, a.y, a.z, 1 / l⟩ = some (V3.smul l a) := by
  unfold toPoint
  have : (1 / l) ≠ 0 := (div_pos one_pos hl).ne'
  simp only [if_neg this, one_div_one_div]
  rfl

/-- **C50** (partial) For exact bearings of a point in front of both cameras and not on the baseline,
both angular triangulators return that point, and return nothing else: nothing if the two rays are
more than a right angle apart, the point otherwise. (The property asks for the point always.) -/
theorem C50_exact_partial {pose : Iso ℝ} (hp : pose.Rigid) {a b x : V3 ℝ} (ha : Looks Iso.one a x)
    (hb : Looks pose b x) (hn : a.cross (pose.inv.rot.mulVec b) ≠ V3.zero) :
    (0 ≤ a.dot (pose.inv.rot.mulVec b) →
      (angularL1 pose a b).bind toPoint = some x ∧ (angularLInf pose a b).bind toPoint = some x) ∧
    (a.dot (pose.inv.rot.mulVec b) < 0 → angularL1 pose a b = none ∧ angularLInf pose a b = none) := by
  obtain ⟨l, hl, m, hm, ha1, hb1, hx, ht⟩ := rays_of_looks hp ha hb
  obtain ⟨n, hn1, hc, hca, hcab⟩ := unit_translation ht hn hl hm
  have h1 : angularL1 pose a b = if 0 < l ∧ 0 ≤ a.dot (pose.inv.rot.mulVec b) then
      some ⟨a.x, a.y, a.z, 1 / l⟩ else none := by
    unfold angularL1
    simp only [Option.bind_eq_bind, hn1, Option.bind_some, correctL1_exact hb1 ha1 hc hca]
    exact meet_exact ha1 hl.ne' ht hn
  have h2 : angularLInf pose a b = if 0 < l ∧ 0 ≤ a.dot (pose.inv.rot.mulVec b) then
      some ⟨a.x, a.y, a.z, 1 / l⟩ else none := by
    unfold angularLInf
    simp only [Option.bind_eq_bind, hn1, Option.bind_some, correctLInf_exact hb1 ha1 hc hcab]
    exact meet_exact ha1 hl.ne' ht hn
  refine ⟨fun h => ?_, fun h => ?_⟩
  · rw [h1, h2, if_pos ⟨hl, h⟩, Option.bind_some, toPoint_ray hl, hx]
    exact ⟨rfl, rfl⟩
  · rw [h1, h2, if_neg (fun h' => absurd h (not_lt.mpr h'.2))]
    exact ⟨rfl, rfl⟩

/-! The cameras look at `(4, 0, 3)` from `(0, 0, 0)` and from `(8, 0, 0)`. -/

/-- **C50** The property as stated is false: a point in front of both cameras is rejected when the
rays are more than a right angle apart. -/
theorem C50_wide_angle_rejected :
    ∃ (pose : Iso ℝ) (a b x : V3 ℝ), pose.Rigid ∧ Looks Iso.one a x ∧ Looks pose b x ∧
      0 < x.z ∧ 0 < (pose.point x).z ∧ a.cross (pose.inv.rot.mulVec b) ≠ V3.zero ∧
      angularL1 pose a b = none ∧ angularLInf pose a b = none := by
  have hp : (⟨M3.one, ⟨-8, 0, 0⟩⟩ : Iso ℝ).Rigid := M3.IsRot.one
  have ha : Looks Iso.one ⟨4 / 5, 0, 3 / 5⟩ ⟨4, 0, 3⟩ :=
    ⟨by simp only [lin]; norm_num, 5, by norm_num, by ext <;> simp only [lin] <;> norm_num⟩
  have hb : Looks ⟨M3.one, ⟨-8, 0, 0⟩⟩ ⟨-4 / 5, 0, 3 / 5⟩ ⟨4, 0, 3⟩ :=
    ⟨by simp only [lin]; norm_num, 5, by norm_num, by ext <;> simp only [lin] <;> norm_num⟩
  have hn : (⟨4 / 5, 0, 3 / 5⟩ : V3 ℝ).cross
      ((⟨M3.one, ⟨-8, 0, 0⟩⟩ : Iso ℝ).inv.rot.mulVec ⟨-4 / 5, 0, 3 / 5⟩) ≠ V3.zero := by
    intro e
    rw [V3.ext_iff] at e
    simp only [lin] at e
    norm_num at e
  exact ⟨_, _, _, _, hp, ha, hb, by norm_num, by simp only [lin]; norm_num, hn,
    (C50_exact_partial hp ha hb hn).2 (by simp only [lin]; norm_num)⟩

/-- **C50** A returned point can be behind the second camera: "checked for cheirality" only compares
directions. Here the rays (as lines) meet at `(0, 0, 1)`, five units behind the second camera. -/
theorem C50_behind_second_camera :
    ∃ (pose : Iso ℝ) (a b x : V3 ℝ), pose.Rigid ∧ b.normSq = 1 ∧ Looks Iso.one a x ∧
      pose.point x = V3.smul (-5) b ∧ 0 < b.z ∧
      (angularL1 pose a b).bind toPoint = some x ∧ (angularLInf pose a b).bind toPoint = some x := by
  refine ⟨⟨M3.one, ⟨-3, 0, -5⟩⟩, ⟨0, 0, 1⟩, ⟨3 / 5, 0, 4 / 5⟩, ⟨0, 0, 1⟩, M3.IsRot.one,
    by simp only [lin]; norm_num,
    ⟨by simp only [lin]; norm_num, 1, by norm_num, by ext <;> simp only [lin] <;> norm_num⟩,
    by ext <;> simp only [lin] <;> norm_num, by norm_num, ?_⟩
  have hb1 : (⟨3 / 5, 0, 4 / 5⟩ : V3 ℝ).normSq = 1 := by simp only [lin]; norm_num
  have ha1 : (⟨0, 0, 1⟩ : V3 ℝ).normSq = 1 := by simp only [lin]; norm_num
  have er : (⟨M3.one, ⟨-3, 0, -5⟩⟩ : Iso ℝ).inv.rot.mulVec ⟨3 / 5, 0, 4 / 5⟩ = ⟨3 / 5, 0, 4 / 5⟩ := by
    ext <;> simp only [lin] <;> norm_num
  have et : (⟨M3.one, ⟨-3, 0, -5⟩⟩ : Iso ℝ).inv.t = ⟨3, 0, 5⟩ := by
    ext <;> simp only [lin] <;> norm_num
  have ht0 : (⟨3, 0, 5⟩ : V3 ℝ) ≠ V3.zero := by
    intro e; simpa [V3.zero] using congrArg V3.x e
  have hne : ∀ v : V3 ℝ, v.y ≠ 0 → v ≠ V3.zero := by
    intro v h e; rw [e] at h; exact h rfl
  have hk : (1 / (⟨3, 0, 5⟩ : V3 ℝ).norm) ≠ 0 := (div_pos one_pos (V3.norm_pos ht0)).ne'
  have hm : meet ⟨3, 0, 5⟩ ⟨3 / 5, 0, 4 / 5⟩ ⟨0, 0, 1⟩ = some ⟨0, 0, 1, 1 / 1⟩ := by
    rw [meet_exact (l := 1) (m := -5) ha1 one_ne_zero
      (by ext <;> simp only [lin] <;> norm_num) (hne _ (by simp only [lin]; norm_num)),
      if_pos ⟨one_pos, by simp only [lin]; norm_num⟩]
  have hT : toPoint ⟨0, 0, 1, 1 / 1⟩ = some ⟨0, 0, 1⟩ := by
    unfold toPoint; simp [V3.smul, V4.xyz]
  constructor
  · unfold angularL1
    simp only [er, et, normalize_of_ne ht0, Option.bind_eq_bind, Option.bind_some]
    rw [correctL1_exact hb1 ha1 (by simp only [lin]; ring)
      (hne _ (by simp only [lin]; generalize 1 / _ = k at hk; intro e; apply hk; linarith))]
    simp only [Option.bind_some, hm, hT]
  · unfold angularLInf
    simp only [er, et, normalize_of_ne ht0, Option.bind_eq_bind, Option.bind_some]
    rw [correctLInf_exact hb1 ha1 (by simp only [lin]; ring)
      (hne _ (by simp only [lin]; generalize 1 / _ = k at hk; intro e; apply hk; linarith))]
    simp only [Option.bind_some, hm, hT]

/-- A case meeting the hypotheses of `C50_exact_partial` with an acute angle. -/
example : ∃ (pose : Iso ℝ) (a b x : V3 ℝ), pose.Rigid ∧ Looks Iso.one a x ∧ Looks pose b x ∧
    a.cross (pose.inv.rot.mulVec b) ≠ V3.zero ∧ 0 ≤ a.dot (pose.inv.rot.mulVec b) := by
  refine ⟨⟨M3.one, ⟨-3, 0, 0⟩⟩, ⟨3 / 5, 0, 4 / 5⟩, ⟨0, 0, 1⟩, ⟨3, 0, 4⟩, M3.IsRot.one,
    ⟨by simp only [lin]; norm_num, 5, by norm_num, by ext <;> simp only [lin] <;> norm_num⟩,
    ⟨by simp only [lin]; norm_num, 4, by norm_num, by ext <;> simp only [lin] <;> norm_num⟩, ?_,
    by simp only [lin]; norm_num⟩
  intro e
  rw [V3.ext_iff] at e
  simp only [lin] at e
  norm_num at e

end Verif.Geo
