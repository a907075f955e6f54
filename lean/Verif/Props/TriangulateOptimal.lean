import Verif.Lemmas.EpipolarPlane
import Verif.Props.Triangulate

/-!
# C67: the corrections of the angular triangulators are optimal

The triangulators first turn the two bearings until they lie in one plane with the baseline.  The
specification: among all pairs of directions that lie in one plane with the baseline, the pair with
the smallest sum (L1), or the smallest maximum (L∞), of the two angles.
-/

namespace Verif.Geo

open Real

/-- A pair of directions in one plane with `t`: rays that can meet. -/
structure Coplanar (t a b : V3 ℝ) : Prop where
  unit_a : a.normSq = 1
  unit_b : b.normSq = 1
  plane : t.dot (b.cross a) = 0

theorem arccos_self {a : V3 ℝ} (h : a.normSq = 1) : arccos (a.dot a) = 0 := by
  rw [V3.dot_self, h, arccos_one]

/-- **C67** The L1 correction gives coplanar directions with the smallest possible sum of the two
angles. -/
theorem C67_l1_optimal {t a b a' b' : V3 ℝ} (ha : a.normSq = 1) (hb : b.normSq = 1)
    (h : correctL1 t a b = some (a', b')) :
    Coplanar t a' b' ∧ ∀ c d, Coplanar t c d →
      arccos (a.dot a') + arccos (b.dot b') ≤ arccos (a.dot c) + arccos (b.dot d) := by
  unfold correctL1 at h
  simp only at h
  split at h
  · rename_i hlt
    simp only [Option.bind_eq_bind, Option.bind_eq_some_iff] at h
    obtain ⟨n, hn, a'', ha'', he⟩ := h
    simp only [Option.pure_def, Option.some.injEq, Prod.mk.injEq] at he
    obtain ⟨rfl, rfl⟩ := he
    obtain ⟨hb0, rfl⟩ := normalize_some hn
    have hnn : IsNormal t (V3.smul (1 / (b.cross t).norm) (b.cross t)) :=
      ⟨V3.normalize_normSq hb0, by rw [V3.dot_smul, V3.dot_cross_right, mul_zero]⟩
    have hbn : b.dot (V3.smul (1 / (b.cross t).norm) (b.cross t)) = 0 := by
      rw [V3.dot_smul, V3.dot_cross_left, mul_zero]
    obtain ⟨h1, h2, h3⟩ := plane_angle_eq ha hnn.1 ha''
    refine ⟨⟨h1, hb, coplanar_of_normal hnn h2 hbn⟩, ?_⟩
    intro c d hcd
    have ht : t ≠ V3.zero := by
      rintro rfl
      apply hb0
      lin3
    obtain ⟨m, hm, hcm, hdm⟩ := exists_normal ht hcd.plane
    rw [h3, arccos_self hb, add_zero]
    exact (l1_plane ha hb hm hlt.le hb0).trans
      (add_le_add (plane_angle_le ha hm.1 hcd.unit_a hcm) (plane_angle_le hb hm.1 hcd.unit_b hdm))
  · rename_i hlt
    simp only [Option.bind_eq_bind, Option.bind_eq_some_iff] at h
    obtain ⟨n, hn, b'', hb'', he⟩ := h
    simp only [Option.pure_def, Option.some.injEq, Prod.mk.injEq] at he
    obtain ⟨rfl, rfl⟩ := he
    obtain ⟨ha0, rfl⟩ := normalize_some hn
    have hnn : IsNormal t (V3.smul (1 / (a.cross t).norm) (a.cross t)) :=
      ⟨V3.normalize_normSq ha0, by rw [V3.dot_smul, V3.dot_cross_right, mul_zero]⟩
    have han : a.dot (V3.smul (1 / (a.cross t).norm) (a.cross t)) = 0 := by
      rw [V3.dot_smul, V3.dot_cross_left, mul_zero]
    obtain ⟨h1, h2, h3⟩ := plane_angle_eq hb hnn.1 hb''
    refine ⟨⟨ha, h1, coplanar_of_normal hnn han h2⟩, ?_⟩
    intro c d hcd
    have ht : t ≠ V3.zero := by
      rintro rfl
      apply ha0
      lin3
    obtain ⟨m, hm, hcm, hdm⟩ := exists_normal ht hcd.plane
    rw [h3, arccos_self ha, zero_add, add_comm (arccos (a.dot c))]
    exact (l1_plane hb ha hm (not_lt.mp hlt) ha0).trans
      (add_le_add (plane_angle_le hb hm.1 hcd.unit_b hdm) (plane_angle_le ha hm.1 hcd.unit_a hcm))

/-- **C67** The L∞ correction gives coplanar directions with the smallest possible larger angle. -/
theorem C67_linf_optimal {t a b a' b' : V3 ℝ} (ha : a.normSq = 1) (hb : b.normSq = 1)
    (h : correctLInf t a b = some (a', b')) :
    Coplanar t a' b' ∧ ∀ c d, Coplanar t c d →
      max (arccos (a.dot a')) (arccos (b.dot b')) ≤ max (arccos (a.dot c)) (arccos (b.dot d)) := by
  have main : ∀ k : V3 ℝ, t ≠ V3.zero → k ≠ V3.zero → t.dot k = 0 →
      ((a.add b).cross t).normSq ≤ k.normSq → ((a.sub b).cross t).normSq ≤ k.normSq →
      |a.dot k| = |a.dot (b.cross t)| → |b.dot k| = |a.dot (b.cross t)| →
      (a.sub (V3.smul (a.dot (V3.smul (1 / k.norm) k)) (V3.smul (1 / k.norm) k))).normalize = some a' →
      (b.sub (V3.smul (b.dot (V3.smul (1 / k.norm) k)) (V3.smul (1 / k.norm) k))).normalize = some b' →
      Coplanar t a' b' ∧ ∀ c d, Coplanar t c d →
      max (arccos (a.dot a')) (arccos (b.dot b')) ≤ max (arccos (a.dot c)) (arccos (b.dot d)) := by
    intro k ht hk htk h1 h2 h3 h4 e1 e2
    have hnn : IsNormal t (V3.smul (1 / k.norm) k) :=
      ⟨V3.normalize_normSq hk, by rw [V3.dot_smul, htk, mul_zero]⟩
    obtain ⟨p1, p2, p3⟩ := plane_angle_eq ha hnn.1 e1
    obtain ⟨q1, q2, q3⟩ := plane_angle_eq hb hnn.1 e2
    refine ⟨⟨p1, q1, coplanar_of_normal hnn p2 q2⟩, ?_⟩
    intro c d hcd
    obtain ⟨m, hm, hcm, hdm⟩ := exists_normal ht hcd.plane
    obtain ⟨l1, l2⟩ := linf_plane hm hk h1 h2 h3 h4
    rw [p3, q3]
    have hmono : ∀ u, u ≤ max |a.dot m| |b.dot m| →
        arcsin u ≤ max (arccos (a.dot c)) (arccos (b.dot d)) := by
      intro u hu
      refine (arcsin_le_arcsin hu).trans ?_
      rw [monotone_arcsin.map_max]
      exact max_le_max (plane_angle_le ha hm.1 hcd.unit_a hcm) (plane_angle_le hb hm.1 hcd.unit_b hdm)
    exact max_le (hmono _ l1) (hmono _ l2)
  have t1 : t.dot ((a.add b).cross t) = 0 := V3.dot_cross_right _ _
  have t2 : t.dot ((a.sub b).cross t) = 0 := V3.dot_cross_right _ _
  have a1 : |a.dot ((a.add b).cross t)| = |a.dot (b.cross t)| := by
    congr 1; simp only [lin]; ring
  have b1 : |b.dot ((a.add b).cross t)| = |a.dot (b.cross t)| := by
    rw [← abs_neg]; congr 1; simp only [lin]; ring
  have a2 : |a.dot ((a.sub b).cross t)| = |a.dot (b.cross t)| := by
    rw [← abs_neg]; congr 1; simp only [lin]; ring
  have b2 : |b.dot ((a.sub b).cross t)| = |a.dot (b.cross t)| := by
    rw [← abs_neg]; congr 1; simp only [lin]; ring
  unfold correctLInf at h
  simp only at h
  split at h
  · rename_i hlt
    simp only [Option.bind_eq_bind, Option.bind_eq_some_iff] at h
    obtain ⟨n, hn, a'', ha'', b'', hb'', he⟩ := h
    simp only [Option.pure_def, Option.some.injEq, Prod.mk.injEq] at he
    obtain ⟨rfl, rfl⟩ := he
    obtain ⟨hk, rfl⟩ := normalize_some hn
    have ht : t ≠ V3.zero := by
      rintro rfl
      apply hk
      lin3
    exact main _ ht hk t1 le_rfl hlt.le a1 b1 ha'' hb''
  · rename_i hlt
    simp only [Option.bind_eq_bind, Option.bind_eq_some_iff] at h
    obtain ⟨n, hn, a'', ha'', b'', hb'', he⟩ := h
    simp only [Option.pure_def, Option.some.injEq, Prod.mk.injEq] at he
    obtain ⟨rfl, rfl⟩ := he
    obtain ⟨hk, rfl⟩ := normalize_some hn
    have ht : t ≠ V3.zero := by
      rintro rfl
      apply hk
      lin3
    exact main _ ht hk t2 (not_lt.mp hlt) le_rfl a2 b2 ha'' hb''

/-- Scaling the baseline does not change what is coplanar with it. -/
theorem Coplanar.smul {t a b : V3 ℝ} {s : ℝ} (hs : s ≠ 0) :
    Coplanar (V3.smul s t) a b ↔ Coplanar t a b := by
  constructor
  · rintro ⟨h1, h2, h3⟩
    rw [V3.smul_dot] at h3
    exact ⟨h1, h2, (mul_eq_zero.mp h3).resolve_left hs⟩
  · rintro ⟨h1, h2, h3⟩
    exact ⟨h1, h2, by rw [V3.smul_dot, h3, mul_zero]⟩

/-- What the two angular triangulators return for any pair of bearings (noisy ones as well): `x` is in
front of the first camera on a ray `u`, on the line of the ray `v` from the centre of the second. -/
structure TriangulatedAt (pose : Iso ℝ) (u v : V3 ℝ) (x : V3 ℝ) : Prop where
  coplanar : Coplanar pose.inv.t v u
  depth : ∃ l > 0, x = V3.smul l u
  line : OnLine pose.inv.t v x
  acute : 0 ≤ u.dot v

theorem meet_triangulated {pose : Iso ℝ} {u v : V3 ℝ} {p : V4 ℝ} (hc : Coplanar pose.inv.t v u)
    (h : meet pose.inv.t v u = some p) : ∃ x, toPoint p = some x ∧ TriangulatedAt pose u v x := by
  obtain ⟨l, m, hl, huv, ht, rfl⟩ := meet_some hc.unit_b hc.plane h
  refine ⟨V3.smul l u, toPoint_ray hl, hc, ⟨l, hl, rfl⟩, ⟨m, ?_⟩, huv⟩
  rw [ht]
  lin3

/-- **C67** Every point the L1 triangulator returns is the intersection of the coplanar rays with the
smallest sum of angles to the given bearings; it is in front of the first camera. -/
theorem C67_l1_result {pose : Iso ℝ} (hp : pose.Rigid) {a b : V3 ℝ} {p : V4 ℝ} (ha : a.normSq = 1)
    (hb : b.normSq = 1) (h : angularL1 pose a b = some p) :
    ∃ u v x, toPoint p = some x ∧ TriangulatedAt pose u v x ∧
      ∀ c d, Coplanar pose.inv.t d c →
        arccos (a.dot u) + arccos ((pose.inv.rot.mulVec b).dot v) ≤
          arccos (a.dot c) + arccos ((pose.inv.rot.mulVec b).dot d) := by
  unfold angularL1 at h
  simp only [Option.bind_eq_bind, Option.bind_eq_some_iff] at h
  obtain ⟨n, hn, ⟨v, u⟩, hc, hm⟩ := h
  obtain ⟨ht, rfl⟩ := normalize_some hn
  have hk : (1 / pose.inv.t.norm) ≠ 0 := (div_pos one_pos (V3.norm_pos ht)).ne'
  have hb' : (pose.inv.rot.mulVec b).normSq = 1 := by rw [M3.IsRot.normSq_mulVec hp.inv, hb]
  obtain ⟨h1, h2⟩ := C67_l1_optimal hb' ha hc
  obtain ⟨x, hx, hT⟩ := meet_triangulated ((Coplanar.smul hk).mp h1) hm
  refine ⟨u, v, x, hx, hT, fun c d hcd => ?_⟩
  have := h2 d c ((Coplanar.smul hk).mpr hcd)
  linarith

/-- **C67** The same for the L∞ triangulator and the larger of the two angles. -/
theorem C67_linf_result {pose : Iso ℝ} (hp : pose.Rigid) {a b : V3 ℝ} {p : V4 ℝ} (ha : a.normSq = 1)
    (hb : b.normSq = 1) (h : angularLInf pose a b = some p) :
    ∃ u v x, toPoint p = some x ∧ TriangulatedAt pose u v x ∧
      ∀ c d, Coplanar pose.inv.t d c →
        max (arccos (a.dot u)) (arccos ((pose.inv.rot.mulVec b).dot v)) ≤
          max (arccos (a.dot c)) (arccos ((pose.inv.rot.mulVec b).dot d)) := by
  unfold angularLInf at h
  simp only [Option.bind_eq_bind, Option.bind_eq_some_iff] at h
  obtain ⟨n, hn, ⟨v, u⟩, hc, hm⟩ := h
  obtain ⟨ht, rfl⟩ := normalize_some hn
  have hk : (1 / pose.inv.t.norm) ≠ 0 := (div_pos one_pos (V3.norm_pos ht)).ne'
  have hb' : (pose.inv.rot.mulVec b).normSq = 1 := by rw [M3.IsRot.normSq_mulVec hp.inv, hb]
  obtain ⟨h1, h2⟩ := C67_linf_optimal hb' ha hc
  obtain ⟨x, hx, hT⟩ := meet_triangulated ((Coplanar.smul hk).mp h1) hm
  refine ⟨u, v, x, hx, hT, fun c d hcd => ?_⟩
  have := h2 d c ((Coplanar.smul hk).mpr hcd)
  rwa [max_comm (arccos (a.dot u)), max_comm (arccos (a.dot c))]

/-- A pair that is not coplanar with the baseline, for which both corrections succeed. -/
example : ¬ Coplanar ⟨1, 0, 0⟩ ⟨3 / 5, 0, 4 / 5⟩ ⟨4 / 5, 3 / 5, 0⟩ ∧
    (∃ r, correctL1 ⟨1, 0, 0⟩ ⟨3 / 5, 0, 4 / 5⟩ ⟨4 / 5, 3 / 5, 0⟩ = some r) ∧
    ∃ r, correctLInf ⟨1, 0, 0⟩ ⟨3 / 5, 0, 4 / 5⟩ ⟨4 / 5, 3 / 5, 0⟩ = some r := by
  have hx : ∀ v : V3 ℝ, v.x ≠ 0 → v ≠ V3.zero := by intro v h e; rw [e] at h; exact h rfl
  have hy : ∀ v : V3 ℝ, v.y ≠ 0 → v ≠ V3.zero := by intro v h e; rw [e] at h; exact h rfl
  have hz : ∀ v : V3 ℝ, v.z ≠ 0 → v ≠ V3.zero := by intro v h e; rw [e] at h; exact h rfl
  refine ⟨fun h => ?_, ?_, ?_⟩
  · have := h.plane
    simp only [lin] at this
    norm_num at this
  · unfold correctL1
    simp only
    split
    · rw [normalize_of_ne (hz _ (by simp only [lin]; norm_num))]
      simp only [Option.bind_eq_bind, Option.bind_some]
      rw [normalize_of_ne (hx _ (by generalize 1 / _ = k; simp only [lin]; ring_nf; norm_num))]
      exact ⟨_, rfl⟩
    · rw [normalize_of_ne (hy _ (by simp only [lin]; norm_num))]
      simp only [Option.bind_eq_bind, Option.bind_some]
      rw [normalize_of_ne (hx _ (by generalize 1 / _ = k; simp only [lin]; ring_nf; norm_num))]
      exact ⟨_, rfl⟩
  · unfold correctLInf
    simp only
    split
    · rw [normalize_of_ne (hz _ (by simp only [lin]; norm_num))]
      simp only [Option.bind_eq_bind, Option.bind_some]
      rw [normalize_of_ne (hx _ (by generalize 1 / _ = k; simp only [lin]; ring_nf; norm_num)),
        normalize_of_ne (hx _ (by generalize 1 / _ = k; simp only [lin]; ring_nf; norm_num))]
      exact ⟨_, rfl⟩
    · rw [normalize_of_ne (hy _ (by simp only [lin]; norm_num))]
      simp only [Option.bind_eq_bind, Option.bind_some]
      rw [normalize_of_ne (hx _ (by generalize 1 / _ = k; simp only [lin]; ring_nf; norm_num)),
        normalize_of_ne (hx _ (by generalize 1 / _ = k; simp only [lin]; ring_nf; norm_num))]
      exact ⟨_, rfl⟩

end Verif.Geo
