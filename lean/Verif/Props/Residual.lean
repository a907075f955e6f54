import Verif.Spec.Residual
import Verif.Props.Cheirality

/-!
# C91: residuals of poses and reprojection errors
-/

namespace Verif.Geo

theorem homMul_hom (pose : Iso ℝ) (x : V3 ℝ) : pose.homMul (hom x) = hom (pose.point x) := by
  unfold hom; lin3

/-- A normal point with a position comes from that position. -/
theorem normal_of_position {w : V4 ℝ} (hw : Normal w) {x : V3 ℝ} (hx : toPoint w = some x) :
    ∃ s > 0, w = V4.smul s (hom x) := by
  unfold toPoint at hx
  split at hx
  · cases hx
  · rename_i h0
    obtain rfl := Option.some.inj hx
    refine ⟨w.w, lt_of_le_of_ne hw.2 (Ne.symm h0), ?_⟩
    unfold hom
    ext <;> simp only [lin] <;> field_simp

/-- Transforming a point moves its position. -/
theorem transform_position {pose : Iso ℝ} {w : V4 ℝ} (hw : Normal w) {x : V3 ℝ} (hx : toPoint w = some x) :
    transform pose w = fromPoint (pose.point x) := by
  obtain ⟨s, hs, rfl⟩ := normal_of_position hw hx
  unfold transform
  rw [Iso.homMul_smul, homMul_hom, fromHomogeneous_smul _ hs]
  rfl

theorem fromPoint_zero : fromPoint V3.zero = none := ((C33_from_homogeneous _).1).mpr rfl

theorem unit_norm {b : V3 ℝ} (hb : b.normSq = 1) : b.norm = 1 :=
  V3.norm_of_normSq zero_le_one (by rw [hb, mul_one])

/-- Unit vectors with cosine one are equal. -/
theorem unit_dot_one {a b : V3 ℝ} (ha : a.normSq = 1) (hb : b.normSq = 1) (h : a.dot b = 1) : a = b := by
  have h1 := parallel_of_form (c := a) hb (by rw [ha, h]; ring)
  rw [h] at h1
  rw [h1]
  lin3

/-- Unit vectors with cosine minus one are opposite. -/
theorem unit_dot_neg_one {a b : V3 ℝ} (ha : a.normSq = 1) (hb : b.normSq = 1) (h : a.dot b = -1) :
    a = V3.smul (-1) b := by
  have h1 := parallel_of_form (c := a) hb (by rw [ha, h]; ring)
  rwa [h] at h1

theorem unit_dot_range {a b : V3 ℝ} (ha : a.normSq = 1) (hb : b.normSq = 1) : -1 ≤ a.dot b ∧ a.dot b ≤ 1 := by
  have h := cauchy_schwarz a b
  rw [ha, hb] at h
  constructor <;> nlinarith

/-! ## World points -/

/-- **C91** The residual of a pose and a world point is one minus the cosine of the angle between the bearing and the
direction in which the camera sees the point; it is not a number only for a point at the optical centre. A point at
infinity is seen in its rotated direction. -/
theorem C91_world_residual (pose : Iso ℝ) {b : V3 ℝ} (hb : b.normSq = 1) {w : V4 ℝ} (hw : Normal w) :
    (∀ x, toPoint w = some x →
      (worldResidual pose b w = none ↔ pose.point x = V3.zero) ∧
      (pose.point x ≠ V3.zero → worldResidual pose b w = some (1 - cosine b (pose.point x)))) ∧
    (toPoint w = none → pose.Rigid → worldResidual pose b w = some (1 - cosine b (pose.rot.mulVec w.xyz))) := by
  constructor
  · intro x hx
    unfold worldResidual
    rw [transform_position hw hx]
    constructor
    · constructor
      · intro h
        by_contra h0
        obtain ⟨q, hq, _⟩ := C33_round_trip _ h0
        rw [hq] at h
        cases h
      · intro h
        rw [h, fromPoint_zero]
        rfl
    · intro h0
      obtain ⟨q, hq, _, hq3, _⟩ := C33_round_trip _ h0
      rw [hq]
      simp only [Option.bind_eq_bind, Option.bind_some, Option.pure_def, Option.some.injEq]
      have hn := (V3.norm_pos h0).ne'
      unfold cosine
      rw [unit_norm hb, one_mul]
      conv_rhs => rw [← hq3, V3.dot_smul, V3.norm_smul, abs_of_nonneg (V3.norm_nonneg _),
        unit_norm ((C33_from_homogeneous _).2 q hq).1, mul_one, mul_div_cancel_left₀ _ hn]
  · intro hx hp
    have hz : w.w = 0 := by
      unfold toPoint at hx
      split at hx
      · assumption
      · cases hx
    have hu : (pose.rot.mulVec w.xyz).normSq = 1 := by
      rw [M3.IsRot.normSq_mulVec hp]; exact hw.1
    have e : pose.homMul w = ⟨(pose.rot.mulVec w.xyz).x, (pose.rot.mulVec w.xyz).y, (pose.rot.mulVec w.xyz).z, 0⟩ := by
      ext <;> simp only [lin] <;> simp only [hz] <;> ring
    have hN : Normal (pose.homMul w) := by
      rw [e]
      exact ⟨hu, le_rfl⟩
    unfold worldResidual transform
    rw [fromHomogeneous_normal hN]
    simp only [Option.bind_eq_bind, Option.bind_some, Option.pure_def, Option.some.injEq]
    unfold cosine
    rw [unit_norm hb, unit_norm hu, one_mul, div_one, e]
    rfl

/-- **C91** It lies between 0 and 2. It is 0 exactly for a point in front of the camera in the direction of the bearing, and
2 exactly for a point in the opposite direction. -/
theorem C91_world_exact (pose : Iso ℝ) {b : V3 ℝ} (hb : b.normSq = 1) {w : V4 ℝ} (hw : Normal w) {x : V3 ℝ}
    (hx : toPoint w = some x) {r : ℝ} (h : worldResidual pose b w = some r) :
    (0 ≤ r ∧ r ≤ 2) ∧ (r = 0 ↔ Looks pose b x) ∧ (r = 2 ↔ Behind pose b x) := by
  unfold worldResidual at h
  rw [transform_position hw hx] at h
  cases hq : fromPoint (pose.point x) with
  | none => rw [hq] at h; cases h
  | some q =>
    rw [hq] at h
    obtain rfl := Option.some.inj h
    have h0 : pose.point x ≠ V3.zero := by
      intro h0
      rw [h0, fromPoint_zero] at hq
      cases hq
    obtain ⟨q', hq', _, hq3, _⟩ := C33_round_trip _ h0
    rw [hq] at hq'
    obtain rfl := Option.some.inj hq'
    have hu := ((C33_from_homogeneous _).2 q hq).1
    have hn := V3.norm_pos h0
    obtain ⟨k1, k2⟩ := unit_dot_range hb hu
    refine ⟨⟨by linarith, by linarith⟩, ⟨fun h => ⟨hb, _, hn, ?_⟩, ?_⟩, ⟨fun h => ⟨hb, _, hn, ?_⟩, ?_⟩⟩
    · conv_lhs => rw [← hq3]
      rw [unit_dot_one hb hu (by linarith)]
    · rintro ⟨_, d, hd, e⟩
      have hd' : (pose.point x).norm = d := by rw [e, V3.norm_smul, unit_norm hb, abs_of_pos hd, mul_one]
      rw [hd'] at hq3
      have : d * b.dot (bearing q) = d * 1 := by
        rw [← V3.dot_smul, hq3, e, V3.dot_smul, V3.dot_self, hb]
      have := mul_left_cancel₀ hd.ne' this
      linarith
    · conv_lhs => rw [← hq3]
      have h2 : b = V3.smul (-1) (bearing q) := unit_dot_neg_one hb hu (by linarith)
      have h3 : bearing q = V3.smul (-1) b := by rw [h2]; lin3
      rw [h3]
      generalize (pose.point x).norm = n
      lin3
    · rintro ⟨_, d, hd, e⟩
      have hd' : (pose.point x).norm = d := by rw [e, V3.norm_smul, unit_norm hb, abs_neg, abs_of_pos hd, mul_one]
      rw [hd'] at hq3
      have : d * b.dot (bearing q) = d * -1 := by
        rw [← V3.dot_smul, hq3, e, V3.dot_smul, V3.dot_self, hb]; ring
      have := mul_left_cancel₀ hd.ne' this
      linarith

/-! ## Matches of two cameras -/

/-- **C91** The residual of a relative pose and a match lies between 0 and 2. -/
theorem C91_camera_range (solver : M4 → Option Eigen4) (pose : Iso ℝ) {a b : V3 ℝ} (ha : a.normSq = 1)
    (hb : b.normSq = 1) {r : ℝ} (h : cameraResidual solver pose a b = some r) : 0 ≤ r ∧ r ≤ 2 := by
  unfold cameraResidual at h
  split at h
  · obtain rfl := Option.some.inj h; norm_num
  · split at h
    · obtain rfl := Option.some.inj h; norm_num
    · rename_i p hp
      obtain ⟨q, hq, h⟩ := Option.bind_eq_some_iff.mp h
      obtain rfl := Option.some.inj h
      obtain ⟨h1, h2⟩ := unit_dot_range ha ((C33_from_homogeneous _).2 p hp).1
      obtain ⟨h3, h4⟩ := unit_dot_range hb ((C33_from_homogeneous _).2 q hq).1
      constructor <;> linarith

/-- **C91** If it is zero, the match is consistent with the pose: there is a point in front of both cameras that both see
along their bearings, or the two bearings are parallel. This holds whatever the eigenvalue solver does. -/
theorem C91_camera_sound (solver : M4 → Option Eigen4) {pose : Iso ℝ} {a b : V3 ℝ} (ha : a.normSq = 1)
    (hb : b.normSq = 1) (h : cameraResidual solver pose a b = some 0) :
    (∃ x, Looks Iso.one a x ∧ Looks pose b x) ∨ (pose.Rigid → b = pose.rot.mulVec a) := by
  unfold cameraResidual at h
  split at h
  · norm_num at h
  · split at h
    · norm_num at h
    · rename_i p hp
      obtain ⟨q, hq, h⟩ := Option.bind_eq_some_iff.mp h
      have h := Option.some.inj h
      have hN := normal_of_some hp
      have hpu := ((C33_from_homogeneous _).2 p hp).1
      have hqu := ((C33_from_homogeneous _).2 q hq).1
      obtain ⟨h1, h2⟩ := unit_dot_range ha hpu
      obtain ⟨h3, h4⟩ := unit_dot_range hb hqu
      have ea : a = bearing p := unit_dot_one ha hpu (by linarith)
      have hw1 : worldResidual Iso.one a p = some 0 := by
        unfold worldResidual
        rw [C34_transform_one hN]
        simp only [Option.bind_eq_bind, Option.bind_some, Option.pure_def, Option.some.injEq]
        linarith
      have hw2 : worldResidual pose b p = some 0 := by
        unfold worldResidual
        rw [hq]
        simp only [Option.bind_eq_bind, Option.bind_some, Option.pure_def, Option.some.injEq]
        linarith
      cases hx : toPoint p with
      | some x =>
        left
        exact ⟨x, (C91_world_exact Iso.one ha hN hx hw1).2.1.mp rfl, (C91_world_exact pose hb hN hx hw2).2.1.mp rfl⟩
      | none =>
        right
        intro hr
        have h5 := (C91_world_residual pose hb hN).2 hx hr
        rw [hw2] at h5
        have h6 := Option.some.inj h5
        have hu : (pose.rot.mulVec a).normSq = 1 := by rw [M3.IsRot.normSq_mulVec hr, ha]
        have e2 : p.xyz = a := ea.symm
        unfold cosine at h6
        rw [e2, unit_norm hb, unit_norm hu, one_mul, div_one] at h6
        exact unit_dot_one hb hu (by linarith)

theorem leastAbs4_le (vals : Fin 4 → ℝ) (i : Fin 4) : |vals (leastAbs4 vals)| ≤ |vals i| :=
  least4_le (fun i => |vals i|) i

/-- If the system has a one-dimensional null space, the eigenvector chosen spans it. -/
theorem leastAbs_null {os : List Observation} {n : V4 ℝ} (hn : n ≠ ⟨0, 0, 0, 0⟩)
    (hz : (linearSystem os).mulVec n = ⟨0, 0, 0, 0⟩)
    (huniq : ∀ v : V4 ℝ, v.dot ((linearSystem os).mulVec v) = 0 → ∃ s, v = V4.smul s n) {e : Eigen4}
    (he : IsEigen4 (linearSystem os) e) : ∃ s, s ≠ 0 ∧ e.vecs (leastAbs4 e.vals) = V4.smul s n := by
  have hval : ∀ i, (e.vecs i).dot ((linearSystem os).mulVec (e.vecs i)) = e.vals i := by
    intro i
    rw [he.eigen, V4.dot_smul, he.unit, mul_one]
  have hex : ∃ i, (e.vecs i).dot n ≠ 0 := by
    by_contra hne
    push Not at hne
    exact hn (orthonormal_complete he hne)
  obtain ⟨i, hi⟩ := hex
  have hi0 : e.vals i = 0 := by
    have h1 := linearSystem_symm os (e.vecs i) n
    rw [hz, he.eigen, V4.dot_smul, V4.dot_comm n] at h1
    have h2 : (e.vecs i).dot ⟨0, 0, 0, 0⟩ = 0 := by simp only [lin]; ring
    rw [h2] at h1
    exact (mul_eq_zero.mp h1.symm).resolve_right hi
  have hl0 : e.vals (leastAbs4 e.vals) = 0 := by
    have := leastAbs4_le e.vals i
    rw [hi0, abs_zero] at this
    exact abs_eq_zero.mp (le_antisymm this (abs_nonneg _))
  obtain ⟨s, hs⟩ := huniq _ ((hval _).trans hl0)
  refine ⟨s, ?_, hs⟩
  rintro rfl
  have h1 := he.unit (leastAbs4 e.vals)
  rw [hs] at h1
  simp only [lin] at h1
  norm_num at h1

theorem proper_pair {pose : Iso ℝ} (hp : pose.Rigid) {a b : V3 ℝ} (ha : a.normSq = 1) (hb : b.normSq = 1) :
    Proper [⟨Iso.one, a⟩, ⟨pose, b⟩] := by
  constructor <;> simp only [List.mem_cons, List.not_mem_nil, or_false, forall_eq_or_imp, forall_eq]
  · exact ⟨Iso.Rigid.one, hp⟩
  · exact ⟨ha, hb⟩

theorem hom_ne (x : V3 ℝ) : hom x ≠ ⟨0, 0, 0, 0⟩ := by
  intro e
  have := congrArg V4.w e
  simp [hom] at this

/-- The point the residual is computed with, for rays that meet. -/
theorem residual_point {pose : Iso ℝ} (hp : pose.Rigid) {a b x : V3 ℝ} (ha : Sighted Iso.one a x)
    (hb : Sighted pose b x) (hn : a.cross (pose.inv.rot.mulVec b) ≠ V3.zero) {e : Eigen4}
    (he : IsEigen4 (residualSystem pose a b) e) :
    fromHomogeneous (e.vecs (leastAbs4 e.vals)) = fromPoint x := by
  have hs : ∀ o ∈ ([⟨Iso.one, a⟩, ⟨pose, b⟩] : List Observation), Sighted o.pose o.bearing x := by
    simp only [List.mem_cons, List.not_mem_nil, or_false, forall_eq_or_imp, forall_eq]
    exact ⟨ha, hb⟩
  have hray : (⟨Iso.one, a⟩ : Observation).ray = a := by lin3
  obtain ⟨s, hs0, hv⟩ := leastAbs_null (hom_ne x) (C51_annihilates hs) (fun v hv =>
    ⟨v.w, C51_unique (proper_pair hp ha.1 hb.1) hs (o := ⟨Iso.one, a⟩) (o' := ⟨pose, b⟩) (by simp) (by simp)
      (by rw [hray]; exact hn) hv⟩) he
  rw [hv, fromHomogeneous_hom hs0]

/-- One term of the residual, for a point on the line of the bearing. -/
theorem sight_term {pose : Iso ℝ} {b x : V3 ℝ} (hb : b.normSq = 1) {d : ℝ} (hd : d ≠ 0)
    (h : pose.point x = V3.smul d b) :
    ∃ q, fromPoint (pose.point x) = some q ∧ b.dot (bearing q) = if d < 0 then -1 else 1 := by
  have h0 : pose.point x ≠ V3.zero := by
    intro e
    rw [h] at e
    have := congrArg V3.normSq e
    rw [V3.normSq_smul, hb] at this
    simp only [lin] at this
    have : d * d = 0 := by linarith
    exact hd (mul_self_eq_zero.mp this)
  obtain ⟨q, hq1, _, hq3, _⟩ := C33_round_trip _ h0
  refine ⟨q, hq1, ?_⟩
  have hn : (pose.point x).norm = |d| := by rw [h, V3.norm_smul, unit_norm hb, mul_one]
  have h1 : |d| * b.dot (bearing q) = d := by
    rw [← hn, ← V3.dot_smul, hq3, h, V3.dot_smul, V3.dot_self, hb, mul_one]
  split
  · rename_i hlt
    rw [abs_of_neg hlt] at h1
    have : d * (b.dot (bearing q) + 1) = 0 := by linarith
    have := (mul_eq_zero.mp this).resolve_left hd
    linarith
  · rename_i hge
    rw [abs_of_nonneg (not_lt.mp hge)] at h1
    have : d * (b.dot (bearing q) - 1) = 0 := by linarith
    have := (mul_eq_zero.mp this).resolve_left hd
    linarith

/-- **C91** When the two rays, prolonged backwards too, meet in a point and are not parallel, the residual counts the
cameras that have the point behind them: 0, 1 or 2. With any correct eigenvalue solver. -/
theorem C91_camera_exact {solver : M4 → Option Eigen4} {pose : Iso ℝ} (hp : pose.Rigid) {a b x : V3 ℝ} {e : Eigen4}
    (hs : solver (residualSystem pose a b) = some e) (he : IsEigen4 (residualSystem pose a b) e)
    (ha : a.normSq = 1) (hb : b.normSq = 1) {d d' : ℝ} (hd : d ≠ 0) (hd' : d' ≠ 0) (hx : x = V3.smul d a)
    (hx' : pose.point x = V3.smul d' b) (hn : a.cross (pose.inv.rot.mulVec b) ≠ V3.zero) :
    cameraResidual solver pose a b = some ((if d < 0 then 1 else 0) + if d' < 0 then 1 else 0) := by
  have h1 : (Iso.one : Iso ℝ).point x = V3.smul d a := by rw [hx]; lin3
  have h2 : (Iso.one : Iso ℝ).point x = x := by lin3
  have hf := residual_point hp ⟨ha, d, h1⟩ ⟨hb, d', hx'⟩ hn he
  obtain ⟨p, hp1, hp2⟩ := sight_term ha hd h1
  rw [h2] at hp1
  obtain ⟨q, hq1, hq2⟩ := sight_term hb hd' hx'
  rw [hp1] at hf
  have hx0 : toPoint p = some x := by
    have : x ≠ V3.zero := by
      rintro rfl
      rw [fromPoint_zero] at hp1
      cases hp1
    obtain ⟨p', e1, e2, _⟩ := C33_round_trip x this
    rw [hp1] at e1
    obtain rfl := Option.some.inj e1
    exact e2
  have ht := transform_position (pose := pose) (normal_of_some hf) hx0
  unfold cameraResidual
  simp only [hs, hf]
  rw [ht, hq1]
  simp only [Option.bind_eq_bind, Option.bind_some, Option.pure_def, Option.some.injEq, hp2, hq2]
  split <;> split <;> norm_num

/-- The vector with the direction `a` and no distance. -/
def far (a : V3 ℝ) : V4 ℝ := ⟨a.x, a.y, a.z, 0⟩

/-- For parallel bearings the point is at infinity, in the direction of `a` or opposite to it. -/
theorem residual_far {pose : Iso ℝ} (hp : pose.Rigid) {a b : V3 ℝ} (ha : a.normSq = 1)
    (hb : b = pose.rot.mulVec a) (hn : b.cross pose.t ≠ V3.zero) {e : Eigen4}
    (he : IsEigen4 (residualSystem pose a b) e) :
    ∃ s, s ≠ 0 ∧ e.vecs (leastAbs4 e.vals) = V4.smul s (far a) := by
  have hb1 : b.normSq = 1 := by rw [hb, M3.IsRot.normSq_mulVec hp, ha]
  have hP := proper_pair hp ha hb1
  refine leastAbs_null ?_ ?_ ?_ he
  · intro e0
    have : a = V3.zero := by
      have := congrArg V4.xyz e0
      exact this
    rw [this] at ha
    simp only [lin] at ha
    norm_num at ha
  · apply V4.eq_zero
    rw [linearSystem_form]
    apply List.sum_eq_zero
    intro r hr
    obtain ⟨o, ho, rfl⟩ := List.mem_map.mp hr
    have hc : ∃ d, camera o.pose (far a) = V3.smul d o.bearing := by
      simp only [List.mem_cons, List.not_mem_nil, or_false] at ho
      rcases ho with rfl | rfl
      · exact ⟨1, by unfold camera far; lin3⟩
      · exact ⟨1, by rw [hb]; unfold camera far; lin3⟩
    obtain ⟨d, hd⟩ := hc
    have e1 : ∀ v w : V4 ℝ, v.dot ((termSquare o).mulVec w) =
        (camera o.pose v).dot (camera o.pose w) - 2 * ((camera o.pose v).dot o.bearing *
          (camera o.pose w).dot o.bearing) + o.bearing.normSq * ((camera o.pose v).dot o.bearing *
          (camera o.pose w).dot o.bearing) := by
      intro v w
      unfold camera
      simp only [lin]
      ring
    rw [e1, hd, hP.unit o ho, V3.dot_smul, V3.smul_dot, V3.dot_self, hP.unit o ho]
    ring
  · intro v hv
    obtain ⟨k, hk⟩ := linearSystem_zero hP.unit hv ⟨Iso.one, a⟩ (by simp)
    obtain ⟨m, hm⟩ := linearSystem_zero hP.unit hv ⟨pose, b⟩ (by simp)
    have h1 : v.xyz = V3.smul k a := by
      rw [← hk]; unfold camera; lin3
    have h2 : camera pose v = (V3.smul k b).add (V3.smul v.w pose.t) := by
      have : camera pose v = (pose.rot.mulVec v.xyz).add (V3.smul v.w pose.t) := by unfold camera; lin3
      rw [this, h1, hb, M3.mulVec_smul]
    have h3 : V3.smul v.w (b.cross pose.t) = V3.zero := by
      have : V3.smul v.w (b.cross pose.t) = b.cross ((V3.smul k b).add (V3.smul v.w pose.t)) := by lin3
      rw [this, ← h2, hm]
      lin3
    have hw : v.w = 0 := by
      by_contra h0
      apply hn
      rw [V3.ext_iff] at h3 ⊢
      simp only [V3.smul, V3.zero] at h3 ⊢
      obtain ⟨i1, i2, i3⟩ := h3
      exact ⟨(mul_eq_zero.mp i1).resolve_left h0, (mul_eq_zero.mp i2).resolve_left h0,
        (mul_eq_zero.mp i3).resolve_left h0⟩
    refine ⟨k, ?_⟩
    rw [V3.ext_iff] at h1
    obtain ⟨i1, i2, i3⟩ := h1
    unfold far
    ext
    · exact i1
    · exact i2
    · exact i3
    · simp only [lin]; rw [hw]; ring

/-- Changing the sign of an eigenvector gives an equally correct decomposition. -/
theorem IsEigen4.flip {A : M4} {e : Eigen4} (he : IsEigen4 A e) :
    IsEigen4 A ⟨e.vals, fun i => V4.smul (-1) (e.vecs i)⟩ := by
  refine ⟨fun i => ?_, fun i j h => ?_, fun i => ?_⟩
  · simp only [V4.dot_smul, V4.smul_dot, he.unit]; norm_num
  · simp only [V4.dot_smul, V4.smul_dot, he.orth i j h]; norm_num
  · have e1 : A.mulVec (V4.smul (-1) (e.vecs i)) = V4.smul (-1) (A.mulVec (e.vecs i)) := by
      ext <;> simp only [lin] <;> ring
    simp only [e1, he.eigen]
    ext <;> simp only [lin] <;> ring

theorem residual_of_far {solver : M4 → Option Eigen4} {pose : Iso ℝ} (hp : pose.Rigid) {a b : V3 ℝ} {e : Eigen4}
    (hs : solver (residualSystem pose a b) = some e) (ha : a.normSq = 1) (hb : b = pose.rot.mulVec a) {s : ℝ} (hs0 : s ≠ 0)
    (hv : e.vecs (leastAbs4 e.vals) = V4.smul s (far a)) :
    cameraResidual solver pose a b = some (if s < 0 then 2 else 0) := by
  have hb1 : b.normSq = 1 := by rw [hb, M3.IsRot.normSq_mulVec hp, ha]
  have hf : fromHomogeneous (V4.smul s (far a)) = some (far (V3.smul (if s < 0 then -1 else 1) a)) := by
    rw [fromHomogeneous_eq]
    have e1 : (V4.smul s (far a)).xyz = V3.smul s a := rfl
    have e2 : (V4.smul s (far a)).w = 0 := by unfold far; simp only [lin]; ring
    rw [e1, e2, V3.norm_smul, unit_norm ha, mul_one, if_neg (abs_ne_zero.mpr hs0), sgn_of_nonneg le_rfl]
    congr 1
    unfold far
    split
    · rename_i h
      rw [abs_of_neg h]
      ext <;> simp only [lin] <;> field_simp
      ring
    · rename_i h
      rw [abs_of_nonneg (not_lt.mp h)]
      ext <;> simp only [lin] <;> field_simp
  generalize hk : (if s < 0 then (-1 : ℝ) else 1) = k at hf
  have hk1 : k * k = 1 := by rw [← hk]; split <;> norm_num
  have hN : Normal (far (V3.smul k b)) := by
    refine ⟨?_, le_rfl⟩
    show (V3.smul k b).normSq = 1
    rw [V3.normSq_smul, hb1, hk1, mul_one]
  have ht : transform pose (far (V3.smul k a)) = some (far (V3.smul k b)) := by
    have e1 : pose.homMul (far (V3.smul k a)) = far (V3.smul k b) := by
      rw [hb]; unfold far; lin3
    unfold transform
    rw [e1, fromHomogeneous_normal hN]
  unfold cameraResidual
  simp only [hs, hv, hf, ht]
  simp only [Option.bind_eq_bind, Option.bind_some, Option.pure_def, Option.some.injEq]
  have b1 : ∀ v : V3 ℝ, bearing (far v) = v := fun _ => rfl
  rw [b1, b1, V3.dot_smul, V3.dot_smul, V3.dot_self, V3.dot_self, ha, hb1, ← hk]
  split <;> norm_num

/-- **C91** (partial) The bearings of a point very far away are parallel. For these the residual of the true pose is 0 or
2, and the sign that the eigenvalue solver happens to give to its eigenvector decides: with the other, equally correct sign
it is the other value. (The property asks for 0.) -/
theorem C91_camera_far_partial {solver : M4 → Option Eigen4} {pose : Iso ℝ} (hp : pose.Rigid) {a b : V3 ℝ} {e : Eigen4}
    (hs : solver (residualSystem pose a b) = some e) (he : IsEigen4 (residualSystem pose a b) e)
    (ha : a.normSq = 1) (hb : b = pose.rot.mulVec a) (hn : b.cross pose.t ≠ V3.zero) :
    ∃ (solver' : M4 → Option Eigen4) (e' : Eigen4), solver' (residualSystem pose a b) = some e' ∧
      IsEigen4 (residualSystem pose a b) e' ∧
      ((cameraResidual solver pose a b = some 0 ∧ cameraResidual solver' pose a b = some 2) ∨
       (cameraResidual solver pose a b = some 2 ∧ cameraResidual solver' pose a b = some 0)) := by
  obtain ⟨s, hs0, hv⟩ := residual_far hp ha hb hn he
  let e' : Eigen4 := ⟨e.vals, fun i => V4.smul (-1) (e.vecs i)⟩
  refine ⟨fun _ => some e', e', rfl, he.flip, ?_⟩
  have hv' : e'.vecs (leastAbs4 e'.vals) = V4.smul (-s) (far a) := by
    show V4.smul (-1) (e.vecs (leastAbs4 e.vals)) = _
    rw [hv]
    ext <;> simp only [lin] <;> ring
  rw [residual_of_far hp hs ha hb hs0 hv,
    residual_of_far (solver := fun _ => some e') hp rfl ha hb (neg_ne_zero.mpr hs0) hv']
  rcases lt_or_gt_of_ne hs0 with h | h
  · right
    rw [if_pos h, if_neg (by linarith)]
    exact ⟨rfl, rfl⟩
  · left
    rw [if_neg (by linarith), if_pos (by linarith)]
    exact ⟨rfl, rfl⟩

/-- **C91** So the property is false: a pair of parallel cameras, bearings that fit, and a correct eigenvalue solver for
which the true pose gets the worst residual of all. -/
theorem C91_camera_far_worst : ∃ (solver : M4 → Option Eigen4) (pose : Iso ℝ) (a b : V3 ℝ) (e : Eigen4), pose.Rigid ∧
    solver (residualSystem pose a b) = some e ∧ IsEigen4 (residualSystem pose a b) e ∧ a.normSq = 1 ∧
    b = pose.rot.mulVec a ∧ b.cross pose.t ≠ V3.zero ∧ cameraResidual solver pose a b = some 2 := by
  have ha : (⟨0, 0, 1⟩ : V3 ℝ).normSq = 1 := by simp only [lin]; norm_num
  have hn : (⟨0, 0, 1⟩ : V3 ℝ).cross (⟨M3.one, ⟨1, 0, 0⟩⟩ : Iso ℝ).t ≠ V3.zero := by
    intro h
    have := congrArg V3.y h
    simp only [lin] at this
    norm_num at this
  have hb : (⟨0, 0, 1⟩ : V3 ℝ) = (⟨M3.one, ⟨1, 0, 0⟩⟩ : Iso ℝ).rot.mulVec ⟨0, 0, 1⟩ := by lin3
  have hp : (⟨M3.one, ⟨1, 0, 0⟩⟩ : Iso ℝ).Rigid := M3.IsRot.one
  obtain ⟨e, he⟩ := linearSystem_eigen [⟨Iso.one, ⟨0, 0, 1⟩⟩, ⟨⟨M3.one, ⟨1, 0, 0⟩⟩, ⟨0, 0, 1⟩⟩]
  obtain ⟨solver', e', hs', he', h⟩ := C91_camera_far_partial (solver := fun _ => some e) hp rfl he ha hb hn
  rcases h with ⟨_, h⟩ | ⟨h, _⟩
  · exact ⟨solver', _, _, _, e', hp, hs', he', ha, hb, hn, h⟩
  · exact ⟨_, _, _, _, e, hp, rfl, he, ha, hb, hn, h⟩

/-- A case that meets the hypotheses of `C91_camera_exact`, with the point in front of both cameras. -/
example : ∃ (solver : M4 → Option Eigen4) (pose : Iso ℝ) (a b : V3 ℝ), pose.Rigid ∧
    a.cross (pose.inv.rot.mulVec b) ≠ V3.zero ∧ cameraResidual solver pose a b = some 0 := by
  obtain ⟨e, he⟩ := linearSystem_eigen [⟨Iso.one, ⟨3 / 5, 0, 4 / 5⟩⟩, ⟨⟨M3.one, ⟨-3, 0, 0⟩⟩, ⟨0, 0, 1⟩⟩]
  have hn : (⟨3 / 5, 0, 4 / 5⟩ : V3 ℝ).cross ((⟨M3.one, ⟨-3, 0, 0⟩⟩ : Iso ℝ).inv.rot.mulVec ⟨0, 0, 1⟩) ≠ V3.zero := by
    intro h
    have := congrArg V3.y h
    simp only [lin] at this
    norm_num at this
  have hp : (⟨M3.one, ⟨-3, 0, 0⟩⟩ : Iso ℝ).Rigid := M3.IsRot.one
  refine ⟨fun _ => some e, ⟨M3.one, ⟨-3, 0, 0⟩⟩, ⟨3 / 5, 0, 4 / 5⟩, ⟨0, 0, 1⟩, hp, hn, ?_⟩
  rw [C91_camera_exact (x := ⟨3, 0, 4⟩) (d := 5) (d' := 4) hp rfl he (by simp only [lin]; norm_num)
    (by simp only [lin]; norm_num) (by norm_num) (by norm_num) (by ext <;> simp only [lin] <;> norm_num)
    (by ext <;> simp only [lin] <;> norm_num) hn]
  norm_num

/-! ## Triangulating in the frame of a camera -/

/-- **C91** Triangulation in the frame of a camera is triangulation in a world whose origin is that camera; a triangulator
of observations used for two cameras is the special case of one further camera. -/
theorem C91_to_camera {tri : List Observation → Option (V4 ℝ)} (hN : ∀ os p, tri os = some p → Normal p)
    (c : V3 ℝ) (pairs : List Observation) : toCamera tri c pairs = tri (⟨Iso.one, c⟩ :: pairs) := by
  unfold toCamera
  cases h : tri (⟨Iso.one, c⟩ :: pairs) with
  | none => rfl
  | some p => exact fromHomogeneous_normal (hN _ _ h)

/-- **C91** (partial) On exact data the default methods on top of the eigenvalue triangulator give the true point in the
frame of the first camera if all rays are at most a right angle from the first one, and nothing otherwise. (The property
asks for the point always.) -/
theorem C91_to_camera_exact_partial {solver : M4 → Option Eigen4} {c x : V3 ℝ} {pairs : List Observation} {e : Eigen4}
    (hs : solver (linearSystem (⟨Iso.one, c⟩ :: pairs)) = some e)
    (he : IsEigen4 (linearSystem (⟨Iso.one, c⟩ :: pairs)) e) (hr : ∀ o ∈ pairs, o.pose.Rigid) (hc : Looks Iso.one c x)
    (h : ∀ o ∈ pairs, Looks o.pose o.bearing x) {o : Observation} (ho : o ∈ pairs)
    (hn : c.cross o.ray ≠ V3.zero) :
    ((∀ o ∈ pairs, 0 ≤ o.ray.dot c) → (toCamera (linearEigen solver) c pairs).bind toPoint = some x) ∧
    ((∃ o ∈ pairs, o.ray.dot c < 0) → toCamera (linearEigen solver) c pairs = none) := by
  have hN : ∀ os p, linearEigen solver os = some p → Normal p := by
    intro os p hp
    unfold linearEigen at hp
    split at hp
    · cases hp
    · obtain ⟨e, _, hp⟩ := Option.bind_eq_some_iff.mp hp
      obtain ⟨q, hq, hp⟩ := Option.bind_eq_some_iff.mp hp
      split at hp
      · obtain rfl := Option.some.inj hp
        exact normal_of_some hq
      · cases hp
  obtain ⟨hc1, d, hd, hcx⟩ := hc
  have hx : x = V3.smul d c := by rw [← hcx]; lin3
  have hx0 : x ≠ V3.zero := by
    intro e0
    rw [hx] at e0
    have := congrArg V3.normSq e0
    rw [V3.normSq_smul, hc1] at this
    simp only [lin] at this
    nlinarith
  have hP : Proper (⟨Iso.one, c⟩ :: pairs) := by
    constructor <;> simp only [List.mem_cons, forall_eq_or_imp]
    · exact ⟨Iso.Rigid.one, hr⟩
    · exact ⟨hc1, fun o ho => (h o ho).1⟩
  have hS : ∀ o ∈ (⟨Iso.one, c⟩ :: pairs : List Observation), Sighted o.pose o.bearing x := by
    simp only [List.mem_cons, forall_eq_or_imp]
    exact ⟨⟨hc1, d, hcx⟩, fun o ho => ⟨(h o ho).1, (h o ho).2.imp fun d h => h.2⟩⟩
  have hray : (⟨Iso.one, c⟩ : Observation).ray = c := by lin3
  have main := C51_exact hs he hP hS (o := ⟨Iso.one, c⟩) (o' := o) (by simp) (List.mem_cons_of_mem _ ho)
    (by rw [hray]; exact hn) hx0
  have hiff : (∀ o ∈ (⟨Iso.one, c⟩ :: pairs : List Observation), 0 ≤ o.ray.dot x) ↔ ∀ o ∈ pairs, 0 ≤ o.ray.dot c := by
    simp only [List.mem_cons, forall_eq_or_imp, hray, hx, V3.dot_smul, V3.dot_self, hc1]
    constructor
    · intro h o ho
      exact (mul_nonneg_iff_of_pos_left hd).mp (h.2 o ho)
    · intro h
      exact ⟨by linarith, fun o ho => mul_nonneg hd.le (h o ho)⟩
  rw [C91_to_camera hN]
  constructor
  · intro hh
    rw [main, if_pos (hiff.mpr hh)]
  · rintro ⟨o', ho', hlt⟩
    rw [if_neg (fun hh => absurd (hiff.mp hh o' ho') (not_le.mpr hlt))] at main
    cases hl : linearEigen solver (⟨Iso.one, c⟩ :: pairs) with
    | none => rfl
    | some p =>
      exfalso
      obtain ⟨s, hs0, hv⟩ := least_vector hP hS (o := ⟨Iso.one, c⟩) (o' := o) (by simp) (List.mem_cons_of_mem _ ho)
        (by rw [hray]; exact hn) he
      obtain ⟨q, hq1, hq2, _⟩ := C33_round_trip x hx0
      unfold linearEigen at hl
      split at hl
      · cases hl
      · simp only [hs, Option.bind_eq_bind, Option.bind_some, hv, fromHomogeneous_hom hs0, hq1] at hl
        split at hl
        · rename_i hlen hch
          have hp2 : linearEigen solver (⟨Iso.one, c⟩ :: pairs) = some q := by
            unfold linearEigen
            rw [if_neg hlen]
            simp only [hs, Option.bind_eq_bind, Option.bind_some, hv, fromHomogeneous_hom hs0, hq1]
            rw [if_pos hch]
          rw [hp2, Option.bind_some, hq2] at main
          cases main
        · cases hl

/-! ## Reprojection errors -/

theorem project_some {v : V3 ℝ} (h : v.z ≠ 0) : ∃ i, project v = some i ∧ ImageOf v i := by
  refine ⟨⟨v.x / v.z, v.y / v.z⟩, ?_, h, ?_, ?_⟩
  · unfold project cdiv
    rw [if_neg h, if_neg h]
    rfl
  · field_simp
  · field_simp

theorem project_none {v : V3 ℝ} (h : v.z = 0) : project v = none := by
  unfold project cdiv
  rw [if_pos h]
  rfl

theorem ImageOf.unique {v : V3 ℝ} {i j : V2 ℝ} (hi : ImageOf v i) (hj : ImageOf v j) : i = j := by
  obtain ⟨h0, h1, h2⟩ := hi
  obtain ⟨_, h3, h4⟩ := hj
  ext
  · exact mul_left_cancel₀ h0 (h1.trans h3.symm)
  · exact mul_left_cancel₀ h0 (h2.trans h4.symm)

theorem ImageOf.scaled {v : V3 ℝ} {i : V2 ℝ} {s : ℝ} (hs : s ≠ 0) : ImageOf (V3.smul s v) i ↔ ImageOf v i := by
  unfold ImageOf
  simp only [lin]
  constructor
  · rintro ⟨h0, h1, h2⟩
    exact ⟨(mul_ne_zero_iff.mp h0).2, mul_left_cancel₀ hs (by linarith), mul_left_cancel₀ hs (by linarith)⟩
  · rintro ⟨h0, h1, h2⟩
    exact ⟨mul_ne_zero hs h0, by rw [← h1]; ring, by rw [← h2]; ring⟩

/-- **C91** What the reprojection error is: for a triangulated point at the position `x` that lies in front of both
cameras, the images of the bearings minus the images of the point. There is no error if the point is behind one of the
cameras or there is none. -/
theorem C91_reprojection {tri : Iso ℝ → V3 ℝ → V3 ℝ → Option (V4 ℝ)} {pose : Iso ℝ} {a b : V3 ℝ} :
    (tri pose a b = none → reprojectionError tri pose a b = none) ∧
    ∀ p x, tri pose a b = some p → Normal p → toPoint p = some x →
      (x.z < 0 ∨ (pose.point x).z < 0 → reprojectionError tri pose a b = none) ∧
      (0 < x.z → 0 < (pose.point x).z → ∀ ia ib ja jb, ImageOf a ia → ImageOf b ib → ImageOf x ja →
        ImageOf (pose.point x) jb → reprojectionError tri pose a b = some (some (ia.sub ja, ib.sub jb)) ∧
          averageReprojectionError tri pose a b = some (some (((ia.sub ja).norm + (ib.sub jb).norm) / 2))) := by
  refine ⟨fun h => by unfold reprojectionError; rw [h], ?_⟩
  intro p x hp hN hx
  obtain ⟨s, hs, rfl⟩ := normal_of_position hN hx
  have hbz : (bearing (V4.smul s (hom x))).z = s * x.z := rfl
  have ht := transform_position (pose := pose) hN hx
  have hq : ∀ {q}, fromPoint (pose.point x) = some q → ∃ k > 0, bearing q = V3.smul k (pose.point x) := by
    intro q hq
    obtain ⟨_, _, k, rfl, hk, _⟩ := (C33_from_homogeneous _).2 q hq
    exact ⟨k, hk zero_le_one, rfl⟩
  constructor
  · intro h
    unfold reprojectionError
    rw [hp]
    simp only
    rw [hbz]
    split
    · rfl
    · rename_i h1
      have hx0 : 0 ≤ x.z := by
        by_contra h2
        exact h1 (mul_neg_of_pos_of_neg hs (not_le.mp h2))
      have h2 : (pose.point x).z < 0 := h.resolve_left (not_lt.mpr hx0)
      rw [ht]
      have h0 : pose.point x ≠ V3.zero := by
        intro e
        rw [e] at h2
        simp [V3.zero] at h2
      obtain ⟨q, hq1, _⟩ := C33_round_trip _ h0
      rw [hq1]
      obtain ⟨k, hk, e⟩ := hq hq1
      simp only
      rw [if_pos]
      rw [e]
      exact mul_neg_of_pos_of_neg hk h2
  · intro hz hz' ia ib ja jb h1 h2 h3 h4
    have h0 : pose.point x ≠ V3.zero := by
      intro e
      rw [e] at hz'
      simp [V3.zero] at hz'
    obtain ⟨q, hq1, _⟩ := C33_round_trip _ h0
    obtain ⟨k, hk, e⟩ := hq hq1
    have main : reprojectionError tri pose a b = some (some (ia.sub ja, ib.sub jb)) := by
      unfold reprojectionError
      rw [hp]
      simp only
      rw [hbz, if_neg (not_lt.mpr (mul_nonneg hs.le hz.le)), ht, hq1]
      simp only
      rw [if_neg (by rw [e]; exact not_lt.mpr (mul_nonneg hk.le hz'.le))]
      obtain ⟨i1, e1, g1⟩ := project_some h1.1
      obtain ⟨i2, e2, g2⟩ := project_some h2.1
      have h3' : ImageOf (bearing (V4.smul s (hom x))) ja := (ImageOf.scaled hs.ne').mpr h3
      have h4' : ImageOf (bearing q) jb := by rw [e]; exact (ImageOf.scaled hk.ne').mpr h4
      obtain ⟨i3, e3, g3⟩ := project_some h3'.1
      obtain ⟨i4, e4, g4⟩ := project_some h4'.1
      rw [e1, e2, e3, e4]
      rw [g1.unique h1, g2.unique h2, g3.unique h3', g4.unique h4']
      rfl
    refine ⟨main, ?_⟩
    unfold averageReprojectionError
    rw [main]
    simp only [Option.map_some, Option.some.injEq]
    ring

/-- **C91** For exact bearings of a point in front of both cameras, and a triangulator that finds it, both errors and
their average are zero. -/
theorem C91_reprojection_exact {tri : Iso ℝ → V3 ℝ → V3 ℝ → Option (V4 ℝ)} {pose : Iso ℝ} {a b x : V3 ℝ} {p : V4 ℝ}
    (hp : tri pose a b = some p) (hN : Normal p) (hx : toPoint p = some x) (ha : Looks Iso.one a x)
    (hb : Looks pose b x) (hz : 0 < x.z) (hz' : 0 < (pose.point x).z) :
    reprojectionError tri pose a b = some (some (⟨0, 0⟩, ⟨0, 0⟩)) ∧
    averageReprojectionError tri pose a b = some (some 0) := by
  obtain ⟨_, d, hd, hxa⟩ := ha
  obtain ⟨_, d', hd', hxb⟩ := hb
  have hxa' : x = V3.smul d a := by rw [← hxa]; lin3
  obtain ⟨ia, _, ga⟩ := project_some hz.ne'
  obtain ⟨ib, _, gb⟩ := project_some hz'.ne'
  have ga' : ImageOf a ia := by
    rw [hxa'] at ga
    exact (ImageOf.scaled hd.ne').mp ga
  have gb' : ImageOf b ib := by
    rw [hxb] at gb
    exact (ImageOf.scaled hd'.ne').mp gb
  obtain ⟨h1, h2⟩ := ((C91_reprojection (tri := tri) (pose := pose) (a := a) (b := b)).2 p x hp hN hx).2 hz hz'
    ia ib ia ib ga' gb' ga gb
  have e0 : ∀ i : V2 ℝ, i.sub i = ⟨0, 0⟩ := by
    intro i; ext <;> simp only [lin] <;> ring
  rw [e0, e0] at h1 h2
  refine ⟨h1, ?_⟩
  rw [h2]
  unfold V2.norm
  simp [lin]

/-- **C91** Conversely an average of zero means that the triangulated point has exactly the images of the bearings. -/
theorem C91_reprojection_zero {tri : Iso ℝ → V3 ℝ → V3 ℝ → Option (V4 ℝ)} {pose : Iso ℝ} {a b x : V3 ℝ} {p : V4 ℝ}
    (hp : tri pose a b = some p) (hN : Normal p) (hx : toPoint p = some x)
    (h : averageReprojectionError tri pose a b = some (some 0)) :
    ∃ ia ib, ImageOf a ia ∧ ImageOf b ib ∧ ImageOf x ia ∧ ImageOf (pose.point x) ib := by
  obtain ⟨s, hs, rfl⟩ := normal_of_position hN hx
  unfold averageReprojectionError at h
  obtain ⟨r, hr, h⟩ := Option.map_eq_some_iff.mp h
  obtain ⟨e, rfl, h⟩ := Option.map_eq_some_iff.mp h
  unfold reprojectionError at hr
  rw [hp] at hr
  simp only at hr
  rw [transform_position hN hx] at hr
  split at hr
  · cases hr
  · split at hr
    · cases hr
    · rename_i q hq
      obtain ⟨_, _, k, rfl, hk, _⟩ := (C33_from_homogeneous _).2 q hq
      have hk := hk zero_le_one
      split at hr
      · cases hr
      · have hr := Option.some.inj hr
        obtain ⟨i1, e1, hr⟩ := Option.bind_eq_some_iff.mp hr
        obtain ⟨i2, e2, hr⟩ := Option.bind_eq_some_iff.mp hr
        obtain ⟨i3, e3, hr⟩ := Option.bind_eq_some_iff.mp hr
        obtain ⟨i4, e4, hr⟩ := Option.bind_eq_some_iff.mp hr
        obtain rfl := Option.some.inj hr
        have get : ∀ {v i}, project v = some i → ImageOf v i := by
          intro v i hi
          by_cases h0 : v.z = 0
          · rw [project_none h0] at hi; cases hi
          · obtain ⟨j, hj, hg⟩ := project_some h0
            rw [hi] at hj
            obtain rfl := Option.some.inj hj
            exact hg
        have n0 : ∀ v : V2 ℝ, 0 ≤ v.norm := fun v => Real.sqrt_nonneg _
        have nz : ∀ v w : V2 ℝ, (v.sub w).norm = 0 → v = w := by
          intro v w hv
          unfold V2.norm at hv
          have h1 : 0 ≤ (v.sub w).normSq := by
            simp only [lin]
            nlinarith [mul_self_nonneg (v.x - w.x), mul_self_nonneg (v.y - w.y)]
          have h2 := (Real.sqrt_eq_zero h1).mp hv
          simp only [lin] at h2
          have hx := mul_self_nonneg (v.x - w.x)
          have hy := mul_self_nonneg (v.y - w.y)
          ext
          · have : v.x - w.x = 0 := mul_self_eq_zero.mp (by linarith)
            linarith
          · have : v.y - w.y = 0 := mul_self_eq_zero.mp (by linarith)
            linarith
        have h1 := n0 (i1.sub i3)
        have h2 := n0 (i2.sub i4)
        have f1 := nz i1 i3 (by linarith)
        have f2 := nz i2 i4 (by linarith)
        subst f1 f2
        refine ⟨i1, i2, get e1, get e2, (ImageOf.scaled hs.ne').mp (get e3), (ImageOf.scaled hk.ne').mp (get e4)⟩

/-- A case that meets the hypotheses of `C91_reprojection_exact`. -/
example : ∃ (tri : Iso ℝ → V3 ℝ → V3 ℝ → Option (V4 ℝ)) (pose : Iso ℝ) (a b : V3 ℝ),
    reprojectionError tri pose a b = some (some (⟨0, 0⟩, ⟨0, 0⟩)) := by
  obtain ⟨q, hq1, hq2, _⟩ := C33_round_trip ⟨3, 0, 4⟩ (fun e => by simpa [V3.zero] using congrArg V3.x e)
  refine ⟨fun _ _ _ => some q, ⟨M3.one, ⟨-3, 0, 0⟩⟩, ⟨3 / 5, 0, 4 / 5⟩, ⟨0, 0, 1⟩,
    (C91_reprojection_exact (x := ⟨3, 0, 4⟩) rfl (normal_of_some hq1) hq2 ?_ ?_ (by norm_num)
      (by simp only [lin]; norm_num)).1⟩
  · exact ⟨by simp only [lin]; norm_num, 5, by norm_num, by ext <;> simp only [lin] <;> norm_num⟩
  · exact ⟨by simp only [lin]; norm_num, 4, by norm_num, by ext <;> simp only [lin] <;> norm_num⟩

end Verif.Geo
