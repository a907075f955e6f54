import Verif.Lemmas.LinearTriangulate
import Verif.Props.Triangulate

/-!
# C51, C52: linear triangulation
-/

namespace Verif.Geo

/-- Rigid poses and unit bearings. -/
structure Proper (os : List Observation) : Prop where
  rigid : ∀ o ∈ os, o.pose.Rigid
  unit : ∀ o ∈ os, o.bearing.normSq = 1

/-- **C51** The quadratic form of the eigenvalue triangulator is the sum of the squared distances of the
point from the rays. -/
theorem C51_quadratic_form {os : List Observation} (h : Proper os) (x : V3 ℝ) :
    (hom x).dot ((linearSystem os).mulVec (hom x)) = rayError os x := by
  rw [linearSystem_form]
  unfold rayError
  congr 1
  apply List.map_congr_left
  intro o ho
  rw [termSquare_form (h.unit o ho), camera_hom]
  have hR := h.rigid o ho
  have e1 : x.sub o.centre = o.pose.inv.rot.mulVec (o.pose.point x) := by
    have : o.pose.inv.rot.mulVec (o.pose.point x) =
        ((o.pose.rot.transpose.mul o.pose.rot).mulVec x).sub o.centre := by lin3
    rw [this, hR.orth, M3.one_mulVec]
  unfold lineDistSq
  rw [e1, M3.IsRot.normSq_mulVec hR.inv]
  unfold Observation.ray
  rw [M3.IsRot.dot_mulVec hR.inv]

/-- **C51** It vanishes at the true point. -/
theorem C51_annihilates {os : List Observation} {x : V3 ℝ}
    (h : ∀ o ∈ os, Sighted o.pose o.bearing x) :
    (linearSystem os).mulVec (hom x) = ⟨0, 0, 0, 0⟩ := by
  apply V4.eq_zero
  rw [linearSystem_form]
  apply List.sum_eq_zero
  intro r hr
  obtain ⟨o, ho, rfl⟩ := List.mem_map.mp hr
  obtain ⟨hb, d, hd⟩ := h o ho
  have e : ∀ v : V4 ℝ, v.dot ((termSquare o).mulVec (hom x)) =
      (camera o.pose v).dot (camera o.pose (hom x)) - 2 * ((camera o.pose v).dot o.bearing *
        (camera o.pose (hom x)).dot o.bearing) + o.bearing.normSq * ((camera o.pose v).dot o.bearing *
        (camera o.pose (hom x)).dot o.bearing) := by
    intro v
    generalize hom x = w
    unfold camera
    simp only [lin]
    ring
  rw [e, camera_hom, hd, hb, V3.dot_smul, V3.smul_dot, V3.dot_self, hb]
  ring

/-- **C51** With two observations of different direction nothing else is a solution: the null space is
one-dimensional. -/
theorem C51_unique {os : List Observation} (hp : Proper os) {x : V3 ℝ}
    (h : ∀ o ∈ os, Sighted o.pose o.bearing x) {o o' : Observation} (ho : o ∈ os) (ho' : o' ∈ os)
    (hn : o.ray.cross o'.ray ≠ V3.zero) {v : V4 ℝ}
    (hv : v.dot ((linearSystem os).mulVec v) = 0) : v = V4.smul v.w (hom x) :=
  unique_point (hp.rigid o ho) (hp.rigid o' ho') (h o ho).2 (h o' ho').2
    (linearSystem_zero hp.unit hv o ho) (linearSystem_zero hp.unit hv o' ho') hn

/-- The eigenvector chosen is a multiple of the true point. -/
theorem least_vector {os : List Observation} (hp : Proper os) {x : V3 ℝ}
    (h : ∀ o ∈ os, Sighted o.pose o.bearing x) {o o' : Observation} (ho : o ∈ os) (ho' : o' ∈ os)
    (hn : o.ray.cross o'.ray ≠ V3.zero) {e : Eigen4} (he : IsEigen4 (linearSystem os) e) :
    ∃ s, s ≠ 0 ∧ e.vecs (least4 e.vals) = V4.smul s (hom x) := by
  have hval : ∀ i, (e.vecs i).dot ((linearSystem os).mulVec (e.vecs i)) = e.vals i := by
    intro i
    rw [he.eigen, V4.dot_smul, he.unit, mul_one]
  have hge : ∀ i, 0 ≤ e.vals i := fun i => hval i ▸ linearSystem_nonneg hp.unit _
  have hex : ∃ i, (e.vecs i).dot (hom x) ≠ 0 := by
    by_contra hne
    push Not at hne
    have := congrArg V4.w (orthonormal_complete he hne)
    simp [hom] at this
  obtain ⟨i, hi⟩ := hex
  have hi0 : e.vals i = 0 := by
    have h1 := linearSystem_symm os (e.vecs i) (hom x)
    rw [C51_annihilates h, he.eigen, V4.dot_smul, V4.dot_comm (hom x)] at h1
    have h2 : (e.vecs i).dot ⟨0, 0, 0, 0⟩ = 0 := by simp only [lin]; ring
    rw [h2] at h1
    exact (mul_eq_zero.mp h1.symm).resolve_right hi
  have hl0 : e.vals (least4 e.vals) = 0 :=
    le_antisymm ((least4_le e.vals i).trans_eq hi0) (hge _)
  have hv := C51_unique hp h ho ho' hn (v := e.vecs (least4 e.vals)) (by rw [hval, hl0])
  refine ⟨_, ?_, hv⟩
  intro h0
  have h1 := he.unit (least4 e.vals)
  rw [hv, h0] at h1
  simp only [lin] at h1
  norm_num at h1

theorem fromHomogeneous_hom {s : ℝ} (hs : s ≠ 0) (x : V3 ℝ) :
    fromHomogeneous (V4.smul s (hom x)) = fromPoint x := by
  rcases lt_or_gt_of_ne hs with h | h
  · rw [fromHomogeneous_eq]
    unfold fromPoint
    rw [fromHomogeneous_eq]
    have e1 : (V4.smul s (hom x)).xyz = V3.smul s x := rfl
    have e2 : (⟨x.x, x.y, x.z, 1⟩ : V4 ℝ).xyz = x := rfl
    have e3 : sgn (V4.smul s (hom x)).w = -1 := by
      unfold sgn hom; simp only [lin, mul_one, if_pos h]
    have e4 : sgn (1 : ℝ) = 1 := sgn_of_nonneg zero_le_one
    rw [e1, e2, e3, e4, V3.norm_smul, abs_of_neg h]
    by_cases hx : x.norm = 0
    · simp [hx]
    · rw [if_neg hx, if_neg (mul_ne_zero (neg_ne_zero.mpr hs) hx)]
      congr 1
      unfold hom
      ext <;> simp only [lin] <;> field_simp
  · rw [fromHomogeneous_smul _ h]; rfl

open Classical in
/-- **C51** What the eigenvalue triangulator returns on exact data: the true point, provided the
cheirality test lets it through. The test compares the direction of each ray with the direction of the
point from the world's origin. -/
theorem C51_exact {solver : M4 → Option Eigen4} {os : List Observation} {e : Eigen4}
    (hs : solver (linearSystem os) = some e) (he : IsEigen4 (linearSystem os) e) (hp : Proper os)
    {x : V3 ℝ} (h : ∀ o ∈ os, Sighted o.pose o.bearing x) {o o' : Observation} (ho : o ∈ os)
    (ho' : o' ∈ os) (hn : o.ray.cross o'.ray ≠ V3.zero) (hx : x ≠ V3.zero) :
    (linearEigen solver os).bind toPoint =
      if ∀ o ∈ os, 0 ≤ o.ray.dot x then some x else none := by
  have hlen : ¬ os.length < 2 := by
    intro hl
    match os, hl with
    | [], _ => simp at ho
    | [a], _ =>
      rw [List.mem_singleton] at ho ho'
      rw [ho, ho', V3.cross_self] at hn
      exact hn rfl
  obtain ⟨s, hs0, hv⟩ := least_vector hp h ho ho' hn he
  obtain ⟨q, hq1, hq2, hq3, hq4⟩ := C33_round_trip x hx
  have hch : cheiral os q ↔ ∀ o ∈ os, 0 ≤ o.ray.dot x := by
    unfold cheiral
    have hpos := V3.norm_pos hx
    refine forall₂_congr fun o _ => ?_
    conv_rhs => rw [← hq3, V3.dot_smul]
    exact (mul_nonneg_iff_of_pos_left hpos).symm
  unfold linearEigen
  rw [if_neg hlen]
  simp only [hs, Option.bind_eq_bind, Option.bind_some, hv, fromHomogeneous_hom hs0, hq1]
  by_cases hc : ∀ o ∈ os, 0 ≤ o.ray.dot x
  · rw [if_pos (hch.mpr hc), if_pos hc, Option.bind_some, hq2]
  · rw [if_neg (fun h' => hc (hch.mp h')), if_neg hc, Option.bind_none]

/-- **C51** Fewer than two observations give nothing. -/
theorem C51_too_few (solver : M4 → Option Eigen4) {os : List Observation} (h : os.length < 2) :
    linearEigen solver os = none := by
  unfold linearEigen; rw [if_pos h]

/-- **C51** The direct linear transform has the true point in its null space. -/
theorem C51_dlt_annihilates {pose : Iso ℝ} {a b x : V3 ℝ} (ha : Sighted Iso.one a x)
    (hb : Sighted pose b x) : (dltDesign pose a b).mulVec (hom x) = ⟨0, 0, 0, 0⟩ := by
  obtain ⟨_, l, hl⟩ := ha
  obtain ⟨_, m, hm⟩ := hb
  have hx : x = V3.smul l a := by rw [← hl]; lin3
  have e3 : (dltRow3 pose b).dot (hom x) = b.x * (pose.point x).z - b.z * (pose.point x).x := by
    unfold hom; simp only [lin]; ring
  have e4 : (dltRow4 pose b).dot (hom x) = b.y * (pose.point x).z - b.z * (pose.point x).y := by
    unfold hom; simp only [lin]; ring
  have e1 : (dltRow1 a).dot (hom x) = 0 := by rw [hx]; unfold hom; simp only [lin]; ring
  have e2 : (dltRow2 a).dot (hom x) = 0 := by rw [hx]; unfold hom; simp only [lin]; ring
  rw [hm] at e3 e4
  unfold M4.mulVec dltDesign
  ext
  · exact e1
  · exact e2
  · simp only [e3]; simp only [lin]; ring
  · simp only [e4]; simp only [lin]; ring

/-- **C51** Nothing else is, if the rays are not parallel and neither is perpendicular to its optical
axis. -/
theorem C51_dlt_unique {pose : Iso ℝ} (hp : pose.Rigid) {a b x : V3 ℝ} (ha : Sighted Iso.one a x)
    (hb : Sighted pose b x) (haz : a.z ≠ 0) (hbz : b.z ≠ 0)
    (hn : a.cross (pose.inv.rot.mulVec b) ≠ V3.zero) {v : V4 ℝ}
    (hv : (dltDesign pose a b).mulVec v = ⟨0, 0, 0, 0⟩) : v = V4.smul v.w (hom x) := by
  rw [V4.ext_iff] at hv
  obtain ⟨h1, h2, h3, h4⟩ := hv
  have e3 : (dltRow3 pose b).dot v = b.x * (camera pose v).z - b.z * (camera pose v).x := by
    unfold camera; simp only [lin]; ring
  have e4 : (dltRow4 pose b).dot v = b.y * (camera pose v).z - b.z * (camera pose v).y := by
    unfold camera; simp only [lin]; ring
  have ha' : ∃ k, camera Iso.one v = V3.smul k a := by
    refine ⟨v.z / a.z, ?_⟩
    unfold camera
    simp only [lin] at h1 h2
    ext <;> simp only [lin] <;> field_simp <;> linarith
  have hb' : ∃ k, camera pose v = V3.smul k b := by
    refine ⟨(camera pose v).z / b.z, ?_⟩
    change (dltRow3 pose b).dot v = 0 at h3
    change (dltRow4 pose b).dot v = 0 at h4
    rw [e3] at h3
    rw [e4] at h4
    generalize camera pose v = c at h3 h4 ⊢
    ext <;> simp only [lin] <;> field_simp <;> linarith
  refine unique_point Iso.Rigid.one hp ha.2 hb.2 ha' hb' ?_
  have : (Iso.one : Iso ℝ).inv.rot.mulVec a = a := by lin3
  rw [this]
  exact hn

/-- **C51** (partial) On exact data of a point in front of both cameras, the direct linear transform
gives the true point if the two rays are at most a right angle apart, and nothing otherwise. -/
theorem C51_dlt_exact_partial {last : M4 → Option (V4 ℝ)} {pose : Iso ℝ} (hp : pose.Rigid)
    {a b x : V3 ℝ} {v : V4 ℝ} (hl : last (dltDesign pose a b) = some v)
    (hv : IsLast (dltDesign pose a b) v) (ha : Looks Iso.one a x) (hb : Looks pose b x)
    (haz : a.z ≠ 0) (hbz : b.z ≠ 0) (hn : a.cross (pose.inv.rot.mulVec b) ≠ V3.zero) :
    (0 ≤ a.dot (pose.inv.rot.mulVec b) → (relativeDlt last pose a b).bind toPoint = some x) ∧
    (a.dot (pose.inv.rot.mulVec b) < 0 → relativeDlt last pose a b = none) := by
  have ha' : Sighted Iso.one a x := ⟨ha.1, ha.2.imp fun d h => h.2⟩
  have hb' : Sighted pose b x := ⟨hb.1, hb.2.imp fun d h => h.2⟩
  obtain ⟨l, hlp, _, _, ha1, _, hx, _⟩ := rays_of_looks hp ha hb
  have hDv : (dltDesign pose a b).mulVec v = ⟨0, 0, 0, 0⟩ := by
    apply V4.eq_zero
    have h1 := hv.least (hom x)
    rw [C51_dlt_annihilates ha' hb'] at h1
    have h2 : (⟨0, 0, 0, 0⟩ : V4 ℝ).dot ⟨0, 0, 0, 0⟩ = 0 := by simp only [lin]; ring
    rw [h2] at h1
    have h3 : 0 < (hom x).dot (hom x) := by
      unfold hom
      simp only [lin]
      nlinarith [mul_self_nonneg x.x, mul_self_nonneg x.y, mul_self_nonneg x.z]
    exact le_antisymm (nonpos_of_mul_nonpos_left h1 h3) (V4.dot_self_nonneg _)
  have hvx := C51_dlt_unique hp ha' hb' haz hbz hn hDv
  have hw : v.w ≠ 0 := by
    intro h0
    have h1 := hv.unit
    rw [hvx, h0] at h1
    simp only [lin] at h1
    norm_num at h1
  have hx0 : x ≠ V3.zero := by
    intro e
    have e' : V3.smul l a = V3.zero := hx ▸ e
    have := congrArg V3.normSq e'
    rw [V3.normSq_smul, ha1] at this
    simp only [lin] at this
    nlinarith
  obtain ⟨q, hq1, hq2, hq3, hq4⟩ := C33_round_trip x hx0
  have hxn : x.norm = l := by rw [hx, V3.norm_smul, abs_of_pos hlp,
    V3.norm_of_normSq zero_le_one (by rw [ha1]; norm_num), mul_one]
  have hqa : bearing q = a := by
    rw [hxn, hx] at hq3
    rw [V3.ext_iff] at hq3 ⊢
    simp only [V3.smul] at hq3
    exact ⟨mul_left_cancel₀ hlp.ne' hq3.1, mul_left_cancel₀ hlp.ne' hq3.2.1,
      mul_left_cancel₀ hlp.ne' hq3.2.2⟩
  have hr : relativeDlt last pose a b =
      if 0 ≤ a.dot (pose.inv.rot.mulVec b) then some q else none := by
    unfold relativeDlt
    simp only [hl, Option.bind_eq_bind, Option.bind_some]
    rw [hvx, fromHomogeneous_hom hw, hq1, Option.bind_some, hqa, V3.dot_self, ha1]
    by_cases hc : 0 ≤ a.dot (pose.inv.rot.mulVec b)
    · rw [if_pos ⟨zero_le_one, hc⟩, if_pos hc]
    · rw [if_neg (fun h => hc h.2), if_neg hc]
  rw [hr]
  refine ⟨fun h => ?_, fun h => ?_⟩
  · rw [if_pos h, Option.bind_some, hq2]
  · rw [if_neg (not_le.mpr h)]

end Verif.Geo
