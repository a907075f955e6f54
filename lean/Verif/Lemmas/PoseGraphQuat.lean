import Verif.Lemmas.QuatDescent
import Verif.Lemmas.PoseGraphTurns

/-! Helper lemmas: turning cameras about any axes is a descent of quaternions. -/

namespace Verif.Geo.Quat

open Verif

theorem angleOf_rot {q : Quat} (hq : q.Unit) (h0 : 0 ≤ q.w) : Sfm.angleOf q.rot = 2 * Real.arccos q.w := by
  unfold Sfm.angleOf
  rw [rot_trace hq, arccos_double h0 (unit_w hq).2]

/-- A rotation that is not a half turn, as a quaternion. -/
theorem lift {S : M3 ℝ} (hS : S.IsRot) (h : Sfm.angleOf S < Real.pi) :
    ∃ q : Quat, q.Unit ∧ q.rot = S ∧ q.w = Real.cos (Sfm.angleOf S / 2) := by
  have ht : S.trace ≠ -1 := by
    intro ht
    unfold Sfm.angleOf at h
    rw [ht, show ((-1 - 1) / 2 : ℝ) = -1 by norm_num, Real.arccos_neg_one] at h
    exact lt_irrefl _ h
  have key : ∃ q : Quat, q.Unit ∧ q.rot = S ∧ 0 ≤ q.w := by
    have h1 : (exp (logRot S)).rot = S := by rw [exp_rot, expRot_logRot hS ht]
    by_cases hw : 0 ≤ (exp (logRot S)).w
    · exact ⟨_, exp_unit _, h1, hw⟩
    · push Not at hw
      have hu := exp_unit (logRot S)
      generalize exp (logRot S) = p at *
      refine ⟨⟨-p.w, p.v.neg⟩, ?_, ?_, by show 0 ≤ -p.w; linarith⟩
      · unfold Unit at *
        simp only [lin] at *
        linarith
      · rw [← h1]
        lin3
  obtain ⟨q, hq, h1, h2⟩ := key
  refine ⟨q, hq, h1, ?_⟩
  rw [← h1, angleOf_rot hq h2, mul_div_assoc, mul_comm, div_mul_cancel₀ _ two_ne_zero]
  exact (Real.cos_arccos (unit_w hq).1 (unit_w hq).2).symm

theorem angleOf_expRot {a : V3 ℝ} (h : a.norm ≤ Real.pi) : Sfm.angleOf (expRot a) = a.norm := by
  have h0 := V3.norm_nonneg a
  have hw : (exp a).w = Real.cos (a.norm / 2) := rfl
  have hc : 0 ≤ Real.cos (a.norm / 2) := Real.cos_nonneg_of_mem_Icc ⟨by linarith, by linarith⟩
  rw [← exp_rot, angleOf_rot (exp_unit a) (by rw [hw]; exact hc), hw, Real.arccos_cos (by linarith) (by linarith)]
  ring

theorem vsum_parts (l : List (V3 ℝ)) :
    (vsum l).x = (l.map V3.x).sum ∧ (vsum l).y = (l.map V3.y).sum ∧ (vsum l).z = (l.map V3.z).sum := by
  induction l with
  | nil => exact ⟨rfl, rfl, rfl⟩
  | cons a l ih =>
    obtain ⟨h1, h2, h3⟩ := ih
    simp only [List.map_cons, List.sum_cons, ← h1, ← h2, ← h3]
    exact ⟨rfl, rfl, rfl⟩

theorem vsum_linear {α : Type} (l : List α) (f g : α → V3 ℝ) (A : M3 ℝ) (t u : ℝ)
    (h : ∀ a ∈ l, V3.smul t (f a) = A.mulVec (V3.smul u (g a))) :
    V3.smul t (vsum (l.map f)) = A.mulVec (V3.smul u (vsum (l.map g))) := by
  induction l with
  | nil => show V3.smul t V3.zero = A.mulVec (V3.smul u V3.zero); lin3
  | cons a l ih =>
    have h1 := ih (fun b hb => h b (by simp [hb]))
    have h2 := h a (by simp)
    show V3.smul t ((f a).add (vsum (l.map f))) = A.mulVec (V3.smul u ((g a).add (vsum (l.map g))))
    have e1 : ∀ (s : ℝ) (x y : V3 ℝ), V3.smul s (x.add y) = (V3.smul s x).add (V3.smul s y) := by intro s x y; lin3
    rw [e1, e1, M3.mulVec_add, h1, h2]

end Verif.Geo.Quat

namespace Verif.Sfm

open Verif.Geo

/-- Which cameras the edges join. -/
def bareEdges (edges : List (Nat × Nat × Iso ℝ)) : Graph.Edges := edges.map (fun e => (e.1, e.2.1, 0))

theorem sum_rotation (l : List Tangent) : (Tangent.sum l).rotation = Quat.vsum (l.map Tangent.rotation) := by
  obtain ⟨_, h4, h5, h6⟩ := Tangent.total_parts l
  obtain ⟨g1, g2, g3⟩ := Quat.vsum_parts (l.map Tangent.rotation)
  rw [List.map_map] at g1 g2 g3
  ext
  · rw [h4, g1]; rfl
  · rw [h5, g2]; rfl
  · rw [h6, g3]; rfl

variable {rate : ℝ} {edges : List (Nat × Nat × Iso ℝ)} {X : Nat → Iso ℝ} {Y : Nat → M3 ℝ} {q : Nat → Quat}

/-- What is left to turn. -/
theorem left_quat (hY : ∀ e ∈ edges, Y e.1 = e.2.2.rot.mul (Y e.2.1)) (hX : ∀ u, (X u).rot = (Y u).mul (q u).rot)
    {e : Nat × Nat × Iso ℝ} (he : e ∈ edges) : (e.2.2.rot.mul (X e.2.1).rot).mul (X e.1).rot.transpose =
      ((Y e.1).mul ((q e.2.1).mul (q e.1).conj).rot).mul (Y e.1).transpose := by
  rw [hX, hX, M3.transpose_mul, ← M3.mul_assoc e.2.2.rot, ← hY e he, ← Quat.rot_quotient]
  simp only [M3.mul_assoc]

/-- One round. -/
theorem graphStep_quat (hYr : ∀ u, (Y u).IsRot) (hY : ∀ e ∈ edges, Y e.1 = e.2.2.rot.mul (Y e.2.1))
    (hX : ∀ u, (X u).rot = (Y u).mul (q u).rot) (hq : ∀ u, (q u).Unit) (hp : ∀ u v, 0 < (q u).dot (q v)) (v : Nat) :
    (graphStep rate edges X v).rot = (Y v).mul (Quat.qstep rate (bareEdges edges) q v).rot := by
  have hr : ∀ e ∈ edges.filter (fun e => e.1 == v), (((e.2.2.mul (X e.2.1)).mul (X v).inv).se3).rotation =
      (Y v).mulVec (V3.smul (2 * Quat.stretch ((q e.2.1).dot (q v))) ((q e.2.1).mul (q v).conj).v) := by
    intro e hmem
    obtain ⟨h1, h2⟩ := List.mem_filter.mp hmem
    have hev : e.1 = v := by simpa using h2
    subst hev
    show logRot ((e.2.2.rot.mul (X e.2.1).rot).mul (X e.1).rot.transpose) = _
    have hu := Quat.unit_mul (hq e.2.1) (Quat.unit_conj (hq e.1))
    have hw : 0 < ((q e.2.1).mul (q e.1).conj).w := by rw [Quat.mul_conj_w]; exact hp _ _
    rw [left_quat hY hX h1, Quat.rot_log hu hw, logRot_conj (hYr _) (Quat.norm_log_lt hu hw), Quat.mul_conj_w]
  have hsum : V3.smul rate (Tangent.sum ((edges.filter (fun e => e.1 == v)).map
      (fun e => ((e.2.2.mul (X e.2.1)).mul (X v).inv).se3))).rotation = (Y v).mulVec (Quat.push rate (bareEdges edges) q v) := by
    rw [sum_rotation, List.map_map]
    unfold Quat.push bareEdges
    rw [List.filter_map, List.map_map]
    apply Quat.vsum_linear
    intro e hmem
    show V3.smul rate (((e.2.2.mul (X e.2.1)).mul (X v).inv).se3).rotation =
      (Y v).mulVec (V3.smul (2 * rate) (V3.smul (Quat.stretch ((q e.2.1).dot (q v))) ((q e.2.1).mul (q v).conj).v))
    rw [hr e hmem]
    generalize ((q e.2.1).mul (q v).conj).v = a
    lin3
  unfold graphStep
  generalize Tangent.sum _ = T at *
  show (expRot (V3.smul rate T.rotation)).mul (X v).rot = _
  rw [hsum, expRot_conj (hYr v), hX v, M3.mul_assoc, ← M3.mul_assoc (Y v).transpose, (hYr v).orth, M3.one_mul, M3.mul_assoc]
  unfold Quat.qstep
  rw [Quat.rot_mul, Quat.exp_rot]

variable {m : ℝ}

/-- Several rounds. -/
theorem iterate_quat (hm : 0 < m) (hm2 : 1 < 2 * m ^ 2) (hr : 0 ≤ rate)
    (hD : ∀ v, 2 * (rate * Graph.degree (bareEdges edges) v) ≤ 1) (hYr : ∀ u, (Y u).IsRot)
    (hY : ∀ e ∈ edges, Y e.1 = e.2.2.rot.mul (Y e.2.1)) (hX : ∀ u, (X u).rot = (Y u).mul (q u).rot) (hq : Quat.Near m q)
    (k : Nat) : Quat.Near m ((Quat.qstep rate (bareEdges edges))^[k] q) ∧
      ∀ u, ((graphStep rate edges)^[k] X u).rot = (Y u).mul ((Quat.qstep rate (bareEdges edges))^[k] q u).rot := by
  induction k with
  | zero => exact ⟨hq, hX⟩
  | succ k ih =>
    obtain ⟨h1, h2⟩ := ih
    rw [Function.iterate_succ_apply', Function.iterate_succ_apply']
    exact ⟨Quat.qstep_near hm hm2 h1 hr hD, fun u => graphStep_quat hYr hY h2 h1.unit
      (fun a b => (Quat.near_dot hm hm2 (h1.unit a) (h1.unit b) (h1.near a) (h1.near b)).1) u⟩

/-- The angle left at an edge. -/
theorem angle_quat (hm : 0 < m) (hm2 : 1 < 2 * m ^ 2) (hYr : ∀ u, (Y u).IsRot)
    (hY : ∀ e ∈ edges, Y e.1 = e.2.2.rot.mul (Y e.2.1)) (hX : ∀ u, (X u).rot = (Y u).mul (q u).rot) (hq : Quat.Near m q)
    {e : Nat × Nat × Iso ℝ} (he : e ∈ edges) :
    angleOf ((e.2.2.rot.mul (X e.2.1).rot).mul (X e.1).rot.transpose) = 2 * Real.arccos ((q e.2.1).dot (q e.1)) := by
  have hu := Quat.unit_mul (hq.unit e.2.1) (Quat.unit_conj (hq.unit e.1))
  have hw : 0 < ((q e.2.1).mul (q e.1).conj).w := by
    rw [Quat.mul_conj_w]
    exact (Quat.near_dot hm hm2 (hq.unit _) (hq.unit _) (hq.near _) (hq.near _)).1
  rw [left_quat hY hX he, Quat.rot_log hu hw, ← expRot_conj (hYr _), Quat.angleOf_expRot, norm_rotated (hYr _),
    Quat.norm_log hu hw, Quat.mul_conj_w]
  rw [norm_rotated (hYr _)]
  exact (Quat.norm_log_lt hu hw).le

/-- The sum of all angles over all rounds. -/
theorem total_quat (hm : 0 < m) (hm2 : 1 < 2 * m ^ 2) (hr : 0 ≤ rate)
    (hD : ∀ v, 2 * (rate * Graph.degree (bareEdges edges) v) ≤ 1) (hYr : ∀ u, (Y u).IsRot)
    (hY : ∀ e ∈ edges, Y e.1 = e.2.2.rot.mul (Y e.2.1)) (hX : ∀ u, (X u).rot = (Y u).mul (q u).rot) (hq : Quat.Near m q)
    {vs : List Nat} (hn : vs.Nodup) (hv : ∀ e ∈ edges, e.1 ∈ vs)
    (hs : ((bareEdges edges).map Graph.flip).Perm (bareEdges edges)) (k : Nat) :
    rate / 128 * ((List.range k).map (fun i => turnDisagreement edges ((graphStep rate edges)^[i] X))).sum +
      Graph.over vs (fun v => (q v).w) ≤ Graph.over vs (fun v => ((Quat.qstep rate (bareEdges edges))^[k] q v).w) := by
  induction k with
  | zero => simp
  | succ k ih =>
    obtain ⟨h1, h2⟩ := iterate_quat hm hm2 hr hD hYr hY hX hq k
    have hv' : ∀ e ∈ bareEdges edges, e.1 ∈ vs := by
      intro e he
      obtain ⟨e0, h0, rfl⟩ := List.mem_map.mp he
      exact hv e0 h0
    have h3 := Quat.qstep_growth hm hm2 h1 hr hD hn hv' hs
    have h4 : turnDisagreement edges ((graphStep rate edges)^[k] X) = 4 * ((bareEdges edges).map (fun e => Real.arccos
        (((Quat.qstep rate (bareEdges edges))^[k] q e.2.1).dot ((Quat.qstep rate (bareEdges edges))^[k] q e.1)) ^ 2)).sum := by
      clear ih h3
      generalize (Quat.qstep rate (bareEdges edges))^[k] q = p at *
      rw [← Graph.sum_map_mul]
      unfold turnDisagreement bareEdges
      rw [List.map_map]
      congr 1
      apply List.map_congr_left
      intro e he
      rw [angle_quat hm hm2 hYr hY h2 h1 he]
      show (2 * Real.arccos _) ^ 2 = 4 * Real.arccos _ ^ 2
      ring
    rw [List.range_succ, List.map_append, List.sum_append, List.map_cons, List.map_nil, List.sum_cons, List.sum_nil, h4,
      Function.iterate_succ_apply']
    linarith

end Verif.Sfm
