import Verif.Props.PoseGraphOrient
import Verif.Lemmas.PoseGraphPlaces

/-!
# C86: optimising brings cameras to the poses asked for, from any positions
-/

namespace Verif.Sfm

open Verif.Geo Filter

variable {d : Data (Iso ℝ)} {r : Nat} {R : Recon (Iso ℝ)}

/-- The orientations of cameras near those asked for, as quaternions. -/
theorem start_quat (hrig : RigidPoses R) {Z : Nat → M3 ℝ} (hZr : ∀ v, (Z v).IsRot) {b : ℝ} (hb0 : 0 ≤ b)
    (hb : b < Real.pi / 2) (hnear : ∀ v, angleOf ((Z v).mul (R.poseAt v).rot.transpose) ≤ b) :
    ∃ q : Nat → Quat, Quat.Near (Real.cos (b / 2)) q ∧ ∀ u, (R.poseAt u).rot = (Z u).mul (q u).rot := by
  have key : ∀ v, ∃ q : Quat, q.Unit ∧ q.rot = (Z v).transpose.mul (R.poseAt v).rot ∧
      q.w = Real.cos (angleOf ((Z v).transpose.mul (R.poseAt v).rot) / 2) ∧
      angleOf ((Z v).transpose.mul (R.poseAt v).rot) ≤ b := by
    intro v
    have hle : angleOf ((Z v).transpose.mul (R.poseAt v).rot) ≤ b := by
      rw [← angleOf_swap]
      exact hnear v
    have hrot : ((Z v).transpose.mul (R.poseAt v).rot).IsRot := ((hZr v).transpose).mul (poseAt_rigid hrig v)
    obtain ⟨q, h1, h2, h3⟩ := Quat.lift hrot (by linarith [Real.pi_pos])
    exact ⟨q, h1, h2, h3, hle⟩
  choose q hq1 hq2 hq3 hq4 using key
  refine ⟨q, ⟨hq1, fun v => ?_⟩, ?_⟩
  · rw [hq3]
    have h1 : 0 ≤ angleOf ((Z v).transpose.mul (R.poseAt v).rot) := Real.arccos_nonneg _
    apply Real.cos_le_cos_of_nonneg_of_le_pi (by linarith) (by linarith [Real.pi_pos])
    linarith [hq4 v]
  · intro u
    rw [hq2, ← M3.mul_assoc, (hZr u).orth', M3.one_mul]

/-- **C86** When there are poses that fulfil all constraints, with orientations each less than a quarter turn away from
that of its camera, optimising brings the cameras to poses that fulfil all constraints: both the angles and the distances
that remain vanish with the number of iterations. The cameras may start anywhere. -/
theorem C86_poses_converge_partial (hd : Reachable d) (h : d.recons.get r = some R) (hc : R.Constrained)
    (hrig : RigidPoses R) (hcr : RigidConstraints R) {Y : Nat → Iso ℝ} (hY : ∀ v, R.LiveView v → (Y v).Rigid)
    (ho : ∀ a ∈ R.asks, Y a.1 = a.2.2.mul (Y a.2.1)) {b : ℝ} (hb : b < Real.pi / 2)
    (hnear : ∀ v, R.LiveView v → angleOf ((Y v).rot.mul (R.poseAt v).rot.transpose) ≤ b) {rate : ℝ} (hr : 0 < rate)
    (hrate : ∀ v, R.LiveView v → 4 * rate * R.constraintCount v ≤ 1) (ω : Nat → Oracle (Iso ℝ)) (s : Settings) :
    ∃ R' : Nat → Recon (Iso ℝ),
      (∀ k, d.applyConstraints (fun i => (ω i).withRate rate) { s with optIterations := k } r =
        some (d.withRecon r (R' k), true)) ∧
      Tendsto (fun k => turnDisagreement R.asks (R' k).poseAt) atTop (nhds 0) ∧
      Tendsto (fun k => disagreement R.asks (R' k).poseAt) atTop (nhds 0) := by
  classical
  have hcons := reachable_consistent hd
  have hR := hcons.recons r R h
  have hp := edges_perm_asks hR.constraintsWF hcr
  obtain ⟨hf, hdeg⟩ := bare_facts hR hcr
  have hb0 : 0 ≤ b := by
    obtain ⟨p, hp'⟩ := List.exists_mem_of_ne_nil R.views.keys (fun hnil => by
      have h1 := congrArg List.length hnil
      have h2 : R.views.keys.length = R.views.size := List.length_map _
      have h3 := hc.three
      rw [h2, List.length_nil] at h1
      omega)
    exact (Real.arccos_nonneg _).trans (hnear p ((keys_live hR).mp hp'))
  -- the poses asked for, for all numbers
  let Z : Nat → Iso ℝ := fun v => if R.LiveView v then Y v else Iso.one
  have hZl : ∀ v, R.LiveView v → Z v = Y v := fun v hv => if_pos hv
  have hZd : ∀ v, ¬ R.LiveView v → Z v = Iso.one := fun v hv => if_neg hv
  have hZr : ∀ v, (Z v).Rigid := by
    intro v
    by_cases hv : R.LiveView v
    · rw [hZl v hv]; exact hY v hv
    · rw [hZd v hv]; exact Iso.Rigid.one
  have hZe : ∀ e ∈ R.flattenConstraints, Z e.1 = e.2.2.mul (Z e.2.1) := by
    intro e he
    obtain ⟨h1, h2⟩ := flatten_live hR e he
    rw [hZl _ h1, hZl _ h2]
    exact ho e (hp.mem_iff.mp he)
  have hdead : ∀ v, ¬ R.LiveView v → R.poseAt v = Iso.one := by
    intro v hv
    have : R.views.get v = none := by
      cases hg : R.views.get v with
      | none => rfl
      | some V => exact absurd ⟨V, hg⟩ hv
    unfold Recon.poseAt
    rw [this]
    rfl
  have hnear' : ∀ v, angleOf ((Z v).rot.mul (R.poseAt v).rot.transpose) ≤ b := by
    intro v
    by_cases hv : R.LiveView v
    · rw [hZl v hv]; exact hnear v hv
    · rw [hZd v hv, hdead v hv]
      have e1 : (Iso.one : Iso ℝ).rot.mul (Iso.one : Iso ℝ).rot.transpose = M3.one := by
        show M3.one.mul M3.one.transpose = M3.one
        lin3
      have e2 : angleOf M3.one = 0 := by
        unfold angleOf
        have : ((M3.one : M3 ℝ).trace - 1) / 2 = 1 := by simp only [lin]; norm_num
        rw [this, Real.arccos_one]
      rw [e1, e2]
      exact hb0
  obtain ⟨q, hN, hX⟩ := start_quat hrig (Z := fun v => (Z v).rot) hZr hb0 hb hnear'
  have hm : 0 < Real.cos (b / 2) := Real.cos_pos_of_mem_Ioo ⟨by linarith [Real.pi_pos], by linarith [Real.pi_pos]⟩
  have hm2 : 1 < 2 * Real.cos (b / 2) ^ 2 := by
    have h1 : 0 < Real.cos b := Real.cos_pos_of_mem_Ioo ⟨by linarith [Real.pi_pos], hb⟩
    have h2 : Real.cos b = 2 * Real.cos (b / 2) ^ 2 - 1 := by rw [← Real.cos_two_mul]; congr 1; ring
    linarith
  have hD : ∀ v, 2 * (rate * Graph.degree (bareEdges R.flattenConstraints) v) ≤ 1 := by
    intro v
    by_cases hv : R.LiveView v
    · rw [hdeg v]
      have := hrate v hv
      push_cast
      linarith
    · have : Graph.degree (bareEdges R.flattenConstraints) v = 0 := by
        unfold Graph.degree
        rw [List.length_eq_zero_iff, List.filter_eq_nil_iff]
        intro e hmem he1
        obtain ⟨e0, h0, rfl⟩ := List.mem_map.mp hmem
        have : e0.1 = v := by simpa using he1
        exact hv (this ▸ (flatten_live hR e0 h0).1)
      rw [this]
      simp
  have hZo : ∀ e ∈ R.flattenConstraints, (fun v => (Z v).rot) e.1 = e.2.2.rot.mul ((fun v => (Z v).rot) e.2.1) :=
    fun e he => congrArg Iso.rot (hZe e he)
  have hit := iterate_quat (Y := fun v => (Z v).rot) hm hm2 hr.le hD hZr hZo hX hN
  have hlive : ∀ e ∈ R.flattenConstraints, e.1 ∈ R.views.map.keys := fun e he => (keys_live hR).mpr (flatten_live hR e he).1
  -- the angles vanish
  have hturn : Tendsto (fun k => turnDisagreement R.flattenConstraints ((graphStep rate R.flattenConstraints)^[k] R.poseAt))
      atTop (nhds 0) := by
    refine vanishes (fun k => Graph.sum_map_nonneg _ _ (fun _ _ => sq_nonneg _))
      (c := 128 / rate * (Graph.over R.views.map.keys (fun _ => 1) - Graph.over R.views.map.keys (fun v => (q v).w))) ?_
    intro n
    have h1 := total_quat (Y := fun v => (Z v).rot) hm hm2 hr.le hD hZr hZo hX hN hR.viewsWF.nodup hlive hf n
    have h3 : Graph.over R.views.map.keys (fun v => ((Quat.qstep rate (bareEdges R.flattenConstraints))^[n] q v).w) ≤
        Graph.over R.views.map.keys (fun _ => 1) :=
      Graph.sum_map_le _ _ _ (fun v _ => (Quat.unit_w ((hit n).1.unit v)).2)
    rw [div_mul_eq_mul_div, le_div_iff₀ hr]
    linarith
  have hbends : Tendsto (fun k => bends (bareEdges R.flattenConstraints)
      ((Quat.qstep rate (bareEdges R.flattenConstraints))^[k] q)) atTop (nhds 0) := by
    have h1 := hturn.const_mul (1 / 4)
    rw [mul_zero] at h1
    refine h1.congr (fun k => ?_)
    rw [turn_bends (Z := fun v => (Z v).rot) hm hm2 hZr hZo (hit k).2 (hit k).1]
    ring
  have hrigE : ∀ e ∈ R.flattenConstraints, e.2.2.Rigid := rigid_flatten hR hcr
  have hdis := places_vanish hm hm2 hr hD hZr hrigE hZe hX hN hR.viewsWF.nodup hlive hf hbends
  refine ⟨fun k => R.placed ((graphStep rate R.flattenConstraints)^[k] R.poseAt), ?_, ?_, ?_⟩
  · intro k
    exact Data.applyConstraints_graph ω rate { s with optIterations := k } hcons.reconsWF h hR hc
  · refine hturn.congr (fun k => ?_)
    unfold turnDisagreement
    rw [(hp.symm.map _).sum_eq]
    congr 1
    apply List.map_congr_left
    intro e he
    obtain ⟨h1, h2⟩ := flatten_live hR e he
    rw [R.placed_poseAt _ h1, R.placed_poseAt _ h2]
  · refine hdis.congr (fun k => ?_)
    unfold disagreement
    rw [(hp.symm.map _).sum_eq]
    congr 1
    apply List.map_congr_left
    intro e he
    obtain ⟨h1, h2⟩ := flatten_live hR e he
    rw [R.placed_poseAt _ h1, R.placed_poseAt _ h2]

end Verif.Sfm
