import Verif.Props.PoseGraph
import Verif.Lemmas.PoseGraphQuat
import Mathlib.Topology.Algebra.InfiniteSum.Real
import Mathlib.Analysis.SpecificLimits.Basic

/-!
# C86: optimising turns cameras about any axes to the orientations asked for
-/

namespace Verif.Sfm

open Verif.Geo Filter

variable {d : Data (Iso ℝ)} {r : Nat} {R : Recon (Iso ℝ)}

theorem bare_facts (hR : R.Consistent) (hcr : RigidConstraints R) :
    ((bareEdges R.flattenConstraints).map Graph.flip).Perm (bareEdges R.flattenConstraints) ∧
    ∀ v, Graph.degree (bareEdges R.flattenConstraints) v = 2 * R.constraintCount v := by
  have hp := edges_perm_asks hR.constraintsWF hcr
  have hpc : (bareEdges R.flattenConstraints).Perm (bareEdges R.asks) := hp.map _
  constructor
  · refine (hpc.map _).trans (List.Perm.trans ?_ hpc.symm)
    have h := (asks_flip hR.constraintsWF hcr).map (fun e => (e.1, e.2.1, (0 : ℝ)))
    unfold bareEdges
    rw [List.map_map] at h ⊢
    have e1 : R.asks.map (Graph.flip ∘ fun e => (e.1, e.2.1, (0 : ℝ))) =
        R.asks.map ((fun e => (e.1, e.2.1, (0 : ℝ))) ∘ fun e => (e.2.1, e.1, e.2.2.inv)) := by
      apply List.map_congr_left
      intro e _
      show (e.2.1, e.1, -(0 : ℝ)) = (e.2.1, e.1, 0)
      rw [neg_zero]
    rw [e1]
    exact h
  · intro v
    have : Graph.degree (bareEdges R.flattenConstraints) v = (R.flattenConstraints.filter (fun e => e.1 == v)).length := by
      unfold Graph.degree bareEdges
      rw [List.filter_map, List.length_map]
      rfl
    rw [this, ← asks_count hR v]
    exact (hp.filter _).length_eq

theorem angleOf_swap (A B : M3 ℝ) : angleOf (A.mul B.transpose) = angleOf (A.transpose.mul B) := by
  unfold angleOf
  have : (A.mul B.transpose).trace = (A.transpose.mul B).trace := by simp only [lin]; ring
  rw [this]

theorem vanishes {f : Nat → ℝ} (h0 : ∀ k, 0 ≤ f k) {c : ℝ} (h : ∀ n, ((List.range n).map f).sum ≤ c) :
    Tendsto f atTop (nhds 0) := by
  refine (summable_of_sum_range_le (c := c) h0 ?_).tendsto_atTop_zero
  intro n
  rw [Finset.sum_range, ← List.sum_ofFn]
  have : List.ofFn (fun i : Fin n => f i) = (List.range n).map f := by
    rw [List.ofFn_eq_map, ← List.map_coe_finRange_eq_range, List.map_map]
    rfl
  rw [this]
  exact h n

/-- **C86** When there are orientations of the cameras as asked for, each less than a quarter turn away from that of its
camera, optimising turns the cameras to orientations as asked for: the squared angles that remain vanish with the number of
iterations, their sum over all numbers of iterations is bounded, and no camera gets further away from these orientations
than the furthest was. -/
theorem C86_orientations_converge_partial (hd : Reachable d) (h : d.recons.get r = some R) (hc : R.Constrained)
    (hrig : RigidPoses R) (hcr : RigidConstraints R) {Y : Nat → Iso ℝ} (hY : ∀ v, R.LiveView v → (Y v).Rigid)
    (ho : Oriented R.asks Y) {b : ℝ} (hb : b < Real.pi / 2)
    (hnear : ∀ v, R.LiveView v → angleOf ((Y v).rot.mul (R.poseAt v).rot.transpose) ≤ b) {rate : ℝ} (hr : 0 < rate)
    (hrate : ∀ v, R.LiveView v → 4 * rate * R.constraintCount v ≤ 1) (ω : Nat → Oracle (Iso ℝ)) (s : Settings) :
    ∃ R' : Nat → Recon (Iso ℝ),
      (∀ k, d.applyConstraints (fun i => (ω i).withRate rate) { s with optIterations := k } r =
        some (d.withRecon r (R' k), true)) ∧
      (∀ k v, R.LiveView v → angleOf ((Y v).rot.mul ((R' k).poseAt v).rot.transpose) ≤ b) ∧
      (∀ n, ((List.range n).map (fun k => turnDisagreement R.asks (R' k).poseAt)).sum ≤
        16 / rate * (R.views.keys.map (fun v => angleOf ((Y v).rot.mul (R.poseAt v).rot.transpose) ^ 2)).sum) ∧
      Tendsto (fun k => turnDisagreement R.asks (R' k).poseAt) atTop (nhds 0) := by
  classical
  have hcons := reachable_consistent hd
  have hR := hcons.recons r R h
  have hp := edges_perm_asks hR.constraintsWF hcr
  obtain ⟨hf, hdeg⟩ := bare_facts hR hcr
  have hb0 : 0 ≤ b := by
    obtain ⟨p, hp'⟩ := List.exists_mem_of_ne_nil R.views.keys (fun hnil => by
      have h1 := congrArg List.length hnil
      have h2 : R.views.keys.length = R.views.size := List.length_map _
      have h3 := hc.three
      rw [h2, List.length_nil] at h1
      omega)
    exact (Real.arccos_nonneg _).trans (hnear p ((keys_live hR).mp hp'))
  -- the quaternions
  let Z : Nat → M3 ℝ := fun v => if R.LiveView v then (Y v).rot else M3.one
  have hZl : ∀ v, R.LiveView v → Z v = (Y v).rot := fun v hv => if_pos hv
  have hZr : ∀ v, (Z v).IsRot := by
    intro v
    by_cases hv : R.LiveView v
    · rw [hZl v hv]; exact hY v hv
    · show M3.IsRot (if R.LiveView v then (Y v).rot else M3.one)
      rw [if_neg hv]
      exact M3.IsRot.one
  have hZe : ∀ e ∈ R.flattenConstraints, Z e.1 = e.2.2.rot.mul (Z e.2.1) := by
    intro e he
    obtain ⟨h1, h2⟩ := flatten_live hR e he
    rw [hZl _ h1, hZl _ h2]
    exact ho e (hp.mem_iff.mp he)
  have hdead : ∀ v, ¬ R.LiveView v → (R.poseAt v).rot = M3.one := by
    intro v hv
    have : R.views.get v = none := by
      cases hg : R.views.get v with
      | none => rfl
      | some V => exact absurd ⟨V, hg⟩ hv
    unfold Recon.poseAt
    rw [this]
    rfl
  have hang : ∀ v, R.LiveView v → angleOf ((Z v).transpose.mul (R.poseAt v).rot) =
      angleOf ((Y v).rot.mul (R.poseAt v).rot.transpose) := by
    intro v hv
    rw [hZl v hv, ← angleOf_swap]
  have key : ∀ v, ∃ q : Quat, q.Unit ∧ q.rot = (Z v).transpose.mul (R.poseAt v).rot ∧
      q.w = Real.cos (angleOf ((Z v).transpose.mul (R.poseAt v).rot) / 2) ∧
      angleOf ((Z v).transpose.mul (R.poseAt v).rot) ≤ b := by
    intro v
    have hle : angleOf ((Z v).transpose.mul (R.poseAt v).rot) ≤ b := by
      by_cases hv : R.LiveView v
      · rw [hang v hv]; exact hnear v hv
      · have : (Z v).transpose.mul (R.poseAt v).rot = M3.one := by
          show (if R.LiveView v then (Y v).rot else M3.one).transpose.mul (R.poseAt v).rot = _
          rw [if_neg hv, hdead v hv, M3.mul_one]
          lin3
        rw [this]
        have : angleOf M3.one = 0 := by
          unfold angleOf
          have : ((M3.one : M3 ℝ).trace - 1) / 2 = 1 := by simp only [lin]; norm_num
          rw [this, Real.arccos_one]
        rw [this]
        exact hb0
    have hrot : ((Z v).transpose.mul (R.poseAt v).rot).IsRot := ((hZr v).transpose).mul (poseAt_rigid hrig v)
    obtain ⟨q, h1, h2, h3⟩ := Quat.lift hrot (by linarith [Real.pi_pos])
    exact ⟨q, h1, h2, h3, hle⟩
  choose q hq1 hq2 hq3 hq4 using key
  have hm : 0 < Real.cos (b / 2) := Real.cos_pos_of_mem_Ioo ⟨by linarith [Real.pi_pos], by linarith [Real.pi_pos]⟩
  have hm2 : 1 < 2 * Real.cos (b / 2) ^ 2 := by
    have h1 : 0 < Real.cos b := Real.cos_pos_of_mem_Ioo ⟨by linarith [Real.pi_pos], hb⟩
    have h2 : Real.cos b = 2 * Real.cos (b / 2) ^ 2 - 1 := by rw [← Real.cos_two_mul]; congr 1; ring
    linarith
  have hN : Quat.Near (Real.cos (b / 2)) q := by
    refine ⟨hq1, fun v => ?_⟩
    rw [hq3]
    have h1 : 0 ≤ angleOf ((Z v).transpose.mul (R.poseAt v).rot) := Real.arccos_nonneg _
    apply Real.cos_le_cos_of_nonneg_of_le_pi (by linarith) (by linarith [Real.pi_pos])
    linarith [hq4 v]
  have hX : ∀ u, (R.poseAt u).rot = (Z u).mul (q u).rot := by
    intro u
    rw [hq2, ← M3.mul_assoc, (hZr u).orth', M3.one_mul]
  have hD : ∀ v, 2 * (rate * Graph.degree (bareEdges R.flattenConstraints) v) ≤ 1 := by
    intro v
    by_cases hv : R.LiveView v
    · rw [hdeg v]
      have := hrate v hv
      push_cast
      linarith
    · have : Graph.degree (bareEdges R.flattenConstraints) v = 0 := by
        unfold Graph.degree
        rw [List.length_eq_zero_iff, List.filter_eq_nil_iff]
        intro e hmem he1
        obtain ⟨e0, h0, rfl⟩ := List.mem_map.mp hmem
        have : e0.1 = v := by simpa using he1
        exact hv (this ▸ (flatten_live hR e0 h0).1)
      rw [this]
      simp
  have hit := iterate_quat hm hm2 hr.le hD hZr hZe hX hN
  -- the disagreement
  have hdis : ∀ k, turnDisagreement R.asks (R.placed ((graphStep rate R.flattenConstraints)^[k] R.poseAt)).poseAt =
      turnDisagreement R.flattenConstraints ((graphStep rate R.flattenConstraints)^[k] R.poseAt) := by
    intro k
    unfold turnDisagreement
    rw [(hp.symm.map _).sum_eq]
    congr 1
    apply List.map_congr_left
    intro e he
    obtain ⟨h1, h2⟩ := flatten_live hR e he
    rw [R.placed_poseAt _ h1, R.placed_poseAt _ h2]
  have hbound : ∀ n, ((List.range n).map (fun k => turnDisagreement R.asks
      (R.placed ((graphStep rate R.flattenConstraints)^[k] R.poseAt)).poseAt)).sum ≤
      16 / rate * (R.views.keys.map (fun v => angleOf ((Y v).rot.mul (R.poseAt v).rot.transpose) ^ 2)).sum := by
    intro n
    have h1 := total_quat hm hm2 hr.le hD hZr hZe hX hN hR.viewsWF.nodup
      (fun e he => (keys_live hR).mpr (flatten_live hR e he).1) hf n
    have h2 : ((List.range n).map (fun k => turnDisagreement R.asks
        (R.placed ((graphStep rate R.flattenConstraints)^[k] R.poseAt)).poseAt)) =
        (List.range n).map (fun k => turnDisagreement R.flattenConstraints ((graphStep rate R.flattenConstraints)^[k] R.poseAt)) :=
      List.map_congr_left (fun k _ => hdis k)
    rw [h2]
    have h3 : Graph.over R.views.map.keys (fun v => ((Quat.qstep rate (bareEdges R.flattenConstraints))^[n] q v).w) ≤
        Graph.over R.views.map.keys (fun _ => 1) :=
      Graph.sum_map_le _ _ _ (fun v _ => (Quat.unit_w ((hit n).1.unit v)).2)
    have h4 : Graph.over R.views.map.keys (fun v => 1 + -(1 / 8) * angleOf ((Y v).rot.mul (R.poseAt v).rot.transpose) ^ 2) ≤
        Graph.over R.views.map.keys (fun v => (q v).w) := by
      apply Graph.sum_map_le
      intro v hv
      rw [hq3, hang v ((keys_live hR).mp hv)]
      have := Real.one_sub_sq_div_two_le_cos (x := angleOf ((Y v).rot.mul (R.poseAt v).rot.transpose) / 2)
      linarith
    have h5 : Graph.over R.views.map.keys (fun v => 1 + -(1 / 8) * angleOf ((Y v).rot.mul (R.poseAt v).rot.transpose) ^ 2) =
        Graph.over R.views.map.keys (fun _ => 1) +
          -(1 / 8) * (R.views.keys.map (fun v => angleOf ((Y v).rot.mul (R.poseAt v).rot.transpose) ^ 2)).sum := by
      unfold Graph.over
      rw [Graph.sum_map_add, Graph.sum_map_mul]
      rfl
    rw [h5] at h4
    generalize ((List.range n).map (fun k => turnDisagreement R.flattenConstraints
      ((graphStep rate R.flattenConstraints)^[k] R.poseAt))).sum = S at *
    generalize (R.views.keys.map (fun v => angleOf ((Y v).rot.mul (R.poseAt v).rot.transpose) ^ 2)).sum = A at *
    have h6 : rate / 128 * S ≤ 1 / 8 * A := by linarith
    rw [div_mul_eq_mul_div, le_div_iff₀ hr]
    linarith
  refine ⟨fun k => R.placed ((graphStep rate R.flattenConstraints)^[k] R.poseAt), ?_, ?_, hbound, ?_⟩
  · intro k
    exact Data.applyConstraints_graph ω rate { s with optIterations := k } hcons.reconsWF h hR hc
  · intro k v hv
    obtain ⟨h1, h2⟩ := hit k
    rw [R.placed_poseAt _ hv, angleOf_swap, h2 v, ← hZl v hv, ← M3.mul_assoc, (hZr v).orth, M3.one_mul,
      Quat.angleOf_rot (h1.unit v) (hm.le.trans (h1.near v))]
    have h3 := Real.arccos_le_arccos (h1.near v)
    rw [Real.arccos_cos (by linarith) (by linarith [Real.pi_pos])] at h3
    linarith
  · apply vanishes _ hbound
    intro k
    unfold turnDisagreement
    exact Graph.sum_map_nonneg _ _ (fun _ _ => sq_nonneg _)

end Verif.Sfm
