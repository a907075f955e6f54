import Verif.Props.PoseGraphPoses
import Verif.Props.PoseGraphOrientExample

/-!
# C86: a reconstruction whose cameras are neither where they are asked to be nor oriented as asked
-/

namespace Verif.Sfm.ExGraph

open Verif.Geo

noncomputable section

/-- The poses from which the constraints were generated fulfil them. -/
theorem fulfilled8 : ∀ a ∈ R8.asks, asked a.1 = a.2.2.mul (asked a.2.1) := by
  intro e he
  have he : e ∈ c8.asks := by
    unfold Recon.asks at he
    rw [constraints8] at he
    simpa using he
  have c0 : asked 0 = Iso.one := rfl
  have h1 : c8.first = asked 1 := by
    show (asked 1).mul (asked 0).inv = _
    rw [c0]
    lin3
  have h2 : c8.second = asked 2 := by
    show (asked 2).mul (asked 0).inv = _
    rw [c0]
    lin3
  have key : ∀ a b : Nat, asked a = ((asked a).mul (asked b).inv).mul (asked b) := by
    intro a b
    rw [Iso.mul_assoc, (asked_rigid b).inv_mul, Iso.mul_one]
  unfold Constraint.asks at he
  rw [h1, h2, ← c0] at he
  simp only [List.mem_cons, List.not_mem_nil, or_false] at he
  rcases he with rfl | rfl | rfl | rfl | rfl | rfl
  · exact key 0 1
  · exact key 1 0
  · exact key 0 2
  · exact key 2 0
  · exact key 1 2
  · exact key 2 1

/-- The cameras are not where they are asked to be. -/
theorem apart8 : 0 < disagreement R8.asks R8.poseAt := by
  have he : ((1, 0, c8.first.mul Iso.one.inv) : Nat × Nat × Iso ℝ) ∈ R8.asks := by
    unfold Recon.asks
    rw [constraints8]
    simp [Constraint.asks, c8]
  obtain ⟨h0, h1, h2⟩ := pose8
  have h3 := (List.single_le_sum (l := R8.asks.map (fun a => ((centre (R8.poseAt a.1)).sub
    (centre (a.2.2.mul (R8.poseAt a.2.1)))).normSq)) (by
      intro x hx
      obtain ⟨e, _, rfl⟩ := List.mem_map.mp hx
      exact V3.normSq_nonneg _)) _ (List.mem_map.mpr ⟨_, he, rfl⟩)
  refine lt_of_lt_of_le ?_ h3
  have e1 : (c8.first.mul Iso.one.inv).mul (R8.poseAt 0) = asked 1 := by
    rw [h0]
    show (((asked 1).mul Iso.one.inv).mul Iso.one.inv).mul Iso.one = _
    lin3
  show 0 < ((centre (R8.poseAt 1)).sub (centre ((c8.first.mul Iso.one.inv).mul (R8.poseAt 0)))).normSq
  rw [e1, h1]
  have hx : (((centre (turned 1)).sub (centre (asked 1))).x) = 1 - Real.sin (1 / 2) := by
    rw [centre_eq, centre_eq]
    show (((turned 1).rot.transpose.mulVec (turned 1).t).neg.sub
      ((turn up (1 / 2 + Real.pi / 2)).transpose.mulVec ⟨1, 0, 0⟩).neg).x = _
    unfold turn rodrigues up turned
    simp only [lin]
    rw [Real.cos_add_pi_div_two]
    norm_num
  have s : 0 < 1 - Real.sin (1 / 2) := by
    have := Real.sin_lt (show (0 : ℝ) < 1 / 2 by norm_num)
    linarith
  generalize (centre (turned 1)).sub (centre (asked 1)) = a at *
  have : a.normSq = a.x * a.x + a.y * a.y + a.z * a.z := by simp only [lin]
  rw [this, hx]
  nlinarith [mul_self_nonneg a.y, mul_self_nonneg a.z, mul_pos s s]

/-- C86: the hypotheses hold for cameras neither at the positions nor in the orientations asked for. -/
example : ∃ (d : Data (Iso ℝ)) (R : Recon (Iso ℝ)) (Y : Nat → Iso ℝ) (b : ℝ), Reachable d ∧ d.recons.get 0 = some R ∧
    R.Constrained ∧ RigidPoses R ∧ RigidConstraints R ∧ 0 < disagreement R.asks R.poseAt ∧
    1 / 4 ≤ turnDisagreement R.asks R.poseAt ∧ (∀ v, R.LiveView v → (Y v).Rigid) ∧
    (∀ a ∈ R.asks, Y a.1 = a.2.2.mul (Y a.2.1)) ∧ b < Real.pi / 2 ∧
    (∀ v, R.LiveView v → angleOf ((Y v).rot.mul (R.poseAt v).rot.transpose) ≤ b) ∧
    ∀ v, R.LiveView v → 4 * (0.001 : ℝ) * R.constraintCount v ≤ 1 := by
  refine ⟨d8, R8, asked, 1 / 2, reach8, get8, constrained8, poses8, rigid8, apart8, turns8, fun v _ => asked_rigid v,
    fulfilled8, half_below, near8, ?_⟩
  intro v _
  have : (R8.constraintCount v : ℝ) ≤ 3 := by exact_mod_cast count8 v
  linarith

end

end Verif.Sfm.ExGraph
