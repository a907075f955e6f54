import Verif.Props.PoseGraphOrient
import Verif.Props.PoseGraphTurnsExample

/-!
# C86: a reconstruction whose cameras are asked to turn about different axes

The constraints of the reconstruction `d5` of `Props/PoseGraphExample` are generated again, now from other orientations: the
second camera half a radian further about the axis that points up, the third half a radian about the axis that points right.
-/

namespace Verif.Sfm.ExGraph

open Verif.Geo

noncomputable section

/-- The axis that points right. -/
def right : V3 ℝ := ⟨1, 0, 0⟩

/-- The orientations asked for. -/
def asked : Nat → Iso ℝ
  | 1 => ⟨turn up (1 / 2 + Real.pi / 2), ⟨1, 0, 0⟩⟩
  | 2 => ⟨turn right (1 / 2), ⟨2, 0, 0⟩⟩
  | _ => Iso.one

/-- Three-view poses are found as they are asked for. -/
def ωasked : Oracle (Iso ℝ) where
  triangulates _ _ := true
  robust _ _ := true
  biRobust _ _ := true
  disagrees _ _ := none
  order l := l
  sort ts := ts
  optimise _ v _ := some ((asked v.2.1).mul (asked v.1).inv, (asked v.2.2).mul (asked v.1).inv)
  constrain _ _ _ := none
  loss _ _ _ := 0

def op8 : Op (Iso ℝ) := .regenerateConstraints (fun _ => ωasked) ⟨0, 1, 10, 1, 0, 3, 2⟩ 0
def d8 : Data (Iso ℝ) := (step d5 op8).getD d1
def R8 : Recon (Iso ℝ) := (d8.recons.get 0).getD Recon.empty
theorem get8 : d8.recons.get 0 = some R8 := rfl
theorem reach8 : Reachable d8 :=
  .step reach5 (op := op8) ⟨fun _ => ⟨fun _ => List.Perm.refl _, fun _ => List.Perm.refl _⟩, R5, get5⟩ rfl

/-- The constraint generated, once for every view. -/
def c8 : Constraint (Iso ℝ) := ⟨0, 1, 2, (asked 1).mul (asked 0).inv, (asked 2).mul (asked 0).inv⟩

theorem constraints8 : R8.constraints.map.entries.map Prod.snd = [c8, c8, c8] := rfl
theorem pose8 : R8.poseAt 0 = Iso.one ∧ R8.poseAt 1 = turned 1 ∧ R8.poseAt 2 = shifted 2 := ⟨rfl, rfl, rfl⟩

theorem right_unit : right.normSq = 1 := by
  unfold right
  simp only [lin]
  norm_num

theorem asked_rigid (v : Nat) : (asked v).Rigid := by
  unfold asked
  split
  · exact turn_isRot up_unit _
  · exact turn_isRot right_unit _
  · exact Iso.Rigid.one

theorem live8 {p : Nat → Prop} (h0 : p 0) (h1 : p 1) (h2 : p 2) {v : Nat} (h : R8.LiveView v) : p v := by
  obtain ⟨V, hV⟩ := h
  have := FMap.mem_of_get hV
  have hk : v ∈ [0, 1, 2] := (List.mem_map (f := Prod.fst) (l := R8.views.map.entries)).mpr ⟨(v, V), this, rfl⟩
  simp only [List.mem_cons, List.not_mem_nil, or_false] at hk
  rcases hk with rfl | rfl | rfl <;> assumption

theorem only8 {k : Nat} {c : Constraint (Iso ℝ)} (h : R8.constraints.get k = some c) : c = c8 := by
  have hm : (k, c) ∈ R8.constraints.map.entries := FMap.mem_of_get h
  have h2 : c ∈ R8.constraints.map.entries.map Prod.snd := List.mem_map.mpr ⟨_, hm, rfl⟩
  rw [constraints8] at h2
  simpa using h2

theorem rigid8 : RigidConstraints R8 := by
  intro k c h
  rw [only8 h]
  exact ⟨Iso.Rigid.mul (asked_rigid 1) (Iso.Rigid.inv (asked_rigid 0)),
    Iso.Rigid.mul (asked_rigid 2) (Iso.Rigid.inv (asked_rigid 0))⟩

theorem poses8 : RigidPoses R8 := by
  intro v V h
  have hV : V.pose = R8.poseAt v := by
    unfold Recon.poseAt
    rw [h]
    rfl
  rw [hV]
  obtain ⟨h0, h1, h2⟩ := pose8
  refine live8 (p := fun v => (R8.poseAt v).Rigid) ?_ ?_ ?_ ⟨V, h⟩
  · rw [h0]; exact Iso.Rigid.one
  · rw [h1]
    show M3.IsRot _
    rw [rot_quarter]
    exact turn_isRot up_unit _
  · rw [h2]; exact M3.IsRot.one

theorem constrained8 : R8.Constrained := by
  exact ⟨by decide, fun v hv => ⟨1, c8, rfl, live8 (p := fun v => (0 : Nat) = v ∨ 1 = v ∨ 2 = v) (by simp) (by simp) (by simp) hv⟩⟩

theorem oriented8 : Oriented R8.asks asked := by
  intro e he
  have he : e ∈ c8.asks := by
    unfold Recon.asks at he
    rw [constraints8] at he
    simpa using he
  have c0 : asked 0 = Iso.one := rfl
  have h1 : c8.first.rot = (asked 1).rot := by
    show (asked 1).rot.mul (asked 0).rot.transpose = _
    rw [c0]
    lin3
  have h2 : c8.second.rot = (asked 2).rot := by
    show (asked 2).rot.mul (asked 0).rot.transpose = _
    rw [c0]
    lin3
  have one : (Iso.one : Iso ℝ).rot = (asked 0).rot := rfl
  have key : ∀ (p q : Iso ℝ) (a b : Nat), p.rot = (asked a).rot → q.rot = (asked b).rot →
      (asked a).rot = (p.mul q.inv).rot.mul (asked b).rot := by
    intro p q a b hp hq
    show _ = (p.rot.mul q.rot.transpose).mul _
    have hb : (asked b).rot.IsRot := asked_rigid b
    rw [hp, hq, M3.mul_assoc, hb.orth, M3.mul_one]
  unfold Constraint.asks at he
  simp only [List.mem_cons, List.not_mem_nil, or_false] at he
  rcases he with rfl | rfl | rfl | rfl | rfl | rfl
  · exact key _ _ 0 1 one h1
  · exact key _ _ 1 0 h1 one
  · exact key _ _ 0 2 one h2
  · exact key _ _ 2 0 h2 one
  · exact key _ _ 1 2 h1 h2
  · exact key _ _ 2 1 h2 h1

theorem near8 (v : Nat) (hv : R8.LiveView v) : angleOf ((asked v).rot.mul (R8.poseAt v).rot.transpose) ≤ 1 / 2 := by
  obtain ⟨h0, h1, h2⟩ := pose8
  have half : |(1 / 2 : ℝ)| ≤ Real.pi := by
    rw [abs_of_pos (by norm_num)]
    linarith [Real.pi_gt_three]
  refine live8 (p := fun v => angleOf ((asked v).rot.mul (R8.poseAt v).rot.transpose) ≤ 1 / 2) ?_ ?_ ?_ hv
  · rw [h0]
    have : (asked 0).rot.mul (Iso.one : Iso ℝ).rot.transpose = turn up 0 := by
      rw [turn_zero]
      show M3.one.mul M3.one.transpose = M3.one
      lin3
    rw [this, angleOf_turn up_unit (by rw [abs_zero]; exact Real.pi_pos.le), abs_zero]
    norm_num
  · rw [h1, rot_quarter]
    show angleOf ((turn up _).mul _) ≤ _
    rw [← turn_neg, turn_add up_unit, show 1 / 2 + Real.pi / 2 + -(Real.pi / 2) = (1 / 2 : ℝ) by ring,
      angleOf_turn up_unit half, abs_of_pos (by norm_num)]
  · rw [h2]
    have : (asked 2).rot.mul (shifted 2).rot.transpose = turn right (1 / 2) := by
      show (turn right (1 / 2)).mul M3.one.transpose = _
      lin3
    rw [this, angleOf_turn right_unit half, abs_of_pos (by norm_num)]

theorem count8 (v : Nat) : R8.constraintCount v ≤ 3 := by
  unfold Recon.constraintCount
  rw [constraints8]
  exact (List.length_filter_le _ _).trans (by simp)

/-- The turns asked for have no common axis. -/
theorem axes8 (n : V3 ℝ) : ¬ AboutAxis n R8 := by
  intro h
  obtain ⟨⟨a, ha⟩, ⟨b, hb⟩⟩ := h.constraints 1 c8 rfl
  have h1 : c8.first.rot = turn up (1 / 2 + Real.pi / 2) := by
    show (asked 1).rot.mul (Iso.one : Iso ℝ).inv.rot = _
    show (turn up _).mul M3.one.transpose = _
    lin3
  have h2 : c8.second.rot = turn right (1 / 2) := by
    show (turn right _).mul M3.one.transpose = _
    lin3
  have hcomm : (turn up (1 / 2 + Real.pi / 2)).mul (turn right (1 / 2)) =
      (turn right (1 / 2)).mul (turn up (1 / 2 + Real.pi / 2)) := by
    rw [← h1, ← h2, ha, hb, turn_add h.unit, turn_add h.unit, add_comm]
  have h3 := congrArg M3.m12 hcomm
  unfold turn rodrigues up right at h3
  simp only [lin] at h3
  rw [Real.sin_add_pi_div_two] at h3
  have s : 0 < Real.sin (1 / 2) := Real.sin_pos_of_pos_of_lt_pi (by norm_num) (by linarith [Real.pi_gt_three])
  have c : 0 < Real.cos (1 / 2) := Real.cos_pos_of_mem_Ioo ⟨by linarith [Real.pi_gt_three], by linarith [Real.pi_gt_three]⟩
  have := mul_pos s c
  norm_num at h3
  rcases h3 with h3 | h3
  · exact c.ne' h3
  · exact s.ne' h3

/-- The cameras do not have the orientations asked for. -/
theorem turns8 : 1 / 4 ≤ turnDisagreement R8.asks R8.poseAt := by
  have he : ((1, 0, c8.first.mul Iso.one.inv) : Nat × Nat × Iso ℝ) ∈ R8.asks := by
    unfold Recon.asks
    rw [constraints8]
    simp [Constraint.asks, c8]
  obtain ⟨h0, h1, h2⟩ := pose8
  have h3 := (List.single_le_sum (l := R8.asks.map (fun a => angleOf ((a.2.2.rot.mul (R8.poseAt a.2.1).rot).mul
    (R8.poseAt a.1).rot.transpose) ^ 2)) (by
      intro x hx
      obtain ⟨e, _, rfl⟩ := List.mem_map.mp hx
      exact sq_nonneg _)) _ (List.mem_map.mpr ⟨_, he, rfl⟩)
  refine le_trans ?_ h3
  have h4 : ((c8.first.mul Iso.one.inv).rot.mul (R8.poseAt 0).rot).mul (R8.poseAt 1).rot.transpose = turn up (1 / 2) := by
    rw [h0, h1, rot_quarter, ← turn_neg]
    have : (c8.first.mul Iso.one.inv).rot.mul (Iso.one : Iso ℝ).rot = turn up (1 / 2 + Real.pi / 2) := by
      show (((turn up _).mul M3.one.transpose).mul M3.one.transpose).mul M3.one = _
      lin3
    rw [this, turn_add up_unit]
    congr 1
    ring
  show 1 / 4 ≤ angleOf (((c8.first.mul Iso.one.inv).rot.mul (R8.poseAt 0).rot).mul (R8.poseAt 1).rot.transpose) ^ 2
  rw [h4, angleOf_turn up_unit (by rw [abs_of_pos (by norm_num)]; linarith [Real.pi_gt_three]), sq_abs]
  norm_num

/-- C86: the hypotheses hold for cameras asked to turn about different axes, with the rate of the code's settings. -/
example : ∃ (d : Data (Iso ℝ)) (R : Recon (Iso ℝ)) (Y : Nat → Iso ℝ) (b : ℝ), Reachable d ∧ d.recons.get 0 = some R ∧
    R.Constrained ∧ RigidPoses R ∧ RigidConstraints R ∧ (∀ n, ¬ AboutAxis n R) ∧ 1 / 4 ≤ turnDisagreement R.asks R.poseAt ∧
    (∀ v, R.LiveView v → (Y v).Rigid) ∧ Oriented R.asks Y ∧ b < Real.pi / 2 ∧
    (∀ v, R.LiveView v → angleOf ((Y v).rot.mul (R.poseAt v).rot.transpose) ≤ b) ∧
    ∀ v, R.LiveView v → 4 * (0.001 : ℝ) * R.constraintCount v ≤ 1 := by
  refine ⟨d8, R8, asked, 1 / 2, reach8, get8, constrained8, poses8, rigid8, axes8, turns8, fun v _ => asked_rigid v, oriented8,
    half_below, near8, ?_⟩
  intro v _
  have : (R8.constraintCount v : ℝ) ≤ 3 := by exact_mod_cast count8 v
  linarith

end

end Verif.Sfm.ExGraph
