import Verif.Props.PoseGraphTurns
import Verif.Props.PoseGraphExample
import Mathlib.Analysis.Real.Pi.Bounds

/-!
# C86: a reconstruction whose cameras are turned away from what its constraints ask for

The constraints of the reconstruction `d5` of `Props/PoseGraphExample` are generated again, now from other orientations:
the second camera half a radian further, the third half a radian back.
-/

namespace Verif.Sfm.ExGraph

open Verif.Geo

noncomputable section

/-- The axis that points up. -/
def up : V3 ℝ := ⟨0, 1, 0⟩

/-- The angles of the cameras. -/
def has : Nat → ℝ
  | 1 => Real.pi / 2
  | _ => 0

/-- What is missing to the angles asked for. -/
def missing : Nat → ℝ
  | 1 => 1 / 2
  | 2 => -1 / 2
  | _ => 0

/-- The orientations asked for. -/
def wanted (v : Nat) : Iso ℝ := ⟨turn up (missing v + has v), ⟨v, 0, 0⟩⟩

/-- Three-view poses are found as they are wanted. -/
def ωturn : Oracle (Iso ℝ) where
  triangulates _ _ := true
  robust _ _ := true
  biRobust _ _ := true
  disagrees _ _ := none
  order l := l
  sort ts := ts
  optimise _ v _ := some ((wanted v.2.1).mul (wanted v.1).inv, (wanted v.2.2).mul (wanted v.1).inv)
  constrain _ _ _ := none
  loss _ _ _ := 0

def op7 : Op (Iso ℝ) := .regenerateConstraints (fun _ => ωturn) ⟨0, 1, 10, 1, 0, 3, 2⟩ 0
def d7 : Data (Iso ℝ) := (step d5 op7).getD d1
def R7 : Recon (Iso ℝ) := (d7.recons.get 0).getD Recon.empty
theorem get7 : d7.recons.get 0 = some R7 := rfl
theorem reach7 : Reachable d7 :=
  .step reach5 (op := op7) ⟨fun _ => ⟨fun _ => List.Perm.refl _, fun _ => List.Perm.refl _⟩, R5, get5⟩ rfl

theorem views7 : R7.views.map.entries.map (fun e => (e.1, e.2.pose)) = [(0, Iso.one), (1, turned 1), (2, shifted 2)] := rfl

/-- The constraint generated, once for every view. -/
def c7 : Constraint (Iso ℝ) := ⟨0, 1, 2, (wanted 1).mul (wanted 0).inv, (wanted 2).mul (wanted 0).inv⟩

theorem constraints7 : R7.constraints.map.entries.map Prod.snd = [c7, c7, c7] := rfl

theorem up_unit : up.normSq = 1 := by
  unfold up
  simp only [lin]
  norm_num

theorem live7 {p : Nat → Prop} (h0 : p 0) (h1 : p 1) (h2 : p 2) {v : Nat} (h : R7.LiveView v) : p v := by
  obtain ⟨V, hV⟩ := h
  have := FMap.mem_of_get hV
  have hk : v ∈ [0, 1, 2] := (List.mem_map (f := Prod.fst) (l := R7.views.map.entries)).mpr ⟨(v, V), this, rfl⟩
  simp only [List.mem_cons, List.not_mem_nil, or_false] at hk
  rcases hk with rfl | rfl | rfl <;> assumption

theorem only7 {k : Nat} {c : Constraint (Iso ℝ)} (h : R7.constraints.get k = some c) : c = c7 := by
  have hm : (k, c) ∈ R7.constraints.map.entries := FMap.mem_of_get h
  have h2 : c ∈ R7.constraints.map.entries.map Prod.snd := List.mem_map.mpr ⟨_, hm, rfl⟩
  rw [constraints7] at h2
  simpa using h2

theorem rot_quarter : (turned 1).rot = turn up (Real.pi / 2) := by
  unfold turned turn up
  rw [Real.sin_pi_div_two, Real.cos_pi_div_two]
  lin3

theorem pose7 : R7.poseAt 0 = Iso.one ∧ R7.poseAt 1 = turned 1 ∧ R7.poseAt 2 = shifted 2 := ⟨rfl, rfl, rfl⟩

theorem angles7 (v : Nat) (hv : R7.LiveView v) : (R7.poseAt v).rot = turn up (has v) := by
  obtain ⟨h0, h1, h2⟩ := pose7
  refine live7 (p := fun v => (R7.poseAt v).rot = turn up (has v)) ?_ ?_ ?_ hv
  · rw [h0]; exact (turn_zero up).symm
  · rw [h1]; exact rot_quarter
  · rw [h2]; exact (turn_zero up).symm

theorem asked7 {a b : Nat} : ((wanted a).mul (wanted b).inv).rot = turn up (missing a + has a - (missing b + has b)) := by
  show (turn up _).mul (turn up _).transpose = _
  rw [← turn_neg, turn_add up_unit]
  rfl

theorem about7 : AboutAxis up R7 := by
  refine ⟨up_unit, fun v hv => ⟨_, angles7 v hv⟩, ?_⟩
  intro k c h
  rw [only7 h]
  exact ⟨⟨_, asked7⟩, ⟨_, asked7⟩⟩

theorem constrained7 : R7.Constrained := by
  exact ⟨by decide, fun v hv => ⟨1, c7, rfl, live7 (p := fun v => (0 : Nat) = v ∨ 1 = v ∨ 2 = v) (by simp) (by simp) (by simp) hv⟩⟩

theorem asks7 {e : Nat × Nat × Iso ℝ} (he : e ∈ R7.asks) :
    e.2.2.rot = turn up (missing e.1 + has e.1 - (missing e.2.1 + has e.2.1)) ∧ R7.LiveView e.1 ∧ R7.LiveView e.2.1 := by
  have hl : R7.LiveView 0 ∧ R7.LiveView 1 ∧ R7.LiveView 2 := ⟨⟨_, rfl⟩, ⟨_, rfl⟩, ⟨_, rfl⟩⟩
  obtain ⟨l0, l1, l2⟩ := hl
  have he : e ∈ c7.asks := by
    unfold Recon.asks at he
    rw [constraints7] at he
    simpa using he
  have key : ∀ (p q : Iso ℝ) (x y : ℝ), p.rot = turn up x → q.rot = turn up y → (p.mul q.inv).rot = turn up (x - y) := by
    intro p q x y hp hq
    show p.rot.mul q.rot.transpose = _
    rw [hp, hq, ← turn_neg, turn_add up_unit]
    rfl
  have h0 : (Iso.one : Iso ℝ).rot = turn up 0 := (turn_zero up).symm
  have h1 : c7.first.rot = turn up (missing 1 + has 1 - (missing 0 + has 0)) := asked7
  have h2 : c7.second.rot = turn up (missing 2 + has 2 - (missing 0 + has 0)) := asked7
  have m0 : missing 0 + has 0 = 0 := add_zero 0
  unfold Constraint.asks at he
  simp only [List.mem_cons, List.not_mem_nil, or_false] at he
  rcases he with rfl | rfl | rfl | rfl | rfl | rfl
  · refine ⟨(key _ _ _ _ h0 h1).trans ?_, l0, l1⟩
    show turn up _ = turn up (missing 0 + has 0 - (missing 1 + has 1))
    congr 1; ring
  · refine ⟨(key _ _ _ _ h1 h0).trans ?_, l1, l0⟩
    show turn up _ = turn up (missing 1 + has 1 - (missing 0 + has 0))
    congr 1; ring
  · refine ⟨(key _ _ _ _ h0 h2).trans ?_, l0, l2⟩
    show turn up _ = turn up (missing 0 + has 0 - (missing 2 + has 2))
    congr 1; ring
  · refine ⟨(key _ _ _ _ h2 h0).trans ?_, l2, l0⟩
    show turn up _ = turn up (missing 2 + has 2 - (missing 0 + has 0))
    congr 1; ring
  · refine ⟨(key _ _ _ _ h1 h2).trans ?_, l1, l2⟩
    show turn up _ = turn up (missing 1 + has 1 - (missing 2 + has 2))
    congr 1; ring
  · refine ⟨(key _ _ _ _ h2 h1).trans ?_, l2, l1⟩
    show turn up _ = turn up (missing 2 + has 2 - (missing 1 + has 1))
    congr 1; ring

theorem within7 (v : Nat) : |missing v| ≤ 1 / 2 := by
  unfold missing
  split <;> norm_num [abs_le]

theorem half_below : (1 / 2 : ℝ) < Real.pi / 2 := by
  have := Real.pi_gt_three
  linarith

theorem turned_there : ∀ e ∈ R7.asks, (turn up (missing e.1)).mul (R7.poseAt e.1).rot =
    e.2.2.rot.mul ((turn up (missing e.2.1)).mul (R7.poseAt e.2.1).rot) := by
  intro e he
  obtain ⟨h1, h2, h3⟩ := asks7 he
  rw [h1, angles7 _ h2, angles7 _ h3, turn_add up_unit, turn_add up_unit, turn_add up_unit]
  congr 1
  ring

/-- What is left to turn, at first. -/
theorem left7 {e : Nat × Nat × Iso ℝ} (he : e ∈ R7.asks) :
    angleOf ((e.2.2.rot.mul (R7.poseAt e.2.1).rot).mul (R7.poseAt e.1).rot.transpose) = |missing e.1 - missing e.2.1| := by
  obtain ⟨h1, h2, h3⟩ := asks7 he
  rw [h1, angles7 _ h2, angles7 _ h3, ← turn_neg, turn_add up_unit, turn_add up_unit]
  have : missing e.1 + has e.1 - (missing e.2.1 + has e.2.1) + has e.2.1 + -has e.1 = missing e.1 - missing e.2.1 := by ring
  rw [this, angleOf_turn up_unit]
  have a := within7 e.1
  have b := within7 e.2.1
  have := Real.pi_gt_three
  rw [abs_le] at a b ⊢
  constructor <;> linarith [a.1, a.2, b.1, b.2]

/-- The orientations disagree with the constraints: three times twice the squares of a half, a half and one. -/
theorem turns7 : turnDisagreement R7.asks R7.poseAt = 9 := by
  have h : turnDisagreement R7.asks R7.poseAt = (R7.asks.map (fun e => |missing e.1 - missing e.2.1| ^ 2)).sum := by
    unfold turnDisagreement
    congr 1
    apply List.map_congr_left
    intro e he
    rw [left7 he]
  rw [h]
  have : R7.asks = c7.asks ++ (c7.asks ++ (c7.asks ++ [])) := by
    unfold Recon.asks
    rw [constraints7]
    rfl
  rw [this]
  simp only [List.map_append, List.sum_append, Constraint.asks, List.map_cons, List.map_nil, List.sum_cons, List.sum_nil, sq_abs,
    c7, missing]
  norm_num

theorem count7 (v : Nat) : R7.constraintCount v ≤ 3 := by
  unfold Recon.constraintCount
  rw [constraints7]
  exact (List.length_filter_le _ _).trans (by simp)

/-- C86: the hypotheses hold for cameras turned away from what the constraints ask for, with the rate of the code's
settings. -/
example : ∃ (d : Data (Iso ℝ)) (R : Recon (Iso ℝ)) (n : V3 ℝ) (φ : Nat → ℝ) (b : ℝ), Reachable d ∧ d.recons.get 0 = some R ∧
    R.Constrained ∧ AboutAxis n R ∧ turnDisagreement R.asks R.poseAt = 9 ∧
    turnDisagreement R.asks R.poseAt < 2 * Real.pi ^ 2 ∧
    (∀ v, R.LiveView v → 4 * (0.001 : ℝ) * R.constraintCount v ≤ 1) ∧
    (∀ v, R.LiveView v → |φ v| ≤ b) ∧ b < Real.pi / 2 ∧
    ∀ e ∈ R.asks, (turn n (φ e.1)).mul (R.poseAt e.1).rot = e.2.2.rot.mul ((turn n (φ e.2.1)).mul (R.poseAt e.2.1).rot) := by
  refine ⟨d7, R7, up, missing, 1 / 2, reach7, get7, constrained7, about7, turns7, ?_, ?_, fun v _ => within7 v, half_below,
    turned_there⟩
  · rw [turns7]
    nlinarith [Real.pi_gt_three]
  · intro v _
    have : (R7.constraintCount v : ℝ) ≤ 3 := by exact_mod_cast count7 v
    linarith

end

end Verif.Sfm.ExGraph
