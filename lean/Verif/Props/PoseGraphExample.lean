import Verif.Props.PoseGraph

/-!
# C85, C86: reconstructions meeting the hypotheses

Three frames start a reconstruction with cameras at 0, 1 and 2 on a line, the second turned to the side. Its constraint
holds. Afterwards its constraints are scaled by two, so that they ask for cameras further apart.
-/

namespace Verif.Sfm.ExGraph

open Verif.Geo

noncomputable section

/-- The pose of a camera at `a` on the first axis, turned by a quarter. -/
def turned (a : ℝ) : Iso ℝ := ⟨⟨0, 0, 1, 0, 1, 0, -1, 0, 0⟩, ⟨0, 0, a⟩⟩
/-- The pose of a camera at `a` on the first axis. -/
def shifted (a : ℝ) : Iso ℝ := ⟨M3.one, ⟨-a, 0, 0⟩⟩

theorem turned_rigid (a : ℝ) : (turned a).Rigid :=
  ⟨by unfold turned; ext <;> simp only [lin] <;> norm_num, by unfold turned; simp only [lin]; norm_num⟩
theorem shifted_rigid (a : ℝ) : (shifted a).Rigid := M3.IsRot.one

def d1 : Data (Iso ℝ) := Data.empty.addFeed
def d2 : Data (Iso ℝ) := (d1.addFrame 0 3).getD d1
def d3 : Data (Iso ℝ) := (d2.addFrame 0 3).getD d1
def d4 : Data (Iso ℝ) := (d3.addFrame 0 2).getD d1
def init3 : Op (Iso ℝ) := .addReconstruction 0 1 2 Iso.one (turned 1) (shifted 2) [(0, 0, 0)] [(1, 2)] [(2, 1)]
def d5 : Data (Iso ℝ) := (step d4 init3).getD d1

theorem reach4 : Reachable d4 := by
  have h1 : Reachable d1 := .step (op := .addFeed) .init trivial rfl
  have h2 : Reachable d2 := .step (op := .addFrame 0 3) h1 ⟨[], rfl⟩ rfl
  have h3 : Reachable d3 := .step (op := .addFrame 0 3) h2 ⟨[0], rfl⟩ rfl
  exact .step (op := .addFrame 0 2) h3 ⟨[0, 1], rfl⟩ rfl

theorem valid5 : Valid d4 init3 := by
  refine ⟨by decide, by decide, by decide, ⟨3, _, rfl, rfl, rfl⟩, ⟨2, _, rfl, rfl, rfl⟩,
    3, ⟨_, rfl, rfl, rfl⟩, ?_, ?_⟩
  all_goals
    constructor
    · intro f c h
      simp at h
      omega
    · intro f g c h h'
      simp at h h'
      omega

theorem reach5 : Reachable d5 := .step reach4 valid5 rfl

def R5 : Recon (Iso ℝ) := (d5.recons.get 0).getD Recon.empty
theorem get5 : d5.recons.get 0 = some R5 := rfl

theorem views5 : R5.views.map.entries.map (fun e => (e.1, e.2.pose)) = [(0, Iso.one), (1, turned 1), (2, shifted 2)] := rfl
theorem constraints5 : R5.constraints.map.entries = [(0, ⟨0, 1, 2, turned 1, shifted 2⟩)] := rfl

/-- A property of the three views. -/
theorem each5 {p : Nat → Prop} (h0 : p 0) (h1 : p 1) (h2 : p 2) {v : Nat} (h : R5.LiveView v) : p v := by
  obtain ⟨V, hV⟩ := h
  have := FMap.mem_of_get hV
  have hk : v ∈ [0, 1, 2] := (List.mem_map (f := Prod.fst) (l := R5.views.map.entries)).mpr ⟨(v, V), this, rfl⟩
  simp only [List.mem_cons, List.not_mem_nil, or_false] at hk
  rcases hk with rfl | rfl | rfl <;> assumption

theorem constrained5 : R5.Constrained :=
  ⟨by decide, fun v hv => ⟨0, _, rfl, each5 (p := fun v => (0 : Nat) = v ∨ 1 = v ∨ 2 = v) (by simp) (by simp) (by simp) hv⟩⟩

theorem rigid5 : RigidPoses R5 := by
  intro v V hV
  have := poseAt_get hV
  rw [← this]
  exact each5 (p := fun v => (R5.poseAt v).Rigid) Iso.Rigid.one (turned_rigid 1) (shifted_rigid 2) ⟨V, hV⟩

theorem fulfilled5 : ∀ k c, R5.constraints.get k = some c → R5.Fulfils c := by
  intro k c h
  have hm := FMap.mem_of_get h
  have hm : (k, c) ∈ R5.constraints.map.entries := hm
  rw [constraints5] at hm
  simp only [List.mem_cons, List.not_mem_nil, or_false, Prod.mk.injEq] at hm
  obtain ⟨rfl, rfl⟩ := hm
  refine ⟨_, _, _, rfl, rfl, rfl, ?_, ?_⟩
  · show turned 1 = (turned 1).mul Iso.one.inv
    rw [Iso.inv_one, Iso.mul_one]
  · show shifted 2 = (shifted 2).mul Iso.one.inv
    rw [Iso.inv_one, Iso.mul_one]

/-- C85: the hypotheses hold after the start of a reconstruction. -/
example : ∃ (d : Data (Iso ℝ)) (R : Recon (Iso ℝ)), Reachable d ∧ d.recons.get 0 = some R ∧ R.Constrained ∧ RigidPoses R ∧
    (∀ k c, R.constraints.get k = some c → R.Fulfils c) ∧ R.constraints.size = 1 :=
  ⟨d5, R5, reach5, get5, constrained5, rigid5, fulfilled5, rfl⟩

/-- The constraints are scaled by two. -/
def op6 : Op (Iso ℝ) := .normalize id (fun p => p.scale 2) 0
def d6 : Data (Iso ℝ) := (step d5 op6).getD d1
theorem reach6 : Reachable d6 := .step reach5 (op := op6) ⟨R5, 0, get5, _, rfl⟩ rfl
def R6 : Recon (Iso ℝ) := R5.mapPoses id (fun p => p.scale 2)
theorem get6 : d6.recons.get 0 = some R6 := rfl
theorem constraints6 : R6.constraints.map.entries = [(0, ⟨0, 1, 2, (turned 1).scale 2, (shifted 2).scale 2⟩)] := rfl
theorem constrained6 : R6.Constrained := mapPoses_constrained _ _ constrained5

theorem rigid6 : RigidPoses R6 := by
  intro v V hV
  have := poseAt_get hV
  rw [← this]
  exact each5 (p := fun v => (R6.poseAt v).Rigid) Iso.Rigid.one (turned_rigid 1) (shifted_rigid 2)
    ((Recon.mapPoses_live _ _ R5 v).mp ⟨V, hV⟩)

theorem rigidConstraints6 : RigidConstraints R6 := by
  intro k c h
  have hm : (k, c) ∈ R6.constraints.map.entries := FMap.mem_of_get h
  rw [constraints6] at hm
  simp only [List.mem_cons, List.not_mem_nil, or_false, Prod.mk.injEq] at hm
  obtain ⟨rfl, rfl⟩ := hm
  exact ⟨turned_rigid 1, shifted_rigid 2⟩

theorem asks6 : R6.asks = Constraint.asks ⟨0, 1, 2, (turned 1).scale 2, (shifted 2).scale 2⟩ := by
  unfold Recon.asks
  rw [constraints6]
  simp

theorem pose6 : R6.poseAt 0 = Iso.one ∧ R6.poseAt 1 = turned 1 ∧ R6.poseAt 2 = shifted 2 := ⟨rfl, rfl, rfl⟩

theorem oriented6 : Oriented R6.asks R6.poseAt := by
  intro e he
  rw [asks6] at he
  unfold Constraint.asks at he
  obtain ⟨h0, h1, h2⟩ := pose6
  simp only [List.mem_cons, List.not_mem_nil, or_false] at he
  rcases he with rfl | rfl | rfl | rfl | rfl | rfl <;> simp only [h0, h1, h2, turned, shifted] <;> ext <;>
    simp only [lin] <;> norm_num

/-- The cameras are at 0, 1 and 2, and asked to be twice as far apart. -/
theorem disagreement6 : disagreement R6.asks R6.poseAt = 12 := by
  obtain ⟨h0, h1, h2⟩ := pose6
  rw [asks6]
  unfold disagreement Constraint.asks
  simp only [List.map_cons, List.map_nil, List.sum_cons, List.sum_nil, h0, h1, h2, centre, turned, shifted, lin]
  norm_num

theorem count6 (v : Nat) : R6.constraintCount v ≤ 1 := by
  unfold Recon.constraintCount
  rw [constraints6]
  exact (List.length_filter_le _ _).trans (by simp)

/-- C86: the hypotheses hold with a disagreement and the rate of the code's settings. -/
example : ∃ (d : Data (Iso ℝ)) (R : Recon (Iso ℝ)), Reachable d ∧ d.recons.get 0 = some R ∧ R.Constrained ∧ RigidPoses R ∧
    RigidConstraints R ∧ Oriented R.asks R.poseAt ∧ disagreement R.asks R.poseAt = 12 ∧
    (∀ v, R.LiveView v → 4 * (0.001 : ℝ) * R.constraintCount v ≤ 1) := by
  refine ⟨d6, R6, reach6, get6, constrained6, rigid6, rigidConstraints6, oriented6, disagreement6, ?_⟩
  intro v _
  have : (R6.constraintCount v : ℝ) ≤ 1 := by exact_mod_cast count6 v
  linarith

/-- **C86** A reconstruction for which a rate of one multiplies the disagreement by four in every iteration. -/
theorem C86_rate_one_diverges : ∃ (d : Data (Iso ℝ)) (R : Recon (Iso ℝ)), Reachable d ∧ d.recons.get 0 = some R ∧
    disagreement R.asks R.poseAt = 12 ∧ ∀ (ω : Nat → Oracle (Iso ℝ)) (s : Settings), ∃ R',
      d.applyConstraints (fun i => (ω i).withRate 1) s 0 = some (d.withRecon 0 R', true) ∧
      disagreement R.asks R'.poseAt = 4 ^ s.optIterations * 12 := by
  refine ⟨d6, R6, reach6, get6, disagreement6, fun ω s => ?_⟩
  obtain ⟨R', h1, h2⟩ := C86_one_constraint reach6 get6 constrained6 rigid6 rigidConstraints6 oriented6 constraints6 1 ω s
  refine ⟨R', h1, ?_⟩
  rw [h2, disagreement6]
  norm_num

end

end Verif.Sfm.ExGraph
