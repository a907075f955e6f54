import Verif.Props.SfmExact
import Verif.Props.SfmThreeExample

/-!
# C90: states meeting the hypotheses

The scene of C89. Frames 0, 1, 2 start a reconstruction, to which frame 3 is added. In another history, frames 3, 4, 5 start
a second one with another unit of length, and the two are merged.
-/

namespace Verif.Sfm.ExExact

open Verif.Geo Verif.Sfm.ExGraph

noncomputable section

/-- The numeric steps of the program, for landmarks that are not triangulated. -/
def exactOracle : Oracle (Iso ℝ) where
  triangulates _ _ := false
  robust _ _ := true
  biRobust _ _ := true
  disagrees _ _ := none
  order := id
  sort := id
  optimise R v ls := (threeViewPoses world settings id R v ls).getD none
  constrain := constrainPose (1 / 1000)
  loss _ _ _ := 0

theorem exactFair : exactOracle.Fair := ⟨fun _ => .refl _, fun _ => .refl _⟩
theorem exactThree : ThreeViewBy world exactOracle := ⟨settings, id, fun _ => .refl _, rfl⟩

theorem scale_one (a : Iso ℝ) : a.scale 1 = a := by lin3

theorem honest5 : HonestlyReached scene world d5 := by
  have h1 : HonestlyReached scene world d1 := .step (op := .addFeed) .init trivial trivial rfl
  have h2 : HonestlyReached scene world d2 := .step (op := .addFrame 0 2) h1 ⟨[], rfl⟩ trivial rfl
  have h3 : HonestlyReached scene world d3 := .step (op := .addFrame 0 2) h2 ⟨[0], rfl⟩ trivial rfl
  have h4 : HonestlyReached scene world d4 := .step (op := .addFrame 0 2) h3 ⟨[0, 1], rfl⟩ trivial rfl
  exact .step (op := .addFrame 0 2) h4 ⟨[0, 1, 2], rfl⟩ trivial rfl

theorem start_poses : turned 1 = ((scene.pose 1).mul (scene.pose 0).inv).scale 1 ∧
    shifted 2 = ((scene.pose 2).mul (scene.pose 0).inv).scale 1 := by
  have e0 : scene.pose 0 = Iso.one := by simp [scene]
  have e1 : scene.pose 1 = turned 1 := by simp [scene]
  have e2 : scene.pose 2 = shifted 2 := by simp [scene]
  rw [e0, e1, e2, Iso.inv_one, Iso.mul_one, Iso.mul_one, scale_one, scale_one]
  exact ⟨rfl, rfl⟩

theorem honest6 : HonestlyReached scene world d6 := by
  refine .step honest5 validStart ?_ rfl
  refine ⟨rfl, ⟨1, one_pos, start_poses.1, start_poses.2⟩, ?_, by simp, by simp⟩
  intro m hm
  simp only [List.mem_cons, List.not_mem_nil, or_false] at hm
  rcases hm with rfl | rfl <;> exact ⟨rfl, rfl⟩

/-- The matches of frame 3: feature 0 shows landmark 0, feature 1 shows landmark 1. -/
def found : FMap (List Nat) := ⟨[(0, [0]), (1, [1])]⟩

theorem found_cases {f : Nat} {ls : List Nat} (h : found.get f = some ls) : (f = 0 ∧ ls = [0]) ∨ (f = 1 ∧ ls = [1]) := by
  have := FMap.mem_of_get h
  simpa [found] using this

theorem validFound {D : Recon (Iso ℝ)} (h0 : D.LiveLandmark 0) (h1 : D.LiveLandmark 1) (n : Nat) :
    D.ValidMatches n found.get := by
  constructor
  · intro f ls _ h
    rcases found_cases h with ⟨rfl, rfl⟩ | ⟨rfl, rfl⟩
    · exact Or.inl ⟨0, rfl, h0⟩
    · exact Or.inl ⟨1, rfl, h1⟩
  · intro f g ls ms _ _ hfg hf hg l hl hl'
    rcases found_cases hf with ⟨rfl, rfl⟩ | ⟨rfl, rfl⟩ <;> rcases found_cases hg with ⟨rfl, rfl⟩ | ⟨rfl, rfl⟩ <;>
      simp_all

theorem true6 : R6.TrueIn scene Iso.one 1 := by
  refine ⟨?_, ?_, ?_⟩
  · intro v V hV
    unfold Scene.viewed
    rw [Iso.mul_one, scale_one]
    exact view6 hV
  · intro l v f u h V U h1 h2 _ _
    have := observes6 h1
    have := observes6 h2
    subst f h
    rfl
  · intro k c hk
    have hm := FMap.mem_of_get hk
    have : R6.constraints.map.entries = [(0, ⟨0, 1, 2, turned 1, shifted 2⟩)] := rfl
    rw [this] at hm
    simp only [List.mem_cons, List.not_mem_nil, or_false, Prod.mk.injEq] at hm
    obtain ⟨rfl, rfl⟩ := hm
    refine ⟨_, _, _, rfl, rfl, rfl, ?_, ?_⟩
    · show _ = Iso.mul (turned 1) Iso.one.inv
      rw [Iso.inv_one, Iso.mul_one]
    · show _ = Iso.mul (shifted 2) Iso.one.inv
      rw [Iso.inv_one, Iso.mul_one]

theorem trueFound : TrueMatches scene R6 3 found.get := by
  intro f ls l hf hl v k V hO hV
  have := observes6 hO
  subst this
  rcases found_cases hf with ⟨rfl, rfl⟩ | ⟨rfl, rfl⟩ <;>
  · simp only [List.mem_cons, List.not_mem_nil, or_false] at hl
    subst hl
    rfl

def st0 : Settings := ⟨0, 1, 10, 1, 0, 3, 2⟩

/-- Frame 3 is added with its true pose and matches. -/
def add3 : Op (Iso ℝ) := .incorporateFrame exactOracle st0 0 3 (scene.viewed Iso.one 1 3) found.get
def d7 : Data (Iso ℝ) := (step d6 add3).getD d1

theorem honest7 : HonestlyReached scene world d7 := by
  refine .step (op := add3) honest6 ⟨exactFair, R6, 2, get6, ⟨_, rfl, rfl, rfl⟩,
    validFound ⟨_, rfl⟩ ⟨_, rfl⟩ 2⟩ ⟨exactThree, ?_⟩ rfl
  intro R hR
  rw [get6] at hR
  cases hR
  exact ⟨⟨Iso.one, 1, Iso.Rigid.one, one_pos, true6, rfl⟩, trueFound⟩

/-- C90: the hypotheses of `C90_true_partial`, `C90_motion_partial` and `C90_points_partial`, with four views. -/
example : scene.Seen world ∧ HonestlyReached scene world d7 ∧ ∃ R, d7.recons.get 0 = some R ∧ R.LiveView 3 ∧
    R.LiveLandmark 1 := ⟨seen, honest7, _, rfl, ⟨_, rfl⟩, ⟨_, rfl⟩⟩

/-! ## Two units of length -/

def e6 : Data (Iso ℝ) := (d5.addFrame 0 2).getD d1
def e7 : Data (Iso ℝ) := (e6.addFrame 0 2).getD d1
def e8 : Data (Iso ℝ) := (step e7 start).getD d1

theorem validStart' : Valid e7 start := by
  refine ⟨by decide, by decide, by decide, ⟨2, _, rfl, rfl, rfl⟩, ⟨2, _, rfl, rfl, rfl⟩,
    2, ⟨_, rfl, rfl, rfl⟩, ?_, ?_⟩
  all_goals
    constructor
    · intro f c h
      simp at h
      omega
    · intro f g c h h'
      simp at h h'
      omega

/-- The second reconstruction, with lengths twice as long. -/
def restart : Op (Iso ℝ) := .addReconstruction 3 4 5 Iso.one (((scene.pose 4).mul (scene.pose 3).inv).scale 2)
  (((scene.pose 5).mul (scene.pose 3).inv).scale 2) [(0, 0, 0), (1, 1, 1)] [] []
def e9 : Data (Iso ℝ) := (step e8 restart).getD d1

theorem validRestart : Valid e8 restart := by
  refine ⟨by decide, by decide, by decide, ⟨2, _, rfl, rfl, rfl⟩, ⟨2, _, rfl, rfl, rfl⟩,
    2, ⟨_, rfl, rfl, rfl⟩, ?_, ?_⟩
  all_goals
    constructor
    · intro f c h
      simp at h
      omega
    · intro f g c h h'
      simp at h h'
      omega

theorem honest9 : HonestlyReached scene world e9 := by
  have h6 : HonestlyReached scene world e6 := .step (op := .addFrame 0 2) honest5 ⟨[0, 1, 2, 3], rfl⟩ trivial rfl
  have h7 : HonestlyReached scene world e7 := .step (op := .addFrame 0 2) h6 ⟨[0, 1, 2, 3, 4], rfl⟩ trivial rfl
  have h8 : HonestlyReached scene world e8 := by
    refine .step h7 validStart' ?_ rfl
    refine ⟨rfl, ⟨1, one_pos, start_poses.1, start_poses.2⟩, ?_, by simp, by simp⟩
    intro m hm
    simp only [List.mem_cons, List.not_mem_nil, or_false] at hm
    rcases hm with rfl | rfl <;> exact ⟨rfl, rfl⟩
  refine .step h8 validRestart ?_ rfl
  refine ⟨rfl, ⟨2, two_pos, rfl, rfl⟩, ?_, by simp, by simp⟩
  intro m hm
  simp only [List.mem_cons, List.not_mem_nil, or_false] at hm
  rcases hm with rfl | rfl <;> exact ⟨rfl, rfl⟩

def S9 : Recon (Iso ℝ) := (e9.recons.get 1).getD Recon.empty
theorem getS : e9.recons.get 1 = some S9 := rfl
theorem getD : e9.recons.get 0 = some R6 := rfl

theorem trueS : S9.TrueIn scene (scene.pose 3).inv 2 := by
  have hv := validRestart
  simp only [restart, Valid] at hv
  obtain ⟨h1, h2, h3, ⟨_, F1, hF1, _, hv1⟩, ⟨_, F2, hF2, _, hv2⟩, nc, ⟨Fc, hFc, rfl, hvc⟩, g1, g2⟩ := hv
  have h7 : Reachable e7 := .step (op := .addFrame 0 2) (.step (op := .addFrame 0 2) (honestly_reachable honest5)
    ⟨[0, 1, 2, 3], rfl⟩ rfl) ⟨[0, 1, 2, 3, 4], rfl⟩ rfl
  have hc : e8.Consistent := reachable_consistent (.step h7 validStart' rfl)
  refine Data.addReconstruction_true (d := e8) (d' := e9) sceneRigid hc h1 h2 h3 hFc hF1 hF2 hvc hv1 hv2 g1.good g2.good
    ?_ (by simp) (by simp) 2 rfl getS
  intro m hm
  simp only [List.mem_cons, List.not_mem_nil, or_false] at hm
  rcases hm with rfl | rfl <;> exact ⟨rfl, rfl⟩

/-- The right pose of frame 3 in the first reconstruction. -/
def pose3 : Iso ℝ := scene.viewed Iso.one 1 3

/-- The change of coordinates in the merger. -/
def move : Iso ℝ → Iso ℝ := fun p => p.mul (fromCameraPoses Iso.one pose3).inv

def merge : Op (Iso ℝ) := .tryMerge exactOracle (fun _ => exactOracle) st0 move 1 0 0 pose3 found
def e10 : Data (Iso ℝ) := (step e9 merge).getD d1

theorem foundWF : found.WF := by
  show [0, 1].Nodup
  decide

theorem validMerge : Valid e9 merge := by
  refine ⟨exactFair, fun _ => exactFair, by decide, foundWF, S9, R6, _, getS, getD, rfl, ?_,
    validFound ⟨_, rfl⟩ ⟨_, rfl⟩ _⟩
  intro f ls h
  show f < 2
  rcases found_cases h with ⟨rfl, rfl⟩ | ⟨rfl, rfl⟩ <;> decide

theorem runMerge : e9.tryMerge exactOracle (fun _ => exactOracle) st0 move 1 0 0 pose3 found = some (e10, true) := rfl

/-- **C90** A merger with the right pose and the right matches makes a true reconstruction false. -/
theorem C90_units_false : scene.Seen world ∧ HonestlyReached scene world e9 ∧ Valid e9 merge ∧ step e9 merge = some e10 ∧
    (∃ S D V, e9.recons.get 1 = some S ∧ S.TrueTo scene ∧ S.views.get 0 = some V ∧ V.frame = 3 ∧
      e9.recons.get 0 = some D ∧ Right scene D 3 pose3 found.get ∧
      move = fun p => p.mul (fromCameraPoses V.pose pose3).inv) ∧
    ∃ R, e10.recons.get 0 = some R ∧ ¬ R.TrueTo scene := by
  refine ⟨seen, honest9, validMerge, rfl, ⟨S9, R6, ⟨3, Iso.one, [0, 1]⟩, getS, ⟨_, 2, (sceneRigid 3).inv, two_pos, trueS⟩,
    rfl, rfl, getD, ⟨⟨Iso.one, 1, Iso.Rigid.one, one_pos, true6, rfl⟩, trueFound⟩, rfl⟩, _, rfl, ?_⟩
  intro hT
  obtain ⟨F, hF, hFv⟩ := C90_units (D' := (e10.recons.get 0).getD Recon.empty) (V := ⟨3, Iso.one, [0, 1]⟩)
    (ω := exactOracle) (ω' := fun _ => exactOracle) (st := st0) (src := 1) (dst := 0) (sv := 0) (d := e9) (d' := e10)
    seen exactFair (fun _ => exactFair) (by decide) (reachable_consistent (honestly_reachable honest9)) getS rfl getD
    (ms := found) foundWF (by
      intro f ls h
      show f < 2
      rcases found_cases h with ⟨rfl, rfl⟩ | ⟨rfl, rfl⟩ <;> decide)
    (validFound ⟨_, rfl⟩ ⟨_, rfl⟩ _) (sceneRigid 3).inv Iso.Rigid.one (s := 2) (t := 1) (by norm_num) trueS true6
    ⟨0, _, rfl⟩ runMerge rfl hT 1 ⟨4, ((scene.pose 4).mul (scene.pose 3).inv).scale 2, [0, 1]⟩ rfl (by decide)
  have : e10.frames.get 4 = some ⟨0, 4, 2, some (0, 4)⟩ := rfl
  rw [this] at hF
  cases hF
  cases hFv

end

end Verif.Sfm.ExExact
