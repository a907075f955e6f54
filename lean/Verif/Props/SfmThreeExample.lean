import Verif.Props.SfmThree
import Verif.Props.PoseGraphExample
import Verif.Spec.SfmExact

/-!
# C89: a reconstruction meeting the hypotheses

Frames 0, 1, 2 are taken at 0, 1 and 2 on the first axis, the second turned by a quarter, and frame 3 behind them. Each has
two features, which show the points 1, 0, 3/4 and 1, 9/20, 3/5 exactly.
-/

namespace Verif.Sfm.ExExact

open Verif.Geo Verif.Sfm.ExGraph

noncomputable section

/-- A camera behind the others. -/
def behind : Iso ℝ := ⟨M3.one, ⟨-1, 0, 7 / 5⟩⟩

theorem behind_rigid : behind.Rigid := M3.IsRot.one

/-- The poses of the frames and the points of their features. -/
def scene : Scene where
  pose f := if f = 0 then Iso.one else if f = 1 then turned 1 else if f = 3 then behind else shifted f
  point _ n := if n = 0 then ⟨1, 0, 3 / 4⟩ else ⟨1, 9 / 20, 3 / 5⟩

/-- The bearings of the features. -/
def world : World Nat where
  bearing f n := match f, n with
    | 0, 0 => some ⟨4 / 5, 0, 3 / 5⟩
    | 0, 1 => some ⟨4 / 5, 9 / 25, 12 / 25⟩
    | 1, 0 => some ⟨1, 0, 0⟩
    | 1, 1 => some ⟨4 / 5, 3 / 5, 0⟩
    | 2, 0 => some ⟨-4 / 5, 0, 3 / 5⟩
    | 2, 1 => some ⟨-4 / 5, 9 / 25, 12 / 25⟩
    | 3, 0 => some ⟨0, 0, 1⟩
    | 3, 1 => some ⟨0, 9 / 41, 40 / 41⟩
    | _, _ => none
  colour _ _ := some 0
  triangulate _ := none
  minObservations := 3
  minCosine := 1 / 1000

theorem looks {pose : Iso ℝ} {b x : V3 ℝ} (d : ℝ) (h1 : b.normSq = 1) (hd : 0 < d) (h : pose.point x = V3.smul d b) :
    Looks pose b x := ⟨h1, d, hd, h⟩

theorem sceneRigid (f : Nat) : (scene.pose f).Rigid := by
  simp only [scene]
  split
  · exact Iso.Rigid.one
  · split
    · exact turned_rigid 1
    · split
      · exact behind_rigid
      · exact shifted_rigid _

theorem centre_shifted (a : ℝ) : centre (shifted a) = ⟨a, 0, 0⟩ := by
  unfold centre shifted; ext <;> simp only [lin] <;> norm_num

theorem centre_at (f : Nat) (h : f ≠ 3) : centre (scene.pose f) = ⟨f, 0, 0⟩ := by
  simp only [scene]
  split
  · subst f
    unfold centre; ext <;> simp only [lin] <;> norm_num
  · split
    · subst f
      unfold centre turned; ext <;> simp only [lin] <;> norm_num
    · exact centre_shifted _

theorem centre_behind : centre (scene.pose 3) = ⟨1, 0, -7 / 5⟩ := by
  show centre behind = _
  unfold centre behind; ext <;> simp only [lin] <;> norm_num

theorem seen : scene.Seen world := by
  refine ⟨sceneRigid, ?_, ?_⟩
  · intro f n b h
    simp only [world] at h
    split at h <;> cases h
    · exact looks (5 / 4) (by simp only [lin]; norm_num) (by norm_num) (by
        show Iso.one.point ⟨1, 0, 3 / 4⟩ = _
        ext <;> simp only [lin] <;> norm_num)
    · exact looks (5 / 4) (by simp only [lin]; norm_num) (by norm_num) (by
        show Iso.one.point ⟨1, 9 / 20, 3 / 5⟩ = _
        ext <;> simp only [lin] <;> norm_num)
    · exact looks (3 / 4) (by simp only [lin]; norm_num) (by norm_num) (by
        show (turned 1).point ⟨1, 0, 3 / 4⟩ = _
        unfold turned; ext <;> simp only [lin] <;> norm_num)
    · exact looks (3 / 4) (by simp only [lin]; norm_num) (by norm_num) (by
        show (turned 1).point ⟨1, 9 / 20, 3 / 5⟩ = _
        unfold turned; ext <;> simp only [lin] <;> norm_num)
    · exact looks (5 / 4) (by simp only [lin]; norm_num) (by norm_num) (by
        show (shifted (2 : Nat)).point ⟨1, 0, 3 / 4⟩ = _
        unfold shifted; ext <;> simp only [lin] <;> norm_num)
    · exact looks (5 / 4) (by simp only [lin]; norm_num) (by norm_num) (by
        show (shifted (2 : Nat)).point ⟨1, 9 / 20, 3 / 5⟩ = _
        unfold shifted; ext <;> simp only [lin] <;> norm_num)
    · exact looks (43 / 20) (by simp only [lin]; norm_num) (by norm_num) (by
        show behind.point ⟨1, 0, 3 / 4⟩ = _
        unfold behind; ext <;> simp only [lin] <;> norm_num)
    · exact looks (41 / 20) (by simp only [lin]; norm_num) (by norm_num) (by
        show behind.point ⟨1, 9 / 20, 3 / 5⟩ = _
        unfold behind; ext <;> simp only [lin] <;> norm_num)
  · intro f g h e
    by_cases hf : f = 3
    · have hg : g ≠ 3 := fun hg => h (hf.trans hg.symm)
      rw [hf, centre_behind, centre_at g hg, V3.mk.injEq] at e
      norm_num at e
    · by_cases hg : g = 3
      · rw [hg, centre_behind, centre_at f hf, V3.mk.injEq] at e
        norm_num at e
      · rw [centre_at f hf, centre_at g hg, V3.mk.injEq] at e
        exact h (Nat.cast_injective e.1)

def d1 : Data (Iso ℝ) := Data.empty.addFeed
def d2 : Data (Iso ℝ) := (d1.addFrame 0 2).getD d1
def d3 : Data (Iso ℝ) := (d2.addFrame 0 2).getD d1
def d4 : Data (Iso ℝ) := (d3.addFrame 0 2).getD d1
def d5 : Data (Iso ℝ) := (d4.addFrame 0 2).getD d1
def start : Op (Iso ℝ) := .addReconstruction 0 1 2 Iso.one (turned 1) (shifted 2) [(0, 0, 0), (1, 1, 1)] [] []
def d6 : Data (Iso ℝ) := (step d5 start).getD d1

theorem validStart : Valid d5 start := by
  refine ⟨by decide, by decide, by decide, ⟨2, _, rfl, rfl, rfl⟩, ⟨2, _, rfl, rfl, rfl⟩,
    2, ⟨_, rfl, rfl, rfl⟩, ?_, ?_⟩
  all_goals
    constructor
    · intro f c h
      simp at h
      omega
    · intro f g c h h'
      simp at h h'
      omega

theorem reach6 : Reachable d6 := by
  have h1 : Reachable d1 := .step (op := .addFeed) .init trivial rfl
  have h2 : Reachable d2 := .step (op := .addFrame 0 2) h1 ⟨[], rfl⟩ rfl
  have h3 : Reachable d3 := .step (op := .addFrame 0 2) h2 ⟨[0], rfl⟩ rfl
  have h4 : Reachable d4 := .step (op := .addFrame 0 2) h3 ⟨[0, 1], rfl⟩ rfl
  have h5 : Reachable d5 := .step (op := .addFrame 0 2) h4 ⟨[0, 1, 2], rfl⟩ rfl
  exact .step h5 validStart rfl

def R6 : Recon (Iso ℝ) := (d6.recons.get 0).getD Recon.empty
theorem get6 : d6.recons.get 0 = some R6 := rfl
theorem landmarks6 : R6.landmarks.map.entries =
    [(0, ⟨[(0, 0), (1, 0), (2, 0)]⟩), (1, ⟨[(0, 1), (1, 1), (2, 1)]⟩)] := rfl
theorem views6 : R6.views.map.entries = [(0, ⟨0, Iso.one, [0, 1]⟩), (1, ⟨1, turned 1, [0, 1]⟩), (2, ⟨2, shifted 2, [0, 1]⟩)] :=
  rfl

/-- A property of the three views. -/
theorem each6 {p : Nat → View (Iso ℝ) → Prop} (h0 : p 0 ⟨0, Iso.one, [0, 1]⟩) (h1 : p 1 ⟨1, turned 1, [0, 1]⟩)
    (h2 : p 2 ⟨2, shifted 2, [0, 1]⟩) {v : Nat} {V : View (Iso ℝ)} (h : R6.views.get v = some V) : p v V := by
  have hm : (v, V) ∈ R6.views.map.entries := FMap.mem_of_get h
  rw [views6] at hm
  simp only [List.mem_cons, List.not_mem_nil, or_false, Prod.mk.injEq] at hm
  rcases hm with ⟨rfl, rfl⟩ | ⟨rfl, rfl⟩ | ⟨rfl, rfl⟩ <;> assumption

theorem rigid6 : RigidPoses R6 := fun _ _ h =>
  each6 (p := fun _ V => V.pose.Rigid) Iso.Rigid.one (turned_rigid 1) (shifted_rigid 2) h

theorem complete6 : BearingsComplete world R6 := by
  intro v V f hV
  refine each6 (p := fun _ V => f < V.landmarks.length → ∃ b, world.bearing V.frame f = some b) ?_ ?_ ?_ hV <;>
  · intro hf
    have hf : f < 2 := hf
    obtain rfl | rfl : f = 0 ∨ f = 1 := by omega
    all_goals exact ⟨_, rfl⟩

/-- The poses and the features of the views are those of the scene. -/
theorem view6 {v : Nat} {V : View (Iso ℝ)} (h : R6.views.get v = some V) : V.pose = scene.pose V.frame := by
  refine each6 (p := fun _ V => V.pose = scene.pose V.frame) ?_ ?_ ?_ h
  · simp [scene]
  · simp [scene]
  · simp [scene]

theorem observes6 {l v f : Nat} (h : R6.Observes l v f) : f = l := by
  obtain ⟨L, hL, hf⟩ := h
  have hm : (l, L) ∈ R6.landmarks.map.entries := FMap.mem_of_get hL
  rw [landmarks6] at hm
  have hf := FMap.mem_of_get hf
  simp only [List.mem_cons, List.not_mem_nil, or_false, Prod.mk.injEq] at hm
  rcases hm with ⟨rfl, rfl⟩ | ⟨rfl, rfl⟩ <;>
  · simp only [List.mem_cons, List.not_mem_nil, or_false, Prod.mk.injEq] at hf
    omega

theorem exact6 : ExactObservations world R6 := by
  intro l _
  refine ⟨scene.point 0 l, fun v f V b ho hV hb => ?_⟩
  rw [view6 hV]
  have := observes6 ho
  subst this
  exact seen.looks _ _ _ hb

theorem spread6 : ∀ a b c, R6.LiveView a → R6.LiveView b → R6.LiveView c → a < b → b < c → Spread R6 (a, b, c) := by
  intro a b c _ _ _ hab _ V0 V1 V2 h0 h1 _ h
  have f0 : V0.frame = a := each6 (p := fun v V => V.frame = v) rfl rfl rfl h0
  have f1 : V1.frame = b := each6 (p := fun v V => V.frame = v) rfl rfl rfl h1
  refine seen.apart b a (by omega) ?_
  rw [← f0, ← f1, ← view6 h0, ← view6 h1]
  exact h.1

/-- C89: the hypotheses of `C89_generated`. -/
example : Reachable d6 ∧ d6.recons.get 0 = some R6 ∧ R6.LiveView 2 ∧ RigidPoses R6 ∧ BearingsComplete world R6 ∧
    ExactObservations world R6 ∧
    ∀ a b c, R6.LiveView a → R6.LiveView b → R6.LiveView c → a < b → b < c → Spread R6 (a, b, c) :=
  ⟨reach6, get6, ⟨_, rfl⟩, rigid6, complete6, exact6, spread6⟩

theorem seenBy {l v : Nat} {b : V3 ℝ} (f : Nat) (h : ∃ V L, R6.views.get v = some V ∧ R6.landmarks.get l = some L ∧
    L.get v = some f ∧ world.bearing V.frame f = some b) : SeesAlong world R6 l v b := by
  obtain ⟨V, L, h1, h2, h3, h4⟩ := h
  exact ⟨V, f, h1, ⟨L, h2, h3⟩, h4⟩

def first : Bearings := ⟨⟨4 / 5, 0, 3 / 5⟩, ⟨1, 0, 0⟩, ⟨-4 / 5, 0, 3 / 5⟩⟩
def second : Bearings := ⟨⟨4 / 5, 9 / 25, 12 / 25⟩, ⟨4 / 5, 3 / 5, 0⟩, ⟨-4 / 5, 9 / 25, 12 / 25⟩⟩

theorem seenFirst : SeenByThree world R6 (0, 1, 2) 0 first :=
  ⟨seenBy 0 ⟨_, _, rfl, rfl, rfl, rfl⟩, seenBy 0 ⟨_, _, rfl, rfl, rfl, rfl⟩, seenBy 0 ⟨_, _, rfl, rfl, rfl, rfl⟩⟩
theorem seenSecond : SeenByThree world R6 (0, 1, 2) 1 second :=
  ⟨seenBy 1 ⟨_, _, rfl, rfl, rfl, rfl⟩, seenBy 1 ⟨_, _, rfl, rfl, rfl, rfl⟩, seenBy 1 ⟨_, _, rfl, rfl, rfl, rfl⟩⟩

theorem three6 : ThreeData world R6 (0, 1, 2) [0, 1] := by
  refine ⟨(reachable_consistent reach6).recons 0 R6 get6, complete6, rigid6, ⟨_, rfl⟩, ⟨_, rfl⟩, ⟨_, rfl⟩, ?_, by decide⟩
  intro l hl
  simp only [List.mem_cons, List.not_mem_nil, or_false] at hl
  rcases hl with rfl | rfl <;> exact ⟨⟨_, _, rfl, rfl⟩, ⟨_, _, rfl, rfl⟩, ⟨_, _, rfl, rfl⟩⟩

def settings : ThreeSettings := ⟨100, 1 / 1000, 1, 1000⟩

/-- C89: both landmarks are used, are seen apart, and the poses are found. -/
theorem poses6 : threeViewPoses world settings id R6 (0, 1, 2) [0, 1] = some (some (turned 1, shifted 2)) := by
  have h0 : R6.views.get 0 = some ⟨0, Iso.one, [0, 1]⟩ := rfl
  have h1 : R6.views.get 1 = some ⟨1, turned 1, [0, 1]⟩ := rfl
  have h2 : R6.views.get 2 = some ⟨2, shifted 2, [0, 1]⟩ := rfl
  have hm : (mostObserved R6 (id [0, 1])).take settings.maxLandmarks = [0, 1] := rfl
  have hb : [0, 1].mapM (threeBearings world R6 (0, 1, 2)) = some [first, second] := by
    rw [List.mapM_cons, List.mapM_cons, threeBearings_iff.2 seenFirst, threeBearings_iff.2 seenSecond]
    rfl
  have hp : pairRobust settings first second = true := by
    simp only [pairRobust, settings, first, second, lin, Bool.and_eq_true]
    norm_num
  have hc : ((combinations [first, second]).filter (fun p => pairRobust settings p.1 p.2)).length = 1 := by
    simp [combinations, hp]
  have e1 : relativePose (⟨0, Iso.one, [0, 1]⟩ : View (Iso ℝ)) ⟨1, turned 1, [0, 1]⟩ = turned 1 := by
    unfold relativePose
    rw [Iso.inv_one, Iso.mul_one]
  have e2 : relativePose (⟨0, Iso.one, [0, 1]⟩ : View (Iso ℝ)) ⟨2, shifted 2, [0, 1]⟩ = shifted 2 := by
    unfold relativePose
    rw [Iso.inv_one, Iso.mul_one]
  have hx : ∀ l ∈ [0, 1], ∃ x, ExactAt world R6 l x := by
    intro l hl
    simp only [List.mem_cons, List.not_mem_nil, or_false] at hl
    rcases hl with rfl | rfl
    · exact exact6 0 ⟨_, rfl⟩
    · exact exact6 1 ⟨_, rfl⟩
  have hf : ∀ o ∈ [first, second], FitsThree (turned 1, shifted 2) o := by
    intro o ho
    have e : FitsThree (relativePose (⟨0, Iso.one, [0, 1]⟩ : View (Iso ℝ)) ⟨1, turned 1, [0, 1]⟩,
        relativePose (⟨0, Iso.one, [0, 1]⟩ : View (Iso ℝ)) ⟨2, shifted 2, [0, 1]⟩) o := by
      simp only [List.mem_cons, List.not_mem_nil, or_false] at ho
      rcases ho with rfl | rfl
      · exact fitsThree_of_exact rigid6 h0 h1 h2 (hx 0 (by simp)).choose_spec seenFirst
      · exact fitsThree_of_exact rigid6 h0 h1 h2 (hx 1 (by simp)).choose_spec seenSecond
    rwa [e1, e2] at e
  have hq := (C55_three_exact (turned_rigid 1) (shifted_rigid 2) hf 0 0 settings.patience).2.2
  have hn : (turned 1).t.norm + (shifted 2).t.norm = 3 := by
    have a : (turned 1).t.norm = 1 := by
      unfold V3.norm turned
      rw [show V3.normSq (⟨0, 0, 1⟩ : V3 ℝ) = 1 by simp only [lin]; norm_num, Real.sqrt_one]
    have b : (shifted 2).t.norm = 2 := by
      unfold V3.norm shifted
      rw [show V3.normSq (⟨-2, 0, 0⟩ : V3 ℝ) = 2 ^ 2 by simp only [lin]; norm_num, Real.sqrt_sq (by norm_num)]
    rw [a, b]; norm_num
  unfold threeViewPoses
  have hone : ∀ a : Iso ℝ, a.scale 1 = a := by intro a; lin3
  simp only [hm, hb, h0, h1, h2, Option.bind_eq_bind, Option.bind_some, hc, Iso.inv_one, Iso.mul_one, hq, hn]
  rw [if_neg (by decide), if_neg (by norm_num), div_self (by norm_num), hone, hone]
  rfl

/-- C89: the hypotheses of `C89_exact`. -/
example : ThreeData world R6 (0, 1, 2) [0, 1] ∧ (∀ l ∈ [0, 1], ∃ x, ExactAt world R6 l x) ∧ Spread R6 (0, 1, 2) ∧
    threeViewPoses world settings id R6 (0, 1, 2) [0, 1] = some (some (turned 1, shifted 2)) := by
  refine ⟨three6, ?_, spread6 0 1 2 ⟨_, rfl⟩ ⟨_, rfl⟩ ⟨_, rfl⟩ (by decide) (by decide), poses6⟩
  intro l hl
  simp only [List.mem_cons, List.not_mem_nil, or_false] at hl
  rcases hl with rfl | rfl
  · exact exact6 0 ⟨_, rfl⟩
  · exact exact6 1 ⟨_, rfl⟩

end

end Verif.Sfm.ExExact
