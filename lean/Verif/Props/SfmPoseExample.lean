import Verif.Props.SfmPose
import Verif.Props.SfmFilterExample

/-!
# C88: a registration

The three cameras of `ExGraph` at 0, 1 and 2 on a line see the point 1, 0, 3/4 exactly. A fourth frame with one feature is
registered at 1 with the default limits; the feature is matched with the landmark of the point.
-/

namespace Verif.Sfm.ExPose

open Verif.Geo Verif.Sfm.ExGraph Verif.Sfm.ExFilter

noncomputable section

/-- All frames see the point exactly with their first feature. -/
def world : World Nat where
  bearing f n := some (if n = 0 then if f = 0 then ⟨4 / 5, 0, 3 / 5⟩ else if f = 1 then ⟨1, 0, 0⟩ else
    if f = 2 then ⟨-4 / 5, 0, 3 / 5⟩ else ⟨0, 0, 1⟩ else ⟨0, 0, 1⟩)
  colour _ _ := some 0
  triangulate _ := some point
  minObservations := 3
  minCosine := 1 / 1000

def settings : PoseSettings := ⟨1, 10, 2, 1 / 10, 5⟩

/-- A consensus that finds the right pose for a single match. -/
def consensus (ws : List WorldMatch) : Option (Iso ℝ × List Nat) :=
  if ws.length = 1 then some (shifted 1, [0]) else none

theorem fair : ConsensusFair consensus := by
  constructor
  · intro ws pose is h
    unfold consensus at h
    split at h
    · cases h; exact shifted_rigid 1
    · cases h
  · intro ws pose is h i hi
    unfold consensus at h
    split at h
    · cases h
      rw [List.mem_singleton] at hi
      omega
    · cases h

theorem worldUnits : UnitBearings world := by
  intro f n b h
  simp only [world, Option.some.injEq] at h
  subst h
  split
  · split
    · norm_num [V3.normSq]
    · split
      · norm_num [V3.normSq]
      · split <;> norm_num [V3.normSq]
  · norm_num [V3.normSq]

theorem worldSeen (o : Nat × Nat) {pose : Iso ℝ} {b : V3 ℝ}
    (h : ∃ V, R5.views.get o.1 = some V ∧ V.pose = pose ∧ world.bearing V.frame o.2 = some b) :
    poseBearing world R5 o = some (pose, b) := by
  obtain ⟨V, h1, h2, h3⟩ := h
  unfold poseBearing
  rw [h1]
  simp only [Option.bind_eq_bind, Option.bind_some, h3, h2]
  rfl

def others : List (Iso ℝ × V3 ℝ) :=
  [(Iso.one, ⟨4 / 5, 0, 3 / 5⟩), (turned 1, ⟨1, 0, 0⟩), (shifted 2, ⟨-4 / 5, 0, 3 / 5⟩)]

theorem othersSeen : SeenAs world R5 [(0, 0), (1, 0), (2, 0)] others := by
  rw [seenAs_iff]
  simp only [List.mapM_cons, List.mapM_nil]
  rw [worldSeen (0, 0) (pose := Iso.one) (b := ⟨4 / 5, 0, 3 / 5⟩) ⟨_, rfl, rfl, rfl⟩,
    worldSeen (1, 0) (pose := turned 1) (b := ⟨1, 0, 0⟩) ⟨_, rfl, rfl, rfl⟩,
    worldSeen (2, 0) (pose := shifted 2) (b := ⟨-4 / 5, 0, 3 / 5⟩) ⟨_, rfl, rfl, rfl⟩]
  rfl

theorem observed : ObservedBy R5 [0] [(0, 0), (1, 0), (2, 0)] :=
  ⟨[⟨[(0, 0), (1, 0), (2, 0)]⟩], .cons landmark .nil, rfl⟩

theorem exact3 : transform (shifted 1) point = some ⟨0, 0, 1, 4 / 3⟩ :=
  transform_eq (n := 3 / 5) (by norm_num) (by unfold point shifted; ext <;> simp only [lin] <;> norm_num)
    (by simp only [lin]; norm_num) (by norm_num)

theorem agrees : Agrees world lim R5 3 (shifted 1) [0] 0 := by
  refine ⟨_, _, ⟨0, 0, 1⟩, observed, othersSeen, rfl, Or.inr ⟨by simp [others], point, rfl, ?_⟩⟩
  intro o ho
  simp only [others, List.cons_append, List.nil_append, List.mem_cons, List.not_mem_nil, or_false] at ho
  rcases ho with rfl | rfl | rfl | rfl
  · exact ⟨_, exact0, by simp only [bearing, lim, lin]; norm_num⟩
  · exact ⟨_, exact1, by simp only [bearing, lim, lin]; norm_num⟩
  · exact ⟨_, exact2, by simp only [bearing, lim, lin]; norm_num⟩
  · exact ⟨_, exact3, by simp only [bearing, lim, lin]; norm_num⟩

theorem poseData : PoseData world R5 :=
  ⟨(reachable_consistent reach5).recons 0 R5 get5, fun _ _ _ _ _ => ⟨_, rfl⟩, rigid5, worldUnits, by norm_num [world]⟩

theorem along (o : Nat × Nat) {b : V3 ℝ}
    (h : ∃ V, R5.views.get o.1 = some V ∧ V.pose.rot = M3.one ∧ world.bearing V.frame o.2 = some b) :
    SeenAlong world R5 o b := by
  obtain ⟨V, h1, h2, h3⟩ := h
  exact ⟨V, h1, by rw [h2, M3.one_mulVec, h3]⟩

theorem robust : Robust world R5 [(0, 0), (1, 0), (2, 0)] := by
  refine ⟨Or.inl (by decide), (0, 0), by simp, (2, 0), by simp, ⟨4 / 5, 0, 3 / 5⟩, ⟨-4 / 5, 0, 3 / 5⟩, ?_, ?_, ?_⟩
  · exact along (0, 0) ⟨_, rfl, rfl, rfl⟩
  · exact along (2, 0) ⟨_, rfl, rfl, rfl⟩
  · norm_num [world, lin]

theorem located : Located world R5 3 ([0], 0) (⟨0, 0, 1⟩, point) :=
  ⟨rfl, _, _, observed, robust, othersSeen, rfl⟩

theorem proper : ProperMatches world R5 3 [([0], 0)] := by
  intro m hm
  rw [List.mem_singleton] at hm
  subst hm
  exact ⟨⟨_, rfl⟩, Or.inl ⟨0, rfl, _, landmark⟩⟩

theorem points {Q : List Nat × Nat → Prop} (h : Q ([0], 0)) :
    PointsOf world R5 3 Q [([0], 0)] [(⟨0, 0, 1⟩, point)] :=
  ⟨[([0], 0)], List.Sublist.refl _, .cons located .nil, by simpa using h, fun m hm _ _ => hm⟩

theorem fits3 : Geo.Fits (shifted 1) (⟨0, 0, 1⟩, point) := by
  unfold Geo.Fits
  rw [exact3]
  rfl

/-- C88: the hypotheses of `C88_right_pose` hold, and the pose is found. -/
theorem estimated : estimatePose world lim settings consensus R5 3 [([0], 0)] = some (some (shifted 1)) := by
  refine C88_right_pose poseData lim settings fair proper (List.nodup_singleton _) (points trivial) (by decide) rfl
    (by simp) (by decide) ?_ (points agrees) ?_ (by decide)
  · intro i hi w hw
    rw [List.mem_singleton] at hi
    subst hi
    cases hw
    exact fits3
  · intro w hw
    rw [List.mem_singleton] at hw
    subst hw
    exact fits3

/-- The answers of the search for the feature: in the first view, landmark 0 is much closer than the others. -/
def knn (_ v : Nat) : List (Nat × Nat) := if v = 0 then [(0, 10), (1, 90), (2, 95)] else []

def order : RegOrder := ⟨id, fun l => l.insertionSort (fun x y => x.2 ≤ y.2)⟩

theorem orderFair : order.Fair := by
  refine ⟨fun l => List.Perm.refl _, fun l => List.perm_insertionSort _ _, fun l => ?_⟩
  have h1 : Std.Total (fun a b : Nat × Nat => a.2 ≤ b.2) := ⟨fun a b => Nat.le_total _ _⟩
  have h2 : IsTrans (Nat × Nat) (fun a b => a.2 ≤ b.2) := ⟨fun a b c h1 h2 => Nat.le_trans h1 h2⟩
  exact List.pairwise_insertionSort _ _

/-- C88: a registration that succeeds. -/
example : Reachable d5 ∧ d5.recons.get 0 = some R5 ∧ BearingsComplete world R5 ∧ RigidPoses R5 ∧ UnitBearings world ∧
    0 ≤ world.minCosine ∧ (∀ f < 1, ∃ b, world.bearing 3 f = some b) ∧ ConsensusFair consensus ∧ order.Fair ∧
    (∀ f, f < 1 → R5.Searchable [0] (knn f)) ∧
    registerFrame (registerSubset (fun _ => order) 24 R5 [0] knn (byObservations R5)
      (geoJudge world lim settings consensus R5 3) 1) 8 1 1 [] =
      some ([(0, 1)], [([0], 0)], some (some (shifted 1, ⟨[(0, [0])]⟩))) := by
  refine ⟨reach5, get5, poseData.complete, rigid5, worldUnits, poseData.cosine, fun _ _ => ⟨_, rfl⟩, fair, orderFair, ?_, ?_⟩
  · intro f _ v hv
    rw [List.mem_singleton] at hv
    subst hv
    refine ⟨_, rfl, ?_⟩
    intro e he
    have he : e ∈ [(0, 10), (1, 90), (2, 95)] := he
    show e.1 < 3
    exact (by decide : ∀ e ∈ [(0, 10), (1, 90), (2, 95)], e.1 < 3) e he
  · have e1 : matchFeatures (fun _ => order) 24 R5 [0] knn (List.range' 0 (1 - 0)) [] = some [([0], 0)] := rfl
    have e2 : byObservations R5 (retainUnique [([0], 0)]) = [([0], 0)] := rfl
    obtain ⟨c, h1, h2⟩ := consistentMatch_iff poseData.cons poseData.complete lim (shifted 1) (m := ([0], 0)) (frame := 3)
      (proper_live proper (by simp)).1 (by simp) ⟨_, rfl⟩
    have hc : consistentMatch world lim R5 3 (shifted 1) ([0], 0) = some true := by rw [h1, h2.2 agrees]
    have e3 : geoJudge world lim settings consensus R5 3 [([0], 0)] = some (shifted 1, fun ls f =>
        (consistentMatch world lim R5 3 (shifted 1) (ls, f)).getD false) := by
      unfold geoJudge
      rw [estimated]
      rfl
    have e4 : finalMatches (byObservations R5) (fun ls f =>
        (consistentMatch world lim R5 3 (shifted 1) (ls, f)).getD false) [([0], 0)] = ⟨[(0, [0])]⟩ := by
      unfold finalMatches
      rw [e2]
      simp only [List.filter_cons, hc, Option.getD_some, if_true, List.filter_nil, List.map_cons, List.map_nil]
    have e5 : registerSubset (fun _ => order) 24 R5 [0] knn (byObservations R5)
        (geoJudge world lim settings consensus R5 3) 1 0 1 [] =
        ([([0], 0)], some (some (shifted 1, ⟨[(0, [0])]⟩))) := by
      unfold registerSubset
      rw [e1]
      simp only [e2, e3, e4]
      rfl
    show registerLoop _ 1 1 0 1 [] = _
    unfold registerLoop
    rw [e5]

end

end Verif.Sfm.ExPose
