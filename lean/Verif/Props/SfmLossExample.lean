import Verif.Props.SfmLoss
import Verif.Props.SfmStartGeoExample

/-!
# C94: the observation that is kept need not be the better one

Three cameras in a row look along the third axis. The point `(0, 0, 4)` is feature 0 of all three frames. Landmark 0 has
feature 0 of frame 0 and a wrong feature of frame 1, landmark 1 has the right features of the frames 1 and 2.
-/

namespace Verif.Sfm.ExLoss

open Verif.Geo

noncomputable section

def look (f n : Nat) : V3 ℝ :=
  match f, n with
  | 0, _ => ⟨0, 0, 1⟩
  | 1, 0 => ⟨-3 / 5, 0, 4 / 5⟩
  | 1, _ => ⟨-4 / 5, 0, 3 / 5⟩
  | _, _ => ⟨3 / 5, 0, 4 / 5⟩

def world : World Nat where
  bearing f n := some (look f n)
  colour _ _ := some 0
  triangulate := ExStart.triangulate
  minObservations := 3
  minCosine := 0

theorem unit : UnitBearings world := by
  intro f n b h
  cases h
  unfold look
  split <;> simp only [lin] <;> norm_num

def p1 : Iso ℝ := ⟨M3.one, ⟨-3, 0, 0⟩⟩
def p2 : Iso ℝ := ⟨M3.one, ⟨3, 0, 0⟩⟩

def d1 : Data (Iso ℝ) := Data.empty.addFeed
def d2 : Data (Iso ℝ) := (d1.addFrame 0 1).getD d1
def d3 : Data (Iso ℝ) := (d2.addFrame 0 2).getD d1
def d4 : Data (Iso ℝ) := (d3.addFrame 0 1).getD d1
def start : Op (Iso ℝ) := .addReconstruction 0 1 2 Iso.one p1 p2 [] [(0, 1)] []
def d5 : Data (Iso ℝ) := (step d4 start).getD d1
def d6 : Data (Iso ℝ) := (step d5 (.mergeLandmarks 0 1 2)).getD d1
def R5 : Recon (Iso ℝ) := (d5.recons.get 0).getD Recon.empty
def R6 : Recon (Iso ℝ) := (d6.recons.get 0).getD Recon.empty

theorem reach5 : Reachable d5 := by
  have h1 : Reachable d1 := .step (op := .addFeed) .init trivial rfl
  have h2 : Reachable d2 := .step (op := .addFrame 0 1) h1 ⟨[], rfl⟩ rfl
  have h3 : Reachable d3 := .step (op := .addFrame 0 2) h2 ⟨[0], rfl⟩ rfl
  have h4 : Reachable d4 := .step (op := .addFrame 0 1) h3 ⟨[0, 1], rfl⟩ rfl
  refine .step (op := start) h4 ?_ rfl
  refine ⟨by decide, by decide, by decide, ⟨2, _, rfl, rfl, rfl⟩, ⟨1, _, rfl, rfl, rfl⟩,
    1, ⟨_, rfl, rfl, rfl⟩, ?_, ?_⟩
  all_goals
    constructor
    · intro f c h
      simp at h
      try omega
    · intro f g c h h'
      simp at h h'
      try omega

theorem reach6 : Reachable d6 := by
  refine .step (op := .mergeLandmarks 0 1 2) reach5 ⟨R5, rfl, by decide, ⟨_, rfl⟩, ⟨_, rfl⟩, ?_⟩ rfl
  rintro v f g ⟨A, hA, h⟩ ⟨B, hB, h'⟩
  have eA : (⟨[(1, 0)]⟩ : Landmark) = A := Option.some.inj hA
  have eB : (⟨[(2, 0)]⟩ : Landmark) = B := Option.some.inj hB
  subst eA eB
  have h1 := FMap.mem_of_get h
  have h2 := FMap.mem_of_get h'
  simp at h1 h2
  omega

theorem get6 : d6.recons.get 0 = some R6 := rfl
theorem first6 : R6.landmarks.get 0 = some ⟨[(0, 0), (1, 1)]⟩ := rfl
theorem second6 : R6.landmarks.get 1 = some ⟨[(1, 0), (2, 0)]⟩ := rfl

theorem complete : BearingsComplete world R6 := fun _ _ _ _ _ => ⟨_, rfl⟩

theorem completeTri : CompleteTriangulator world.triangulate := fun _ _ h _ => ExStart.triangulate_exact h

def X : V3 ℝ := ⟨0, 0, 4⟩

def at00 : Iso ℝ × V3 ℝ := (Iso.one, look 0 0)
def at10 : Iso ℝ × V3 ℝ := (p1, look 1 0)
def at11 : Iso ℝ × V3 ℝ := (p1, look 1 1)
def at20 : Iso ℝ × V3 ℝ := (p2, look 2 0)

theorem as00 : SeenAs world R6 [(0, 0)] [at00] := .cons ⟨_, rfl, rfl, rfl⟩ .nil
theorem as10 : SeenAs world R6 [(1, 0)] [at10] := .cons ⟨_, rfl, rfl, rfl⟩ .nil
theorem as11 : SeenAs world R6 [(1, 1)] [at11] := .cons ⟨_, rfl, rfl, rfl⟩ .nil
theorem as20 : SeenAs world R6 [(2, 0)] [at20] := .cons ⟨_, rfl, rfl, rfl⟩ .nil

theorem looks00 (z : ℝ) (hz : 0 < z) : Looks at00.1 at00.2 ⟨0, 0, z⟩ := by
  refine ⟨?_, z, hz, ?_⟩
  · simp only [at00, look, lin]; norm_num
  · ext <;> simp only [at00, look, lin] <;> ring

theorem looks10 : Looks at10.1 at10.2 X := by
  refine ⟨?_, 5, by norm_num, ?_⟩
  · simp only [at10, look, lin]; norm_num
  · ext <;> simp only [at10, p1, look, X, lin] <;> norm_num

theorem looks11 : Looks at11.1 at11.2 ⟨0, 0, 9 / 4⟩ := by
  refine ⟨?_, 15 / 4, by norm_num, ?_⟩
  · simp only [at11, look, lin]; norm_num
  · ext <;> simp only [at11, p1, look, lin] <;> norm_num

theorem looks20 : Looks at20.1 at20.2 X := by
  refine ⟨?_, 5, by norm_num, ?_⟩
  · simp only [at20, look, lin]; norm_num
  · ext <;> simp only [at20, p2, look, X, lin] <;> norm_num

theorem rigid00 : at00.1.Rigid := M3.IsRot.one
theorem rigid10 : at10.1.Rigid := M3.IsRot.one
theorem rigid11 : at11.1.Rigid := M3.IsRot.one
theorem rigid20 : at20.1.Rigid := M3.IsRot.one

/-- The first landmark is exact: it shows the wrong point `(0, 0, 9/4)`. -/
theorem exact_first : ShowsExactly world R6 [(0, 0), (1, 1)] ⟨0, 0, 9 / 4⟩ := by
  refine ⟨[at00, at11], .cons ⟨_, rfl, rfl, rfl⟩ as11, ⟨?_, ?_, ?_, ?_⟩, ?_, ?_⟩
  · simp only [List.forall_mem_cons]
    exact ⟨rigid00, rigid11, by simp⟩
  · simp only [List.forall_mem_cons]
    exact ⟨looks00 _ (by norm_num), looks11, by simp⟩
  · intro h
    have := congrArg V3.z h
    simp only [lin] at this
    norm_num at this
  · refine ⟨at00, by simp, at11, by simp, ?_⟩
    intro h
    have := congrArg V3.y h
    simp only [at00, at11, p1, look, lin] at this
    norm_num at this
  · intro _
    simp only [List.forall_mem_cons]
    refine ⟨⟨?_, ?_, by simp⟩, ⟨?_, ?_, by simp⟩, by simp⟩ <;>
      simp only [at00, at11, p1, look, lin] <;> norm_num
  · intro h
    simp at h

/-- With the right feature of the second frame the merged landmark would be exact. -/
theorem exact_right : ShowsExactly world R6 [(0, 0), (1, 0), (2, 0)] X := by
  refine ⟨[at00, at10, at20], .cons ⟨_, rfl, rfl, rfl⟩ (.cons ⟨_, rfl, rfl, rfl⟩ as20), ⟨?_, ?_, ?_, ?_⟩, ?_, ?_⟩
  · simp only [List.forall_mem_cons]
    exact ⟨rigid00, rigid10, rigid20, by simp⟩
  · simp only [List.forall_mem_cons]
    exact ⟨looks00 4 (by norm_num), looks10, looks20, by simp⟩
  · intro h
    have := congrArg V3.z h
    simp only [X, lin] at this
    norm_num at this
  · refine ⟨at00, by simp, at10, by simp, ?_⟩
    intro h
    have := congrArg V3.y h
    simp only [at00, at10, p1, look, lin] at this
    norm_num at this
  · intro h
    simp at h
  · intro _
    simp only [List.forall_mem_cons]
    refine ⟨?_, ?_, ?_, by simp⟩ <;> simp only [at00, at10, at20, p1, p2, look, X, lin] <;> norm_num

/-- With the wrong feature no point is seen by the three cameras. -/
theorem wrong (x : V3 ℝ) : ¬ ShowsExactly world R6 [(0, 0), (1, 1), (2, 0)] x := by
  rintro ⟨pbs, hs, he, _⟩
  have hp : pbs = [at00, at11, at20] :=
    seenAs_unique hs (.cons ⟨_, rfl, rfl, rfl⟩ (.cons ⟨_, rfl, rfl, rfl⟩ as20))
  subst hp
  obtain ⟨_, a, _, h1⟩ := he.looks at00 (by simp)
  obtain ⟨_, b, _, h2⟩ := he.looks at11 (by simp)
  obtain ⟨_, c, _, h3⟩ := he.looks at20 (by simp)
  have x1 := congrArg V3.x h1
  have z1 := congrArg V3.z h1
  have x2 := congrArg V3.x h2
  have z2 := congrArg V3.z h2
  have x3 := congrArg V3.x h3
  have z3 := congrArg V3.z h3
  simp only [at00, at11, at20, p1, p2, look, lin] at x1 z1 x2 z2 x3 z3
  linarith

end
end Verif.Sfm.ExLoss

namespace Verif.Sfm

open Verif.Geo ExLoss

/-- **C94** "Choose the best observation" is false: both landmarks are consistent in themselves, so that both losses are
zero, and the wrong observation is kept. The merged landmark then shows no point, although with the other observation,
which was split off, it would show one exactly. -/
theorem C94_best_false (high : Bool) : ∃ d : Data (Iso ℝ), ∃ R, Reachable d ∧ d.recons.get 0 = some R ∧
    UnitBearings world ∧ CompleteTriangulator world.triangulate ∧ BearingsComplete world R ∧
    ∃ d' R', d.mergeDedup (lossRank world high) 0 0 1 = some (d', some 0) ∧ d'.recons.get 0 = some R' ∧
      R.Observes 0 1 1 ∧ R.Observes 1 1 0 ∧
      R'.landmarks.get 0 = some ⟨[(0, 0), (1, 1), (2, 0)]⟩ ∧ R'.landmarks.get 1 = none ∧
      (∀ x, ¬ ShowsExactly world R [(0, 0), (1, 1), (2, 0)] x) ∧
      ∃ x, ShowsExactly world R [(0, 0), (1, 0), (2, 0)] x := by
  refine ⟨d6, R6, reach6, get6, unit, completeTri, complete, ?_⟩
  have hc := (reachable_consistent reach6).recons 0 R6 get6
  have a1 : R6.Assigned 1 1 0 := (hc.agree _ _ _).mpr ⟨_, first6, rfl⟩
  have a2 : R6.Assigned 1 0 1 := (hc.agree _ _ _).mpr ⟨_, second6, rfl⟩
  have m1 := misfit_exact completeTri exact_first (o := (1, 1)) (by simp)
  obtain ⟨y, _, my⟩ := observationLoss_some hc complete second6 a2
  have hle : lossRank world high R6 1 1 ≤ lossRank world high R6 1 0 := by
    rw [lossRank_le_iff hc complete high first6 second6 a1 a2 m1 my]
    cases y with
    | some z => exact (misfit_range unit my).1
    | none =>
      exfalso
      cases my with
      | nowhere h => simp at h
  obtain ⟨R', h1, h2, h3⟩ : ∃ R', R6.mergeDedup (lossRank world high) 0 1 = some (R', some 0) ∧
      R'.landmarks.get 0 = some ⟨[(0, 0), (1, 1), (2, 0)]⟩ ∧ R'.landmarks.get 1 = none := by
    have hw : Recon.worstOf (lossRank world high) R6 1 1 0 = 0 := if_pos hle
    have hd : Recon.dups ⟨[(0, 0), (1, 1)]⟩ ⟨[(1, 0), (2, 0)]⟩ = [(1, 1, 0)] := rfl
    unfold Recon.mergeDedup
    rw [first6, second6]
    simp only [hd, Recon.dedupLoop, hw]
    exact ⟨_, rfl, rfl, rfl⟩
  obtain ⟨d', x, R'', k1, _, k2, _, _, _, _, k3, _⟩ :=
    Data.mergeDedup_ok (lossRank world high) (reachable_consistent reach6) get6 ⟨_, first6⟩ ⟨_, second6⟩
  rw [h1] at k2
  cases k2
  exact ⟨d', R', k1, k3, ⟨_, first6, rfl⟩, ⟨_, second6, rfl⟩, h2, h3, wrong, X, exact_right⟩

/-- The hypotheses of `C94_exact_wins` are met by the same landmark. -/
example : ∃ d' R' y, d6.mergeDedup (lossRank world true) 0 0 1 = some (d', y) ∧ d'.recons.get 0 = some R' ∧
    ∀ v f, (⟨[(0, 0), (1, 1)]⟩ : Landmark).get v = some f → R'.Observes 0 v f :=
  C94_exact_wins reach6 get6 complete unit completeTri true (Or.inl rfl) (by decide) first6 second6 exact_first

end Verif.Sfm
