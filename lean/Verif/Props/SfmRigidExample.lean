import Verif.Props.SfmRigid
import Verif.Props.SfmPipelineExample

/-!
# C95: a history meeting the hypotheses

Three frames of the scene of C92 are added, which starts a reconstruction. Then the poses are optimised.
-/

namespace Verif.Sfm.ExStart

open Verif.Geo

noncomputable section

/-- The numeric steps of the program. -/
def stepping : Oracle (Iso ℝ) := threeOracle world ⟨1, 1, 1, 1⟩ id ExExact.exactOracle

theorem steppingThree : ThreeViewBy world stepping := ⟨⟨1, 1, 1, 1⟩, id, fun _ => .refl _, rfl⟩
theorem steppingFair : stepping.Fair := ⟨fun _ => .refl _, fun _ => .refl _⟩

/-- Placing a frame: the search returns the first three features of a view. -/
def placing3 : TopOracle (Iso ℝ) where
  ro _ := ExPose.order
  knn R _ _ v := match R.views.get v with
    | none => []
    | some V => if 3 ≤ V.landmarks.length then [(0, 0), (1, 0), (2, 0)] else []
  order := byObservations
  judge := geoJudge world ⟨1, 1⟩ ⟨1, 1, 1, 1, 1⟩ (fun _ => none)
  record := stepping
  merge _ := stepping
  tr a b p := p.mul (fromCameraPoses a b).inv
  opt _ _ := stepping
  filt _ := stepping

theorem placingProgram : placing3.ByProgram world where
  judge := by refine ⟨_, _, _, ⟨?_, ?_⟩, rfl⟩ <;> (intro ws pose is h; cases h)
  record := steppingThree
  merge _ := steppingThree
  tr _ _ _ := rfl
  opt _ _ := ⟨_, rfl⟩

theorem placingFair : placing3.Fair where
  ro _ := ExPose.orderFair
  range R frame f v V hV e he := by
    simp only [placing3, hV] at he
    split at he
    · rename_i h
      simp at he
      rcases he with rfl | rfl | rfl <;> (simp only; omega)
    · cases he
  three R frame f v V hV h := by
    simp only [placing3, hV]
    rw [if_pos h]
    decide
  order R l := List.perm_insertionSort _ _
  record := steppingFair
  merge _ := steppingFair
  finite _ _ := constrainPose_finite rfl

theorem addingProgram : (adding placing3).ByProgram world where
  first _ := placingProgram
  second _ := placingProgram
  start d := by
    refine ⟨_, _, rfl, ?_⟩
    split
    · intro a b ms x hx
      cases hx
      exact rigid_scale ((pictured.seen.rigid _).mul (pictured.seen.rigid _).inv) _
    · intro a b ms x hx
      cases hx
  idp := rfl

theorem addingFair : (adding placing3).Fair where
  similarOnce d f := (exactFrame topSettings).similarOnce d f
  similarLive d f g h := (exactFrame topSettings).similarLive d f g h
  sort l := .refl _
  first _ := placingFair
  second _ := placingFair
  start d := by
    obtain ⟨geo, o', e, h, _⟩ := (exactFrame topSettings).start d
    rw [show (adding placing3).start d = (adding placing).start d from rfl, e]
    exact startGeo_fair h
  searches d := by
    obtain ⟨geo, o', e, _, h, _⟩ := (exactFrame topSettings).start d
    rw [show (adding placing3).start d = (adding placing).start d from rfl, e]
    exact h

theorem sane : topSettings.Sane := ⟨by decide, by decide, by decide⟩

theorem geoHistory3 : GeoHistory world topSettings d3 := by
  have h1 : GeoHistory world topSettings d1 := .call (c := .addFeed) .new trivial trivial rfl
  have h2 : GeoHistory world topSettings d2 := by
    have a : d1.addFrame 0 32 = some d2 := rfl
    refine .call (c := .addFrame (adding placing3) 0 32) h1 ⟨addingFair, _, rfl⟩ addingProgram ?_
    simp only [Call.run]
    rw [quiet placing3 a (by decide) rfl rfl rfl]
    rfl
  have a : d2.addFrame 0 32 = some d3 := rfl
  refine .call (c := .addFrame (adding placing3) 0 32) h2 ⟨addingFair, _, rfl⟩ addingProgram ?_
  simp only [Call.run]
  rw [quiet placing3 a (by decide) rfl rfl rfl]
  rfl

theorem geoHistory4 : ∃ d r R, GeoHistory world topSettings d ∧ d.recons.get r = some R ∧
    ∃ V, R.views.get 2 = some V ∧ V.frame = 0 := by
  obtain ⟨d', r, R, hrun, hR, hV⟩ := run3 placing3
  refine ⟨d', r, R, .call (c := .addFrame (adding placing3) 0 32) geoHistory3 ⟨addingFair, _, rfl⟩ addingProgram ?_, hR, hV⟩
  simp only [Call.run]
  rw [hrun]
  rfl

/-- C95: the hypotheses of `C95_rigid` and `C95_motion` hold in a history that starts a reconstruction. -/
example : ∃ d r R V, GeoHistory world topSettings d ∧ d.recons.get r = some R ∧ R.views.get 2 = some V ∧ V.frame = 0 ∧
    V.pose.Rigid := by
  obtain ⟨d, r, R, h, hR, V, hV, hf⟩ := geoHistory4
  exact ⟨d, r, R, V, h, hR, hV, hf, (C95_rigid h hR).1 2 V hV⟩

/-- C95: those of `C95_returns`: the reconstruction is optimised. -/
example : ∃ d r d', GeoHistory world topSettings d ∧ (∃ R, d.recons.get r = some R) ∧
    (Call.optimize (S := ℝ) (fun _ _ => stepping) (fun _ => stepping) r).run topSettings d = some d' ∧
    GeoHistory world topSettings d' := by
  obtain ⟨d, r, R, h, hR, _⟩ := geoHistory4
  obtain ⟨d', h1, h2, _⟩ := C95_returns sane h (c := .optimize (fun _ _ => stepping) (fun _ => stepping) r)
    ⟨fun _ _ => constrainPose_finite rfl, R, hR⟩ (fun _ _ => ⟨_, rfl⟩)
  exact ⟨d, r, d', h, ⟨R, hR⟩, h1, h2⟩

/-- C95: those of `C95_pose_data`. -/
example : ∃ d r R, GeoHistory world topSettings d ∧ d.recons.get r = some R ∧ PoseData world R := by
  obtain ⟨d, r, R, h, hR, _⟩ := geoHistory4
  exact ⟨d, r, R, h, hR, C95_pose_data sane h (fun f n b e => (pictured.seen.looks f n b e).1) pictured.cosine (fun f _ _ n _ => pictured.every f n) hR⟩

end

end Verif.Sfm.ExStart
