import Verif.Spec.SfmPipeline

/-!
# Specification: calls that use the computations of the program

No assumption on the pictures or on the matches: features may be matched wrongly, and observations may be noisy. Only the
numeric steps are those of the program, in exact arithmetic.
-/

namespace Verif.Sfm

open Verif.Geo

variable {C : Type}

/-- The poses returned by the consensus at the start are rigid motions (C42 and C46 for the two estimators). -/
def RigidConsensus (o : StartOracle (Iso ℝ) ℝ) : Prop := ∀ a b ms x, o.consensus a b ms = some x → x.1.Rigid

/-- Placing a frame: pose estimation, constraints, transformation in a merger and optimisation are those of the program. -/
structure TopOracle.ByProgram (W : World C) (o : TopOracle (Iso ℝ)) : Prop where
  judge : ∃ lim ps consensus, ConsensusFair consensus ∧ o.judge = geoJudge W lim ps consensus
  record : ThreeViewBy W o.record
  merge : ∀ i, ThreeViewBy W (o.merge i)
  tr : ∀ a b p, o.tr a b p = p.mul (fromCameraPoses a b).inv
  opt : ∀ i j, ∃ rate, (o.opt i j).constrain = constrainPose rate

/-- Adding a frame. -/
structure FrameOracle.ByProgram (W : World C) (o : FrameOracle (Iso ℝ) ℝ) : Prop where
  first : ∀ i, (o.first i).ByProgram W
  second : ∀ i, (o.second i).ByProgram W
  start : ∀ d, ∃ geo o', o.start d = startGeo W geo o' ∧ RigidConsensus o'
  idp : o.idp = Iso.one

/-- A call of a public method. A transformation passed by the caller is a rigid motion. -/
def Call.ByProgram (W : World C) (d : Data (Iso ℝ)) : Call (Iso ℝ) ℝ → Prop
  | .addFrame o _ _ => o.ByProgram W
  | .incorporateReconstruction ω tr _ _ _ => (∀ i, ThreeViewBy W (ω i)) ∧
      ∃ T : Iso ℝ, T.Rigid ∧ tr = fun p => p.mul T.inv
  | .normalize f g r => ∃ (a : ℝ) (R : Recon (Iso ℝ)) (v : Nat) (V : View (Iso ℝ)), d.recons.get r = some R ∧
      R.views.get v = some V ∧ f = (fun p => (p.mul V.pose.inv).scale a) ∧ g = fun p => p.scale a
  | .optimize ω _ _ => ∀ i j, ∃ rate, (ω i j).constrain = constrainPose rate
  | .applyConstraints ω _ => ∀ i, ∃ rate, (ω i).constrain = constrainPose rate
  | .regenerate ω ω' _ _ => (∀ i, ThreeViewBy W (ω i)) ∧ ∀ i j, ∃ rate, (ω' i j).constrain = constrainPose rate
  | _ => True

/-- States reached from the empty data by calls that keep the contract `Call.Ok` of the program's parameters and use the
computations of the program. -/
inductive GeoHistory (W : World C) (s : TopSettings) : Data (Iso ℝ) → Prop where
  | new : GeoHistory W s Data.empty
  | call {d d' : Data (Iso ℝ)} {c : Call (Iso ℝ) ℝ} : GeoHistory W s d → c.Ok d → c.ByProgram W d →
      c.run s d = some d' → GeoHistory W s d'

end Verif.Sfm
