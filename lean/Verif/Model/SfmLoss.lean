import Verif.Model.SfmFilter
import Mathlib.Data.EReal.Basic
import Mathlib.Analysis.SpecialFunctions.Trigonometric.Inverse

/-!
# cv-sfm: the loss of an observation

Source: /repo/cv-sfm/src/lib.rs 2570-2620.  The merge that uses it is in `Model/SfmOps`; this file replaces the ranks
assumed there by the computation of the program.  The outer `none` is a panic, the inner one a value that is not a number.
-/

namespace Verif.Sfm

open Verif.Geo

variable {C : Type}

/-- lib.rs 2590-2611: the loss of a landmark with two observations.  The sine distance is turned into a cosine distance. -/
noncomputable def pairLoss (a b : Iso ℝ × V3 ℝ) : ℝ :=
  let total := b.1.mul a.1.inv
  1 - Real.cos (Real.arcsin (epipolarLoss total.t (total.rot.mulVec a.2) b.2))

/-- lib.rs 2570-2620 `observation_loss`.  The cameras and bearings of all observations are looked up, in the program only
those of landmarks with two and more. -/
noncomputable def observationLoss (W : World C) (R : Recon (Iso ℝ)) (v f : Nat) : Option (Option ℝ) := do
  let V ← R.views.get v
  let l ← V.landmarks[f]?
  let o ← poseBearing W R (v, f)
  let L ← R.landmarks.get l
  let pbs ← L.entries.mapM (poseBearing W R)
  match pbs with
  | [] => none
  | [_] => pure (some 2)
  | [a, b] => pure (some (pairLoss a b))
  | _ =>
    match W.triangulate pbs with
    | none => pure (some 2)
    | some p => pure (cosineDistance p o)

/-- The order of `FloatOrd`: what is not a number is above or below all numbers, depending on its sign. -/
noncomputable def lossKey (high : Bool) : Option ℝ → EReal
  | none => if high then ⊤ else ⊥
  | some x => (x : EReal)

/-- The rank of the loss among the features of the view, lib.rs 2847-2852.  A lookup that panics in the program is given an
arbitrary value: `C94_loss` shows that there is none. -/
noncomputable def lossRank (W : World C) (high : Bool) (R : Recon (Iso ℝ)) (v f : Nat) : Nat :=
  match R.views.get v with
  | none => 0
  | some V => ((List.range V.landmarks.length).filter (fun g =>
      decide (lossKey high ((observationLoss W R v g).getD none) < lossKey high ((observationLoss W R v f).getD none)))).length

end Verif.Sfm
