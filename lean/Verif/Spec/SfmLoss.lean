import Verif.Model.SfmLoss
import Verif.Spec.SfmFilter
import Verif.Spec.SfmStartGeo

/-!
# Specification: how badly an observation fits

An observation is a view and a feature of its frame.
-/

namespace Verif.Sfm

open Verif.Geo

variable {C : Type}

/-- How badly the observation `o` fits a landmark with the observations `obs`: 2 for a single one; one minus the cosine for
two bearings whose sine distance (in the space of the second camera) is `s`; for three and more the cosine distance
between the bearing and the triangulated point, or 2 if there is none.  `none` is a result that is not a number: the
point is the centre of the camera. -/
inductive Misfit (W : World C) (R : Recon (Iso ℝ)) (obs : List (Nat × Nat)) (o : Nat × Nat) : Option ℝ → Prop where
  | single : obs.length = 1 → Misfit W R obs o (some 2)
  | pair {a b : Iso ℝ × V3 ℝ} {s : ℝ} : SeenAs W R obs [a, b] →
      s = epipolarLoss (b.1.mul a.1.inv).t ((b.1.mul a.1.inv).rot.mulVec a.2) b.2 →
      Misfit W R obs o (some (1 - Real.sqrt (1 - s ^ 2)))
  | lost {pbs : List (Iso ℝ × V3 ℝ)} : 3 ≤ obs.length → SeenAs W R obs pbs → W.triangulate pbs = none →
      Misfit W R obs o (some 2)
  | far {pbs : List (Iso ℝ × V3 ℝ)} {p q : V4 ℝ} {c : Iso ℝ × V3 ℝ} : 3 ≤ obs.length → SeenAs W R obs pbs →
      W.triangulate pbs = some p → SeenAs W R [o] [c] → transform c.1 p = some q →
      Misfit W R obs o (some (1 - (bearing q).dot c.2))
  | nowhere {pbs : List (Iso ℝ × V3 ℝ)} {p : V4 ℝ} {c : Iso ℝ × V3 ℝ} : 3 ≤ obs.length → SeenAs W R obs pbs →
      W.triangulate pbs = some p → SeenAs W R [o] [c] → transform c.1 p = none → Misfit W R obs o none

/-- A loss is not worse than another.  `high` says whether what is not a number counts as the highest or lowest value. -/
def NotWorse (high : Bool) : Option ℝ → Option ℝ → Prop
  | some x, some y => x ≤ y
  | some _, none => high = true
  | none, some _ => high = false
  | none, none => True

/-- The observations show the point `x` exactly and from different directions, and no camera looks more than 90 degrees
away from another (two observations) or from the direction in which the origin sees the point (three and more). -/
def ShowsExactly (W : World C) (R : Recon (Iso ℝ)) (obs : List (Nat × Nat)) (x : V3 ℝ) : Prop :=
  ∃ pbs, SeenAs W R obs pbs ∧ ExactlySeen pbs x ∧
    (obs.length = 2 → ∀ o ∈ pbs, ∀ o' ∈ pbs, 0 ≤ (o.1.inv.rot.mulVec o.2).dot (o'.1.inv.rot.mulVec o'.2)) ∧
    (3 ≤ obs.length → ∀ o ∈ pbs, 0 ≤ (o.1.inv.rot.mulVec o.2).dot x)

/-- The triangulator never returns the centre of one of the cameras. -/
def NeverCentre (tri : List (Iso ℝ × V3 ℝ) → Option (V4 ℝ)) : Prop :=
  ∀ l p, tri l = some p → ∀ o ∈ l, transform o.1 p ≠ none

end Verif.Sfm
