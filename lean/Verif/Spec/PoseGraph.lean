import Verif.Model.PoseGraph
import Verif.Spec.SfmGeometry

/-!
# Specification: optimising the poses
-/

namespace Verif.Sfm

open Verif.Geo

variable {P : Type}

/-- The reconstruction with its cameras at other poses. -/
def Recon.placed (R : Recon P) (Y : Nat → P) : Recon P :=
  { R with views := ⟨⟨R.views.map.entries.map (fun e => (e.1, { e.2 with pose := Y e.1 }))⟩, R.views.next⟩ }

/-- The pose of a view. -/
noncomputable def Recon.poseAt (R : Recon (Iso ℝ)) (v : Nat) : Iso ℝ := ((R.views.get v).map View.pose).getD Iso.one

/-- Where a camera is in the world. -/
def centre (X : Iso ℝ) : V3 ℝ := X.inv.point V3.zero

/-- The motions a constraint asks for, as `(to, from, motion)`: with the poses of its three views relative to the first,
the motion from one view to another is the pose of the latter after undoing that of the former. -/
def Constraint.asks (c : Constraint (Iso ℝ)) : List (Nat × Nat × Iso ℝ) :=
  let p0 : Iso ℝ := Iso.one
  let p1 := c.first
  let p2 := c.second
  [(c.v0, c.v1, p0.mul p1.inv), (c.v1, c.v0, p1.mul p0.inv), (c.v0, c.v2, p0.mul p2.inv), (c.v2, c.v0, p2.mul p0.inv),
    (c.v1, c.v2, p1.mul p2.inv), (c.v2, c.v1, p2.mul p1.inv)]

/-- All the motions the constraints of a reconstruction ask for. -/
def Recon.asks (R : Recon (Iso ℝ)) : List (Nat × Nat × Iso ℝ) :=
  (R.constraints.map.entries.map Prod.snd).flatMap Constraint.asks

/-- By how much cameras at the poses `X` disagree with the motions asked for: the squared distances between where the
cameras are and where they are asked to be. -/
noncomputable def disagreement (asks : List (Nat × Nat × Iso ℝ)) (X : Nat → Iso ℝ) : ℝ :=
  (asks.map (fun a => ((centre (X a.1)).sub (centre (a.2.2.mul (X a.2.1)))).normSq)).sum

/-- The orientations of the cameras are the ones asked for. -/
def Oriented (asks : List (Nat × Nat × Iso ℝ)) (X : Nat → Iso ℝ) : Prop :=
  ∀ a ∈ asks, (X a.1).rot = a.2.2.rot.mul (X a.2.1).rot

/-- All constraints are made of rotations and translations. -/
def RigidConstraints (R : Recon (Iso ℝ)) : Prop := ∀ k c, R.constraints.get k = some c → c.first.Rigid ∧ c.second.Rigid

/-- The reconstruction can be optimised without losing a view: it has three views or more and every view is in a
constraint. -/
structure Recon.Constrained (R : Recon P) : Prop where
  three : 3 ≤ R.views.size
  all : ∀ v, R.LiveView v → ∃ k c, R.constraints.get k = some c ∧ (c.v0 = v ∨ c.v1 = v ∨ c.v2 = v)

/-- How many constraints name a view. -/
def Recon.constraintCount (R : Recon P) (v : Nat) : Nat :=
  ((R.constraints.map.entries.map Prod.snd).filter (fun c => c.v0 = v ∨ c.v1 = v ∨ c.v2 = v)).length

/-- The sum of all camera centres. -/
noncomputable def Recon.sumOfCentres (R : Recon (Iso ℝ)) : V3 ℝ :=
  ⟨(R.views.keys.map (fun v => (centre (R.poseAt v)).x)).sum, (R.views.keys.map (fun v => (centre (R.poseAt v)).y)).sum,
    (R.views.keys.map (fun v => (centre (R.poseAt v)).z)).sum⟩

/-- The data with one reconstruction replaced. -/
def Data.withRecon (d : Data P) (r : Nat) (R : Recon P) : Data P := { d with recons := d.recons.modify r (fun _ => R) }

end Verif.Sfm
