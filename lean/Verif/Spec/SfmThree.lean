import Verif.Model.SfmThree
import Verif.Spec.SfmFilter
import Verif.Spec.PoseGraph
import Verif.Spec.Triangulate
import Mathlib.Data.Finset.Prod
import Mathlib.Data.Finset.Card

/-!
# Specification: the poses of a three-view constraint
-/

namespace Verif.Sfm

open Verif.Geo

variable {C : Type}

/-- The view sees the landmark along the bearing. -/
def SeesAlong (W : World C) (R : Recon (Iso ℝ)) (l v : Nat) (b : V3 ℝ) : Prop :=
  ∃ V f, R.views.get v = some V ∧ R.Observes l v f ∧ W.bearing V.frame f = some b

/-- The bearings under which three views see a landmark. -/
def SeenByThree (W : World C) (R : Recon (Iso ℝ)) (v : Nat × Nat × Nat) (l : Nat) (o : Bearings) : Prop :=
  SeesAlong W R l v.1 o.center ∧ SeesAlong W R l v.2.1 o.first ∧ SeesAlong W R l v.2.2 o.second

/-- `n` of the landmarks `ls` with the most observations (all of them if there are fewer). -/
structure MostObserved (R : Recon (Iso ℝ)) (ls : List Nat) (n : Nat) (chosen : List Nat) : Prop where
  nodup : chosen.Nodup
  from_ls : ∀ l ∈ chosen, l ∈ ls
  number : chosen.length = min n ls.length
  best : ∀ l ∈ chosen, ∀ m ∈ ls, m ∉ chosen → ∀ L M, R.landmarks.get l = some L → R.landmarks.get m = some M →
    M.entries.length ≤ L.entries.length

/-- Each of the three views sees the two landmarks in sufficiently different directions. -/
def Apart (t : ThreeSettings) (a b : Bearings) : Prop :=
  1 - a.center.dot b.center > t.pairCosine ∧ 1 - a.first.dot b.first > t.pairCosine ∧
    1 - a.second.dot b.second > t.pairCosine

open Classical in
/-- The number of pairs of landmarks that are seen apart. -/
noncomputable def apartPairs (t : ThreeSettings) (ms : List Bearings) : Nat :=
  ((Finset.range ms.length ×ˢ Finset.range ms.length).filter (fun p => p.1 < p.2 ∧
    ∃ a b, ms[p.1]? = some a ∧ ms[p.2]? = some b ∧ Apart t a b)).card

/-- What is assumed: three views that see all the landmarks. -/
structure ThreeData (W : World C) (R : Recon (Iso ℝ)) (v : Nat × Nat × Nat) (ls : List Nat) : Prop where
  cons : R.Consistent
  complete : BearingsComplete W R
  rigid : RigidPoses R
  live0 : R.LiveView v.1
  live1 : R.LiveView v.2.1
  live2 : R.LiveView v.2.2
  seen : ∀ l ∈ ls, (∃ f, R.Observes l v.1 f) ∧ (∃ f, R.Observes l v.2.1 f) ∧ ∃ f, R.Observes l v.2.2 f
  nodup : ls.Nodup

/-- The observations of the landmark are exact: its cameras see one point `x`. -/
def ExactAt (W : World C) (R : Recon (Iso ℝ)) (l : Nat) (x : V3 ℝ) : Prop :=
  ∀ v f V b, R.Observes l v f → R.views.get v = some V → W.bearing V.frame f = some b → Looks V.pose b x

/-- All observations are exact. -/
def ExactObservations (W : World C) (R : Recon (Iso ℝ)) : Prop := ∀ l, R.LiveLandmark l → ∃ x, ExactAt W R l x

/-- The three views are not all at one place. -/
def Spread (R : Recon (Iso ℝ)) (v : Nat × Nat × Nat) : Prop :=
  ∀ V0 V1 V2, R.views.get v.1 = some V0 → R.views.get v.2.1 = some V1 → R.views.get v.2.2 = some V2 →
    ¬ (centre V1.pose = centre V0.pose ∧ centre V2.pose = centre V0.pose)

end Verif.Sfm
