import Verif.Model.SfmFilter
import Verif.Spec.SfmGeometry

/-!
# Specification: which observations a filter keeps

An observation is a view and a feature of its frame.
-/

namespace Verif.Sfm

open Verif.Geo

variable {C : Type}

/-- The cameras and bearings of a list of observations. -/
def SeenAs (W : World C) (R : Recon (Iso ℝ)) (obs : List (Nat × Nat)) (pbs : List (Iso ℝ × V3 ℝ)) : Prop :=
  List.Forall₂ (fun o p => ∃ V, R.views.get o.1 = some V ∧ V.pose = p.1 ∧ W.bearing V.frame o.2 = some p.2) obs pbs

/-- Two bearings meet up to the limit: the sine distance in the space of the second camera is below it. -/
def Meet (lim : Limits) (a b : Iso ℝ × V3 ℝ) : Prop :=
  epipolarLoss (b.1.mul a.1.inv).t ((b.1.mul a.1.inv).rot.mulVec a.2) b.2 < lim.maxSine

/-- The camera sees the point farther than the limit from the bearing. -/
def FarFrom (lim : Limits) (p : V4 ℝ) (a : Iso ℝ × V3 ℝ) : Prop :=
  ∃ q, transform a.1 p = some q ∧ lim.maxCosine < 1 - (bearing q).dot a.2

/-- The observation `o` fits the landmark with the observations `obs`: a single one always does; two do when their
bearings meet; three or more can be triangulated and the point is not too far from the bearing of `o`. -/
def Fits (W : World C) (lim : Limits) (R : Recon (Iso ℝ)) (obs : List (Nat × Nat)) (o : Nat × Nat) : Prop :=
  obs.length = 1 ∨
  (∃ a b, SeenAs W R obs [a, b] ∧ Meet lim a b) ∨
  (3 ≤ obs.length ∧ ∃ pbs p pb, SeenAs W R obs pbs ∧ W.triangulate pbs = some p ∧ SeenAs W R [o] [pb] ∧
    ¬ FarFrom lim p pb)

/-- `R'` arises from `R` by keeping in each landmark the observations with the property `keep`, or one observation if
there are none, and by giving each other observation a new landmark of its own. -/
structure Sorted (R R' : Recon (Iso ℝ)) (keep : Landmark → Nat × Nat → Prop) : Prop where
  kept : ∀ l L, R.landmarks.get l = some L → ∃ L', R'.landmarks.get l = some L' ∧
    ((∃ o ∈ L.entries, keep L o) → ∀ o, o ∈ L'.entries ↔ o ∈ L.entries ∧ keep L o) ∧
    ((¬ ∃ o ∈ L.entries, keep L o) → ∃ o ∈ L.entries, L'.entries = [o]) ∧
    ∀ o ∈ L.entries, o ∉ L'.entries → ∃ m, R.landmarks.get m = none ∧ R'.landmarks.get m = some ⟨[o]⟩
  new : ∀ m M, R.landmarks.get m = none → R'.landmarks.get m = some M → ∃ l L o, R.landmarks.get l = some L ∧
    o ∈ L.entries ∧ M.entries = [o]
  views : ∀ v, (R'.views.get v).map (fun V => (V.frame, V.pose, V.landmarks.length)) =
    (R.views.get v).map (fun V => (V.frame, V.pose, V.landmarks.length))
  constraints : R'.constraints = R.constraints

/-- The frames of the views have bearings of all their features. -/
def BearingsComplete (W : World C) (R : Recon (Iso ℝ)) : Prop :=
  ∀ v V f, R.views.get v = some V → f < V.landmarks.length → ∃ b, W.bearing V.frame f = some b

/-- The number of robust landmarks is at least `n`: there are `n` different ones. -/
def AtLeastRobust (W : World C) (R : Recon (Iso ℝ)) (n : Nat) : Prop :=
  ∃ ls : List Nat, ls.Nodup ∧ n ≤ ls.length ∧ ∀ l ∈ ls, ∃ L, R.landmarks.get l = some L ∧ Robust W R L.entries

end Verif.Sfm
