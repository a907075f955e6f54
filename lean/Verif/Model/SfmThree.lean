import Verif.Model.SfmGeometry
import Verif.Model.Optimize
import Mathlib.Data.List.Sort

/-!
# cv-sfm: the poses of a three-view constraint

Source: /repo/cv-sfm/src/lib.rs 1957-2060, the numeric part of `optimize_three_view`.  The choice of the views and
landmarks is in `Model/SfmOps`; this file replaces the answer `optimise` assumed there by the computation of the
program.  The outer `none` is a panic.
-/

namespace Verif.Sfm

open Verif.Geo

variable {C : Type}

/-- The settings of the three-view optimisation. -/
structure ThreeSettings where
  /-- `optimization_maximum_landmarks` -/
  maxLandmarks : Nat
  /-- `robust_view_bearing_pair_minimum_cosine_distance` -/
  pairCosine : ℝ
  /-- `robust_view_num_robust_bearing_pair` -/
  minPairs : Nat
  /-- `constraint_patience`, passed as the number of iterations -/
  patience : Nat

/-- lib.rs 1994-1998: the bearing under which a view sees a landmark. -/
def bearingFrom (W : World C) (R : Recon (Iso ℝ)) (l v : Nat) : Option (V3 ℝ) := do
  let V ← R.views.get v
  let L ← R.landmarks.get l
  let f ← L.get v
  W.bearing V.frame f

/-- lib.rs 1991-2000: the three bearings of a landmark. -/
def threeBearings (W : World C) (R : Recon (Iso ℝ)) (v : Nat × Nat × Nat) (l : Nat) : Option Bearings := do
  let a ← bearingFrom W R l v.1
  let b ← bearingFrom W R l v.2.1
  let c ← bearingFrom W R l v.2.2
  pure ⟨a, b, c⟩

/-- lib.rs 1977-1984: the number of observations of a landmark, zero for one that is not there (the program panics;
`C89_no_panic` shows that there is none). -/
def numObservations (R : Recon (Iso ℝ)) (l : Nat) : Nat := ((R.landmarks.get l).map (fun L => L.entries.length)).getD 0

/-- lib.rs 1974-1984: most observations first.  The program shuffles the landmarks and sorts with an unstable sort: every
result of that is a stable sort after some shuffle. -/
def mostObserved (R : Recon (Iso ℝ)) (ls : List Nat) : List Nat :=
  ls.insertionSort (fun a b => numObservations R b ≤ numObservations R a)

/-- lib.rs 2027-2036: the two landmarks are seen far enough apart by each of the views. -/
noncomputable def pairRobust (t : ThreeSettings) (a b : Bearings) : Bool :=
  decide (1 - a.center.dot b.center > t.pairCosine) && decide (1 - a.first.dot b.first > t.pairCosine) &&
    decide (1 - a.second.dot b.second > t.pairCosine)

/-- lib.rs 1957-2060; `some none` if the optimisation is rejected.  If both optimised translations are zero, the scale of
lines 2047-2052 and with it the two poses of the program are not numbers; the model has no such poses and rejects. -/
noncomputable def threeViewPoses (W : World C) (t : ThreeSettings) (shuffle : List Nat → List Nat) (R : Recon (Iso ℝ))
    (v : Nat × Nat × Nat) (ls : List Nat) : Option (Option (Iso ℝ × Iso ℝ)) := do
  let V0 ← R.views.get v.1
  let V1 ← R.views.get v.2.1
  let V2 ← R.views.get v.2.2
  let ms ← ((mostObserved R (shuffle ls)).take t.maxLandmarks).mapM (threeBearings W R v)
  let first := V1.pose.mul V0.pose.inv
  let second := V2.pose.mul V0.pose.inv
  if ((combinations ms).filter (fun p => pairRobust t p.1 p.2)).length < t.minPairs then pure none
  else
    let q := threeViewAdaptive (first, second) t.patience ms
    let final := q.1.t.norm + q.2.t.norm
    if final = 0 then pure none
    else
      let k := (first.t.norm + second.t.norm) / final
      pure (some (q.1.scale k, q.2.scale k))

/-- The oracle whose three-view optimisation is that of the program; the other answers are those of `ω`.  A lookup that
panics in the program is given an arbitrary value: `C89_no_panic` shows that there is none. -/
noncomputable def threeOracle (W : World C) (t : ThreeSettings) (shuffle : List Nat → List Nat) (ω : Oracle (Iso ℝ)) :
    Oracle (Iso ℝ) :=
  { ω with optimise := fun R v ls => (threeViewPoses W t shuffle R v ls).getD none }

end Verif.Sfm
